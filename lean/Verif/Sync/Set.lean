import Verif.Sync.Guard

/-!
# The protocol of making a shared state ready (proof infrastructure, no claims)
-/
namespace Itc
namespace Sync
open Core
section
variable {α φ δ χ : Type}

/-- The result with which an event makes state `p` ready. -/
def _root_.Itc.Sync.SEv.satOf (p : Nat) : SEv → Option Res
  | .sat _ q r => if q = p then some r else none
  | _ => none

/-- The results with which `p` was made ready, newest first. -/
def sats (log : List SEv) (p : Nat) : List Res := log.filterMap (SEv.satOf p)

/-- The stored outcome of a state that is not ready is empty. -/
def clean (d : SData α) (p : Nat) : Prop := (d.st p).status = .notSet → (d.st p).value = none ∧ (d.st p).exn = none

/-- The outcome `r` is stored in the state, which is not ready yet. -/
def setting (d : SData α) (p : Nat) (r : Res) : Prop :=
  (d.st p).status = .notSet ∧ match r with
    | .val w => (d.st p).value = (if (d.st p).isVoid then none else some w) ∧ (d.st p).exn = none
    | .exn e => (d.st p).value = none ∧ (d.st p).exn = some e

/-- What a state looks like given the results it was made ready with. -/
def outc (d : SData α) (p : Nat) : Prop :=
  match (d.st p).status with
  | .notSet => sats d.slog p = []
  | .ready => ∃ w, sats d.slog p = [.val w] ∧ (d.st p).value = (if (d.st p).isVoid then none else some w) ∧ (d.st p).exn = none
  | .error => ∃ e, sats d.slog p = [.exn e] ∧ (d.st p).value = none ∧ (d.st p).exn = some e

structure T2I (d : SData α) : Prop where
  free : ∀ p, d.lk (.guard p) = none → clean d p
  out : ∀ p, outc d p

def isSrSet : SFrame α φ → Prop
  | .srSet _ _ => True
  | _ => False

def T2P (d : SData α) (f : SFrame α φ) : Prop :=
  (∀ p r, f = .srSet p r → setting d p r) ∧ (¬ isSrSet f → ∀ p, gw p f = 1 → clean d p)

/-- Frames of steps that do not change the outcome of any state. -/
def special : SFrame α φ → Prop
  | .svChk _ _ => True
  | .srSet _ _ => True
  | _ => False

structure SameAt (d d' : SData α) (p : Nat) : Prop where
  status : (d'.st p).status = (d.st p).status
  value : (d'.st p).value = (d.st p).value
  exn : (d'.st p).exn = (d.st p).exn
  isVoid : p < d.nst → (d'.st p).isVoid = (d.st p).isVoid

theorem SameAt.of_eq {d d' : SData α} {p : Nat} (h : d'.st = d.st) : SameAt d d' p := by
  constructor <;> simp [h]

theorem SameAt.of_st {d d' : SData α} {p q : Nat} {x : FSt α} (h : d'.st = set d.st q x) (h1 : x.status = (d.st q).status)
    (h2 : x.value = (d.st q).value) (h3 : x.exn = (d.st q).exn) (h4 : q < d.nst → x.isVoid = (d.st q).isVoid) : SameAt d d' p := by
  by_cases hp : p = q
  · subst hp; constructor <;> simp only [h, set_same] <;> assumption
  · constructor <;> simp only [h, set_ne _ _ hp, implies_true]

theorem SameAt.of_mk {d d' : SData α} {p : Nat} {x : FSt α} (hi : T1I d) (h : d'.st = set d.st d.nst x) (h1 : x.status = .notSet)
    (h2 : x.value = none) (h3 : x.exn = none) : SameAt d d' p := by
  have h0 := hi.fresh d.nst (Nat.le_refl _)
  refine SameAt.of_st h ?_ ?_ ?_ (fun h => absurd h (Nat.lt_irrefl _)) <;> rw [h0] <;> assumption

theorem addW_st {d : SData α} {t : Nat} {s : SemId} {i : Nat} : (d.addWaiter t s i).1.st = d.st := by
  unfold SData.addWaiter; split <;> rfl

theorem addW_sats {d : SData α} {t : Nat} {s : SemId} {i p : Nat} : sats (d.addWaiter t s i).1.slog p = sats d.slog p := by
  unfold SData.addWaiter; split <;> rfl

theorem relLk_st {d : SData α} {L : Option Lk} : (d.relLk L).st = d.st := by cases L <;> rfl
theorem relLk_slog {d : SData α} {L : Option Lk} : (d.relLk L).slog = d.slog := by cases L <;> rfl

theorem quiet {run destroy : α → φ} {v : View} {d d' : SData α} {rv : Val} {f : SFrame α φ} {a : Act (STask α) (SFrame α φ)}
    (hi : T1I d) (h : SS run destroy v d rv f d' a) (hn : ¬ special f) (p : Nat) : SameAt d d' p ∧ sats d'.slog p = sats d.slog p := by
  cases h
  case swIn => exact ⟨SameAt.of_eq addW_st, addW_sats⟩
  case wfAdd => exact ⟨SameAt.of_eq addW_st, addW_sats⟩
  case swBefore => exact ⟨SameAt.of_eq relLk_st, by rw [relLk_slog]⟩
  case wfBefore => exact ⟨SameAt.of_eq relLk_st, by rw [relLk_slog]⟩
  all_goals first
    | exact absurd trivial hn
    | exact ⟨SameAt.of_eq rfl, rfl⟩
    | exact ⟨SameAt.of_st rfl rfl rfl rfl (fun _ => rfl), rfl⟩
    | exact ⟨SameAt.of_mk hi rfl rfl rfl rfl, rfl⟩

theorem SameAt.clean {d d' : SData α} {p : Nat} (h : SameAt d d' p) (hc : clean d p) : clean d' p := by
  intro h0
  rw [h.status] at h0
  rw [h.value, h.exn]; exact hc h0

theorem SameAt.setting {d d' : SData α} {p : Nat} {r : Res} (h : SameAt d d' p) (hp : p < d.nst) (hc : setting d p r) : setting d' p r := by
  refine ⟨by rw [h.status]; exact hc.1, ?_⟩
  have h2 := hc.2
  cases r <;> simp only [h.value, h.exn, h.isVoid hp] <;> exact h2

theorem SameAt.outc {d d' : SData α} {p : Nat} (hi : T1I d) (h : SameAt d d' p) (hs : sats d'.slog p = sats d.slog p) (hc : outc d p) :
    outc d' p := by
  have hp : p < d.nst ∨ (d.st p).status = .notSet := by
    by_cases hp : p < d.nst
    · exact .inl hp
    · right; rw [hi.fresh p (by omega)]
  simp only [Sync.outc, h.status, hs, h.value, h.exn] at hc ⊢
  rcases hp with hp | hp
  · rw [h.isVoid hp]; exact hc
  · rw [hp] at hc ⊢; exact hc

/-- The guard after a step. -/
theorem gok_free {p : Nat} {d d' : SData α} {t wf wa : Nat} (h : GOk p d d' t wf wa) (hf : d'.lk (.guard p) = none) (hle : wf ≤ 1) :
    d.lk (.guard p) = none ∨ wf = 1 := by
  by_contra hc
  push Not at hc
  obtain ⟨hc, hw⟩ := hc
  obtain ⟨u, hu⟩ := Option.ne_none_iff_exists'.1 hc
  by_cases hut : u = t
  · subst hut
    have := h.1
    simp [gown, one, hf, hu] at this
    omega
  · have := h.2 u hut
    simp [gown, one, hf, hu] at this

theorem gok_acq {p : Nat} {d d' : SData α} {t wf wa : Nat} (h : GOk p d d' t wf wa) (hw : wf ≠ 1) (hwa : 1 ≤ wa) (hle : wf ≤ 1) :
    d.lk (.guard p) = none := by
  have hwf : wf = 0 := by omega
  subst hwf
  obtain ⟨h1, h2⟩ := h
  have hd' : d'.lk (.guard p) = some t := by
    by_contra hc
    simp [gown, one, hc] at h1
    omega
  have hd : d.lk (.guard p) ≠ some t := by
    intro hc
    simp [gown, one, hc, hd'] at h1
    omega
  by_contra hc
  obtain ⟨u, hu⟩ := Option.ne_none_iff_exists'.1 hc
  have hut : u ≠ t := by rintro rfl; exact hd hu
  have := h2 u hut
  simp [gown, one, hu, hd'] at this
  exact hut this.symm

theorem gw_le (p : Nat) (g : SFrame α φ) : gw p g ≤ 1 := by
  cases g <;> first
    | exact Nat.zero_le _
    | exact one_le _
    | (rename_i w; cases w <;> first | exact Nat.zero_le _ | exact one_le _)
    | (rename_i w _; cases w <;> first | exact Nat.zero_le _ | exact one_le _)
    | (rename_i w _ _; cases w <;> first | exact Nat.zero_le _ | exact one_le _)
    | (rename_i w _ _ _; cases w <;> first | exact Nat.zero_le _ | exact one_le _)
    | (rename_i w _ _ _ _; cases w <;> first | exact Nat.zero_le _ | exact one_le _)
    | (rename_i w _ _ _ _ _; cases w <;> first | exact Nat.zero_le _ | exact one_le _)

theorem to_srSet {run destroy : α → φ} {v : View} {d d' : SData α} {rv : Val} {f : SFrame α φ} {a : Act (STask α) (SFrame α φ)}
    (h : SS run destroy v d rv f d' a) (hn : ¬ special f) (p r) : a ≠ .goto (.srSet p r) ∧ ∀ k, a ≠ .push (.srSet p r) k := by
  cases h
  case laRet K c => cases K <;> constructor <;> simp [laNext] <;> split <;> simp
  case laEnd K c => cases K <;> constructor <;> simp [laNext]
  all_goals first
    | exact absurd trivial hn
    | (constructor <;> intros <;> intro h <;> cases h)

theorem adj_gw {l : SFrame α φ} {f : SFrame α φ} (h : Adj (α := α) (.client l) (.client f)) (d : SData α) : T2P d l := by
  have key : (¬ ∃ p r, l = .srSet p r) ∧ ∀ p, gw p l = 0 := by
    cases l <;> first
      | exact False.elim h
      | exact ⟨by simp, fun p => rfl⟩
  exact ⟨fun p r h => absurd ⟨p, r, h⟩ key.1, fun _ p hg => by rw [key.2] at hg; contradiction⟩

theorem T2P_zero {d : SData α} {f : SFrame α φ} (h : ∀ p, gw p f = 0) : T2P d f := by
  refine ⟨?_, fun _ p hp => by rw [h] at hp; contradiction⟩
  rintro p r rfl
  have := h p
  simp [gw, one] at this

theorem T2I_init : T2I ({} : SData α) := ⟨fun _ _ _ => ⟨rfl, rfl⟩, fun _ => rfl⟩

theorem sats_srSet {p q t : Nat} {r : Res} {log : List SEv} : sats (.sat t q r :: log) p = if q = p then r :: sats log p else sats log p := by
  simp only [sats, List.filterMap_cons, SEv.satOf]
  split
  · rename_i h; split at h <;> simp_all
  · rename_i h; split at h <;> simp_all

theorem beq_one {q p : Nat} (h : one (q == p) = 1) : q = p := by
  by_contra hc
  simp [one, hc] at h

def top2 (A : App α φ δ χ) (ad : δ) (f0 : φ) : STop A ad f0 where
  I := T2I
  P d _ f _ := T2P d f
  triv {d t f v} h := by cases f <;> first | exact False.elim h | exact T2P_zero (fun _ => rfl)
  entry {d t v a} := T2P_zero (fun _ => entry_gw a)
  ftSet := T2P_zero (fun _ => rfl)
  pdIn := T2P_zero (fun _ => rfl)
  step := by
    intro s t f rest d' a hj hi he hst hp hS
    have h1i := ty1_I hj
    have h1f := ty1_top hj hst
    have hown : ∀ p, gw p f + wsum (gw p) rest = gown p s.data.sd t := by
      intro p
      have := gcnt_ok hj p t
      rwa [hst, wsum_client] at this
    have hg : ∀ p, GOk p s.data.sd d' t (gw p f) (a.wt (gw p) f) := fun p => guard_step h1f hS (hown p)
    -- another thread's top frame keeps its fact if the guards it needs are not held by `t`
    have oth : ∀ u g r, u ≠ t → s.stk u = .client g :: r → T2P s.data.sd g → (∀ p, gw p f = 0 → SameAt s.data.sd d' p) → T2P d' g := by
      intro u g r hu hgu hpg hsame
      have hz : ∀ p, gw p g = 1 → gw p f = 0 := by
        intro p h1
        by_contra hc
        have hc : gw p f = 1 := by have := gw_le p f; omega
        exact hu (guard_excl hj (g := f) (g' := g) (by rw [hst]; simp) hc (by rw [hgu]; simp) h1)
      refine ⟨?_, ?_⟩
      · rintro p r rfl
        exact (hsame p (hz p (by simp [gw, one]))).setting (ty1_top hj hgu) (hpg.1 p r rfl)
      · intro hsr p h1
        exact (hsame p (hz p h1)).clean (hpg.2 hsr p h1)
    by_cases hsp : special f
    · cases hS <;> first | exact False.elim hsp | skip
      case svBad p r h =>
        have hsame : ∀ q, SameAt s.data.sd ((s.data.sd.setLk (.guard p) none).ev (.refusedSet (s.view t).tid p r)) q := fun q => SameAt.of_eq rfl
        refine ⟨⟨?_, fun q => (hsame q).outc h1i rfl (hi.out q)⟩, fun u g r v hu hgu hpg => oth u g r hu hgu hpg (fun q _ => hsame q), trivial⟩
        intro q hq
        rcases gok_free (hg q) hq (gw_le _ _) with h' | h'
        · exact (hsame q).clean (hi.free q h')
        · exact (hsame q).clean (hp.2 (fun h => h) q h')
      case svVal p w h =>
        have hlk := guard_top hj hst (p := p) (by simp [gw, one])
        have hr : (s.data.sd.st p).status = .notSet := by simpa [SData.ready] using h
        have hcl := hp.2 (fun h => h) p (by simp [gw, one]) hr
        have hsame : ∀ q, q ≠ p → SameAt s.data.sd (s.data.sd.setSt p { s.data.sd.st p with value := if (s.data.sd.st p).isVoid then none else some w }) q := by
          intro q hq; constructor <;> simp [SData.setSt, set_ne _ _ hq]
        refine ⟨⟨?_, ?_⟩, fun u g r v hu hgu hpg => oth u g r hu hgu hpg ?_, ?_⟩
        · intro q hq
          have hqp : q ≠ p := by rintro rfl; exact absurd (hlk.symm.trans hq) (by simp)
          exact (hsame q hqp).clean (hi.free q hq)
        · intro q
          by_cases hq : q = p
          · subst hq
            have := hi.out q
            simp only [outc, hr] at this
            simp only [outc, SData.setSt, set_same, hr]; exact this
          · exact (hsame q hq).outc h1i rfl (hi.out q)
        · intro q hq
          refine hsame q ?_
          rintro rfl
          simp [gw, one] at hq
        · refine ⟨?_, fun h => absurd trivial h⟩
          intro q r hqr
          obtain ⟨rfl, rfl⟩ := SFrame.srSet.inj hqr
          exact ⟨by simp [SData.setSt, hr], by simp [SData.setSt, hcl]⟩
      case svExn p w h =>
        have hlk := guard_top hj hst (p := p) (by simp [gw, one])
        have hr : (s.data.sd.st p).status = .notSet := by simpa [SData.ready] using h
        have hcl := hp.2 (fun h => h) p (by simp [gw, one]) hr
        have hsame : ∀ q, q ≠ p → SameAt s.data.sd (s.data.sd.setSt p { s.data.sd.st p with exn := some w }) q := by
          intro q hq; constructor <;> simp [SData.setSt, set_ne _ _ hq]
        refine ⟨⟨?_, ?_⟩, fun u g r v hu hgu hpg => oth u g r hu hgu hpg ?_, ?_⟩
        · intro q hq
          have hqp : q ≠ p := by rintro rfl; exact absurd (hlk.symm.trans hq) (by simp)
          exact (hsame q hqp).clean (hi.free q hq)
        · intro q
          by_cases hq : q = p
          · subst hq
            have := hi.out q
            simp only [outc, hr] at this
            simp only [outc, SData.setSt, set_same, hr]; exact this
          · exact (hsame q hq).outc h1i rfl (hi.out q)
        · intro q hq
          refine hsame q ?_
          rintro rfl
          simp [gw, one] at hq
        · refine ⟨?_, fun h => absurd trivial h⟩
          intro q r hqr
          obtain ⟨rfl, rfl⟩ := SFrame.srSet.inj hqr
          exact ⟨by simp [SData.setSt, hr], by simp [SData.setSt, hcl]⟩
      all_goals
        rename_i p w
        have hset := hp.1 p _ rfl
        have hout := hi.out p
        simp only [outc, hset.1] at hout
        refine ⟨⟨?_, ?_⟩, fun u g r v hu hgu hpg => oth u g r hu hgu hpg ?_, ?_⟩
        · intro q hq
          by_cases hqp : q = p
          · subst hqp
            intro h
            simp [SData.ev, SData.setSt] at h
          · refine SameAt.clean ?_ (hi.free q hq)
            constructor <;> simp [SData.ev, SData.setSt, set_ne _ _ hqp]
        · intro q
          by_cases hqp : q = p
          · subst hqp
            have h2 := hset.2
            simp only [outc, SData.ev, SData.setSt, set_same]
            exact ⟨w, by rw [sats_srSet]; simp [hout], h2⟩
          · refine SameAt.outc h1i ?_ ?_ (hi.out q)
            · constructor <;> simp [SData.ev, SData.setSt, set_ne _ _ hqp]
            · simp only [SData.ev]
              rw [sats_srSet, if_neg (fun h => hqp h.symm)]; rfl
        · intro q hq
          have hqp : q ≠ p := by
            rintro rfl
            simp [gw, one] at hq
          constructor <;> simp [SData.ev, SData.setSt, set_ne _ _ hqp]
        · refine ⟨fun q r h => (by cases h), ?_⟩
          intro _ q hq
          have hqp : p = q := beq_one hq
          subst hqp
          intro h
          simp [SData.ev, SData.setSt] at h
    · have hsame := quiet h1i hS hsp
      have hsr : ¬ isSrSet f := fun h => hsp (by cases f <;> first | exact False.elim h | trivial)
      have cl : ∀ p, 1 ≤ a.wt (gw p) f → clean d' p := by
        intro p hw
        by_cases hwf : gw p f = 1
        · exact (hsame p).1.clean (hp.2 hsr p hwf)
        · exact (hsame p).1.clean (hi.free p (gok_acq (hg p) hwf hw (gw_le _ _)))
      have mk : ∀ g : SFrame α φ, (∀ p r, g ≠ .srSet p r) → (∀ p, gw p g ≤ a.wt (gw p) f) → T2P d' g := by
        intro g h1 h2
        exact ⟨fun p r h => absurd h (h1 p r), fun _ p hp => cl p (by have := h2 p; omega)⟩
      refine ⟨⟨?_, fun p => (hsame p).1.outc h1i (hsame p).2 (hi.out p)⟩, fun u g r v hu hgu hpg => oth u g r hu hgu hpg (fun p _ => (hsame p).1), ?_⟩
      · intro p hlk
        rcases gok_free (hg p) hlk (gw_le _ _) with h | h
        · exact (hsame p).1.clean (hi.free p h)
        · exact (hsame p).1.clean (hp.2 hsr p h)
      · have hto := to_srSet hS hsp
        cases a with
        | goto g => exact mk g (fun p r h => (hto p r).1 (by rw [h])) (fun p => Nat.le_refl _)
        | push g k => exact mk g (fun p r h => (hto p r).2 k (by rw [h])) (fun p => Nat.le_add_right _ _)
        | call => trivial
        | ret v => exact fun l rest' _ hadj => adj_gw hadj d'
        | throw => trivial
        | terminate => exact mk f (fun p r h => hsr (by rw [h]; trivial)) (fun p => Nat.le_refl _)
  core := by
    intro s t f l rest v hj hi hst hadj hv
    have h1f := ty1_F hj (t := t) (g := l) (by rw [hst]; simp)
    cases l <;> first
      | exact False.elim hadj
      | exact T2P_zero (fun _ => rfl)
      | skip
    rename_i K i k l
    refine ⟨fun p r h => (by cases h), fun _ p hw => ?_⟩
    cases K with
    | cv n => simp [gw, NK.gw] at hw
    | mtx n => simp [gw, NK.gw] at hw
    | fut q cs =>
      obtain rfl := beq_one hw
      intro h0
      have := h1f.1.2
      simp [SData.ready, h0] at this
  handler := by
    intro s t f rest e f' hj hi hst he hf
    cases f <;> first
      | (cases hf; done)
      | (have hf := Option.some.inj hf; subst hf; exact T2P_zero (fun _ => rfl))
      | skip
    simp only [sThrow, Option.map_eq_some_iff] at hf
    obtain ⟨x, -, rfl⟩ := hf
    exact T2P_zero (fun _ => rfl)

theorem top2_ok {A : App α φ δ χ} {ad : δ} {f0 : φ} {s : SSt α φ δ} (h : SR A ad f0 s) : T2I s.data.sd ∧
    ∀ t f rest, s.stk t = .client f :: rest → (s.thr t).exc = none → T2P s.data.sd f := (top2 A ad f0).sound T2I_init h

end
end Sync
end Itc
