import Verif.Sync.Base

/-!
# Basic typing of the frames of the layer, and who holds the guard of a shared state (proof infrastructure, no claims)
-/
namespace Itc
namespace Sync
open Core
section
variable {α φ δ χ : Type}

def _root_.Itc.Sync.Kont.ok (d : SData α) (c : Kont α) : Prop := c.p < d.nst ∧ (d.st c.p).owner = .pkg

def koks (d : SData α) (l : List (Kont α)) : Prop := ∀ c ∈ l, c.ok d

def rdy (d : SData α) (p : Nat) : Prop := p < d.nst ∧ d.ready p = true

/-- A state whose promise is owned by a packaged task. -/
def tkOk (d : SData α) (p : Nat) : Prop := p < d.nst ∧ (d.st p).owner ≠ .usr

def _root_.Itc.Sync.W.sw (d : SData α) : W → Prop
  | .cv _ _ => True
  | .mtx _ _ => True
  | .fw p => p < d.nst
  | .fv _ _ => False

def _root_.Itc.Sync.W.wf (d : SData α) : W → Prop
  | .cv _ _ => True
  | .mtx _ _ => False
  | .fw _ => False
  | .fv p _ => p < d.nst

def _root_.Itc.Sync.NK.ok (d : SData α) : NK α → Prop
  | .cv _ => True
  | .mtx _ => True
  | .fut p l => rdy d p ∧ koks d l

def _root_.Itc.Sync.LK.ok (d : SData α) : LK α → Prop
  | .sr p dn l => rdy d p ∧ koks d dn ∧ koks d l
  | .sc => True
  | .as => True

def T1F (d : SData α) : SFrame α φ → Prop
  | .swIn w => w.sw d
  | .swLoop w _ _ => w.sw d
  | .swChk w _ _ => w.sw d
  | .swBefore w _ _ => w.sw d
  | .swAfter w _ _ => w.sw d
  | .swRem w _ _ _ => w.sw d
  | .wfIn w _ => w.wf d
  | .wfAdd w _ _ => w.wf d
  | .wfLoop w _ _ _ _ _ => w.wf d
  | .wfChk w _ _ _ _ _ => w.wf d
  | .wfBefore w _ _ _ _ => w.wf d
  | .wfAfter w _ _ _ => w.wf d
  | .wfNow w _ _ _ _ => w.wf d
  | .wfRem w _ _ _ _ => w.wf d
  | .naIn K => K.ok d
  | .nLoop K _ => K.ok d
  | .nCall K _ _ _ => K.ok d
  | .nAfter K _ _ _ => K.ok d
  | .svIn p _ => p < d.nst
  | .svChk p _ => p < d.nst
  | .srSet p _ => p < d.nst
  | .srUnl p l => rdy d p ∧ koks d l
  | .srLoop p dn l => rdy d p ∧ koks d dn ∧ koks d l
  | .srDtor p dn => rdy d p ∧ koks d dn
  | .scIn p c => p < d.nst ∧ c.ok d
  | .laIn K c => K.ok d ∧ c.ok d
  | .laRet K c => K.ok d ∧ c.ok d
  | .laInl K c => K.ok d ∧ c.ok d
  | .ftRun p _ => tkOk d p
  | .ftSet p => tkOk d p
  | .ftDone p => tkOk d p
  | .ftThrew p _ => tkOk d p
  | .ftExc p _ => tkOk d p
  | .ftEnd p => tkOk d p
  | .ftFin p => tkOk d p
  | .ftDtor p _ => tkOk d p
  | .pdIn p => tkOk d p
  | .pdEnd p => tkOk d p
  | .xtRet p => p < d.nst ∧ (d.st p).owner = .ext
  | .poEnd _ p => p < d.nst ∧ (d.st p).owner = .usr
  | .fwIn p => p < d.nst
  | .fwLoop p => p < d.nst
  | .fwChk p => p < d.nst
  | .fvIn p _ => p < d.nst
  | .fvLoop p _ => p < d.nst
  | .fvChk p _ => p < d.nst
  | .fvRes p _ _ => p < d.nst
  | .fgVal p => p < d.nst
  | _ => True

def T1T (d : SData α) : STask α → Prop
  | .noop => True
  | .app _ => True
  | .fut p _ => p < d.nst ∧ (d.st p).owner = .pkg

structure T1I (d : SData α) : Prop where
  fresh : ∀ p, d.nst ≤ p → d.st p = {}
  obj : ∀ q p, d.obj q = some p → p < d.nst ∧ (d.st p).owner = .usr
  cbs : ∀ p, koks d (d.st p).cbs

section mono
variable {d d' : SData α} (h : Ext d d')
include h

theorem lt_mono {p : Nat} (hp : p < d.nst) : p < d'.nst := Nat.lt_of_lt_of_le hp h.nst
theorem rdy_mono {p : Nat} (hp : rdy d p) : rdy d' p := ⟨lt_mono h hp.1, h.ready hp.1 hp.2⟩
theorem kok_mono {c : Kont α} (hc : c.ok d) : c.ok d' := ⟨lt_mono h hc.1, (h.owner hc.1).trans hc.2⟩
theorem koks_mono {l : List (Kont α)} (hc : koks d l) : koks d' l := fun c hl => kok_mono h (hc c hl)
theorem tk_mono {p : Nat} (hp : tkOk d p) : tkOk d' p := ⟨lt_mono h hp.1, by rw [h.owner hp.1]; exact hp.2⟩
theorem sw_mono {w : W} (hp : w.sw d) : w.sw d' := by
  cases w
  case fw => exact lt_mono h hp
  all_goals exact hp
theorem wf_mono {w : W} (hp : w.wf d) : w.wf d' := by
  cases w
  case fv => exact lt_mono h hp
  all_goals exact hp
theorem nk_mono {K : NK α} (hp : K.ok d) : K.ok d' := by
  cases K
  case fut => exact ⟨rdy_mono h hp.1, koks_mono h hp.2⟩
  all_goals trivial
theorem lk_mono {K : LK α} (hp : K.ok d) : K.ok d' := by
  cases K
  case sr => exact ⟨rdy_mono h hp.1, koks_mono h hp.2.1, koks_mono h hp.2.2⟩
  all_goals trivial

theorem T1F_mono {f : SFrame α φ} (hf : T1F d f) : T1F d' f := by
  cases f <;> first
    | trivial
    | exact lt_mono h hf
    | exact sw_mono h hf
    | exact wf_mono h hf
    | exact nk_mono h hf
    | exact tk_mono h hf
    | exact ⟨rdy_mono h hf.1, koks_mono h hf.2⟩
    | exact ⟨rdy_mono h hf.1, koks_mono h hf.2.1, koks_mono h hf.2.2⟩
    | exact ⟨lt_mono h hf.1, kok_mono h hf.2⟩
    | exact ⟨lk_mono h hf.1, kok_mono h hf.2⟩
    | exact ⟨lt_mono h hf.1, by rw [h.owner hf.1]; exact hf.2⟩

theorem T1T_mono {k : STask α} (hk : T1T d k) : T1T d' k := by
  cases k
  case fut => exact ⟨lt_mono h hk.1, (h.owner hk.1).trans hk.2⟩
  all_goals trivial

end mono

theorem T1I_same {d d' : SData α} (h : Ext d d') (hi : T1I d) (h1 : d'.nst = d.nst) (h2 : d'.st = d.st)
    (h3 : ∀ q p, d'.obj q = some p → ∃ q', d.obj q' = some p) : T1I d' := by
  refine ⟨?_, ?_, ?_⟩
  · rw [h1, h2]; exact hi.fresh
  · intro q p hq
    obtain ⟨q', hq'⟩ := h3 q p hq
    rw [h1, h2]; exact hi.obj q' p hq'
  · intro p; rw [h2]; exact koks_mono h (hi.cbs p)

theorem T1I_st {d d' : SData α} {p : Nat} {x : FSt α} (h : Ext d d') (hi : T1I d) (hp : p < d.nst) (h1 : d'.nst = d.nst)
    (h2 : d'.st = set d.st p x) (h3 : d'.obj = d.obj) (h4 : koks d x.cbs) : T1I d' := by
  refine ⟨?_, ?_, ?_⟩
  · intro q hq
    rw [h1] at hq
    rw [h2, set_ne _ _ (by omega)]; exact hi.fresh q hq
  · intro q r hq
    rw [h3] at hq
    have := hi.obj q r hq
    exact ⟨lt_mono h this.1, (h.owner this.1).trans this.2⟩
  · intro q
    rw [h2]
    by_cases hq : q = p
    · subst hq; rw [set_same]; exact koks_mono h h4
    · rw [set_ne _ _ hq]; exact koks_mono h (hi.cbs q)

theorem T1I_mk {d d' : SData α} {x : FSt α} (h : Ext d d') (hi : T1I d) (h1 : d'.nst = d.nst + 1)
    (h2 : d'.st = set d.st d.nst x) (h4 : x.cbs = []) (h3 : ∀ q p, d'.obj q = some p → d.obj q = some p ∨ (p = d.nst ∧ x.owner = .usr)) :
    T1I d' := by
  refine ⟨?_, ?_, ?_⟩
  · intro q hq
    rw [h1] at hq
    rw [h2, set_ne _ _ (by omega)]; exact hi.fresh q (by omega)
  · intro q r hq
    rcases h3 q r hq with hq | ⟨rfl, hx⟩
    · have := hi.obj q r hq
      exact ⟨lt_mono h this.1, (h.owner this.1).trans this.2⟩
    · exact ⟨by omega, by rw [h2, set_same]; exact hx⟩
  · intro q
    rw [h2]
    by_cases hq : q = d.nst
    · subst hq; rw [set_same, h4]; intro c hc; simp at hc
    · rw [set_ne _ _ hq]; exact koks_mono h (hi.cbs q)

theorem T1I_step {run destroy : α → φ} {v : View} {d d' : SData α} {rv : Val} {f : SFrame α φ} {a : Act (STask α) (SFrame α φ)}
    (hi : T1I d) (hf : T1F d f) (h : SS run destroy v d rv f d' a) : T1I d' := by
  have he := h.ext
  cases h
  case swIn => unfold SData.addWaiter at he ⊢; split at he <;> exact T1I_same he hi rfl rfl (fun q p h => ⟨q, h⟩)
  case wfAdd => unfold SData.addWaiter at he ⊢; split at he <;> exact T1I_same he hi rfl rfl (fun q p h => ⟨q, h⟩)
  case swBefore w i k => cases hw : w.lk <;> rw [hw] at he <;> exact T1I_same he hi rfl rfl (fun q p h => ⟨q, h⟩)
  case wfBefore w i k _ _ => cases hw : w.lk <;> rw [hw] at he <;> exact T1I_same he hi rfl rfl (fun q p h => ⟨q, h⟩)
  case poDok q p h hr =>
    refine T1I_same he hi rfl rfl (fun q' p' h' => ⟨q', ?_⟩)
    simp only [set] at h'; split at h'
    · contradiction
    · exact h'
  case poEnd q p =>
    refine T1I_same he hi rfl rfl (fun q' p' h' => ⟨q', ?_⟩)
    simp only [set] at h'; split at h'
    · contradiction
    · exact h'
  case poMove q q2 hne =>
    refine T1I_same he hi rfl rfl (fun q' p' h' => ?_)
    simp only [set] at h'
    split at h'
    · contradiction
    · split at h'
      · exact ⟨_, h'⟩
      · exact ⟨_, h'⟩
  case poNew q0 b h0 =>
    refine T1I_mk he hi rfl rfl rfl ?_
    intro q p h
    simp only [set] at h
    split at h
    · exact .inr ⟨(Option.some.inj h).symm, rfl⟩
    · exact .inl h
  case svVal => exact T1I_st he hi hf rfl rfl rfl (hi.cbs _)
  case svExn => exact T1I_st he hi hf rfl rfl rfl (hi.cbs _)
  case srVal => exact T1I_st he hi hf rfl rfl rfl (by simp [koks])
  case srExn => exact T1I_st he hi hf rfl rfl rfl (by simp [koks])
  case scLater p c hl h =>
    refine T1I_st he hi hf.1 rfl rfl rfl ?_
    intro c' hc
    rcases List.mem_append.1 hc with hc | hc
    · exact hi.cbs _ c' hc
    · simp at hc; subst hc; exact hf.2
  case poFut q p h hr => exact T1I_st he hi (hi.obj q p h).1 rfl rfl rfl (hi.cbs _)
  all_goals first
    | exact hi
    | exact T1I_same he hi rfl rfl (fun q p h => ⟨q, h⟩)
    | exact T1I_mk he hi rfl rfl rfl (fun q p h => .inl h)

theorem laNext_ok {d : SData α} {K : LK α} {c : Kont α} {b : Bool} {t : Nat} (h : K.ok d ∧ c.ok d) :
    ActOK (φ := SFrame α φ) (fun _ f => T1F d f) (T1T d) t (laNext K c b) := by
  have hk : tkOk d c.p := ⟨h.2.1, by rw [h.2.2]; simp⟩
  cases K
  case sr p dn l =>
    refine ⟨h.1.1, ?_, h.1.2.2⟩
    cases b
    · exact h.1.2.1
    · intro c' hc
      rcases List.mem_append.1 hc with hc | hc
      · exact h.1.2.1 c' hc
      · simp at hc; subst hc; exact h.2
  case sc => cases b <;> trivial
  case as => cases b <;> trivial

theorem T1_act {run destroy : α → φ} {v : View} {d d' : SData α} {rv : Val} {f : SFrame α φ} {a : Act (STask α) (SFrame α φ)}
    (hi : T1I d) (hf : T1F d f) (h : SS run destroy v d rv f d' a) {t : Nat} : ActOK (fun _ f => T1F d' f) (T1T d') t a := by
  have he := h.ext
  have hf' := T1F_mono he hf
  cases h
  case laRet K c => exact laNext_ok hf
  case laEnd K c => exact laNext_ok hf
  case srVal p w =>
    refine ⟨⟨lt_mono he hf, ?_⟩, koks_mono he (hi.cbs _)⟩
    simp [SData.ready, SData.setSt, SData.ev]
  case srExn p w =>
    refine ⟨⟨lt_mono he hf, ?_⟩, koks_mono he (hi.cbs _)⟩
    simp [SData.ready, SData.setSt, SData.ev]
  case srNext p dn c l => exact ⟨⟨hf.1, hf.2.1, fun c h => hf.2.2 c (by simp [h])⟩, hf.2.2 c (by simp)⟩
  case srDnext p c l =>
    have := hf.2 c (by simp)
    exact ⟨⟨this.1, by rw [this.2]; simp⟩, hf.1, fun c h => hf.2 c (by simp [h])⟩
  case laQueue K c id hid h => exact ⟨hf', hf'.2.1, hf'.2.2⟩
  case laInl K c id hid h hi => exact ⟨⟨hf'.2.1, by rw [hf'.2.2]; simp⟩, hf'⟩
  case rtIn p a h ho => exact ⟨⟨h, by show (d.st p).owner ≠ _; rw [ho]; simp⟩, h, ho⟩
  case dtIn p a h ho => exact ⟨⟨h, by show (d.st p).owner ≠ _; rw [ho]; simp⟩, h, ho⟩
  case poSet q r p h => exact (hi.obj q p h).1
  case poDbreak q p h hr => exact ⟨(hi.obj q p h).1, hi.obj q p h⟩
  case thS p id as b a hp =>
    exact ⟨⟨lt_mono he hp, Nat.lt_succ_self _, by simp [SData.mkState]⟩, trivial⟩
  case asIn id as b a => exact ⟨trivial, Nat.lt_succ_self _, by simp [SData.mkState]⟩
  all_goals first
    | trivial
    | exact hf'
    | exact hf'.1
    | exact hf'.2
    | exact ⟨trivial, hf'⟩
    | exact ⟨hf', trivial⟩
    | exact ⟨trivial, hf'.2⟩
    | exact ⟨hf'.1, hf'⟩
    | exact ⟨hf'.1, fun c h => False.elim (by cases h), hf'.2⟩
    | exact ⟨hf'.1, hf'.2.1⟩

def ty1 (A : App α φ δ χ) (J : SSt α φ δ → Prop) : STy A J where
  I := T1I
  PF d _ f := T1F d f
  PT := T1T
  app := trivial
  entry {d t a} := by cases a <;> trivial
  tapp := trivial
  step _ _ _ hi hf hs := ⟨T1I_step hi hf hs, fun _ _ h => T1F_mono hs.ext h, fun _ h => T1T_mono hs.ext h, T1_act hi hf hs⟩
  done := trivial
  task h _ := ⟨⟨h.1, by rw [h.2]; simp⟩, h.1, by rw [h.2]; simp⟩
  throw := by
    intro s t f rest e f' _ _ _ hf hn ht
    cases f <;> first
      | (cases ht; done)
      | exact absurd trivial hn
      | (have ht := Option.some.inj ht; subst ht; first | exact hf | trivial)
      | skip
    simp only [sThrow, Option.map_eq_some_iff] at ht
    obtain ⟨x, -, rfl⟩ := ht
    trivial

theorem T1I_init : T1I ({} : SData α) := ⟨fun _ _ => rfl, by simp, by intro p c hc; simp at hc⟩

theorem ty1_ok {A : App α φ δ χ} {ad : δ} {f : φ} {s : SSt α φ δ} (h : SR A ad f s) : (ty1 A (SR A ad f)).ty.Ok s :=
  (ty1 A (SR A ad f)).sound T1I_init h

theorem ty1_I {A : App α φ δ χ} {ad : δ} {f : φ} {s : SSt α φ δ} (h : SR A ad f s) : T1I s.data.sd := (ty1_ok h).data

theorem ty1_F {A : App α φ δ χ} {ad : δ} {f : φ} {s : SSt α φ δ} (h : SR A ad f s) {t : Nat} {g : SFrame α φ}
    (hg : .client g ∈ s.stk t) : T1F s.data.sd g := (ty1_ok h).fr t _ hg

theorem ty1_top {A : App α φ δ χ} {ad : δ} {f : φ} {s : SSt α φ δ} (h : SR A ad f s) {t : Nat} {g : SFrame α φ} {rest : List (Fr α φ)}
    (hg : s.stk t = .client g :: rest) : T1F s.data.sd g := ty1_F h (by rw [hg]; simp)

end
end Sync
end Itc
