import Verif.Sync.Ty

/-!
# Who holds the guard of a shared state (proof infrastructure, no claims)
-/
namespace Itc
namespace Sync
open Core
section
variable {α φ δ χ : Type}

def one (b : Bool) : Nat := if b then 1 else 0

def _root_.Itc.Sync.NK.gw (p : Nat) : NK α → Nat
  | .cv _ => 0
  | .mtx _ => 0
  | .fut q _ => one (q == p)

def _root_.Itc.Sync.W.gw (p : Nat) : W → Nat
  | .cv _ _ => 0
  | .mtx _ _ => 0
  | .fw q => one (q == p)
  | .fv q _ => one (q == p)

/-- Frames whose thread holds the guard of `p`. -/
def gw (p : Nat) : SFrame α φ → Nat
  | .svChk q _ => one (q == p)
  | .srSet q _ => one (q == p)
  | .naIn K => K.gw p
  | .nLoop K _ => K.gw p
  | .nCall K _ _ _ => K.gw p
  | .nAfter K _ _ _ => K.gw p
  | .srUnl q _ => one (q == p)
  | .fwLoop q => one (q == p)
  | .fwChk q => one (q == p)
  | .fvLoop q _ => one (q == p)
  | .fvChk q _ => one (q == p)
  | .fvRes q _ _ => one (q == p)
  | .swIn w => w.gw p
  | .swLoop w _ _ => w.gw p
  | .swChk w _ _ => w.gw p
  | .swBefore w _ _ => w.gw p
  | .swRem w _ _ _ => w.gw p
  | .wfIn w _ => w.gw p
  | .wfAdd w _ _ => w.gw p
  | .wfLoop w _ _ _ _ _ => w.gw p
  | .wfChk w _ _ _ _ _ => w.gw p
  | .wfBefore w _ _ _ _ => w.gw p
  | .wfNow w _ _ _ _ => w.gw p
  | .wfRem w _ _ _ _ => w.gw p
  | _ => 0

def gown (p : Nat) (d : SData α) (t : Nat) : Nat := one (decide (d.lk (.guard p) = some t))

/-- What one step must do to weight and ownership. -/
def GOk (p : Nat) (d d' : SData α) (t wf wa : Nat) : Prop :=
  wa + gown p d t = wf + gown p d' t ∧ ∀ u, u ≠ t → gown p d' u = gown p d u

theorem GOk.keep {p : Nat} {d d' : SData α} {t wf wa : Nat} (h : d'.lk (.guard p) = d.lk (.guard p)) (hw : wa = wf) : GOk p d d' t wf wa := by
  simp [GOk, gown, h, hw]

theorem GOk.user {p n : Nat} {x : Option Nat} {d d' : SData α} {t wf wa : Nat} (h : d'.lk = set d.lk (.user n) x) (hw : wa = wf) :
    GOk p d d' t wf wa := GOk.keep (by rw [h, set_ne _ _ (by simp)]) hw

theorem GOk.acq {p q : Nat} {d d' : SData α} {t wf wa : Nat} (h : d'.lk = set d.lk (.guard q) (some t)) (hq : d.lk (.guard q) = none)
    (h1 : wf = 0) (h2 : wa = one (q == p)) : GOk p d d' t wf wa := by
  subst h1 h2
  by_cases hp : q = p
  · subst hp
    simp [GOk, gown, h, hq, one]
    intro u hu
    simpa [eq_comm] using hu
  · have : d'.lk (.guard p) = d.lk (.guard p) := by rw [h, set_ne _ _ (by simpa using fun h => hp h.symm)]
    exact GOk.keep this (by simp [one, hp])

theorem GOk.rel {p q : Nat} {d d' : SData α} {t wf wa r : Nat} (h : d'.lk = set d.lk (.guard q) none) (hown : wf + r = gown p d t)
    (h1 : wf = one (q == p)) (h2 : wa = 0) : GOk p d d' t wf wa := by
  subst h1 h2
  by_cases hp : q = p
  · subst hp
    simp only [one, beq_self_eq_true, if_true] at hown
    have hl : d.lk (.guard q) = some t := by
      by_contra hc; simp [gown, one, hc] at hown
    simp [GOk, gown, h, one, hl]
    intro u hu
    simpa [eq_comm] using hu
  · have : d'.lk (.guard p) = d.lk (.guard p) := by rw [h, set_ne _ _ (by simpa using fun h => hp h.symm)]
    exact GOk.keep this (by simp [one, hp])

theorem laNext_gw {p : Nat} {K : LK α} {c : Kont α} {b : Bool} {f : SFrame α φ} :
    (laNext K c b : Act (STask α) (SFrame α φ)).wt (gw p) f = 0 := by
  cases K <;> cases b <;> rfl

theorem addW_lk {d : SData α} {t : Nat} {s : SemId} {i : Nat} : (d.addWaiter t s i).1.lk = d.lk := by
  unfold SData.addWaiter; split <;> rfl

theorem guard_step {run destroy : α → φ} {v : View} {d d' : SData α} {rv : Val} {f : SFrame α φ} {a : Act (STask α) (SFrame α φ)} {p r : Nat}
    (hf : T1F d f) (h : SS run destroy v d rv f d' a) (hown : gw p f + r = gown p d v.tid) : GOk p d d' v.tid (gw p f) (a.wt (gw p) f) := by
  cases h
  case laRet => exact GOk.keep rfl laNext_gw
  case laEnd => exact GOk.keep rfl laNext_gw
  case swIn => exact GOk.keep (by rw [addW_lk]) rfl
  case wfAdd => exact GOk.keep (by rw [addW_lk]) rfl
  case swBefore w i k =>
    cases w
    case cv => exact GOk.user rfl rfl
    case mtx => exact GOk.keep rfl rfl
    case fw => exact GOk.rel rfl hown rfl rfl
    case fv => exact hf.elim
  case wfBefore w i k _ _ =>
    cases w
    case cv => exact GOk.user rfl rfl
    case fv => exact GOk.rel rfl hown rfl rfl
    all_goals exact hf.elim
  case swAfterL w i k l h hl =>
    cases w
    case cv => cases h; exact GOk.user rfl rfl
    case mtx => cases h
    case fw => cases h; exact GOk.acq rfl hl rfl rfl
    case fv => exact hf.elim
  case wfAfterL w i k e l h hl =>
    cases w
    case cv => cases h; exact GOk.user rfl rfl
    case fv => cases h; exact GOk.acq rfl hl rfl rfl
    all_goals exact hf.elim
  case swAfterN w i k h =>
    cases w
    case mtx => exact GOk.keep rfl rfl
    all_goals cases h
  case wfAfterN w i k e h =>
    cases w
    case mtx => exact GOk.keep rfl rfl
    all_goals cases h
  case swRemV => exact hf.elim
  case wfRemF => exact hf.elim
  all_goals first
    | exact GOk.keep rfl rfl
    | exact GOk.user rfl rfl
    | exact GOk.acq rfl ‹_› rfl rfl
    | exact GOk.rel rfl hown rfl rfl

theorem entry_gw {p : Nat} (a : SApi α) : gw (φ := φ) p a.entry = 0 := by cases a <;> rfl

def gcnt (A : App α φ δ χ) (ad : δ) (f0 : φ) (p : Nat) : Counting (client A) (SR A ad f0) (stk A ad f0) where
  w := gw p
  own d t := gown p d.sd t
  step := by
    intro s t ch f rest d' a hj he hst hs hown
    cases client_cs hs with
    | app g ad sa hA =>
      refine ⟨?_, fun _ _ => rfl⟩
      have : (liftAct sa).wt (gw p) (.app g : SFrame α φ) = 0 := by
        cases sa <;> simp only [liftAct, Act.wt]
        case sync a k => rw [entry_gw]; rfl
        all_goals rfl
      rw [this]; rfl
    | sync f sd a hS => exact guard_step (ty1_top hj hst) hS hown
  run k := by cases k <;> rfl
  destroy k := by cases k <;> rfl
  api := by
    intro s t ch f rest d' a k hj hst hs
    have key : ∀ x, (client A).step (s.view t) s.data f (s.thr t).rv ch = some (d', x) → x = .call a k →
        ApiOK (fun _ f => gw p f = 0) (fun _ => True) a := by
      intro x hs hx
      cases client_cs hs with
      | app g ad sa hA =>
        cases sa <;> simp [liftAct] at hx
        obtain ⟨rfl, -⟩ := hx
        exact mapApi_ok (fun _ _ => rfl) (fun _ => trivial) _
      | sync f sd x hS =>
        cases hS
        case laRet K c => exact (laNext_call hx).elim
        case laEnd K c => exact (laNext_call hx).elim
        all_goals first | (cases hx; done) | (cases hx; trivial)
    exact key _ hs rfl
  handler := by
    intro g e g' hn ht
    cases g <;> first
      | (cases ht; done)
      | exact absurd trivial hn
      | (have ht := Option.some.inj ht; subst ht; rfl)
      | skip
    simp only [client, sThrow, Option.map_eq_some_iff] at ht
    obtain ⟨x, -, rfl⟩ := ht
    rfl
  pop := by
    intro g e hn ht
    cases g <;> first
      | rfl
      | exact absurd trivial hn

theorem gcnt_ok {A : App α φ δ χ} {ad : δ} {f0 : φ} {s : SSt α φ δ} (h : SR A ad f0 s) (p t : Nat) :
    wsum (gw p) (s.stk t) = gown p s.data.sd t :=
  ((gcnt A ad f0 p).sound (fun _ h => h) rfl (fun _ => rfl) h).sum t

theorem one_le (b : Bool) : one b ≤ 1 := by cases b <;> simp [one]

/-- A frame that holds the guard. -/
theorem guard_own {A : App α φ δ χ} {ad : δ} {f0 : φ} {s : SSt α φ δ} (h : SR A ad f0 s) {p t : Nat} {g : SFrame α φ}
    (hg : .client g ∈ s.stk t) (hw : gw p g = 1) : s.data.sd.lk (.guard p) = some t := by
  have h1 := gcnt_ok h p t
  have h2 := wsum_mem (w := gw p) hg
  by_contra hc
  simp [gown, one, hc] at h1
  omega

theorem guard_top {A : App α φ δ χ} {ad : δ} {f0 : φ} {s : SSt α φ δ} (h : SR A ad f0 s) {p t : Nat} {g : SFrame α φ} {rest : List (Fr α φ)}
    (hg : s.stk t = .client g :: rest) (hw : gw p g = 1) : s.data.sd.lk (.guard p) = some t :=
  guard_own h (by rw [hg]; simp) hw

theorem guard_held {A : App α φ δ χ} {ad : δ} {f0 : φ} {s : SSt α φ δ} (h : SR A ad f0 s) {p t : Nat}
    (hl : s.data.sd.lk (.guard p) = some t) : ∃ g, .client g ∈ s.stk t ∧ gw p g = 1 := by
  have h1 := gcnt_ok h p t
  simp only [gown, hl, decide_true, one, if_true] at h1
  by_contra hc
  have key : ∀ l : List (Fr α φ), (∀ g, .client g ∈ l → gw p g ≠ 1) → (∀ g : SFrame α φ, gw p g ≤ 1) → wsum (gw p) l = 0 := by
    intro l hl hle
    induction l with
    | nil => rfl
    | cons x l ih =>
      have := ih (fun g hg => hl g (by simp [hg]))
      cases x with
      | core f => simpa using this
      | client f =>
        have h1 := hl f (by simp)
        have h2 := hle f
        simp; exact ⟨by omega, this⟩
  have hle : ∀ g : SFrame α φ, gw p g ≤ 1 := by
    intro g
    cases g <;> first
      | exact Nat.zero_le _
      | exact one_le _
      | (rename_i w; cases w <;> first | exact Nat.zero_le _ | exact one_le _)
      | (rename_i w _; cases w <;> first | exact Nat.zero_le _ | exact one_le _)
      | (rename_i w _ _; cases w <;> first | exact Nat.zero_le _ | exact one_le _)
      | (rename_i w _ _ _; cases w <;> first | exact Nat.zero_le _ | exact one_le _)
      | (rename_i w _ _ _ _; cases w <;> first | exact Nat.zero_le _ | exact one_le _)
      | (rename_i w _ _ _ _ _; cases w <;> first | exact Nat.zero_le _ | exact one_le _)
  have := key _ (fun g hg hw => hc ⟨g, hg, hw⟩) hle
  omega

/-- Only one frame holds the guard. -/
theorem guard_excl {A : App α φ δ χ} {ad : δ} {f0 : φ} {s : SSt α φ δ} (h : SR A ad f0 s) {p t u : Nat} {g g' : SFrame α φ}
    (hg : .client g ∈ s.stk t) (hw : gw p g = 1) (hg' : .client g' ∈ s.stk u) (hw' : gw p g' = 1) : u = t := by
  have h1 := guard_own h hg hw
  have h2 := guard_own h hg' hw'
  rw [h1] at h2; exact (Option.some.inj h2).symm

end
end Sync
end Itc
