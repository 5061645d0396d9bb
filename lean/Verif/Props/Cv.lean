import Verif.Sync.Act
import Verif.Sync.Set
import Verif.Sync.Demo

/-!
# Condition variable: the caller's lock (C24)
-/
namespace Itc
open Core Sync
section
variable {α φ δ χ : Type} {A : App α φ δ χ} {ad : δ} {i0 : φ} {s0 s s' : SSt α φ δ}

/-- The wait that a frame belongs to, where the wait owns its caller's lock. -/
def cvW : SFrame α φ → Option W
  | .swIn w => some w
  | .swLoop w _ _ => some w
  | .swChk w _ _ => some w
  | .swBefore w _ _ => some w
  | .swRem w _ _ _ => some w
  | .wfIn w _ => some w
  | .wfAdd w _ _ => some w
  | .wfLoop w _ _ _ _ _ => some w
  | .wfChk w _ _ _ _ _ => some w
  | .wfBefore w _ _ _ _ => some w
  | .wfNow w _ _ _ _ => some w
  | .wfRem w _ _ _ _ => some w
  | _ => none

def CvOwn (d : SData α) (t : Nat) (f : SFrame α φ) : Prop := ∀ n m, cvW f = some (.cv n m) → d.lk (.user m) = some t

theorem ulk_oth {run destroy : α → φ} {v : View} {d d' : SData α} {rv : Val} {f : SFrame α φ} {a : Act (STask α) (SFrame α φ)}
    (hp : CvOwn d v.tid f) (hS : SS run destroy v d rv f d' a) {u m : Nat} (hu : u ≠ v.tid) :
    (d.lk (.user m) = some u → d'.lk (.user m) = some u) ∧ (d'.lk (.user m) = some u → d.lk (.user m) = some u) := by
  have same : d'.lk (.user m) = d.lk (.user m) → (d.lk (.user m) = some u → d'.lk (.user m) = some u) ∧
      (d'.lk (.user m) = some u → d.lk (.user m) = some u) := fun h => by rw [h]; exact ⟨id, id⟩
  have acq : ∀ l, d.lk l = none → d'.lk = set d.lk l (some v.tid) → (d.lk (.user m) = some u → d'.lk (.user m) = some u) ∧
      (d'.lk (.user m) = some u → d.lk (.user m) = some u) := by
    intro l hl h
    by_cases hm : Lk.user m = l
    · subst hm
      rw [h, hl, set_same]
      exact ⟨fun h => (by cases h), fun h => absurd (Option.some.inj h).symm hu⟩
    · exact same (by rw [h, set_ne _ _ hm])
  have rel : ∀ l, d.lk l = some v.tid → d'.lk = set d.lk l none → (d.lk (.user m) = some u → d'.lk (.user m) = some u) ∧
      (d'.lk (.user m) = some u → d.lk (.user m) = some u) := by
    intro l hl h
    by_cases hm : Lk.user m = l
    · subst hm
      rw [h, hl, set_same]
      exact ⟨fun h => absurd (Option.some.inj h).symm hu, fun h => (by cases h)⟩
    · exact same (by rw [h, set_ne _ _ hm])
  have relW : ∀ w : W, (∀ n m, w = .cv n m → d.lk (.user m) = some v.tid) → d' = d.relLk w.lk → (d.lk (.user m) = some u → d'.lk (.user m) = some u) ∧
      (d'.lk (.user m) = some u → d.lk (.user m) = some u) := by
    intro w hw h
    subst h
    cases w
    case cv n m' => exact rel _ (hw n m' rfl) rfl
    case mtx => exact same rfl
    all_goals exact same (by simp [SData.relLk, W.lk, SData.setLk, Sync.set])
  cases hS
  case lkIn n h => exact acq _ h rfl
  case lkUn n h => exact rel _ h rfl
  case swBefore w i k => exact relW w (fun n m h => hp n m (by rw [h]; rfl)) rfl
  case wfBefore w i k now e => exact relW w (fun n m h => hp n m (by rw [h]; rfl)) rfl
  case swAfterL w i k l h hl => exact acq _ hl rfl
  case wfAfterL w i k e l h hl => exact acq _ hl rfl
  case swIn => exact same (by rw [addW_lk])
  case wfAdd => exact same (by rw [addW_lk])
  all_goals first
    | exact same rfl
    | exact same (set_ne _ _ (by simp))

theorem cvW_adj {l : SFrame α φ} {x : Fr α φ} (h : Adj (.client l) x) : cvW l = none := by
  cases l <;> first | rfl | exact False.elim h

theorem laNext_cvW {K : LK α} {c : Kont α} {b : Bool} {g : SFrame α φ} (h : (laNext K c b : Act (STask α) (SFrame α φ)).cont = some g ∨
    (laNext K c b : Act (STask α) (SFrame α φ)).callee = some (.client g)) : cvW g = none := by
  cases K <;> cases b <;> rcases h with h | h <;> first | (cases h; done) | (cases h; rfl)

theorem entry_cvW (a : SApi α) : cvW (φ := φ) a.entry = none := by cases a <;> rfl

theorem CvOwn.none {d : SData α} {t : Nat} {f : SFrame α φ} (h : cvW f = none) : CvOwn d t f := by
  intro n m h'; rw [h] at h'; cases h'

theorem CvOwn.same {d d' : SData α} {t : Nat} {f g : SFrame α φ} (hp : CvOwn d t f) (h : cvW g = cvW f) (hl : d'.lk = d.lk) : CvOwn d' t g := by
  intro n m h'; rw [hl]; exact hp n m (h ▸ h')

def cvTop (A : App α φ δ χ) (ad : δ) (f0 : φ) : STop A ad f0 where
  I _ := True
  P d t f _ := CvOwn d t f
  triv {d t f v} h := CvOwn.none (by cases f <;> first | rfl | exact False.elim h)
  entry := CvOwn.none (entry_cvW _)
  ftSet := CvOwn.none rfl
  pdIn := CvOwn.none rfl
  step := by
    intro s t f rest d' a hj _ he hst hp hS
    refine ⟨trivial, fun u g r v hu hgu hpg n m h => (ulk_oth hp hS hu).1 (hpg n m h), ?_⟩
    have aft : ∀ (w : W) (l : Lk) (g : SFrame α φ), w.lk = some l → d'.lk = set s.data.sd.lk l (some (s.view t).tid) → cvW g = some w → CvOwn d' t g := by
      intro w l g hw hd hg n m h
      rw [hg] at h
      cases h; cases hw
      rw [hd, set_same]; rfl
    cases hS
    case laRet K c =>
      generalize hx : (laNext K c _ : Act (STask α) (SFrame α φ)) = a
      cases a with
      | goto g => exact CvOwn.none (laNext_cvW (.inl (by rw [hx]; rfl)))
      | push g k => exact CvOwn.none (laNext_cvW (.inr (by rw [hx]; rfl)))
      | ret v => exact fun l rest' _ hadj => CvOwn.none (cvW_adj hadj)
      | terminate => exact hp
      | _ => trivial
    case laEnd K c =>
      generalize hx : (laNext K c _ : Act (STask α) (SFrame α φ)) = a
      cases a with
      | goto g => exact CvOwn.none (laNext_cvW (.inl (by rw [hx]; rfl)))
      | push g k => exact CvOwn.none (laNext_cvW (.inr (by rw [hx]; rfl)))
      | ret v => exact fun l rest' _ hadj => CvOwn.none (cvW_adj hadj)
      | terminate => exact hp
      | _ => trivial
    case cwIn n m h => intro n' m' h'; cases h'; exact h
    case cfIn n m dur h => intro n' m' h'; cases h'; exact h
    case swAfterN w i k h => intro n m h'; cases h'; cases h
    case wfAfterN w i k e h => intro n m h'; cases h'; cases h
    case swAfterL w i k l h hl => exact aft w l _ h rfl rfl
    case wfAfterL w i k e l h hl => exact aft w l _ h rfl rfl
    case swIn => exact CvOwn.same hp rfl addW_lk
    case wfAdd => exact CvOwn.same hp rfl addW_lk
    case mlWait m i h => intro n m h'; cases h'
    case fwStay p h => intro n m h'; cases h'
    case fvStay p dur h => intro n m h'; cases h'
    all_goals first
      | trivial
      | exact fun l rest' _ hadj => CvOwn.none (cvW_adj hadj)
      | exact CvOwn.none rfl
      | exact CvOwn.same hp rfl rfl
  core _ _ _ hadj _ := CvOwn.none (cvW_adj hadj)
  handler := by
    intro s t f rest e f' hj hi hst he hf
    cases f <;> first
      | (cases hf; done)
      | (have hf := Option.some.inj hf; subst hf; exact CvOwn.none rfl)
      | skip
    simp only [sThrow, Option.map_eq_some_iff] at hf
    obtain ⟨x, -, rfl⟩ := hf
    exact CvOwn.none rfl

theorem cv_own (h : SR A ad i0 s) {t : Nat} {f : SFrame α φ} {rest : List (Fr α φ)} (hst : s.stk t = .client f :: rest)
    (he : (s.thr t).exc = none) : CvOwn s.data.sd t f := ((cvTop A ad i0).sound trivial h).2 t f rest hst he

/-- The wait of the core that `condition_variable::wait` or `wait_for` (program point `g`) calls, at its start: the lock `m`
    is free. -/
def StartsFree (A : App α φ δ χ) (ad : δ) (i0 : φ) (t : Nat) (rest : List (Fr α φ)) (m : Nat) (g : SFrame α φ) (s1 : SSt α φ δ) : Prop :=
  SR A ad i0 s1 ∧ (∃ b, (b = .waitIn none ∨ ∃ d, b = .waitForIn d) ∧ s1.stk t = .core b :: .client g :: rest) ∧ s1.data.sd.lk (.user m) = none

/-- Phases of `condition_variable::wait` and `wait_for` on `n` with lock `m`: while the inner wait of the core runs, it started
    with the lock free and this wait has done nothing since. -/
def CvPh (A : App α φ δ χ) (ad : δ) (i0 : φ) (t : Nat) (rest : List (Fr α φ)) (n m : Nat) (s : SSt α φ δ) : SFrame α φ → Prop
  | .cwIn n' m' => n' = n ∧ m' = m ∧ s.stk t = .client (.cwIn n' m') :: rest
  | .cfIn n' m' d => n' = n ∧ m' = m ∧ s.stk t = .client (.cfIn n' m' d) :: rest
  | .swAfter w i k => w = .cv n m ∧ (s.stk t ≠ .client (.swAfter w i k) :: rest →
      ∃ s1, StartsFree A ad i0 t rest m (.swAfter w i k) s1 ∧ ∃ n1, Frag (client A) t (.client (.swAfter w i k) :: rest) s1 n1 s)
  | .wfAfter w i k e => w = .cv n m ∧ (s.stk t ≠ .client (.wfAfter w i k e) :: rest →
      ∃ s1, StartsFree A ad i0 t rest m (.wfAfter w i k e) s1 ∧ ∃ n1, Frag (client A) t (.client (.wfAfter w i k e) :: rest) s1 n1 s)
  | f => cvW f = some (.cv n m) ∧ s.stk t = .client f :: rest

theorem nest_step (hr : SR A ad i0 s) {t : Nat} {g : SFrame α φ} {rest : List (Fr α φ)} {Q : SSt α φ δ → Prop}
    (h : s.stk t ≠ .client g :: rest → ∃ s1, Q s1 ∧ ∃ n1, Frag (client A) t (.client g :: rest) s1 n1 s)
    {l : Lbl χ} (hs : step (client A) s l = some s') (hl : s.stk t = .client g :: rest → ∀ ch, l ≠ .th t ch)
    (hst : ∃ pre, s'.stk t = pre ++ .client g :: rest) :
    s'.stk t ≠ .client g :: rest → ∃ s1, Q s1 ∧ ∃ n1, Frag (client A) t (.client g :: rest) s1 n1 s' := by
  intro hne
  by_cases htop : s.stk t = .client g :: rest
  · exact absurd ((still hr (by rw [htop]; simp) hs (hl htop)).1.trans htop) hne
  · obtain ⟨s1, hq, n1, hfr⟩ := h htop
    exact ⟨s1, hq, (Frag.inner hfr hs hst).resolve_right hne⟩

theorem CvPh.frag (hr : SR A ad i0 s0) {t k n m : Nat} {g : SFrame α φ} {rest : List (Fr α φ)} (hst : s0.stk t = .client g :: rest)
    (h0 : CvPh A ad i0 t rest n m s0 g) (hf : Frag (client A) t rest s0 k s) :
    ∃ pre f, s.stk t = pre ++ .client f :: rest ∧ (s.term = true ∨ CvPh A ad i0 t rest n m s f) := by
  refine SFrag.ind (fun f s => CvPh A ad i0 t rest n m s f) hr hst h0 (fun g s h => by cases h.1) ?_ ?_ ?_ hf
  · intro s1 s2 f g d' a ch hr1 hst1 he hp hS hc hd hs hck hst2
    cases hS
    case laRet K c => cases hp.1
    case laEnd K c => cases hp.1
    all_goals first
      | (cases hp.1; done)
      | (cases hc; done)
      | skip
    case cwIn => obtain ⟨rfl, rfl, -⟩ := hp; cases hc; exact ⟨rfl, hst2⟩
    case cfIn => obtain ⟨rfl, rfl, -⟩ := hp; cases hc; exact ⟨rfl, hst2⟩
    case swBefore w i k =>
      cases hp.1; cases hc
      exact ⟨rfl, fun _ => ⟨s2, ⟨hr1.step hs, ⟨_, .inl rfl, hst2⟩, by rw [hd]; exact set_same _ _ _⟩, 0, .here _ hst2⟩⟩
    case wfBefore w i k now e =>
      cases hp.1; cases hc
      exact ⟨rfl, fun _ => ⟨s2, ⟨hr1.step hs, ⟨_, .inr ⟨_, rfl⟩, hst2⟩, by rw [hd]; exact set_same _ _ _⟩, 0, .here _ hst2⟩⟩
    case swAfterL => cases hp.1; cases hc; exact ⟨rfl, hst2⟩
    case wfAfterL => cases hp.1; cases hc; exact ⟨rfl, hst2⟩
    all_goals first
      | (have hc := Option.some.inj hc; subst hc; exact ⟨hp.1, hst2⟩)
      | (have hp1 := hp.1; cases hp1; contradiction)
  · intro s1 s2 f g e hr1 hst1 he hp hnt hf hd
    exfalso
    cases f <;> first | (cases hp.1; done) | exact hnt trivial | (cases hf; done)
  · intro s1 s2 f l hr1 hp hs h1 h2 h3
    have top : s1.stk t = .client f :: rest → s2.stk t = .client f :: rest := fun htop =>
      (still hr1 (by rw [htop]; simp) hs (h3 htop)).1.trans htop
    cases f
    case swAfter w i k => exact ⟨hp.1, nest_step hr1 hp.2 hs h3 h2⟩
    case wfAfter w i k e => exact ⟨hp.1, nest_step hr1 hp.2 hs h3 h2⟩
    all_goals first
      | exact ⟨hp.1, top hp.2⟩
      | exact ⟨hp.1, hp.2.1, top hp.2.2⟩

/-- When `wait` or `wait_for` of condition variable `n` returns normally, the calling thread owns the lock `m` it passed. -/
theorem C24_locked (hr : SR A ad i0 s0) {t k n m : Nat} {g : SFrame α φ} {rest : List (Fr α φ)} (hst : s0.stk t = .client g :: rest)
    (hg : g = .cwIn n m ∨ ∃ d, g = .cfIn n m d) (hf : Frag (client A) t rest s0 k s) {l : Lbl χ} (hs : step (client A) s l = some s')
    (hend : s'.stk t = rest) (hexc : (s'.thr t).exc = none) : s'.data.sd.lk (.user m) = some t := by
  have h0 : CvPh A ad i0 t rest n m s0 g := by rcases hg with rfl | ⟨d, rfl⟩ <;> exact ⟨rfl, rfl, hst⟩
  obtain ⟨pre, f, hg, hph⟩ := CvPh.frag hr hst h0 hf
  have hr1 := hf.reach hr
  have h3 := hph.resolve_left (by rw [step_live hs]; simp)
  obtain ⟨rfl, hlast, ch, rfl⟩ := SFrag.last hr1 hg hs hend (by rintro g rfl; cases h3.1)
  cases hlast with
  | ret v d' he hS hdata hexc' hrv =>
    have hown := cv_own hr1 hg he
    generalize hret : (.ret v : Act (STask α) (SFrame α φ)) = a at hS
    cases hS
    case laRet => cases h3.1
    case laEnd => cases h3.1
    all_goals first
      | (cases hret; done)
      | (cases h3.1; done)
      | skip
    case swRemC => cases h3.1; rw [hdata]; exact hown n m rfl
    case wfRemC => cases h3.1; rw [hdata]; exact hown n m rfl
  | throw e d' he hS hdata hexc' => rw [hexc] at hexc'; cases hexc'
  | unwind e he hnt hf hdata hexc' => rw [hexc] at hexc'; cases hexc'

/-- While `wait` or `wait_for` is blocked or executes queued tasks (something is above its own frame `f`), the call that blocks or
    executes them was entered with the lock `m` free (owned by nobody), and the wait has not executed a step since.  So it is not
    the wait that holds the lock. -/
theorem C24_released (hr : SR A ad i0 s0) {t k n m : Nat} {g : SFrame α φ} {rest : List (Fr α φ)} (hst : s0.stk t = .client g :: rest)
    (hg : g = .cwIn n m ∨ ∃ d, g = .cfIn n m d) (hf : Frag (client A) t rest s0 k s) (hterm : s.term = false) {pre : List (Fr α φ)} {x f : Fr α φ}
    (htop : s.stk t = pre ++ x :: f :: rest) : ∃ s1, SR A ad i0 s1 ∧ (∃ b, (b = .waitIn none ∨ ∃ d, b = .waitForIn d) ∧
      s1.stk t = .core b :: f :: rest) ∧ s1.data.sd.lk (.user m) = none ∧ ∃ n1, Frag (client A) t (f :: rest) s1 n1 s := by
  have h0 : CvPh A ad i0 t rest n m s0 g := by rcases hg with rfl | ⟨d, rfl⟩ <;> exact ⟨rfl, rfl, hst⟩
  obtain ⟨pre', f', hg, hph⟩ := CvPh.frag hr hst h0 hf
  have h3 := hph.resolve_left (by rw [hterm]; simp)
  have hu := top_uniq (hg.symm.trans ((htop.trans (by simp) : s.stk t = (pre ++ [x]) ++ f :: rest)))
  obtain ⟨rfl, rfl⟩ := hu
  have hne : s.stk t ≠ .client f' :: rest := by
    rw [hg]; intro h
    have := congrArg List.length h
    simp at this
    omega
  cases f'
  case swAfter w i k =>
    obtain ⟨s1, ⟨q1, q2, q3⟩, q4⟩ := h3.2 hne
    exact ⟨s1, q1, q2, q3, q4⟩
  case wfAfter w i k =>
    obtain ⟨s1, ⟨q1, q2, q3⟩, q4⟩ := h3.2 hne
    exact ⟨s1, q1, q2, q3, q4⟩
  all_goals first
    | (cases h3.1; done)
    | exact absurd h3.2 hne
    | exact absurd h3.2.2 hne

end

/-! ## Concrete cases -/

/-- Main waits, thread 1 takes the lock and notifies, main returns with the lock: hypotheses of `C24_locked`. -/
example : ∃ s0 n s s', SR (tableApp demo6) () 1 s0 ∧ s0.stk 0 = .client (.cwIn 0 0) :: [.client (.app 5)] ∧
    Frag (demo demo6) 0 [.client (.app 5)] s0 n s ∧ step (demo demo6) s (.th 0 .go) = some s' ∧
    (s'.stk 0, (s'.thr 0).exc, s'.data.sd.lk (.user 0)) = ([.client (.app 5)], none, some 0) :=
  sfragWit (ls1 := go 0 9) (ls2 := go 0 6 ++ go 1 16 ++ go 0 7) (hnd := fun _ => none)
    (obs := fun _ _ _ s' => (s'.stk 0, (s'.thr 0).exc, s'.data.sd.lk (.user 0))) (by decide +kernel)

/-- While main is blocked, thread 1 owns the lock: hypotheses of `C24_released`. -/
example : ∃ s0 n s s', SR (tableApp demo6) () 1 s0 ∧ s0.stk 0 = .client (.cwIn 0 0) :: [.client (.app 5)] ∧
    Frag (demo demo6) 0 [.client (.app 5)] s0 n s ∧ step (demo demo6) s (.th 1 .go) = some s' ∧
    (s.term, s.stk 0, s.data.sd.lk (.user 0)) = (false, [] ++ .core (.parked 0 none) :: .client (.swAfter (.cv 0 0) 1 0) :: [.client (.app 5)], some 1) :=
  sfragWit (ls1 := go 0 9) (ls2 := go 0 6 ++ go 1 2) (hnd := fun _ => none)
    (obs := fun _ _ s _ => (s.term, s.stk 0, s.data.sd.lk (.user 0))) (by decide +kernel)

end Itc
