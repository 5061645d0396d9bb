import Verif.Fut.Inv
import Verif.Fut.Demo
import Verif.Sync.AFut
import Verif.Props.Future

/-!
# C55 to C58: objects of type future and shared_future

For every user code `U` of the object layer (`Verif.Fut.Model`), on every schedule.
-/
namespace Itc
open Core Sync Fut
section
variable {α φ δ χ : Type} {U : FApp α φ δ χ} {u0 : δ} {f0 : φ} {s s' s0 s1 : FSt α φ δ}

/-- In this state the object `x` is a `future` that refers to the shared state `p`. -/
def IsFuture (s : FSt α φ δ) (x : Loc) (p : Nat) : Prop := look s.data.ad.objs x = some ⟨false, some p⟩

/-- The same for a `shared_future`. -/
def IsShared (s : FSt α φ δ) (x : Loc) (p : Nat) : Prop := look s.data.ad.objs x = some ⟨true, some p⟩

namespace Fut

theorem lsum_pos {β : Type} {w : β → Nat} {l : List β} {e : β} (h : e ∈ l) (hw : w e = 1) : 1 ≤ lsum w l := by
  induction l with
  | nil => cases h
  | cons a l ih =>
    rcases List.mem_cons.1 h with rfl | h
    · simp [hw]
    · have := ih h; simp; omega

theorem refs_le (hr : FR U u0 f0 s) (p : Nat) : ucnt p s.data.ad.objs + lsum (spent p) s.data.ad.flog ≤ 1 := by
  have ⟨h1, h2⟩ := refs hr p
  have : (if (s.data.sd.st p).retrieved then 1 else 0) ≤ 1 := by split <;> omega
  omega

theorem unique_spent (hr : FR U u0 f0 s) {x : Loc} {p : Nat} (h : IsFuture s x p) : lsum (spent p) s.data.ad.flog = 0 := by
  have h1 := refs_le hr p
  have h2 := ucnt_look (p := p) h
  simp [uq] at h2
  omega

end Fut

/-! ## C55: a future is the only reference to its state -/

/-- Two different objects of type future never refer to the same state, and while a future refers to a state no shared_future does. -/
theorem C55_unique (hr : FR U u0 f0 s) {x y : Loc} {p : Nat} (hx : IsFuture s x p) :
    (IsFuture s y p → y = x) ∧ ¬ IsShared s y p := by
  refine ⟨fun hy => ?_, fun hy => ?_⟩
  · by_cases h : y = x
    · exact h
    · have := ucnt_two hy hx h
      have := refs_le hr p
      omega
  · obtain ⟨t, z, h⟩ := (inv hr).shd _ (look_mem hy) rfl p rfl
    have := lsum_pos (w := spent (α := α) p) h (by simp [spent, b1])
    have := unique_spent hr hx
    omega

/-- An object that refers to a state was made of the result of get_future, then or async, of which there was exactly one for this state, or of that object. -/
theorem C55_origin (hr : FR U u0 f0 s) {x : Loc} {p : Nat} {sh : Bool} (hx : look s.data.ad.objs x = some ⟨sh, some p⟩) :
    ∃ t y, .made t y p ∈ s.data.ad.flog ∧ ∀ l1 l2, s.data.ad.flog = l1 ++ .made t y p :: l2 → ∀ t' y', .made t' y' p ∉ l1 ++ l2 := by
  have ⟨h1, h2⟩ := refs hr p
  have h3 : 1 ≤ lsum (given p) s.data.ad.flog := by
    cases sh with
    | false =>
      have := ucnt_look (p := p) hx
      simp [uq] at this
      omega
    | true =>
      obtain ⟨t, z, h⟩ := (inv hr).shd _ (look_mem hx) rfl p rfl
      have := lsum_pos (w := spent (α := α) p) h (by simp [spent, b1])
      omega
  have h4 : lsum (given p) s.data.ad.flog ≤ 1 := by
    have : (if (s.data.sd.st p).retrieved then 1 else 0) ≤ 1 := by split <;> omega
    omega
  have h5 : ∀ l : List (FEv α), 1 ≤ lsum (given p) l → ∃ t y, .made t y p ∈ l := by
    intro l
    induction l with
    | nil => simp
    | cons e l ih =>
      intro h
      by_cases he : given p e = 0
      · simp [he] at h
        obtain ⟨t, y, h⟩ := ih h
        exact ⟨t, y, List.mem_cons_of_mem _ h⟩
      · cases e <;> simp [given, b1] at he
        subst he
        exact ⟨_, _, List.mem_cons_self ..⟩
  obtain ⟨t, y, h6⟩ := h5 _ h3
  refine ⟨t, y, h6, fun l1 l2 h t' y' hm => ?_⟩
  rw [h] at h4
  have h7 : 1 ≤ lsum (given p) (l1 ++ l2) := lsum_pos hm (by simp [given, b1])
  simp [given, b1] at h4 h7
  omega

/-! ## C56: the value is moved out at most once -/

/-- future::get moves the value of a state out at most once, and not if a shared_future was made of the future. -/
theorem C56_once (hr : FR U u0 f0 s) {t : Nat} {x : Loc} {p : Nat} {l1 l2 : List (FEv α)} (h : s.data.ad.flog = l1 ++ .took t x p :: l2) :
    (∀ t' x', .took t' x' p ∉ l1 ++ l2) ∧ ∀ t' x', .shared t' x' p ∉ s.data.ad.flog := by
  have h1 := refs_le hr p
  rw [h] at h1
  have key : ∀ e : FEv α, e ∈ l1 ++ l2 → spent p e ≠ 1 := by
    intro e he hw
    have := lsum_pos he hw
    simp [spent, b1] at h1 this
    omega
  refine ⟨fun t' x' hm => key _ hm (by simp [spent, b1]), fun t' x' hm => ?_⟩
  rw [h] at hm
  rcases List.mem_append.1 hm with hm | hm
  · exact key _ (List.mem_append_left _ hm) (by simp [spent, b1])
  · rcases List.mem_cons.1 hm with hm | hm
    · cases hm
    · exact key _ (List.mem_append_right _ hm) (by simp [spent, b1])

/-- After future::get has taken a state no object refers to it, so nothing sees the value it moved from. -/
theorem C56_gone (hr : FR U u0 f0 s) {t : Nat} {x : Loc} {p : Nat} (h : .took t x p ∈ s.data.ad.flog) {y : Loc} {o : FO}
    (hy : look s.data.ad.objs y = some o) : o.st ≠ some p := by
  intro hp
  obtain ⟨sh, st⟩ := o
  obtain rfl : st = some p := hp
  cases sh with
  | false =>
    have := unique_spent hr hy
    have := lsum_pos (w := spent (α := α) p) h (by simp [spent, b1])
    omega
  | true =>
    obtain ⟨t', z, hm⟩ := (inv hr).shd _ (look_mem hy) rfl p rfl
    obtain ⟨l1, l2, hl⟩ := List.append_of_mem h
    exact (C56_once hr hl).2 _ _ hm

namespace Fut

theorem ready_lt (hr : FR U u0 f0 s) {p : Nat} (h : s.data.sd.ready p = true) : p < s.data.sd.nst := by
  by_cases hp : p < s.data.sd.nst
  · exact hp
  · rw [SData.ready, (ty1_I hr).fresh p (by omega)] at h; cases h

theorem void_keep (hr : FR U u0 f0 s) {l : Lbl χ} (hs : step (client (futApp U)) s l = some s') {p : Nat} (h : (s.data.sd.st p).isVoid = true) :
    (s'.data.sd.st p).isVoid = true := by
  by_cases hp : p < s.data.sd.nst
  · rw [(step_ext hs).isVoid hp]; exact h
  · rw [(ty1_I hr).fresh p (by omega)] at h; cases h

def fgE : FFrame α φ → Option (SApi (FTask α))
  | .gEnd _ p => some (.futGet (some p))
  | .gMv _ o => some (.futWait o)
  | _ => none

/-- Calls of get and wait of the layer below. -/
def fgc (U : FApp α φ δ χ) (u0 : δ) (f0 : φ) : AF (futApp U) { u := u0 } (.usr f0) where
  E := fgE
  R s t b := match b with
    | .futGet (some p) => s.term = false → (s.thr t).exc = none → (∃ u, .sat u p (.val (s.thr t).rv) ∈ s.data.sd.slog) ∨ (s.data.sd.st p).isVoid = true
    | .futWait (some p) => (s.thr t).exc = none → s.data.sd.ready p = true ∨ s.notified t = true
    | _ => True
  e0 := rfl
  run a := by cases a <;> exact ⟨rfl, rfl⟩
  throw {f e f'} h := by
    cases f <;> simp only [futApp, Option.map_eq_some_iff, Option.some.injEq, reduceCtorEq] at h
    · obtain ⟨g, -, rfl⟩ := h; rfl
    · subst h; rfl
  code {v ad f rv ch ad' a k} h := by
    obtain ⟨a', k', rfl, rfl⟩ := (fut_fs h).aOk
    cases a' <;> simp [mapF, ApiOK, fgE]
  push {v ad f rv ch ad' g k} h := by
    rcases (fut_fs h).aOk with ⟨⟨r, rfl⟩, ⟨x, rfl⟩⟩ | ⟨⟨x, rfl⟩, ⟨y, rfl⟩ | ⟨n, rfl⟩⟩ <;> rfl
  cont {v ad f rv ch ad' a k b} h hk hb := by
    replace h := fut_fs h
    cases h
    case usr f u a h =>
      cases a with
      | act a =>
        cases a <;> simp only [liftF, liftAct, Act.cont, Option.some.injEq, reduceCtorEq, SFrame.app.injEq] at hk <;>
          first | (subst hk; cases hb; done) | skip
        rename_i a k'
        cases hm : mapS a with
        | none => simp [hm, liftAct, Act.cont] at hk
        | some c => simp [hm, liftAct, Act.cont] at hk; subst hk; cases hb
      | fut r k' => simp [liftF, liftAct, Act.cont] at hk; subst hk; cases hb
    all_goals
      simp only [liftAct, Act.cont, Option.some.injEq, reduceCtorEq, SFrame.app.injEq] at hk
      try (subst hk; first | (cases hb; done) | (cases hb; rfl))
  fin {s0 s s' t n b k rest l} hk hr hst hf hs hend := by
    cases k <;> first | (cases hk; done) | skip
    case gMv x o =>
      cases hk
      cases o with
      | none => trivial
      | some p =>
        intro he
        rcases C31_wait hr hst hf hs hend he with h | h
        · exact .inl (by simpa [SData.ready] using h)
        · exact .inr h
    rename_i x p
    cases hk
    intro _ he
    cases hv : (s.data.sd.st p).isVoid with
    | false => exact .inl (C30_value hr hst hf hs hend hv he).2
    | true => exact .inr (void_keep (hf.reach hr) hs hv)
  stab {s s' t b k rest l} hk hr hst h hs hst' := by
    cases k <;> first | (cases hk; done) | skip
    case gMv x o =>
      cases hk
      cases o with
      | none => trivial
      | some p =>
        intro he
        have he0 := exc_keep hr hst hs hst' (by intro e k' h; cases h) he
        rcases h he0 with h1 | h1
        · exact .inl (rdy_mono (step_ext hs) ⟨ready_lt hr h1, h1⟩).2
        · exact .inr (notified_keep hr hst hs he0 h1)
    rename_i x p
    cases hk
    intro ht he
    have hrv : (s.thr t).exc = none ∧ (s'.thr t).rv = (s.thr t).rv := by
      cases l with
      | tick m => rw [step_tick _ s s' m hs] at he ⊢; exact ⟨he, rfl⟩
      | th u ch =>
        by_cases hu : t = u
        · subst hu
          cases step_cl hs with
          | cl f r d' a hexc hold hstep hdata hact =>
            rw [hst] at hold; cases hold
            cases client_cs hstep with
            | app g ad sa hA =>
              replace hA := fut_fs hA
              cases hA with
              | halt => rw [hact.2.1] at ht; cases ht
              | gEnd => rw [hact.1] at hst'; exact absurd (congrArg List.length hst') (by simp)
            | sync f sd a hS => exact (SS.not_app hS).elim
          | core f r hexc hold => rw [hst] at hold; cases hold
          | halt e hexc h1 hterm => rw [hterm] at ht; cases ht
          | task e f k r hexc hold => rw [hst] at hold; cases hold
          | cpop e f r hexc hold => rw [hst] at hold; cases hold
          | «catch» e g g' r hexc hold hg => rw [hst] at hold; cases hold; cases hg
          | pop e g r hexc hold hg h1 h2 => rw [h2] at he; cases he
          | fin hold => rw [hst] at hold; cases hold
        · have := step_thr_other (FreeOK.reach hr) hu (by rw [hst]; simp) hs
          exact ⟨this.2.2.1 ▸ he, this.2.1⟩
    rw [hrv.2]
    rcases h (step_live hs) hrv.1 with ⟨u, h⟩ | h
    · exact .inl ⟨u, (step_ext hs).mem h⟩
    · exact .inr (void_keep hr hs h)

/-- A step that adds an event is a step of this layer. -/
theorem flog_step {l : Lbl χ} (hs : step (client (futApp U)) s l = some s') {e : FEv α} (he : e ∈ s'.data.ad.flog) :
    e ∈ s.data.ad.flog ∨ ∃ t ch g rest a, l = .th t ch ∧ s.stk t = .client (.app g) :: rest ∧ (s.thr t).exc = none ∧ s'.data.sd = s.data.sd ∧
      ActTo s s' t rest (liftAct a) ∧ FS U (s.view t) s.data.ad (s.thr t).rv ch g s'.data.ad a := by
  cases l with
  | tick n => rw [step_tick _ s s' n hs] at he; exact .inl he
  | th t ch =>
    rcases step_cl hs with ⟨f, rest, d', a, hexc', hold, hstep, hdata, hact, -⟩ | ⟨f, rest, hexc', hold, hcs, hdata, -⟩ | ⟨e', hexc', hst', -, he', hdata, -⟩ |
      ⟨e', f, k, rest, hexc', hold, hf, hst', he', hdata, -⟩ | ⟨e', f, rest, hexc', hold, hf, hst', he', hdata, -⟩ |
      ⟨e', g', g'', rest, hexc', hold, hg, hst', he', hdata, -⟩ | ⟨e', g', rest, hexc', hold, hg, hst', he', hdata, -⟩ | ⟨hold, hst', he', hdata, -⟩
    · cases client_cs hstep with
      | app g ad sa hA => exact .inr ⟨t, ch, g, rest, sa, rfl, hold, hexc', by rw [hdata], hact, by rw [hdata]; exact fut_fs hA⟩
      | sync f sd a hS => rw [hdata] at he; exact .inl he
    all_goals (rw [hdata] at he; exact .inl he)

theorem pass_flog {d : FData α δ} {t : Nat} {y x : Loc} {sh : Bool} {o : FO} {e : FEv α} (h : e ∈ (d.pass t y sh x o).flog) :
    e ∈ d.flog ∨ ∃ p, e = .shared t x p := by
  unfold FData.pass at h
  split at h
  · split at h
    · rcases List.mem_cons.1 h with h | h
      · exact .inr ⟨_, h⟩
      · exact .inl h
    · exact .inl h
  · exact .inl h

end Fut

/-- When future::get takes a state, the state is ready or the calling thread was told to exit (or is not registered). -/
theorem C56_ready (hr : FR U u0 f0 s) {l : Lbl χ} (hs : step (client (futApp U)) s l = some s') {t : Nat} {x : Loc} {p : Nat}
    (hold : .took t x p ∉ s.data.ad.flog) (hnew : .took t x p ∈ s'.data.ad.flog) :
    (s.data.sd.st p).status ≠ .notSet ∨ s.notified t = true := by
  obtain ⟨t', ch, g, rest, a, rfl, hst, he, -, -, h⟩ := (flog_step hs hnew).resolve_left hold
  generalize s'.data.ad = d' at h hnew
  cases h
  case gTake y q h =>
    rcases List.mem_cons.1 hnew with h1 | h1
    · injection h1 with h1 h2 h3
      subst h2 h3
      obtain rfl : t = t' := h1
      have := (fgc U u0 f0).top hr hst rfl he
      exact this.imp (by simp [SData.ready]) id
    · exact absurd h1 hold
  case move => rcases pass_flog hnew with h | ⟨q, h⟩ <;> first | exact absurd h hold | cases h
  case assign => rcases pass_flog hnew with h | ⟨q, h⟩ <;> first | exact absurd h hold | cases h
  all_goals first
    | exact absurd hnew hold
    | (rcases List.mem_cons.1 hnew with h | h
       · cases h
       · exact absurd h hold)

/-- A value that get of a state with a value returns was set for that state. -/
theorem C56_value (hr : FR U u0 f0 s) {t : Nat} {x : Loc} {p : Nat} {v : Val} (h : .got t x p v ∈ s.data.ad.flog) (hv : (s.data.sd.st p).isVoid = false) :
    ∃ u, .sat u p (.val v) ∈ s.data.sd.slog := by
  suffices H : (∃ u, .sat u p (.val v) ∈ s.data.sd.slog) ∨ (s.data.sd.st p).isVoid = true from H.resolve_right (by rw [hv]; simp)
  clear hv
  revert h
  refine Reach.induct (P := fun s => FEv.got t x p v ∈ s.data.ad.flog → (∃ u, .sat u p (.val v) ∈ s.data.sd.slog) ∨ (s.data.sd.st p).isVoid = true) ?_ ?_ hr
  · intro h; cases h
  · intro s l s' hr ih hs hm
    rcases flog_step hs hm with h | ⟨t', ch, g, rest, a, rfl, hst, he, hd, -, h⟩
    · rcases ih h with ⟨u, h⟩ | h
      · exact .inl ⟨u, (step_ext hs).mem h⟩
      · exact .inr (void_keep hr hs h)
    · have old : FEv.got t x p v ∈ s.data.ad.flog → (∃ u, .sat u p (.val v) ∈ s'.data.sd.slog) ∨ (s'.data.sd.st p).isVoid = true := by
        rw [hd]; exact ih
      generalize s'.data.ad = d' at h hm
      cases h
      case gEnd y q =>
        rcases List.mem_cons.1 hm with h1 | h1
        · injection h1 with h1 h2 h3 h4
          subst h2 h3 h4
          rw [hd]
          exact (fgc U u0 f0).top hr hst rfl (step_live hs) he
        · exact old h1
      case move => rcases pass_flog hm with h | ⟨q, h⟩ <;> first | exact old h | cases h
      case assign => rcases pass_flog hm with h | ⟨q, h⟩ <;> first | exact old h | cases h
      all_goals first
        | exact old hm
        | (rcases List.mem_cons.1 hm with h | h
           · cases h
           · exact old h)

/-! ## C57: operations on an object without state -/

/-- The object that an operation which needs a state works on. -/
def Fut.FReq.needs : FReq α → Option Loc
  | .isReady x | .hasError x | .wait x | .waitFor x _ | .get x | .chain x _ _ _ _ _ => some x
  | _ => none

/-- Executions from one state to another in which thread `t` does not get to the stack `rest` before the end. -/
inductive Until {τ φ δ χ : Type} (C : Client τ φ δ χ) (t : Nat) (rest : List (Frame τ φ)) (s : St τ φ δ) : St τ φ δ → Prop
  | here : Until C t rest s s
  | next {s1 s2 : St τ φ δ} {l : Lbl χ} (h : Until C t rest s s1) (hne : s1.stk t ≠ rest) (hs : step C s1 l = some s2) : Until C t rest s s2

namespace Fut

def nullIn : SFrame (FTask α) (FFrame α φ) → Prop
  | .frIn none | .feIn none | .fwIn? none | .fvIn? none _ => True
  | _ => False

def noCatch : FFrame α φ → Prop
  | .fwd | .gMv _ _ => True
  | _ => False

/-- Where the call is. -/
def NullAt (t : Nat) (rest : List (Fr (FTask α) (FFrame α φ))) (s : FSt α φ δ) : Prop :=
  (∃ f k, s.stk t = .client f :: .client (.app k) :: rest ∧ (s.thr t).exc = none ∧ nullIn f ∧ noCatch k) ∨
  (∃ k, s.stk t = .client (.app k) :: rest ∧ (s.thr t).exc = some .noState ∧ noCatch k) ∨
  (s.stk t = rest ∧ (s.thr t).exc = some .noState)

theorem NullAt.step {t : Nat} {rest : List (Fr (FTask α) (FFrame α φ))} (hr : FR U u0 f0 s) (h : NullAt t rest s) (hne : s.stk t ≠ rest) {l : Lbl χ}
    (hs : step (client (futApp U)) s l = some s') : NullAt t rest s' := by
  have same : s'.stk t = s.stk t → (s'.thr t).exc = (s.thr t).exc → NullAt t rest s' := by
    intro h1 h2
    unfold NullAt
    rw [h1, h2]
    exact h
  cases l with
  | tick m => refine same ?_ ?_ <;> rw [step_tick _ s s' m hs] <;> rfl
  | th u ch =>
    by_cases hu : t = u
    · subst hu
      rcases h with ⟨f, k, h1, h2, h3, h4⟩ | ⟨k, h1, h2, h3⟩ | ⟨h1, -⟩
      · cases step_cl hs with
        | cl f' r d' a hexc hold hstep hdata hact =>
          rw [h1] at hold; cases hold
          cases client_cs hstep with
          | app g ad sa hA => exact h3.elim
          | sync f sd a hS =>
            cases hS <;> simp only [nullIn] at h3
            all_goals exact .inr (.inl ⟨k, hact.1, hact.2, h4⟩)
        | core f r hexc hold => rw [h1] at hold; cases hold
        | halt e hexc => rw [h2] at hexc; cases hexc
        | task e f k r hexc => rw [h2] at hexc; cases hexc
        | cpop e f r hexc => rw [h2] at hexc; cases hexc
        | «catch» e g g' r hexc => rw [h2] at hexc; cases hexc
        | pop e g r hexc => rw [h2] at hexc; cases hexc
        | fin hold => rw [h1] at hold; cases hold
      · cases step_cl hs with
        | cl f' r d' a hexc => rw [h2] at hexc; cases hexc
        | core f r hexc => rw [h2] at hexc; cases hexc
        | halt e hexc hst _ he => exact same hst (he.trans hexc.symm)
        | task e f k r hexc hold => rw [h1] at hold; cases hold
        | cpop e f r hexc hold => rw [h1] at hold; cases hold
        | «catch» e g g' r hexc hold hg =>
          rw [h1] at hold; cases hold
          cases k <;> first | exact h3.elim | cases hg
        | pop e g r hexc hold hg hst he =>
          rw [h1] at hold; cases hold
          rw [h2] at hexc; cases hexc
          exact .inr (.inr ⟨hst, he⟩)
        | fin hold => rw [h1] at hold; cases hold
      · exact absurd h1 hne
    · have hn : s.stk t ≠ [] := by
        rcases h with ⟨f, k, h1, -⟩ | ⟨k, h1, -⟩ | ⟨h1, -⟩
        · rw [h1]; simp
        · rw [h1]; simp
        · exact absurd h1 hne
      have := step_thr_other (FreeOK.reach hr) hu hn hs
      exact same this.1 this.2.2.1

/-- Only `terminate` ends the program. -/
theorem step_term {C : Client τ' φ' δ' χ'} {s s' : St τ' φ' δ'} {t : Nat} {ch : Ch χ'} {f : φ'} {rest : List (Frame τ' φ')} {d : δ'} {a : Act τ' φ'}
    (hs : step C s (.th t ch) = some s') (hst : s.stk t = .client f :: rest) (he : (s.thr t).exc = none)
    (hstep : C.step (s.view t) s.data f (s.thr t).rv ch = some (d, a)) (ha : a ≠ .terminate) : s'.term = false := by
  have h0 : s.term = false := by simp only [step] at hs; split at hs <;> simp_all
  have hst' : (s.thr t).stack = .client f :: rest := hst
  simp only [step] at hs
  split at hs
  · contradiction
  split at hs
  · contradiction
  simp only [he, hst', stepClient, hstep] at hs
  cases a <;> simp only [Option.some.injEq] at hs <;> first | exact absurd rfl ha | (subst hs; exact h0)

end Fut

/-- is_ready, has_error, wait, wait_for, get and then of an object without state throw `future_error(no_state)`, whatever other threads do meanwhile
    (and do not use the null pointer, which would end the model). -/
theorem C57_no_state (hr : FR U u0 f0 s0) {t : Nat} {rest : List (Fr (FTask α) (FFrame α φ))} {r : FReq α} {x : Loc} {o : FO}
    (hst : s0.stk t = .client (.app (.op r)) :: rest) (he : (s0.thr t).exc = none) (hx : r.needs = some x) (ho : look s0.data.ad.objs x = some o)
    (hn : o.st = none) {ch : Ch χ} (hs : step (client (futApp U)) s0 (.th t ch) = some s1) :
    s1.term = false ∧ ∀ s', Until (client (futApp U)) t rest s1 s' → s'.stk t = rest → (s'.thr t).exc = some .noState := by
  obtain ⟨sh, st⟩ := o
  obtain rfl : st = none := hn
  have hr1 := hr.step hs
  have h1 : s1.term = false ∧ NullAt t rest s1 := by
    cases step_cl hs with
    | cl f' r' d' a hexc hold hstep hdata hact =>
      rw [hst] at hold; cases hold
      cases client_cs hstep with
      | app g ad sa hA =>
        have ht := step_term hs hst he hstep
        clear hstep
        cases r <;> simp only [FReq.needs, Option.some.injEq, reduceCtorEq] at hx <;> subst hx <;> cases ch <;>
          simp only [futApp, fstep, opStep, FData.use, ho, Option.some.injEq, Prod.mk.injEq, reduceCtorEq] at hA <;> obtain ⟨-, rfl⟩ := hA
        case app.chain.go => exact ⟨ht (by simp [liftAct]), .inr (.inr ⟨hact.1, hact.2⟩)⟩
        all_goals exact ⟨ht (by simp [liftAct]), .inl ⟨_, _, hact.1, hact.2.1, trivial, trivial⟩⟩
      | sync f sd a hS => exact (SS.not_app hS).elim
    | core f r hexc hold => rw [hst] at hold; cases hold
    | halt e hexc => rw [he] at hexc; cases hexc
    | task e f k r hexc => rw [he] at hexc; cases hexc
    | cpop e f r hexc => rw [he] at hexc; cases hexc
    | «catch» e g g' r hexc => rw [he] at hexc; cases hexc
    | pop e g r hexc => rw [he] at hexc; cases hexc
    | fin hold => rw [hst] at hold; cases hold
  refine ⟨h1.1, fun s' hu hend => ?_⟩
  have key : FR U u0 f0 s' ∧ NullAt t rest s' := by
    clear hend
    induction hu with
    | here => exact ⟨hr1, h1.2⟩
    | next h hne hs ih => exact ⟨ih.1.step hs, ih.2.step ih.1 hne hs⟩
  rcases key.2 with ⟨f, k, h2, -⟩ | ⟨k, h2, -⟩ | ⟨-, h2⟩
  · rw [hend] at h2; exact absurd (congrArg List.length h2) (by simp; omega)
  · rw [hend] at h2; exact absurd (congrArg List.length h2) (by simp)
  · exact h2

namespace Fut

/-- Where a call of get is; `4`: it has just ended. -/
def GetAt (U : FApp α φ δ χ) (t : Nat) (x : Loc) (rest : List (Fr (FTask α) (FFrame α φ))) (s : FSt α φ δ) : Prop :=
  s.stk t = .client (.app (.op (.get x))) :: rest ∨
  (∃ pre w, s.stk t = pre ++ .client (.app (.gMv x w)) :: rest) ∨
  (∃ pre p, s.stk t = pre ++ .client (.app (.gEnd x p)) :: rest) ∨
  (s.stk t = rest ∧ ((s.thr t).exc ≠ none ∨ ∃ p sm l, step (client (futApp U)) sm l = some s ∧
    s.data.ad.flog = .got t x p (s.thr t).rv :: sm.data.ad.flog))

theorem pre_step {t : Nat} {ch : Ch χ} (hs : step (client (futApp U)) s (.th t ch) = some s') {g : Fr (FTask α) (FFrame α φ)}
    {pre L : List (Fr (FTask α) (FFrame α φ))} (h : s.stk t = (g :: pre) ++ L) : ∃ pre', s'.stk t = pre' ++ L := by
  obtain ⟨new, hn⟩ := step_stk_self hs h
  exact ⟨new ++ pre, by rw [hn, List.append_assoc]; rfl⟩

theorem GetAt.step {t : Nat} {x : Loc} {rest : List (Fr (FTask α) (FFrame α φ))} (hr : FR U u0 f0 s) (h : GetAt U t x rest s) (hne : s.stk t ≠ rest)
    {l : Lbl χ} (hs : step (client (futApp U)) s l = some s') : GetAt U t x rest s' := by
  have same : s'.stk t = s.stk t → GetAt U t x rest s' := by
    intro h1
    rcases h with h | h | h | ⟨h, -⟩
    · exact .inl (h1.trans h)
    · exact .inr (.inl (by rw [h1]; exact h))
    · exact .inr (.inr (.inl (by rw [h1]; exact h)))
    · exact absurd h hne
  have hn : s.stk t ≠ [] := by
    rcases h with h1 | ⟨pre, k, h1⟩ | ⟨pre, k, h1⟩ | ⟨h1, -⟩
    · rw [h1]; simp
    · rw [h1]; simp
    · rw [h1]; simp
    · exact absurd h1 hne
  cases l with
  | tick m => refine same ?_; rw [step_tick _ s s' m hs]; rfl
  | th u ch =>
    by_cases hu : t = u
    · subst hu
      -- a step of the frame of get itself
      have key : ∀ g, s.stk t = .client (.app g) :: rest → (∀ e, (futApp U).onThrow g e = none) →
          (∀ d' a, FS U (s.view t) s.data.ad (s.thr t).rv ch g d' a → s'.data.ad = d' → ActTo s s' t rest (liftAct a) → GetAt U t x rest s') → GetAt U t x rest s' := by
        intro g hg hth hgo
        cases step_cl hs with
        | cl f' r d' a hexc hold hstep hdata hact =>
          rw [hg] at hold; cases hold
          cases client_cs hstep with
          | app g ad sa hA => exact hgo _ _ (fut_fs hA) (by rw [hdata]) hact
          | sync f sd a hS => exact (SS.not_app hS).elim
        | core f r hexc hold => rw [hg] at hold; cases hold
        | halt e hexc hst => exact same hst
        | task e f k r hexc hold => rw [hg] at hold; cases hold
        | cpop e f r hexc hold => rw [hg] at hold; cases hold
        | «catch» e g g' r hexc hold hg' =>
          rw [hg] at hold; cases hold
          simp only [client, sThrow, hth e, Option.map_none] at hg'
          cases hg'
        | pop e g r hexc hold hg' hst he =>
          rw [hg] at hold; cases hold
          exact .inr (.inr (.inr ⟨hst, .inl (by rw [he]; simp)⟩))
        | fin hold => rw [hg] at hold; cases hold
      rcases h with h1 | ⟨pre, w, h1⟩ | ⟨pre, p, h1⟩ | ⟨h1, -⟩
      · refine key _ h1 (fun e => rfl) ?_
        intro d' a h2 h3 h4
        cases h2 with
        | halt => exact same h4.1
        | get x o h => exact .inr (.inl ⟨[_], _, h4.1⟩)
      · cases pre with
        | cons g pre => obtain ⟨pre', h2⟩ := pre_step hs h1; exact .inr (.inl ⟨pre', w, h2⟩)
        | nil =>
          refine key _ h1 (fun e => rfl) ?_
          intro d' a h2 h3 h4
          cases h2 with
          | halt => exact same h4.1
          | gNull => exact same h4.1
          | gOther => exact same h4.1
          | gTake x p h => exact .inr (.inr (.inl ⟨[_], p, h4.1⟩))
          | gRead x p h => exact .inr (.inr (.inl ⟨[_], p, h4.1⟩))
      · cases pre with
        | cons g pre => obtain ⟨pre', h2⟩ := pre_step hs h1; exact .inr (.inr (.inl ⟨pre', p, h2⟩))
        | nil =>
          refine key _ h1 (fun e => rfl) ?_
          intro d' a h2 h3 h4
          cases h2 with
          | halt => exact same h4.1
          | gEnd x p =>
            refine .inr (.inr (.inr ⟨h4.1, .inr ⟨p, s, _, hs, ?_⟩⟩))
            rw [h3, h4.2.2]
            rfl
      · exact absurd h1 hne
    · exact same (step_thr_other (FreeOK.reach hr) hu hn hs).1

end Fut

/-- From a call of get to its return: if it returns a value, then this step logs that value (see `C56_value`) for the object of the call. -/
theorem C56_call (hr : FR U u0 f0 s0) {t : Nat} {rest : List (Fr (FTask α) (FFrame α φ))} {x : Loc}
    (hst : s0.stk t = .client (.app (.op (.get x))) :: rest) (hu : Until (client (futApp U)) t rest s0 s') (hend : s'.stk t = rest)
    (hexc : (s'.thr t).exc = none) :
    ∃ p sm l, step (client (futApp U)) sm l = some s' ∧ s'.data.ad.flog = .got t x p (s'.thr t).rv :: sm.data.ad.flog := by
  have key : FR U u0 f0 s' ∧ GetAt U t x rest s' := by
    clear hend hexc
    induction hu with
    | here => exact ⟨hr, .inl hst⟩
    | next h hne hs ih => exact ⟨ih.1.step hs, ih.2.step ih.1 hne hs⟩
  have len : ∀ {pre : List (Fr (FTask α) (FFrame α φ))} {g}, rest ≠ pre ++ g :: rest := by
    intro pre g h
    have := congrArg List.length h
    simp at this
    omega
  rcases key.2 with h | ⟨pre, w, h⟩ | ⟨pre, p, h⟩ | ⟨-, h⟩
  · rw [hend] at h; exact absurd h (len (pre := []))
  · rw [hend] at h; exact absurd h len
  · rw [hend] at h; exact absurd h len
  · exact h.resolve_left (by rw [hexc]; simp)

/-! ## C58: continuations get the future they were attached to -/

/-- When a continuation is called, its parameter refers to the state that the continuation was attached to by then, is of the kind of the object that then was
    called on, and the state is ready. -/
theorem C58_param (hr : FR U u0 f0 s) {l : Lbl χ} (hs : step (client (futApp U)) s l = some s') {t n p : Nat} {sh : Bool} {a : α}
    (hold : .param t n p sh a ∉ s.data.ad.flog) (hnew : .param t n p sh a ∈ s'.data.ad.flog) :
    look s'.data.ad.objs (.par n) = some ⟨sh, some p⟩ ∧ (s'.data.sd.st p).status ≠ .notSet ∧ (∃ u x, .chained u x p sh a ∈ s'.data.ad.flog) ∧
    ∃ rest, s'.stk t = .client (.app (.usr (U.cont a n))) :: .client (.app (.kRun n)) :: rest := by
  have hi := (inv (hr.step hs)).par t n p sh a hnew
  have hrd : (s'.data.sd.st p).status ≠ .notSet := by simpa [SData.ready] using hi.1.2
  suffices H : look s'.data.ad.objs (.par n) = some ⟨sh, some p⟩ ∧ ∃ rest, s'.stk t = .client (.app (.usr (U.cont a n))) :: .client (.app (.kRun n)) :: rest from
    ⟨H.1, hrd, hi.2, H.2⟩
  obtain ⟨t', ch, g, rest, sa, rfl, hst, he, -, hact, h⟩ := (flog_step hs hnew).resolve_left hold
  generalize s'.data.ad = d' at h hnew ⊢
  cases h
  case kIn q sh' a' =>
    rcases List.mem_cons.1 hnew with h1 | h1
    · injection h1 with h1 h2 h3 h4 h5
      subst h2 h3 h4 h5
      obtain rfl : t = t' := h1
      exact ⟨by rw [look_put, if_pos rfl], rest, hact.1⟩
    · exact absurd h1 hold
  case move => rcases pass_flog hnew with h | ⟨q, h⟩ <;> first | exact absurd h hold | cases h
  case assign => rcases pass_flog hnew with h | ⟨q, h⟩ <;> first | exact absurd h hold | cases h
  all_goals first
    | exact absurd hnew hold
    | (rcases List.mem_cons.1 hnew with h | h
       · cases h
       · exact absurd h hold)

end

/-! ## Concrete cases -/

/-- `C55_unique`, `C55_origin`: the future was moved; `usr 1` refers to the state, `usr 0` does not. -/
example : ∃ s : Fut.FSt Nat Nat Unit, FR (ftable fut1) () 1 s ∧ IsFuture s (.usr 1) 0 ∧ look s.data.ad.objs (.usr 0) = some ⟨false, none⟩ := by
  obtain ⟨s, h1, h2⟩ := fwit (l := fut1) (ls := go 0 12) (fun s => (look s.data.ad.objs (.usr 1), look s.data.ad.objs (.usr 0)))
    (b := (some ⟨false, some 0⟩, some ⟨false, none⟩)) (by decide +kernel)
  simp only [Prod.mk.injEq] at h2
  exact ⟨s, h1, h2.1, h2.2⟩

/-- Two shared_futures refer to one state, a future to another one. -/
example : ∃ s : Fut.FSt Nat Nat Unit, FR (ftable fut2) () 1 s ∧ IsShared s (.usr 1) 0 ∧ IsShared s (.usr 2) 0 ∧ IsFuture s (.usr 3) 1 := by
  obtain ⟨s, h1, h2⟩ := fwit (l := fut2) (ls := go 0 20)
    (fun s => (look s.data.ad.objs (.usr 1), look s.data.ad.objs (.usr 2), look s.data.ad.objs (.usr 3)))
    (b := (some ⟨true, some 0⟩, some ⟨true, some 0⟩, some ⟨false, some 1⟩)) (by decide +kernel)
  simp only [Prod.mk.injEq] at h2
  exact ⟨s, h1, h2.1, h2.2⟩

/-- `C56_once`, `C56_gone`, `C56_value`: a value is set, taken and returned. -/
example : ∃ s : Fut.FSt Nat Nat Unit, FR (ftable fut1) () 1 s ∧ .took 0 (.usr 1) 0 ∈ s.data.ad.flog ∧ .got 0 (.usr 1) 0 (.nat 5) ∈ s.data.ad.flog ∧
    (s.data.sd.st 0).isVoid = false ∧ look s.data.ad.objs (.usr 1) = some ⟨false, none⟩ := by
  obtain ⟨s, h1, h2⟩ := fwit (l := fut1) (ls := go 0 33)
    (fun s => (decide (.took 0 (.usr 1) 0 ∈ s.data.ad.flog), decide (.got 0 (.usr 1) 0 (.nat 5) ∈ s.data.ad.flog), (s.data.sd.st 0).isVoid,
      look s.data.ad.objs (.usr 1))) (b := (true, true, false, some ⟨false, none⟩)) (by decide +kernel)
  simp only [Prod.mk.injEq, decide_eq_true_eq] at h2
  exact ⟨s, h1, h2⟩

theorem Until.of_frag {τ φ δ χ : Type} {C : Client τ φ δ χ} {t n : Nat} {rest : List (Frame τ φ)} {s s' : St τ φ δ} (h : Frag C t rest s n s') :
    Until C t rest s s' ∧ s'.stk t ≠ rest := by
  have len : ∀ {L pre : List (Frame τ φ)} {g}, L = pre ++ g :: rest → L ≠ rest := by
    intro L pre g h h'
    rw [h'] at h
    have := congrArg List.length h
    simp at this
    omega
  induction h with
  | here f h => exact ⟨.here, len (pre := []) h⟩
  | next l pre f h hs hst hno ih => exact ⟨.next ih.1 ih.2 hs, len hst⟩
  | start l pre f h hs hst hlen c k hlog ih => exact ⟨.next ih.1 ih.2 hs, len hst⟩

/-- `C56_call`: a call of get and its return. -/
example : ∃ s0 s' : Fut.FSt Nat Nat Unit, FR (ftable fut1) () 1 s0 ∧
    s0.stk 0 = .client (.app (.op (.get (.usr 1)))) :: [.client (.app (.usr 7))] ∧
    Until (client (futApp (ftable fut1))) 0 [.client (.app (.usr 7))] s0 s' ∧ s'.stk 0 = [.client (.app (.usr 7))] ∧ (s'.thr 0).exc = none ∧
    (s'.thr 0).rv = .nat 5 := by
  obtain ⟨s0, n, s, s', h1, h2, h3, h4, h5⟩ := ffragWit (l := fut1) (ls1 := go 0 23) (ls2 := go 0 9) (lb := .th 0 .go) (t := 0)
    (g := .client (.app (.op (.get (.usr 1))))) (rest := [.client (.app (.usr 7))])
    (obs := fun _ _ _ s' => (decide (s'.stk 0 = [.client (.app (.usr 7))]), (s'.thr 0).exc, (s'.thr 0).rv)) (b := (true, none, .nat 5)) (by decide +kernel)
  simp only [Prod.mk.injEq, decide_eq_true_eq] at h5
  have h6 := Until.of_frag h3
  exact ⟨s0, s', h1, h2, .next h6.1 h6.2 h4, h5⟩

/-- `C57_no_state`: is_ready of the object after get. -/
example : ∃ s : Fut.FSt Nat Nat Unit, FR (ftable fut1) () 1 s ∧ s.stk 0 = [.client (.app (.op (.isReady (.usr 1)))), .client (.app (.usr 0))] ∧
    (s.thr 0).exc = none ∧ look s.data.ad.objs (.usr 1) = some ⟨false, none⟩ := by
  obtain ⟨s, h1, h2⟩ := fwit (l := fut1) (ls := go 0 34) 
    (fun s => (decide (s.stk 0 = [.client (.app (.op (.isReady (.usr 1)))), .client (.app (.usr 0))]), (s.thr 0).exc, look s.data.ad.objs (.usr 1)))
    (b := (true, none, some ⟨false, none⟩)) (by decide +kernel)
  simp only [Prod.mk.injEq, decide_eq_true_eq] at h2
  exact ⟨s, h1, h2⟩

/-- It throws. -/
example : ∃ s : Fut.FSt Nat Nat Unit, FR (ftable fut1) () 1 s ∧ s.stk 0 = [.client (.app (.usr 0))] ∧ (s.thr 0).exc = some .noState := by
  obtain ⟨s, h1, h2⟩ := fwit (l := fut1) (ls := go 0 37) (fun s => (decide (s.stk 0 = [.client (.app (.usr 0))]), (s.thr 0).exc))
    (b := (true, some .noState)) (by decide +kernel)
  simp only [Prod.mk.injEq, decide_eq_true_eq] at h2
  exact ⟨s, h1, h2⟩

/-- A valid future is no protection: `get` waits; a task that it executes meanwhile calls `get` of the same object, which succeeds; then the outer call uses
    the null pointer `state_`. -/
theorem C57_get_null : ∃ s : Fut.FSt Nat Nat Unit, FR (ftable fut3) () 1 s ∧ .took 0 (.usr 0) 0 ∈ s.data.ad.flog ∧
    .got 0 (.usr 0) 0 (.nat 5) ∈ s.data.ad.flog ∧ .null 0 (.usr 0) ∈ s.data.ad.flog := by
  obtain ⟨s, h1, h2⟩ := fwit (l := fut3) (ls := go 0 63)
    (fun s => (decide (.took 0 (.usr 0) 0 ∈ s.data.ad.flog), decide (.got 0 (.usr 0) 0 (.nat 5) ∈ s.data.ad.flog), decide (.null 0 (.usr 0) ∈ s.data.ad.flog)))
    (b := (true, true, true)) (by decide +kernel)
  simp only [Prod.mk.injEq, decide_eq_true_eq] at h2
  exact ⟨s, h1, h2⟩

/-- `C58_param`: a continuation of a future and one of a shared_future are called. -/
example : ∃ s : Fut.FSt Nat Nat Unit, FR (ftable fut4) () 1 s ∧ .param 0 0 0 false 7 ∈ s.data.ad.flog ∧ IsFuture s (.par 0) 0 := by
  obtain ⟨s, h1, h2⟩ := fwit (l := fut4) (ls := go 0 45)
    (fun s => (decide (.param 0 0 0 false 7 ∈ s.data.ad.flog), look s.data.ad.objs (.par 0))) (b := (true, some ⟨false, some 0⟩)) (by decide +kernel)
  simp only [Prod.mk.injEq, decide_eq_true_eq] at h2
  exact ⟨s, h1, h2⟩

example : ∃ s : Fut.FSt Nat Nat Unit, FR (ftable fut2) () 1 s ∧ .param 0 0 0 true 9 ∈ s.data.ad.flog ∧ IsShared s (.par 0) 0 := by
  obtain ⟨s, h1, h2⟩ := fwit (l := fut2) (ls := go 0 49)
    (fun s => (decide (.param 0 0 0 true 9 ∈ s.data.ad.flog), look s.data.ad.objs (.par 0))) (b := (true, some ⟨true, some 0⟩)) (by decide +kernel)
  simp only [Prod.mk.injEq, decide_eq_true_eq] at h2
  exact ⟨s, h1, h2⟩

end Itc
