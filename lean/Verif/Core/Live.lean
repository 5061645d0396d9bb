import Mathlib.Data.Nat.Find
import Verif.Props.Wait
import Verif.Core.Own
import Verif.Core.Lin
import Verif.Core.Called

/-!
# Infinite executions (proof infrastructure, no claims)

`Run.Just`: the scheduler does not forever ignore a thread that can continue.
-/
namespace Itc
open Core
section
variable {τ φ δ χ : Type} {C : Client τ φ δ χ} {d : δ} {f0 : φ}

/-- Weak fairness for thread `t`: if from some moment on it can always make a step, it makes one. -/
def Run.Just (r : Run C) (t : Nat) : Prop :=
  ∀ i, (∀ j, i ≤ j → ∃ ch, (step C (r.st j) (.th t ch)).isSome) → ∃ j, i ≤ j ∧ ∃ ch, r.lab j = .th t ch

/-- Strong fairness for thread `t`: if again and again it can make a step, it makes one. -/
def Run.Strong (r : Run C) (t : Nat) : Prop :=
  ∀ i, (∀ j, i ≤ j → ∃ k, j ≤ k ∧ ∃ ch, (step C (r.st k) (.th t ch)).isSome) → ∃ j, i ≤ j ∧ ∃ ch, r.lab j = .th t ch

theorem Run.Strong.just {r : Run C} {t : Nat} (h : r.Strong t) : r.Just t := fun i hi => h i fun j hj => ⟨j, Nat.le_refl _, hi j hj⟩

/-- Whenever thread `t` enters the client code `g` above `L`, this code returns to `L`, without an exception. -/
def Run.Returns (r : Run C) (t : Nat) (g : φ) (L : List (Frame τ φ)) : Prop :=
  ∀ i, (r.st i).stk t = .client g :: L → ((r.st i).thr t).exc = none →
    ∃ j, i < j ∧ (r.st j).stk t = L ∧ ((r.st j).thr t).exc = none ∧ ∀ m, i ≤ m → m ≤ j → L <:+ (r.st m).stk t

theorem Run.reach (r : Run C) (hr : Reach C d f0 (r.st 0)) (j : Nat) : Reach C d f0 (r.st j) := by
  induction j with
  | zero => exact hr
  | succ j ih => exact ih.step (r.ok j)

theorem Run.good (r : Run C) (j : Nat) : (r.st j).ub = false ∧ (r.st j).term = false := by
  have := r.ok j
  simp only [step] at this
  split at this
  · contradiction
  · rename_i hh; simpa using hh

/-- What is kept of thread `t` while it makes no step. -/
structure Core.Same (t : Nat) (s s' : St τ φ δ) : Prop where
  stk : s'.stk t = s.stk t
  rv : (s'.thr t).rv = (s.thr t).rv
  exc : (s'.thr t).exc = (s.thr t).exc
  loc : s'.loc t = s.loc t

theorem Core.Same.refl (t : Nat) (s : St τ φ δ) : Same t s s := ⟨rfl, rfl, rfl, rfl⟩

theorem Core.Same.trans {t : Nat} {s s' s'' : St τ φ δ} (h : Same t s s') (h' : Same t s' s'') : Same t s s'' :=
  ⟨h'.stk.trans h.stk, h'.rv.trans h.rv, h'.exc.trans h.exc, h'.loc.trans h.loc⟩

theorem Core.same_step {s s' : St τ φ δ} {l : Lbl χ} {t : Nat} (hr : Reach C d f0 s) (hs : step C s l = some s') (hne : s.stk t ≠ [])
    (hl : ∀ ch, l ≠ .th t ch) : Same t s s' := by
  cases l with
  | tick m => rw [step_tick C s s' m hs]; exact ⟨rfl, rfl, rfl, rfl⟩
  | th u ch =>
    have hu : t ≠ u := by rintro rfl; exact hl ch rfl
    obtain ⟨h1, h2, h3, h4⟩ := step_thr_other (.reach hr) hu hne hs
    exact ⟨h1, h2, h3, h4⟩

/-- Until its next step, thread `t` keeps its stack. -/
theorem Run.same (r : Run C) (hr : Reach C d f0 (r.st 0)) {t i j : Nat} (hij : i ≤ j) (hne : (r.st i).stk t ≠ [])
    (hno : ∀ m, i ≤ m → m < j → ∀ ch, r.lab m ≠ .th t ch) : Same t (r.st i) (r.st j) := by
  obtain ⟨k, rfl⟩ := Nat.exists_eq_add_of_le hij
  induction k with
  | zero => exact .refl _ _
  | succ k ih =>
    have h := ih (by omega) fun m h1 h2 => hno m h1 (by omega)
    exact h.trans (same_step (r.reach hr _) (r.ok (i + k)) (by rw [h.stk]; exact hne) (hno (i + k) (by omega) (by omega)))

/-- If thread `t` can continue as long as it has not, it makes a step, the first one in a state in which its stack is as before. -/
theorem Run.next (r : Run C) (hr : Reach C d f0 (r.st 0)) {t i : Nat} (hj : r.Just t) (hne : (r.st i).stk t ≠ [])
    (hen : ∀ j, i ≤ j → Same t (r.st i) (r.st j) → ∃ ch, (step C (r.st j) (.th t ch)).isSome) :
    ∃ j, i ≤ j ∧ Same t (r.st i) (r.st j) ∧ (∃ ch, r.lab j = .th t ch) ∧ ∀ m, i ≤ m → m ≤ j → Same t (r.st i) (r.st m) := by
  classical
  have hex : ∃ j, i ≤ j ∧ ∃ ch, r.lab j = .th t ch := by
    by_contra hcon
    push Not at hcon
    obtain ⟨j, h1, ch, h2⟩ := hj i fun j hij => hen j hij (r.same hr hij hne fun m h1 _ => hcon m h1)
    exact hcon j h1 ch h2
  have h0 := Nat.find_spec hex
  have hmin := fun m => Nat.find_min hex (m := m)
  generalize Nat.find hex = j at h0 hmin
  have hkeep : ∀ m, i ≤ m → m ≤ j → Same t (r.st i) (r.st m) := fun m h1 h2 =>
    r.same hr h1 hne fun m' h3 h4 ch h5 => hmin m' (by omega) ⟨h3, ch, h5⟩
  exact ⟨j, h0.1, hkeep j h0.1 (Nat.le_refl _), h0.2, hkeep⟩

/-- The same for a thread that can continue again and again. -/
theorem Run.nextF (r : Run C) (hr : Reach C d f0 (r.st 0)) {t i : Nat} (hj : r.Strong t) (hne : (r.st i).stk t ≠ [])
    (hen : ∀ j, i ≤ j → (∀ m, i ≤ m → Same t (r.st i) (r.st m)) → ∃ k, j ≤ k ∧ ∃ ch, (step C (r.st k) (.th t ch)).isSome) :
    ∃ j, i ≤ j ∧ Same t (r.st i) (r.st j) ∧ (∃ ch, r.lab j = .th t ch) ∧ ∀ m, i ≤ m → m ≤ j → Same t (r.st i) (r.st m) := by
  classical
  have hex : ∃ j, i ≤ j ∧ ∃ ch, r.lab j = .th t ch := by
    by_contra hcon
    push Not at hcon
    obtain ⟨j, h1, ch, h2⟩ := hj i fun j hij => hen j hij fun m hm => r.same hr hm hne fun m h1 _ => hcon m h1
    exact hcon j h1 ch h2
  have h0 := Nat.find_spec hex
  have hmin := fun m => Nat.find_min hex (m := m)
  generalize Nat.find hex = j at h0 hmin
  have hkeep : ∀ m, i ≤ m → m ≤ j → Same t (r.st i) (r.st m) := fun m h1 h2 =>
    r.same hr h1 hne fun m' h3 h4 ch h5 => hmin m' (by omega) ⟨h3, ch, h5⟩
  exact ⟨j, h0.1, hkeep j h0.1 (Nat.le_refl _), h0.2, hkeep⟩

theorem Core.step_th {s : St τ φ δ} {t : Nat} {f : Frame τ φ} {L : List (Frame τ φ)} {ch : Ch χ} (hr : Reach C d f0 s) (hub : s.ub = false)
    (hterm : s.term = false) (hst : s.stk t = f :: L) (hexc : (s.thr t).exc = none) :
    step C s (.th t ch) = match f with
      | .core f => stepCore C s t f L ch
      | .client f => stepClient C s t f L ch := by
  have hrun : (s.thr t).status = .running := by
    by_contra h
    have := (FreeOK.reach hr t h).1
    rw [show (s.thr t).stack = f :: L from hst] at this
    cases this
  have hst' : (s.thr t).stack = f :: L := hst
  simp only [step, hub, hterm, Bool.or_self, Bool.false_eq_true, if_false, hrun, ne_eq, not_true_eq_false, hexc, hst']
  cases f <;> rfl

/-! ## The local context stays -/

theorem Run.inReg (r : Run C) (hr : Reach C d f0 (r.st 0)) {t c id j : Nat} (hreg : .registered c id t ∈ (r.st j).log)
    (hun : ∀ id n, .unregistered c id n ∉ (r.st j).log) : InReg (r.st j) c := by
  have hl := LInv.reach (r.reach hr j)
  by_contra h
  exact hun _ _ ((hl.unr c _ _).2 ⟨((hl.regd c id t).1 hreg).1, h, rfl, rfl⟩)

theorem Run.logm (r : Run C) {i j : Nat} (hij : i ≤ j) {e : Ev τ} (h : e ∈ (r.st i).log) : e ∈ (r.st j).log := by
  obtain ⟨k, rfl⟩ := Nat.exists_eq_add_of_le hij
  induction k with
  | zero => exact h
  | succ k ih =>
    have := r.ok (i + k)
    cases hl : r.lab (i + k) with
    | tick m => rw [hl] at this; rw [show i + (k + 1) = i + k + 1 from rfl, step_tick C _ _ m this]; exact ih (by omega)
    | th u ch => rw [hl] at this; exact log_mono (step_eff C _ _ u ch this) e (ih (by omega))

theorem step_stas {s s' : St τ φ δ} {l : Lbl χ} (hs : step C s l = some s') (c : Nat) : ∃ l', stas c s'.log = stas c s.log ++ l' := by
  obtain ⟨es, h⟩ := step_grow hs
  exact ⟨_, by rw [h, stas_append]⟩

theorem Run.stas_le (r : Run C) {i j : Nat} (hij : i ≤ j) (c : Nat) : ∃ l, stas c (r.st j).log = stas c (r.st i).log ++ l := by
  obtain ⟨k, rfl⟩ := Nat.exists_eq_add_of_le hij
  induction k with
  | zero => exact ⟨[], by simp⟩
  | succ k ih =>
    obtain ⟨l, h⟩ := ih (by omega)
    obtain ⟨l', h'⟩ := step_stas (r.ok (i + k)) c
    exact ⟨l ++ l', by rw [show i + (k + 1) = i + k + 1 from rfl, h', h, List.append_assoc]⟩

/-- Thread `t` is above `L` and its local context is `c`. -/
def Core.Above (t c : Nat) (L : List (Frame τ φ)) (s : St τ φ δ) : Prop :=
  ∃ pre, s.stk t = pre ++ L ∧ .core .unregClear ∉ pre ∧ s.loc t = some c

theorem Core.Above.step {s s' : St τ φ δ} {l : Lbl χ} {t c id : Nat} {f : φ} {rest : List (Frame τ φ)} (hr : Reach C d f0 s)
    (hs : step C s l = some s') (hreg : .registered c id t ∈ s.log) (hin : InReg s' c) (h : Above t c (.client f :: rest) s)
    (hsuf : .client f :: rest <:+ s'.stk t) : Above t c (.client f :: rest) s' := by
  obtain ⟨pre, h1, h2, h3⟩ := h
  by_cases hl : ∃ ch, l = .th t ch
  · obtain ⟨ch, rfl⟩ := hl
    cases pre with
    | nil =>
      obtain ⟨new, hn⟩ := step_stk_self hs h1
      obtain ⟨h4, h5⟩ := own_step hr hs h1 hn hreg (fun _ => ⟨h3, by simp⟩) hin
      obtain ⟨p, hp⟩ := hsuf
      refine ⟨p, hp.symm, ?_, h4⟩
      rw [hn] at hp
      have : new = p ++ [.client f] := by
        apply List.append_cancel_right (bs := rest)
        rw [← hp]; simp
      rw [this] at h5
      intro hm
      exact h5 (List.mem_append.2 (.inl hm))
    | cons g pre =>
      have h1' : s.stk t = g :: (pre ++ .client f :: rest) := h1
      obtain ⟨new, hn⟩ := step_stk_self hs h1'
      simp only [List.mem_cons, not_or] at h2
      obtain ⟨h4, h5⟩ := own_step hr hs h1' hn hreg (fun _ => ⟨h3, Ne.symm h2.1⟩) hin
      exact ⟨new ++ pre, by rw [hn, List.append_assoc], by simp [h5, h2.2], h4⟩
  · have := same_step hr hs (t := t) (by rw [h1]; simp) fun ch hc => hl ⟨ch, hc⟩
    exact ⟨pre, this.stk.trans h1, h2, this.loc.trans h3⟩

theorem Run.above' (r : Run C) (hr : Reach C d f0 (r.st 0)) {t c id i j : Nat} {f : φ} {rest : List (Frame τ φ)} (hij : i ≤ j)
    (hreg : .registered c id t ∈ (r.st i).log) (hun : ∀ m, i ≤ m → m ≤ j → ∀ id n, .unregistered c id n ∉ (r.st m).log)
    (h : Above t c (.client f :: rest) (r.st i)) (hsuf : ∀ m, i ≤ m → m ≤ j → .client f :: rest <:+ (r.st m).stk t) :
    Above t c (.client f :: rest) (r.st j) := by
  obtain ⟨k, rfl⟩ := Nat.exists_eq_add_of_le hij
  induction k with
  | zero => exact h
  | succ k ih =>
    exact (ih (by omega) (fun m h1 h2 => hun m h1 (by omega)) fun m h1 h2 => hsuf m h1 (by omega)).step (r.reach hr _) (r.ok (i + k))
      (r.logm (by omega) hreg) (r.inReg hr (r.logm (i := i) (by omega) hreg) (hun _ (by omega) (by omega))) (hsuf _ (by omega) (by omega))

theorem Run.above (r : Run C) (hr : Reach C d f0 (r.st 0)) {t c id i j : Nat} {f : φ} {rest : List (Frame τ φ)} (hij : i ≤ j)
    (hreg : .registered c id t ∈ (r.st i).log) (hun : ∀ j id n, .unregistered c id n ∉ (r.st j).log)
    (h : Above t c (.client f :: rest) (r.st i)) (hsuf : ∀ m, i ≤ m → m ≤ j → .client f :: rest <:+ (r.st m).stk t) :
    Above t c (.client f :: rest) (r.st j) := r.above' hr hij hreg (fun m _ _ => hun m) h hsuf

/-- When thread `t` is above `L` with local context `c`, this context is not unregistered before the thread has left `L`. -/
def Run.Keeps (r : Run C) (t c : Nat) (L : List (Frame τ φ)) : Prop :=
  ∀ i j, i ≤ j → Above t c L (r.st i) → (∀ m, i ≤ m → m ≤ j → L <:+ (r.st m).stk t) → ∀ id n, .unregistered c id n ∉ (r.st j).log

theorem Run.Keeps.of {r : Run C} {t c : Nat} {L : List (Frame τ φ)} (h : ∀ j id n, .unregistered c id n ∉ (r.st j).log) : r.Keeps t c L :=
  fun _ j _ _ _ => h j

/-! ## Rounds of a loop that calls wait -/

/-- The client code `f` is `while(!notified_for_exit()) wait();`: it always can continue, and as long as the thread is not told to exit it calls
    `this_thread::wait` and comes back to `f`. -/
structure IsLoop (C : Client τ φ δ χ) (f : φ) : Prop where
  on : ∀ v d rv, ∃ ch, (C.step v d f rv ch).isSome
  wait : ∀ v d rv ch d' a, v.exit = false → C.step v d f rv ch = some (d', a) → a = .call .wait f

/-- Thread `t`, registered as `c`, calls wait from `f` above `rest`; it is not unregistered meanwhile, and the tasks that these calls
    execute return, as do their destructors. -/
structure Calm (r : Run C) (d : δ) (f0 : φ) (t c : Nat) (f : φ) (rest : List (Frame τ φ)) : Prop where
  hr : Reach C d f0 (r.st 0)
  just : r.Just t
  keeps : r.Keeps t c (.client f :: rest)
  run : ∀ k b, r.Returns t (C.run k) (.core (.ran c k (.toWait b)) :: .client f :: rest)
  drop : ∀ k b, r.Returns t (C.destroy k) (.core (.freed c k (.toWait b)) :: .client f :: rest)

/-- The thread executes the loop `f` and is never told to exit. -/
structure Loops (r : Run C) (d : δ) (f0 : φ) (t c : Nat) (f : φ) (rest : List (Frame τ φ)) : Prop extends Calm r d f0 t c f rest where
  loop : IsLoop C f
  stay : ∀ j, .exitSet c ∉ (r.st j).log

section
variable {r : Run C} {t c : Nat} {f : φ} {rest : List (Frame τ φ)}

/-- The thread is at the head of the loop. -/
structure AtLoop (t c : Nat) (f : φ) (rest : List (Frame τ φ)) (s : St τ φ δ) : Prop where
  stk : s.stk t = .client f :: rest
  exc : (s.thr t).exc = none
  loc : s.loc t = some c

theorem AtLoop.above {s : St τ φ δ} (h : AtLoop t c f rest s) : Above t c (.client f :: rest) s := ⟨[], h.stk, by simp, h.loc⟩

theorem Core.Above.reg {s : St τ φ δ} {L : List (Frame τ φ)} (hr : Reach C d f0 s) (h : Above t c L s) : ∃ id, .registered c id t ∈ s.log := by
  obtain ⟨-, -, -, h⟩ := h
  obtain ⟨h1, h2, -⟩ := (WF.reach hr).loc t c h
  exact ⟨_, ((LInv.reach hr).regd c _ t).2 ⟨h1, rfl, h2⟩⟩

theorem Calm.at (h : Calm r d f0 t c f rest) {i j : Nat} (hij : i ≤ j) (h0 : Above t c (.client f :: rest) (r.st i))
    (hsuf : ∀ m, i ≤ m → m ≤ j → .client f :: rest <:+ (r.st m).stk t) : (r.st j).loc t = some c ∧ InReg (r.st j) c ∧
      ((r.st j).ctxs c).life = .alive ∧ accs c (r.st j).log = stas c (r.st j).log ++ ((r.st j).ctxs c).pend := by
  obtain ⟨id, hreg⟩ := h0.reg (r.reach h.hr i)
  have hun : ∀ m, i ≤ m → m ≤ j → ∀ id n, .unregistered c id n ∉ (r.st m).log := fun m h1 h2 =>
    h.keeps i m h1 h0 fun m' h3 h4 => hsuf m' h3 (by omega)
  have hin := r.inReg h.hr (r.logm hij hreg) (hun j hij (Nat.le_refl _))
  obtain ⟨-, -, -, hloc⟩ := r.above' h.hr hij hreg hun h0 hsuf
  have hq := QInv.reach (r.reach h.hr j)
  have hin' := hin
  obtain ⟨i', hi'⟩ := hin'
  have hal := ((WF.reach (r.reach h.hr j)).mem i' c hi').2.2
  refine ⟨hloc, hin, hal, ?_⟩
  have := hq.cons c
  rw [hq.alive c hal] at this
  simpa using this

theorem Loops.exit (h : Loops r d f0 t c f rest) (j : Nat) : ((r.st j).ctxs c).exit = false := by
  by_contra hc
  exact h.stay j (((QInv.reach (r.reach h.hr j)).exit c).1 (by simpa using hc))

/-- What a round of the loop has done by the time `j`. -/
structure Round (r : Run C) (t c : Nat) (f : φ) (rest : List (Frame τ φ)) (i j : Nat) (g : List (Frame τ φ)) : Prop where
  le : i ≤ j
  stk : (r.st j).stk t = g ++ .client f :: rest
  exc : ((r.st j).thr t).exc = none
  suf : ∀ m, i ≤ m → m ≤ j → .client f :: rest <:+ (r.st m).stk t

theorem suf_step {i j k : Nat} {L : List (Frame τ φ)} (h1 : ∀ m, i ≤ m → m ≤ j → L <:+ (r.st m).stk t)
    (h2 : ∀ m, j ≤ m → m ≤ k → L <:+ (r.st m).stk t) : ∀ m, i ≤ m → m ≤ k → L <:+ (r.st m).stk t := by
  intro m ha hb
  rcases Nat.le_total m j with h | h
  · exact h1 m ha h
  · exact h2 m h hb

/-- The next step of a thread that is never blocked at `g`. -/
theorem Round.own (h : Calm r d f0 t c f rest) {i j : Nat} {g : Frame τ φ} {G : List (Frame τ φ)} (hR : Round r t c f rest i j (g :: G))
    (hen : ∀ m, j ≤ m → Same t (r.st j) (r.st m) → ∃ ch, (step C (r.st m) (.th t ch)).isSome) :
    ∃ m, j ≤ m ∧ Round r t c f rest i m (g :: G) ∧ ∃ ch, step C (r.st m) (.th t ch) = some (r.st (m + 1)) := by
  obtain ⟨m, h1, h2, ⟨ch, h3⟩, h4⟩ := r.next h.hr h.just (i := j) (by rw [hR.stk]; simp) hen
  have hok := r.ok m
  rw [h3] at hok
  refine ⟨m, h1, ⟨Nat.le_trans hR.le h1, h2.stk.trans hR.stk, h2.exc.trans hR.exc, suf_step hR.suf fun m' ha hb => ?_⟩, ch, hok⟩
  rw [(h4 m' ha hb).stk, hR.stk]
  exact List.suffix_append _ _

theorem Round.succ {i m : Nat} {g G : List (Frame τ φ)} (hR : Round r t c f rest i m g) (h1 : (r.st (m + 1)).stk t = G ++ .client f :: rest)
    (h2 : ((r.st (m + 1)).thr t).exc = none) : Round r t c f rest i (m + 1) G := by
  refine ⟨Nat.le_succ_of_le hR.le, h1, h2, fun m' ha hb => ?_⟩
  rcases Nat.lt_or_eq_of_le hb with hb | rfl
  · exact hR.suf m' ha (by omega)
  · rw [h1]; exact List.suffix_append _ _

/-- The part of a round from the start of a task to the head of the loop. -/
theorem Round.task (h : Calm r d f0 t c f rest) {i j : Nat} (h0 : Above t c (.client f :: rest) (r.st i)) {k : τ} {b : Bool}
    (hR : Round r t c f rest i j [.client (C.run k), .core (.ran c k (.toWait b))]) : ∃ m, j < m ∧ Round r t c f rest i m [] := by
  obtain ⟨j1, h1, h2, h3, h4⟩ := h.run k b j hR.stk hR.exc
  have hR1 : Round r t c f rest i j1 [.core (.ran c k (.toWait b))] :=
    ⟨by have := hR.le; omega, h2, h3, suf_step hR.suf fun m ha hb => (List.suffix_cons _ _).trans (h4 m ha hb)⟩
  obtain ⟨j2, h5, hR2, ch, hs⟩ := hR1.own h fun m hm hsame => by
    refine ⟨.go, ?_⟩
    rw [step_th (r.reach h.hr m) (r.good m).1 (r.good m).2 (hsame.stk.trans hR1.stk) (hsame.exc.trans hR1.exc)]
    simp [stepCore]
  rw [step_th (r.reach h.hr j2) (r.good j2).1 (r.good j2).2 hR2.stk hR2.exc] at hs
  simp only [stepCore, Option.some.injEq] at hs
  have hR3 : Round r t c f rest i (j2 + 1) [.client (C.destroy k), .core (.freed c k (.toWait b))] := by
    refine hR2.succ ?_ ?_
    · rw [← hs]; simp [St.stk, St.setStk]
    · rw [← hs]; simpa [St.setStk] using hR2.exc
  obtain ⟨j4, h6, h7, h8, h9⟩ := h.drop k b _ hR3.stk hR3.exc
  have hR4 : Round r t c f rest i j4 [.core (.freed c k (.toWait b))] :=
    ⟨by have := hR3.le; omega, h7, h8, suf_step hR3.suf fun m ha hb => (List.suffix_cons _ _).trans (h9 m ha hb)⟩
  obtain ⟨j5, h10, hR5, ch', hs'⟩ := hR4.own h fun m hm hsame => by
    refine ⟨.go, ?_⟩
    rw [step_th (r.reach h.hr m) (r.good m).1 (r.good m).2 (hsame.stk.trans hR4.stk) (hsame.exc.trans hR4.exc)]
    simp only [stepCore]
    split <;> rfl
  obtain ⟨-, -, hal, -⟩ := h.at hR5.le h0 hR5.suf
  rw [step_th (r.reach h.hr j5) (r.good j5).1 (r.good j5).2 hR5.stk hR5.exc] at hs'
  simp only [stepCore, hal, ne_eq, not_true_eq_false, if_false, Option.some.injEq] at hs'
  refine ⟨j5 + 1, by omega, hR5.succ ?_ ?_⟩
  · rw [← hs']; simp [St.stk, St.ret]
  · rw [← hs']; simpa [St.ret, St.setCtx, St.ev] using hR5.exc

/-- The wait of a round that has begun at `i`: it starts a task, or ends without one. -/
def Begun (r : Run C) (t c : Nat) (f : φ) (rest : List (Frame τ φ)) (i j : Nat) : Prop :=
  (∃ k b, Round r t c f rest i j [.client (C.run k), .core (.ran c k (.toWait b))] ∧ ∃ m, i ≤ m ∧ stas c (r.st j).log = stas c (r.st m).log ++ [k]) ∨
  (Round r t c f rest i j [] ∧ ∃ m, i ≤ m ∧ stas c (r.st m).log = accs c (r.st m).log)

theorem start_at {s : St τ φ δ} {k : τ} {x : Ctx τ} {rr : Cont} {L : List (Frame τ φ)} :
    (s.startTask C t c k x rr L).stk t = .client (C.run k) :: .core (.ran c k rr) :: L ∧
    ((s.startTask C t c k x rr L).thr t).exc = (s.thr t).exc ∧ stas c (s.startTask C t c k x rr L).log = stas c s.log ++ [k] := by
  refine ⟨?_, ?_, ?_⟩
  · simp [St.startTask, St.stk, St.setStk]
  · simp [St.startTask, St.setStk, St.setCtx, St.ev]
  · simp [St.startTask, St.setStk, St.setCtx, St.ev, stas, extract]

theorem Round.start {i m : Nat} {g : List (Frame τ φ)} (hR : Round r t c f rest i m g) {k : τ} {x : Ctx τ} {b : Bool}
    (hs : (r.st m).startTask C t c k x (.toWait b) (.client f :: rest) = r.st (m + 1)) : Begun r t c f rest i (m + 1) := by
  obtain ⟨h1, h2, h3⟩ := start_at (C := C) (t := t) (c := c) (s := r.st m) (k := k) (x := x) (rr := .toWait b) (L := .client f :: rest)
  rw [hs] at h1 h2 h3
  exact .inl ⟨k, b, hR.succ (G := [_, _]) h1 (h2.trans hR.exc), m, hR.le, h3⟩

theorem Round.idle (h : Calm r d f0 t c f rest) {i m : Nat} {g : List (Frame τ φ)} (h0 : Above t c (.client f :: rest) (r.st i)) (hR : Round r t c f rest i m g)
    (hp : ((r.st m).ctxs c).pend = []) (h1 : (r.st (m + 1)).stk t = .client f :: rest)
    (h2 : ((r.st (m + 1)).thr t).exc = none) : Begun r t c f rest i (m + 1) := by
  obtain ⟨-, -, -, hq⟩ := h.at hR.le h0 hR.suf
  rw [hp, List.append_nil] at hq
  exact .inr ⟨hR.succ (G := []) h1 h2, m, hR.le, hq.symm⟩

theorem parked_own {s s' : St τ φ δ} {dl : Option Nat} {L : List (Frame τ φ)} {ch : Ch χ} (hr : Reach C d f0 s) (hub : s.ub = false)
    (hterm : s.term = false) (hst : s.stk t = .core (.parked c dl) :: L) (hexc : (s.thr t).exc = none) (hal : (s.ctxs c).life = .alive)
    (hs : step C s (.th t ch) = some s') :
    (∃ k x b, s.startTask C t c k x (.toWait b) L = s') ∨ ((s.ctxs c).pend = [] ∧ s'.stk t = L ∧ (s'.thr t).exc = none) ∨
    ((s.ctxs c).wakeup = false ∧ s'.stk t = s.stk t ∧ (s'.thr t).exc = none) := by
  rw [step_th hr hub hterm hst hexc] at hs
  have hpop : ∀ b, (match ({ s.ctxs c with wakeup := false } : Ctx τ).pop with
      | some (k, x) => some (s.startTask C t c k x (.toWait b) L)
      | none => some ((s.setCtx c { s.ctxs c with wakeup := false }).ret t L .wait (.cv b))) = some s' →
      (∃ k x b, s.startTask C t c k x (.toWait b) L = s') ∨ ((s.ctxs c).pend = [] ∧ s'.stk t = L ∧ (s'.thr t).exc = none) ∨
      ((s.ctxs c).wakeup = false ∧ s'.stk t = s.stk t ∧ (s'.thr t).exc = none) := by
    intro b h
    split at h
    · exact .inl ⟨_, _, _, Option.some.inj h⟩
    · rename_i hp
      obtain rfl := Option.some.inj h
      exact .inr (.inl ⟨(show ({ s.ctxs c with wakeup := false } : Ctx τ).pend = [] from pop_none.1 hp), by simp [St.ret, St.stk], by simpa [St.ret, St.setCtx] using hexc⟩)
  simp only [stepCore] at hs
  rw [if_neg (by simp [hal])] at hs
  cases ch with
  | go =>
    simp only at hs
    split at hs
    · split at hs
      · exact hpop _ hs
      · rename_i hw
        obtain rfl := Option.some.inj hs
        exact .inr (.inr ⟨by simpa using hw, rfl, hexc⟩)
    · contradiction
  | spurious =>
    simp only at hs
    split at hs
    · exact hpop _ hs
    · contradiction
  | timeout =>
    simp only at hs
    split at hs
    · contradiction
    · split at hs
      · exact hpop _ hs
      · contradiction
  | user u => contradiction

/-- A thread does not stay in a wait if from some time on there is always something to do. -/
theorem Calm.wake (h : Calm r d f0 t c f rest) {i j : Nat} (h0 : Above t c (.client f :: rest) (r.st i)) {dl : Option Nat}
    (hrnd : ∀ m, j ≤ m → Round r t c f rest i m [.core (.parked c dl)]) {n : Nat}
    (hp : ∀ m, n ≤ m → ((r.st m).ctxs c).pend ≠ [] ∨ ((r.st m).ctxs c).exit = true) : False := by
  have hw : ∀ m, max j n ≤ m → ((r.st m).ctxs c).wakeup = true ∧ ((r.st m).ctxs c).cv = true ∧ ((r.st m).ctxs c).life = .alive := by
    intro m hm
    have hm' := hrnd m (by omega)
    obtain ⟨-, -, hal, -⟩ := h.at hm'.le h0 hm'.suf
    obtain ⟨w1, w2⟩ := (QInv.reach (r.reach h.hr m)).wake t c dl _ hm'.stk
    have := w1 (hp m (by omega))
    exact ⟨this, w2 this, hal⟩
  obtain ⟨m, hm, hR', ch, hs⟩ := (hrnd (max j n) (by omega)).own h fun m hm hsame => by
    refine ⟨.go, ?_⟩
    obtain ⟨w2, w3, w4⟩ := hw m hm
    have hm' := hrnd m (by omega)
    rw [step_th (r.reach h.hr m) (r.good m).1 (r.good m).2 hm'.stk hm'.exc]
    simp only [stepCore, w4, ne_eq, not_true_eq_false, if_false, w2, w3, if_true]
    split <;> rfl
  obtain ⟨w2, w3, w4⟩ := hw m hm
  have hnext : (r.st (m + 1)).stk t = .core (.parked c dl) :: .client f :: rest := (hrnd (m + 1) (by omega)).stk
  rcases parked_own (L := .client f :: rest) (r.reach h.hr m) (r.good m).1 (r.good m).2 hR'.stk hR'.exc w4 hs with ⟨k, x, b, h1⟩ | ⟨-, h1, -⟩ | ⟨h1, -⟩
  · have := (start_at (C := C) (t := t) (c := c) (s := r.st m) (k := k) (x := x) (rr := .toWait b) (L := .client f :: rest)).1
    rw [h1, hnext] at this
    simp at this
  · rw [hnext] at h1
    exact absurd (congrArg List.length h1) (by simp)
  · rw [w2] at h1; cases h1

/-- The same for tasks. -/
theorem Calm.awake (h : Calm r d f0 t c f rest) {i j : Nat} (h0 : Above t c (.client f :: rest) (r.st i)) {dl : Option Nat}
    (hrnd : ∀ m, j ≤ m → Round r t c f rest i m [.core (.parked c dl)]) {n : Nat} (hp : ∀ m, n ≤ m → stas c (r.st m).log ≠ accs c (r.st m).log) : False := by
  refine h.wake h0 hrnd (n := max j n) fun m hm => .inl fun he => hp m (by omega) ?_
  have hm' := hrnd m (by omega)
  rw [(h.at hm'.le h0 hm'.suf).2.2.2, he]; simp

/-- A wait that blocks ends, or the thread stays in it. -/
theorem Round.park (h : Calm r d f0 t c f rest) {i j : Nat} (h0 : Above t c (.client f :: rest) (r.st i)) {dl : Option Nat}
    (hR : Round r t c f rest i j [.core (.parked c dl)]) :
    (∃ m, j < m ∧ Begun r t c f rest i m) ∨ ∀ m, j ≤ m → Round r t c f rest i m [.core (.parked c dl)] := by
  classical
  have hstay : ∀ k, j ≤ k → (∀ m, j ≤ m → m ≤ k → (r.st m).stk t = .core (.parked c dl) :: .client f :: rest ∧ ((r.st m).thr t).exc = none) →
      Round r t c f rest i k [.core (.parked c dl)] := by
    intro k hk hall
    refine ⟨Nat.le_trans hR.le hk, (hall k hk (Nat.le_refl _)).1, (hall k hk (Nat.le_refl _)).2, suf_step hR.suf fun m ha hb => ?_⟩
    rw [(hall m ha hb).1]; exact List.suffix_cons _ _
  by_cases hex : ∃ m, j < m ∧ ¬ ((r.st m).stk t = .core (.parked c dl) :: .client f :: rest ∧ ((r.st m).thr t).exc = none)
  swap
  · push Not at hex
    have hall : ∀ m, j ≤ m → (r.st m).stk t = .core (.parked c dl) :: .client f :: rest ∧ ((r.st m).thr t).exc = none := by
      intro m hm
      rcases Nat.lt_or_eq_of_le hm with hm | rfl
      · exact hex m hm
      · exact ⟨hR.stk, hR.exc⟩
    exact .inr fun m hm => hstay m hm fun m' ha _ => hall m' ha
  have hspec := Nat.find_spec hex
  have hmin := fun m => Nat.find_min hex (m := m)
  generalize Nat.find hex = m at hspec hmin
  obtain ⟨hjm, hne⟩ := hspec
  obtain ⟨m, rfl⟩ : ∃ m', m = m' + 1 := ⟨m - 1, by omega⟩
  have hRm : Round r t c f rest i m [.core (.parked c dl)] := hstay m (by omega) fun m' ha hb => by
    rcases Nat.lt_or_eq_of_le ha with ha | rfl
    · by_contra hc; exact hmin m' (by omega) ⟨ha, hc⟩
    · exact ⟨hR.stk, hR.exc⟩
  refine .inl ⟨m + 1, hjm, ?_⟩
  have hok := r.ok m
  by_cases hl : ∃ ch, r.lab m = .th t ch
  · obtain ⟨ch, hl⟩ := hl
    rw [hl] at hok
    obtain ⟨-, -, hal, -⟩ := h.at hRm.le h0 hRm.suf
    rcases parked_own (L := .client f :: rest) (r.reach h.hr m) (r.good m).1 (r.good m).2 hRm.stk hRm.exc hal hok with ⟨k, x, b, h1⟩ | ⟨h1, h2, h3⟩ | ⟨-, h2, h3⟩
    · exact hRm.start h1
    · exact hRm.idle h h0 h1 h2 h3
    · exact absurd ⟨h2.trans hRm.stk, h3⟩ hne
  · have := same_step (r.reach h.hr m) hok (t := t) (by rw [hRm.stk]; simp) fun ch hc => hl ⟨ch, hc⟩
    exact absurd ⟨this.stk.trans hRm.stk, this.exc.trans hRm.exc⟩ hne

/-- A call of wait that has begun: it starts a task or ends without one, or the thread stays in it. -/
theorem Round.wait (h : Calm r d f0 t c f rest) {i j : Nat} (h0 : Above t c (.client f :: rest) (r.st i)) {dl : Option Nat}
    (hR2 : Round r t c f rest i j [.core (.waitIn dl)]) :
    (∃ m, j < m ∧ Begun r t c f rest i m) ∨ ∃ m dl, j < m ∧ ∀ m', m ≤ m' → Round r t c f rest i m' [.core (.parked c dl)] := by
  obtain ⟨j2, h2, hR3, ch2, hs2⟩ := hR2.own h fun m hm hsame => by
    refine ⟨.go, ?_⟩
    rw [step_th (r.reach h.hr m) (r.good m).1 (r.good m).2 (hsame.stk.trans hR2.stk) (hsame.exc.trans hR2.exc)]
    simp only [stepCore]
    repeat' split
    all_goals rfl
  obtain ⟨hloc, -, hal, -⟩ := h.at hR3.le h0 hR3.suf
  rw [step_th (r.reach h.hr j2) (r.good j2).1 (r.good j2).2 hR3.stk hR3.exc] at hs2
  have hloc' : ((r.st j2).thr t).loc = some c := hloc
  simp only [stepCore, hloc', hal, ne_eq, not_true_eq_false, if_false] at hs2
  split at hs2
  · exact .inl ⟨j2 + 1, by omega, hR3.start (Option.some.inj hs2)⟩
  rename_i hpop
  split at hs2
  · have hs2' := Option.some.inj hs2
    exact .inl ⟨j2 + 1, by omega, hR3.idle h h0 (pop_none.1 hpop) (by rw [← hs2']; simp [St.stk, St.ret]) (by rw [← hs2']; simpa [St.ret] using hR3.exc)⟩
  · have hs2' := Option.some.inj hs2
    have hR4 : Round r t c f rest i (j2 + 1) [.core (.parked c (dl.map ((r.st j2).clock + ·)))] := by
      refine hR3.succ ?_ ?_
      · rw [← hs2']; simp [St.stk, St.setStk]
      · rw [← hs2']; simpa [St.setStk, St.setCtx] using hR3.exc
    rcases hR4.park h h0 with ⟨m, hm, hb⟩ | hb
    · exact .inl ⟨m, by omega, hb⟩
    · exact .inr ⟨_, _, by omega, hb⟩

/-- A wait that has started a task, or ended without one, returns. -/
theorem Begun.back (h : Calm r d f0 t c f rest) {i j : Nat} (h0 : Above t c (.client f :: rest) (r.st i)) (hb : Begun r t c f rest i j) :
    ∃ m, j ≤ m ∧ Round r t c f rest i m [] := by
  rcases hb with ⟨k, b, hR, -⟩ | ⟨hR, -⟩
  · obtain ⟨m, h1, h2⟩ := hR.task h h0
    exact ⟨m, by omega, h2⟩
  · exact ⟨j, Nat.le_refl _, hR⟩

/-- A round: the thread sees at the head of the loop that it is told to exit, or it comes back to the head of the loop, and unless there was a time without a task it has started one; or it stays in the wait. -/
theorem Calm.round (h : Calm r d f0 t c f rest) (hl : IsLoop C f) {i : Nat} (h0 : AtLoop t c f rest (r.st i)) :
    (∃ j, i ≤ j ∧ AtLoop t c f rest (r.st j) ∧ (∀ m, i ≤ m → m ≤ j → .client f :: rest <:+ (r.st m).stk t) ∧ (∃ ch, r.lab j = .th t ch) ∧
      ((r.st j).ctxs c).exit = true) ∨
    (∃ j, i < j ∧ AtLoop t c f rest (r.st j) ∧ (∀ m, i ≤ m → m ≤ j → .client f :: rest <:+ (r.st m).stk t) ∧
      ((∃ m, i ≤ m ∧ stas c (r.st m).log = accs c (r.st m).log) ∨ (stas c (r.st i).log).length < (stas c (r.st j).log).length)) ∨
    ∃ j dl, i < j ∧ ∀ m, j ≤ m → Round r t c f rest i m [.core (.parked c dl)] := by
  have hR : Round r t c f rest i i [] := ⟨Nat.le_refl _, h0.stk, h0.exc, fun m ha hb => by
    obtain rfl := Nat.le_antisymm hb ha; rw [h0.stk]; exact List.suffix_refl _⟩
  -- the call of wait
  obtain ⟨j1, h1, hs1, ⟨ch1, hl1⟩, hk1⟩ := r.next h.hr h.just (i := i) (by rw [h0.stk]; simp) fun m hm hsame => by
    obtain ⟨ch, hch⟩ := hl.on ((r.st m).view t) (r.st m).data ((r.st m).thr t).rv
    refine ⟨ch, ?_⟩
    rw [step_th (r.reach h.hr m) (r.good m).1 (r.good m).2 (hsame.stk.trans h0.stk) (hsame.exc.trans h0.exc)]
    simp only [stepClient]
    split
    · rename_i hn; rw [hn] at hch; cases hch
    · split <;> rfl
  have hR1 : Round r t c f rest i j1 [] := ⟨h1, hs1.stk.trans h0.stk, hs1.exc.trans h0.exc, fun m ha hb => by
    rw [(hk1 m ha hb).stk, h0.stk]; exact List.suffix_refl _⟩
  obtain ⟨hloc, -, -, -⟩ := h.at hR1.le h0.above hR1.suf
  by_cases hex : ((r.st j1).ctxs c).exit = true
  · exact .inl ⟨j1, h1, ⟨hR1.stk, hR1.exc, hloc⟩, hR1.suf, ⟨ch1, hl1⟩, hex⟩
  replace hex : ((r.st j1).ctxs c).exit = false := by simpa using hex
  right
  have hok := r.ok j1
  rw [hl1, step_th (r.reach h.hr j1) (r.good j1).1 (r.good j1).2 hR1.stk hR1.exc] at hok
  simp only [stepClient] at hok
  have hview : ((r.st j1).view t).exit = false := by
    have : ((r.st j1).thr t).loc = some c := hloc
    simp [St.view, St.notified, this, hex]
  split at hok
  · contradiction
  rename_i d' a hstep
  obtain rfl := hl.wait _ _ _ _ _ _ hview hstep
  have hok' := Option.some.inj hok
  have hR2 : Round r t c f rest i (j1 + 1) [.core (.waitIn none)] := by
    refine hR1.succ ?_ ?_
    · rw [← hok']; simp [St.stk, St.setStk, Api.entry]
    · rw [← hok']; simpa [St.setStk] using hR1.exc
  have hB : (∃ j, i < j ∧ Begun r t c f rest i j) ∨ ∃ j dl, i < j ∧ ∀ m, j ≤ m → Round r t c f rest i m [.core (.parked c dl)] := by
    rcases hR2.wait h h0.above with ⟨m, hm, hb⟩ | ⟨m, dl, hm, hb⟩
    · exact .inl ⟨m, by omega, hb⟩
    · exact .inr ⟨m, dl, by omega, hb⟩
  have fin : ∀ j, i ≤ j → Round r t c f rest i j [] → AtLoop t c f rest (r.st j) := fun j hj hRj =>
    ⟨hRj.stk, hRj.exc, (h.at hRj.le h0.above hRj.suf).1⟩
  rcases hB with ⟨j, hj, hb | ⟨hRj, m, hm, he⟩⟩ | hB
  · obtain ⟨k, b, hRj, m, hm, he⟩ := hb
    obtain ⟨j', hj', hR'⟩ := hRj.task h h0.above
    refine .inl ⟨j', by omega, fin j' (by omega) hR', hR'.suf, .inr ?_⟩
    obtain ⟨l1, e1⟩ := r.stas_le hm c
    obtain ⟨l2, e2⟩ := r.stas_le (Nat.le_of_lt hj') c
    rw [e2, he, e1]
    simp; omega
  · exact .inl ⟨j, hj, fin j (by omega) hRj, hRj.suf, .inl ⟨m, hm, he⟩⟩
  · exact .inr hB

/-- The same for a thread that is never told to exit. -/
theorem Loops.round (h : Loops r d f0 t c f rest) {i : Nat} (h0 : AtLoop t c f rest (r.st i)) :
    (∃ j, i < j ∧ AtLoop t c f rest (r.st j) ∧ (∀ m, i ≤ m → m ≤ j → .client f :: rest <:+ (r.st m).stk t) ∧
      ((∃ m, i ≤ m ∧ stas c (r.st m).log = accs c (r.st m).log) ∨ (stas c (r.st i).log).length < (stas c (r.st j).log).length)) ∨
    ∃ j dl, i < j ∧ ∀ m, j ≤ m → Round r t c f rest i m [.core (.parked c dl)] := by
  rcases h.toCalm.round h.loop h0 with ⟨j, -, -, -, -, h1⟩ | h1
  · rw [h.exit j] at h1; cases h1
  · exact h1

/-- The rounds of a loop: the thread is at its head again and again, or it stays in a wait. -/
theorem Loops.far (h : Loops r d f0 t c f rest) {i : Nat} (h0 : AtLoop t c f rest (r.st i)) (q : Nat) :
    ∃ i', i ≤ i' ∧ AtLoop t c f rest (r.st i') ∧ (∀ m, i ≤ m → m ≤ i' → .client f :: rest <:+ (r.st m).stk t) ∧
      (q ≤ i' ∨ ∃ j dl, i' < j ∧ ∀ m, j ≤ m → Round r t c f rest i' m [.core (.parked c dl)]) := by
  induction q with
  | zero => exact ⟨i, Nat.le_refl _, h0, fun m ha hb => by obtain rfl := Nat.le_antisymm hb ha; rw [h0.stk]; exact List.suffix_refl _, .inl (by omega)⟩
  | succ q ih =>
    obtain ⟨i', h1, h2, h3, h4⟩ := ih
    rcases h4 with h4 | h4
    · rcases h.round h2 with ⟨j, h5, h6, h7, -⟩ | h5
      · exact ⟨j, by omega, h6, suf_step h3 h7, .inl (by omega)⟩
      · exact ⟨i', h1, h2, h3, .inr h5⟩
    · exact ⟨i', h1, h2, h3, .inr h4⟩

/-- The thread stays above its loop. -/
theorem Loops.suf (h : Loops r d f0 t c f rest) {i : Nat} (h0 : AtLoop t c f rest (r.st i)) {m : Nat} (hm : i ≤ m) :
    .client f :: rest <:+ (r.st m).stk t := by
  obtain ⟨i', h1, h2, h3, h4⟩ := h.far h0 m
  by_cases hle : m ≤ i'
  · exact h3 m hm hle
  · rcases h4 with h4 | ⟨j, dl, h5, h6⟩
    · exact absurd h4 hle
    · have := h6 (max m j) (by omega)
      exact this.suf m (by omega) (by omega)

/-- Such a thread is never unregistered. -/
theorem Loops.unr (h : Loops r d f0 t c f rest) {i : Nat} (h0 : AtLoop t c f rest (r.st i)) (j : Nat) (id n : Nat) : .unregistered c id n ∉ (r.st j).log :=
  fun hc => h.keeps i (max i j) (by omega) h0.above (fun _ hm _ => h.suf h0 hm) id n (r.logm (by omega) hc)

/-- After any time the thread is at the head of its loop, or in a wait called there. -/
theorem Loops.back (h : Loops r d f0 t c f rest) {i : Nat} (h0 : AtLoop t c f rest (r.st i)) (q : Nat) :
    ∃ m, q ≤ m ∧ ((r.st m).thr t).exc = none ∧ ((r.st m).stk t = .client f :: rest ∨ ∃ dl, (r.st m).stk t = .core (.parked c dl) :: .client f :: rest) := by
  obtain ⟨i', h1, h2, h3, h4⟩ := h.far h0 q
  rcases h4 with h4 | ⟨j, dl, h5, h6⟩
  · exact ⟨i', h4, h2.exc, .inl h2.stk⟩
  · have := h6 (max q j) (by omega)
    exact ⟨max q j, by omega, this.exc, .inr ⟨dl, this.stk⟩⟩

theorem prefix_get {β : Type} {l1 l2 : List β} (h : l1 <+: l2) {n : Nat} (hn : n < l1.length) : l1[n]? = l2[n]? := by
  obtain ⟨e, rfl⟩ := h
  rw [List.getElem?_append_left hn]

theorem step_accs {s s' : St τ φ δ} {l : Lbl χ} (hs : step C s l = some s') (c : Nat) : ∃ l', accs c s'.log = accs c s.log ++ l' := by
  obtain ⟨es, h⟩ := step_grow hs
  exact ⟨_, by rw [h, accs_append]⟩

theorem Run.accs_le (r : Run C) {i j : Nat} (hij : i ≤ j) (c : Nat) : accs c (r.st i).log <+: accs c (r.st j).log := by
  obtain ⟨k, rfl⟩ := Nat.exists_eq_add_of_le hij
  induction k with
  | zero => exact List.prefix_refl _
  | succ k ih =>
    obtain ⟨l', h'⟩ := step_accs (r.ok (i + k)) c
    refine (ih (by omega)).trans ?_
    rw [show i + (k + 1) = i + k + 1 from rfl, h']
    exact List.prefix_append _ _

/-- A step after which more tasks of `c` have been started starts one. -/
theorem start_step {s s' : St τ φ δ} {u : Nat} {ch : Ch χ} (hs : step C s (.th u ch) = some s') (hne : stas c s'.log ≠ stas c s.log) :
    ∃ k rr L g, s.stk u = g :: L ∧ s'.stk u = .client (C.run k) :: .core (.ran c k rr) :: L ∧ stas c s'.log = stas c s.log ++ [k] ∧
      k ∈ (s.ctxs c).pend ∧ s'.log = .started u c k :: s.log ∧ (s'.thr u).exc = none := by
  have hexc : (s'.thr u).exc = none ∨ stas c s'.log = stas c s.log := by
    simp only [step] at hs
    split at hs
    · contradiction
    split at hs
    · contradiction
    split at hs
    · obtain rfl := Option.some.inj hs
      right
      rename_i e he
      unfold stepExc
      repeat' split
      all_goals simp [St.setStk, stas, extract]
    · rename_i hn
      split at hs
      · obtain rfl := Option.some.inj hs; left; simp [stepEnd]
      · rename_i f L hst
        cases f with
        | retv d => cases d <;> simp only [stepCore] at hs <;> obtain rfl := Option.some.inj hs <;> exact .inr (by simp [St.ret, St.ev, stas, extract])
        | destroyList c l f v => cases l <;> simp only [stepCore] at hs <;> obtain rfl := Option.some.inj hs <;> exact .inr (by simp [St.ret, St.ev, St.setStk, St.setCtx, stas, extract])
        | regDone c self => cases self <;> simp only [stepCore] at hs <;> obtain rfl := Option.some.inj hs <;> exact .inr rfl
        | sdNotify l T =>
          cases l <;> simp only [stepCore] at hs <;> (repeat' (split at hs)) <;> first
            | contradiction
            | (obtain rfl := Option.some.inj hs; right; simp [St.ret, St.ev, St.setStk, St.setCtx, St.hold, stas, extract]; done)
        | _ =>
          simp only [stepCore] at hs
          repeat' (split at hs)
          all_goals first
            | contradiction
            | (obtain rfl := Option.some.inj hs
               first
                 | (left; simp [St.ret, St.ev, St.setStk, St.setCtx, St.hold, St.startTask, hn]; done)
                 | (right; simp [St.ret, St.ev, St.setStk, St.setCtx, St.hold, stas, extract]; done))
      · right
        simp only [stepClient] at hs
        repeat' (split at hs)
        all_goals first
          | contradiction
          | (obtain rfl := Option.some.inj hs; simp [St.setStk])
  rcases hexc with hexc | h
  swap
  · exact absurd h hne
  cases step_eff C s s' u ch hs with
  | start c' k x rr f rest w hreg hold hf halive hpop hctx hloc hstk hlog =>
    have : c' = c := by
      by_contra hc
      apply hne
      rw [hlog]; simp [stas, extract, hc]
    subst this
    refine ⟨k, rr, rest, f, hold, by rw [hstk]; simp, by rw [hlog]; simp [stas, extract], ?_, hlog, hexc⟩
    have := pop_cons hpop
    rw [show ({ s.ctxs c' with wakeup := w } : Ctx τ).pend = (s.ctxs c').pend from rfl] at this
    rw [this]; simp
  | ctl es old new rest hreg hctx hloc hold holdp hstk hnewp hdl hlog hes => exact absurd (by rw [hlog, stas_neutral _ _ _ hes]) hne
  | freed c' k r' new rest es hreg hold halive hctx hloc hstk hnewp hnewd hlog hes =>
    exact absurd (by rw [hlog, stas_neutral _ _ _ hes]; simp [stas, extract]) hne
  | relLast c' f' v rest hreg hold hemp hnot hctx hloc hstk hlog =>
    refine absurd ?_ hne
    rw [hlog, stas_append, show stas c ((s.ctxs c').pend.map (Ev.dropped u c')).reverse = [] from extract_drops _ _ (fun _ => rfl) _, List.append_nil]
  | unreg c' rest hold hfind hgen hn hidm hcon hctx hloc hstk hlog =>
    refine absurd ?_ hne
    rw [hlog]; split <;> simp [stas, extract]
  | _ => exact absurd (by simp_all [stas, extract]) hne

/-- Only the thread itself starts the tasks of its context. -/
theorem start_own {s s' : St τ φ δ} {u id : Nat} {ch : Ch χ} (hr : Reach C d f0 s) (hs : step C s (.th u ch) = some s') (hne : stas c s'.log ≠ stas c s.log)
    (hreg : .registered c id t ∈ s.log) : u = t := by
  obtain ⟨k', rr, L, g, h1, h2, h3, h4, h5, h6⟩ := start_step hs hne
  have hL := LInv.reach (hr.step hs)
  have hh := hL.hist
  rw [h5] at hh
  obtain ⟨id', hreg'⟩ := hh.1
  have hreg' : Ev.registered c id' u ∈ s'.log := by rw [h5]; exact List.mem_cons_of_mem _ hreg'
  have hreg : Ev.registered c id t ∈ s'.log := by rw [h5]; exact List.mem_cons_of_mem _ hreg
  exact ((hL.regd c id' u).1 hreg').2.2.symm.trans ((hL.regd c id t).1 hreg).2.2

/-- A thread does not stay in a wait once there is something to do. -/
theorem Calm.wakes (h : Calm r d f0 t c f rest) {i j : Nat} (h0 : Above t c (.client f :: rest) (r.st i)) {dl : Option Nat}
    (hrnd : ∀ m, j ≤ m → Round r t c f rest i m [.core (.parked c dl)]) {n : Nat} (hn : j ≤ n)
    (hp : ((r.st n).ctxs c).pend ≠ [] ∨ ((r.st n).ctxs c).exit = true) : False := by
  obtain ⟨id, hreg⟩ := h0.reg (r.reach h.hr i)
  have hst : ∀ k, stas c (r.st (n + k)).log = stas c (r.st n).log := by
    intro k
    induction k with
    | zero => rfl
    | succ k ih =>
      rw [← ih]
      by_contra hne
      have hok := r.ok (n + k)
      cases hl : r.lab (n + k) with
      | tick x => rw [hl] at hok; exact hne (by rw [show n + (k + 1) = n + k + 1 from rfl, step_tick C _ _ x hok])
      | th u ch =>
        rw [hl] at hok
        have hle := (hrnd j (Nat.le_refl _)).le
        obtain rfl := start_own (r.reach h.hr _) hok hne (r.logm (by omega) hreg)
        obtain ⟨k', rr, L, g, h1, h2, h3, h4, h5, h6⟩ := start_step hok hne
        rw [(hrnd (n + k + 1) (by omega)).stk] at h2
        simp at h2
  refine h.wake h0 hrnd (n := n) fun m hm => ?_
  have hm' := hrnd m (by omega)
  have hn' := hrnd n hn
  rcases hp with hp | hp
  · left
    intro he
    have h1 := (h.at hm'.le h0 hm'.suf).2.2.2
    have h2 := (h.at hn'.le h0 hn'.suf).2.2.2
    obtain ⟨k, rfl⟩ := Nat.exists_eq_add_of_le hm
    rw [he, List.append_nil, hst k] at h1
    obtain ⟨e, he'⟩ := r.accs_le hm c
    rw [h1, h2, List.append_assoc] at he'
    have := congrArg List.length he'
    simp only [List.length_append] at this
    exact hp (List.eq_nil_of_length_eq_zero (by omega))
  · right
    exact ((QInv.reach (r.reach h.hr m)).exit c).2 (r.logm hm (((QInv.reach (r.reach h.hr n)).exit c).1 hp))

/-- A thread that is told to exit gets to the head of its loop and sees it. -/
theorem Calm.leave (h : Calm r d f0 t c f rest) (hl : IsLoop C f) {i n : Nat} (h0 : AtLoop t c f rest (r.st i)) (hx : .exitSet c ∈ (r.st n).log) :
    ∃ j, i ≤ j ∧ AtLoop t c f rest (r.st j) ∧ (∀ m, i ≤ m → m ≤ j → .client f :: rest <:+ (r.st m).stk t) ∧ (∃ ch, r.lab j = .th t ch) ∧
      ((r.st j).ctxs c).exit = true := by
  by_contra hcon
  have hexit : ∀ m, n ≤ m → ((r.st m).ctxs c).exit = true := fun m hm => ((QInv.reach (r.reach h.hr m)).exit c).2 (r.logm hm hx)
  have far : ∀ q, ∃ i', i ≤ i' ∧ q ≤ i' ∧ AtLoop t c f rest (r.st i') ∧ ∀ m, i ≤ m → m ≤ i' → .client f :: rest <:+ (r.st m).stk t := by
    intro q
    induction q with
    | zero => exact ⟨i, Nat.le_refl _, by omega, h0, fun m ha hb => by obtain rfl := Nat.le_antisymm hb ha; rw [h0.stk]; exact List.suffix_refl _⟩
    | succ q ih =>
      obtain ⟨i', h1, h2, h3, h4⟩ := ih
      rcases h.round hl h3 with ⟨j, h5, h6, h7, h8⟩ | ⟨j, h5, h6, h7, -⟩ | ⟨j, dl, h5, h6⟩
      · exact (hcon ⟨j, by omega, h6, suf_step h4 h7, h8⟩).elim
      · exact ⟨j, by omega, by omega, h6, suf_step h4 h7⟩
      · exact (h.wakes h3.above h6 (n := max j n) (by omega) (.inr (hexit _ (by omega)))).elim
  obtain ⟨i', h1, h2, h3, h4⟩ := far n
  obtain ⟨j, h5, h6, h7, h8⟩ := r.next h.hr h.just (i := i') (by rw [h3.stk]; simp) fun m hm hsame => by
    obtain ⟨ch, hch⟩ := hl.on ((r.st m).view t) (r.st m).data ((r.st m).thr t).rv
    refine ⟨ch, ?_⟩
    rw [step_th (r.reach h.hr m) (r.good m).1 (r.good m).2 (hsame.stk.trans h3.stk) (hsame.exc.trans h3.exc)]
    simp only [stepClient]
    split
    · rename_i hn; rw [hn] at hch; cases hch
    · split <;> rfl
  refine hcon ⟨j, by omega, ⟨h6.stk.trans h3.stk, h6.exc.trans h3.exc, h6.loc.trans h3.loc⟩, suf_step h4 fun m ha hb => ?_, h7, hexit j (by omega)⟩
  rw [(h8 m ha hb).stk, h3.stk]; exact List.suffix_refl _

end
end
end Itc
