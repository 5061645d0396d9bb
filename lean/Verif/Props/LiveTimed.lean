import Verif.Core.Timed
import Verif.Props.LiveFut
import Verif.Props.Calls

/-!
# C62: calls with a time limit return

For an arbitrary client and infinite execution in which time passes; vocabulary of `Verif.Props.Live`.
-/
namespace Itc
open Core
section
variable {τ φ δ χ : Type} {C : Client τ φ δ χ} {d : δ} {f0 : φ} {t i : Nat} {f : φ} {rest : List (Frame τ φ)}

/-- Thread `t`, which has the local context `c`, returns from the tasks that it executes directly above `L` in a function that goes on as `rr` says, and from
    their destructors. -/
def FromTasks (r : Run C) (t c : Nat) (rr : Cont) (L : List (Frame τ φ)) : Prop :=
  ∀ k, r.Returns t (C.run k) (.core (.ran c k rr) :: L) ∧ r.Returns t (C.destroy k) (.core (.freed c k rr) :: L)

theorem back_of {r : Run C} {l : Option Nat} (h : (∀ c, l = some c → ∀ j id n, .unregistered c id n ∉ (r.st j).log) → ∃ m, i < m ∧ AtT r t l f rest i m []) :
    (∃ m, r.Ends t (.client f :: rest) i m ∧ ((r.st m).thr t).exc = none) ∨ ∃ c m id n, l = some c ∧ .unregistered c id n ∈ (r.st m).log := by
  by_cases hu : ∃ c m id n, l = some c ∧ .unregistered c id n ∈ (r.st m).log
  · exact .inr hu
  · obtain ⟨m, h1, h2⟩ := h fun c hc j id n hn => hu ⟨c, j, id, n, hc, hn⟩
    exact .inl ⟨m, ⟨h1, h2.stk, h2.suf⟩, h2.exc⟩

theorem atT_of {r : Run C} {x : Frame τ φ} (hst : (r.st i).stk t = x :: .client f :: rest) (hexc : ((r.st i).thr t).exc = none) :
    AtT r t ((r.st i).loc t) f rest i i [x] := ⟨Nat.le_refl _, hst, hexc, rfl, fun m' h1 h2 => absurd h2 (by omega)⟩

/-- **C62.** this_thread::wait_for returns, provided that the scheduler is fair to the thread, time passes and the task that it may execute returns; unless the
    thread is unregistered. -/
theorem C62_wait_for (r : Run C) (hr : Reach C d f0 (r.st 0)) (hj : r.Just t) (ht : r.Time) {dur : Int}
    (hst : (r.st i).stk t = .core (Api.waitFor dur).entry :: .client f :: rest) (hexc : ((r.st i).thr t).exc = none)
    (hT : ∀ c b, (r.st i).loc t = some c → FromTasks r t c (.toWait b) (.client f :: rest)) :
    (∃ m, r.Ends t (.client f :: rest) i m ∧ ((r.st m).thr t).exc = none) ∨ ∃ c m id n, (r.st i).loc t = some c ∧ .unregistered c id n ∈ (r.st m).log :=
  back_of fun hu => TEnv.waitFor ⟨hr, hj, hu⟩ ht (atT_of hst hexc) (by simp)
    fun b => ⟨fun c hc k => (hT c b hc k).1, fun c hc k => (hT c b hc k).2⟩

/-- **C62.** The same for sleep_for, which may execute several tasks. -/
theorem C62_sleep_for (r : Run C) (hr : Reach C d f0 (r.st 0)) (hj : r.Just t) (ht : r.Time) {dur : Int}
    (hst : (r.st i).stk t = .core (Api.sleepFor dur).entry :: .client f :: rest) (hexc : ((r.st i).thr t).exc = none)
    (hT : ∀ c e b, (r.st i).loc t = some c → FromTasks r t c (.toWait b) (.core (.sleepNow e) :: .client f :: rest)) :
    (∃ m, r.Ends t (.client f :: rest) i m ∧ ((r.st m).thr t).exc = none) ∨ ∃ c m id n, (r.st i).loc t = some c ∧ .unregistered c id n ∈ (r.st m).log :=
  back_of fun hu => TEnv.sleepIn ⟨hr, hj, hu⟩ ht (atT_of hst hexc) (by simp)
    fun e b => ⟨fun c hc k => (hT c e b hc k).1, fun c hc k => (hT c e b hc k).2⟩

/-- **C62.** The same for process_for, also if it always finds a task. -/
theorem C62_process_for (r : Run C) (hr : Reach C d f0 (r.st 0)) (hj : r.Just t) (ht : r.Time) {dur : Int}
    (hst : (r.st i).stk t = .core (Api.processFor dur).entry :: .client f :: rest) (hexc : ((r.st i).thr t).exc = none)
    (hT : ∀ c e, (r.st i).loc t = some c → FromTasks r t c (.toFor e) (.client f :: rest)) :
    (∃ m, r.Ends t (.client f :: rest) i m ∧ ((r.st m).thr t).exc = none) ∨ ∃ c m id n, (r.st i).loc t = some c ∧ .unregistered c id n ∈ (r.st m).log :=
  back_of fun hu => TEnv.procForIn ⟨hr, hj, hu⟩ ht (atT_of hst hexc) (by simp)
    fun e => ⟨fun c hc k => (hT c e hc k).1, fun c hc k => (hT c e hc k).2⟩

/-- The infinite execution that performs the steps `ls` and then only lets time pass. -/
theorem Run.ofTicks {C : Client τ φ δ χ} {s s' : St τ φ δ} {ls : List (Lbl χ)} (h : run C s ls = some s') (hub : s'.ub = false)
    (hterm : s'.term = false) : ∃ r : Run C, r.st 0 = s ∧ (∀ i, i ≤ ls.length → run C s (ls.take i) = some (r.st i)) ∧
      ∀ i, r.st (ls.length + i) = { s' with clock := s'.clock + i } := by
  induction ls generalizing s with
  | nil =>
    obtain rfl := Option.some.inj h
    refine ⟨⟨fun i => { s with clock := s.clock + i }, fun _ => .tick 1, ?_⟩, rfl, ?_, fun i => by simp⟩
    · intro i
      unfold step
      rw [if_neg (by simp [hub, hterm])]
      rfl
    · intro i hi
      obtain rfl : i = 0 := Nat.le_zero.1 hi
      simp [run]
  | cons l ls ih =>
    simp only [run] at h
    split at h
    · contradiction
    · rename_i s1 h1
      obtain ⟨r, h2, h3, h4⟩ := ih h
      refine ⟨⟨fun i => match i with | 0 => s | i + 1 => r.st i, fun i => match i with | 0 => l | i + 1 => r.lab i, ?_⟩,
        rfl, ?_, ?_⟩
      · intro i
        cases i with
        | zero => simp only [h2, h1]
        | succ i => exact r.ok i
      · intro i hi
        cases i with
        | zero => simp [run]
        | succ i => simp only [List.length_cons, Nat.add_le_add_iff_right] at hi; simp [run, h1, h3 i hi]
      · intro i
        rw [← h4 i, List.length_cons, Nat.add_right_comm]

/-- In the execution that goes on from `ls` for ever, thread 0 executes one task, at the time `k`, above `L`. -/
theorem timed_run {τ φ δ χ : Type} {C : Client τ φ δ χ} {d : δ} {f0 : φ} {ls : List (Lbl χ)} {x : τ} {rr : Cont} {L : List (Frame τ φ)} (k : Nat)
    {isRan isFreed : List (Frame τ φ) → Bool} (hran : ∀ g k rr L, isRan (.client g :: .core (.ran 0 k rr) :: L) = true)
    (hfreed : ∀ g k rr L, isFreed (.client g :: .core (.freed 0 k rr) :: L) = true)
    (hend : (run C (init d f0) ls).map (fun s => (s.ub, s.term, decide ((s.thr 0).status = .running), (s.stk 0).isEmpty)) = some (false, false, false, true))
    (htab : (List.range (ls.length + 1)).map (fun i => (run C (init d f0) (ls.take i)).map fun s => (isRan (s.stk 0), isFreed (s.stk 0))) =
      (List.range (ls.length + 1)).map fun i => some (decide (i = k), decide (i = k + 2)))
    (h0 : (run C (init d f0) (ls.take k)).map (fun s => (s.stk 0).tail) = some (.core (.ran 0 x rr) :: L))
    (h1 : (run C (init d f0) (ls.take (k + 1))).map (fun s => (s.stk 0, (s.thr 0).exc)) = some (.core (.ran 0 x rr) :: L, none))
    (h2 : (run C (init d f0) (ls.take (k + 2))).map (fun s => (s.stk 0).tail) = some (.core (.freed 0 x rr) :: L))
    (h3 : (run C (init d f0) (ls.take (k + 3))).map (fun s => (s.stk 0, (s.thr 0).exc)) = some (.core (.freed 0 x rr) :: L, none))
    (hk : k + 3 ≤ ls.length) :
    ∃ r : Run C, Reach C d f0 (r.st 0) ∧ r.Strong 0 ∧ r.Time ∧ (∀ L rr, FromTasks r 0 0 rr L) ∧
      (∀ {β : Type} (g : St τ φ δ → β) (i : Nat) (b : β), i ≤ ls.length → (run C (init d f0) (ls.take i)).map g = some b → g (r.st i) = b) ∧
      ∀ s', run C (init d f0) ls = some s' → ∀ i, r.st (ls.length + i) = { s' with clock := s'.clock + i } := by
  obtain ⟨s', hs', ho⟩ := Option.map_eq_some_iff.1 hend
  simp only [Prod.mk.injEq] at ho
  obtain ⟨r, hr0, hr, hl⟩ := Run.ofTicks hs' ho.1 ho.2.1
  have hobs : ∀ {β : Type} (g : St τ φ δ → β) (i : Nat) (b : β), i ≤ ls.length → (run C (init d f0) (ls.take i)).map g = some b → g (r.st i) = b := by
    intro β g i b hi h
    rw [hr i hi, Option.map_some] at h
    exact Option.some.inj h
  have htab' : ∀ i, i ≤ ls.length → isRan ((r.st i).stk 0) = decide (i = k) ∧ isFreed ((r.st i).stk 0) = decide (i = k + 2) := by
    intro i hi
    have h4 := congrArg (fun l => l[i]?) htab
    simp only [List.getElem?_map, List.getElem?_range (show i < ls.length + 1 by omega), Option.map_some, hr i hi] at h4
    have h5 := Option.some.inj (Option.some.inj h4)
    simp only [Prod.mk.injEq] at h5
    exact h5
  have hend' : ∀ i, ls.length ≤ i → (r.st i).stk 0 = [] ∧ ((r.st i).thr 0).status ≠ .running ∧ (r.st i).ub = false ∧ (r.st i).term = false := by
    intro i hi
    obtain ⟨j, rfl⟩ := Nat.exists_eq_add_of_le hi
    rw [hl j]
    exact ⟨List.isEmpty_iff.1 ho.2.2.2, of_decide_eq_false ho.2.2.1, ho.1, ho.2.1⟩
  have hlt : ∀ i, (r.st i).stk 0 ≠ [] → i ≤ ls.length := by
    intro i hi
    by_contra hc
    exact hi (hend' i (by omega)).1
  refine ⟨r, by rw [hr0]; exact ⟨[], rfl⟩, ?_, ?_, ?_, hobs, ?_⟩
  · intro i hi
    obtain ⟨q, h4, ch, h5⟩ := hi (max i ls.length) (by omega)
    obtain ⟨-, h6, h7, h8⟩ := hend' q (by omega)
    simp [step, h6, h7, h8] at h5
  · intro n
    exact ⟨ls.length + n, by rw [hl n]; exact Nat.le_add_left _ _⟩
  · intro L' rr' k'
    constructor
    · intro q hq _
      have := htab' q (hlt q (by rw [hq]; simp))
      rw [hq, hran] at this
      have hk : q = k := by simpa using this.1
      subst hk
      have e0 := hobs _ _ _ (by omega) h0
      have e1 := hobs _ _ _ (by omega) h1
      simp only [hq, List.tail_cons, Prod.mk.injEq] at e0 e1
      exact ⟨q + 1, by omega, e1.1.trans e0.symm, e1.2, fun m h4 h5 => by
        rcases (show m = q ∨ m = q + 1 by omega) with rfl | rfl
        · rw [hq]; exact List.suffix_cons _ _
        · rw [e1.1, e0]; exact List.suffix_refl _⟩
    · intro q hq _
      have := htab' q (hlt q (by rw [hq]; simp))
      rw [hq, hfreed] at this
      have hk : q = k + 2 := by simpa using this.2
      subst hk
      have e0 := hobs _ _ _ (by omega) h2
      have e1 := hobs _ _ _ (by omega) h3
      simp only [hq, List.tail_cons, Prod.mk.injEq] at e0 e1
      exact ⟨k + 3, by omega, e1.1.trans e0.symm, e1.2, fun m h4 h5 => by
        rcases (show m = k + 2 ∨ m = k + 3 by omega) with rfl | rfl
        · rw [hq]; exact List.suffix_cons _ _
        · rw [e1.1, e0]; exact List.suffix_refl _⟩
  · intro s1 h1
    obtain rfl : s' = s1 := Option.some.inj (hs'.symm.trans h1)
    exact hl

/-! ## Examples: thread 1 sends a task to main, which calls a function with a limit and executes the task -/

def ranTop {τ φ : Type} : List (Frame τ φ) → Bool | _ :: .core (.ran _ _ _) :: _ => true | _ => false
def freedTop {τ φ : Type} : List (Frame τ φ) → Bool | _ :: .core (.freed _ _ _) :: _ => true | _ => false

/-- Hypotheses of `C62_wait_for`. -/
example : ∃ r : Run (tableClient (prog (twoProg (.waitFor 5000) (.invoke 1 10)))), Reach (tableClient (prog (twoProg (.waitFor 5000) (.invoke 1 10)))) () 1 (r.st 0) ∧ r.Just 0 ∧ r.Time ∧
    (r.st 7).stk 0 = [.core (Api.entry (.waitFor 5000)), .client 4] ∧ ((r.st 7).thr 0).exc = none ∧ (r.st 7).loc 0 = some 0 ∧
    ∀ L rr, FromTasks r 0 0 rr L := by
  obtain ⟨r, h1, h2, h3, h4, h5, -⟩ := timed_run (C := tableClient (prog (twoProg (.waitFor 5000) (.invoke 1 10)))) (d := ()) (f0 := 1)
    (ls := go 0 8 ++ go 1 4 ++ go 0 7) (x := 10) (rr := .toWait false) (L := [.client 4]) 13 (isRan := ranTop) (isFreed := freedTop)
    (fun _ _ _ _ => rfl) (fun _ _ _ _ => rfl) (by decide +kernel) (by decide +kernel) (by decide +kernel) (by decide +kernel) (by decide +kernel) (by decide +kernel)
    (by decide)
  exact ⟨r, h1, h2.just, h3, h5 (fun s => s.stk 0) 7 _ (by decide) (by decide +kernel), h5 (fun s => (s.thr 0).exc) 7 _ (by decide) (by decide +kernel),
    h5 (fun s => s.loc 0) 7 _ (by decide) (by decide +kernel), h4⟩

/-- Hypotheses of `C62_sleep_for`. -/
example : ∃ r : Run (tableClient (prog (twoProg (.sleepFor 5000) (.invoke 1 10)))), Reach (tableClient (prog (twoProg (.sleepFor 5000) (.invoke 1 10)))) () 1 (r.st 0) ∧ r.Just 0 ∧ r.Time ∧
    (r.st 7).stk 0 = [.core (Api.entry (.sleepFor 5000)), .client 4] ∧ ((r.st 7).thr 0).exc = none ∧ (r.st 7).loc 0 = some 0 ∧
    ∀ L rr, FromTasks r 0 0 rr L := by
  obtain ⟨r, h1, h2, h3, h4, h5, -⟩ := timed_run (C := tableClient (prog (twoProg (.sleepFor 5000) (.invoke 1 10)))) (d := ()) (f0 := 1)
    (ls := go 0 7 ++ go 1 4 ++ go 0 8 ++ [.tick 7000] ++ go 0 4) (x := 10) (rr := .toWait false) (L := [.core (.sleepNow 5000), .client 4]) 15 (isRan := ranTop) (isFreed := freedTop)
    (fun _ _ _ _ => rfl) (fun _ _ _ _ => rfl) (by decide +kernel) (by decide +kernel) (by decide +kernel) (by decide +kernel) (by decide +kernel) (by decide +kernel)
    (by decide)
  exact ⟨r, h1, h2.just, h3, h5 (fun s => s.stk 0) 7 _ (by decide) (by decide +kernel), h5 (fun s => (s.thr 0).exc) 7 _ (by decide) (by decide +kernel),
    h5 (fun s => s.loc 0) 7 _ (by decide) (by decide +kernel), h4⟩

/-- Hypotheses of `C62_process_for`. -/
example : ∃ r : Run (tableClient (prog (twoProg (.processFor 5000) (.invoke 1 10)))), Reach (tableClient (prog (twoProg (.processFor 5000) (.invoke 1 10)))) () 1 (r.st 0) ∧ r.Just 0 ∧ r.Time ∧
    (r.st 7).stk 0 = [.core (Api.entry (.processFor 5000)), .client 4] ∧ ((r.st 7).thr 0).exc = none ∧ (r.st 7).loc 0 = some 0 ∧
    ∀ L rr, FromTasks r 0 0 rr L := by
  obtain ⟨r, h1, h2, h3, h4, h5, -⟩ := timed_run (C := tableClient (prog (twoProg (.processFor 5000) (.invoke 1 10)))) (d := ()) (f0 := 1)
    (ls := go 0 7 ++ go 1 4 ++ go 0 6 ++ [.tick 7000] ++ go 0 3) (x := 10) (rr := .toFor 5000) (L := [.client 4]) 13 (isRan := ranTop) (isFreed := freedTop)
    (fun _ _ _ _ => rfl) (fun _ _ _ _ => rfl) (by decide +kernel) (by decide +kernel) (by decide +kernel) (by decide +kernel) (by decide +kernel) (by decide +kernel)
    (by decide)
  exact ⟨r, h1, h2.just, h3, h5 (fun s => s.stk 0) 7 _ (by decide) (by decide +kernel), h5 (fun s => (s.thr 0).exc) 7 _ (by decide) (by decide +kernel),
    h5 (fun s => s.loc 0) 7 _ (by decide) (by decide +kernel), h4⟩

end
end Itc
