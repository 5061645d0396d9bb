import Mathlib.Tactic.IntervalCases
import Verif.Core.Live
import Verif.Props.Calls

/-!
# C59: tasks sent to a thread that executes its loop are started

For an arbitrary client and infinite execution.  `Run.Just r t`: weak fairness for thread `t`.  `IsLoop C f`: `f` is `while(!notified_for_exit()) wait();`,
the loop of `make_thread` (thread.cpp) and of user code.  `Run.Returns r t g L`: every execution of the client code `g` above `L` ends without an exception.
-/
namespace Itc
open Core
section
variable {τ φ δ χ : Type} {C : Client τ φ δ χ} {d : δ} {f0 : φ} {r : Run C} {t c : Nat} {f : φ} {rest : List (Frame τ φ)}

/-- A task that waits in the queue is started. -/
theorem Loops.start (h : Loops r d f0 t c f rest) {i : Nat} (hat : AtLoop t c f rest (r.st i)) {j n : Nat} {k : τ} (hacc : (accs c (r.st j).log)[n]? = some k) :
    ∃ m, (stas c (r.st m).log)[n]? = some k := by
  by_contra hcon
  simp only [not_exists] at hcon
  obtain ⟨hn, -⟩ := List.getElem?_eq_some_iff.1 hacc
  -- the task is never started
  have hle : ∀ m, (stas c (r.st m).log).length ≤ n := by
    intro m
    by_contra hlt
    have hp := C05_fifo (r.reach h.hr m) c
    have e1 : (stas c (r.st m).log)[n]? = (accs c (r.st m).log)[n]? := prefix_get hp (by omega)
    have hp' := hp.length_le
    refine hcon m ?_
    rw [e1, ← hacc]
    rcases Nat.le_total j m with hjm | hjm
    · exact (prefix_get (r.accs_le hjm c) hn).symm
    · exact prefix_get (r.accs_le hjm c) (by omega)
  have hp : ∀ m, j ≤ m → stas c (r.st m).log ≠ accs c (r.st m).log := by
    intro m hm he
    have := (r.accs_le hm c).length_le
    have := hle m
    rw [he] at this
    omega
  have late : ∀ q, ∃ m, q ≤ m ∧ AtLoop t c f rest (r.st m) := by
    intro q
    obtain ⟨m, -, ha, -, h1 | ⟨j', dl, -, h2⟩⟩ := h.far hat q
    · exact ⟨m, h1, ha⟩
    · exact (h.awake ha.above h2 hp).elim
  have many : ∀ q, ∃ m, j ≤ m ∧ AtLoop t c f rest (r.st m) ∧ q ≤ (stas c (r.st m).log).length := by
    intro q
    induction q with
    | zero => obtain ⟨m, h1, h2⟩ := late j; exact ⟨m, h1, h2, by omega⟩
    | succ q ih =>
      obtain ⟨m, hm, ha, hq⟩ := ih
      rcases h.round ha with ⟨m', h1, h2, -, ⟨m1, h3, h4⟩ | h3⟩ | ⟨j', dl, -, h2⟩
      · exact absurd h4 (hp m1 (by omega))
      · exact ⟨m', by omega, h2, by omega⟩
      · exact (h.awake ha.above h2 hp).elim
  obtain ⟨m, -, -, hm⟩ := many (n + 1)
  have := hle m
  omega

/-- The step that starts it. -/
theorem Loops.serve (h : Loops r d f0 t c f rest) {i j : Nat} (hat : AtLoop t c f rest (r.st i)) (hij : i ≤ j) {k : τ} (hk : k ∈ ((r.st j).ctxs c).pend) :
    ∃ m ch rr g L, j ≤ m ∧ k ∈ ((r.st m).ctxs c).pend ∧ step C (r.st m) (.th t ch) = some (r.st (m + 1)) ∧ (r.st m).stk t = g :: L ∧
      (r.st (m + 1)).stk t = .client (C.run k) :: .core (.ran c k rr) :: L ∧ ((r.st (m + 1)).thr t).exc = none := by
  classical
  have hq : ∀ m, i ≤ m → accs c (r.st m).log = stas c (r.st m).log ++ ((r.st m).ctxs c).pend := fun m hm =>
    (h.at hm hat.above fun m' h1 _ => h.suf hat h1).2.2.2
  obtain ⟨n0, hn0, hk0⟩ := List.getElem_of_mem hk
  have hacc : (accs c (r.st j).log)[(stas c (r.st j).log).length + n0]? = some k := by
    rw [hq j hij, List.getElem?_append_right (by omega), Nat.add_sub_cancel_left, List.getElem?_eq_getElem hn0, hk0]
  generalize hn : (stas c (r.st j).log).length + n0 = n at hacc
  have hex : ∃ m, n < (stas c (r.st m).log).length := by
    obtain ⟨m, hm⟩ := h.start hat hacc
    exact ⟨m, (List.getElem?_eq_some_iff.1 hm).1⟩
  have hspec := Nat.find_spec hex
  have hmin := fun m => Nat.find_min hex (m := m)
  generalize Nat.find hex = m1 at hspec hmin
  have hj1 : j < m1 := by
    by_contra hc
    obtain ⟨l, hl⟩ := r.stas_le (show m1 ≤ j by omega) c
    have := congrArg List.length hl
    simp at this
    omega
  obtain ⟨m, rfl⟩ : ∃ m, m1 = m + 1 := ⟨m1 - 1, by omega⟩
  have hlt := hmin m (by omega)
  have hok := r.ok m
  have hne : stas c (r.st (m + 1)).log ≠ stas c (r.st m).log := fun he => by rw [he] at hspec; exact hlt hspec
  cases hl : r.lab m with
  | tick x => rw [hl] at hok; rw [step_tick C _ _ x hok] at hne; exact absurd rfl hne
  | th u ch =>
    rw [hl] at hok
    obtain ⟨k', rr, L, g, h1, h2, h3, h4, h5, h6⟩ := start_step hok hne
    obtain ⟨id, hreg⟩ := hat.above.reg (r.reach h.hr i)
    obtain rfl : u = t := start_own (r.reach h.hr m) hok hne (r.logm (by omega) hreg)
    have hk' : k' = k := by
      have e1 : (accs c (r.st (m + 1)).log)[n]? = some k := by
        rw [← hacc]; exact (prefix_get (r.accs_le (by omega) c) (List.getElem?_eq_some_iff.1 hacc).1).symm
      rw [hq (m + 1) (by omega), List.getElem?_append_left hspec, h3] at e1
      rw [h3] at hspec
      simp at hspec
      have : n = (stas c (r.st m).log).length := by omega
      rw [this] at e1
      simpa using e1
    subst hk'
    exact ⟨m, ch, rr, g, L, by omega, h4, hok, h1, h2, h6⟩

/-- **C59.** Thread `t` is, with local context `c`, at the head of its loop, the scheduler is fair to it, and the tasks it executes in the loop return, as do
    their destructors.  Then every task that is ever accepted for it is eventually started, unless the thread is told to exit or is unregistered. -/
theorem C59_started (r : Run C) (hr : Reach C d f0 (r.st 0)) {t c i : Nat} {f : φ} {rest : List (Frame τ φ)} (hj : r.Just t) (hl : IsLoop C f)
    (hat : AtLoop t c f rest (r.st i))
    (hrun : ∀ k b, r.Returns t (C.run k) (.core (.ran c k (.toWait b)) :: .client f :: rest))
    (hdrop : ∀ k b, r.Returns t (C.destroy k) (.core (.freed c k (.toWait b)) :: .client f :: rest))
    {j n : Nat} {k : τ} (hacc : (accs c (r.st j).log)[n]? = some k) :
    (∃ m, (stas c (r.st m).log)[n]? = some k) ∨ (∃ m, .exitSet c ∈ (r.st m).log) ∨ ∃ m id n, .unregistered c id n ∈ (r.st m).log := by
  by_contra hcon
  simp only [not_or, not_exists] at hcon
  obtain ⟨h1, h2, h3⟩ := hcon
  obtain ⟨m, hm⟩ := Loops.start (d := d) (f0 := f0) ⟨⟨hr, hj, .of h3, hrun, hdrop⟩, hl, h2⟩ hat hacc
  exact h1 m hm

/-! ## A concrete case -/

/-- Main registers, starts thread 1 and executes the loop at 3; thread 1 queues the task 4. -/
def liveProg : List (Act Nat Nat) :=
  [.call .registerThis 2, .call (.spawn 1 5) 3, .call .wait 3, .ret .unit, .call (.invoke 1 4) 0]

def liveLbls : List (Lbl Unit) := go 0 8 ++ go 1 6 ++ go 0 7

/-- The stacks of main. -/
def liveTab : List (List (Frame Nat Nat)) :=
  [[.client 1], [.core (.regLook none), .client 2], [.core (.regDone 0 true), .client 2], [.core (.release 0 (.register 0) (.nat 1)), .client 2],
   [.client 2], [.core (.spawnIn 1 5), .client 3], [.client 3], [.core (.waitIn none), .client 3]] ++
  List.replicate 7 [.core (.parked 0 none), .client 3] ++
  [[.client 4, .core (.ran 0 4 (.toWait false)), .client 3], [.core (.ran 0 4 (.toWait false)), .client 3],
   [.client 0, .core (.freed 0 4 (.toWait false)), .client 3], [.core (.freed 0 4 (.toWait false)), .client 3],
   [.client 3], [.core (.waitIn none), .client 3], [.core (.parked 0 none), .client 3]]

theorem live_tab : (List.range 22).map (fun i => (exec liveProg (liveLbls.take i)).map fun s => (s.stk 0, (s.thr 0).exc)) =
    liveTab.map fun x => some (x, none) := by decide +kernel

theorem live_end : (exec liveProg liveLbls).map (fun s => (s.ub, s.term, (s.ctxs 0).cv, (s.ctxs 0).wakeup, decide ((s.ctxs 0).life = .alive))) =
    some (false, false, false, false, true) := by decide +kernel

theorem live_ran {i g k : Nat} {b : Bool} (h : i < 22) (hi : liveTab.getD i [] = [.client g, .core (.ran 0 k (.toWait b)), .client 3]) :
    i = 15 ∧ k = 4 ∧ b = false := by
  interval_cases i <;> simp [liveTab] at hi
  exact ⟨rfl, hi.2.1.symm, hi.2.2⟩

theorem live_freed {i g k : Nat} {b : Bool} (h : i < 22) (hi : liveTab.getD i [] = [.client g, .core (.freed 0 k (.toWait b)), .client 3]) :
    i = 17 ∧ k = 4 ∧ b = false := by
  interval_cases i <;> simp [liveTab] at hi
  simp [hi]

/-- Hypotheses of `C59_started`: main executes its loop, thread 1 sends it a task. -/
example : ∃ r : Run (tableClient (prog liveProg)), Reach (tableClient (prog liveProg)) () 1 (r.st 0) ∧ r.Just 0 ∧
    IsLoop (tableClient (prog liveProg)) 3 ∧ AtLoop 0 0 3 [] (r.st 6) ∧
    (∀ k b, r.Returns 0 ((tableClient (prog liveProg)).run k) (.core (.ran 0 k (.toWait b)) :: .client 3 :: [])) ∧
    (∀ k b, r.Returns 0 ((tableClient (prog liveProg)).destroy k) (.core (.freed 0 k (.toWait b)) :: .client 3 :: [])) ∧
    (accs 0 (r.st 14).log)[0]? = some 4 := by
  obtain ⟨s', hs', ho⟩ := Option.map_eq_some_iff.1 live_end
  simp only [Prod.mk.injEq] at ho
  obtain ⟨r, h0, hr, hl⟩ := Run.ofList hs' ho.1 ho.2.1
  have htab : ∀ i, i < 22 → ((r.st i).stk 0, ((r.st i).thr 0).exc) = (liveTab.getD i [], none) := by
    intro i hi
    have h1 := congrArg (fun l => l[i]?) live_tab
    have h2 : i < liveTab.length := hi
    simp only [List.getElem?_map, List.getElem?_range hi, Option.map_some, exec, hr i, List.getElem?_eq_getElem h2] at h1
    rw [List.getD_eq_getElem?_getD, List.getElem?_eq_getElem h2]
    exact Option.some.inj (Option.some.inj h1)
  have hobs : ∀ {β : Type} (g : St Nat Nat Unit → β) (i : Nat) (b : β), (exec liveProg (liveLbls.take i)).map g = some b → g (r.st i) = b := by
    intro β g i b h
    simp only [exec, hr i, Option.map_some] at h
    exact Option.some.inj h
  have hend : s'.stk 0 = [.core (.parked 0 none), .client 3] := by
    have := congrArg Prod.fst (htab 21 (by omega))
    rwa [hl 21 (by exact Nat.le_refl 21)] at this
  have hexc : (s'.thr 0).exc = none := by
    have := congrArg Prod.snd (htab 21 (by omega))
    rwa [hl 21 (by exact Nat.le_refl 21)] at this
  have hal : (s'.ctxs 0).life = .alive := of_decide_eq_true ho.2.2.2.2
  refine ⟨r, ?_, ?_, ⟨?_, ?_⟩, ⟨?_, ?_, ?_⟩, ?_, ?_, ?_⟩
  · rw [h0]; exact ⟨[], rfl⟩
  · intro i hi
    obtain ⟨ch, h1⟩ := hi (max i 21) (by omega)
    rw [hl _ (by exact Nat.le_max_right i 21)] at h1
    exfalso
    have hst : (s'.thr 0).stack = [.core (.parked 0 none), .client 3] := hend
    by_cases hru : (s'.thr 0).status = .running
    · rw [step, if_neg (by simp [ho.1, ho.2.1])] at h1
      simp only [hru, hexc, hst, ne_eq, not_true, if_false, stepCore] at h1
      rw [if_neg (by simp [hal])] at h1
      cases ch <;> simp [ho.2.2.1, ho.2.2.2.1] at h1
    · simp [step, ho.1, ho.2.1, hru] at h1
  · intro v d rv; exact ⟨.go, rfl⟩
  · intro v d rv ch d' a _ h
    cases ch <;> simp [tableClient, prog, liveProg] at h
    exact h.symm
  · exact (congrArg Prod.fst (htab 6 (by omega))).trans rfl
  · exact (congrArg Prod.snd (htab 6 (by omega))).trans rfl
  · exact hobs (fun s => s.loc 0) 6 _ (by decide +kernel)
  · intro k b i hi _
    rcases Nat.lt_or_ge i 22 with h | h
    · rw [show (r.st i).stk 0 = _ from congrArg Prod.fst (htab i h)] at hi
      obtain ⟨rfl, rfl, rfl⟩ := live_ran h hi
      have h16 := htab 16 (by omega)
      refine ⟨16, by omega, congrArg Prod.fst h16, congrArg Prod.snd h16, fun m h1 h2 => ?_⟩
      rw [show (r.st m).stk 0 = _ from congrArg Prod.fst (htab m (by omega))]
      interval_cases m <;> simp [liveTab]
    · rw [hl i (by show 21 ≤ i; omega), hend] at hi; simp at hi
  · intro k b i hi _
    rcases Nat.lt_or_ge i 22 with h | h
    · rw [show (r.st i).stk 0 = _ from congrArg Prod.fst (htab i h)] at hi
      obtain ⟨rfl, rfl, rfl⟩ := live_freed h hi
      have h16 := htab 18 (by omega)
      refine ⟨18, by omega, congrArg Prod.fst h16, congrArg Prod.snd h16, fun m h1 h2 => ?_⟩
      rw [show (r.st m).stk 0 = _ from congrArg Prod.fst (htab m (by omega))]
      interval_cases m <;> simp [liveTab]
    · rw [hl i (by show 21 ≤ i; omega), hend] at hi; simp at hi
  · exact hobs (fun s => (accs 0 s.log)[0]?) 14 _ (by decide +kernel)

end
end Itc
