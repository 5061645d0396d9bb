import Verif.Props.Until
import Verif.Props.LiveEnd
import Verif.Props.LiveTimedSync

/-!
# C75: calls with a time point return

For every user code and infinite execution in which time passes; vocabulary of `Verif.Props.LiveTimed` and `Verif.Props.LiveTimedSync`.
-/
namespace Itc
open Core Sync Abs
section
variable {α φ δ χ : Type} {U : UApp α φ δ χ} {ad : δ} {i0 : φ} {r : Run (client (absApp U))} {u j : Nat} {q : Req} {L : List (Fr α (UFrame φ))}

/-- The call begins, the function with a duration is called, and if that returns so does the call. -/
theorem till_thru (hr : UR U ad i0 (r.st 0)) (hj : r.Just u) (hst : (r.st j).stk u = .client (.app (.uIn q)) :: L) (hexc : ((r.st j).thr u).exc = none)
    (hin : ∀ m, j < m → ∀ clock, (r.st m).stk u = ent q clock :: .client (.app (.uRet q)) :: L → ((r.st m).thr u).exc = none → (r.st m).loc u = (r.st j).loc u →
      (∃ m', r.Ends u (.client (.app (.uRet q)) :: L) m m' ∧ ((r.st m').thr u).exc = none) ∨
        ∃ c m' id n, (r.st m).loc u = some c ∧ .unregistered c id n ∈ (r.st m').log) :
    (∃ m, r.Ends u L j m ∧ ((r.st m).thr u).exc = none) ∨ ∃ c m id n, (r.st j).loc u = some c ∧ .unregistered c id n ∈ (r.st m).log := by
  obtain ⟨m1, ch1, o1⟩ := Run.own hr hj hst hexc fun m _ => ⟨.go, by simp only [stepClient, client, absApp, ustep]; split <;> rfl⟩
  have hle1 := o1.le
  obtain ⟨e1, x1, l1⟩ : (r.st (m1 + 1)).stk u = ent q (r.st m1).clock :: .client (.app (.uRet q)) :: L ∧ ((r.st (m1 + 1)).thr u).exc = none ∧
      (r.st (m1 + 1)).loc u = (r.st j).loc u := by
    have s1 := o1.client hr
    rw [← o1.loc]
    have hx := o1.exc
    obtain ⟨f, off, x⟩ := q
    cases ch1 <;> simp [stepClient, client, absApp, ustep, liftAct] at s1
    cases f <;> have s1 := Option.some.inj s1 <;> rw [← s1] <;>
      exact ⟨by first | (simp [St.stk, St.setStk, ent, Api.entry, SApi.entry, St.view]; done) | (simp [St.stk, St.setStk, ent, Api.entry, SApi.entry, St.view]; rfl), by simpa [St.setStk] using hx, by simp [St.setStk, St.loc]⟩
  have v1 : ∀ m', j ≤ m' → m' < m1 + 1 → ∃ pre x, (r.st m').stk u = pre ++ x :: L := fun m' ha hb => ⟨[], _, o1.keep m' ha (by omega)⟩
  rcases hin (m1 + 1) (by omega) _ e1 x1 l1 with ⟨m2, ⟨p2, e2, v2⟩, x2⟩ | ⟨c, m', id, n, h1, h2⟩
  · left
    obtain ⟨m3, ch3, o3⟩ := Run.own hr hj e2 x2 fun m _ => ⟨.go, by simp only [stepClient, client, absApp, ustep]; rfl⟩
    have hle3 := o3.le
    have s3 := o3.client hr
    cases ch3 <;> simp [stepClient, client, absApp, ustep, liftAct] at s3
    refine ⟨m3 + 1, ⟨by omega, by rw [← s3]; simp [St.stk], ?_⟩, by rw [← s3]; simpa using o3.exc⟩
    intro m' ha hb
    rcases Nat.lt_or_ge m' (m1 + 1) with h | h
    · exact v1 m' ha h
    rcases Nat.lt_or_ge m' m2 with h' | h'
    · obtain ⟨pre, x, hp⟩ := v2 m' h h'
      exact ⟨pre ++ [x], _, by rw [hp]; simp; rfl⟩
    · exact ⟨[], _, o3.keep m' h' (by omega)⟩
  · exact .inr ⟨c, m', id, n, l1 ▸ h1, h2⟩

/-- **C75.** this_thread::wait_until returns, provided that the scheduler is fair to the thread, time passes and the task that it may execute returns; unless the
    thread is unregistered. -/
theorem C75_wait (hr : UR U ad i0 (r.st 0)) (hj : r.Just u) (ht : r.Time) (hfn : q.f = .wait) (hst : (r.st j).stk u = .client (.app (.uIn q)) :: L)
    (hexc : ((r.st j).thr u).exc = none) (hT : ∀ c b, (r.st j).loc u = some c → FromTasks r u c (.toWait b) (.client (.app (.uRet q)) :: L)) :
    (∃ m, r.Ends u L j m ∧ ((r.st m).thr u).exc = none) ∨ ∃ c m id n, (r.st j).loc u = some c ∧ .unregistered c id n ∈ (r.st m).log :=
  till_thru hr hj hst hexc fun m _ clock h1 h2 h3 => by
    simp only [ent, hfn] at h1
    exact C62_wait_for r hr hj ht h1 h2 fun c b hc => hT c b (h3 ▸ hc)

/-- **C75.** The same for sleep_until, which may execute several tasks. -/
theorem C75_sleep (hr : UR U ad i0 (r.st 0)) (hj : r.Just u) (ht : r.Time) (hfn : q.f = .sleep) (hst : (r.st j).stk u = .client (.app (.uIn q)) :: L)
    (hexc : ((r.st j).thr u).exc = none)
    (hT : ∀ c e b, (r.st j).loc u = some c → FromTasks r u c (.toWait b) (.core (.sleepNow e) :: .client (.app (.uRet q)) :: L)) :
    (∃ m, r.Ends u L j m ∧ ((r.st m).thr u).exc = none) ∨ ∃ c m id n, (r.st j).loc u = some c ∧ .unregistered c id n ∈ (r.st m).log :=
  till_thru hr hj hst hexc fun m _ clock h1 h2 h3 => by
    simp only [ent, hfn] at h1
    exact C62_sleep_for r hr hj ht h1 h2 fun c e b hc => hT c e b (h3 ▸ hc)

/-- **C75.** The same for condition_variable::wait_until with the lock `k`; strong fairness, and the tasks that it executes do not keep the lock, others do not hold
    it for ever while the thread wants to have it back. -/
theorem C75_cv (hr : UR U ad i0 (r.st 0)) (hf : r.Strong u) (ht : r.Time) {n k : Nat} (hfn : q.f = .cv n k) (hl : Frees r u (.user k) (.client (.app (.uRet q)) :: L))
    (hT : ∀ c i k' e b, (r.st j).loc u = some c → FromTasks r u c (.toWait b) (.client (.wfAfter (.cv n k) i k' e) :: .client (.app (.uRet q)) :: L))
    (hk : ∀ i k' e, Leaves r u (.user k) (.client (.wfAfter (.cv n k) i k' e) :: .client (.app (.uRet q)) :: L))
    (hst : (r.st j).stk u = .client (.app (.uIn q)) :: L) (hexc : ((r.st j).thr u).exc = none) :
    (∃ m, r.Ends u L j m ∧ ((r.st m).thr u).exc = none) ∨ ∃ c m id n, (r.st j).loc u = some c ∧ .unregistered c id n ∈ (r.st m).log :=
  till_thru hr hf.just hst hexc fun m _ clock h1 h2 h3 => by
    simp only [ent, hfn] at h1
    exact C63_cv hr hf ht hl (fun c i k' e b hc => hT c i k' e b (h3 ▸ hc)) hk h1 h2

/-- **C75.** The same for future::wait_until; the lock is the guard of the shared state, which the thread does not hold when it makes the call. -/
theorem C75_future (hr : UR U ad i0 (r.st 0)) (hf : r.Strong u) (ht : r.Time) {p : Nat} (hfn : q.f = .fut (some p)) (hl : Frees r u (.guard p) (.client (.app (.uRet q)) :: L))
    (hT : ∀ c dur i k' e b, (r.st j).loc u = some c → FromTasks r u c (.toWait b) (.client (.wfAfter (.fv p dur) i k' e) :: .client (.app (.uRet q)) :: L))
    (hst : (r.st j).stk u = .client (.app (.uIn q)) :: L) (hexc : ((r.st j).thr u).exc = none) (hg : (r.st j).data.sd.lk (.guard p) ≠ some u) :
    (∃ m, r.Ends u L j m ∧ ((r.st m).thr u).exc = none) ∨ ∃ c m id n, (r.st j).loc u = some c ∧ .unregistered c id n ∈ (r.st m).log :=
  till_thru hr hf.just hst hexc fun m _ clock h1 h2 h3 => by
    simp only [ent, hfn] at h1
    refine C63_future hr hf ht hl (fun c i k' e b hc => hT c _ i k' e b (h3 ▸ hc)) h1 h2 ?_
    refine guard_none (r.reach hr m) (pre := [_, .client (.app (.uRet q))]) (L := L) h1 (fun g h4 h5 => hg (guard_own (r.reach hr j) ?_ h5)) ?_
    · rw [hst]; exact List.mem_cons_of_mem _ h4
    · simp [gw]

end

/-! ## Examples: nobody wakes main up; it waits until the time point, and ends -/

/-- The execution `ls`, in which main ends, after which only time passes. -/
theorem till_run {l : List (UAct Nat Nat)} {ls : List (Lbl Unit)}
    (hend : (uexec l ls).map (fun s => !s.ub && !s.term && !decide ((s.thr 0).status = .running) && (s.stk 0).isEmpty && (s.thr 0).exc.isNone) = some true)
    (htab : (List.range ls.length).all (fun i => ((uexec l (ls.take i)).map fun s => (s.thr 0).exc.isNone).getD false) = true) :
    ∃ r : Run (client (absApp (utable l))), UR (utable l) () 1 (r.st 0) ∧ r.Strong 0 ∧ r.Time ∧ (∀ L c rr, FromTasks r 0 c rr L) ∧ (∀ i, ((r.st i).thr 0).exc = none) ∧
      (∀ {β : Type} (g : USt Nat Nat Unit → β) (i : Nat) (b : β), i ≤ ls.length → (uexec l (ls.take i)).map g = some b → g (r.st i) = b) ∧
      ∀ i, ls.length ≤ i → (r.st i).stk 0 = [] := by
  obtain ⟨s', hs', ho⟩ := Option.map_eq_some_iff.1 hend
  simp only [Bool.and_eq_true, Bool.not_eq_true', Option.isNone_iff_eq_none] at ho
  obtain ⟨⟨⟨⟨e1, e2⟩, e3⟩, e4⟩, e5⟩ := ho
  obtain ⟨r, hr0, hr, hl⟩ := Run.ofTicks hs' e1 e2
  have hR : UR (utable l) () 1 (r.st 0) := by rw [hr0]; exact ⟨[], rfl⟩
  have hfin : ∀ i, ls.length ≤ i → r.st i = { s' with clock := s'.clock + (i - ls.length) } := fun i hi => by
    obtain ⟨k, rfl⟩ := Nat.exists_eq_add_of_le hi
    rw [hl k, Nat.add_sub_cancel_left]
  have hx : ∀ i, ((r.st i).thr 0).exc = none := by
    intro i
    rcases Nat.lt_or_ge i ls.length with h | h
    · have h1 := List.all_eq_true.1 htab i (List.mem_range.2 h)
      simpa only [uexec, hr i (by omega), Option.map_some, Option.getD_some, Option.isNone_iff_eq_none] using h1
    · rw [hfin i h]; exact e5
  have hnil : ∀ i, ls.length ≤ i → (r.st i).stk 0 = [] := fun i hi => by rw [hfin i hi]; exact List.isEmpty_iff.1 e4
  have hret := fun g L => Run.returns_end hR hnil hx g L
  refine ⟨r, hR, ?_, fun n => ⟨ls.length + n, by rw [hl n]; exact Nat.le_add_left _ _⟩, fun L c rr k => ⟨hret _ _, hret _ _⟩, hx, ?_, hnil⟩
  · intro i hi
    exfalso
    obtain ⟨q, h1, ch, h2⟩ := hi (max i ls.length) (by omega)
    rw [hfin q (by omega)] at h2
    simp [step, e1, e2, of_decide_eq_false e3] at h2
  · intro β g i b hi h
    rw [uexec, hr i hi, Option.map_some] at h
    exact Option.some.inj h

theorem till_frees {l : List (UAct Nat Nat)} {r : Run (client (absApp (utable l)))} {N : Nat} (h : ∀ i, N ≤ i → (r.st i).stk 0 = []) (n : Lk)
    (L : List (Fr Nat (UFrame Nat))) : Frees r 0 n L := by
  intro i x hi
  have h1 := hi (max i N) (by omega)
  rw [h _ (by omega)] at h1
  cases h1

/-- Hypotheses of `C75_wait`. -/
example : ∃ r : Run (client (absApp (utable demoWaitU))), UR (utable demoWaitU) () 1 (r.st 0) ∧ r.Just 0 ∧ r.Time ∧
    (r.st 5).stk 0 = .client (.app (.uIn { f := .wait, at_ := 3000 })) :: [.client (.app (.usr 3))] ∧ ((r.st 5).thr 0).exc = none ∧ (r.st 5).loc 0 = some 0 ∧
    ∀ L c rr, FromTasks r 0 c rr L := by
  obtain ⟨r, h1, h2, h3, h4, h5, h6, -⟩ := till_run (l := demoWaitU) (ls := Core.go 0 8 ++ [.tick 3000, .th 0 .timeout] ++ Core.go 0 7) (by decide +kernel) (by decide +kernel)
  exact ⟨r, h1, h2.just, h3, h6 (fun s => s.stk 0) 5 _ (by decide) (by decide +kernel), h5 5, h6 (fun s => s.loc 0) 5 _ (by decide) (by decide +kernel), h4⟩

/-- Main sleeps until 5100 by a clock that is 100 ns ahead. -/
def liveSleepU : List (UAct Nat Nat) := [.act (.core .registerThis 2), .till { f := .sleep, off := 100, at_ := 5100 } 3]

/-- Hypotheses of `C75_sleep`. -/
example : ∃ r : Run (client (absApp (utable liveSleepU))), UR (utable liveSleepU) () 1 (r.st 0) ∧ r.Just 0 ∧ r.Time ∧
    (r.st 5).stk 0 = .client (.app (.uIn { f := .sleep, off := 100, at_ := 5100 })) :: [.client (.app (.usr 3))] ∧ ((r.st 5).thr 0).exc = none ∧ (r.st 5).loc 0 = some 0 ∧
    ∀ L c rr, FromTasks r 0 c rr L := by
  obtain ⟨r, h1, h2, h3, h4, h5, h6, -⟩ := till_run (l := liveSleepU) (ls := Core.go 0 10 ++ [.tick 5000, .th 0 .timeout] ++ Core.go 0 5) (by decide +kernel) (by decide +kernel)
  exact ⟨r, h1, h2.just, h3, h6 (fun s => s.stk 0) 5 _ (by decide) (by decide +kernel), h5 5, h6 (fun s => s.loc 0) 5 _ (by decide) (by decide +kernel), h4⟩

/-- Hypotheses of `C75_cv`. -/
example : ∃ r : Run (client (absApp (utable demoCvU))), UR (utable demoCvU) () 1 (r.st 0) ∧ r.Strong 0 ∧ r.Time ∧
    (r.st 7).stk 0 = .client (.app (.uIn { f := .cv 0 0, off := -200, at_ := 800 })) :: [.client (.app (.usr 4))] ∧ ((r.st 7).thr 0).exc = none ∧ (r.st 7).loc 0 = some 0 ∧
    (∀ n L, Frees r 0 n L) ∧ (∀ L c rr, FromTasks r 0 c rr L) ∧ ∀ w i k e L, Leaves r 0 (.user 0) (.client (.wfAfter w i k e) :: L) := by
  obtain ⟨r, h1, h2, h3, h4, h5, h6, h7⟩ := till_run (l := demoCvU) (ls := Core.go 0 16 ++ [.tick 1000, .th 0 .timeout] ++ Core.go 0 7) (by decide +kernel) (by decide +kernel)
  refine ⟨r, h1, h2, h3, h6 (fun s => s.stk 0) 7 _ (by decide) (by decide +kernel), h5 7, h6 (fun s => s.loc 0) 7 _ (by decide) (by decide +kernel), till_frees h7, h4, ?_⟩
  intro w i k e L i' m hE _ hc
  have hst := hE.2.1
  rcases Nat.lt_or_ge m 25 with hm | hm
  · have htab : ∀ m < 25, (uexec demoCvU (List.take m (Core.go 0 16 ++ [.tick 1000, .th 0 .timeout] ++ Core.go 0 7))).map
      (fun s => (match s.stk 0 with | .client (.wfAfter _ _ _ _) :: _ => true | _ => false) && decide (s.data.sd.lk (.user 0) = some 0)) = some false := by decide +kernel
    have := h6 _ m _ (by simp [Core.go]; omega) (htab m hm)
    simp [hst, hc] at this
  · rw [h7 m (by simp [Core.go]; omega)] at hst
    cases hst

/-- Hypotheses of `C75_future`. -/
example : ∃ r : Run (client (absApp (utable demoFutU))), UR (utable demoFutU) () 1 (r.st 0) ∧ r.Strong 0 ∧ r.Time ∧
    (r.st 7).stk 0 = .client (.app (.uIn { f := .fut (some 0), off := 7, at_ := 4007 })) :: [.client (.app (.usr 4))] ∧ ((r.st 7).thr 0).exc = none ∧ (r.st 7).loc 0 = some 0 ∧
    (∀ n L, Frees r 0 n L) ∧ (∀ L c rr, FromTasks r 0 c rr L) ∧ (r.st 7).data.sd.lk (.guard 0) ≠ some 0 := by
  obtain ⟨r, h1, h2, h3, h4, h5, h6, h7⟩ := till_run (l := demoFutU) (ls := Core.go 0 19 ++ [.tick 4000, .th 0 .timeout] ++ Core.go 0 8) (by decide +kernel) (by decide +kernel)
  exact ⟨r, h1, h2, h3, h6 (fun s => s.stk 0) 7 _ (by decide) (by decide +kernel), h5 7, h6 (fun s => s.loc 0) 7 _ (by decide) (by decide +kernel), till_frees h7, h4,
    by rw [h6 (fun s => s.data.sd.lk (.guard 0)) 7 none (by decide) (by decide +kernel)]; simp⟩

end Itc
