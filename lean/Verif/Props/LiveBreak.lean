import Verif.Props.LiveThen

/-!
# C82: a future whose promise or task is destroyed becomes ready
-/

namespace Itc
open Core Sync

section
variable {α φ δ χ : Type} {A : App α φ δ χ} {ad : δ} {i0 : φ} {r : Run (client A)} {v j p q : Nat} {a : α} {ch : Ch χ} {L : List (Fr α φ)}

/-- A call from the caller `f` has ended. -/
theorem AtN.over {f : Fr α φ} {m i : Nat} (h : r.Ends v (f :: L) j m) (he : ((r.st m).thr v).exc = none) (hij : i ≤ j)
    (hs : ∀ q, i ≤ q → q < j → ∃ pre x, (r.st q).stk v = pre ++ x :: L) : AtN r v L i m [f] :=
  ⟨Nat.le_trans hij h.1.le, h.2.1, he, fun q h1 h2 => by
    rcases Nat.lt_or_ge q j with hq | hq
    · exact hs q h1 hq
    · obtain ⟨pre, x, hp⟩ := h.2.2 q hq h2
      exact ⟨pre ++ [x], f, by rw [hp]; simp⟩⟩

/-- **C82, promise.** Thread `v` executes the destructor of a promise with the state `p` (future.hpp:190-196).  The scheduler is strongly fair to it and others do
    not hold the guard of the state for ever while it waits for it.  Then the state becomes ready. -/
theorem C82_promise (hr : SR A ad i0 (r.st 0)) (hf : r.Strong v) (hl : Frees r v (.guard p) (.client (.poEnd q p) :: L))
    (hst : (r.st j).stk v = .client (SApi.promDtor q).entry :: L) (hexc : ((r.st j).thr v).exc = none)
    (hlab : r.lab j = .th v ch) (hq : (r.st j).data.sd.obj q = some p) (hg : (r.st j).data.sd.lk (.guard p) ≠ some v) :
    ∃ m, j < m ∧ (r.st m).data.sd.ready p = true := by
  have hn : ∀ g, .client g ∈ L → gw p g ≠ 1 := fun g h4 h5 => hg (guard_own (r.reach hr j) (by rw [hst]; exact List.mem_cons_of_mem _ h4) h5)
  have hok := r.ok j
  rw [hlab] at hok
  obtain ⟨x, h1, h2⟩ := own_ss hst hok hexc (by simp [SApi.entry])
  generalize hd : (r.st (j + 1)).data.sd = d at h1
  cases h1 with
  | poDnone _ h => rw [h] at hq; cases hq
  | poDok _ p' h hrd =>
    rw [h] at hq; cases hq
    exact ⟨j + 1, by omega, by rw [hd]; exact hrd⟩
  | poDbreak _ p' h hrd =>
    rw [h] at hq; cases hq
    have h3 : AtN r v (.client (.poEnd q p) :: L) (j + 1) (j + 1) [.client (.svIn p (.exn .brokenPromise))] :=
      ⟨Nat.le_refl _, h2.1, h2.2.1, fun q h1 h2 => by omega⟩
    obtain ⟨m1, h4, h5⟩ := AtN.svIn hr hf hl (fun g hm => by
      rcases List.mem_cons.1 hm with hm | hm
      · cases hm; simp [gw]
      · exact hn g hm) h3
    obtain ⟨m2, h6, h7, -⟩ := AtN.svChk hr hf h5
    exact ⟨m2, by omega, h7⟩

/-- **C82, task.** Thread `v` destroys the task that async or then has made for the state `p` (the closure of package_future_task, future.hpp:619-650), executed or
    not.  The destructor of the function returns.  Then the state becomes ready. -/
theorem C82_task (hr : SR A ad i0 (r.st 0)) (hf : r.Strong v) (hl : Frees r v (.guard p) (.client (.pdEnd p) :: L))
    (hd : r.Returns v (.app (A.destroy a)) (.client (.pdIn p) :: L))
    (hst : (r.st j).stk v = .client (.ftDtor p a) :: L) (hexc : ((r.st j).thr v).exc = none) (hg : (r.st j).data.sd.lk (.guard p) ≠ some v) :
    ∃ m, j < m ∧ (r.st m).data.sd.ready p = true := by
  have hn : ∀ g, .client g ∈ L → gw p g ≠ 1 := fun g h4 h5 => hg (guard_own (r.reach hr j) (by rw [hst]; exact List.mem_cons_of_mem _ h4) h5)
  have h0 : AtN r v L j j [.client (.ftDtor p a)] := ⟨Nat.le_refl _, hst, hexc, fun q h1 h2 => by omega⟩
  obtain ⟨m1, sd, x, h1, h2, h3, h4, h5⟩ := h0.cl hr hf (by simp) fun m => ⟨_, rfl⟩
  cases h3
  obtain ⟨m2, h6, h7⟩ := AtN.back _ _ hd (h2.succ (G' := [_, _]) h5.1 h5.2.1)
  clear h4 h5
  obtain ⟨m3, sd, x, h8, h2, h3, h4, h5⟩ := h7.cl hr hf (by simp) fun m => by simp only [sstep]; split <;> exact ⟨_, rfl⟩
  cases h3 with
  | pdOk _ hrd => exact ⟨m3 + 1, by omega, by rw [h4]; exact hrd⟩
  | pdBreak _ hrd =>
    have h3 : AtN r v (.client (.pdEnd p) :: L) (m3 + 1) (m3 + 1) [.client (.svIn p (.exn .brokenPromise))] :=
      ⟨Nat.le_refl _, h5.1, h5.2.1, fun q h1 h2 => by omega⟩
    obtain ⟨m1, h4, h5⟩ := AtN.svIn hr hf hl (fun g hm => by
      rcases List.mem_cons.1 hm with hm | hm
      · cases hm; simp [gw]
      · exact hn g hm) h3
    obtain ⟨m2, h6, h7, -⟩ := AtN.svChk hr hf h5
    exact ⟨m2, by omega, h7⟩

/-- An exception does not reach a destructor: the program would terminate. -/
theorem no_throw {g : SFrame α φ} {e : Exn} {o : Option Nat} {m : Nat} (hr : SR A ad i0 (r.st 0)) (hf : r.Strong v) (hst : (r.st m).stk v = .client g :: L)
    (hexc : ((r.st m).thr v).exc = some e) (hg : sThrow A.onThrow g e = some (.term o)) : False := by
  obtain ⟨m', h1, h2, ⟨ch, h3⟩, -⟩ := r.nextF hr hf (i := m) (by rw [hst]; simp) fun n hn hsame => ⟨n, Nat.le_refl _, .go, by
    have hs := (hsame n hn).stk.trans hst
    have he := (hsame n hn).exc.trans hexc
    have hrun := running_of_stk (FreeOK.reach (r.reach hr n)) (t := v) (by rw [hs]; simp)
    simp only [step, (r.good n).1, (r.good n).2, hrun, he, Bool.or_self, Bool.false_eq_true, if_false, ne_eq, not_true_eq_false, Option.isSome_some]⟩
  have hok := r.ok m'
  rw [h3] at hok
  have hs := h2.stk.trans hst
  have he := h2.exc.trans hexc
  cases step_cl hok with
  | «catch» e' g1 g2 rest hx hold hg' hst' hx' =>
    rw [hs] at hold
    rw [he] at hx
    cases hold
    cases hx
    have : sThrow A.onThrow g e = some g2 := hg'
    rw [hg] at this
    cases this
    have h5 : AtN r v L (m' + 1) (m' + 1) [.client (.term o)] := ⟨Nat.le_refl _, hst', hx', fun q h1 h2 => by omega⟩
    obtain ⟨m1, sd, x, h1, h2, h3, h4, h5⟩ := h5.cl hr hf (by simp) fun m => ⟨_, rfl⟩
    cases h3
    have := (r.good (m1 + 1)).2
    simp_all [ActTo]
  | pop e' g1 rest hx hold hg' =>
    rw [hs] at hold
    rw [he] at hx
    cases hold
    cases hx
    have : sThrow A.onThrow g e = none := hg'
    rw [hg] at this
    cases this
  | halt e' hx hst' hterm => have := (r.good (m' + 1)).2; simp_all
  | fin hold => rw [hs] at hold; cases hold
  | cl _ _ _ _ hx => simp_all
  | core _ _ hx => simp_all
  | task _ _ _ _ _ hold => rw [hs] at hold; cases hold
  | cpop _ _ _ _ hold => rw [hs] at hold; cases hold

/-- **C82, promise.** The destructor returns, without an exception; if the continuations that it executes in place and the destructors of tasks return, and the
    global mutex is not held for ever. -/
theorem C82_promise_returns (hr : SR A ad i0 (r.st 0)) (h : Sets r v p (.client (.poEnd q p) :: L))
    (hst : (r.st j).stk v = .client (SApi.promDtor q).entry :: L) (hexc : ((r.st j).thr v).exc = none)
    (hlab : r.lab j = .th v ch) (hq : (r.st j).data.sd.obj q = some p) (hg : (r.st j).data.sd.lk (.guard p) ≠ some v) :
    ∃ m, r.Ends v L j m ∧ ((r.st m).thr v).exc = none := by
  have hn : ∀ g, .client g ∈ L → gw p g ≠ 1 := fun g h4 h5 => hg (guard_own (r.reach hr j) (by rw [hst]; exact List.mem_cons_of_mem _ h4) h5)
  have h0 : AtN r v L j j [.client (SApi.promDtor q).entry] := ⟨Nat.le_refl _, hst, hexc, fun q h1 h2 => by omega⟩
  have hok := r.ok j
  rw [hlab] at hok
  obtain ⟨x, h1, h2⟩ := own_ss hst hok hexc (by simp [SApi.entry])
  generalize hd : (r.st (j + 1)).data.sd = d at h1
  cases h1 with
  | poDnone _ h => rw [h] at hq; cases hq
  | poDok _ p' h hrd =>
    have h3 : AtN r v L j (j + 1) [] := h0.succ (G' := []) h2.1 h2.2.1
    exact ⟨_, h3.ends (by omega), h3.exc⟩
  | poDbreak _ p' h' hrd =>
    rw [h'] at hq; cases hq
    have hs := (h0.succ (G' := [_, _]) h2.1 h2.2.1).suf
    have h3 : AtN r v (.client (.poEnd q p) :: L) (j + 1) (j + 1) [.client (.svIn p (.exn .brokenPromise))] :=
      ⟨Nat.le_refl _, h2.1, h2.2.1, fun q h1 h2 => by omega⟩
    obtain ⟨m1, h4, h5, h6 | h6⟩ := AtN.set hr h (fun g hm => by
      rcases List.mem_cons.1 hm with hm | hm
      · cases hm; simp [gw]
      · exact hn g hm) h3
    · have h7 : AtN r v L j m1 [.client (.poEnd q p)] := AtN.over h5 h6 (by omega) hs
      obtain ⟨m2, sd, x, h8, h9, h10, h11, h12⟩ := h7.cl hr h.fair (by simp) fun m => ⟨_, rfl⟩
      cases h10
      have h13 : AtN r v L j (m2 + 1) [] := h9.succ (G' := []) h12.1 h12.2.1
      exact ⟨_, h13.ends (by have := h7.le; omega), h13.exc⟩
    · exact (no_throw hr h.fair h5.2.1 h6 rfl).elim

/-- **C82, task.** The destructor of the task returns, without an exception. -/
theorem C82_task_returns (hr : SR A ad i0 (r.st 0)) (h : Sets r v p (.client (.pdEnd p) :: L))
    (hd : r.Returns v (.app (A.destroy a)) (.client (.pdIn p) :: L))
    (hst : (r.st j).stk v = .client (.ftDtor p a) :: L) (hexc : ((r.st j).thr v).exc = none) (hg : (r.st j).data.sd.lk (.guard p) ≠ some v) :
    ∃ m, r.Ends v L j m ∧ ((r.st m).thr v).exc = none := by
  have hn : ∀ g, .client g ∈ L → gw p g ≠ 1 := fun g h4 h5 => hg (guard_own (r.reach hr j) (by rw [hst]; exact List.mem_cons_of_mem _ h4) h5)
  have h0 : AtN r v L j j [.client (.ftDtor p a)] := ⟨Nat.le_refl _, hst, hexc, fun q h1 h2 => by omega⟩
  obtain ⟨m1, sd, x, h1, h2, h3, h4, h5⟩ := h0.cl hr h.fair (by simp) fun m => ⟨_, rfl⟩
  cases h3
  obtain ⟨m2, h6, h7⟩ := AtN.back _ _ hd (h2.succ (G' := [_, _]) h5.1 h5.2.1)
  clear h4 h5
  obtain ⟨m3, sd, x, h8, h2, h3, h4, h5⟩ := h7.cl hr h.fair (by simp) fun m => by simp only [sstep]; split <;> exact ⟨_, rfl⟩
  cases h3 with
  | pdOk _ hrd =>
    have h3 : AtN r v L j (m3 + 1) [] := h2.succ (G' := []) h5.1 h5.2.1
    exact ⟨_, h3.ends (by omega), h3.exc⟩
  | pdBreak _ hrd =>
    have hs := (h2.succ (G' := [_, _]) h5.1 h5.2.1).suf
    have h3 : AtN r v (.client (.pdEnd p) :: L) (m3 + 1) (m3 + 1) [.client (.svIn p (.exn .brokenPromise))] :=
      ⟨Nat.le_refl _, h5.1, h5.2.1, fun q h1 h2 => by omega⟩
    obtain ⟨m1, h4, h5, h6 | h6⟩ := AtN.set hr h (fun g hm => by
      rcases List.mem_cons.1 hm with hm | hm
      · cases hm; simp [gw]
      · exact hn g hm) h3
    · have h7 : AtN r v L j m1 [.client (.pdEnd p)] := AtN.over h5 h6 (by omega) hs
      obtain ⟨m2, sd, x, h8, h9, h10, h11, h12⟩ := h7.cl hr h.fair (by simp) fun m => ⟨_, rfl⟩
      cases h10
      have h13 : AtN r v L j (m2 + 1) [] := h9.succ (G' := []) h12.1 h12.2.1
      exact ⟨_, h13.ends (by have := h7.le; omega), h13.exc⟩
    · exact (no_throw hr h.fair h5.2.1 h6 rfl).elim

section
variable {u c k : Nat} {f : SFrame α φ} {rest : List (Fr α φ)}

/-- **C82.** So a thread `u` that waits for the future of a promise that is destroyed returns, whether it called wait before or after the destruction. -/
theorem C82_wait (hr : SR A ad i0 (r.st 0)) (hf : r.Strong v) (hl : Frees r v (.guard p) (.client (.poEnd q p) :: L))
    (hst : (r.st j).stk v = .client (SApi.promDtor q).entry :: L) (hexc : ((r.st j).thr v).exc = none)
    (hlab : r.lab j = .th v ch) (hq : (r.st j).data.sd.obj q = some p) (hg : (r.st j).data.sd.lk (.guard p) ≠ some v)
    (hw : WaitsFor r u c p f rest) (hwst : (r.st k).stk u = .client (SApi.futWait (some p)).entry :: .client f :: rest)
    (hwexc : ((r.st k).thr u).exc = none) (hloc : (r.st k).loc u = some c) (hwg : (r.st k).data.sd.lk (.guard p) ≠ some u) :
    (∃ m, r.Ends u (.client f :: rest) k m ∧ ((r.st m).thr u).exc = none) ∨ (∃ m id n, .unregistered c id n ∈ (r.st m).log) ∨ Robbed r u p := by
  obtain ⟨M, -, hM⟩ := C82_promise hr hf hl hst hexc hlab hq hg
  exact C61_wait hr hw ⟨M, hM⟩ hwst hwexc hloc hwg

/-- **C82.** The same if a task is destroyed. -/
theorem C82_wait_task (hr : SR A ad i0 (r.st 0)) (hf : r.Strong v) (hl : Frees r v (.guard p) (.client (.pdEnd p) :: L))
    (hd : r.Returns v (.app (A.destroy a)) (.client (.pdIn p) :: L))
    (hst : (r.st j).stk v = .client (.ftDtor p a) :: L) (hexc : ((r.st j).thr v).exc = none) (hg : (r.st j).data.sd.lk (.guard p) ≠ some v)
    (hw : WaitsFor r u c p f rest) (hwst : (r.st k).stk u = .client (SApi.futWait (some p)).entry :: .client f :: rest)
    (hwexc : ((r.st k).thr u).exc = none) (hloc : (r.st k).loc u = some c) (hwg : (r.st k).data.sd.lk (.guard p) ≠ some u) :
    (∃ m, r.Ends u (.client f :: rest) k m ∧ ((r.st m).thr u).exc = none) ∨ (∃ m id n, .unregistered c id n ∈ (r.st m).log) ∨ Robbed r u p := by
  obtain ⟨M, -, hM⟩ := C82_task hr hf hl hd hst hexc hg
  exact C61_wait hr hw ⟨M, hM⟩ hwst hwexc hloc hwg

end

end

/-! ## Examples -/

/-- main makes a promise, thread 1 waits for its future and main destroys the promise. -/
def brkProg : List (SAct Nat Nat) :=
  [.core .registerThis 2, .sync (.promNew 0 false) 3, .core (.spawn 1 5) 4, .sync (.promDtor 0) 8, .core .registerThis 6, .sync (.futWait (some 0)) 8]

/-- Hypotheses of `C82_promise`, `C82_promise_returns` and `C82_wait`. -/
example : ∃ (r : Run (client (tableApp brkProg))) (ch : Ch Unit), SR (tableApp brkProg) () 1 (r.st 0) ∧
    Sets r 0 0 [.client (.poEnd 0 0), .client (.app 8)] ∧
    (r.st 23).stk 0 = [.client (SApi.promDtor 0).entry, .client (.app 8)] ∧ ((r.st 23).thr 0).exc = none ∧ r.lab 23 = .th 0 ch ∧
    (r.st 23).data.sd.obj 0 = some 0 ∧ (r.st 23).data.sd.lk (.guard 0) ≠ some 0 ∧ (r.st 23).data.sd.ready 0 = false ∧ WaitsFor r 1 1 0 (.app 8) [] ∧
    (r.st 14).stk 1 = [.client (SApi.futWait (some 0)).entry, .client (.app 8)] ∧ ((r.st 14).thr 1).exc = none ∧ (r.st 14).loc 1 = some 1 ∧
    (r.st 14).data.sd.lk (.guard 0) ≠ some 1 := by
  obtain ⟨r, h1, h2, h3⟩ := wait_run (P := brkProg) (ls := Core.go 0 9 ++ Core.go 1 14 ++ Core.go 0 19 ++ Core.go 1 11) (f := .app 8)
    (rest := []) 43 (by decide +kernel) (by decide +kernel) (by decide +kernel) (by decide +kernel) (by decide +kernel) (by decide +kernel)
  obtain ⟨-, -, -, -, h4⟩ := set_run (v := 0) (p := 0) h3 (by decide +kernel) (by decide +kernel)
  have h5 := h3 (fun s => s.stk 0) 23 [.client (SApi.promDtor 0).entry, .client (.app 8)] (by decide +kernel)
  have h6 := h3 (fun s => s.stk 0) 24 [.client (.svIn 0 (.exn .brokenPromise)), .client (.poEnd 0 0), .client (.app 8)] (by decide +kernel)
  obtain ⟨ch, h7⟩ := moved h1 (j := 23) (v := 0) (by rw [h5]; simp) (by rw [h5, h6]; simp)
  exact ⟨r, ch, h1, h4 _, h5, h3 (fun s => (s.thr 0).exc) 23 _ (by decide +kernel), h7, h3 (fun s => s.data.sd.obj 0) 23 _ (by decide +kernel),
    by rw [h3 (fun s => s.data.sd.lk (.guard 0)) 23 none (by decide +kernel)]; simp, h3 (fun s => s.data.sd.ready 0) 23 _ (by decide +kernel), h2,
    h3 (fun s => s.stk 1) 14 _ (by decide +kernel),
    h3 (fun s => (s.thr 1).exc) 14 _ (by decide +kernel), h3 (fun s => s.loc 1) 14 _ (by decide +kernel),
    by rw [h3 (fun s => s.data.sd.lk (.guard 0)) 14 none (by decide +kernel)]; simp⟩

/-- main calls async with the id of no thread; the task is refused and destroyed; thread 1 waits for the future. -/
def brkTask : List (SAct Nat Nat) :=
  [.core .registerThis 2, .core (.spawn 1 5) 3, .sync (.async 9 true false 0) 8, .ret .unit, .core .registerThis 6, .sync (.futWait (some 0)) 8]

/-- main executes no task of a future, and no destructor of a task other than this one. -/
def brkOk (s : DSt) : Bool :=
  (match s.stk 0 with | .client (.ftRun _ _) :: _ => false | .client (.ftDtor _ _) :: .client (.srDtor _ _) :: _ => false | _ => true) &&
  (match s.stk 0 with | _ :: .core (.destroyList _ _ _ _) :: _ => false | _ => true)

/-- main executes the destructor of the function. -/
def brkAt (s : DSt) : Bool := match s.stk 0 with | .client (.app _) :: .client (.pdIn _) :: _ => true | _ => false

/-- Hypotheses of `C82_task`, `C82_task_returns` and `C82_wait_task`. -/
example : ∃ r : Run (client (tableApp brkTask)), SR (tableApp brkTask) () 1 (r.st 0) ∧
    Sets r 0 0 [.client (.pdEnd 0), .client (.done (.nat 0)), .client (.app 8)] ∧
    r.Returns 0 (.app ((tableApp brkTask).destroy 0)) [.client (.pdIn 0), .client (.done (.nat 0)), .client (.app 8)] ∧
    (r.st 25).stk 0 = [.client (.ftDtor 0 0), .client (.done (.nat 0)), .client (.app 8)] ∧ ((r.st 25).thr 0).exc = none ∧
    (r.st 25).data.sd.lk (.guard 0) ≠ some 0 ∧ (r.st 25).data.sd.ready 0 = false ∧ WaitsFor r 1 1 0 (.app 8) [] ∧
    (r.st 13).stk 1 = [.client (SApi.futWait (some 0)).entry, .client (.app 8)] ∧ ((r.st 13).thr 1).exc = none ∧ (r.st 13).loc 1 = some 1 ∧
    (r.st 13).data.sd.lk (.guard 0) ≠ some 1 := by
  obtain ⟨r, h1, h2, h3⟩ := wait_run (P := brkTask) (ls := Core.go 0 8 ++ Core.go 1 14 ++ Core.go 0 25 ++ Core.go 1 11) (f := .app 8)
    (rest := []) 48 (by decide +kernel) (by decide +kernel) (by decide +kernel) (by decide +kernel) (by decide +kernel) (by decide +kernel)
  have hlen : (Core.go 0 8 ++ Core.go 1 14 ++ Core.go 0 25 ++ Core.go 1 11).length = 58 := by decide
  have hE : ∀ i, 58 ≤ i → ((r.st i).ub || (r.st i).term) = false ∧ decide (((r.st i).thr 0).status = .running) = false ∧ (r.st i).gOwner = none ∧
      (r.st i).data.sd.lk (.guard 0) = none ∧ brkOk (r.st i) = true ∧ brkAt (r.st i) = false := fun i hi => by
    have := h3 (fun s => (s.ub || s.term, decide ((s.thr 0).status = .running), s.gOwner, s.data.sd.lk (.guard 0), brkOk s, brkAt s)) i
      (false, false, none, none, true, false) (by rw [List.take_of_length_le (by rw [hlen]; exact hi)]; decide +kernel)
    simpa only [Prod.mk.injEq] using this
  have hT : ∀ m < 58, (sexec brkTask ((Core.go 0 8 ++ Core.go 1 14 ++ Core.go 0 25 ++ Core.go 1 11).take m)).map (fun s => (brkOk s, brkAt s)) =
      some (true, decide (m = 26)) := by decide +kernel
  have hok : ∀ m, brkOk (r.st m) = true ∧ (brkAt (r.st m) = true → m = 26) := fun m => by
    rcases Nat.lt_or_ge m 58 with hm | hm
    · have := h3 (fun s => (brkOk s, brkAt s)) m _ (hT m hm)
      simp only [Prod.mk.injEq] at this
      exact ⟨this.1, fun h => by rw [this.2] at h; simpa using h⟩
    · have := hE m hm
      exact ⟨this.2.2.2.2.1, fun h => by rw [this.2.2.2.2.2] at h; cases h⟩
  have hf : r.Strong 0 := fun i hi => by
    obtain ⟨q, h6, ch, h7⟩ := hi (max i 58) (by omega)
    have h8 := of_decide_eq_false (hE q (by omega)).2.1
    unfold step at h7
    split at h7
    · cases h7
    · dsimp only at h7
      rw [if_pos h8] at h7
      cases h7
  have hdr : ∀ F L, Drops r 0 F L := fun F L t c l fn x i hi _ => by have := (hok i).1; simp [brkOk, hi] at this
  refine ⟨r, h1, ⟨hf, fun i => ⟨max i 58, by omega, (hE _ (by omega)).2.2.1⟩, fun i x _ => ⟨max i 58, by omega, by rw [(hE _ (by omega)).2.2.2.1]; simp⟩,
    fun _ _ _ _ => hdr _ _, fun _ _ _ => hdr _ _, fun _ _ _ i hi _ => by have := (hok i).1; simp [brkOk, hi] at this,
    fun _ _ i hi _ => by have := (hok i).1; simp [brkOk, hi] at this⟩, fun i hi _ => ?_, h3 (fun s => s.stk 0) 25 _ (by decide +kernel),
    h3 (fun s => (s.thr 0).exc) 25 _ (by decide +kernel),
    by rw [h3 (fun s => s.data.sd.lk (.guard 0)) 25 none (by decide +kernel)]; simp, h3 (fun s => s.data.sd.ready 0) 25 _ (by decide +kernel), h2,
    h3 (fun s => s.stk 1) 13 _ (by decide +kernel), h3 (fun s => (s.thr 1).exc) 13 _ (by decide +kernel), h3 (fun s => s.loc 1) 13 _ (by decide +kernel),
    by rw [h3 (fun s => s.data.sd.lk (.guard 0)) 13 none (by decide +kernel)]; simp⟩
  obtain rfl := (hok i).2 (by simp [brkAt, hi])
  have h4 := h3 (fun s => s.stk 0) 27 [.client (.pdIn 0), .client (.done (.nat 0)), .client (.app 8)] (by decide +kernel)
  refine ⟨27, by omega, h4, h3 (fun s => (s.thr 0).exc) 27 _ (by decide +kernel), fun m g1 g2 => ?_⟩
  obtain rfl | rfl : m = 26 ∨ m = 27 := by omega
  · rw [hi]; exact List.suffix_cons _ _
  · exact h4 ▸ List.suffix_refl _

end Itc
