import Verif.Props.PoolJobs
import Verif.Props.PoolWait
import Verif.Pool.Call

/-!
# C42, C45, C46, C47, C49: from the call of a pool function to its return

A call is seen from the state `s0` with the function's first frame on top of the thread's stack (above `rest`) to the state `s'` in which the stack is `rest` and
no exception is in flight. The ghost log of the pool is newest first: `l <:+ l'` says that `l` is a history at an earlier time than `l'`. The pool that is used is
the one that the object `h` refers to at some time during the call (`DerefIn`).
-/
namespace Itc
open Core Sync Pool
section
variable {α φ δ χ : Type} {U : PApp α φ δ χ} {u0 : δ} {f0 : φ} {s0 s s' : PSt α φ δ}

theorem later_reach (hr : PR U u0 f0 s) (h : Later (client (poolApp U)) s s') : PR U u0 f0 s' :=
  h.ind (P := fun x => PR U u0 f0 x) (fun hs h => h.step hs) hr

theorem later_mem (h : Later (client (poolApp U)) s s') {e : PEv α} (he : e ∈ s.data.ad.plog) : e ∈ s'.data.ad.plog := (later_suf h).subset he

theorem pool_call (hr : PR U u0 f0 s0) {t n : Nat} {f : PFrame α φ} (K : PCall α) {rest : List (Fr (PTask α) (PFrame α φ))}
    (hst : s0.stk t = .client (.app f) :: rest) (h0 : CPhI U t s0 K f s0) (hf : Frag (client (poolApp U)) t rest s0 n s) {lb : Lbl (PCh χ)}
    (hs : step (client (poolApp U)) s lb = some s') (hend : s'.stk t = rest) (hexc : (s'.thr t).exc = none) :
    PR U u0 f0 s' ∧ CRet U t s0 K (s'.thr t).rv s' :=
  ⟨(hf.reach hr).step hs, (qPh (u0 := u0) (f0 := f0) t s0 K rest).fin hr hst ⟨Later.refl, h0⟩ hf hs hend hexc⟩

/-- **C42**, from the call: schedule on object `h` with group `g` and callable `a` returns the state of a packaged task and an id; exactly one job with this id,
    this group and this callable was inserted into the pool during the call. At any later time the task was called at most once, and what it runs is `a`. -/
theorem C42_call (hr : PR U u0 f0 s0) {t n h : Nat} {g : Grp} {b : Bool} {a : α} {rest : List (Fr (PTask α) (PFrame α φ))}
    (hst : s0.stk t = .client (.app (.scIn h g b a)) :: rest) (hf : Frag (client (poolApp U)) t rest s0 n s) {lb : Lbl (PCh χ)}
    (hs : step (client (poolApp U)) s lb = some s') (hend : s'.stk t = rest) (hexc : (s'.thr t).exc = none) :
    ∃ i u id x c l, (s'.thr t).rv = .ids [u, id, x] ∧ DerefIn U s0 s' h i ∧ c.u = u ∧ c.a = a ∧
      s0.data.ad.plog <:+ l ∧ .sched t i id c g :: l <:+ s'.data.ad.plog ∧ id ∉ schedIds i l ∧
      ∀ s1, Later (client (poolApp U)) s' s1 → (schedIds i s1.data.ad.plog).count id = 1 ∧ calls u s1.data.sd.slog ≤ 1 ∧
        ∀ w y, .client (.ftRun u y) ∈ s1.stk w → y = .usr a := by
  obtain ⟨hr', i, u, id, x, h1, h2, c, l, rfl, rfl, h3, h4⟩ := pool_call hr (.sched h g a) hst ⟨rfl, rfl, rfl⟩ hf hs hend hexc
  have hm : .sched t i id c g ∈ s'.data.ad.plog := h4.subset List.mem_cons_self
  have hi : id ∉ schedIds i l := by
    have h5 := (C49_ids hr' i).1
    have h6 : (schedIds i (.sched t i id c g :: l)).Nodup := h5.sublist (h4.sublist.filterMap _)
    simp only [schedIds, List.filterMap_cons, PEv.schedId, if_pos] at h6
    exact (List.nodup_cons.1 h6).1
  refine ⟨i, _, id, x, c, l, h1, h2, rfl, rfl, h3, h4, hi, fun s1 hl => ?_⟩
  have hr1 := later_reach hr' hl
  have hm1 := later_mem hl hm
  refine ⟨List.count_eq_one_of_mem (C49_ids hr1 i).1 ?_, (C42_once hr1 hm1).1, fun w y hw => C42_function hr1 hm1 hw⟩
  exact List.mem_filterMap.2 ⟨_, hm1, by simp [PEv.schedId]⟩

/-- **C46**, from the call of stop(id): if the job is pending at the moment at which stop looks, stop has erased it: when stop returns its future is ready with
    broken_promise, and its function is never called. If it is not pending at that moment, nothing happens to it. -/
theorem C46_call (hr : PR U u0 f0 s0) {t n h id : Nat} {rest : List (Fr (PTask α) (PFrame α φ))}
    (hst : s0.stk t = .client (.app (.stIn h id)) :: rest) (hf : Frag (client (poolApp U)) t rest s0 n s) {lb : Lbl (PCh χ)}
    (hs : step (client (poolApp U)) s lb = some s') (hend : s'.stk t = rest) (hexc : (s'.thr t).exc = none) :
    ∃ i l, DerefIn U s0 s' h i ∧ s0.data.ad.plog <:+ l ∧
      (Pending i id l ∧ (∃ c, (∃ t' g, .sched t' i id c g ∈ l) ∧ .stopped t i id c :: l <:+ s'.data.ad.plog ∧ Holds (s'.data.sd.st c.u) (.exn .brokenPromise) ∧
          ∀ s1, Later (client (poolApp U)) s' s1 → calls c.u s1.data.sd.slog = 0) ∨
        ¬ Pending i id l ∧ .noStop t i id :: l <:+ s'.data.ad.plog) := by
  obtain ⟨hr', i, o, h1, ⟨l, h2⟩, h3⟩ := pool_call hr (.stop h id) hst ⟨rfl, rfl⟩ hf hs hend hexc
  refine ⟨i, l, h1, ?_⟩
  cases o with
  | none => exact ⟨h2.1.1, .inr ⟨h2.2, h2.1.2⟩⟩
  | some c =>
    have hm : .stopped t i id c ∈ s'.data.ad.plog := h2.1.2.subset List.mem_cons_self
    have hc : Cut s'.data.ad i id c := ⟨t, .inl hm⟩
    refine ⟨h2.1.1, .inl ⟨h2.2, c, ?_, h2.1.2, cut_broken hr' hc (up_ready hr' (hc.schd hr') (h3 c rfl).2), fun s1 hl =>
      (C46_never (later_reach hr' hl) (later_mem hl hm)).2⟩⟩
    obtain ⟨l1, h4⟩ := h2.1.2
    exact (hist hr' l1 _ l h4.symm).1

/-- stop_all and the jobs that are pending when it looks: all of them are erased, their futures are ready with broken_promise when it returns, and their functions
    are never called. -/
theorem C46_call_all (hr : PR U u0 f0 s0) {t n h : Nat} {rest : List (Fr (PTask α) (PFrame α φ))}
    (hst : s0.stk t = .client (.app (.saIn h)) :: rest) (hf : Frag (client (poolApp U)) t rest s0 n s) {lb : Lbl (PCh χ)}
    (hs : step (client (poolApp U)) s lb = some s') (hend : s'.stk t = rest) (hexc : (s'.thr t).exc = none) :
    ∃ i l es, DerefIn U s0 s' h i ∧ s0.data.ad.plog <:+ l ∧ es ++ l <:+ s'.data.ad.plog ∧ (∀ id, ¬ Pending i id (es ++ l)) ∧
      ∀ id, Pending i id l → ∃ c, (∃ t' g, .sched t' i id c g ∈ s'.data.ad.plog) ∧ .discarded t i id c ∈ es ∧ Holds (s'.data.sd.st c.u) (.exn .brokenPromise) ∧
        ∀ s1, Later (client (poolApp U)) s' s1 → ∀ u, .bodyStart u c.u ∉ s1.data.sd.slog := by
  obtain ⟨hr', i, h1, es, l, h2, h3, h4⟩ := pool_call hr (.stopAll h) hst rfl hf hs hend hexc
  refine ⟨i, l, es, h1, h2.1, h2.2, h3, fun id hp => ?_⟩
  obtain ⟨c, h5, h6⟩ := h4 id hp
  have hm : .discarded t i id c ∈ s'.data.ad.plog := h2.2.subset (List.mem_append_left _ h5)
  have hc : Cut s'.data.ad i id c := ⟨t, .inr hm⟩
  have h6 : rdy s'.data.sd c.p := by simpa using h6
  exact ⟨c, hc.schd hr', h5, cut_broken hr' hc (up_ready hr' (hc.schd hr') h6.2), fun s1 hl u =>
    cut_start (later_reach hr' hl) ⟨t, .inr (later_mem hl hm)⟩ (.inl rfl)⟩

/-- **C45**, from the call of change_priority(id, g): if the job is pending at the moment at which it looks, it is pending with group `g` afterwards. -/
theorem C45_call (hr : PR U u0 f0 s0) {t n h id : Nat} {g : Grp} {rest : List (Fr (PTask α) (PFrame α φ))}
    (hst : s0.stk t = .client (.app (.cpIn h id g)) :: rest) (hf : Frag (client (poolApp U)) t rest s0 n s) {lb : Lbl (PCh χ)}
    (hs : step (client (poolApp U)) s lb = some s') (hend : s'.stk t = rest) (hexc : (s'.thr t).exc = none) :
    ∃ i l es, DerefIn U s0 s' h i ∧ s0.data.ad.plog <:+ l ∧ es ++ l <:+ s'.data.ad.plog ∧ (es = [] ∨ es = [.changed t i id g]) ∧
      (Pending i id l → Pending i id (es ++ l) ∧ curGrp i id (es ++ l) = some g) := by
  obtain ⟨-, i, h1, es, l, h2, h3, h4⟩ := pool_call hr (.change h id g) hst ⟨rfl, rfl, rfl⟩ hf hs hend hexc
  exact ⟨i, l, es, h1, h2.1, h2.2, h3, h4⟩

theorem suf_at {l1 l2 l m : List (PEv α)} {e e' : PEv α} (h1 : m = l1 ++ e :: l) (h2 : e' :: l2 <:+ m) (h3 : l.length = l2.length) : e = e' ∧ l = l2 := by
  obtain ⟨l0, h4⟩ := h2
  rw [h1] at h4
  have := (List.append_inj' h4 (by simp [h3])).2
  simp only [List.cons.injEq] at this
  exact ⟨this.1.symm, this.2.symm⟩

/-- **C47 (part)**, from the call of wait(id): when it has returned, the job - if it had been inserted before wait looked for it - is finished or was discarded, or
    the waiting thread was told to exit. Missing: as in `C47_partial`. -/
theorem C47_wait_partial (hr : PR U u0 f0 s0) {t n h id : Nat} {rest : List (Fr (PTask α) (PFrame α φ))}
    (hst : s0.stk t = .client (.app (.wtIn h id)) :: rest) (hf : Frag (client (poolApp U)) t rest s0 n s) {lb : Lbl (PCh χ)}
    (hs : step (client (poolApp U)) s lb = some s') (hend : s'.stk t = rest) (hexc : (s'.thr t).exc = none) :
    ∃ i l, DerefIn U s0 s' h i ∧ s0.data.ad.plog <:+ l ∧ l <:+ s'.data.ad.plog ∧
      ∀ u c g, .sched u i id c g ∈ l → (∀ v, .forgot v i id ∉ l) → (∀ p, .waited t i l.length p true false ∉ s'.data.ad.plog) →
        (Finished s' c ∨ Discarded i id c l) ∨ ∃ p, .waited t i l.length p true true ∈ s'.data.ad.plog := by
  obtain ⟨hr', i, k, ps, h1, ⟨o, l, h2, rfl⟩, h3⟩ := pool_call hr (.wait h id) hst ⟨rfl, rfl⟩ hf hs hend hexc
  refine ⟨i, l, h1, h2.1, (List.suffix_cons _ _).trans h2.2, ?_⟩
  obtain ⟨l1, e, l', h4, h5, -, h6⟩ := C47_partial hr' h3
  obtain ⟨rfl, rfl⟩ := suf_at h4 h2.2 h5
  exact h6 id (by simp [Itc.Waits])

/-- The same for wait_all: all jobs that had been inserted before it looked. -/
theorem C47_wait_all_partial (hr : PR U u0 f0 s0) {t n h : Nat} {rest : List (Fr (PTask α) (PFrame α φ))}
    (hst : s0.stk t = .client (.app (.waIn h)) :: rest) (hf : Frag (client (poolApp U)) t rest s0 n s) {lb : Lbl (PCh χ)}
    (hs : step (client (poolApp U)) s lb = some s') (hend : s'.stk t = rest) (hexc : (s'.thr t).exc = none) :
    ∃ i l, DerefIn U s0 s' h i ∧ s0.data.ad.plog <:+ l ∧ l <:+ s'.data.ad.plog ∧
      ∀ id u c g, .sched u i id c g ∈ l → (∀ v, .forgot v i id ∉ l) → (∀ p, .waited t i l.length p true false ∉ s'.data.ad.plog) →
        (Finished s' c ∨ Discarded i id c l) ∨ ∃ p, .waited t i l.length p true true ∈ s'.data.ad.plog := by
  obtain ⟨hr', i, k, ps, h1, ⟨o, l, h2, rfl⟩, h3⟩ := pool_call hr (.waitAll h) hst rfl hf hs hend hexc
  refine ⟨i, l, h1, h2.1, (List.suffix_cons _ _).trans h2.2, fun id => ?_⟩
  obtain ⟨l1, e, l', h4, h5, -, h6⟩ := C47_partial hr' h3
  obtain ⟨rfl, rfl⟩ := suf_at h4 h2.2 h5
  exact h6 id (by simp [Itc.Waits])

/-- **C49 (part)**, from the call of get_jobs_count: what it returns is the number of jobs that were inserted and are not over at one moment during the call.
    Missing: as in `C49_count_partial`, jobs that a stop_all made the pool forget while they are executing are not counted. -/
theorem C49_call_partial (hr : PR U u0 f0 s0) {t n h : Nat} {rest : List (Fr (PTask α) (PFrame α φ))}
    (hst : s0.stk t = .client (.app (.cnIn h)) :: rest) (hf : Frag (client (poolApp U)) t rest s0 n s) {lb : Lbl (PCh χ)}
    (hs : step (client (poolApp U)) s lb = some s') (hend : s'.stk t = rest) (hexc : (s'.thr t).exc = none) :
    ∃ i l m, DerefIn U s0 s' h i ∧ s0.data.ad.plog <:+ l ∧ l <:+ s'.data.ad.plog ∧ (s'.thr t).rv = .nat m ∧
      ((∀ t' id, .forgot t' i id ∉ l) → m = ((schedIds i l).filter (· ∉ overIds i l)).length) := by
  obtain ⟨hr', i, m, h1, h2, l, h3⟩ := pool_call hr (.count h) hst rfl hf hs hend hexc
  obtain ⟨l1, h4⟩ := h3.2
  exact ⟨i, l, m, h2, h3.1, (List.suffix_cons _ _).trans h3.2, h1, fun hn => C49_count_partial hr' (l1 := l1) h4.symm hn⟩

end
/-- A call in a concrete execution: the state at the call, the state in which it has returned. -/
theorem pfragWit {β : Type} {l : List (PAct Nat Nat)} {ls1 ls2 : List (Lbl (PCh Unit))} {lb : Lbl (PCh Unit)}
    {t : Nat} {g : Fr (PTask Nat) (PFrame Nat Nat)} {rest : List (Fr (PTask Nat) (PFrame Nat Nat))} {obs : DPSt → DPSt → β} {b : β}
    (h : ((pexec l ls1).bind fun s0 => if s0.stk t = g :: rest then
        (fragRun (client (poolApp (tableP l))) t rest s0 0 ls2).bind fun p =>
          (step (client (poolApp (tableP l))) p.2 lb).map fun s' => obs s0 s' else none) = some b) :
    ∃ s0 n s s', PR (tableP l) () 1 s0 ∧ s0.stk t = g :: rest ∧ Frag (client (poolApp (tableP l))) t rest s0 n s ∧
      step (client (poolApp (tableP l))) s lb = some s' ∧ obs s0 s' = b := by
  obtain ⟨s0, h0, h⟩ := Option.bind_eq_some_iff.1 h
  split at h
  · rename_i hst
    obtain ⟨⟨n, s⟩, h1, h⟩ := Option.bind_eq_some_iff.1 h
    obtain ⟨s', h2, h3⟩ := Option.map_eq_some_iff.1 h
    exact ⟨s0, n, s, s', ⟨ls1, h0⟩, hst, fragRun_sound ls2 (Frag.here g hst) h1, h2, h3⟩
  · contradiction

/-- Main makes a pool with one worker, schedules two jobs, changes the priority of the first, stops it, counts the jobs, and stops all. -/
def demoCalls : List (PAct Nat Nat) :=
  [.core .registerThis 2, .pool (.new 0 [(0, 1)]) 3, .pool (.schedule 0 ⟨0, 5⟩ true 20) 4, .pool (.schedule 0 ⟨0, 3⟩ true 20) 5, .pool (.change 0 1 ⟨0, 0⟩) 6,
   .pool (.stop 0 1) 7, .pool (.count 0) 8, .pool (.stopAll 0) 9]

/-- The hypotheses of `C42_call` are met: schedule returns state 0 and id 1. -/
example : ∃ s0 n s s', PR (tableP demoCalls) () 1 s0 ∧ s0.stk 0 = .client (.app (.scIn 0 ⟨0, 5⟩ true 20)) :: [.client (.app (.usr 4))] ∧
    Frag (client (poolApp (tableP demoCalls))) 0 [.client (.app (.usr 4))] s0 n s ∧ step (client (poolApp (tableP demoCalls))) s (.th 0 .go) = some s' ∧
    (decide (s'.stk 0 = [.client (.app (.usr 4))]), (s'.thr 0).exc, (s'.thr 0).rv, decide (.sched 0 0 1 demoA ⟨0, 5⟩ ∈ s'.data.ad.plog)) =
      (true, none, .ids [0, 1, 1], true) :=
  pfragWit (l := demoCalls) (ls1 := pgo 0 15) (ls2 := pgo 0 14)
    (obs := fun _ s' => (decide (s'.stk 0 = [.client (.app (.usr 4))]), (s'.thr 0).exc, (s'.thr 0).rv, decide (.sched 0 0 1 demoA ⟨0, 5⟩ ∈ s'.data.ad.plog)))
    (by decide +kernel)

/-- Those of `C45_call`: the job is pending and gets a new group. -/
example : ∃ s0 n s s', PR (tableP demoCalls) () 1 s0 ∧ s0.stk 0 = .client (.app (.cpIn 0 1 ⟨0, 0⟩)) :: [.client (.app (.usr 6))] ∧
    Frag (client (poolApp (tableP demoCalls))) 0 [.client (.app (.usr 6))] s0 n s ∧ step (client (poolApp (tableP demoCalls))) s (.th 0 .go) = some s' ∧
    (decide (s'.stk 0 = [.client (.app (.usr 6))]), (s'.thr 0).exc, decide (.changed 0 0 1 ⟨0, 0⟩ ∈ s'.data.ad.plog)) = (true, none, true) :=
  pfragWit (l := demoCalls) (ls1 := pgo 0 47) (ls2 := pgo 0 10)
    (obs := fun _ s' => (decide (s'.stk 0 = [.client (.app (.usr 6))]), (s'.thr 0).exc, decide (.changed 0 0 1 ⟨0, 0⟩ ∈ s'.data.ad.plog))) (by decide +kernel)

/-- Those of `C46_call`: the job is pending and is stopped. -/
example : ∃ s0 n s s', PR (tableP demoCalls) () 1 s0 ∧ s0.stk 0 = .client (.app (.stIn 0 1)) :: [.client (.app (.usr 7))] ∧
    Frag (client (poolApp (tableP demoCalls))) 0 [.client (.app (.usr 7))] s0 n s ∧ step (client (poolApp (tableP demoCalls))) s (.th 0 .go) = some s' ∧
    (decide (s'.stk 0 = [.client (.app (.usr 7))]), (s'.thr 0).exc, decide (.stopped 0 0 1 demoA ∈ s'.data.ad.plog)) = (true, none, true) :=
  pfragWit (l := demoCalls) (ls1 := pgo 0 59) (ls2 := pgo 0 34)
    (obs := fun _ s' => (decide (s'.stk 0 = [.client (.app (.usr 7))]), (s'.thr 0).exc, decide (.stopped 0 0 1 demoA ∈ s'.data.ad.plog))) (by decide +kernel)

/-- Those of `C49_call_partial`: one job is left. -/
example : ∃ s0 n s s', PR (tableP demoCalls) () 1 s0 ∧ s0.stk 0 = .client (.app (.cnIn 0)) :: [.client (.app (.usr 8))] ∧
    Frag (client (poolApp (tableP demoCalls))) 0 [.client (.app (.usr 8))] s0 n s ∧ step (client (poolApp (tableP demoCalls))) s (.th 0 .go) = some s' ∧
    (decide (s'.stk 0 = [.client (.app (.usr 8))]), (s'.thr 0).exc, (s'.thr 0).rv, decide (.stopped 0 0 1 demoA ∈ s0.data.ad.plog)) = (true, none, .nat 1, true) :=
  pfragWit (l := demoCalls) (ls1 := pgo 0 95) (ls2 := pgo 0 5)
    (obs := fun s0 s' => (decide (s'.stk 0 = [.client (.app (.usr 8))]), (s'.thr 0).exc, (s'.thr 0).rv, decide (.stopped 0 0 1 demoA ∈ s0.data.ad.plog)))
    (by decide +kernel)

/-- Those of `C46_call_all`: the second job is pending and is discarded. -/
example : ∃ s0 n s s', PR (tableP demoCalls) () 1 s0 ∧ s0.stk 0 = .client (.app (.saIn 0)) :: [.client (.app (.usr 9))] ∧
    Frag (client (poolApp (tableP demoCalls))) 0 [.client (.app (.usr 9))] s0 n s ∧ step (client (poolApp (tableP demoCalls))) s (.th 0 .go) = some s' ∧
    (decide (s'.stk 0 = [.client (.app (.usr 9))]), (s'.thr 0).exc, decide (.discarded 0 0 2 demoB ∈ s'.data.ad.plog)) = (true, none, true) :=
  pfragWit (l := demoCalls) (ls1 := pgo 0 102) (ls2 := pgo 0 35)
    (obs := fun _ s' => (decide (s'.stk 0 = [.client (.app (.usr 9))]), (s'.thr 0).exc, decide (.discarded 0 0 2 demoB ∈ s'.data.ad.plog))) (by decide +kernel)

/-- Main waits for a job. -/
def demoWaitOne : List (PAct Nat Nat) :=
  [.core .registerThis 2, .pool (.new 0 [(0, 1)]) 3, .pool (.schedule 0 ⟨0, 5⟩ true 20) 4, .pool (.wait 0 1) 5]

/-- The hypotheses of `C47_wait_partial` are met: the worker executes the job, main returns from wait. -/
example : ∃ s0 n s s', PR (tableP demoWaitOne) () 1 s0 ∧ s0.stk 0 = .client (.app (.wtIn 0 1)) :: [.client (.app (.usr 5))] ∧
    Frag (client (poolApp (tableP demoWaitOne))) 0 [.client (.app (.usr 5))] s0 n s ∧ step (client (poolApp (tableP demoWaitOne))) s (.th 0 .go) = some s' ∧
    (decide (s'.stk 0 = [.client (.app (.usr 5))]), (s'.thr 0).exc, decide (.done 1 0 1 demoA ∈ s'.data.ad.plog), decide (.sched 0 0 1 demoA ⟨0, 5⟩ ∈ s0.data.ad.plog),
      decide (.forgot 0 0 1 ∉ s'.data.ad.plog), decide (.waited 0 0 6 1 false true ∈ s'.data.ad.plog)) = (true, none, true, true, true, true) :=
  pfragWit (l := demoWaitOne) (ls1 := pgo 0 31) (ls2 := pgo 0 14 ++ pgo 1 8 ++ ptop 1 0 ++ pgo 1 60 ++ pgo 0 9)
    (obs := fun s0 s' => (decide (s'.stk 0 = [.client (.app (.usr 5))]), (s'.thr 0).exc, decide (.done 1 0 1 demoA ∈ s'.data.ad.plog),
      decide (.sched 0 0 1 demoA ⟨0, 5⟩ ∈ s0.data.ad.plog), decide (.forgot 0 0 1 ∉ s'.data.ad.plog), decide (.waited 0 0 6 1 false true ∈ s'.data.ad.plog)))
    (by decide +kernel)

/-- Those of `C47_wait_all_partial`. -/
example : ∃ s0 n s s', PR (tableP demoWait) () 1 s0 ∧ s0.stk 0 = .client (.app (.waIn 0)) :: [.client (.app (.usr 5))] ∧
    Frag (client (poolApp (tableP demoWait))) 0 [.client (.app (.usr 5))] s0 n s ∧ step (client (poolApp (tableP demoWait))) s (.th 0 .go) = some s' ∧
    (decide (s'.stk 0 = [.client (.app (.usr 5))]), (s'.thr 0).exc, decide (.done 1 0 1 demoA ∈ s'.data.ad.plog)) = (true, none, true) :=
  pfragWit (l := demoWait) (ls1 := pgo 0 31) (ls2 := pgo 0 14 ++ pgo 1 8 ++ ptop 1 0 ++ pgo 1 60 ++ pgo 0 9)
    (obs := fun s0 s' => (decide (s'.stk 0 = [.client (.app (.usr 5))]), (s'.thr 0).exc, decide (.done 1 0 1 demoA ∈ s'.data.ad.plog))) (by decide +kernel)

end Itc
