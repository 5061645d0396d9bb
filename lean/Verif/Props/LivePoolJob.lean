import Verif.Props.LivePoolOps
import Verif.Props.PoolCalls
import Verif.Props.CvReturn

/-!
# C78: what schedule, stop and stop_all have done when they have returned

For arbitrary user code and an infinite execution; vocabulary of `Verif.Props.Live` and `Verif.Pool.Spec`.
-/
namespace Itc
open Core Sync Pool

section
variable {α φ δ χ : Type} {U : PApp α φ δ χ} {u0 : δ} {f0 : φ} {r : Run (client (poolApp U))} {u j : Nat} {L : List (Fr (PTask α) (PFrame α φ))}

theorem CallEnds.frag (h : CallEnds r u j L) {x : Fr (PTask α) (PFrame α φ)} (hst : (r.st j).stk u = x :: L) :
    ∃ m n, j ≤ m ∧ r.Ends u L j (m + 1) ∧ ((r.st (m + 1)).thr u).exc = none ∧ Frag (client (poolApp U)) u L (r.st j) n (r.st m) := by
  obtain ⟨m, ⟨h1, h2, h3⟩, h4⟩ := h
  obtain ⟨k, rfl⟩ : ∃ k, m = j + k + 1 := ⟨m - j - 1, by omega⟩
  obtain ⟨n, hf⟩ := r.frag hst (k := k) fun m' ha hb => h3 m' ha (by omega)
  exact ⟨j + k, n, by omega, ⟨h1, h2, h3⟩, h4, hf⟩

theorem Run.later (r : Run (client (poolApp U))) {m q : Nat} (h : m ≤ q) : Later (client (poolApp U)) (r.st m) (r.st q) := by
  induction h with
  | refl => exact Later.refl
  | step _ ih => exact ih.snoc (r.ok _)

variable (hr : PR U u0 f0 (r.st 0)) (hu : r.Strong u)
include hr hu

/-- **C78, schedule.** Thread `u` calls `schedule`.  If the workers of the pool into which the call inserts the job execute its jobs (`PoolRuns`), then the call returns a
    future and an id, and the future becomes ready, the function having been called at most once; unless the job is stopped or discarded. -/
theorem C78_schedule {h : Nat} {g : Grp} {b : Bool} {v : α} (W : ∀ i, (∃ m, (r.st m).data.ad.deref h = some i) → NotifiesPool r u i L)
    (hst : (r.st j).stk u = .client (.app (PApi.schedule h g b v).entry) :: L) (hx : ((r.st j).thr u).exc = none)
    (hs : ∀ m i id c l, r.Ends u L j m → (r.st j).data.ad.plog <:+ l → .sched u i id c g :: l <:+ (r.st m).data.ad.plog → PoolRuns r i) :
    ∃ m q i p id x, r.Ends u L j m ∧ ((r.st m).thr u).exc = none ∧ ((r.st m).thr u).rv = .ids [p, id, x] ∧
      (∃ c, c.u = p ∧ c.a = v ∧ .sched u i id c g ∈ (r.st m).data.ad.plog ∧ .sched u i id c g ∉ (r.st j).data.ad.plog) ∧ m ≤ q ∧
      (id ∈ cutIds i (r.st q).data.ad.plog ∨ (r.st q).data.sd.ready p = true ∧ calls p (r.st q).data.sd.slog ≤ 1) := by
  obtain ⟨m, n, h1, h2, h3, hf⟩ := (C77_schedule hr hu W hst hx).frag hst
  obtain ⟨i, p, id, x, c, l, h4, -, rfl, h5, h6, h7, h8, h9⟩ := C42_call (r.reach hr j) hst hf (r.ok m) h2.2.1 h3
  have h10 : .sched u i id c g ∈ (r.st (m + 1)).data.ad.plog := h7.subset List.mem_cons_self
  obtain ⟨q, h11, h12⟩ := job_ends hr (hs _ i id c l h2 h6 h7) h10
  refine ⟨m + 1, q, i, c.u, id, x, h2, h3, h4, ⟨c, rfl, h5, h10, fun h => h8 ?_⟩, h11, h12.imp (fun h => h) fun h =>
    ⟨up_ready (r.reach hr q) ⟨_, _, r.plogm h11 h10⟩ h, (h9 _ (r.later h11)).2.1⟩⟩
  exact List.mem_filterMap.2 ⟨_, h6.subset h, by simp [PEv.schedId]⟩

/-- **C78, stop.** `stop(id)` returns.  If the job is pending when the call looks, then when it has returned the future of the job is ready with broken_promise. -/
theorem C78_stop {h id : Nat} (W : ∀ i, (∃ m, (r.st m).data.ad.deref h = some i) → CallsPool r u i L)
    (hst : (r.st j).stk u = .client (.app (PApi.stop h id).entry) :: L) (hx : ((r.st j).thr u).exc = none) :
    ∃ m i l, r.Ends u L j m ∧ ((r.st m).thr u).exc = none ∧ (r.st j).data.ad.plog <:+ l ∧ l <:+ (r.st m).data.ad.plog ∧
      (Pending i id l → ∃ c t g, .sched t i id c g ∈ l ∧ Holds ((r.st m).data.sd.st c.u) (.exn .brokenPromise) ∧ ∀ q, calls c.u (r.st q).data.sd.slog = 0) := by
  obtain ⟨m, n, h1, h2, h3, hf⟩ := (C77_stop hr hu W hst hx).frag hst
  obtain ⟨i, l, -, h4, ⟨-, c, ⟨t', g, h5⟩, h6, h7, -⟩ | ⟨h5, h6⟩⟩ := C46_call (r.reach hr j) hst hf (r.ok m) h2.2.1 h3
  · refine ⟨m + 1, i, l, h2, h3, h4, (List.suffix_cons _ _).trans h6, fun _ => ⟨c, t', g, h5, h7, fun q => ?_⟩⟩
    have h8 : .stopped u i id c ∈ (r.st (m + 1)).data.ad.plog := h6.subset List.mem_cons_self
    have h9 := (C46_never (r.reach hr (max q (m + 1))) (r.plogm (Nat.le_max_right _ _) h8)).2
    obtain ⟨es, h10⟩ := later_slog (r.later (Nat.le_max_left q (m + 1)))
    rw [h10] at h9
    simp only [calls, List.countP_append] at h9 ⊢
    omega
  · exact ⟨m + 1, i, l, h2, h3, h4, (List.suffix_cons _ _).trans h6, fun h => absurd h h5⟩

/-- **C78, stop_all.** `stop_all()` returns.  When it has returned the future of each job that was pending when the call looked is ready with broken_promise. -/
theorem C78_stop_all {h : Nat} (W : ∀ i, (∃ m, (r.st m).data.ad.deref h = some i) → CallsPool r u i L)
    (hst : (r.st j).stk u = .client (.app (PApi.stopAll h).entry) :: L) (hx : ((r.st j).thr u).exc = none) :
    ∃ m i l, r.Ends u L j m ∧ ((r.st m).thr u).exc = none ∧ (r.st j).data.ad.plog <:+ l ∧ l <:+ (r.st m).data.ad.plog ∧
      ∀ id, Pending i id l → ∃ c t g, .sched t i id c g ∈ (r.st m).data.ad.plog ∧ Holds ((r.st m).data.sd.st c.u) (.exn .brokenPromise) ∧
        ∀ q v, .bodyStart v c.u ∉ (r.st q).data.sd.slog := by
  obtain ⟨m, n, h1, h2, h3, hf⟩ := (C77_stop_all hr hu W hst hx).frag hst
  obtain ⟨i, l, es, -, h4, h5, -, h6⟩ := C46_call_all (r.reach hr j) hst hf (r.ok m) h2.2.1 h3
  refine ⟨m + 1, i, l, h2, h3, h4, (List.suffix_append _ _).trans h5, fun id hp => ?_⟩
  obtain ⟨c, ⟨t, g, h7⟩, h8, h9, h10⟩ := h6 id hp
  refine ⟨c, t, g, h7, h9, fun q v hv => h10 (r.st (max q (m + 1))) (r.later (Nat.le_max_right _ _)) v ?_⟩
  obtain ⟨es, h11⟩ := later_slog (r.later (Nat.le_max_left q (m + 1)))
  rw [h11]
  exact List.mem_append_right _ hv

end

/-! ## A concrete case

The hypotheses of `C78_stop` and `C78_stop_all` are those of `C77_stop` and `C77_stop_all`. -/

set_option synthInstance.maxSize 1024 in
set_option synthInstance.maxHeartbeats 400000 in
theorem schedPool_tab : (List.range 129).all (fun i => ((pexec demoWait (waitPool.take i)).map fun s => decide (s.getId 0 ≠ 2) && (s.thr 0).exc.isNone &&
    decide ((s.data.ad.imp 0).wk = [] ∨ (s.data.ad.imp 0).wk = [⟨0, 1, 2⟩]) && decide (s.data.ad.deref 0 ≠ none → s.data.ad.deref 0 = some 0) &&
    decide (s.data.ad.plog = waitPoolEvs.drop (11 - s.data.ad.plog.length))).getD false) = true := by decide +kernel

set_option synthInstance.maxSize 1024 in
set_option synthInstance.maxHeartbeats 400000 in
theorem schedPool_at : (pexec demoWait (waitPool.take 15)).map (fun s => s.stk 0) =
      some [.client (.app (PApi.schedule 0 ⟨0, 5⟩ true 20).entry), .client (.app (.usr 4))] ∧
    (pexec demoWait waitPool).map (fun s => (s.gOwner, s.data.sd.lk (.user (gd 0)))) = some (none, none) := by decide +kernel

/-- The hypotheses of `C78_schedule` are met. -/
example : ∃ r : Run (client (poolApp (tableP demoWait))), PR (tableP demoWait) () 1 (r.st 0) ∧ r.Strong 0 ∧
    (∀ i, (∃ m, (r.st m).data.ad.deref 0 = some i) → NotifiesPool r 0 i [.client (.app (.usr 4))]) ∧
    (r.st 15).stk 0 = .client (.app (PApi.schedule 0 ⟨0, 5⟩ true 20).entry) :: [.client (.app (.usr 4))] ∧ ((r.st 15).thr 0).exc = none ∧
    ∀ m i id c l, r.Ends 0 [.client (.app (.usr 4))] 15 m → (r.st 15).data.ad.plog <:+ l → .sched 0 i id c ⟨0, 5⟩ :: l <:+ (r.st m).data.ad.plog → PoolRuns r i := by
  obtain ⟨r, hex, hl, hret, hR, hfair, -, -, -, -, -, -, hP, -⟩ := waitPool_run
  have htab : ∀ i, (decide ((r.st i).getId 0 ≠ 2) && ((r.st i).thr 0).exc.isNone &&
      decide (((r.st i).data.ad.imp 0).wk = [] ∨ ((r.st i).data.ad.imp 0).wk = [⟨0, 1, 2⟩]) && decide ((r.st i).data.ad.deref 0 ≠ none → (r.st i).data.ad.deref 0 = some 0) &&
      decide ((r.st i).data.ad.plog = waitPoolEvs.drop (11 - (r.st i).data.ad.plog.length))) = true := by
    intro i
    rcases Nat.lt_or_ge i 129 with h | h
    · have h1 := List.all_eq_true.1 schedPool_tab i (List.mem_range.2 h)
      simpa only [hex i, Option.map_some, Option.getD_some] using h1
    · rw [hl i (by omega)]
      have h1 := List.all_eq_true.1 schedPool_tab 128 (List.mem_range.2 (by omega))
      simpa only [hex 128, Option.map_some, Option.getD_some] using h1
  simp only [Bool.and_eq_true, decide_eq_true_eq, Option.isNone_iff_eq_none] at htab
  obtain ⟨a1, a2⟩ := schedPool_at
  have a2 : (pexec demoWait (waitPool.take 128)).map (fun s => (s.gOwner, s.data.sd.lk (.user (gd 0)))) = some (none, none) := a2
  simp only [hex, Option.map_some, Option.some.injEq, Prod.mk.injEq] at a1 a2
  refine ⟨r, hR, hfair, fun i ⟨m, hi⟩ => ?_, a1, (htab 15).1.1.1.2, fun m i id c l _ _ h => ?_⟩
  · have := (htab m).1.2 (by rw [hi]; simp)
    rw [hi] at this
    obtain rfl := Option.some.inj this
    refine ⟨⟨fun n => ⟨max n 128, by omega, by rw [hl _ (by omega)]; exact a2.2⟩, fun _ => hret _ _, fun _ _ => hret _ _⟩,
      fun n => ⟨max n 128, by omega, by rw [hl _ (by omega)]; exact a2.1⟩, fun m n w hw => ?_, fun _ _ _ _ _ _ _ _ => hret _ _⟩
    rcases (htab m).1.1.2 with h | h <;> rw [h] at hw <;> simp at hw
    rw [hw]
    exact (htab n).1.1.1.1
  · have h1 : .sched 0 i id c ⟨0, 5⟩ ∈ waitPoolEvs := by
      have h2 := h.subset List.mem_cons_self
      rw [(htab m).2] at h2
      exact List.mem_of_mem_drop h2
    simp only [waitPoolEvs, List.mem_cons, reduceCtorEq, PEv.sched.injEq, List.not_mem_nil, or_false, false_or, true_and] at h1
    obtain ⟨rfl, -⟩ := h1
    exact hP.toPoolRuns

end Itc
