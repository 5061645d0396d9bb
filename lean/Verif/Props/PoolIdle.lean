import Verif.Pool.Quiet
import Verif.Props.PoolJobs

/-!
# C43: idle workers leave no job behind

A worker `w` of pool `i` (an entry of `workers_`: level, native thread, thread id) is idle if it is registered and not told to exit, its task queue is empty, and its
thread is not inside `check_jobs` of this pool before the point where a handle is popped (a thread that waits for tasks executes no `check_jobs` at all). A job is left
if it was scheduled, was neither stopped nor discarded, and no worker took it (`Pending`); its level is that of its current priority group (`curGrp`).
-/
namespace Itc
open Core Sync Pool
section
variable {α φ δ χ : Type} {U : PApp α φ δ χ} {u0 : δ} {f0 : φ} {s s' : PSt α φ δ}

structure IdleWorker (s : PSt α φ δ) (i : Nat) (w : Wk) : Prop where
  worker : w ∈ (s.data.ad.imp i).wk
  reg : ∃ c, Ev.registered c w.id w.n ∈ s.log ∧ Ev.unregistered c w.id w.n ∉ s.log ∧ Ev.exitSet c ∉ s.log ∧ (s.ctxs c).pend = []
  calm : ∀ x, x.i = i → .client (.app (.ckIn x)) ∉ s.stk w.n ∧ .client (.app (.ckBody x)) ∉ s.stk w.n

/-- **C43, one worker.** If a worker is idle and nobody holds the mutex of the pool (so that nobody is in the middle of adding a job), then no job of a level that this
    worker serves is left unstarted. -/
theorem C43_worker (hr : PR U u0 f0 s) {i : Nat} {w : Wk} (hw : IdleWorker s i w) (hlk : s.data.sd.lk (.user (gd i)) = none)
    {id : Nat} {g : Grp} (hg : curGrp i id s.data.ad.plog = some g) (hle : w.lvl ≤ g.lvl) : ¬ Pending i id s.data.ad.plog := by
  intro hp
  obtain ⟨c, h1, h2, h3, h4⟩ := hw.reg
  have h5 := idle_elig hr hw.worker h1 h2 h3 h4 hw.calm hlk
  have h6 := pend_job hr hp hg
  have : (⟨id, g⟩ : Hd) ∈ elig w.lvl (s.data.ad.imp i).q := by simp [elig, h6, hle]
  rw [h5] at this
  cases this

/-- **C43.** When all workers of a pool are idle and its mutex is free, every job that is left unstarted has a level that no worker serves. -/
theorem C43_no_job_left (hr : PR U u0 f0 s) {i : Nat} (hall : ∀ w ∈ (s.data.ad.imp i).wk, IdleWorker s i w) (hlk : s.data.sd.lk (.user (gd i)) = none)
    {id : Nat} {g : Grp} (hg : curGrp i id s.data.ad.plog = some g) (hsome : ∃ w ∈ (s.data.ad.imp i).wk, w.lvl ≤ g.lvl) : ¬ Pending i id s.data.ad.plog := by
  obtain ⟨w, hw, hle⟩ := hsome
  exact C43_worker hr (hall w hw) hlk hg hle

/-- A thread that waits for tasks at the top level of the worker function is calm. -/
theorem C43_parked {i : Nat} {w : Wk} {c : Nat} {dl : Option Nat} (hw : w ∈ (s.data.ad.imp i).wk)
    (hst : s.stk w.n = [.core (.parked c dl), .client (.app .wkLoop)]) (h1 : Ev.registered c w.id w.n ∈ s.log) (h2 : Ev.unregistered c w.id w.n ∉ s.log)
    (h3 : Ev.exitSet c ∉ s.log) (h4 : (s.ctxs c).pend = []) : IdleWorker s i w :=
  ⟨hw, ⟨c, h1, h2, h3, h4⟩, fun x _ => by rw [hst]; simp⟩

/-- Main makes a pool with a worker of level 1 and schedules a job of level 0 and a job of level 1. -/
def demoIdle : List (PAct Nat Nat) :=
  [.core .registerThis 2, .pool (.new 0 [(1, 1)]) 3, .pool (.schedule 0 ⟨0, 3⟩ true 20) 4, .pool (.schedule 0 ⟨1, 5⟩ true 20) 5]

set_option synthInstance.maxSize 1024 in
set_option synthInstance.maxHeartbeats 400000 in
/-- The hypotheses of `C43_worker`, `C43_no_job_left` are met: the worker waits, the job of level 1 is done; the job of level 0, which no worker serves, is left. -/
example : ∃ (s : DPSt), PR (tableP demoIdle) () 1 s ∧ (s.data.ad.imp 0).wk = [⟨1, 1, 2⟩] ∧ IdleWorker s 0 ⟨1, 1, 2⟩ ∧ s.data.sd.lk (.user (gd 0)) = none ∧
    curGrp 0 2 s.data.ad.plog = some ⟨1, 5⟩ ∧ curGrp 0 1 s.data.ad.plog = some ⟨0, 3⟩ ∧ Pending 0 1 s.data.ad.plog := by
  obtain ⟨s, h1, h3⟩ := pwit (l := demoIdle) (ls := pgo 0 41 ++ pgo 1 8 ++ ptop 1 1 ++ pgo 1 55) (fun s =>
    ((s.data.ad.imp 0).wk, s.stk 1, decide (Ev.registered 1 2 1 ∈ s.log ∧ Ev.unregistered 1 2 1 ∉ s.log ∧ Ev.exitSet 1 ∉ s.log ∧ (s.ctxs 1).pend = []),
     decide (s.data.sd.lk (.user (gd 0)) = none ∧ curGrp 0 2 s.data.ad.plog = some ⟨1, 5⟩ ∧ curGrp 0 1 s.data.ad.plog = some ⟨0, 3⟩ ∧
       1 ∈ schedIds 0 s.data.ad.plog ∧ 1 ∉ takenIds 0 s.data.ad.plog ∧ 1 ∉ cutIds 0 s.data.ad.plog)))
    (b := ([⟨1, 1, 2⟩], [.core (.parked 1 none), .client (.app .wkLoop)], true, true)) (by decide +kernel)
  simp only [Prod.mk.injEq, decide_eq_true_eq] at h3
  obtain ⟨a1, a2, ⟨b1, b2, b3, b4⟩, c1, c2, c3, c4⟩ := h3
  exact ⟨s, h1, a1, C43_parked (by rw [a1]; simp) a2 b1 b2 b3 b4, c1, c2, c3, c4⟩

end
end Itc
