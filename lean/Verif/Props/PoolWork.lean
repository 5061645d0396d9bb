import Verif.Pool.Work
import Verif.Pool.Runs
import Verif.Props.PoolJobs

/-!
# C44 (threads): who executes check_jobs

`worker t' i L t w` (ghost log `plog`): the constructor of pool `i` recorded native thread `t` as a worker of level `L`; the id of the thread is `w`.
-/
namespace Itc
open Core Sync Pool
section
variable {α φ δ χ : Type} {U : PApp α φ δ χ} {u0 : δ} {f0 : φ} {s s' : PSt α φ δ}

/-- Thread `t` was recorded as a worker of level `L` of pool `i` before the event. -/
def IsWorker {α : Type} (i L t : Nat) (l : List (PEv α)) : Prop := ∃ t' w, .worker t' i L t w ∈ l

/-- **C44, the thread.** Whoever serves level `L` - takes a job, pops a stale handle, or finds nothing - is a thread that was recorded as a worker of that very level of
    that pool. With `C44_taken`: a worker of level `L` takes only jobs whose level is at least `L`. -/
theorem C44_worker (hr : PR U u0 f0 s) {l1 l : List (PEv α)} {e : PEv α} (hl : s.data.ad.plog = l1 ++ e :: l) :
    (∀ t i L id c h, e = .took t i L id c h → IsWorker i L t l) ∧ (∀ t i L h, e = .skipped t i L h → IsWorker i L t l) ∧
    (∀ t i L, e = .idle t i L → IsWorker i L t l) ∧ (∀ t x, e = .exits t x → IsWorker x.i x.L t l) := by
  have h := ck_hist hr l1 e l hl
  refine ⟨?_, ?_, ?_, ?_⟩ <;> (intros; subst_vars)
  · exact h
  · exact h
  · exact h
  · exact h.imp fun t' h => ⟨_, h⟩

/-- The recorded id of a worker is the id under which that thread was registered. -/
theorem C44_registered (hr : PR U u0 f0 s) {t i L n w : Nat} (h : .worker t i L n w ∈ s.data.ad.plog) :
    ∃ c, Ev.registered c w n ∈ s.log := worker_reg hr h

/-- **C44, execution.** Whoever calls the function of a job is a worker of the pool, of some level `L`, that took this job itself when the job's level was at
    least `L`, and no pending job of such a level came before its handle. -/
theorem C44_runs (hr : PR U u0 f0 s) {t i id w : Nat} {c : Call α} {g : Grp} (h : .sched t i id c g ∈ s.data.ad.plog) (hb : .bodyStart w c.u ∈ s.data.sd.slog) :
    ∃ L hd l1 l, s.data.ad.plog = l1 ++ .took w i L id c hd :: l ∧ IsWorker i L w l ∧ (∃ g, curGrp i id l = some g ∧ L ≤ g.lvl) ∧
      ∀ id' g', Pending i id' l → curGrp i id' l = some g' → L ≤ g'.lvl → g'.le hd.g := by
  obtain ⟨L, hd, hm⟩ := job_took_by hr ⟨t, g, h⟩ (.inl rfl) hb
  obtain ⟨l1, l, hl⟩ := List.append_of_mem hm
  obtain ⟨-, h1, -, -, -, h2⟩ := C44_taken hr hl
  exact ⟨L, hd, l1, l, hl, (C44_worker hr hl).1 _ _ _ _ _ _ rfl, h1, h2⟩

set_option synthInstance.maxSize 1024 in
set_option synthInstance.maxHeartbeats 400000 in
/-- The hypotheses of `C44_runs` are met: thread 1 executes the job that was scheduled first. -/
example : ∃ s : DPSt, PR (tableP demoJobs) () 1 s ∧ .sched 0 0 1 demoA ⟨0, 5⟩ ∈ s.data.ad.plog ∧ .bodyStart 1 demoA.u ∈ s.data.sd.slog := by
  obtain ⟨s, h1, h3⟩ := pwit (l := demoJobs) (ls := demoTake ++ pgo 1 8) (fun s =>
    (decide (.sched 0 0 1 demoA ⟨0, 5⟩ ∈ s.data.ad.plog), decide (.bodyStart 1 demoA.u ∈ s.data.sd.slog))) (b := (true, true)) (by decide +kernel)
  simp only [Prod.mk.injEq, decide_eq_true_eq] at h3
  exact ⟨s, h1, h3⟩

set_option synthInstance.maxSize 1024 in
set_option synthInstance.maxHeartbeats 400000 in
/-- The hypotheses of `C44_worker`, `C44_registered` are met: thread 1 is the worker of level 0 of pool 0 and takes the first job. -/
example : ∃ (s : DPSt) (l : List (PEv Nat)), PR (tableP demoJobs) () 1 s ∧ s.data.ad.plog = [] ++ .took 1 0 0 1 demoA ⟨1, ⟨0, 5⟩⟩ :: l ∧
    .worker 0 0 0 1 2 ∈ l := by
  obtain ⟨s, h1, h3⟩ := pwit (l := demoJobs) (ls := demoTake) (fun s => s.data.ad.plog) (b := .took 1 0 0 1 demoA ⟨1, ⟨0, 5⟩⟩ :: demoHist) (by decide +kernel)
  exact ⟨s, demoHist, h1, h3, by decide⟩

end
end Itc
