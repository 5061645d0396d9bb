import Verif.Pool.Ret
import Verif.Pool.Demo
import Verif.Props.Future

/-!
# C42, C44, C45, C46, C49: the jobs of a thread pool

`U` is arbitrary user code: any number of threads and pools, jobs that call pool functions, continuations, exceptions.  Events of the ghost log `plog`
(newest first) used below: `sched t i id c g` - a job with this id is inserted into pool `i`; `c.u` is the shared state of the future that schedule gives to
its caller, `c.a` the functor of the caller, `c.p` the state of the outer packaged task; `took t i L id c h` - thread `t`, serving level `L`, takes the
job in order to execute it; `stopped`, `discarded` - stop / stop_all or the destructor erase a job whose callable was not taken.
`bodyStart t p` (log of the synchronisation layer): thread `t` calls the function of the packaged task with state `p`.
-/
namespace Itc
open Core Sync Pool

/-! ## Specification -/

/-- How often the function of the packaged task with state `p` was called. -/
def calls (p : Nat) (l : List SEv) : Nat := l.countP fun e => match e with
  | .bodyStart _ q => q == p
  | _ => false

/-- The ids that schedule returned for pool `i`. -/
def returnedIds {α : Type} (i : Nat) (l : List (PEv α)) : List Nat := l.filterMap fun e => match e with
  | .returned _ j id _ => if j = i then some id else none
  | _ => none

/-- The priority of job `id` was never lowered: every group it had is at most `g`. -/
def NotLowered {α : Type} (i id : Nat) (g : Grp) (l : List (PEv α)) : Prop := ∀ g', hadGrp i id g' l → g'.le g

/-- The handle is what a worker of level `L` must look at: no handle of level `L` or above comes before it. -/
def Best (L : Nat) (q : List Hd) (h : Hd) : Prop := h ∈ q ∧ L ≤ h.g.lvl ∧ ∀ x ∈ q, L ≤ x.g.lvl → x.g.le h.g

section
variable {α φ δ χ : Type} {U : PApp α φ δ χ} {u0 : δ} {f0 : φ} {s s' : PSt α φ δ}

theorem calls_eq (p : Nat) (l : List SEv) : calls p l = lsum (evO .U p) l := by
  induction l with
  | nil => rfl
  | cons e l ih =>
    rw [lsum_cons, ← ih, calls, List.countP_cons, Nat.add_comm]
    congr 1
    cases e <;> simp [evO, Sync.b1]

/-! ## C42 -/

/-- **C42.** The function of every job is called at most once - whatever priority changes and stops happen meanwhile -, and neither is the callable in
    which the pool wraps it. -/
theorem C42_once (hr : PR U u0 f0 s) {t i id : Nat} {c : Call α} {g : Grp} (h : .sched t i id c g ∈ s.data.ad.plog) :
    calls c.u s.data.sd.slog ≤ 1 ∧ calls c.p s.data.sd.slog ≤ 1 := by
  have hx := sch_ext hr ⟨t, g, h⟩
  rw [calls_eq, calls_eq]
  exact ⟨start1 hr hx.1.2, start1 hr hx.2.2⟩

/-- Every job has packaged tasks of its own: two insertions with a common state are the same insertion. -/
theorem C42_own (hr : PR U u0 f0 s) {t t' i i' id id' : Nat} {c c' : Call α} {g g' : Grp} (h : .sched t i id c g ∈ s.data.ad.plog)
    (h' : .sched t' i' id' c' g' ∈ s.data.ad.plog) (hc : c.u = c'.u ∨ c.u = c'.p ∨ c.p = c'.u ∨ c.p = c'.p) :
    i = i' ∧ id = id' ∧ c = c' ∧ c.u ≠ c.p := by
  have key : ∀ x, (c.u = x ∨ c.p = x) → (c'.u = x ∨ c'.p = x) → i = i' ∧ id = id' ∧ c = c' ∧ c.u ≠ c.p := by
    intro x h1 h2
    obtain ⟨⟨-, h3, h4, h5, -⟩, -⟩ := sch_uniq hr h h' h1 h2
    refine ⟨h3, h4, h5, fun he => ?_⟩
    exact (sch_uniq hr h h (x := c.u) (.inl rfl) (.inl rfl)).2 ⟨rfl, he.symm⟩
  rcases hc with h1 | h1 | h1 | h1
  · exact key c.u (.inl rfl) (.inl h1.symm)
  · exact key c.u (.inl rfl) (.inr h1.symm)
  · exact key c.p (.inr rfl) (.inl h1.symm)
  · exact key c.p (.inr rfl) (.inr h1.symm)

/-- What is called is the functor that was scheduled: a thread that is about to call the function of state `c.u` calls `c.a`. -/
theorem C42_function (hr : PR U u0 f0 s) {t i id u : Nat} {c : Call α} {g : Grp} {a : PTask α} (h : .sched t i id c g ∈ s.data.ad.plog)
    (hm : .client (.ftRun c.u a) ∈ s.stk u) : a = .usr c.a := by
  obtain ⟨-, h1⟩ := ((px_ok hr).fr _ _ hm).2
  have h1 := h1 (sch_ext hr ⟨t, g, h⟩).1.2
  cases a with
  | usr b =>
    obtain ⟨i', id', c', ⟨t', g', h2⟩, h3, h4⟩ := h1
    obtain ⟨⟨-, -, -, h5, -⟩, -⟩ := sch_uniq hr h h2 (x := c.u) (.inl rfl) (.inl h3)
    rw [h5, h4]
  | inner v b =>
    obtain ⟨i', id', c', ⟨t', g', h2⟩, h3, h4, h5⟩ := h1
    obtain ⟨⟨-, -, -, h5, -⟩, h6⟩ := sch_uniq hr h h2 (x := c.u) (.inl rfl) (.inr h3)
    subst h5
    exact (h6 ⟨rfl, h3⟩).elim
  | check x => exact h1.elim

/-- A job is executed only if a worker took it, and never both taken and stopped or discarded. -/
theorem C42_taken (hr : PR U u0 f0 s) {t i id w : Nat} {c : Call α} {g : Grp} (h : .sched t i id c g ∈ s.data.ad.plog) (hb : .bodyStart w c.u ∈ s.data.sd.slog) :
    (∃ t' L hd, .took t' i L id c hd ∈ s.data.ad.plog) ∧ (∀ t', .stopped t' i id c ∉ s.data.ad.plog) ∧ ∀ t', .discarded t' i id c ∉ s.data.ad.plog := by
  have h1 := job_took hr ⟨t, g, h⟩ (.inl rfl) hb
  exact ⟨h1, fun t' h2 => took_cut hr h1.mem (Cut.mem ⟨t', .inl h2⟩), fun t' h2 => took_cut hr h1.mem (Cut.mem ⟨t', .inr h2⟩)⟩

/-! ## C46 -/

/-- **C46.** A job that stop erased is never executed: in no state that contains the event was or will its function be called. -/
theorem C46_never (hr : PR U u0 f0 s) {t i id : Nat} {c : Call α} (h : .stopped t i id c ∈ s.data.ad.plog) :
    (∀ u, .bodyStart u c.u ∉ s.data.sd.slog) ∧ calls c.u s.data.sd.slog = 0 := by
  have h1 : ∀ u, .bodyStart u c.u ∉ s.data.sd.slog := fun u => cut_start hr ⟨t, .inl h⟩ (.inl rfl)
  refine ⟨h1, List.countP_eq_zero.2 fun e he => ?_⟩
  cases e <;> simp
  rename_i u q
  rintro rfl
  exact h1 u he

/-- The thread is still inside the call that destroys the callable (of job `c`), before its unlock. -/
def Erasing (i : Nat) (c : Call α) : PFrame α φ → Prop
  | .clUnl j o .stop => j = i ∧ o = some c
  | .caLoop j o l _ => j = i ∧ (o = some c ∨ c ∈ l)
  | _ => False

theorem cut_broken (hr : PR U u0 f0 s) {i id : Nat} {c : Call α} (h : Cut s.data.ad i id c) (hrd : s.data.sd.ready c.u = true) :
    Holds (s.data.sd.st c.u) (.exn .brokenPromise) := by
  obtain ⟨w, r, hs⟩ := (ready_sat hr c.u).1 hrd
  have h1 := (C29_once hr c.u).2.2 w r hs
  have hn : ∀ u, .bodyStart u c.u ∉ s.data.sd.slog := fun u => cut_start hr h (.inl rfl)
  rcases job_out hr (h.schd hr) hs with ⟨v, -, h2⟩ | ⟨e, -, h2⟩ | ⟨rfl, -⟩
  · exact absurd ((ty5_I hr).ret _ _ _ h2) (hn w)
  · exact absurd ((ty5_I hr).threw _ _ _ h2) (hn w)
  · exact h1

/-- Its future holds broken_promise - at the latest when stop unlocks the pool -, and can hold nothing else. -/
theorem C46_broken (hr : PR U u0 f0 s) {t i id : Nat} {c : Call α} (h : .stopped t i id c ∈ s.data.ad.plog) :
    (Holds (s.data.sd.st c.u) (.exn .brokenPromise) ∨ ∃ f, .client (.app f) ∈ s.stk t ∧ Erasing i c f) ∧
    ((s.data.sd.st c.u).status ≠ .notSet → Holds (s.data.sd.st c.u) (.exn .brokenPromise)) := by
  have hc : Cut s.data.ad i id c := ⟨t, .inl h⟩
  have h2 := fun hrd => cut_broken hr hc hrd
  refine ⟨?_, fun h1 => h2 (by simpa [SData.ready] using h1)⟩
  rcases cut_over hr t i id c (.inl h) with h1 | ⟨f, h1, h3⟩
  · exact .inl (h2 (up_ready hr (hc.schd hr) h1.2))
  · exact .inr ⟨f, h1, by cases f <;> first | exact h3 | exact h3.elim⟩

/-- The body of stop, under the lock: if the job is pending, it is erased and its callable destroyed; otherwise - in particular if it is executing - nothing
    changes. -/
theorem C46_stop (hr : PR U u0 f0 s) {t i id : Nat} {rest : List (Fr (PTask α) (PFrame α φ))} {ch : Ch (PCh χ)}
    (htop : s.stk t = .client (.app (.clIn i id .stop)) :: rest) (hexc : (s.thr t).exc = none)
    (hs : Core.step (client (poolApp U)) s (.th t ch) = some s') (hlive : s'.term = false) :
    (Pending i id s.data.ad.plog → ∃ c, (∃ t' g, .sched t' i id c g ∈ s.data.ad.plog) ∧ s'.data.ad.plog = .stopped t i id c :: s.data.ad.plog) ∧
    (¬ Pending i id s.data.ad.plog → s'.data.sd = s.data.sd ∧ s'.data.ad.imp = s.data.ad.imp ∧ s'.data.ad.obj = s.data.ad.obj ∧
      s'.data.ad.plog = .noStop t i id :: s.data.ad.plog) := by
  obtain ⟨a, ch', hA, hd, hact⟩ := pool_at hr htop hexc hs
  have jI := ji hr i
  have tI := tyI hr
  generalize s'.data.ad = ad' at hA
  cases pool_pc hA with
  | ps f d' a' hf hb hP =>
    cases hP
    case bad => rw [hact.2.1] at hlive; cases hlive
    case stNo hn =>
      have hnp : ¬ Pending i id s.data.ad.plog := by
        intro hp
        obtain ⟨j, hj, rfl, hc⟩ := jI.pending.1 hp
        have := hn j (jI.find hj)
        rw [this] at hc; cases hc
      exact ⟨fun h => absurd h hnp, fun _ => ⟨hd, rfl, rfl, rfl⟩⟩
    case stop j c hc hj =>
      obtain ⟨c', h1, -, -, h2⟩ := tI.jobs (findJob_mem hj).1
      obtain rfl := (findJob_mem hj).2
      have hp : Pending i j.id s.data.ad.plog := jI.pending.2 ⟨j, (findJob_mem hj).1, rfl, by rw [hc]; rfl⟩
      refine ⟨fun _ => ⟨c, ?_, rfl⟩, fun h => absurd hp h⟩
      rw [h2 c hc]; exact h1

/-! ## C44 -/

/-- **C44.** For every content of the queues, every set of jobs and every position that the scheduler may choose: check_jobs of level `L` pops a best handle
    of level `L` or above; if it takes a job, this is the job of that handle and the job's own level is at least `L`. -/
theorem C44_pick {t i L k id : Nat} {d d' : PData α δ} {o : Option (Call α)} (h : pick t d i L (some k) = some (d', id, o)) :
    ∃ hd, Best L (d.imp i).q hd ∧ (d.imp i).q.Perm (hd :: (d'.imp i).q) ∧ ∀ c, o = some c →
      id = hd.id ∧ ∃ j ∈ (d.imp i).jobs, j.id = id ∧ j.call = some c ∧ L ≤ j.g.lvl := by
  have hb : ∀ {h : Hd}, isTop L (d.imp i).q k = true → (d.imp i).q[k]? = some h → Best L (d.imp i).q h := by
    intro h h1 h2
    simp only [isTop, h2, Bool.and_eq_true, decide_eq_true_eq, List.all_eq_true] at h1
    exact ⟨List.mem_of_getElem? h2, h1.1, fun x hx hL => h1.2 x hx hL⟩
  have hp : ∀ {h : Hd}, (d.imp i).q[k]? = some h → (d.imp i).q.Perm (h :: (d.imp i).q.eraseIdx k) := by
    intro h h2
    obtain ⟨hk, rfl⟩ := List.getElem?_eq_some_iff.1 h2
    exact (List.getElem_cons_eraseIdx_perm hk).symm
  unfold pick at h
  dsimp only at h
  split at h
  · rename_i ht
    split at h
    · cases h
    · rename_i x hx
      split at h
      · cases h
        exact ⟨x, hb ht hx, by simpa [PData.upd, PData.ev, set_same] using hp hx, by simp⟩
      · rename_i j hj
        split at h
        · rename_i hL
          split at h
          · cases h
            exact ⟨x, hb ht hx, by simpa [PData.upd, PData.ev, set_same] using hp hx, by simp⟩
          · rename_i c hc
            cases h
            refine ⟨x, hb ht hx, by simpa [PData.upd, PData.ev, set_same] using hp hx, ?_⟩
            rintro c' h
            cases h
            exact ⟨(findJob_mem hj).2, j, (findJob_mem hj).1, rfl, hc, hL⟩
        · cases h
          exact ⟨x, hb ht hx, by simpa [PData.upd, PData.ev, set_same] using hp hx, by simp⟩
  · cases h

theorem best_ex (L : Nat) : ∀ q : List Hd, (∃ x ∈ q, L ≤ x.g.lvl) → ∃ h, Best L q h
  | [], h => by simp at h
  | y :: q, h => by
    by_cases hq : ∃ x ∈ q, L ≤ x.g.lvl
    · obtain ⟨m, h1, h2, h3⟩ := best_ex L q hq
      by_cases hy : L ≤ y.g.lvl ∧ ¬ y.g.le m.g
      · refine ⟨y, by simp, hy.1, fun x hx hL => ?_⟩
        rcases List.mem_cons.1 hx with rfl | hx
        · simp [Grp.le]
        · have := h3 x hx hL
          simp only [Grp.le] at *
          omega
      · refine ⟨m, by simp [h1], h2, fun x hx hL => ?_⟩
        rcases List.mem_cons.1 hx with rfl | hx
        · by_contra hn; exact hy ⟨hL, hn⟩
        · exact h3 x hx hL
    · obtain ⟨x, hx, hL⟩ := h
      rcases List.mem_cons.1 hx with rfl | hx
      · refine ⟨x, by simp, hL, fun y hy hLy => ?_⟩
        rcases List.mem_cons.1 hy with rfl | hy
        · simp [Grp.le]
        · exact absurd ⟨y, hy, hLy⟩ hq
      · exact absurd ⟨x, hx, hL⟩ hq

/-- It finds nothing only if no handle of level `L` or above exists; and if there is one, some choice is possible. -/
theorem C44_none {t i L : Nat} {d : PData α δ} :
    ((pick t d i L none).isSome = true ↔ ∀ x ∈ (d.imp i).q, x.g.lvl < L) ∧
    ((∃ x ∈ (d.imp i).q, L ≤ x.g.lvl) → ∃ k, (pick t d i L (some k)).isSome = true) := by
  constructor
  · have : elig L (d.imp i).q = [] ↔ ∀ x ∈ (d.imp i).q, x.g.lvl < L := by
      simp only [elig, List.filter_eq_nil_iff, decide_eq_true_eq, Nat.not_le]
    simp only [pick]
    split
    · rename_i h; simpa using this.1 h
    · rename_i h; exact ⟨fun h' => by simp at h', fun h' => absurd (this.2 h') h⟩
  · intro hx
    obtain ⟨h, h1, h2, h3⟩ := best_ex L _ hx
    obtain ⟨k, hk⟩ := List.getElem?_of_mem h1
    refine ⟨k, ?_⟩
    have ht : isTop L (d.imp i).q k = true := by
      simp only [isTop, hk, Bool.and_eq_true, decide_eq_true_eq, List.all_eq_true]
      exact ⟨h2, fun x hx hL => h3 x hx hL⟩
    simp only [pick, ht, if_true, hk]
    repeat' split
    all_goals rfl

/-- In every execution: when a worker of level `L` takes a job, the job's current level is at least `L`, and every pending job of such a level comes - with
    its current priority - not before the handle by which it was taken (which carries a priority that the job has or had). -/
theorem C44_taken (hr : PR U u0 f0 s) {t i L id : Nat} {c : Call α} {h : Hd} {l1 l : List (PEv α)} (hl : s.data.ad.plog = l1 ++ .took t i L id c h :: l) :
    Pending i id l ∧ (∃ g, curGrp i id l = some g ∧ L ≤ g.lvl) ∧ h.id = id ∧ hadGrp i id h.g l ∧ L ≤ h.g.lvl ∧
    ∀ id' g', Pending i id' l → curGrp i id' l = some g' → L ≤ g'.lvl → g'.le h.g := by
  obtain ⟨-, h1, h2, h3, h4, h5, h6⟩ := hist hr l1 _ l hl
  exact ⟨h1, h4, h2, h3, h5, h6⟩

/-- When it finds nothing, no job of level `L` or above is pending. -/
theorem C44_idle (hr : PR U u0 f0 s) {t i L : Nat} {l1 l : List (PEv α)} (hl : s.data.ad.plog = l1 ++ .idle t i L :: l) {id : Nat} {g : Grp}
    (hp : Pending i id l) (hg : curGrp i id l = some g) : g.lvl < L := hist hr l1 _ l hl id g hp hg

/-! ## C45 -/

/-- The body of change_priority, under the lock: a pending job gets group `g`, a handle with `g` is in the queue; any other job is left alone. -/
theorem C45_change (hr : PR U u0 f0 s) {t i id : Nat} {g : Grp} {rest : List (Fr (PTask α) (PFrame α φ))} {ch : Ch (PCh χ)}
    (htop : s.stk t = .client (.app (.cpBody i id g)) :: rest) (hexc : (s.thr t).exc = none)
    (hs : Core.step (client (poolApp U)) s (.th t ch) = some s') (hlive : s'.term = false) :
    (Pending i id s.data.ad.plog → Pending i id s'.data.ad.plog ∧ curGrp i id s'.data.ad.plog = some g ∧ ⟨id, g⟩ ∈ (s'.data.ad.imp i).q) ∧
    (¬ Pending i id s.data.ad.plog → s'.data.ad = s.data.ad) := by
  obtain ⟨a, ch', hA, hd, hact⟩ := pool_at hr htop hexc hs
  have jI := ji hr i
  have jI' := ji (hr.step hs) i
  generalize s'.data.ad = ad' at hA jI'
  cases pool_pc hA with
  | ps f d' a' hf hb hP =>
    cases hP
    case bad => rw [hact.2.1] at hlive; cases hlive
    case cpNo hn =>
      refine ⟨fun hp => ?_, fun _ => rfl⟩
      obtain ⟨j, hj, rfl, hc⟩ := jI.pending.1 hp
      have h1 : j.g = g := (hn j (jI.find hj)).resolve_left fun h => by rw [h] at hc; cases hc
      have h2 := jI.cur j hj
      rw [h1] at h2
      exact ⟨hp, h2, jI.hdl hp h2⟩
    case cpBody j c hc hj hg =>
      obtain ⟨h1, rfl⟩ := findJob_mem hj
      have hp : Pending i j.id s.data.ad.plog := jI.pending.2 ⟨j, h1, rfl, by rw [hc]; rfl⟩
      have hl : (addH (chgJob (s.view t).tid s.data.ad i j.id g) i ⟨j.id, g⟩).plog = .changed t i j.id g :: s.data.ad.plog := rfl
      have h2 : Pending i j.id (.changed t i j.id g :: s.data.ad.plog) := by
        simpa [Pending, schedIds, takenIds, cutIds, List.filterMap_cons, PEv.schedId, PEv.takenId, PEv.cutId] using hp
      have h3 : curGrp i j.id (.changed t i j.id g :: s.data.ad.plog) = some g := by simp [curGrp]
      rw [hl] at jI' ⊢
      exact ⟨fun _ => ⟨h2, h3, jI'.hdl h2 h3⟩, fun h => absurd hp h⟩

/-- **C45 (part).** After change_priority the job is scheduled according to its new group as far as the new group is not below an old one: no worker takes
    another job of lower priority while this one is pending and eligible; only workers that may serve its current level take it; and if it was never
    lowered, it is taken only if no other eligible pending job comes before it.
    Missing: the last claim for a job whose priority was lowered; it does not hold (`C45_lowered`). -/
theorem C45_partial (hr : PR U u0 f0 s) {t i L id : Nat} {c : Call α} {h : Hd} {l1 l : List (PEv α)} (hl : s.data.ad.plog = l1 ++ .took t i L id c h :: l) :
    (∀ g, curGrp i id l = some g → L ≤ g.lvl) ∧
    (∀ id' g', Pending i id' l → curGrp i id' l = some g' → L ≤ g'.lvl → ∃ g, hadGrp i id g l ∧ g'.le g) ∧
    (∀ g, curGrp i id l = some g → NotLowered i id g l → ∀ id' g', Pending i id' l → curGrp i id' l = some g' → L ≤ g'.lvl → g'.le g) := by
  obtain ⟨-, ⟨g0, h2, h3⟩, -, h4, -, h6⟩ := C44_taken hr hl
  refine ⟨fun g hg => ?_, fun id' g' a b e => ⟨h.g, h4, h6 id' g' a b e⟩, fun g hg hn id' g' a b e => ?_⟩
  · rw [h2] at hg; cases hg; exact h3
  · have h1 := h6 id' g' a b e
    have h2 := hn _ h4
    simp only [Grp.le] at *
    omega

/-! ## C49 -/

/-- **C49.** The ids that are given to jobs of a pool, and those that schedule returns, are not zero and all different. -/
theorem C49_ids (hr : PR U u0 f0 s) (i : Nat) :
    (schedIds i s.data.ad.plog).Nodup ∧ (returnedIds i s.data.ad.plog).Nodup ∧ (∀ id ∈ schedIds i s.data.ad.plog, id ≠ 0) ∧
    ∀ id ∈ returnedIds i s.data.ad.plog, id ∈ schedIds i s.data.ad.plog := by
  have jI := ji hr i
  have hm : ∀ id ∈ returnedIds i s.data.ad.plog, id ∈ schedIds i s.data.ad.plog := by
    intro id h
    obtain ⟨e, he, h⟩ := List.mem_filterMap.1 h
    cases e <;> simp at h
    obtain ⟨rfl, rfl⟩ := h
    obtain ⟨l1, l2, h1, t, c, g, h2, -⟩ := (hist hr).mem he
    rw [h1]
    exact List.mem_filterMap.2 ⟨_, List.mem_append_right _ (List.mem_cons_of_mem _ h2), by simp [PEv.schedId]⟩
  refine ⟨jI.nod, List.nodup_iff_count_le_one.2 fun id => ?_, fun id h => by have := jI.ids id h; omega, hm⟩
  have h1 := (aRet_ok U u0 f0 i id).data' hr
  have h2 : (returnedIds i s.data.ad.plog).count id = lsum (eRt i id) s.data.ad.plog := by
    generalize s.data.ad.plog = l
    induction l with
    | nil => rfl
    | cons e l ih =>
      rw [lsum_cons, ← ih]
      cases e <;> simp [returnedIds, eRt, List.filterMap_cons]
      rename_i t j id' u
      by_cases hj : j = i
      · by_cases hi : id' = id <;> simp [hj, hi, Pool.b1, Nat.add_comm]
      · simp [hj, Pool.b1]
  have h3 : (schedIds i s.data.ad.plog).count id = lsum (eSi i id) s.data.ad.plog := by
    generalize s.data.ad.plog = l
    induction l with
    | nil => rfl
    | cons e l ih =>
      rw [lsum_cons, ← ih]
      cases e <;> simp [schedIds, eSi, List.filterMap_cons, PEv.schedId]
      rename_i t j id' c g
      by_cases hj : j = i
      · by_cases hi : id' = id <;> simp [hj, hi, Pool.b1, Nat.add_comm]
      · simp [hj, Pool.b1]
  have h4 := List.nodup_iff_count_le_one.1 jI.nod id
  simp only [aRet] at h1
  omega

/-- What schedule returns is what the event says: the state of the user's future and the id. -/
theorem C49_result (hr : PR U u0 f0 s) {t i h u id : Nat} {rest : List (Fr (PTask α) (PFrame α φ))} {ch : Ch (PCh χ)}
    (htop : s.stk t = .client (.app (.nwFin i (.sched h u id))) :: rest) (hexc : (s.thr t).exc = none)
    (hs : Core.step (client (poolApp U)) s (.th t ch) = some s') (hlive : s'.term = false) :
    s'.stk t = rest ∧ s'.data.ad.plog = .returned t i id u :: s.data.ad.plog ∧ (∃ x, (s'.thr t).rv = .ids [u, id, x]) ∧
      ∃ t' c g, .sched t' i id c g ∈ s.data.ad.plog ∧ c.u = u := by
  obtain ⟨a, ch', hA, hd, hact⟩ := pool_at hr htop hexc hs
  have hh : ∀ e l, s'.data.ad.plog = e :: l → PEv.fact e l := fun e l h => hist (hr.step hs) [] e l h
  cases ch' with
  | go =>
    simp only [poolApp, pstep, Option.some.injEq] at hA
    split at hA
    · simp only [Prod.mk.injEq] at hA
      obtain ⟨h1, rfl⟩ := hA
      exact ⟨hact.1, by rw [← h1]; rfl, ⟨_, hact.2.2⟩, hh (.returned t i id u) s.data.ad.plog (by rw [← h1]; rfl)⟩
    · simp only [Prod.mk.injEq] at hA
      obtain ⟨-, rfl⟩ := hA
      rw [hact.2.1] at hlive; cases hlive
  | _ => simp [poolApp] at hA

/-- The jobs of pool `i` that have been executed and cleared by their worker, stopped, or discarded. -/
def overIds (i : Nat) (l : List (PEv α)) : List Nat := l.filterMap fun e => match e with
  | .stopped _ j id _ => if j = i then some id else none
  | .discarded _ j id _ => if j = i then some id else none
  | .done _ j id _ => if j = i then some id else none
  | _ => none

/-- **C49 (part).** get_jobs_count is the number of inserted jobs that are not over, provided that no stop_all has made the pool forget an executing job.
    Missing: the claim after a stop_all during the execution of a job; it does not hold (`C49_forgotten`). -/
theorem C49_count_partial (hr : PR U u0 f0 s) {t i n : Nat} {l1 l : List (PEv α)} (hl : s.data.ad.plog = l1 ++ .counted t i n :: l)
    (hf : ∀ t' id, .forgot t' i id ∉ l) : n = ((schedIds i l).filter (· ∉ overIds i l)).length := by
  have h1 : n = ((schedIds i l).filter (· ∉ goneIds i l)).length := hist hr l1 _ l hl
  rw [h1]
  congr 2
  funext id
  have : id ∈ goneIds i l ↔ id ∈ overIds i l := by
    simp only [goneIds, overIds, List.mem_filterMap]
    constructor
    · rintro ⟨e, he, h⟩
      refine ⟨e, he, ?_⟩
      cases e <;> simp only [PEv.goneId, reduceCtorEq] at h ⊢ <;> try exact h
      rename_i t' j id'
      split at h
      · rename_i hj; subst hj; exact absurd he (hf _ _)
      · cases h
    · rintro ⟨e, he, h⟩
      refine ⟨e, he, ?_⟩
      cases e <;> simp only [PEv.goneId, reduceCtorEq] at h ⊢ <;> exact h
  simp [this]

/-- A job counted as executed is over: its future is ready, and if its function was called, that call has ended. -/
theorem C49_done (hr : PR U u0 f0 s) {t i id : Nat} {c : Call α} (h : .done t i id c ∈ s.data.ad.plog) :
    (s.data.sd.st c.u).status ≠ .notSet ∧ ∀ w, .bodyStart w c.u ∈ s.data.sd.slog →
      (∃ v, .bodyRet w c.u v ∈ s.data.sd.slog) ∨ ∃ e, .bodyThrew w c.u e ∈ s.data.sd.slog := by
  have hc : Schd s.data.ad i id c := by
    obtain ⟨l1, l2, h1, t', L, hd, h2⟩ := (hist hr).mem h
    exact took_schd hr (by rw [h1]; exact List.mem_append_right _ (List.mem_cons_of_mem _ h2))
  have h1 := up_ready hr hc ((iy hr).done h).2
  exact ⟨by simpa [SData.ready] using h1, fun w hw => over_ended hr hc h1 hw⟩

/-- get_jobs_count returns the number in the event. -/
theorem C49_counted (hr : PR U u0 f0 s) {t i : Nat} {rest : List (Fr (PTask α) (PFrame α φ))} {ch : Ch (PCh χ)}
    (htop : s.stk t = .client (.app (.cnBody i)) :: rest) (hexc : (s.thr t).exc = none)
    (hs : Core.step (client (poolApp U)) s (.th t ch) = some s') (hlive : s'.term = false) :
    ∃ n, s'.data.ad.plog = .counted t i n :: s.data.ad.plog ∧ s'.stk t = .client (.app (.unl i (.nat n))) :: rest := by
  obtain ⟨a, ch', hA, hd, hact⟩ := pool_at hr htop hexc hs
  generalize s'.data.ad = ad' at hA
  cases pool_pc hA with
  | ps f d' a' hf hb hP =>
    cases hP
    case bad => rw [hact.2.1] at hlive; cases hlive
    case cnBody => exact ⟨_, rfl, hact.1⟩

end

/-! ## Examples -/

/-- Main makes a pool with one worker, schedules two jobs with priorities 5 and 3, lowers the first one to priority 0, stops the first, then the second one,
    asks for the number of jobs, stops all, and asks again. -/
def demoJobs : List (PAct Nat Nat) :=
  [.core .registerThis 2, .pool (.new 0 [(0, 1)]) 3, .pool (.schedule 0 ⟨0, 5⟩ true 20) 4, .pool (.schedule 0 ⟨0, 3⟩ true 20) 5, .pool (.change 0 1 ⟨0, 0⟩) 6,
   .pool (.stop 0 1) 7, .pool (.stop 0 2) 8, .pool (.count 0) 9, .pool (.stopAll 0) 10, .pool (.count 0) 11]

/-- The worker takes a job after the priority change. -/
def demoTake : List (Lbl (PCh Unit)) := pgo 0 58 ++ pgo 1 8 ++ ptop 1 0

def demoA : Call Nat := ⟨1, 0, 20⟩
def demoB : Call Nat := ⟨3, 2, 20⟩

/-- The history of the pool up to the priority change. -/
def demoHist : List (PEv Nat) :=
  [.changed 0 0 1 ⟨0, 0⟩, .returned 0 0 2 2, .sched 0 0 2 demoB ⟨0, 3⟩, .packed 3 3, .packed 2 2, .returned 0 0 1 0, .sched 0 0 1 demoA ⟨0, 5⟩, .packed 1 1,
   .packed 0 0, .made 0 0, .worker 0 0 0 1 2]

set_option synthInstance.maxSize 1024 in
set_option synthInstance.maxHeartbeats 400000 in
/-- The hypotheses of `C42_once`, `C42_taken` are met, with a job that was executed. -/
example : ∃ s : DPSt, PR (tableP demoJobs) () 1 s ∧ .sched 0 0 1 demoA ⟨0, 5⟩ ∈ s.data.ad.plog ∧ .bodyStart 1 demoA.u ∈ s.data.sd.slog ∧
    calls demoA.u s.data.sd.slog = 1 := by
  obtain ⟨s, h1, h3⟩ := pwit (l := demoJobs) (ls := demoTake ++ pgo 1 8) (fun s =>
    (decide (.sched 0 0 1 demoA ⟨0, 5⟩ ∈ s.data.ad.plog), decide (.bodyStart 1 demoA.u ∈ s.data.sd.slog), calls demoA.u s.data.sd.slog))
    (b := (true, true, 1)) (by decide +kernel)
  simp only [Prod.mk.injEq, decide_eq_true_eq] at h3
  exact ⟨s, h1, h3⟩

set_option synthInstance.maxSize 1024 in
set_option synthInstance.maxHeartbeats 400000 in
/-- The hypotheses of `C42_function` are met. -/
example : ∃ s : DPSt, PR (tableP demoJobs) () 1 s ∧ .sched 0 0 1 demoA ⟨0, 5⟩ ∈ s.data.ad.plog ∧ .client (.ftRun demoA.u (.usr 20)) ∈ s.stk 1 := by
  obtain ⟨s, h1, h3⟩ := pwit (l := demoJobs) (ls := demoTake ++ pgo 1 7) (fun s =>
    (decide (.sched 0 0 1 demoA ⟨0, 5⟩ ∈ s.data.ad.plog), decide (.client (.ftRun demoA.u (.usr 20)) ∈ s.stk 1)))
    (b := (true, true)) (by decide +kernel)
  simp only [Prod.mk.injEq, decide_eq_true_eq] at h3
  exact ⟨s, h1, h3⟩

set_option synthInstance.maxSize 1024 in
set_option synthInstance.maxHeartbeats 400000 in
/-- The hypotheses of `C46_never`, `C46_broken` are met, with stop still running and with stop finished. -/
example : (∃ s : DPSt, PR (tableP demoJobs) () 1 s ∧ .stopped 0 0 1 demoA ∈ s.data.ad.plog ∧ (s.data.sd.st demoA.u).status = .notSet) ∧
    ∃ s : DPSt, PR (tableP demoJobs) () 1 s ∧ .stopped 0 0 1 demoA ∈ s.data.ad.plog ∧ (s.data.sd.st demoA.u).status ≠ .notSet ∧
      s.stk 0 = [.client (.app (.usr 7))] := by
  obtain ⟨s, h1, h3⟩ := pwit (l := demoJobs) (ls := pgo 0 70) (fun s =>
    (decide (.stopped 0 0 1 demoA ∈ s.data.ad.plog), (s.data.sd.st demoA.u).status)) (b := (true, .notSet)) (by decide +kernel)
  obtain ⟨s', h1', h3'⟩ := pwit (l := demoJobs) (ls := pgo 0 94) (fun s =>
    (decide (.stopped 0 0 1 demoA ∈ s.data.ad.plog), decide ((s.data.sd.st demoA.u).status = .notSet), s.stk 0))
    (b := (true, false, [.client (.app (.usr 7))])) (by decide +kernel)
  simp only [Prod.mk.injEq, decide_eq_true_eq, decide_eq_false_iff_not] at h3 h3'
  exact ⟨⟨s, h1, h3⟩, s', h1', h3'⟩

theorem demo_pending : Pending 0 1 demoHist ∧ Pending 0 2 demoHist ∧ curGrp 0 1 demoHist = some ⟨0, 0⟩ ∧ curGrp 0 2 demoHist = some ⟨0, 3⟩ := by
  simp only [Pending]; decide

set_option synthInstance.maxSize 1024 in
set_option synthInstance.maxHeartbeats 400000 in
/-- The hypotheses of `C46_stop` are met, for a pending job and for one that is executing. -/
example : (∃ (s s' : DPSt) (rest : _), PR (tableP demoJobs) () 1 s ∧ s.stk 0 = .client (.app (.clIn 0 1 .stop)) :: rest ∧ (s.thr 0).exc = none ∧
      step (client (poolApp (tableP demoJobs))) s (.th 0 .go) = some s' ∧ s'.term = false ∧ Pending 0 1 s.data.ad.plog) ∧
    ∃ (s s' : DPSt) (rest : _), PR (tableP demoJobs) () 1 s ∧ s.stk 0 = .client (.app (.clIn 0 1 .stop)) :: rest ∧ (s.thr 0).exc = none ∧
      step (client (poolApp (tableP demoJobs))) s (.th 0 .go) = some s' ∧ s'.term = false ∧ ¬ Pending 0 1 s.data.ad.plog ∧ .client (.app (.usr 20)) ∈ s.stk 1 := by
  constructor
  · obtain ⟨s, s', h1, h2, h3⟩ := pwit2 (l := demoJobs) (ls := pgo 0 61) (ls' := [.th 0 .go]) (fun s s' =>
      (s.stk 0, (s.thr 0).exc, s'.term, s.data.ad.plog)) (b := ([.client (.app (.clIn 0 1 .stop)), .client (.app (.usr 7))], none, false, demoHist)) (by decide +kernel)
    simp only [Prod.mk.injEq] at h3
    obtain ⟨a1, a2, a3, a4⟩ := h3
    refine ⟨s, s', _, h1, a1, a2, ?_, a3, by rw [a4]; exact demo_pending.1⟩
    simp only [run] at h2
    split at h2
    · cases h2
    · rename_i h; rw [h, ← h2]
  · obtain ⟨s, s', h1, h2, h3⟩ := pwit2 (l := demoJobs) (ls := demoTake ++ pgo 1 8 ++ pgo 0 3) (ls' := [.th 0 .go]) (fun s s' =>
      (s.stk 0, (s.thr 0).exc, s'.term, s.data.ad.plog, decide (.client (.app (.usr 20)) ∈ s.stk 1)))
      (b := ([.client (.app (.clIn 0 1 .stop)), .client (.app (.usr 7))], none, false, .took 1 0 0 1 demoA ⟨1, ⟨0, 5⟩⟩ :: demoHist, true)) (by decide +kernel)
    simp only [Prod.mk.injEq, decide_eq_true_eq] at h3
    obtain ⟨a1, a2, a3, a4, a5⟩ := h3
    refine ⟨s, s', _, h1, a1, a2, ?_, a3, ?_, a5⟩
    · simp only [run] at h2
      split at h2
      · cases h2
      · rename_i h; rw [h, ← h2]
    · rw [a4]; simp only [Pending]; decide

/-- A pool whose queue has three handles, one of them of a job that is still there. -/
def demoPick : PData Nat Unit :=
  { u := (), imp := fun _ => { q := [⟨1, ⟨0, 5⟩⟩, ⟨2, ⟨1, 3⟩⟩, ⟨3, ⟨1, 4⟩⟩], jobs := [⟨3, ⟨1, 4⟩, some demoA, 1, 0⟩] } }

/-- `C44_pick`, `C44_none` for this pool. -/
example : (pick 0 demoPick 0 0 (some 2)).map (·.2) = some (3, some demoA) ∧ (pick 0 demoPick 0 0 (some 0)).isSome = false ∧
    (pick 0 demoPick 0 2 none).isSome = true := by decide

set_option synthInstance.maxSize 1024 in
set_option synthInstance.maxHeartbeats 400000 in
/-- **The claim C45 does not hold for a lowered job**: the first job had priority 5 and was lowered to 0; nevertheless the worker takes it before the second
    job, which is pending with priority 3: it finds the job by its old handle. -/
theorem C45_lowered : ∃ (s : DPSt) (l : List (PEv Nat)), PR (tableP demoJobs) () 1 s ∧ s.data.ad.plog = .took 1 0 0 1 demoA ⟨1, ⟨0, 5⟩⟩ :: l ∧
    curGrp 0 1 l = some ⟨0, 0⟩ ∧ Pending 0 2 l ∧ curGrp 0 2 l = some ⟨0, 3⟩ ∧ ¬ Grp.le ⟨0, 3⟩ ⟨0, 0⟩ := by
  obtain ⟨s, h1, h3⟩ := pwit (l := demoJobs) (ls := demoTake) (fun s => s.data.ad.plog) (b := .took 1 0 0 1 demoA ⟨1, ⟨0, 5⟩⟩ :: demoHist) (by decide +kernel)
  exact ⟨s, demoHist, h1, h3, demo_pending.2.2.1, demo_pending.2.1, demo_pending.2.2.2, by simp [Grp.le]⟩

set_option synthInstance.maxSize 1024 in
set_option synthInstance.maxHeartbeats 400000 in
/-- The hypotheses of `C44_taken`, `C45_partial` are met with a job that was not lowered: the worker takes the first job before the priority change. -/
example : ∃ (s : DPSt) (l : List (PEv Nat)), PR (tableP demoJobs) () 1 s ∧ s.data.ad.plog = .took 1 0 0 1 demoA ⟨1, ⟨0, 5⟩⟩ :: l ∧
    curGrp 0 1 l = some ⟨0, 5⟩ ∧ NotLowered 0 1 ⟨0, 5⟩ l ∧ Pending 0 2 l ∧ curGrp 0 2 l = some ⟨0, 3⟩ := by
  obtain ⟨s, h1, h3⟩ := pwit (l := demoJobs) (ls := pgo 0 46 ++ pgo 1 8 ++ ptop 1 0) (fun s => s.data.ad.plog)
    (b := .took 1 0 0 1 demoA ⟨1, ⟨0, 5⟩⟩ :: demoHist.tail) (by decide +kernel)
  refine ⟨s, demoHist.tail, h1, h3, by decide, ?_, by simp only [Pending]; decide, by decide⟩
  rintro g (⟨t, c, h⟩ | ⟨t, h⟩) <;> simp [demoHist] at h
  rw [h.2.2]; simp [Grp.le]

set_option synthInstance.maxSize 1024 in
set_option synthInstance.maxHeartbeats 400000 in
/-- The hypotheses of `C45_change` are met. -/
example : ∃ (s s' : DPSt) (rest : _), PR (tableP demoJobs) () 1 s ∧ s.stk 0 = .client (.app (.cpBody 0 1 ⟨0, 0⟩)) :: rest ∧ (s.thr 0).exc = none ∧
    step (client (poolApp (tableP demoJobs))) s (.th 0 .go) = some s' ∧ s'.term = false ∧ Pending 0 1 s.data.ad.plog := by
  obtain ⟨s, s', h1, h2, h3⟩ := pwit2 (l := demoJobs) (ls := pgo 0 49) (ls' := [.th 0 .go]) (fun s s' =>
    (s.stk 0, (s.thr 0).exc, s'.term, s.data.ad.plog)) (b := ([.client (.app (.cpBody 0 1 ⟨0, 0⟩)), .client (.app (.usr 6))], none, false, demoHist.tail)) (by decide +kernel)
  simp only [Prod.mk.injEq] at h3
  obtain ⟨a1, a2, a3, a4⟩ := h3
  refine ⟨s, s', _, h1, a1, a2, ?_, a3, by rw [a4]; simp only [Pending]; decide⟩
  simp only [run] at h2
  split at h2
  · cases h2
  · rename_i h; rw [h, ← h2]

set_option synthInstance.maxSize 1024 in
set_option synthInstance.maxHeartbeats 400000 in
/-- The hypotheses of `C49_count_partial` are met: two jobs, the first one executing, the second one stopped. -/
example : ∃ (s : DPSt) (l : List (PEv Nat)), PR (tableP demoJobs) () 1 s ∧ s.data.ad.plog = .counted 0 0 1 :: l ∧ (∀ t' id, .forgot t' 0 id ∉ l) := by
  obtain ⟨s, h1, h3⟩ := pwit (l := demoJobs) (ls := demoTake ++ pgo 1 8 ++ pgo 0 47) (fun s => s.data.ad.plog)
    (b := .counted 0 0 1 :: .stopped 0 0 2 demoB :: .noStop 0 0 1 :: .took 1 0 0 1 demoA ⟨1, ⟨0, 5⟩⟩ :: demoHist) (by decide +kernel)
  exact ⟨s, _, h1, h3, by simp [demoHist]⟩

set_option synthInstance.maxSize 1024 in
set_option synthInstance.maxHeartbeats 400000 in
/-- **The claim C49 on the count does not hold after stop_all**: get_jobs_count returns 0 although the first job, which was neither stopped nor discarded, is
    still executing. -/
theorem C49_forgotten : ∃ (s : DPSt) (l : List (PEv Nat)), PR (tableP demoJobs) () 1 s ∧ s.data.ad.plog = .counted 0 0 0 :: l ∧
    1 ∈ schedIds 0 l ∧ 1 ∉ overIds 0 l ∧ .client (.app (.usr 20)) ∈ s.stk 1 ∧ (s.data.sd.st demoA.u).status = .notSet := by
  obtain ⟨s, h1, h3⟩ := pwit (l := demoJobs) (ls := demoTake ++ pgo 1 8 ++ pgo 0 61) (fun s =>
    (s.data.ad.plog, decide (.client (.app (.usr 20)) ∈ s.stk 1), (s.data.sd.st demoA.u).status))
    (b := (.counted 0 0 0 :: .forgot 0 0 1 :: .counted 0 0 1 :: .stopped 0 0 2 demoB :: .noStop 0 0 1 :: .took 1 0 0 1 demoA ⟨1, ⟨0, 5⟩⟩ :: demoHist, true, .notSet))
    (by decide +kernel)
  simp only [Prod.mk.injEq, decide_eq_true_eq] at h3
  exact ⟨s, _, h1, h3.1, by decide, by decide, h3.2⟩

set_option synthInstance.maxSize 1024 in
set_option synthInstance.maxHeartbeats 400000 in
/-- The hypotheses of `C49_result`, `C49_counted` and `C49_done` are met. -/
example : (∃ (s s' : DPSt) (rest : _), PR (tableP demoJobs) () 1 s ∧ s.stk 0 = .client (.app (.nwFin 0 (.sched 0 0 1))) :: rest ∧ (s.thr 0).exc = none ∧
      step (client (poolApp (tableP demoJobs))) s (.th 0 .go) = some s' ∧ s'.term = false) ∧
    (∃ (s s' : DPSt) (rest : _), PR (tableP demoJobs) () 1 s ∧ s.stk 0 = .client (.app (.cnBody 0)) :: rest ∧ (s.thr 0).exc = none ∧
      step (client (poolApp (tableP demoJobs))) s (.th 0 .go) = some s' ∧ s'.term = false) ∧
    ∃ s : DPSt, PR (tableP demoJobs) () 1 s ∧ .done 1 0 1 demoA ∈ s.data.ad.plog ∧ .bodyStart 1 demoA.u ∈ s.data.sd.slog := by
  refine ⟨?_, ?_, ?_⟩
  · obtain ⟨s, s', h1, h2, h3⟩ := pwit2 (l := demoJobs) (ls := pgo 0 29) (ls' := [.th 0 .go]) (fun s s' =>
      (s.stk 0, (s.thr 0).exc, s'.term)) (b := ([.client (.app (.nwFin 0 (.sched 0 0 1))), .client (.app (.usr 4))], none, false)) (by decide +kernel)
    simp only [Prod.mk.injEq] at h3
    obtain ⟨a1, a2, a3⟩ := h3
    refine ⟨s, s', _, h1, a1, a2, ?_, a3⟩
    simp only [run] at h2
    split at h2
    · cases h2
    · rename_i h; rw [h, ← h2]
  · obtain ⟨s, s', h1, h2, h3⟩ := pwit2 (l := demoJobs) (ls := demoTake ++ pgo 1 8 ++ pgo 0 46) (ls' := [.th 0 .go]) (fun s s' =>
      (s.stk 0, (s.thr 0).exc, s'.term)) (b := ([.client (.app (.cnBody 0)), .client (.app (.usr 9))], none, false)) (by decide +kernel)
    simp only [Prod.mk.injEq] at h3
    obtain ⟨a1, a2, a3⟩ := h3
    refine ⟨s, s', _, h1, a1, a2, ?_, a3⟩
    simp only [run] at h2
    split at h2
    · cases h2
    · rename_i h; rw [h, ← h2]
  · obtain ⟨s, h1, h3⟩ := pwit (l := demoJobs) (ls := demoTake ++ pgo 1 36) (fun s =>
      (decide (.done 1 0 1 demoA ∈ s.data.ad.plog), decide (.bodyStart 1 demoA.u ∈ s.data.sd.slog))) (b := (true, true)) (by decide +kernel)
    simp only [Prod.mk.injEq, decide_eq_true_eq] at h3
    exact ⟨s, h1, h3⟩

set_option synthInstance.maxSize 1024 in
set_option synthInstance.maxHeartbeats 400000 in
/-- The hypotheses of `C44_idle` are met: main stops all jobs after the first schedule; then the worker finds nothing. (Before that there was a job, it is not
    pending any more.) -/
example : ∃ (s : DPSt) (l : List (PEv Nat)), PR (tableP [.core .registerThis 2, .pool (.new 0 [(0, 1)]) 3, .pool (.schedule 0 ⟨0, 5⟩ true 20) 4, .pool (.stopAll 0) 5]) () 1 s ∧
    s.data.ad.plog = .idle 1 0 0 :: l ∧ 1 ∈ schedIds 0 l ∧ ¬ Pending 0 1 l := by
  obtain ⟨s, h1, h3⟩ := pwit (l := [.core .registerThis 2, .pool (.new 0 [(0, 1)]) 3, .pool (.schedule 0 ⟨0, 5⟩ true 20) 4, .pool (.stopAll 0) 5])
    (ls := pgo 0 67 ++ pgo 1 9) (fun s => s.data.ad.plog)
    (b := .idle 1 0 0 :: .discarded 0 0 1 demoA :: demoHist.drop 5) (by decide +kernel)
  exact ⟨s, _, h1, h3, by decide, by simp only [Pending]; decide⟩

end Itc
