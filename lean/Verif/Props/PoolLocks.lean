import Verif.Pool.Hold
import Verif.Pool.Demo
import Verif.Sync.Stuck

/-!
# Property C48: calls of a pool and its mutex

`inGuard i f`: program point `f` of the pool is between the lock and the unlock of `guard_` of pool `i`.

The claim is false: `add_job` and `change_priority` call `dispatch` for every worker while `guard_` is locked (thread_pool.cpp:84-92, 98-115, 190-212);
if the caller is one of these workers, `dispatch` calls `check_jobs` in place, which locks `guard_` again (`C48_deadlock`).
-/
namespace Itc
open Core Sync Pool
section
variable {α φ δ χ : Type} {U : PApp α φ δ χ} {u0 : δ} {f0 : φ} {s s' : PSt α φ δ}

/-- `guard_` of a pool is locked only by a thread that is executing a function of this pool, between lock and unlock.  So a job that a
    worker calls from its own loop does not hold it. -/
theorem C48_holder (hr : PR U u0 f0 s) {t i : Nat} (hlk : s.data.sd.lk (.user (gd i)) = some t) :
    (∃ g, .client (.app g) ∈ s.stk t ∧ inGuard i g) ∨ .client (.lkUn (gd i)) ∈ s.stk t := by
  obtain ⟨f, h1, h2⟩ := ((ah U f0 i).ok hr).held t hlk
  cases f <;> first | exact False.elim h2 | skip
  · exact .inl ⟨_, h1, h2⟩
  · rename_i m
    have : m = gd i := h2
    exact .inr (this ▸ h1)

/-- A thread that waits for `guard_` of pool `i` waits for itself only if it is inside a call that `notify_workers` of this pool makes (dispatch), or
    inside a destructor that `clear` or `clear_all` of this pool calls for a job.  Every other call of the pool waits for another thread.
    Missing: calls made there (`C48_deadlock` shows that the claim does not hold for them). -/
theorem C48_partial (hr : PR U u0 f0 s) {t i : Nat} {rest : _} (hst : s.stk t = .client (.lkIn (gd i)) :: rest)
    (hlk : s.data.sd.lk (.user (gd i)) = some t) :
    (∃ l c K, .client (.app (.nw i l c K)) ∈ s.stk t) ∨ (∃ o K, .client (.app (.clUnl i o K)) ∈ s.stk t) ∨
      ∃ o l K, .client (.app (.caLoop i o l K)) ∈ s.stk t := by
  cases rest with
  | nil =>
    have := (((ah U f0 i).ok hr).chain t)
    rw [hst] at this
    obtain ⟨k, h, -⟩ := this.1.1 rfl
    cases h
  | cons k rest =>
    obtain ⟨g, h1, b, h2⟩ := self_wait hr hst hlk
    have hm : .client (.app g) ∈ s.stk t := by rw [hst]; simp [h1]
    have hq : ¬ quietG i g := by
      intro hq
      have hc := ((ah U f0 i).ok hr).chain t
      have hc' := (stk_ok hr).chain t
      rw [hst] at hc hc'
      have : ∀ (l : List (Fr (PTask α) (PFrame α φ))) x y, (ah U f0 i).chain (x :: y :: l) → Core.chain Adj (x :: y :: l) → .client (.app g) ∉ l := by
        intro l
        induction l with
        | nil => intro x y _ _ h; cases h
        | cons z l ih =>
          intro x y hx hy h
          rcases List.mem_cons.1 h with h | h
          · subst h
            have := hx.2.1.2 g rfl hq
            rw [this] at hy
            exact hy.1
          · exact ih y z hx.2 hy.2 h
      exact this _ _ _ hc hc' h1
    cases g <;> first | (cases h2; done) | exact absurd (show inGuard _ _ from ⟨b, h2⟩) hq | skip
    all_goals cases h2
    · exact .inl ⟨_, _, _, hm⟩
    · exact .inr (.inl ⟨_, _, hm⟩)
    · exact .inr (.inr ⟨_, _, _, hm⟩)

/-- There is a greatest element in a non-empty queue. -/
theorem top_ex (L : Nat) (q : List Hd) (h : elig L q ≠ []) : ∃ k, isTop L q k = true := by
  have key : ∀ l : List Hd, l ≠ [] → ∃ m ∈ l, ∀ x ∈ l, x.g.lvl < m.g.lvl ∨ x.g.lvl = m.g.lvl ∧ x.g.prio ≤ m.g.prio := by
    intro l
    induction l with
    | nil => exact fun h => absurd rfl h
    | cons a l ih =>
      intro _
      by_cases hl : l = []
      · subst hl; exact ⟨a, by simp, by intro x hx; simp at hx; subst hx; exact .inr ⟨rfl, Nat.le_refl _⟩⟩
      · obtain ⟨m, hm, hx⟩ := ih hl
        by_cases hc : a.g.lvl < m.g.lvl ∨ a.g.lvl = m.g.lvl ∧ a.g.prio ≤ m.g.prio
        · refine ⟨m, by simp [hm], ?_⟩
          intro x h
          rcases List.mem_cons.1 h with rfl | h
          · exact hc
          · exact hx x h
        · refine ⟨a, by simp, ?_⟩
          intro x h
          rcases List.mem_cons.1 h with rfl | h
          · exact .inr ⟨rfl, Nat.le_refl _⟩
          · have := hx x h; omega
  obtain ⟨m, hm, hx⟩ := key _ h
  simp only [elig, List.mem_filter, decide_eq_true_eq] at hm hx
  obtain ⟨k, hk, hk'⟩ := List.getElem_of_mem hm.1
  refine ⟨k, ?_⟩
  have h1 : q[k]? = some m := by rw [List.getElem?_eq_getElem hk, hk']
  simp only [isTop, h1, Bool.and_eq_true, decide_eq_true_eq, List.all_eq_true]
  exact ⟨hm.2, fun x hxq hL => hx x ⟨hxq, hL⟩⟩

/-- Code of the pool (not of the user) on top of a stack can always execute: the pool waits only in its lock calls. -/
theorem C48_step (hr : PR U u0 f0 s) {t : Nat} {f : PFrame α φ} {rest : _} (hst : s.stk t = .client (.app f) :: rest) (hf : ∀ g, f ≠ .usr g)
    (hub : s.ub = false) (hterm : s.term = false) : ∃ ch s', step (client (poolApp U)) s (.th t ch) = some s' := by
  have hrun := running_of_stk (FreeOK.reach hr) (t := t) (by rw [hst]; simp)
  have hst' : (s.thr t).stack = .client (.app f) :: rest := hst
  have hc : ∃ ch y, (poolApp U).step (s.view t) s.data.ad f (s.thr t).rv ch = some y := by
    cases f <;> first | exact absurd rfl (hf _) | exact ⟨.go, _, rfl⟩ | skip
    rename_i x
    by_cases he : elig x.L (s.data.ad.imp x.i).q = []
    · refine ⟨.go, ?_⟩
      simp only [poolApp, topCh, pick, he, if_true]
      exact ⟨_, rfl⟩
    · obtain ⟨k, hk⟩ := top_ex _ _ he
      refine ⟨.user (.inr k), ?_⟩
      have hq : ∃ h, (s.data.ad.imp x.i).q[k]? = some h := by
        cases h : (s.data.ad.imp x.i).q[k]? with
        | none => simp [isTop, h] at hk
        | some z => exact ⟨z, rfl⟩
      obtain ⟨h, hq⟩ := hq
      simp only [poolApp, topCh, pick, hk, if_true, hq]
      cases findJob (s.data.ad.imp x.i).jobs h.id with
      | none => exact ⟨_, rfl⟩
      | some j =>
        by_cases hl : x.L ≤ j.g.lvl
        · simp only [hl, if_true]
          cases j.call <;> exact ⟨_, rfl⟩
        · simp only [hl, if_false]; exact ⟨_, rfl⟩
  obtain ⟨ch, y, hy⟩ := hc
  refine ⟨ch, ?_⟩
  simp only [step, hub, hterm, hrun]
  simp only [Bool.or_self, Bool.false_eq_true, if_false, ne_eq, not_true_eq_false]
  split
  · exact ⟨_, rfl⟩
  · rw [hst']
    simp only [stepClient, Sync.client, hy]
    split <;> exact ⟨_, rfl⟩

/-- A thread that waits for `guard_` can execute when it is free; so can a thread that is about to unlock it. -/
theorem C48_lock (hr : PR U u0 f0 s) {t i : Nat} {rest : _} (hub : s.ub = false) (hterm : s.term = false)
    (hst : s.stk t = .client (.lkIn (gd i)) :: rest ∧ s.data.sd.lk (.user (gd i)) = none ∨
      s.stk t = .client (.lkUn (gd i)) :: rest ∧ s.data.sd.lk (.user (gd i)) = some t) :
    ∃ s', step (client (poolApp U)) s (.th t .go) = some s' := by
  have hrun := running_of_stk (FreeOK.reach hr) (t := t) (by rcases hst with ⟨h, -⟩ | ⟨h, -⟩ <;> rw [h] <;> simp)
  simp only [step, hub, hterm, hrun]
  simp only [Bool.or_self, Bool.false_eq_true, if_false, ne_eq, not_true_eq_false]
  split
  · exact ⟨_, rfl⟩
  · rcases hst with ⟨h, hl⟩ | ⟨h, hl⟩
    · have hst' : (s.thr t).stack = .client (.lkIn (gd i)) :: rest := h
      rw [hst']
      simp only [stepClient, Sync.client, sstep, hl]
      exact ⟨_, rfl⟩
    · have hst' : (s.thr t).stack = .client (.lkUn (gd i)) :: rest := h
      have hv : (s.view t).tid = t := rfl
      rw [hst']
      simp only [stepClient, Sync.client, sstep, hl, hv]
      simp

end

/-! ## Examples -/

/-- Main makes a pool with one worker, schedules a job (label 20) and returns; the job schedules another one. -/
def demoNest : List (PAct Nat Nat) :=
  [.core .registerThis 2, .pool (.new 0 [(0, 1)]) 3, .pool (.schedule 0 ⟨0, 5⟩ true 20) 4] ++ List.replicate 16 (.ret .unit) ++
  [.pool (.schedule 0 ⟨0, 5⟩ true 30) 21]

def demoNestSched : List (Lbl (PCh Unit)) := pgo 0 32 ++ pgo 1 8 ++ ptop 1 0 ++ pgo 1 19

set_option synthInstance.maxSize 1024 in
set_option synthInstance.maxHeartbeats 400000 in
/-- The claim does not hold: the only worker of a pool executes a job that schedules another one.  `notify_workers` dispatches `check_jobs` to the worker itself, so it is
    called in place and waits for `guard_`, which is held by this thread.  It stays there in every continuation of the execution. -/
theorem C48_deadlock : ∃ s : DPSt, PR (tableP demoNest) () 1 s ∧
    .client (.app (.usr 21)) ∈ s.stk 1 ∧ (∃ rest, s.stk 1 = .client (.lkIn (gd 0)) :: rest) ∧ s.data.sd.lk (.user (gd 0)) = some 1 ∧
    ∀ ls s', run (client (poolApp (tableP demoNest))) s ls = some s' → s'.stk 1 = s.stk 1 := by
  obtain ⟨s, h1, h0⟩ := Option.map_eq_some_iff.1 (show (pexec demoNest demoNestSched).map (fun s => ((s.stk 1).head?,
      decide (.client (.app (.usr 21)) ∈ s.stk 1), s.data.sd.lk (.user (gd 0)), (s.thr 1).exc, s.stk 0)) =
      some (some (.client (.lkIn (gd 0))), true, some 1, none, []) by decide +kernel)
  have hn : spawnLt 2 (client (poolApp (tableP demoNest))) (init { sd := {}, ad := { u := () } } (.app (.usr 1))) demoNestSched = true := by
    decide +kernel
  simp only [Prod.mk.injEq, decide_eq_true_eq] at h0
  obtain ⟨a1, a2, a3, a4, a5⟩ := h0
  have hr : PR (tableP demoNest) () 1 s := ⟨_, h1⟩
  obtain ⟨rest, hst⟩ : ∃ rest, s.stk 1 = .client (.lkIn (gd 0)) :: rest := by
    cases hx : s.stk 1 with
    | nil => rw [hx] at a1; cases a1
    | cons x rest => rw [hx] at a1; simp at a1; exact ⟨rest, by rw [a1]⟩
  refine ⟨s, hr, a2, ⟨rest, hst⟩, a3, fun ls s' hs => ?_⟩
  rw [hst]
  refine stuck hr hst a4 a3 ?_ hs
  intro u hu
  by_cases h : u = 0
  · rw [h]; exact a5
  · have := spawnLt_stk (u := u) (FreeOK.init _ _) hn h1 (by omega) (by simp [demoNestSched, pgo, ptop]; omega)
    rw [this]
    simp [Core.init, St.stk, upd_ne _ _ h]

set_option synthInstance.maxSize 1024 in
set_option synthInstance.maxHeartbeats 400000 in
/-- The hypotheses of `C48_holder`, `C48_step` are met: main holds the mutex. -/
example : ∃ s : DPSt, PR (tableP demoNest) () 1 s ∧ s.data.sd.lk (.user (gd 0)) = some 0 ∧ s.ub = false ∧ s.term = false ∧
    s.stk 0 = [.client (.app (.ajIn 0 0 ⟨0, 5⟩ ⟨1, 0, 20⟩)), .client (.app (.usr 4))] := by
  obtain ⟨s, h1, h3⟩ := pwit (l := demoNest) (ls := pgo 0 21) (fun s => (s.data.sd.lk (.user (gd 0)), s.ub, s.term, s.stk 0))
    (b := (some 0, false, false, [.client (.app (.ajIn 0 0 ⟨0, 5⟩ ⟨1, 0, 20⟩)), .client (.app (.usr 4))])) (by decide +kernel)
  simp only [Prod.mk.injEq] at h3
  exact ⟨s, h1, h3⟩

set_option synthInstance.maxSize 1024 in
set_option synthInstance.maxHeartbeats 400000 in
/-- The hypotheses of `C48_lock` are met: the job locks the free mutex; of `C48_partial`: by the state of `C48_deadlock`. -/
example : (∃ (s : DPSt) (rest : _), PR (tableP demoNest) () 1 s ∧ s.ub = false ∧ s.term = false ∧ s.stk 1 = .client (.lkIn (gd 0)) :: rest ∧
      .client (.app (.usr 21)) ∈ rest ∧ s.data.sd.lk (.user (gd 0)) = none) ∧
    ∃ (s : DPSt) (rest : _), PR (tableP demoNest) () 1 s ∧ s.stk 1 = .client (.lkIn (gd 0)) :: rest ∧ s.data.sd.lk (.user (gd 0)) = some 1 := by
  constructor
  · obtain ⟨s, h1, h3⟩ := pwit (l := demoNest) (ls := pgo 0 32 ++ pgo 1 8 ++ ptop 1 0 ++ pgo 1 14) (fun s => (s.ub, s.term, (s.stk 1).head?,
      decide (.client (.app (.usr 21)) ∈ s.stk 1), s.data.sd.lk (.user (gd 0)))) (b := (false, false, some (.client (.lkIn (gd 0))), true, none)) (by decide +kernel)
    simp only [Prod.mk.injEq, decide_eq_true_eq] at h3
    obtain ⟨a1, a2, a3, a4, a5⟩ := h3
    cases hx : s.stk 1 with
    | nil => rw [hx] at a3; cases a3
    | cons x rest =>
      rw [hx] at a3 a4
      simp only [List.head?_cons, Option.some.injEq] at a3
      subst a3
      exact ⟨s, rest, h1, a1, a2, hx, by simpa using a4, a5⟩
  · obtain ⟨s, h1, -, ⟨rest, h2⟩, h3, -⟩ := C48_deadlock
    exact ⟨s, rest, h1, h2, h3⟩

end Itc
