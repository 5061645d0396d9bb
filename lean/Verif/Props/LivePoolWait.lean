import Verif.Props.LivePoolDtor
import Verif.Props.LiveShut
import Verif.Props.LiveWait
import Verif.Props.PoolWait
import Verif.Props.PoolCalls

/-!
# C76: wait and wait_all of a pool return

For arbitrary user code and an infinite execution; vocabulary of `Verif.Props.Live` and `Verif.Pool.Spec`.
-/
namespace Itc
open Core Sync Pool

section
variable {α φ δ χ : Type} {U : PApp α φ δ χ} {u0 : δ} {f0 : φ} {r : Run (client (poolApp U))} {u c i j m : Nat}
  {L : List (Fr (PTask α) (PFrame α φ))} {f : SFrame (PTask α) (PFrame α φ)}

/-- The next step of the pool's code. -/
theorem to_step (hr : PR U u0 f0 (r.st 0)) (hu : r.Just u) {f : PFrame α φ} (h : r.To u L j (.client (.app f) :: L) m)
    (hen : ∀ v d rv, ((poolApp U).step v d f rv .go).isSome) (hno : ∀ v d rv ch, ch ≠ .go → (poolApp U).step v d f rv ch = none) :
    ∃ q ad' a, m ≤ q ∧ (poolApp U).step ((r.st q).view u) (r.st q).data.ad f ((r.st q).thr u).rv .go = some (ad', a) ∧ (r.st (q + 1)).data.ad = ad' ∧
      (∀ x g, a = .sync x g → r.To u L j (.client x.entry :: .client (.app g) :: L) (q + 1)) ∧
      (∀ x, a = .ret x → r.To u L j L (q + 1)) ∧ a ≠ .terminate ∧ (∀ g, a = .goto g → r.To u L j (.client (.app g) :: L) (q + 1)) ∧
      ∀ x g, a = .core x g → r.To u L j (.core (mapApi x).entry :: .client (.app g) :: L) (q + 1) := by
  obtain ⟨q, ch, o⟩ := Run.own hr hu h.stk h.exc fun m _ => ⟨.go, by
    refine en_client ?_
    have := hen ((r.st m).view u) (r.st m).data.ad ((r.st m).thr u).rv
    simp only [client]
    split
    · rename_i h; rw [h] at this; cases this
    · rfl⟩
  have hs := o.client hr
  obtain rfl : ch = .go := by
    by_contra hc
    simp [stepClient, client, hno _ _ _ _ hc] at hs
  have ht := (r.good (q + 1)).2
  simp only [stepClient, client] at hs
  cases hst : (poolApp U).step ((r.st q).view u) (r.st q).data.ad f ((r.st q).thr u).rv .go with
  | none => simp [hst] at hs
  | some x =>
    obtain ⟨ad', a⟩ := x
    simp only [hst] at hs
    refine ⟨q, ad', a, o.le, hst, ?_, ?_, ?_, ?_, ?_, ?_⟩
    · cases a <;> simp only [liftAct, Option.some.injEq] at hs <;> rw [← hs] <;> rfl
    · rintro x g rfl
      simp only [liftAct, Option.some.injEq] at hs
      exact h.own (p := []) o (by rw [← hs]; simp [St.stk, St.setStk]) (by rw [← hs]; simpa [St.setStk] using o.exc)
    · rintro x rfl
      simp only [liftAct, Option.some.injEq] at hs
      exact h.own (p := []) o (by rw [← hs]; simp [St.stk]) (by rw [← hs]; simpa using o.exc)
    · rintro rfl
      simp only [liftAct, Option.some.injEq] at hs
      rw [← hs] at ht
      cases ht
    · rintro g rfl
      simp only [liftAct, Option.some.injEq] at hs
      exact h.own (p := []) o (by rw [← hs]; simp [St.stk, St.setStk]) (by rw [← hs]; simpa [St.setStk] using o.exc)
    · rintro x g rfl
      simp only [liftAct, Option.some.injEq] at hs
      exact h.own (p := []) o (by rw [← hs]; simp [St.stk, St.setStk]) (by rw [← hs]; simpa [St.setStk] using o.exc)

/-- guard_ is locked. -/
theorem to_lock (hr : PR U u0 f0 (r.st 0)) (hu : r.Strong u) (hl : ∀ n, ∃ m, n ≤ m ∧ (r.st m).data.sd.lk (.user (gd i)) = none) {x : Fr (PTask α) (PFrame α φ)}
    (h : r.To u L j (.client (.lkIn (gd i)) :: x :: L) m) : ∃ q, m < q ∧ r.To u L j (x :: L) q := by
  obtain ⟨q, ch, o⟩ := Run.ownC hr hu h.stk h.exc fun j' _ => by
    obtain ⟨m, hm, hl⟩ := hl j'
    exact ⟨m, hm, .go, by simp [stepClient, client, sstep, hl]⟩
  have hs := o.client hr
  have := o.le
  refine ⟨q + 1, by omega, h.own (p := [x]) o ?_ ?_⟩
  all_goals
    cases ch <;> simp only [stepClient, client, sstep, reduceCtorEq] at hs
    split at hs
    · contradiction
    · rename_i h
      split at h
      · contradiction
      · rename_i h'
        split at h' <;> cases h'
        cases h
        have hs := Option.some.inj hs
        rw [← hs]
        first | (simp [St.stk]; done) | simpa using o.exc

/-- guard_ is unlocked. -/
theorem to_unlock (hr : PR U u0 f0 (r.st 0)) (hu : r.Just u) {x : Fr (PTask α) (PFrame α φ)} (h : r.To u L j (.client (.lkUn (gd i)) :: x :: L) m) :
    ∃ q, m < q ∧ r.To u L j (x :: L) q := by
  obtain ⟨q, ch, o⟩ := Run.own hr hu h.stk h.exc fun m _ => ⟨.go, by
    refine en_client ?_
    simp only [client, sstep]
    split
    · rename_i h; split at h <;> cases h
    · rfl⟩
  have hs := o.client hr
  have := o.le
  have ht := (r.good (q + 1)).2
  refine ⟨q + 1, by omega, h.own (p := [x]) o ?_ ?_⟩
  all_goals
    cases ch <;> simp only [stepClient, client, sstep, reduceCtorEq] at hs
    split at hs
    · contradiction
    · rename_i h
      split at h
      · contradiction
      · rename_i h'
        split at h' <;> cases h' <;> cases h
        · have hs := Option.some.inj hs
          rw [← hs]
          first | (simp [St.stk]; done) | simpa using o.exc
        · have hs := Option.some.inj hs
          rw [← hs] at ht
          cases ht

/-- `p` is the state for which one waits that waits for some job of pool `i`. -/
def JobState (r : Run (client (poolApp U))) (i p : Nat) : Prop := ∃ m t id k g, .sched t i id k g ∈ (r.st m).data.ad.plog ∧ k.p = p

/-- Thread `u`, registered as `c`, calls wait or wait_all of pool `i` from `f` above `L`: the scheduler is strongly fair to it; again and again nobody holds the mutex
    of the pool, and no other thread the guard of a job's state; the tasks that the thread executes while it waits return, as do their destructors. -/
structure WaitsPool (r : Run (client (poolApp U))) (u c i : Nat) (f : SFrame (PTask α) (PFrame α φ)) (L : List (Fr (PTask α) (PFrame α φ))) : Prop where
  fair : r.Strong u
  lock : ∀ n, ∃ m, n ≤ m ∧ (r.st m).data.sd.lk (.user (gd i)) = none
  guard : ∀ p, JobState r i p → ∀ n, ∃ m, n ≤ m ∧ ∀ v, (r.st m).data.sd.lk (.guard p) = some v → v = u
  run : ∀ p e k n dn l t b, r.Returns u ((client (poolApp U)).run t)
    (.core (.ran c t (.toWait b)) :: .client (.swAfter (.fw p) e k) :: .client (.app (.wtGo i n dn l)) :: .client f :: L)
  drop : ∀ p e k n dn l t b, r.Returns u ((client (poolApp U)).destroy t)
    (.core (.freed c t (.toWait b)) :: .client (.swAfter (.fw p) e k) :: .client (.app (.wtGo i n dn l)) :: .client f :: L)

/-- How the call ends: it returns without an exception, unless the thread is unregistered by a task that the call executes, or the entry of a wait has been removed by
    another wait of the same thread (the defect of C32). -/
def PoolWaitEnds (r : Run (client (poolApp U))) (u c j : Nat) (L : List (Fr (PTask α) (PFrame α φ))) : Prop :=
  (∃ m, r.Ends u L j m ∧ ((r.st m).thr u).exc = none) ∨ (∃ m id n, .unregistered c id n ∈ (r.st m).log) ∨ ∃ p, Robbed r u p

/-- The waits, one after the other. -/
theorem waits_end (hr : PR U u0 f0 (r.st 0)) (W : WaitsPool r u c i f L) (hloc : (r.st j).loc u = some c) (hab : ∃ x, (r.st j).stk u = .client x :: .client f :: L)
    (hg : ∀ p, (r.st j).data.sd.lk (.guard p) ≠ some u) (n : Nat) (ps : List Nat) : ∀ dn m, (∀ p ∈ ps, JobState r i p ∧ ∃ M, (r.st M).data.sd.ready p = true) →
    r.To u (.client f :: L) j (.client (.app (.wtGo i n dn ps)) :: .client f :: L) m → PoolWaitEnds r u c j (.client f :: L) := by
  classical
  by_cases hun : ∃ m id n, .unregistered c id n ∈ (r.st m).log
  · exact fun _ _ _ _ => .inr (.inl hun)
  simp only [not_exists] at hun
  obtain ⟨x, hab⟩ := hab
  have h0 : Above u c (.client f :: L) (r.st j) := ⟨[_], hab, by simp, hloc⟩
  obtain ⟨id, hreg⟩ := h0.reg (r.reach hr j)
  have hnh : ∀ p g, .client g ∈ .client f :: L → gw p g ≠ 1 := fun p g h4 h5 => hg p (guard_own (r.reach hr j) (by rw [hab]; exact List.mem_cons_of_mem _ h4) h5)
  have hl : ∀ {m y T}, r.To u (.client f :: L) j (y :: T ++ .client f :: L) m → (r.st m).loc u = some c := fun {m y T} h => by
    obtain ⟨-, -, -, h1⟩ := r.above hr h.le hreg hun h0 fun q h1 h2 => by
      rcases Nat.lt_or_ge q m with h3 | h3
      · obtain ⟨x, p, h4⟩ := h.over q h1 h3
        exact ⟨x :: p, by rw [h4]; simp⟩
      · obtain rfl : q = m := by omega
        exact ⟨y :: T, h.stk.symm⟩
    exact h1
  induction ps with
  | nil =>
    intro dn m _ h
    obtain ⟨q, ad', a, h3, h4, -, -, h5, -⟩ := to_step hr W.fair.just h (fun _ _ _ => rfl) (fun _ _ _ ch hc => by cases ch <;> first | rfl | exact absurd rfl hc)
    obtain ⟨-, rfl⟩ := Prod.mk.inj (Option.some.inj h4)
    have h6 := h5 _ rfl
    have := h.le
    refine .inl ⟨q + 1, ⟨by omega, h6.stk, fun m' h7 h8 => ?_⟩, h6.exc⟩
    obtain ⟨x, p, h9⟩ := h6.over m' h7 h8
    rcases List.eq_nil_or_concat p with rfl | ⟨p', y, rfl⟩
    · exact ⟨[], x, h9⟩
    · exact ⟨x :: p', y, by rw [h9]; simp⟩
  | cons p ps ih =>
    intro dn m hM h
    obtain ⟨q, ad', a, h3, h4, -, h5, -⟩ := to_step hr W.fair.just h (fun _ _ _ => rfl) (fun _ _ _ ch hc => by cases ch <;> first | rfl | exact absurd rfl hc)
    obtain ⟨-, rfl⟩ := Prod.mk.inj (Option.some.inj h4)
    have h6 := h5 _ _ rfl
    rcases C61_wait hr (j := q + 1) (f := .app (.wtGo i n (p :: dn) ps)) (rest := .client f :: L)
        ⟨W.fair, W.guard p (hM p (by simp)).1, fun e k => W.run p e k n _ _, fun e k => W.drop p e k n _ _⟩ (hM p (by simp)).2 h6.stk h6.exc (hl (T := [_]) h6)
        (guard_none (r.reach hr _) (pre := [_, _]) h6.stk (hnh p) (by simp [gw, SApi.entry])) with ⟨m', ⟨h7, h8, h9⟩, h10⟩ | h7 | h7
    · refine ih (p :: dn) m' (fun p hp => hM p (by simp [hp])) ⟨by have := h6.le; omega, h8, h10, h6.over.trans fun q' ha hb => ?_⟩
      obtain ⟨pre, y, h11⟩ := h9 q' ha hb
      cases pre with
      | nil => exact ⟨y, [.client (.app (.wtGo i n (p :: dn) ps))], h11⟩
      | cons z pre => exact ⟨z, pre ++ [y, .client (.app (.wtGo i n (p :: dn) ps))], by rw [h11]; simp⟩
    · exact .inr (.inl h7)
    · exact .inr (.inr ⟨p, h7⟩)

/-- **C76, wait.** A registered thread that holds no guard of a state calls `wait(id)` of a pool.  If the state that it finds becomes ready (if it finds none there is
    nothing to wait for), the call ends (`PoolWaitEnds`). -/
theorem C76_wait (hr : PR U u0 f0 (r.st 0)) (hu : r.Strong u) {h id : Nat} (W : ∀ i, (∃ m, (r.st m).data.ad.deref h = some i) → WaitsPool r u c i f L)
    (hst : (r.st j).stk u = .client (.app (PApi.wait h id).entry) :: .client f :: L) (hx : ((r.st j).thr u).exc = none) (hloc : (r.st j).loc u = some c)
    (hg : ∀ p, (r.st j).data.sd.lk (.guard p) ≠ some u)
    (hM : ∀ m i p, j ≤ m → (r.st (m + 1)).data.ad.plog = .waits u i id (some p) :: (r.st m).data.ad.plog → ∃ M, (r.st M).data.sd.ready p = true) :
    PoolWaitEnds r u c j (.client f :: L) := by
  have h0 : r.To u (.client f :: L) j (.client (.app (.wtIn h id)) :: .client f :: L) j := ⟨Nat.le_refl _, hst, hx, fun q h1 h2 => by omega⟩
  obtain ⟨q, ad', a, h3, h4, -, h5, -, h6, -⟩ := to_step hr hu.just h0 (fun _ _ _ => rfl) (fun _ _ _ ch hc => by cases ch <;> first | rfl | exact absurd rfl hc)
  have h4 : enter (r.st q).data.ad h (PFrame.wtBody · id) = (ad', a) := Option.some.inj h4
  unfold enter at h4
  split at h4
  · rename_i i hd
    have W := W i ⟨_, hd⟩
    obtain ⟨-, rfl⟩ := Prod.mk.inj h4
    obtain ⟨q2, h7, h8⟩ := to_lock hr W.fair W.lock (h5 _ _ rfl)
    obtain ⟨q3, ad3, a3, h9, h10, h11, h12, -⟩ := to_step hr W.fair.just h8 (fun _ _ _ => rfl) (fun _ _ _ ch hc => by cases ch <;> first | rfl | exact absurd rfl hc)
    have h10 : (match findJob ((r.st q3).data.ad.imp i).jobs id with
      | none => ((r.st q3).data.ad.ev (.waits ((r.st q3).view u).tid i id none), .sync (.unlock (gd i)) (.wtGo i (r.st q3).data.ad.plog.length [] []))
      | some j => ((r.st q3).data.ad.ev (.waits ((r.st q3).view u).tid i id (some j.fut)), .sync (.unlock (gd i)) (.wtGo i (r.st q3).data.ad.plog.length [] [j.fut]))) =
        (ad3, a3) := Option.some.inj h10
    split at h10
    · obtain ⟨-, rfl⟩ := Prod.mk.inj h10
      obtain ⟨q4, h13, h14⟩ := to_unlock hr W.fair.just (h12 _ _ rfl)
      exact waits_end hr W hloc ⟨_, hst⟩ hg _ _ _ _ (by simp) h14
    · rename_i jb _
      obtain ⟨h15, rfl⟩ := Prod.mk.inj h10
      obtain ⟨q4, h13, h14⟩ := to_unlock hr W.fair.just (h12 _ _ rfl)
      refine waits_end hr W hloc ⟨_, hst⟩ hg _ _ _ _ (fun p hp => ?_) h14
      obtain rfl := List.mem_singleton.1 hp
      have h16 : (r.st (q3 + 1)).data.ad.plog = .waits u i id (some jb.fut) :: (r.st q3).data.ad.plog := by rw [h11, ← h15]; rfl
      obtain ⟨-, t, k, g, h17, h18⟩ := (hist (r.reach hr (q3 + 1))) [] _ _ h16
      exact ⟨⟨_, _, _, _, _, h17, h18⟩, hM q3 i _ (by omega) h16⟩
  · exact absurd (Prod.mk.inj h4).2.symm h6

/-- **C76, wait_all.** The same for `wait_all`, if the states that it finds become ready. -/
theorem C76_wait_all (hr : PR U u0 f0 (r.st 0)) (hu : r.Strong u) {h : Nat} (W : ∀ i, (∃ m, (r.st m).data.ad.deref h = some i) → WaitsPool r u c i f L)
    (hst : (r.st j).stk u = .client (.app (PApi.waitAll h).entry) :: .client f :: L) (hx : ((r.st j).thr u).exc = none) (hloc : (r.st j).loc u = some c)
    (hg : ∀ p, (r.st j).data.sd.lk (.guard p) ≠ some u)
    (hM : ∀ m i l, j ≤ m → (r.st (m + 1)).data.ad.plog = .waitsAll u i l :: (r.st m).data.ad.plog → ∀ x ∈ l, ∃ M, (r.st M).data.sd.ready x.2 = true) :
    PoolWaitEnds r u c j (.client f :: L) := by
  have h0 : r.To u (.client f :: L) j (.client (.app (.waIn h)) :: .client f :: L) j := ⟨Nat.le_refl _, hst, hx, fun q h1 h2 => by omega⟩
  obtain ⟨q, ad', a, h3, h4, -, h5, -, h6, -⟩ := to_step hr hu.just h0 (fun _ _ _ => rfl) (fun _ _ _ ch hc => by cases ch <;> first | rfl | exact absurd rfl hc)
  have h4 : enter (r.st q).data.ad h PFrame.waBody = (ad', a) := Option.some.inj h4
  unfold enter at h4
  split at h4
  · rename_i i hd
    have W := W i ⟨_, hd⟩
    obtain ⟨-, rfl⟩ := Prod.mk.inj h4
    obtain ⟨q2, h7, h8⟩ := to_lock hr W.fair W.lock (h5 _ _ rfl)
    obtain ⟨q3, ad3, a3, h9, h10, h11, h12, -⟩ := to_step hr W.fair.just h8 (fun _ _ _ => rfl) (fun _ _ _ ch hc => by cases ch <;> first | rfl | exact absurd rfl hc)
    obtain ⟨h15, rfl⟩ := Prod.mk.inj (Option.some.inj h10)
    obtain ⟨q4, h13, h14⟩ := to_unlock hr W.fair.just (h12 _ _ rfl)
    refine waits_end hr W hloc ⟨_, hst⟩ hg _ _ _ _ (fun p hp => ?_) h14
    obtain ⟨y, hy, rfl⟩ := List.mem_map.1 hp
    have h16 : (r.st (q3 + 1)).data.ad.plog = .waitsAll u i (((r.st q3).data.ad.imp i).jobs.map fun j => (j.id, j.fut)) :: (r.st q3).data.ad.plog := by
      rw [h11, ← h15]; rfl
    have hy' := List.mem_map_of_mem (f := fun j : Job α => (j.id, j.fut)) hy
    obtain ⟨t, k, g, h17, h18⟩ := ((hist (r.reach hr (q3 + 1))) [] _ _ h16).2 _ hy'
    exact ⟨⟨_, _, _, _, _, h17, h18⟩, hM q3 i _ (by omega) h16 _ hy'⟩
  · exact absurd (Prod.mk.inj h4).2.symm h6

theorem curGrp_sched {i id : Nat} : ∀ {l : List (PEv α)}, (∃ t k g, .sched t i id k g ∈ l) → ∃ g, curGrp i id l = some g
  | [], ⟨_, _, _, h⟩ => by cases h
  | e :: l, ⟨t, k, g, h⟩ => by
    have ih := fun h => curGrp_sched (i := i) (id := id) (l := l) h
    rcases List.mem_cons.1 h with rfl | h
    · exact ⟨g, by simp [curGrp]⟩
    · obtain ⟨g', ih⟩ := ih ⟨t, k, g, h⟩
      cases e
      case sched t' i' id' k' g'' =>
        simp only [curGrp]
        split
        · exact ⟨_, rfl⟩
        · exact ⟨_, ih⟩
      case changed t' i' id' g'' =>
        simp only [curGrp]
        split
        · exact ⟨_, rfl⟩
        · exact ⟨_, ih⟩
      all_goals exact ⟨_, ih⟩

/-- The jobs of pool `i` are executed: the workers execute their loops, the mutex of the pool is not held for ever, from some moment on no job is added and no priority
    changed, and each job is of a level that some worker serves. -/
structure PoolRuns (r : Run (client (poolApp U))) (i : Nat) : Prop where
  wk : ∀ m t L n id, .worker t i L n id ∈ (r.st m).data.ad.plog → ∃ c j, Works r i ⟨L, n, id⟩ c j ∧ ¬ Told r c
  lock : ∀ n, ∃ m, n ≤ m ∧ (r.st m).data.sd.lk (.user (gd i)) = none
  settled : ∃ N, Settled r i N
  lvl : ∀ m id g, curGrp i id (r.st m).data.ad.plog = some g → ∃ m t L n id, .worker t i L n id ∈ (r.st m).data.ad.plog ∧ L ≤ g.lvl

/-- In addition, the states of stopped and discarded jobs become ready (their tasks are destroyed). -/
structure PoolServed (r : Run (client (poolApp U))) (i : Nat) : Prop extends PoolRuns r i where
  cut : ∀ m t id k g, .sched t i id k g ∈ (r.st m).data.ad.plog → id ∈ cutIds i (r.st m).data.ad.plog → ∃ M, (r.st M).data.sd.ready k.p = true

/-- In such a pool each job is stopped or discarded, or its states become ready. -/
theorem job_ends (hr : PR U u0 f0 (r.st 0)) (hS : PoolRuns r i) {t id : Nat} {k : Call α} {g : Grp} (h1 : .sched t i id k g ∈ (r.st m).data.ad.plog) :
    ∃ q, m ≤ q ∧ (id ∈ cutIds i (r.st q).data.ad.plog ∨ (r.st q).data.sd.ready k.p = true) := by
  obtain ⟨N, hN⟩ := hS.settled
  have h3 : Settled r i (max N m) := fun q hq => by
    have h4 := hN q (by omega)
    have h5 := hN (max N m) (by omega)
    exact ⟨h4.1.trans h5.1.symm, fun id => (h4.2 id).trans (h5.2 id).symm⟩
  have h4 := r.plogm (Nat.le_max_right N m) h1
  obtain ⟨g', h5⟩ := curGrp_sched ⟨_, _, _, h4⟩
  obtain ⟨q, h6, h7⟩ := job_ready hr hS.wk hS.lock h3 h4 h5 (hS.lvl _ _ _ h5)
  exact ⟨q, by omega, h7.imp (fun h => h) fun h => h.2.2⟩

/-- **C76, with workers.** If the jobs of the pool are executed (`PoolServed`), then `wait_all` ends. -/
theorem C76_served (hr : PR U u0 f0 (r.st 0)) (hu : r.Strong u) {h : Nat} (W : ∀ i, (∃ m, (r.st m).data.ad.deref h = some i) → WaitsPool r u c i f L)
    (hst : (r.st j).stk u = .client (.app (PApi.waitAll h).entry) :: .client f :: L) (hx : ((r.st j).thr u).exc = none) (hloc : (r.st j).loc u = some c)
    (hg : ∀ p, (r.st j).data.sd.lk (.guard p) ≠ some u)
    (hs : ∀ m i l, j ≤ m → (r.st (m + 1)).data.ad.plog = .waitsAll u i l :: (r.st m).data.ad.plog → PoolServed r i) :
    PoolWaitEnds r u c j (.client f :: L) := by
  refine C76_wait_all hr hu W hst hx hloc hg fun m i l hm hl x hxl => ?_
  have hS := hs m i l hm hl
  obtain ⟨t, k, g, h1, h2⟩ := ((hist (r.reach hr (m + 1))) [] _ _ hl).2 x hxl
  obtain ⟨q, h6, h7 | h7⟩ := job_ends hr hS.toPoolRuns h1
  · rw [← h2]
    exact hS.cut q t x.1 k g (r.plogm h6 h1) h7
  · exact ⟨q, h2 ▸ h7⟩

end

/-! ## A concrete case -/

/-- Main makes a pool with one worker, schedules a job and calls wait_all; the worker executes the job and waits, main returns and ends. -/
def waitPool : List (Lbl (PCh Unit)) := pgo 0 45 ++ pgo 1 8 ++ ptop 1 0 ++ pgo 1 62 ++ pgo 0 12

/-- The events. -/
def waitPoolEvs : List (PEv Nat) :=
  [.waitRet 0 0 6 [1], .waited 0 0 6 1 false true, .done 1 0 1 demoA, .took 1 0 0 1 demoA ⟨1, ⟨0, 5⟩⟩, .waitsAll 0 0 [(1, 1)], .returned 0 0 1 0,
    .sched 0 0 1 demoA ⟨0, 5⟩, .packed 1 1, .packed 0 0, .made 0 0, .worker 0 0 0 1 2]

/-- What is observed of step `i`. -/
def waitPoolOk (i : Nat) (s : DPSt) : Bool :=
  (s.thr 0).exc.isNone && (s.thr 1).exc.isNone && decide (s.data.ad.deref 0 ≠ none → s.data.ad.deref 0 = some 0) &&
  decide (s.data.ad.plog = waitPoolEvs.drop (11 - s.data.ad.plog.length)) && decide (30 ≤ i → 6 ≤ s.data.ad.plog.length) &&
  decide (49 ≤ i → (s.data.ad.imp 0).wk = [⟨0, 1, 2⟩])

set_option synthInstance.maxSize 1024 in
set_option synthInstance.maxHeartbeats 400000 in
theorem waitPool_tab : (List.range 129).all (fun i => ((pexec demoWait (waitPool.take i)).map (waitPoolOk i)).getD false) = true := by decide +kernel

set_option synthInstance.maxSize 1024 in
set_option synthInstance.maxHeartbeats 400000 in
theorem waitPool_end : (pexec demoWait waitPool).map (fun s => ((s.ub, s.term, decide ((s.thr 0).status = .running), (s.stk 0).isEmpty),
    ((s.ctxs 1).cv, (s.ctxs 1).wakeup, decide ((s.ctxs 1).life = .alive)), s.stk 1, s.data.sd.lk (.user (gd 0)), s.data.sd.lk (.guard 1),
    s.log.any (fun | .exitSet c => c == 1 | .unregistered c _ _ => c == 1 | _ => false))) =
    some ((false, false, false, true), (false, false, true), [.core (.parked 1 none), .client (.app .wkLoop)], none, none, false) := by decide +kernel

set_option synthInstance.maxSize 1024 in
set_option synthInstance.maxHeartbeats 400000 in
theorem waitPool_at : (pexec demoWait (waitPool.take 31)).map (fun s => (s.stk 0, s.loc 0)) = some ([.client (.app (.waIn 0)), .client (.app (.usr 5))], some 0) ∧
    (pexec demoWait (waitPool.take 49)).map (fun s => (s.stk 1, s.loc 1, decide (Ev.registered 1 2 1 ∈ s.log))) = some ([.client (.app .wkLoop)], some 1, true) ∧
    (pexec demoWait waitPool).map (fun s => s.data.ad.plog.length) = some 11 ∧
    (pexec demoWait (waitPool.take 34)).map (fun s => s.data.ad.plog) = some (.waitsAll 0 0 [(1, 1)] :: waitPoolEvs.drop 5) := by decide +kernel

/-- The infinite execution, in which main has ended and the worker waits. -/
theorem waitPool_run : ∃ r : Run (client (poolApp (tableP demoWait))), (∀ i, pexec demoWait (waitPool.take i) = some (r.st i)) ∧ (∀ i, 128 ≤ i → r.st i = r.st 128) ∧
    (∀ g L, r.Returns 0 g L) ∧ PR (tableP demoWait) () 1 (r.st 0) ∧ r.Strong 0 ∧
    (∀ i, (∃ m, (r.st m).data.ad.deref 0 = some i) → WaitsPool r 0 0 i (.app (.usr 5)) []) ∧
    (r.st 31).stk 0 = .client (.app (PApi.waitAll 0).entry) :: .client (.app (.usr 5)) :: [] ∧ ((r.st 31).thr 0).exc = none ∧ (r.st 31).loc 0 = some 0 ∧
    (∀ p, (r.st 31).data.sd.lk (.guard p) ≠ some 0) ∧
    (∀ m i l, 31 ≤ m → (r.st (m + 1)).data.ad.plog = .waitsAll 0 i l :: (r.st m).data.ad.plog → PoolServed r i) ∧
    PoolServed r 0 ∧ ∃ m, 31 ≤ m ∧ (r.st m).data.ad.plog = .waitsAll 0 0 [(1, 1)] :: waitPoolEvs.drop 5 := by
  obtain ⟨s', hs', ho⟩ := Option.map_eq_some_iff.1 waitPool_end
  simp only [Prod.mk.injEq, decide_eq_true_eq, decide_eq_false_iff_not, List.isEmpty_iff] at ho
  obtain ⟨⟨hub, htm, h0', e0⟩, ⟨hcv, hwk, hal⟩, hend, hlk, hgd, hlog⟩ := ho
  obtain ⟨r, h0, hr, hl⟩ := Run.ofList hs' hub htm
  have hl : ∀ i, 128 ≤ i → r.st i = s' := hl
  have hR : PR (tableP demoWait) () 1 (r.st 0) := by rw [h0]; exact ⟨[], rfl⟩
  have hobs : ∀ {β : Type} (g : DPSt → β) (i : Nat) (b : β), (pexec demoWait (waitPool.take i)).map g = some b → g (r.st i) = b := by
    intro β g i b h
    simp only [pexec, hr i, Option.map_some] at h
    exact Option.some.inj h
  have htab : ∀ i, waitPoolOk (min i 128) (r.st i) = true := by
    intro i
    have : ∀ i, i < 129 → waitPoolOk i (r.st i) = true := by
      intro i hi
      have h1 := List.all_eq_true.1 waitPool_tab i (List.mem_range.2 hi)
      simpa only [pexec, hr i, Option.map_some, Option.getD_some] using h1
    rcases Nat.lt_or_ge i 128 with h | h
    · rw [Nat.min_eq_left (by omega)]; exact this i (by omega)
    · rw [Nat.min_eq_right h, hl i h, ← hl 128 (Nat.le_refl _)]; exact this 128 (by omega)
  simp only [waitPoolOk, Bool.and_eq_true, decide_eq_true_eq, Option.isNone_iff_eq_none] at htab
  obtain ⟨a1, a2, a3, a4⟩ := waitPool_at
  have a1 := hobs _ _ _ a1
  have a2 := hobs _ _ _ a2
  simp only [Prod.mk.injEq, decide_eq_true_eq] at a1 a2
  have hexc0 : ∀ i, ((r.st i).thr 0).exc = none := fun i => (htab i).1.1.1.1.1
  have hexc1 : ∀ i, ((r.st i).thr 1).exc = none := fun i => (htab i).1.1.1.1.2
  have hevs : ∀ m e, e ∈ (r.st m).data.ad.plog → e ∈ waitPoolEvs := fun m e he => by
    rw [(htab m).1.1.2] at he
    exact List.mem_of_mem_drop he
  have hret0 := Run.returns_end hR (t := 0) (N := 128) (fun i hi => by rw [hl i hi]; exact e0) hexc0
  have hS : Works r 0 ⟨0, 1, 2⟩ 1 49 := by
    refine ⟨?_, a2.2.2, ⟨a2.1, hexc1 _, a2.2.1⟩, fun m hm => ?_, fun k b => ?_, fun k b => ?_⟩
    · intro i hi
      obtain ⟨ch, h1⟩ := hi (max i 128) (by omega)
      rw [hl _ (by omega)] at h1
      exfalso
      have hex : (s'.thr 1).exc = none := by rw [← hl 128 (Nat.le_refl _)]; exact hexc1 128
      have hst : (s'.thr 1).stack = [.core (.parked 1 none), .client (.app .wkLoop)] := hend
      by_cases hru : (s'.thr 1).status = .running
      · rw [step, if_neg (by simp [hub, htm])] at h1
        simp only [hru, hex, hst, ne_eq, not_true, if_false, stepCore] at h1
        rw [if_neg (by simp [hal])] at h1
        cases ch <;> simp [hcv, hwk] at h1
      · simp [step, hub, htm, hru] at h1
    · rw [show ((r.st m).data.ad.imp 0).wk = _ from (htab m).2 (by omega)]
      simp
    · exact Run.returns_short hR hexc1 _ (N := 128) fun i hi => by rw [hl i hi, hend]; exact Nat.le_refl 2
    · exact Run.returns_short hR hexc1 _ (N := 128) fun i hi => by rw [hl i hi, hend]; exact Nat.le_refl 2
  have hT : ¬ Told r 1 := by
    have key : ∀ m e, e ∈ (r.st m).log → e ∈ s'.log := fun m e he => by
      rw [← hl (max m 128) (by omega)]
      exact r.logm (by omega) he
    rw [List.any_eq_false] at hlog
    rintro (⟨m, h⟩ | ⟨m, id, n, h⟩) <;> exact absurd (hlog _ (key m _ h)) (by simp)
  have hlast : (r.st 128).data.ad.plog = waitPoolEvs := by
    have h1 := (htab 128).1.1.2
    have h2 : (r.st 128).data.ad.plog.length = 11 := hobs (fun s => s.data.ad.plog.length) 128 11 a3
    rw [h2] at h1
    exact h1
  have hP : PoolServed r 0 := by
    refine ⟨⟨fun m t L n id h => ?_, fun n => ⟨max n 128, by omega, by rw [hl _ (by omega)]; exact hlk⟩, ⟨30, ?_⟩, fun m id g h => ?_⟩, fun m t id k g h hc => ?_⟩
    · have h1 := hevs m _ h
      simp only [waitPoolEvs, List.mem_cons, reduceCtorEq, PEv.worker.injEq, List.not_mem_nil, or_false, false_or, true_and] at h1
      obtain ⟨rfl, rfl, rfl, rfl⟩ := h1
      exact ⟨1, 49, hS, hT⟩
    · have key : ∀ m, 30 ≤ m → schedIds 0 (r.st m).data.ad.plog = [1] ∧ ∀ id, curGrp 0 id (r.st m).data.ad.plog = if 0 = 0 ∧ 1 = id then some ⟨0, 5⟩ else none := by
        intro m hm
        have h1 := (htab m).1.1.2
        have h2 := (htab m).1.2 (by omega)
        obtain ⟨k, hk, h3⟩ : ∃ k, k ≤ 5 ∧ (r.st m).data.ad.plog = waitPoolEvs.drop k := ⟨_, by omega, h1⟩
        rw [h3]
        rcases (show k = 0 ∨ k = 1 ∨ k = 2 ∨ k = 3 ∨ k = 4 ∨ k = 5 by omega) with rfl | rfl | rfl | rfl | rfl | rfl <;> exact ⟨rfl, fun _ => rfl⟩
      intro m hm
      exact ⟨(key m hm).1.trans (key 30 (Nat.le_refl _)).1.symm, fun id => ((key m hm).2 id).trans ((key 30 (Nat.le_refl _)).2 id).symm⟩
    · exact ⟨128, 0, 0, 1, 2, by rw [hlast]; simp [waitPoolEvs], Nat.zero_le _⟩
    · obtain ⟨e, he, h5⟩ := List.mem_filterMap.1 hc
      have h1 := hevs m e he
      simp only [waitPoolEvs, List.mem_cons, List.not_mem_nil, or_false] at h1
      rcases h1 with rfl | rfl | rfl | rfl | rfl | rfl | rfl | rfl | rfl | rfl | rfl <;> cases h5
  have hfair : r.Strong 0 := by
    intro i hi
    exfalso
    obtain ⟨q, h1, ch, h2⟩ := hi (max i 128) (by omega)
    rw [hl q (by omega)] at h2
    simp [step, hub, htm, h0'] at h2
  refine ⟨r, hr, fun i hi => by rw [hl i hi, hl 128 (Nat.le_refl _)], hret0, hR, hfair, fun i hi => ?_, a1.1, hexc0 31, a1.2, fun p hp => ?_, fun m i l hm h => ?_, hP, 34, by omega, ?_⟩
  · obtain ⟨m, hi⟩ := hi
    obtain rfl : i = 0 := by
      have := (htab m).1.1.1.2 (by rw [hi]; simp)
      rw [hi] at this
      exact Option.some.inj this
    refine ⟨hfair, fun n => ⟨max n 128, by omega, by rw [hl _ (by omega)]; exact hlk⟩, fun p ⟨m, t, id, k, g, h, hp⟩ n => ⟨max n 128, by omega, ?_⟩,
      fun _ _ _ _ _ _ _ _ => hret0 _ _, fun _ _ _ _ _ _ _ _ => hret0 _ _⟩
    have h1 := hevs m _ h
    simp only [waitPoolEvs, List.mem_cons, reduceCtorEq, PEv.sched.injEq, List.not_mem_nil, or_false, false_or, true_and] at h1
    obtain ⟨-, -, rfl, -⟩ := h1
    obtain rfl : 1 = p := hp
    rw [hl _ (by omega), hgd]
    simp
  · obtain ⟨g, h1, h2⟩ := guard_held (r.reach hR 31) hp
    rw [a1.1] at h1
    simp only [List.mem_cons, Frame.client.injEq, List.not_mem_nil, or_false] at h1
    rcases h1 with rfl | rfl <;> simp [gw] at h2
  · have h1 := hevs (m + 1) (.waitsAll 0 i l) (by rw [h]; simp)
    simp only [waitPoolEvs, List.mem_cons, reduceCtorEq, PEv.waitsAll.injEq, List.not_mem_nil, or_false, false_or, true_and] at h1
    obtain ⟨rfl, -⟩ := h1
    exact hP
  · exact hobs (fun s => s.data.ad.plog) 34 _ a4

/-- The hypotheses of `C76_wait_all` and `C76_served` are met; when main calls wait_all the job has not been taken. -/
example : ∃ r : Run (client (poolApp (tableP demoWait))), PR (tableP demoWait) () 1 (r.st 0) ∧ r.Strong 0 ∧
    (∀ i, (∃ m, (r.st m).data.ad.deref 0 = some i) → WaitsPool r 0 0 i (.app (.usr 5)) []) ∧
    (r.st 31).stk 0 = .client (.app (PApi.waitAll 0).entry) :: .client (.app (.usr 5)) :: [] ∧ ((r.st 31).thr 0).exc = none ∧ (r.st 31).loc 0 = some 0 ∧
    (∀ p, (r.st 31).data.sd.lk (.guard p) ≠ some 0) ∧
    (∀ m i l, 31 ≤ m → (r.st (m + 1)).data.ad.plog = .waitsAll 0 i l :: (r.st m).data.ad.plog → PoolServed r i) ∧
    PoolServed r 0 ∧ ∃ m, 31 ≤ m ∧ (r.st m).data.ad.plog = .waitsAll 0 0 [(1, 1)] :: waitPoolEvs.drop 5 := by
  obtain ⟨r, -, -, -, h⟩ := waitPool_run
  exact ⟨r, h⟩

/-- The events when main calls `wait(1)` instead of wait_all. -/
def waitOneEvs : List (PEv Nat) :=
  [.waitRet 0 0 6 [1], .waited 0 0 6 1 false true, .done 1 0 1 demoA, .took 1 0 0 1 demoA ⟨1, ⟨0, 5⟩⟩, .waits 0 0 1 (some 1), .returned 0 0 1 0,
    .sched 0 0 1 demoA ⟨0, 5⟩, .packed 1 1, .packed 0 0, .made 0 0, .worker 0 0 0 1 2]

/-- What is observed of each step. -/
def waitOneOk (s : DPSt) : Bool :=
  (s.thr 0).exc.isNone && decide (s.data.ad.deref 0 ≠ none → s.data.ad.deref 0 = some 0) && decide (s.data.ad.plog = waitOneEvs.drop (11 - s.data.ad.plog.length))

set_option synthInstance.maxSize 1024 in
set_option synthInstance.maxHeartbeats 400000 in
theorem waitOne_tab : (List.range 129).all (fun i => ((pexec demoWaitOne (waitPool.take i)).map waitOneOk).getD false) = true := by decide +kernel

set_option synthInstance.maxSize 1024 in
set_option synthInstance.maxHeartbeats 400000 in
theorem waitOne_end : (pexec demoWaitOne waitPool).map (fun s => ((s.ub, s.term, decide ((s.thr 0).status = .running), (s.stk 0).isEmpty),
    s.data.sd.lk (.user (gd 0)), s.data.sd.lk (.guard 1), s.data.sd.ready 1)) = some ((false, false, false, true), none, none, true) ∧
    (pexec demoWaitOne (waitPool.take 31)).map (fun s => (s.stk 0, s.loc 0, s.data.sd.ready 1)) =
      some ([.client (.app (.wtIn 0 1)), .client (.app (.usr 5))], some 0, false) := by decide +kernel

/-- The hypotheses of `C76_wait` are met; when main calls wait the state is not ready. -/
example : ∃ r : Run (client (poolApp (tableP demoWaitOne))), PR (tableP demoWaitOne) () 1 (r.st 0) ∧ r.Strong 0 ∧
    (∀ i, (∃ m, (r.st m).data.ad.deref 0 = some i) → WaitsPool r 0 0 i (.app (.usr 5)) []) ∧
    (r.st 31).stk 0 = .client (.app (PApi.wait 0 1).entry) :: .client (.app (.usr 5)) :: [] ∧ ((r.st 31).thr 0).exc = none ∧ (r.st 31).loc 0 = some 0 ∧
    (∀ p, (r.st 31).data.sd.lk (.guard p) ≠ some 0) ∧
    (∀ m i p, 31 ≤ m → (r.st (m + 1)).data.ad.plog = .waits 0 i 1 (some p) :: (r.st m).data.ad.plog → ∃ M, (r.st M).data.sd.ready p = true) ∧
    (r.st 31).data.sd.ready 1 = false := by
  obtain ⟨hE, a1⟩ := waitOne_end
  obtain ⟨s', hs', ho⟩ := Option.map_eq_some_iff.1 hE
  simp only [Prod.mk.injEq, decide_eq_false_iff_not, List.isEmpty_iff] at ho
  obtain ⟨⟨hub, htm, h0', e0⟩, hlk, hgd, hrd⟩ := ho
  obtain ⟨r, h0, hr, hl⟩ := Run.ofList hs' hub htm
  have hl : ∀ i, 128 ≤ i → r.st i = s' := hl
  have hR : PR (tableP demoWaitOne) () 1 (r.st 0) := by rw [h0]; exact ⟨[], rfl⟩
  have htab : ∀ i, waitOneOk (r.st i) = true := by
    intro i
    have : ∀ i, i < 129 → waitOneOk (r.st i) = true := by
      intro i hi
      have h1 := List.all_eq_true.1 waitOne_tab i (List.mem_range.2 hi)
      simpa only [pexec, hr i, Option.map_some, Option.getD_some] using h1
    rcases Nat.lt_or_ge i 128 with h | h
    · exact this i (by omega)
    · rw [hl i h, ← hl 128 (Nat.le_refl _)]; exact this 128 (by omega)
  simp only [waitOneOk, Bool.and_eq_true, decide_eq_true_eq, Option.isNone_iff_eq_none] at htab
  simp only [pexec, hr 31, Option.map_some, Option.some.injEq, Prod.mk.injEq] at a1
  have hevs : ∀ m e, e ∈ (r.st m).data.ad.plog → e ∈ waitOneEvs := fun m e he => by
    rw [(htab m).2] at he
    exact List.mem_of_mem_drop he
  have hret0 := Run.returns_end hR (t := 0) (N := 128) (fun i hi => by rw [hl i hi]; exact e0) fun i => (htab i).1.1
  have hfair : r.Strong 0 := by
    intro i hi
    exfalso
    obtain ⟨q, h1, ch, h2⟩ := hi (max i 128) (by omega)
    rw [hl q (by omega)] at h2
    simp [step, hub, htm, h0'] at h2
  refine ⟨r, hR, hfair, fun i hi => ?_, a1.1, (htab 31).1.1, a1.2.1, fun p hp => ?_, fun m i p hm h => ?_, a1.2.2⟩
  · obtain ⟨m, hi⟩ := hi
    obtain rfl : i = 0 := by
      have := (htab m).1.2 (by rw [hi]; simp)
      rw [hi] at this
      exact Option.some.inj this
    refine ⟨hfair, fun n => ⟨max n 128, by omega, by rw [hl _ (by omega)]; exact hlk⟩, fun p ⟨m, t, id, k, g, h, hp⟩ n => ⟨max n 128, by omega, ?_⟩,
      fun _ _ _ _ _ _ _ _ => hret0 _ _, fun _ _ _ _ _ _ _ _ => hret0 _ _⟩
    have h1 := hevs m _ h
    simp only [waitOneEvs, List.mem_cons, reduceCtorEq, PEv.sched.injEq, List.not_mem_nil, or_false, false_or, true_and] at h1
    obtain ⟨-, -, rfl, -⟩ := h1
    obtain rfl : 1 = p := hp
    rw [hl _ (by omega), hgd]
    simp
  · obtain ⟨g, h1, h2⟩ := guard_held (r.reach hR 31) hp
    rw [a1.1] at h1
    simp only [List.mem_cons, Frame.client.injEq, List.not_mem_nil, or_false] at h1
    rcases h1 with rfl | rfl <;> simp [gw] at h2
  · have h1 := hevs (m + 1) (.waits 0 i 1 (some p)) (by rw [h]; simp)
    simp only [waitOneEvs, List.mem_cons, reduceCtorEq, PEv.waits.injEq, Option.some.injEq, List.not_mem_nil, or_false, false_or, true_and] at h1
    obtain ⟨rfl, rfl⟩ := h1
    exact ⟨128, by rw [hl 128 (Nat.le_refl _)]; exact hrd⟩

end Itc
