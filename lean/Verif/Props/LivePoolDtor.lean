import Verif.Props.LivePool
import Verif.Props.LiveEnd

/-!
# C73: the destructor of a pool does not wait for its workers for ever
-/
namespace Itc
open Core Sync Pool

section
variable {α φ δ χ : Type} {U : PApp α φ δ χ} {u0 : δ} {f0 : φ} {r : Run (client (poolApp U))}

/-- The function of a worker. -/
theorem wk_loopEnd : LoopEnd (client (poolApp U)) (.app .wkLoop) (.app .wkEnd) where
  toIsLoop := wk_isLoop
  leave v d rv ch d' a hv h := by
    cases ch <;> simp [client, poolApp, pstep, hv, liftAct] at h
    exact h.2.symm
  on' v d rv := ⟨.go, rfl⟩
  ret v d rv ch d' a h := by
    cases ch <;> simp [client, poolApp, pstep, liftAct] at h
    exact ⟨_, h.2.symm⟩

theorem en_client {τ φ δ χ : Type} {C : Client τ φ δ χ} {s : St τ φ δ} {u : Nat} {f : φ} {L : List (Frame τ φ)} {ch : Ch χ}
    (h : (C.step (s.view u) s.data f (s.thr u).rv ch).isSome = true) : (stepClient C s u f L ch).isSome = true := by
  simp only [stepClient]
  split
  · rename_i hn; rw [hn] at h; cases h
  · split <;> rfl

theorem di_tell {s s' : PSt α φ δ} {u i : Nat} {w : Wk} {ws : List Wk} {K : DK} {L : List (Fr (PTask α) (PFrame α φ))} {ch : Ch (PCh χ)}
    (hs : stepClient (client (poolApp U)) s u (.app (.diJoin i (w :: ws) K)) L ch = some s') :
    s'.stk u = .core (.exitLook w.id) :: .client (.app (.diStd i w ws K)) :: L ∧ (s'.thr u).exc = (s.thr u).exc := by
  cases ch <;> simp [stepClient, client, poolApp, pstep, liftAct] at hs
  rw [← hs]
  exact ⟨by simp [St.stk, St.setStk, Api.entry, mapApi], by simp [St.setStk]⟩

theorem di_join {s s' : PSt α φ δ} {u i : Nat} {w : Wk} {ws : List Wk} {K : DK} {L : List (Fr (PTask α) (PFrame α φ))} {ch : Ch (PCh χ)} (hne : w.n ≠ u)
    (hs : stepClient (client (poolApp U)) s u (.app (.diStd i w ws K)) L ch = some s') :
    s'.stk u = .core (.joinIn w.n) :: .client (.app (.diJoin i ws K)) :: L ∧ (s'.thr u).exc = (s.thr u).exc := by
  cases ch <;> simp [stepClient, client, poolApp, pstep, liftAct, St.view, hne] at hs
  rw [← hs]
  exact ⟨by simp [St.stk, St.setStk, Api.entry, mapApi], by simp [St.setStk]⟩

/-- The next step of thread `t`, which is blocked now and then. -/
theorem Run.ownC {τ φ δ χ : Type} {C : Client τ φ δ χ} {r : Run C} {d : δ} {f0 : φ} (hr : Reach C d f0 (r.st 0)) {t i : Nat} (hj : r.Strong t) {f : φ}
    {G : List (Frame τ φ)} (hst : (r.st i).stk t = .client f :: G) (hx : ((r.st i).thr t).exc = none)
    (hen : ∀ j, i ≤ j → ∃ m, j ≤ m ∧ ∃ ch, (stepClient C (r.st m) t f G ch).isSome) : ∃ m ch, r.Own t i (.client f :: G) m ch := by
  obtain ⟨m, h1, -, ⟨ch, h3⟩, -⟩ := r.nextF hr hj (i := i) (by rw [hst]; simp) fun j hij hsame => by
    obtain ⟨m, hm, ch, h⟩ := hen j hij
    refine ⟨m, hm, ch, ?_⟩
    rw [step_th (r.reach hr m) (r.good m).1 (r.good m).2 ((hsame m (by omega)).stk.trans hst) ((hsame m (by omega)).exc.trans hx)]
    exact h
  exact Run.Own.of hr hst (by simp) hx ⟨m, h1, ch, h3⟩

/-- Thread `w.n` executes the function of `make_thread` (`Ending`) for worker `w`, is registered with its id, is not the thread `u`, and is joined by nobody before `u`
    joins it in the loop of the destructor. -/
def AllEnd (r : Run (client (poolApp U))) (u j i : Nat) (K : DK) (L : List (Fr (PTask α) (PFrame α φ))) (w : Wk) (ws : List Wk) : Prop :=
  ∃ c i', Ending r w.n c (.app .wkLoop) (.app .wkEnd) i' ∧ .registered c w.id w.n ∈ (r.st j).log ∧ w.n ≠ u ∧
    ∀ q, min i' j ≤ q → ((r.st q).thr w.n).status = .free → ∃ p, j ≤ p ∧ p < q ∧
      (r.st p).stk u = .core (.joinIn w.n) :: .client (.app (.diJoin i ws K)) :: L ∧ (r.st (p + 1)).stk u = .client (.app (.diJoin i ws K)) :: L

/-- Thread `u` destroys pool `i`.  The scheduler is strongly fair to it, the mutex of the pool is not held for ever, the destructors of the discarded jobs return, and
    those of the tasks that are still queued for a worker; the workers execute their function (`AllEnd`). -/
structure Destroys (r : Run (client (poolApp U))) (u i : Nat) (K : DK) (L : List (Fr (PTask α) (PFrame α φ))) : Prop where
  fair : r.Strong u
  lock : ∀ n, ∃ m, n ≤ m ∧ (r.st m).data.sd.lk (.user (gd i)) = none
  drop : ∀ c l K', r.Returns u (SApi.dropTask c.p (.inner c.u c.a)).entry (.client (.app (.caLoop i (some c) l K')) :: L)
  free : ∀ k c l w ws, r.Returns u ((client (poolApp U)).destroy k) (.core (.destroyList c l .notifyExit .unit) :: .client (.app (.diStd i w ws K)) :: L)
  wk : ∀ j w ws, (r.st j).stk u = .client (.app (.diJoin i (w :: ws) K)) :: L → AllEnd r u j i K L w ws

variable {u i j : Nat} {K : DK} {L : List (Fr (PTask α) (PFrame α φ))}

/-- **C73, the workers.** The destructor tells the workers to exit and waits for them, one after the other: it gets to the end of this loop, and each worker had ended. -/
theorem C73_workers (hr : PR U u0 f0 (r.st 0)) (D : Destroys r u i K L) (ws : List Wk) : ∀ j, (r.st j).stk u = .client (.app (.diJoin i ws K)) :: L →
    ((r.st j).thr u).exc = none → ∃ m, j ≤ m ∧ (r.st m).stk u = .client (.app (.diJoin i [] K)) :: L ∧ ((r.st m).thr u).exc = none ∧
      ∀ w ∈ ws, ∃ q, j ≤ q ∧ q < m ∧ ((r.st q).thr w.n).status = .zombie := by
  induction ws with
  | nil => exact fun j h1 h2 => ⟨j, Nat.le_refl _, h1, h2, by simp⟩
  | cons w ws ih =>
    intro j hst hx
    obtain ⟨c, i', E, hreg, hne, hown⟩ := D.wk j w ws hst
    -- notify_for_exit is called
    obtain ⟨m1, ch1, o1⟩ := Run.own hr D.fair.just hst hx fun m _ => ⟨.go, rfl⟩
    have p1 := o1.le
    obtain ⟨e1, x1⟩ := di_tell (o1.client hr)
    -- it returns
    obtain ⟨m2, q2, p2, v2, e2, x2, t2⟩ := Run.told hr E D.fair (r.logm (by omega) hreg) e1 (x1.trans o1.exc) fun k c l => D.free k c l w ws
    -- join is called
    obtain ⟨m3, ch3, o3⟩ := Run.own hr D.fair.just e2 x2 fun m _ => ⟨.go, en_client rfl⟩
    have p3 := o3.le
    obtain ⟨e3, x3⟩ := di_join hne (o3.client hr)
    -- the worker ends
    obtain ⟨j', m', a1, a2, -, -, -, -, -, a5⟩ := C72_ends hr E t2
    obtain ⟨m4, ch4, o4, z4, e4, x4, -⟩ := Run.joins (j0 := min i' j) hr D.fair.just e3 (x3.trans o3.exc) (fun q hq hk hf => by
      obtain ⟨p, b1, b2, b3, b4⟩ := hown q hq hf
      rcases Nat.lt_or_ge p (m3 + 1) with h | h
      · rcases Nat.lt_or_ge p (m1 + 1) with h' | h'
        · rw [o1.keep p b1 (by omega)] at b3; cases b3
        · rcases Nat.lt_or_ge p m2 with h'' | h''
          · obtain ⟨x, y, hxy⟩ := v2 p h' h''
            rw [hxy] at b3
            have b5 : (x :: y ++ [.client (.app (.diStd i w ws K))]) ++ L = [.core (.joinIn w.n), .client (.app (.diJoin i ws K))] ++ L := by simpa using b3
            have := congrArg List.getLast? (List.append_cancel_right b5)
            simp only [List.getLast?_append, List.getLast?_singleton, Option.some_or, List.getLast?_cons_cons, Option.some.injEq] at this
            cases this
          · rw [o3.keep p h'' (by omega)] at b3; cases b3
      · rw [hk (p + 1) (by omega) (by omega)] at b4; cases b4) (by omega) a5
    have p4 := o4.le
    obtain ⟨m, h1, h2, h3, h4⟩ := ih (m4 + 1) e4 x4
    refine ⟨m, by omega, h2, h3, fun w' hw => ?_⟩
    rcases List.mem_cons.1 hw with rfl | hw
    · exact ⟨m4, by omega, by omega, z4⟩
    · obtain ⟨q, h5, h6, h7⟩ := h4 w' hw
      exact ⟨q, by omega, h6, h7⟩

/-- guard_ is locked. -/
theorem pool_lock (hr : PR U u0 f0 (r.st 0)) (D : Destroys r u i K L) {G : List (Fr (PTask α) (PFrame α φ))} (hst : (r.st j).stk u = .client (.lkIn (gd i)) :: G)
    (hx : ((r.st j).thr u).exc = none) : ∃ m, j < m ∧ (r.st m).stk u = G ∧ ((r.st m).thr u).exc = none := by
  obtain ⟨m, ch, o⟩ := Run.ownC hr D.fair hst hx fun j' _ => by
    obtain ⟨m, hm, hl⟩ := D.lock j'
    exact ⟨m, hm, .go, by simp [stepClient, client, sstep, hl]⟩
  have hs := o.client hr
  have := o.le
  refine ⟨m + 1, by omega, ?_⟩
  cases ch <;> simp only [stepClient, client, sstep, reduceCtorEq] at hs
  split at hs
  · contradiction
  · rename_i h
    split at h
    · contradiction
    · rename_i h'
      split at h' <;> cases h'
      cases h
      have hs := Option.some.inj hs
      rw [← hs]
      exact ⟨by simp [St.stk], by simpa using o.exc⟩

/-- guard_ is unlocked. -/
theorem pool_unlock (hr : PR U u0 f0 (r.st 0)) (hu : r.Just u) {G : List (Fr (PTask α) (PFrame α φ))} (hst : (r.st j).stk u = .client (.lkUn (gd i)) :: G)
    (hx : ((r.st j).thr u).exc = none) : ∃ m, j < m ∧ (r.st m).stk u = G ∧ ((r.st m).thr u).exc = none := by
  obtain ⟨m, ch, o⟩ := Run.own hr hu hst hx fun m _ => ⟨.go, by
    refine en_client ?_
    simp only [client, sstep]
    split
    · rename_i h; split at h <;> cases h
    · rfl⟩
  have hs := o.client hr
  have := o.le
  have ht := (r.good (m + 1)).2
  refine ⟨m + 1, by omega, ?_⟩
  cases ch <;> simp only [stepClient, client, sstep, reduceCtorEq] at hs
  split at hs
  · contradiction
  · rename_i h
    split at h
    · contradiction
    · rename_i h'
      split at h' <;> cases h' <;> cases h
      · have hs := Option.some.inj hs
        rw [← hs]
        exact ⟨by simp [St.stk], by simpa using o.exc⟩
      · have hs := Option.some.inj hs
        rw [← hs] at ht
        cases ht

/-- Code of the pool whose next step has the action `a`. -/
theorem pool_step (hr : PR U u0 f0 (r.st 0)) (hu : r.Just u) {f : PFrame α φ} (hst : (r.st j).stk u = .client (.app f) :: L) (hx : ((r.st j).thr u).exc = none)
    (hen : ∀ v d rv, ((poolApp U).step v d f rv .go).isSome) (hno : ∀ v d rv ch, ch ≠ .go → (poolApp U).step v d f rv ch = none) :
    ∃ m ad' a, j ≤ m ∧ (poolApp U).step ((r.st m).view u) (r.st m).data.ad f ((r.st m).thr u).rv .go = some (ad', a) ∧
      (stepClient (client (poolApp U)) (r.st m) u (.app f) L .go = some (r.st (m + 1)) ∧ (r.st m).stk u = .client (.app f) :: L) ∧
      (∀ g, a = .goto g → (r.st (m + 1)).stk u = .client (.app g) :: L ∧ ((r.st (m + 1)).thr u).exc = none) ∧
      (∀ x g, a = .sync x g → (r.st (m + 1)).stk u = .client x.entry :: .client (.app g) :: L ∧ ((r.st (m + 1)).thr u).exc = none) ∧
      (∀ x, a = .ret x → (r.st (m + 1)).stk u = L ∧ ((r.st (m + 1)).thr u).exc = none) ∧ a ≠ .terminate := by
  obtain ⟨m, ch, o⟩ := Run.own hr hu hst hx fun m _ => ⟨.go, by
    refine en_client ?_
    have := hen ((r.st m).view u) (r.st m).data.ad ((r.st m).thr u).rv
    simp only [client]
    split
    · rename_i h; rw [h] at this; cases this
    · rfl⟩
  have hs := o.client hr
  obtain rfl : ch = .go := by
    by_contra hc
    simp [stepClient, client, hno _ _ _ _ hc] at hs
  have hs' := hs
  have ht := (r.good (m + 1)).2
  simp only [stepClient, client] at hs'
  cases hst : (poolApp U).step ((r.st m).view u) (r.st m).data.ad f ((r.st m).thr u).rv .go with
  | none => simp [hst] at hs'
  | some x =>
    obtain ⟨ad', a⟩ := x
    simp only [hst] at hs'
    refine ⟨m, ad', a, o.le, hst, ⟨hs, o.stk⟩, ?_, ?_, ?_, ?_⟩
    · rintro g rfl
      simp only [liftAct, Option.some.injEq] at hs'
      rw [← hs']
      exact ⟨by simp [St.stk, St.setStk], by simpa [St.setStk] using o.exc⟩
    · rintro x g rfl
      simp only [liftAct, Option.some.injEq] at hs'
      rw [← hs']
      exact ⟨by simp [St.stk, St.setStk], by simpa [St.setStk] using o.exc⟩
    · rintro x rfl
      simp only [liftAct, Option.some.injEq] at hs'
      rw [← hs']
      exact ⟨by simp [St.stk], by simpa using o.exc⟩
    · rintro rfl
      simp only [liftAct, Option.some.injEq] at hs'
      rw [← hs'] at ht
      cases ht

/-- clear_all: the jobs are discarded. -/
theorem pool_clear (hr : PR U u0 f0 (r.st 0)) (D : Destroys r u i K L) {k : SK} (hst : (r.st j).stk u = .client (.app (.caIn i k)) :: L)
    (hx : ((r.st j).thr u).exc = none) : ∃ m, j < m ∧ (r.st m).stk u = .client (.app (.caFin i k)) :: L ∧ ((r.st m).thr u).exc = none := by
  have loop : ∀ (cs : List (Call α)) o j, (r.st j).stk u = .client (.app (.caLoop i o cs k)) :: L → ((r.st j).thr u).exc = none →
      ∃ m, j < m ∧ (r.st m).stk u = .client (.app (.caFin i k)) :: L ∧ ((r.st m).thr u).exc = none := by
    intro cs
    induction cs with
    | nil =>
      intro o j h1 h2
      obtain ⟨m, ad', a, h3, h4, -, -, h5, -⟩ := pool_step hr D.fair.just h1 h2 (fun _ _ _ => rfl) (fun _ _ _ ch hc => by cases ch <;> first | rfl | exact absurd rfl hc)
      obtain ⟨-, rfl⟩ := Prod.mk.inj (Option.some.inj h4)
      obtain ⟨h6, h7⟩ := h5 _ _ rfl
      obtain ⟨m', h8, h9⟩ := pool_unlock hr D.fair.just h6 h7
      exact ⟨m', by omega, h9⟩
    | cons c cs ih =>
      intro o j h1 h2
      obtain ⟨m, ad', a, h3, h4, -, -, h5, -⟩ := pool_step hr D.fair.just h1 h2 (fun _ _ _ => rfl) (fun _ _ _ ch hc => by cases ch <;> first | rfl | exact absurd rfl hc)
      obtain ⟨-, rfl⟩ := Prod.mk.inj (Option.some.inj h4)
      obtain ⟨h6, h7⟩ := h5 _ _ rfl
      obtain ⟨m', h8, h9, h10, -⟩ := D.drop c cs k (m + 1) h6 h7
      obtain ⟨m'', h11, h12⟩ := ih _ m' h9 h10
      exact ⟨m'', by omega, h12⟩
  obtain ⟨m, ad', a, h3, h4, -, h5, -⟩ := pool_step hr D.fair.just hst hx (fun _ _ _ => rfl) (fun _ _ _ ch hc => by cases ch <;> first | rfl | exact absurd rfl hc)
  obtain ⟨-, rfl⟩ := Prod.mk.inj (Option.some.inj h4)
  obtain ⟨h6, h7⟩ := h5 _ rfl
  obtain ⟨m', h8, h9⟩ := loop _ _ _ h6 h7
  exact ⟨m', by omega, h9⟩

/-- **C73.** Thread `u` destroys a pool (`~impl`, from `~thread_pool` or a move assignment).  Then this returns, after the thread of each worker has ended. -/
theorem C73_dtor (hr : PR U u0 f0 (r.st 0)) (D : Destroys r u i K L) (hst : (r.st j).stk u = .client (.lkIn (gd i)) :: .client (.app (.caIn i (.dtor K))) :: L)
    (hx : ((r.st j).thr u).exc = none) : ∃ p m, j < p ∧ p < m ∧ (r.st p).stk u = .client (.app (.diIn i K)) :: L ∧
      (∀ w ∈ ((r.st p).data.ad.imp i).wk, ∃ q, p < q ∧ q < m ∧ ((r.st q).thr w.n).status = .zombie) ∧ (r.st m).stk u = L ∧ ((r.st m).thr u).exc = none := by
  have hj := D.fair.just
  obtain ⟨m1, p1, e1, x1⟩ := pool_lock hr D hst hx
  obtain ⟨m2, p2, e2, x2⟩ := pool_clear hr D e1 x1
  obtain ⟨m3, ad3, a3, p3, h3, -, -, h3', -⟩ := pool_step hr hj e2 x2 (fun _ _ _ => rfl) (fun _ _ _ ch hc => by cases ch <;> first | rfl | exact absurd rfl hc)
  obtain ⟨-, rfl⟩ := Prod.mk.inj (Option.some.inj h3)
  obtain ⟨e3, x3⟩ := h3' _ _ rfl
  obtain ⟨m4, p4, e4, x4⟩ := pool_lock hr D e3 x3
  -- the workers are taken out
  obtain ⟨m5, ad5, a5, p5, h5, ⟨-, k5⟩, -, h5', -⟩ := pool_step hr hj e4 x4 (fun _ _ _ => rfl) (fun _ _ _ ch hc => by cases ch <;> first | rfl | exact absurd rfl hc)
  obtain ⟨-, rfl⟩ := Prod.mk.inj (Option.some.inj h5)
  obtain ⟨e5, x5⟩ := h5' _ _ rfl
  obtain ⟨m6, p6, e6, x6⟩ := pool_unlock hr hj e5 x5
  obtain ⟨m7, p7, e7, x7, z7⟩ := C73_workers hr D _ m6 e6 x6
  obtain ⟨m8, ad8, a8, p8, h8, -, -, h8', -⟩ := pool_step hr hj e7 x7 (fun _ _ _ => rfl) (fun _ _ _ ch hc => by cases ch <;> first | rfl | exact absurd rfl hc)
  obtain ⟨-, rfl⟩ := Prod.mk.inj (Option.some.inj h8)
  obtain ⟨e8, x8⟩ := h8' _ _ rfl
  obtain ⟨m9, p9, e9, x9⟩ := pool_lock hr D e8 x8
  obtain ⟨m10, p10, e10, x10⟩ := pool_clear hr D e9 x9
  obtain ⟨m11, ad11, a11, p11, h11, -, h11', -⟩ := pool_step hr hj e10 x10 (fun _ _ _ => rfl) (fun _ _ _ ch hc => by cases ch <;> first | rfl | exact absurd rfl hc)
  obtain ⟨-, rfl⟩ := Prod.mk.inj (Option.some.inj h11)
  obtain ⟨e11, x11⟩ := h11' _ rfl
  obtain ⟨m12, ad12, a12, p12, h12, -, -, -, h12', ht⟩ := pool_step hr hj e11 x11 (fun _ _ _ => rfl) (fun _ _ _ ch hc => by cases ch <;> first | rfl | exact absurd rfl hc)
  have hret : ∃ x, a12 = .ret x := by
    have h12 : endDtor (r.st m12).data.ad K = (ad12, a12) := Option.some.inj h12
    cases K with
    | del h => exact ⟨_, (Prod.mk.inj h12).2.symm⟩
    | asg h h' =>
      simp only [endDtor] at h12
      split at h12
      · exact ⟨_, (Prod.mk.inj h12).2.symm⟩
      · exact absurd (Prod.mk.inj h12).2.symm ht
  obtain ⟨x, rfl⟩ := hret
  obtain ⟨e12, x12⟩ := h12' _ rfl
  refine ⟨m5, m12 + 1, by omega, by omega, k5, fun w hw => ?_, e12, x12⟩
  obtain ⟨q, h1, h2, h3⟩ := z7 w hw
  exact ⟨q, by omega, by omega, h3⟩

end

/-! ## A concrete case -/

/-- Main makes a pool with one worker, schedules a job and destroys the pool. -/
def demoEnd : List (PAct Nat Nat) :=
  [.core .registerThis 2, .pool (.new 0 [(0, 1)]) 3, .pool (.schedule 0 ⟨0, 5⟩ true 20) 4, .pool (.del 0) 0]

/-- The worker begins to look for a job when the destructor has begun, and goes on when it is joined. -/
def endPool : List (Lbl (PCh Unit)) := pgo 0 32 ++ pgo 1 6 ++ pgo 0 43 ++ pgo 1 11 ++ pgo 0 10

/-- What is observed of step `i`. -/
def endOk (i : Nat) (s : DPSt) : Bool :=
  (s.thr 0).exc.isNone && (s.thr 1).exc.isNone && (decide (i < 36) || decide (92 < i) || decide ((s.thr 1).status ≠ .free)) &&
  (match s.stk 0 with | .client (.app (.diJoin _ (_ :: _) _)) :: _ => decide (i = 76) | _ => true) &&
  (match (s.stk 1).getLast? with | some (.client (.app .wkLoop)) => s.log.all (fun | .unregistered _ _ _ => false | _ => true) | _ => true)

set_option synthInstance.maxSize 1024 in
set_option synthInstance.maxHeartbeats 400000 in
theorem endPool_tab : (List.range 103).all (fun i => ((pexec demoEnd (endPool.take i)).map (endOk i)).getD false) = true := by decide +kernel

set_option synthInstance.maxSize 1024 in
set_option synthInstance.maxHeartbeats 400000 in
theorem endPool_end : (pexec demoEnd endPool).map (fun s => ((s.ub, s.term, decide ((s.thr 0).status = .running), decide ((s.thr 1).status = .running)),
    (s.stk 0).isEmpty, (s.stk 1).isEmpty, (s.data.sd.lk (.user (gd 0))).isNone, s.gOwner.isNone)) = some ((false, false, false, false), true, true, true, true) := by decide +kernel

set_option synthInstance.maxSize 1024 in
set_option synthInstance.maxHeartbeats 400000 in
theorem endPool_at : (pexec demoEnd (endPool.take 32)).map (fun s => s.stk 0) =
      some [.client (.lkIn (gd 0)), .client (.app (.caIn 0 (.dtor (.del 0)))), .client (.app (.usr 0))] ∧
    (pexec demoEnd (endPool.take 36)).map (fun s => (s.stk 1, s.loc 1)) = some ([.client (.app .wkLoop)], some 1) ∧
    (pexec demoEnd (endPool.take 76)).map (fun s => (s.stk 0, decide (Ev.registered 1 2 1 ∈ s.log))) =
      some ([.client (.app (.diJoin 0 [⟨0, 1, 2⟩] (.del 0))), .client (.app (.usr 0))], true) ∧
    (pexec demoEnd (endPool.take 92)).map (fun s => s.stk 0) = some [.core (.joinIn 1), .client (.app (.diJoin 0 [] (.del 0))), .client (.app (.usr 0))] ∧
    (pexec demoEnd (endPool.take 93)).map (fun s => s.stk 0) = some [.client (.app (.diJoin 0 [] (.del 0))), .client (.app (.usr 0))] := by decide +kernel

/-- The hypotheses of `C73_workers` and `C73_dtor` are met: the pool has a worker, and a job to discard. -/
example : ∃ r : Run (client (poolApp (tableP demoEnd))), PR (tableP demoEnd) () 1 (r.st 0) ∧ Destroys r 0 0 (.del 0) [.client (.app (.usr 0))] ∧
    (r.st 32).stk 0 = .client (.lkIn (gd 0)) :: .client (.app (.caIn 0 (.dtor (.del 0)))) :: [.client (.app (.usr 0))] ∧ ((r.st 32).thr 0).exc = none ∧
    (r.st 76).stk 0 = .client (.app (.diJoin 0 [⟨0, 1, 2⟩] (.del 0))) :: [.client (.app (.usr 0))] := by
  obtain ⟨s', hs', ho⟩ := Option.map_eq_some_iff.1 endPool_end
  simp only [Prod.mk.injEq, decide_eq_false_iff_not, List.isEmpty_iff, Option.isNone_iff_eq_none] at ho
  obtain ⟨⟨hub, htm, h0', h1'⟩, e0, e1, hlk, hg⟩ := ho
  obtain ⟨r, h0, hr, hl⟩ := Run.ofList hs' hub htm
  have hl : ∀ i, 102 ≤ i → r.st i = s' := hl
  have hR : PR (tableP demoEnd) () 1 (r.st 0) := by rw [h0]; exact ⟨[], rfl⟩
  have hobs : ∀ {β : Type} (g : DPSt → β) (i : Nat) (b : β), (pexec demoEnd (endPool.take i)).map g = some b → g (r.st i) = b := by
    intro β g i b h
    simp only [pexec, hr i, Option.map_some] at h
    exact Option.some.inj h
  have htab : ∀ i, endOk (min i 102) (r.st i) = true := by
    intro i
    have : ∀ i, i < 103 → endOk i (r.st i) = true := by
      intro i hi
      have h1 := List.all_eq_true.1 endPool_tab i (List.mem_range.2 hi)
      simpa only [pexec, hr i, Option.map_some, Option.getD_some] using h1
    rcases Nat.lt_or_ge i 102 with h | h
    · rw [Nat.min_eq_left (by omega)]; exact this i (by omega)
    · rw [Nat.min_eq_right h, hl i h, ← hl 102 (Nat.le_refl _)]; exact this 102 (by omega)
  simp only [endOk, Bool.and_eq_true, Option.isNone_iff_eq_none] at htab
  obtain ⟨a1, a2, a3, a4, a5⟩ := endPool_at
  have a1 := hobs _ _ _ a1
  have a2 := hobs _ _ _ a2
  have a3 := hobs _ _ _ a3
  have a4 := hobs _ _ _ a4
  have a5 := hobs _ _ _ a5
  simp only [Prod.mk.injEq, decide_eq_true_eq] at a2 a3
  have hret0 := Run.returns_end hR (t := 0) (N := 102) (fun i hi => by rw [hl i hi]; exact e0) fun i => (htab i).1.1.1.1
  have hret1 := Run.returns_end hR (t := 1) (N := 102) (fun i hi => by rw [hl i hi]; exact e1) fun i => (htab i).1.1.1.2
  have hfair : ∀ t, (s'.thr t).status ≠ .running → r.Strong t := by
    intro t ht i hi
    exfalso
    obtain ⟨q, h1, ch, h2⟩ := hi (max i 102) (by omega)
    rw [hl q (by omega)] at h2
    simp [step, hub, htm, ht] at h2
  refine ⟨r, hR, ⟨hfair 0 h0', fun n => ⟨max n 102, by omega, by rw [hl _ (by omega)]; exact hlk⟩, fun _ _ _ => hret0 _ _, fun _ _ _ _ _ => hret0 _ _, ?_⟩, a1,
    (htab 32).1.1.1.1, a3.1⟩
  intro j w ws hj
  have h76 : j = 76 := by
    have := (htab j).1.2
    rw [hj] at this
    have := of_decide_eq_true this
    omega
  subst h76
  rw [a3.1] at hj
  simp only [List.cons.injEq, Frame.client.injEq, SFrame.app.injEq, PFrame.diJoin.injEq, true_and, and_true] at hj
  obtain ⟨rfl, rfl⟩ := hj
  refine ⟨1, 36, ⟨hfair 1 h1', wk_loopEnd, ⟨a2.1, (htab 36).1.1.1.2, a2.2⟩, ?_, fun _ _ => hret1 _ _, fun _ _ => hret1 _ _, fun _ _ _ => hret1 _ _,
    fun n => ⟨max n 102, by omega, by rw [hl _ (by omega)]; exact hg⟩⟩, a3.2, by decide, ?_⟩
  · intro i j h1 _ h2 id n h3
    obtain ⟨p, hp⟩ := h2 j h1 (Nat.le_refl _)
    have := (htab j).2
    rw [← hp] at this
    simp only [List.getLast?_append, List.getLast?_singleton, Option.some_or, List.all_eq_true] at this
    exact absurd (this _ h3) (by simp)
  · intro q hq hf
    refine ⟨92, by omega, ?_, a4, a5⟩
    have := (htab q).1.1.2
    simp only [Bool.or_eq_true, decide_eq_true_eq] at this
    rcases this with (h | h) | h
    · omega
    · omega
    · exact absurd hf h

end Itc
