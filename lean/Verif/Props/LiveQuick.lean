import Verif.Props.LiveSet

/-!
# C84, C85: the calls of promises, futures and mutexes that do not wait return
-/

namespace Itc
open Core Sync

section
variable {α φ δ χ : Type} {A : App α φ δ χ} {ad : δ} {i0 : φ} {r : Run (client A)} {v j m : Nat} {L : List (Fr α φ)}

/-- The constructor of a promise, its move, get_future, is_ready, has_error, package_future_task and mutex::try_lock. -/
def Quick : SApi α → Prop
  | .promNew _ _ => True
  | .promMove _ _ => True
  | .getFuture _ => True
  | .isReady _ => True
  | .hasError _ => True
  | .package _ _ => True
  | .mTry _ => True
  | _ => False

/-- The exceptions that a call may throw: get_future twice, or an object without a state. -/
def MayThrow : SApi α → Exn → Prop
  | .getFuture _, e => e = .noState ∨ e = .futureRetrieved
  | .isReady p, e => p = none ∧ e = .noState
  | .hasError p, e => p = none ∧ e = .noState
  | _, _ => False

/-- A step that is always enabled, under weak fairness. -/
theorem AtN.clJ (hr : SR A ad i0 (r.st 0)) (hf : r.Just v) {x : SFrame α φ} (hx : ∀ g, x ≠ .app g) (ha : AtN r v L j m [.client x])
    (hs : ∀ m, ∃ y, sstep A.run A.destroy ((r.st m).view v) (r.st m).data.sd x ((r.st m).thr v).rv = some y) :
    ∃ m' sd a, m ≤ m' ∧ AtN r v L j m' [.client x] ∧ SS A.run A.destroy ((r.st m').view v) (r.st m').data.sd ((r.st m').thr v).rv x sd a ∧
      (r.st (m' + 1)).data.sd = sd ∧ ActTo (r.st m') (r.st (m' + 1)) v L a := by
  obtain ⟨m', h1, h2, ⟨ch, h3⟩, h4⟩ := r.next hr hf (i := m) (by rw [ha.stk]; simp) fun n hn hsame => by
    obtain ⟨⟨sd, y⟩, hy⟩ := hs n
    refine ⟨.go, ?_⟩
    rw [step_th (r.reach hr n) (r.good n).1 (r.good n).2 (hsame.stk.trans ha.stk) (hsame.exc.trans ha.exc)]
    simp only [stepClient]
    have : (client A).step ((r.st n).view v) (r.st n).data x ((r.st n).thr v).rv .go = some ({ (r.st n).data with sd := sd }, y) := by
      cases x <;> first | exact absurd rfl (hx _) | (simp only [client, hy])
    rw [this]
    cases y <;> rfl
  have hok := r.ok m'
  rw [h3] at hok
  obtain ⟨a, h5, h6⟩ := own_ss (h2.stk.trans ha.stk) hok (h2.exc.trans ha.exc) hx
  refine ⟨m', _, a, h1, ⟨Nat.le_trans ha.le h1, h2.stk.trans ha.stk, h2.exc.trans ha.exc, fun q h7 h8 => ?_⟩, h5, rfl, h6⟩
  rcases Nat.lt_or_ge q m with hq | hq
  · exact ha.suf q h7 hq
  · exact ⟨[], _, (h4 q hq (by omega)).stk.trans ha.stk⟩

/-- **C84.** The calls return, if the scheduler is weakly fair to the thread, whatever other threads do; with an exception only if get_future is called for a second
    time, or there is no state. -/
theorem C84_quick (hr : SR A ad i0 (r.st 0)) (hf : r.Just v) {x : SApi α} (hx : Quick x)
    (hst : (r.st j).stk v = .client x.entry :: L) (hexc : ((r.st j).thr v).exc = none) :
    ∃ m, r.Ends v L j m ∧ (((r.st m).thr v).exc = none ∨ ∃ e, ((r.st m).thr v).exc = some e ∧ MayThrow x e) := by
  have h0 : AtN r v L j j [.client x.entry] := ⟨Nat.le_refl _, hst, hexc, fun q h1 h2 => by omega⟩
  have hret : ∀ {m y w}, AtN r v L j m [.client y] → ActTo (r.st m) (r.st (m + 1)) v L (.ret w) →
      ∃ m, r.Ends v L j m ∧ (((r.st m).thr v).exc = none ∨ ∃ e, ((r.st m).thr v).exc = some e ∧ MayThrow x e) := fun h1 h2 => by
    have h3 : AtN r v L j _ [] := h1.succ (G' := []) h2.1 h2.2.1
    exact ⟨_, h3.ends (by have := h1.le; omega), .inl h3.exc⟩
  have hthr : ∀ {m y e}, MayThrow x e → AtN r v L j m [.client y] → ActTo (r.st m) (r.st (m + 1)) v L (.throw e) →
      ∃ m, r.Ends v L j m ∧ (((r.st m).thr v).exc = none ∨ ∃ e, ((r.st m).thr v).exc = some e ∧ MayThrow x e) := fun {m} _ e h0 h1 h2 => by
    refine ⟨m + 1, ⟨by have := h1.le; omega, h2.1, fun q h6 h7 => ?_⟩, .inr ⟨e, h2.2, h0⟩⟩
    rcases Nat.lt_or_ge q m with hq | hq
    · exact h1.suf q h6 hq
    · obtain rfl : q = m := by omega
      exact ⟨[], _, h1.stk⟩
  have hbad : ∀ {m}, ActTo (r.st m) (r.st (m + 1)) v L (.terminate) → False := fun {m} h => by
    have := (r.good (m + 1)).2
    rw [h.2.1] at this
    cases this
  cases x with
  | promNew q b =>
    obtain ⟨m', sd, a, h1, h2, h3, -, h5⟩ := AtN.clJ hr hf (by simp [SApi.entry]) h0 fun m => by
      simp only [SApi.entry, sstep]
      repeat' split
      all_goals exact ⟨_, rfl⟩
    cases h3 with
    | poNew => exact hret h2 h5
    | poNewBad => exact (hbad h5).elim
  | promMove q q' =>
    obtain ⟨m', sd, a, h1, h2, h3, -, h5⟩ := AtN.clJ hr hf (by simp [SApi.entry]) h0 fun m => by
      simp only [SApi.entry, sstep]
      repeat' split
      all_goals exact ⟨_, rfl⟩
    cases h3 <;> exact hret h2 h5
  | getFuture q =>
    obtain ⟨m', sd, a, h1, h2, h3, -, h5⟩ := AtN.clJ hr hf (by simp [SApi.entry]) h0 fun m => by
      simp only [SApi.entry, sstep]
      repeat' split
      all_goals exact ⟨_, rfl⟩
    cases h3 with
    | poFutN => exact hthr (.inl rfl) h2 h5
    | poFutBad => exact hthr (.inr rfl) h2 h5
    | poFut => exact hret h2 h5
  | isReady p =>
    obtain ⟨m', sd, a, h1, h2, h3, -, h5⟩ := AtN.clJ hr hf (by simp [SApi.entry]) h0 fun m => by
      simp only [SApi.entry, sstep]
      repeat' split
      all_goals exact ⟨_, rfl⟩
    cases h3 with
    | frN => exact hthr ⟨rfl, rfl⟩ h2 h5
    | frS => exact hret h2 h5
    | frBad => exact (hbad h5).elim
  | hasError p =>
    obtain ⟨m', sd, a, h1, h2, h3, -, h5⟩ := AtN.clJ hr hf (by simp [SApi.entry]) h0 fun m => by
      simp only [SApi.entry, sstep]
      repeat' split
      all_goals exact ⟨_, rfl⟩
    cases h3 with
    | feN => exact hthr ⟨rfl, rfl⟩ h2 h5
    | feS => exact hret h2 h5
    | feBad => exact (hbad h5).elim
  | package q b =>
    obtain ⟨m', sd, a, h1, h2, h3, -, h5⟩ := AtN.clJ hr hf (by simp [SApi.entry]) h0 fun m => ⟨_, rfl⟩
    cases h3
    exact hret h2 h5
  | mTry n =>
    obtain ⟨m', sd, a, h1, h2, h3, -, h5⟩ := AtN.clJ hr hf (by simp [SApi.entry]) h0 fun m => by simp only [SApi.entry, sstep]; split <;> exact ⟨_, rfl⟩
    cases h3 with
    | mtBusy => exact hret h2 h5
    | mtGot =>
      obtain ⟨m2, sd, a, g1, g2, g3, -, g5⟩ := AtN.clJ hr hf (by simp) (h2.succ (G' := [_]) h5.1 h5.2.1) fun m => ⟨_, rfl⟩
      cases g3
      exact hret g2 g5
  | _ => exact hx.elim

/-- **C85.** mutex::lock, if the scheduler is weakly fair to the thread, whatever other threads do: it finds the mutex free and returns without an exception; or it
    finds it locked and then finds the id of the calling thread in owner_, and throws resource_deadlock_would_occur; or it finds it locked and then another
    id, and begins to wait. -/
theorem C85_lock (hr : SR A ad i0 (r.st 0)) (hf : r.Just v) {n : Nat}
    (hst : (r.st j).stk v = .client (SApi.mLock n).entry :: L) (hexc : ((r.st j).thr v).exc = none) :
    ∃ m0 m1 m2, j ≤ m0 ∧ m0 < m1 ∧ m1 < m2 ∧
      (((r.st m1).data.sd.flag n = false ∧ r.Ends v L j (m2 + 1) ∧ ((r.st (m2 + 1)).thr v).exc = none ∧
          (r.st (m2 + 1)).data.sd.owner n = (r.st m0).getId v) ∨
       ((r.st m1).data.sd.flag n = true ∧ (r.st m2).data.sd.owner n = (r.st m0).getId v ∧ r.Ends v L j (m2 + 1) ∧
          ((r.st (m2 + 1)).thr v).exc = some .deadlock) ∨
       ((r.st m1).data.sd.flag n = true ∧ (r.st m2).data.sd.owner n ≠ (r.st m0).getId v ∧
          (r.st (m2 + 1)).stk v = .client (.swIn (.mtx n ((r.st m0).getId v))) :: L)) := by
  have h0 : AtN r v L j j [.client (.mlIn n)] := ⟨Nat.le_refl _, hst, hexc, fun q h1 h2 => by omega⟩
  obtain ⟨m0, sd, a, h1, h2, h3, h4, h5⟩ := AtN.clJ hr hf (by simp) h0 fun m => ⟨_, rfl⟩
  cases h3
  obtain ⟨m1, sd, a, g1, g2, g3, g4, g5⟩ := AtN.clJ hr hf (by simp) (h2.succ (G' := [_]) h5.1 h5.2.1) fun m => by
    simp only [sstep]
    split <;> exact ⟨_, rfl⟩
  cases g3 with
  | mlGot _ _ hfl =>
    obtain ⟨m2, sd, a, k1, k2, k3, k4, k5⟩ := AtN.clJ hr hf (by simp) (g2.succ (G' := [_]) g5.1 g5.2.1) fun m => ⟨_, rfl⟩
    cases k3
    have h6 : AtN r v L j _ [] := k2.succ (G' := []) k5.1 k5.2.1
    exact ⟨m0, m1, m2, h1, by omega, by omega, .inl ⟨hfl, h6.ends (by omega), h6.exc, by rw [k4]; simp [Sync.set, St.view]⟩⟩
  | mlBusy _ _ hfl =>
    obtain ⟨m2, sd, a, k1, k2, k3, k4, k5⟩ := AtN.clJ hr hf (by simp) (g2.succ (G' := [_]) g5.1 g5.2.1) fun m => by
      simp only [sstep]
      split <;> exact ⟨_, rfl⟩
    cases k3 with
    | mlDead _ _ ho =>
      refine ⟨m0, m1, m2, h1, by omega, by omega, .inr (.inl ⟨hfl, ho, ⟨by omega, k5.1, fun q h6 h7 => ?_⟩, k5.2⟩)⟩
      rcases Nat.lt_or_ge q m2 with hq | hq
      · exact k2.suf q h6 hq
      · obtain rfl : q = m2 := by omega
        exact ⟨[], _, k2.stk⟩
    | mlWait _ _ ho => exact ⟨m0, m1, m2, h1, by omega, by omega, .inr (.inr ⟨hfl, ho, k5.1⟩)⟩

end

/-! ## Examples -/

/-- main locks a mutex with try_lock, makes a promise, takes its future and locks another mutex. -/
def quickProg : List (SAct Nat Nat) :=
  [.core .registerThis 2, .sync (.mTry 0) 3, .sync (.promNew 0 false) 4, .sync (.getFuture 0) 5, .sync (.mLock 1) 8]

/-- Hypotheses of `C84_quick`, for three calls, and of `C85_lock`. -/
example : ∃ r : Run (client (tableApp quickProg)), SR (tableApp quickProg) () 1 (r.st 0) ∧ r.Just 0 ∧
    ((r.st 5).stk 0 = [.client (SApi.mTry 0).entry, .client (.app 3)] ∧ ((r.st 5).thr 0).exc = none) ∧
    ((r.st 8).stk 0 = [.client (SApi.promNew 0 false).entry, .client (.app 4)] ∧ ((r.st 8).thr 0).exc = none) ∧
    ((r.st 10).stk 0 = [.client (SApi.getFuture 0).entry, .client (.app 5)] ∧ ((r.st 10).thr 0).exc = none) ∧
    (r.st 12).stk 0 = [.client (SApi.mLock 1).entry, .client (.app 8)] ∧ ((r.st 12).thr 0).exc = none := by
  obtain ⟨s', hs', ho⟩ := Option.map_eq_some_iff.1 (show (sexec quickProg (Core.go 0 17)).map (fun s => (s.ub, s.term)) = some (false, false) by decide +kernel)
  simp only [Prod.mk.injEq] at ho
  obtain ⟨r, hr0, hr, hl⟩ := Run.ofList hs' ho.1 ho.2
  have h3 : ∀ {β : Type} (g : DSt → β) (i : Nat) (b : β), (sexec quickProg ((Core.go 0 17).take i)).map g = some b → g (r.st i) = b := by
    intro β g i b h
    simp only [sexec, hr i, Option.map_some] at h
    exact Option.some.inj h
  have hlen : (Core.go 0 17).length = 17 := by decide
  have hf : r.Just 0 := fun i hi => by
    obtain ⟨ch, h7⟩ := hi (max i 17) (by omega)
    have h8 := of_decide_eq_false (h3 (fun s => decide ((s.thr 0).status = .running)) (max i 17) false
      (by rw [List.take_of_length_le (by rw [hlen]; omega)]; decide +kernel))
    unfold step at h7
    split at h7
    · cases h7
    · dsimp only at h7
      rw [if_pos h8] at h7
      cases h7
  exact ⟨r, by rw [hr0]; exact ⟨[], rfl⟩, hf, ⟨h3 (fun s => s.stk 0) 5 _ (by decide +kernel), h3 (fun s => (s.thr 0).exc) 5 _ (by decide +kernel)⟩,
    ⟨h3 (fun s => s.stk 0) 8 _ (by decide +kernel), h3 (fun s => (s.thr 0).exc) 8 _ (by decide +kernel)⟩,
    ⟨h3 (fun s => s.stk 0) 10 _ (by decide +kernel), h3 (fun s => (s.thr 0).exc) 10 _ (by decide +kernel)⟩,
    h3 (fun s => s.stk 0) 12 _ (by decide +kernel), h3 (fun s => (s.thr 0).exc) 12 _ (by decide +kernel)⟩

end Itc
