import Verif.Props.LivePoolWait
import Verif.Props.LiveNotify

/-!
# C77: schedule, change_priority, stop, stop_all and get_jobs_count of a pool, and change_priority and stop of a job_future, return

For arbitrary user code and an infinite execution; vocabulary of `Verif.Props.Live` and `Verif.Pool.Spec`.
-/
namespace Itc
open Core Sync Pool

section
variable {α φ δ χ : Type} {U : PApp α φ δ χ} {u0 : δ} {f0 : φ} {r : Run (client (poolApp U))} {u i j m : Nat}
  {L : List (Fr (PTask α) (PFrame α φ))}

/-- Thread `u` calls a function of pool `i` above `L`: again and again nobody holds the mutex of the pool; the destructors of the jobs' tasks, which stop and stop_all
    execute with the mutex held, return. -/
structure CallsPool (r : Run (client (poolApp U))) (u i : Nat) (L : List (Fr (PTask α) (PFrame α φ))) : Prop where
  lock : ∀ n, ∃ m, n ≤ m ∧ (r.st m).data.sd.lk (.user (gd i)) = none
  dropOne : ∀ c, r.Returns u (SApi.dropTask c.p (.inner c.u c.a)).entry (.client (.app (.clUnl i (some c) .stop)) :: L)
  dropAll : ∀ c l, r.Returns u (SApi.dropTask c.p (.inner c.u c.a)).entry (.client (.app (.caLoop i (some c) l .user)) :: L)

/-- The call returns, without an exception. -/
def CallEnds (r : Run (client (poolApp U))) (u j : Nat) (L : List (Fr (PTask α) (PFrame α φ))) : Prop := ∃ m, r.Ends u L j m ∧ ((r.st m).thr u).exc = none

theorem callEnds (h : r.To u L j L m) (hlt : j < m) : CallEnds r u j L := by
  refine ⟨m, ⟨hlt, h.stk, fun m' h7 h8 => ?_⟩, h.exc⟩
  obtain ⟨x, p, h9⟩ := h.over m' h7 h8
  rcases List.eq_nil_or_concat p with rfl | ⟨p', y, rfl⟩
  · exact ⟨[], x, h9⟩
  · exact ⟨x :: p', y, by rw [h9]; simp⟩

/-- A call of the synchronisation layer that returns. -/
theorem to_call {x : Fr (PTask α) (PFrame α φ)} {g : SFrame (PTask α) (PFrame α φ)} (hd : r.Returns u g (x :: L)) (h : r.To u L j (.client g :: x :: L) m) :
    ∃ q, m < q ∧ r.To u L j (x :: L) q := by
  obtain ⟨q, h1, h2, h3, h4⟩ := hd m h.stk h.exc
  exact ⟨q, h1, h.over' (p := []) (by omega) (over_of_suf (p := []) h4) h2 h3⟩

variable (hr : PR U u0 f0 (r.st 0)) (hu : r.Strong u)
include hr hu

/-- A function returns. -/
theorem to_ret {f : PFrame α φ} {x : Val} (h : r.To u L j (.client (.app f) :: L) m) (hf : ∀ v d rv, (poolApp U).step v d f rv .go = some (d, .ret x))
    (hno : ∀ v d rv ch, ch ≠ .go → (poolApp U).step v d f rv ch = none) : CallEnds r u j L := by
  obtain ⟨q, ad', a, h3, h4, -, -, h5, -⟩ := to_step hr hu.just h (fun _ _ _ => by rw [hf]; rfl) hno
  rw [hf] at h4
  obtain ⟨-, rfl⟩ := Prod.mk.inj (Option.some.inj h4)
  exact callEnds (h5 _ rfl) (by have := h.le; omega)

/-- A public function of the pool locks guard_. -/
theorem to_enter {h : Nat} {f : PFrame α φ} {k : Nat → PFrame α φ}
    (W : ∀ i, (∃ m, (r.st m).data.ad.deref h = some i) → ∀ n, ∃ m, n ≤ m ∧ (r.st m).data.sd.lk (.user (gd i)) = none)
    (hf : ∀ v d rv, (poolApp U).step v d f rv .go = some (enter d h k)) (hno : ∀ v d rv ch, ch ≠ .go → (poolApp U).step v d f rv ch = none)
    (h0 : r.To u L j (.client (.app f) :: L) m) : ∃ i q, m < q ∧ (∃ m, (r.st m).data.ad.deref h = some i) ∧ r.To u L j (.client (.app (k i)) :: L) q := by
  obtain ⟨q, ad', a, h3, h4, -, h5, -, h6, -⟩ := to_step hr hu.just h0 (fun _ _ _ => by rw [hf]; rfl) hno
  rw [hf] at h4
  have h4 := Option.some.inj h4
  unfold enter at h4
  split at h4
  · rename_i i hd
    obtain ⟨-, rfl⟩ := Prod.mk.inj h4
    obtain ⟨q2, h7, h8⟩ := to_lock hr hu (W i ⟨_, hd⟩) (h5 _ _ rfl)
    exact ⟨i, q2, by omega, ⟨_, hd⟩, h8⟩
  · exact absurd (Prod.mk.inj h4).2.symm h6

/-- The end of stop. -/
theorem stop_unl {o : Option (Call α)} (h : r.To u L j (.client (.app (.clUnl i o .stop)) :: L) m) : CallEnds r u j L := by
  obtain ⟨q, ad', a, h3, h4, -, h5, -⟩ := to_step hr hu.just h (fun _ _ _ => rfl) (fun _ _ _ ch hc => by cases ch <;> first | rfl | exact absurd rfl hc)
  obtain ⟨-, rfl⟩ := Prod.mk.inj (Option.some.inj h4)
  obtain ⟨q2, h6, h7⟩ := to_unlock hr hu.just (h5 _ _ rfl)
  exact to_ret hr hu h7 (fun _ _ _ => rfl) (fun _ _ _ ch hc => by cases ch <;> first | rfl | exact absurd rfl hc)

/-- stop, from a moment at which the thread is about to enter it. -/
theorem stop_ends {h id : Nat} (W : ∀ i, (∃ m, (r.st m).data.ad.deref h = some i) → CallsPool r u i L) (h0 : r.To u L j (.client (.app (.stIn h id)) :: L) m) :
    CallEnds r u j L := by
  obtain ⟨i, q, h1, hd, h2⟩ := to_enter hr hu (fun i h => (W i h).lock) (k := (PFrame.clIn · id .stop)) (fun _ _ _ => rfl) (fun _ _ _ ch hc => by cases ch <;> first | rfl | exact absurd rfl hc) h0
  have W := W i hd
  obtain ⟨q3, ad3, a3, h9, h10, -, h12, -, -, h13, -⟩ := to_step hr hu.just h2 (fun _ _ _ => rfl) (fun _ _ _ ch hc => by cases ch <;> first | rfl | exact absurd rfl hc)
  have h10 : pstep ((r.st q3).view u) (r.st q3).data.ad ((r.st q3).thr u).rv (.clIn i id .stop) = (ad3, a3) := Option.some.inj h10
  simp only [pstep] at h10
  split at h10
  · obtain ⟨-, rfl⟩ := Prod.mk.inj h10
    exact stop_unl hr hu (h13 _ rfl)
  · split at h10
    · obtain ⟨-, rfl⟩ := Prod.mk.inj h10
      exact stop_unl hr hu (h13 _ rfl)
    · rename_i c _
      obtain ⟨-, rfl⟩ := Prod.mk.inj h10
      obtain ⟨q4, -, h14⟩ := to_call (W.dropOne c) (h12 _ _ rfl)
      exact stop_unl hr hu h14
  all_goals simp_all

/-- **C77, stop.** `stop(id)` of a pool returns. -/
theorem C77_stop {h id : Nat} (W : ∀ i, (∃ m, (r.st m).data.ad.deref h = some i) → CallsPool r u i L)
    (hst : (r.st j).stk u = .client (.app (PApi.stop h id).entry) :: L) (hx : ((r.st j).thr u).exc = none) : CallEnds r u j L :=
  stop_ends hr hu W ⟨Nat.le_refl _, hst, hx, fun q h1 h2 => by omega⟩

/-- **C77, stop of a job_future.** It returns, whether or not the pool is still there. -/
theorem C77_future {f : JF} (W : ∀ h i, f.owner = some h → (∃ m, (r.st m).data.ad.deref h = some i) → CallsPool r u i L)
    (hst : (r.st j).stk u = .client (.app (PApi.jfStop f).entry) :: L) (hx : ((r.st j).thr u).exc = none) : CallEnds r u j L := by
  have h0 : r.To u L j (.client (.app (.jsIn f)) :: L) j := ⟨Nat.le_refl _, hst, hx, fun q h1 h2 => by omega⟩
  obtain ⟨q, ad', a, h9, h10, -, -, h12, -, h13, -⟩ := to_step hr hu.just h0 (fun _ _ _ => rfl) (fun _ _ _ ch hc => by cases ch <;> first | rfl | exact absurd rfl hc)
  have h10 : pstep ((r.st q).view u) (r.st q).data.ad ((r.st q).thr u).rv (.jsIn f) = (ad', a) := Option.some.inj h10
  simp only [pstep] at h10
  split at h10
  · obtain ⟨-, rfl⟩ := Prod.mk.inj h10
    exact callEnds (h12 _ rfl) (by omega)
  · split at h10
    · split at h10
      · obtain ⟨-, rfl⟩ := Prod.mk.inj h10
        exact callEnds (h12 _ rfl) (by omega)
      · rename_i h ho
        obtain ⟨-, rfl⟩ := Prod.mk.inj h10
        exact stop_ends hr hu (W h · ho) (h13 _ rfl)
    · obtain ⟨-, rfl⟩ := Prod.mk.inj h10
      exact callEnds (h12 _ rfl) (by omega)

/-- **C77, stop_all.** `stop_all()` of a pool returns. -/
theorem C77_stop_all {h : Nat} (W : ∀ i, (∃ m, (r.st m).data.ad.deref h = some i) → CallsPool r u i L)
    (hst : (r.st j).stk u = .client (.app (PApi.stopAll h).entry) :: L) (hx : ((r.st j).thr u).exc = none) : CallEnds r u j L := by
  have h0 : r.To u L j (.client (.app (.saIn h)) :: L) j := ⟨Nat.le_refl _, hst, hx, fun q h1 h2 => by omega⟩
  obtain ⟨i, q, h1, hd, h2⟩ := to_enter hr hu (fun i h => (W i h).lock) (k := (PFrame.caIn · .user)) (fun _ _ _ => rfl) (fun _ _ _ ch hc => by cases ch <;> first | rfl | exact absurd rfl hc) h0
  have W := W i hd
  have loop : ∀ (cs : List (Call α)) o m, r.To u L j (.client (.app (.caLoop i o cs .user)) :: L) m → CallEnds r u j L := by
    intro cs
    induction cs with
    | nil =>
      intro o m h
      obtain ⟨q, ad', a, h3, h4, -, h5, -⟩ := to_step hr hu.just h (fun _ _ _ => rfl) (fun _ _ _ ch hc => by cases ch <;> first | rfl | exact absurd rfl hc)
      obtain ⟨-, rfl⟩ := Prod.mk.inj (Option.some.inj h4)
      obtain ⟨q2, h6, h7⟩ := to_unlock hr hu.just (h5 _ _ rfl)
      exact to_ret hr hu h7 (fun _ _ _ => rfl) (fun _ _ _ ch hc => by cases ch <;> first | rfl | exact absurd rfl hc)
    | cons c cs ih =>
      intro o m h
      obtain ⟨q, ad', a, h3, h4, -, h5, -⟩ := to_step hr hu.just h (fun _ _ _ => rfl) (fun _ _ _ ch hc => by cases ch <;> first | rfl | exact absurd rfl hc)
      obtain ⟨-, rfl⟩ := Prod.mk.inj (Option.some.inj h4)
      obtain ⟨q2, -, h6⟩ := to_call (W.dropAll c cs) (h5 _ _ rfl)
      exact ih _ _ h6
  obtain ⟨q3, ad3, a3, h9, h10, -, -, -, -, h13, -⟩ := to_step hr hu.just h2 (fun _ _ _ => rfl) (fun _ _ _ ch hc => by cases ch <;> first | rfl | exact absurd rfl hc)
  obtain ⟨-, rfl⟩ := Prod.mk.inj (Option.some.inj h10)
  exact loop _ _ _ (h13 _ rfl)

/-- **C77, get_jobs_count.** It returns. -/
theorem C77_count {h : Nat} (W : ∀ i, (∃ m, (r.st m).data.ad.deref h = some i) → CallsPool r u i L)
    (hst : (r.st j).stk u = .client (.app (PApi.count h).entry) :: L) (hx : ((r.st j).thr u).exc = none) : CallEnds r u j L := by
  have h0 : r.To u L j (.client (.app (.cnIn h)) :: L) j := ⟨Nat.le_refl _, hst, hx, fun q h1 h2 => by omega⟩
  obtain ⟨i, q, h1, -, h2⟩ := to_enter hr hu (fun i h => (W i h).lock) (k := PFrame.cnBody) (fun _ _ _ => rfl) (fun _ _ _ ch hc => by cases ch <;> first | rfl | exact absurd rfl hc) h0
  obtain ⟨q3, ad3, a3, h9, h10, -, -, -, -, h13, -⟩ := to_step hr hu.just h2 (fun _ _ _ => rfl) (fun _ _ _ ch hc => by cases ch <;> first | rfl | exact absurd rfl hc)
  obtain ⟨-, rfl⟩ := Prod.mk.inj (Option.some.inj h10)
  obtain ⟨q4, ad4, a4, h14, h15, -, h16, -⟩ := to_step hr hu.just (h13 _ rfl) (fun _ _ _ => rfl) (fun _ _ _ ch hc => by cases ch <;> first | rfl | exact absurd rfl hc)
  obtain ⟨-, rfl⟩ := Prod.mk.inj (Option.some.inj h15)
  obtain ⟨q5, -, h17⟩ := to_unlock hr hu.just (h16 _ _ rfl)
  exact to_ret hr hu h17 (fun _ _ _ => rfl) (fun _ _ _ ch hc => by cases ch <;> first | rfl | exact absurd rfl hc)

/-- Thread `u` calls schedule or change_priority of pool `i` above `L`: in addition to the mutex of the pool, the global mutex is not held for ever; the thread is no worker
    of the pool (a worker would execute the check itself, with the mutex of the pool held: the defect of C48); the destructors of tasks that invoke executes return. -/
structure NotifiesPool (r : Run (client (poolApp U))) (u i : Nat) (L : List (Fr (PTask α) (PFrame α φ))) : Prop extends CallsPool r u i L where
  glob : GlobFree r
  alien : ∀ m n, ∀ w ∈ ((r.st m).data.ad.imp i).wk, (r.st n).getId u ≠ w.id
  drop : ∀ l o K, Drops r u (.app (.nw i l o K)) L

omit hr hu in
theorem mkToks_w {i lvl : Nat} {x : Tok} : ∀ {wk : List Wk} {n : Nat}, x ∈ mkToks i lvl n wk → ∃ w ∈ wk, x.w = w.id
  | [], _, h => by simp [mkToks] at h
  | w :: wk, n, h => by
    simp only [mkToks] at h
    split at h
    · rcases List.mem_cons.1 h with rfl | h
      · exact ⟨w, by simp, rfl⟩
      · obtain ⟨w', h1, h2⟩ := mkToks_w h
        exact ⟨w', by simp [h1], h2⟩
    · obtain ⟨w', h1, h2⟩ := mkToks_w h
      exact ⟨w', by simp [h1], h2⟩

omit hr hu in
theorem to_atN {G : List (Fr (PTask α) (PFrame α φ))} : r.To u L j (G ++ L) m ↔ AtN r u L j m G := by
  constructor
  · refine fun h => ⟨h.le, h.stk, h.exc, fun q h1 h2 => ?_⟩
    obtain ⟨x, p, h9⟩ := h.over q h1 h2
    rcases List.eq_nil_or_concat p with rfl | ⟨p', y, rfl⟩
    · exact ⟨[], x, h9⟩
    · exact ⟨x :: p', y, by rw [h9]; simp⟩
  · refine fun h => ⟨h.le, h.stk, h.exc, fun q h1 h2 => ?_⟩
    obtain ⟨pre, x, h9⟩ := h.suf q h1 h2
    cases pre with
    | nil => exact ⟨x, [], h9⟩
    | cons y pre => exact ⟨y, pre ++ [x], by rw [h9]; simp⟩

/-- The destructor of a check. -/
theorem check_dtor {x : Tok} {G : List (Fr (PTask α) (PFrame α φ))} (ha : AtN r u L j m (.client ((client (poolApp U)).destroy (.app (.check x))) :: G)) :
    ∃ m', m < m' ∧ AtN r u L j m' G := by
  obtain ⟨m', h1, h2, ch, h3⟩ := ha.next hr hu fun n _ => ⟨n, Nat.le_refl _, fun hst he => ⟨.go, by
    rw [step_th (r.reach hr n) (r.good n).1 (r.good n).2 hst he]
    rfl⟩⟩
  rw [step_th (r.reach hr m') (r.good m').1 (r.good m').2 h2.stk h2.exc] at h3
  refine ⟨m' + 1, by omega, h2.succ ?_ ?_⟩
  all_goals
    cases ch with
    | go =>
      have h3 := Option.some.inj h3
      rw [← h3]
      first | (simp [St.stk]; done) | simpa using h2.exc
    | _ => cases h3

/-- notify_workers. -/
theorem nw_ends (W : NotifiesPool r u i L) {K : AK'} : ∀ (l : List Tok) o m, (∀ x ∈ l, ∀ n, (r.st n).getId u ≠ x.w) →
    r.To u L j (.client (.app (.nw i l o K)) :: L) m → ∃ q, m < q ∧ r.To u L j (.client (.app (.nwFin i K)) :: L) q := by
  intro l
  induction l with
  | nil =>
    intro o m _ h
    obtain ⟨q, ad', a, h3, h4, -, h5, -⟩ := to_step hr hu.just h (fun _ _ _ => rfl) (fun _ _ _ ch hc => by cases ch <;> first | rfl | exact absurd rfl hc)
    obtain ⟨-, rfl⟩ := Prod.mk.inj (Option.some.inj h4)
    obtain ⟨q2, h6, h7⟩ := to_unlock hr hu.just (h5 _ _ rfl)
    exact ⟨q2, by omega, h7⟩
  | cons x l ih =>
    intro o m hx h
    obtain ⟨q, ad', a, h3, h4, -, -, -, -, -, h5⟩ := to_step hr hu.just h (fun _ _ _ => rfl) (fun _ _ _ ch hc => by cases ch <;> first | rfl | exact absurd rfl hc)
    obtain ⟨-, rfl⟩ := Prod.mk.inj (Option.some.inj h4)
    have h8 : AtN r u L j (q + 1) [.core (.dispatch x.w (.app (.check x))), .client (.app (.nw i l (some x) K))] := to_atN.1 (h5 _ _ rfl)
    obtain ⟨m3, ch, h9, h2, h3'⟩ := h8.core hr hu fun n _ => ⟨n, Nat.le_refl _, by simp only [stepCore]; split <;> rfl⟩
    simp only [stepCore] at h3'
    rw [if_neg (hx x (by simp) m3)] at h3'
    have h3' := Option.some.inj h3'
    have h10 : AtN r u L j (m3 + 1) [.core (.invLook x.w (.app (.check x)) true), .client (.app (.nw i l (some x) K))] := by
      refine h2.succ ?_ ?_ <;> rw [← h3']
      · exact (stk_set' ..).1
      · exact (stk_set' ..).2.trans h2.exc
    obtain ⟨m4, h11, h12⟩ := h10.invoke hr hu W.glob (W.drop _ _ _) fun _ _ _ h => check_dtor hr hu h
    obtain ⟨q2, h13, h14⟩ := ih (some x) m4 (fun y hy => hx y (by simp [hy])) (to_atN.2 h12)
    exact ⟨q2, by omega, h14⟩

/-- change_priority, from a moment at which the thread is about to enter it. -/
theorem change_ends {h id : Nat} {g : Grp} (W : ∀ i, (∃ m, (r.st m).data.ad.deref h = some i) → NotifiesPool r u i L)
    (h0 : r.To u L j (.client (.app (.cpIn h id g)) :: L) m) : CallEnds r u j L := by
  obtain ⟨i, q, h1, hd, h2⟩ := to_enter hr hu (fun i h => (W i h).lock) (k := (PFrame.cpBody · id g)) (fun _ _ _ => rfl) (fun _ _ _ ch hc => by cases ch <;> first | rfl | exact absurd rfl hc) h0
  have W := W i hd
  have unl : ∀ {m}, r.To u L j (.client (.app (.unl i .unit)) :: L) m → CallEnds r u j L := fun h => by
    obtain ⟨q4, ad4, a4, h14, h15, -, h16, -⟩ := to_step hr hu.just h (fun _ _ _ => rfl) (fun _ _ _ ch hc => by cases ch <;> first | rfl | exact absurd rfl hc)
    obtain ⟨-, rfl⟩ := Prod.mk.inj (Option.some.inj h15)
    obtain ⟨q5, -, h17⟩ := to_unlock hr hu.just (h16 _ _ rfl)
    exact to_ret hr hu h17 (fun _ _ _ => rfl) (fun _ _ _ ch hc => by cases ch <;> first | rfl | exact absurd rfl hc)
  obtain ⟨q3, ad3, a3, h9, h10, -, -, -, -, h13, -⟩ := to_step hr hu.just h2 (fun _ _ _ => rfl) (fun _ _ _ ch hc => by cases ch <;> first | rfl | exact absurd rfl hc)
  have h10 : pstep ((r.st q3).view u) (r.st q3).data.ad ((r.st q3).thr u).rv (.cpBody i id g) = (ad3, a3) := Option.some.inj h10
  simp only [pstep] at h10
  split at h10
  · obtain ⟨-, rfl⟩ := Prod.mk.inj h10
    exact unl (h13 _ rfl)
  · split at h10
    · obtain ⟨-, rfl⟩ := Prod.mk.inj h10
      exact unl (h13 _ rfl)
    · obtain ⟨-, rfl⟩ := Prod.mk.inj h10
      obtain ⟨q4, -, h14⟩ := nw_ends hr hu W _ _ _ (fun x hx n => by
        obtain ⟨w, h1, h2⟩ := mkToks_w hx
        rw [h2]
        exact W.alien q3 n w (by simpa [PData.upd, PData.ev, Sync.set] using h1)) (h13 _ rfl)
      exact to_ret hr hu h14 (fun _ _ _ => rfl) (fun _ _ _ ch hc => by cases ch <;> first | rfl | exact absurd rfl hc)

/-- **C77, change_priority.** It returns. -/
theorem C77_change {h id : Nat} {g : Grp} (W : ∀ i, (∃ m, (r.st m).data.ad.deref h = some i) → NotifiesPool r u i L)
    (hst : (r.st j).stk u = .client (.app (PApi.change h id g).entry) :: L) (hx : ((r.st j).thr u).exc = none) : CallEnds r u j L :=
  change_ends hr hu W ⟨Nat.le_refl _, hst, hx, fun q h1 h2 => by omega⟩

/-- **C77, change_priority of a job_future.** It returns, whether or not the pool is still there. -/
theorem C77_future_change {f : JF} {g : Grp} (W : ∀ h i, f.owner = some h → (∃ m, (r.st m).data.ad.deref h = some i) → NotifiesPool r u i L)
    (hst : (r.st j).stk u = .client (.app (PApi.jfChange f g).entry) :: L) (hx : ((r.st j).thr u).exc = none) : CallEnds r u j L := by
  have h0 : r.To u L j (.client (.app (.jcIn f g)) :: L) j := ⟨Nat.le_refl _, hst, hx, fun q h1 h2 => by omega⟩
  obtain ⟨q, ad', a, h9, h10, -, -, h12, -, h13, -⟩ := to_step hr hu.just h0 (fun _ _ _ => rfl) (fun _ _ _ ch hc => by cases ch <;> first | rfl | exact absurd rfl hc)
  have h10 : pstep ((r.st q).view u) (r.st q).data.ad ((r.st q).thr u).rv (.jcIn f g) = (ad', a) := Option.some.inj h10
  simp only [pstep] at h10
  split at h10
  · obtain ⟨-, rfl⟩ := Prod.mk.inj h10
    exact callEnds (h12 _ rfl) (by omega)
  · split at h10
    · split at h10
      · obtain ⟨-, rfl⟩ := Prod.mk.inj h10
        exact callEnds (h12 _ rfl) (by omega)
      · rename_i h ho
        obtain ⟨-, rfl⟩ := Prod.mk.inj h10
        exact change_ends hr hu (W h · ho) (h13 _ rfl)
    · obtain ⟨-, rfl⟩ := Prod.mk.inj h10
      exact callEnds (h12 _ rfl) (by omega)

/-- package_future_task. -/
theorem to_package {q' : Nat} {b : Bool} {x : Fr (PTask α) (PFrame α φ)} (h : r.To u L j (.client (.pkIn q' b) :: x :: L) m) : ∃ q, m < q ∧ r.To u L j (x :: L) q := by
  have h8 : AtN r u L j m [.client (.pkIn q' b), x] := to_atN.1 h
  obtain ⟨m1, sd, a, h1, h2, h3, h4, h5⟩ := h8.cl hr hu (by simp) fun m => ⟨_, rfl⟩
  cases h3
  exact ⟨m1 + 1, by omega, to_atN.2 (h2.succ (G' := [x]) h5.1 h5.2.1)⟩

/-- **C77, schedule.** It returns. -/
theorem C77_schedule {h : Nat} {g : Grp} {b : Bool} {v : α} (W : ∀ i, (∃ m, (r.st m).data.ad.deref h = some i) → NotifiesPool r u i L)
    (hst : (r.st j).stk u = .client (.app (PApi.schedule h g b v).entry) :: L) (hx : ((r.st j).thr u).exc = none) : CallEnds r u j L := by
  have h0 : r.To u L j (.client (.app (.scIn h g b v)) :: L) j := ⟨Nat.le_refl _, hst, hx, fun q h1 h2 => by omega⟩
  obtain ⟨q1, ad1, a1, h1, h2, -, h3, -⟩ := to_step hr hu.just h0 (fun _ _ _ => rfl) (fun _ _ _ ch hc => by cases ch <;> first | rfl | exact absurd rfl hc)
  obtain ⟨-, rfl⟩ := Prod.mk.inj (Option.some.inj h2)
  obtain ⟨q2, -, h4⟩ := to_package hr hu (h3 _ _ rfl)
  obtain ⟨q3, ad3, a3, -, h5, -, h6, -, h7, -⟩ := to_step hr hu.just h4 (fun _ _ _ => rfl) (fun _ _ _ ch hc => by cases ch <;> first | rfl | exact absurd rfl hc)
  have h5 := Option.some.inj h5
  simp only [pstep] at h5
  split at h5
  case h_2 => exact absurd (Prod.mk.inj h5).2.symm h7
  rename_i k i _ hd
  have W := W i ⟨_, hd⟩
  obtain ⟨-, rfl⟩ := Prod.mk.inj h5
  obtain ⟨q4, -, h8⟩ := to_package hr hu (h6 _ _ rfl)
  obtain ⟨q5, ad5, a5, -, h9, -, h10, -, h11, -⟩ := to_step hr hu.just h8 (fun _ _ _ => rfl) (fun _ _ _ ch hc => by cases ch <;> first | rfl | exact absurd rfl hc)
  have h9 := Option.some.inj h9
  simp only [pstep] at h9
  split at h9
  case h_2 => exact absurd (Prod.mk.inj h9).2.symm h11
  obtain ⟨-, rfl⟩ := Prod.mk.inj h9
  obtain ⟨q6, -, h12⟩ := to_lock hr hu W.lock (h10 _ _ rfl)
  obtain ⟨q7, ad7, a7, -, h13, -, -, -, -, h14, -⟩ := to_step hr hu.just h12 (fun _ _ _ => rfl) (fun _ _ _ ch hc => by cases ch <;> first | rfl | exact absurd rfl hc)
  obtain ⟨-, rfl⟩ := Prod.mk.inj (Option.some.inj h13)
  obtain ⟨q8, -, h15⟩ := nw_ends hr hu W _ _ _ (fun x hx n => by
    obtain ⟨w, h1, h2⟩ := mkToks_w hx
    rw [h2]
    exact W.alien q7 n w (by simpa [PData.upd, PData.ev, Sync.set] using h1)) (h14 _ rfl)
  obtain ⟨q9, ad9, a9, h20, h16, -, -, h17, h18, -⟩ := to_step hr hu.just h15 (fun _ _ _ => rfl) (fun _ _ _ ch hc => by cases ch <;> first | rfl | exact absurd rfl hc)
  have h16 := Option.some.inj h16
  simp only [pstep] at h16
  split at h16
  · obtain ⟨-, rfl⟩ := Prod.mk.inj h16
    have h19 := h17 _ rfl
    exact callEnds h19 (by have := h15.le; omega)
  · exact absurd (Prod.mk.inj h16).2.symm h18

end

/-! ## A concrete case -/

/-- Main makes a pool, schedules two jobs, counts them, stops one through its job_future and the other by its id, schedules a third, and stops all. -/
def demoOps : List (PAct Nat Nat) :=
  [.pool (.new 0 []) 2, .pool (.schedule 0 ⟨0, 5⟩ true 20) 3, .pool (.schedule 0 ⟨1, 5⟩ true 20) 4, .pool (.count 0) 5, .pool (.jfStop ⟨1, some 0, some 0⟩) 6,
    .pool (.stop 0 2) 7, .pool (.schedule 0 ⟨0, 3⟩ true 20) 8, .pool (.stopAll 0) 9]

/-- What is observed of each step. -/
def opsOk (s : DPSt) : Bool := (s.thr 0).exc.isNone && decide (s.data.ad.deref 0 ≠ none → s.data.ad.deref 0 = some 0)

set_option synthInstance.maxSize 1024 in
set_option synthInstance.maxHeartbeats 400000 in
theorem ops_tab : (List.range 156).all (fun i => ((pexec demoOps ((pgo 0 155).take i)).map opsOk).getD false) = true := by decide +kernel

set_option synthInstance.maxSize 1024 in
set_option synthInstance.maxHeartbeats 400000 in
theorem ops_end : (pexec demoOps (pgo 0 155)).map (fun s => ((s.ub, s.term, decide ((s.thr 0).status = .running), (s.stk 0).isEmpty), s.data.sd.lk (.user (gd 0)))) =
    some ((false, false, false, true), none) := by decide +kernel

set_option synthInstance.maxSize 1024 in
set_option synthInstance.maxHeartbeats 400000 in
theorem ops_at : (pexec demoOps ((pgo 0 155).take 26)).map (fun s => (s.stk 0, (s.data.ad.imp 0).jobs.length)) =
      some ([.client (.app (PApi.count 0).entry), .client (.app (.usr 5))], 2) ∧
    (pexec demoOps ((pgo 0 155).take 33)).map (fun s => (s.stk 0, (s.data.ad.imp 0).jobs.length)) =
      some ([.client (.app (PApi.jfStop ⟨1, some 0, some 0⟩).entry), .client (.app (.usr 6))], 2) ∧
    (pexec demoOps ((pgo 0 155).take 70)).map (fun s => (s.stk 0, (s.data.ad.imp 0).jobs.length)) =
      some ([.client (.app (PApi.stop 0 2).entry), .client (.app (.usr 7))], 1) ∧
    (pexec demoOps ((pgo 0 155).take 117)).map (fun s => (s.stk 0, (s.data.ad.imp 0).jobs.length)) =
      some ([.client (.app (PApi.stopAll 0).entry), .client (.app (.usr 9))], 1) := by decide +kernel

/-- The hypotheses of the theorems are met, by calls that find a job. -/
example : ∃ r : Run (client (poolApp (tableP demoOps))), PR (tableP demoOps) () 1 (r.st 0) ∧ r.Strong 0 ∧
    (∀ L i, (∃ m, (r.st m).data.ad.deref 0 = some i) → CallsPool r 0 i L) ∧ (∀ i, ((r.st i).thr 0).exc = none) ∧
    ((r.st 26).stk 0, ((r.st 26).data.ad.imp 0).jobs.length) = ([.client (.app (PApi.count 0).entry), .client (.app (.usr 5))], 2) ∧
    ((r.st 33).stk 0, ((r.st 33).data.ad.imp 0).jobs.length) = ([.client (.app (PApi.jfStop ⟨1, some 0, some 0⟩).entry), .client (.app (.usr 6))], 2) ∧
    ((r.st 70).stk 0, ((r.st 70).data.ad.imp 0).jobs.length) = ([.client (.app (PApi.stop 0 2).entry), .client (.app (.usr 7))], 1) ∧
    ((r.st 117).stk 0, ((r.st 117).data.ad.imp 0).jobs.length) = ([.client (.app (PApi.stopAll 0).entry), .client (.app (.usr 9))], 1) := by
  obtain ⟨s', hs', ho⟩ := Option.map_eq_some_iff.1 ops_end
  simp only [Prod.mk.injEq, decide_eq_false_iff_not, List.isEmpty_iff] at ho
  obtain ⟨⟨hub, htm, h0', e0⟩, hlk⟩ := ho
  obtain ⟨r, h0, hr, hl⟩ := Run.ofList hs' hub htm
  have hl : ∀ i, 155 ≤ i → r.st i = s' := hl
  have hR : PR (tableP demoOps) () 1 (r.st 0) := by rw [h0]; exact ⟨[], rfl⟩
  have htab : ∀ i, opsOk (r.st i) = true := by
    intro i
    have : ∀ i, i < 156 → opsOk (r.st i) = true := by
      intro i hi
      have h1 := List.all_eq_true.1 ops_tab i (List.mem_range.2 hi)
      simpa only [pexec, hr i, Option.map_some, Option.getD_some] using h1
    rcases Nat.lt_or_ge i 155 with h | h
    · exact this i (by omega)
    · rw [hl i h, ← hl 155 (Nat.le_refl _)]; exact this 155 (by omega)
  simp only [opsOk, Bool.and_eq_true, decide_eq_true_eq, Option.isNone_iff_eq_none] at htab
  have hobs : ∀ {β : Type} (g : DPSt → β) (i : Nat) (b : β), (pexec demoOps ((pgo 0 155).take i)).map g = some b → g (r.st i) = b := by
    intro β g i b h
    simp only [pexec, hr i, Option.map_some] at h
    exact Option.some.inj h
  have hret0 := Run.returns_end hR (t := 0) (N := 155) (fun i hi => by rw [hl i hi]; exact e0) fun i => (htab i).1
  obtain ⟨a1, a2, a3, a4⟩ := ops_at
  refine ⟨r, hR, fun i hi => ?_, fun L i ⟨m, hi⟩ => ⟨fun n => ⟨max n 155, by omega, ?_⟩, fun _ => hret0 _ _, fun _ _ => hret0 _ _⟩, fun i => (htab i).1,
    hobs _ _ _ a1, hobs _ _ _ a2, hobs _ _ _ a3, hobs _ _ _ a4⟩
  · exfalso
    obtain ⟨q, h1, ch, h2⟩ := hi (max i 155) (by omega)
    rw [hl q (by omega)] at h2
    simp [step, hub, htm, h0'] at h2
  · have := (htab m).2 (by rw [hi]; simp)
    rw [hi] at this
    obtain rfl := Option.some.inj this
    rw [hl _ (by omega)]
    exact hlk

/-- Main makes a pool with a worker, schedules a job and changes its priority, twice. -/
def demoNotify : List (PAct Nat Nat) :=
  [.pool (.new 0 [(0, 1)]) 2, .pool (.schedule 0 ⟨0, 5⟩ true 20) 3, .pool (.change 0 1 ⟨1, 5⟩) 4, .pool (.jfChange ⟨1, some 0, some 0⟩ ⟨2, 5⟩) 5]

/-- What is observed of each step. -/
def notifyOk (s : DPSt) : Bool := opsOk s && (s.getId 0 == 0) && decide ((s.data.ad.imp 0).wk = [] ∨ (s.data.ad.imp 0).wk = [⟨0, 1, 1⟩])

set_option synthInstance.maxSize 1024 in
set_option synthInstance.maxHeartbeats 400000 in
theorem notify_tab : (List.range 54).all (fun i => ((pexec demoNotify ((pgo 0 53).take i)).map notifyOk).getD false) = true := by decide +kernel

set_option synthInstance.maxSize 1024 in
set_option synthInstance.maxHeartbeats 400000 in
theorem notify_end : (pexec demoNotify (pgo 0 53)).map (fun s => ((s.ub, s.term, decide ((s.thr 0).status = .running), (s.stk 0).isEmpty), s.data.sd.lk (.user (gd 0)), s.gOwner)) =
    some ((false, false, false, true), none, none) := by decide +kernel

set_option synthInstance.maxSize 1024 in
set_option synthInstance.maxHeartbeats 400000 in
theorem notify_at : (pexec demoNotify ((pgo 0 53).take 11)).map (fun s => (s.stk 0, (s.data.ad.imp 0).wk)) =
      some ([.client (.app (PApi.schedule 0 ⟨0, 5⟩ true 20).entry), .client (.app (.usr 3))], [⟨0, 1, 1⟩]) ∧
    (pexec demoNotify ((pgo 0 53).take 27)).map (fun s => (s.stk 0, (s.data.ad.imp 0).jobs.length)) =
      some ([.client (.app (PApi.change 0 1 ⟨1, 5⟩).entry), .client (.app (.usr 4))], 1) ∧
    (pexec demoNotify ((pgo 0 53).take 39)).map (fun s => (s.stk 0, (s.data.ad.imp 0).jobs.length)) =
      some ([.client (.app (PApi.jfChange ⟨1, some 0, some 0⟩ ⟨2, 5⟩).entry), .client (.app (.usr 5))], 1) := by decide +kernel

/-- The hypotheses of `C77_schedule`, `C77_change` and `C77_future_change` are met, with a worker to be notified. -/
example : ∃ r : Run (client (poolApp (tableP demoNotify))), PR (tableP demoNotify) () 1 (r.st 0) ∧ r.Strong 0 ∧
    (∀ L i, (∃ m, (r.st m).data.ad.deref 0 = some i) → NotifiesPool r 0 i L) ∧ (∀ i, ((r.st i).thr 0).exc = none) ∧
    ((r.st 11).stk 0, ((r.st 11).data.ad.imp 0).wk) = ([.client (.app (PApi.schedule 0 ⟨0, 5⟩ true 20).entry), .client (.app (.usr 3))], [⟨0, 1, 1⟩]) ∧
    ((r.st 27).stk 0, ((r.st 27).data.ad.imp 0).jobs.length) = ([.client (.app (PApi.change 0 1 ⟨1, 5⟩).entry), .client (.app (.usr 4))], 1) ∧
    ((r.st 39).stk 0, ((r.st 39).data.ad.imp 0).jobs.length) =
      ([.client (.app (PApi.jfChange ⟨1, some 0, some 0⟩ ⟨2, 5⟩).entry), .client (.app (.usr 5))], 1) := by
  obtain ⟨s', hs', ho⟩ := Option.map_eq_some_iff.1 notify_end
  simp only [Prod.mk.injEq, decide_eq_false_iff_not, List.isEmpty_iff] at ho
  obtain ⟨⟨hub, htm, h0', e0⟩, hlk, hgo⟩ := ho
  obtain ⟨r, h0, hr, hl⟩ := Run.ofList hs' hub htm
  have hl : ∀ i, 53 ≤ i → r.st i = s' := hl
  have hR : PR (tableP demoNotify) () 1 (r.st 0) := by rw [h0]; exact ⟨[], rfl⟩
  have htab : ∀ i, notifyOk (r.st i) = true := by
    intro i
    have : ∀ i, i < 54 → notifyOk (r.st i) = true := by
      intro i hi
      have h1 := List.all_eq_true.1 notify_tab i (List.mem_range.2 hi)
      simpa only [pexec, hr i, Option.map_some, Option.getD_some] using h1
    rcases Nat.lt_or_ge i 53 with h | h
    · exact this i (by omega)
    · rw [hl i h, ← hl 53 (Nat.le_refl _)]; exact this 53 (by omega)
  simp only [notifyOk, opsOk, Bool.and_eq_true, decide_eq_true_eq, Option.isNone_iff_eq_none, beq_iff_eq] at htab
  have hobs : ∀ {β : Type} (g : DPSt → β) (i : Nat) (b : β), (pexec demoNotify ((pgo 0 53).take i)).map g = some b → g (r.st i) = b := by
    intro β g i b h
    simp only [pexec, hr i, Option.map_some] at h
    exact Option.some.inj h
  have hret0 := Run.returns_end hR (t := 0) (N := 53) (fun i hi => by rw [hl i hi]; exact e0) fun i => (htab i).1.1.1
  obtain ⟨a1, a2, a3⟩ := notify_at
  refine ⟨r, hR, fun i hi => ?_, fun L i ⟨m, hi⟩ => ?_, fun i => (htab i).1.1.1, hobs _ _ _ a1, hobs _ _ _ a2, hobs _ _ _ a3⟩
  · exfalso
    obtain ⟨q, h1, ch, h2⟩ := hi (max i 53) (by omega)
    rw [hl q (by omega)] at h2
    simp [step, hub, htm, h0'] at h2
  · have := (htab m).1.1.2 (by rw [hi]; simp)
    rw [hi] at this
    obtain rfl := Option.some.inj this
    refine ⟨⟨fun n => ⟨max n 53, by omega, by rw [hl _ (by omega)]; exact hlk⟩, fun _ => hret0 _ _, fun _ _ => hret0 _ _⟩,
      fun n => ⟨max n 53, by omega, by rw [hl _ (by omega)]; exact hgo⟩, fun m n w hw => ?_, fun _ _ _ _ _ _ _ _ => hret0 _ _⟩
    rw [(htab n).1.2]
    rcases (htab m).2 with h | h <;> rw [h] at hw <;> simp at hw
    rw [hw]
    simp

end Itc
