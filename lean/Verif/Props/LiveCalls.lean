import Verif.Props.LiveShut
import Verif.Props.LiveFut

/-!
# C79: the calls that do not wait return

For arbitrary client code and an infinite execution; vocabulary of `Verif.Props.Live`.
-/
namespace Itc
open Core

section
variable {τ φ δ χ : Type} {C : Client τ φ δ χ} {d : δ} {f0 : φ} {r : Run C} {u j m : Nat} {G : List (Frame τ φ)}

/-- The functions of the library that neither wait nor execute the queue: register_this_thread, register_thread, unregister_this_thread, notify_for_exit, invoke,
    dispatch, get_pending_task_count, get_all_registered_threads. -/
def Prompt : Api τ φ → Prop
  | .registerThis | .registerNative _ | .unregisterThis | .notifyExit _ | .invoke _ _ | .invokePackaged _ _ | .dispatch _ _ | .pending _ | .allIds => True
  | _ => False

/-- Thread `u` calls such a function above `G`: the scheduler is strongly fair to it, the global mutex is not held for ever (by init or shutdown), and the client code that
    the call executes returns: the destructors of tasks, and the task of a dispatch to the own thread. -/
structure CallsCore (r : Run C) (u : Nat) (G : List (Frame τ φ)) : Prop where
  fair : r.Strong u
  glob : ∀ n, ∃ m, n ≤ m ∧ (r.st m).gOwner = none
  drop : ∀ k c l fn v, r.Returns u (C.destroy k) (.core (.destroyList c l fn v) :: G)
  drop' : ∀ k c l fn v, r.Returns u (C.destroy k) (.core (.destroyList c l fn v) :: .core .unregClear :: G)
  refused : ∀ k id, r.Returns u (C.destroy k) (.core (.retv id) :: G)
  run : ∀ k, r.Returns u (C.run k) (.core (.dispRan k) :: G)

theorem setStk_at (s : St τ φ δ) (t : Nat) (L : List (Frame τ φ)) : (s.setStk t L).stk t = L ∧ ((s.setStk t L).thr t).exc = (s.thr t).exc := by simp [St.setStk, St.stk]

theorem ret_at (s : St τ φ δ) (t : Nat) (L : List (Frame τ φ)) (f : Fn) (v : Val) : (s.ret t L f v).stk t = L ∧ ((s.ret t L f v).thr t).exc = (s.thr t).exc := by
  simp [St.ret, St.stk]

variable (hr : Reach C d f0 (r.st 0))
include hr

/-- The next step of a function of the library. -/
theorem to_core (hu : r.Strong u) {f : CF τ φ} {p : List (Frame τ φ)} (h : r.To u G j (.core f :: (p ++ G)) m)
    (hen : ∀ n, m ≤ n → ∃ q, n ≤ q ∧ (stepCore C (r.st q) u f (p ++ G) .go).isSome) :
    ∃ q ch, m ≤ q ∧ stepCore C (r.st q) u f (p ++ G) ch = some (r.st (q + 1)) ∧ ((r.st q).thr u).exc = none ∧
      ∀ L, (r.st (q + 1)).stk u = L → ((r.st (q + 1)).thr u).exc = none → r.To u G j L (q + 1) := by
  obtain ⟨q, ch, o⟩ := Run.ownF hr hu h.stk h.exc fun n hn => by
    obtain ⟨q, h1, h2⟩ := hen n hn
    exact ⟨q, h1, .go, h2⟩
  exact ⟨q, ch, o.le, o.core hr, o.exc, fun L h1 h2 => h.own o h1 h2⟩

theorem to_release (hu : r.Strong u) {c : Nat} {fn : Fn} {v : Val} {p : List (Frame τ φ)} (hd : ∀ k l, r.Returns u (C.destroy k) (.core (.destroyList c l fn v) :: (p ++ G)))
    (h : r.To u G j (.core (.release c fn v) :: (p ++ G)) m) : ∃ q, m < q ∧ r.To u G j (p ++ G) q := by
  obtain ⟨q, h1, h2, h3, h4⟩ := Run.released hr hu.just hd h.stk h.exc
  exact ⟨q, h1, h.over' (by omega) h4 h2 h3⟩

omit hr in
theorem to_code {g : φ} {x : Frame τ φ} (hd : r.Returns u g (x :: G)) (h : r.To u G j (.client g :: x :: G) m) : ∃ q, m < q ∧ r.To u G j (x :: G) q := by
  obtain ⟨q, h1, h2, h3, h4⟩ := hd m h.stk h.exc
  exact ⟨q, h1, h.over' (p := []) (by omega) (over_of_suf (p := []) h4) h2 h3⟩

omit hr in
theorem to_ends (h : r.To u G j G m) (hlt : j < m) : ∃ m, r.Ends u G j m ∧ ((r.st m).thr u).exc = none := by
  refine ⟨m, ⟨hlt, h.stk, fun m' h7 h8 => ?_⟩, h.exc⟩
  obtain ⟨x, p, h9⟩ := h.over m' h7 h8
  rcases List.eq_nil_or_concat p with rfl | ⟨p', y, rfl⟩
  · exact ⟨[], x, h9⟩
  · exact ⟨x :: p', y, by rw [h9]; simp⟩

variable (W : CallsCore r u G)
include W

theorem retv_ends {o : Option Nat} (h : r.To u G j (.core (.retv o) :: G) m) : ∃ m, r.Ends u G j m ∧ ((r.st m).thr u).exc = none := by
  obtain ⟨q, ch, h1, h2, h3, h4⟩ := to_core hr W.fair (p := []) h fun n _ => ⟨n, Nat.le_refl _, by cases o <;> rfl⟩
  refine to_ends (h4 _ ?_ ?_) (by have := h.le; omega)
  all_goals
    cases o <;> (simp only [stepCore, Option.some.injEq, List.nil_append] at h2; rw [← h2])
    all_goals first | exact (ret_at ..).1 | exact (ret_at ..).2.trans h3

theorem release_ends {c : Nat} {fn : Fn} {v : Val} (h : r.To u G j (.core (.release c fn v) :: G) m) : ∃ m, r.Ends u G j m ∧ ((r.st m).thr u).exc = none := by
  obtain ⟨q, h1, h2⟩ := to_release hr W.fair (p := []) (fun k l => W.drop k c l fn v) h
  exact to_ends h2 (by have := h.le; omega)

theorem invoke_ends {id : Nat} {k : τ} {own : Bool} (h : r.To u G j (.core (.invLook id k own) :: G) m) : ∃ m, r.Ends u G j m ∧ ((r.st m).thr u).exc = none := by
  have hle := h.le
  obtain ⟨q, ch, h1, h2, h3, h4⟩ := to_core hr W.fair (p := []) h fun n _ => by
    obtain ⟨q, h1, h2⟩ := W.glob n
    refine ⟨q, h1, ?_⟩
    simp only [stepCore, h2, Option.isSome_none, Bool.false_eq_true, if_false]
    repeat' split
    all_goals rfl
  simp only [stepCore, List.nil_append] at h2
  have hrefuse : (if own = true then some (((r.st q).ev (.refused u id k)).setStk u (.client (C.destroy k) :: .core (.retv (some id)) :: G))
      else some (((r.st q).ev (.refused u id k)).ret u G (.invoke id) (.bool false))) = some (r.st (q + 1)) → ∃ m, r.Ends u G j m ∧ ((r.st m).thr u).exc = none := by
    intro h2
    split at h2
    · have h2 := Option.some.inj h2
      obtain ⟨q2, -, h5⟩ := to_code (W.refused k (some id)) (h4 _ (by rw [← h2]; exact (setStk_at ..).1) (by rw [← h2]; exact (setStk_at ..).2.trans h3))
      exact retv_ends hr W h5
    · have h2 := Option.some.inj h2
      exact to_ends (h4 _ (by rw [← h2]; exact (ret_at ..).1) (by rw [← h2]; exact (ret_at ..).2.trans h3)) (by omega)
  split at h2
  · exact hrefuse h2
  split at h2
  · cases h2
  split at h2
  · exact hrefuse h2
  have h2 := Option.some.inj h2
  obtain ⟨q2, ch2, h5, h6, h7, h8⟩ := to_core hr W.fair (p := []) (h4 _ (by rw [← h2]; exact (setStk_at ..).1) (by rw [← h2]; exact (setStk_at ..).2.trans h3))
    fun n _ => ⟨n, Nat.le_refl _, by simp only [stepCore]; split <;> rfl⟩
  simp only [stepCore, List.nil_append] at h6
  split at h6
  · have h9 := (r.good (q2 + 1)).1
    rw [← Option.some.inj h6] at h9
    cases h9
  have h6 := Option.some.inj h6
  exact release_ends hr W (h8 _ (by rw [← h6]; exact (setStk_at ..).1) (by rw [← h6]; exact (setStk_at ..).2.trans h7))

/-- **C79.** Each of these calls returns, without an exception. -/
theorem C79_call {a : Api τ φ} (ha : Prompt a) (hst : (r.st j).stk u = .core a.entry :: G) (hx : ((r.st j).thr u).exc = none) :
    ∃ m, r.Ends u G j m ∧ ((r.st m).thr u).exc = none := by
  have h0 : r.To u G j (.core a.entry :: G) j := ⟨Nat.le_refl _, hst, hx, fun q h1 h2 => by omega⟩
  have hreg : ∀ n?, r.To u G j (.core (.regLook n?) :: G) j → ∃ m, r.Ends u G j m ∧ ((r.st m).thr u).exc = none := by
    intro n? h0
    obtain ⟨q, ch, h1, h2, h3, h4⟩ := to_core hr W.fair (p := []) h0 fun n _ => by
      obtain ⟨q, h1, h2⟩ := W.glob n
      refine ⟨q, h1, ?_⟩
      simp only [stepCore, h2, Option.isSome_none, Bool.false_eq_true, if_false]
      split <;> rfl
    simp only [stepCore, List.nil_append] at h2
    have hdone : ∀ c b m, r.To u G j (.core (.regDone c b) :: G) m → ∃ m, r.Ends u G j m ∧ ((r.st m).thr u).exc = none := by
      intro c b m h
      obtain ⟨q, ch, h1, h2, h3, h4⟩ := to_core hr W.fair (p := []) h fun n _ => ⟨n, Nat.le_refl _, rfl⟩
      simp only [stepCore, List.nil_append, Option.some.injEq] at h2
      refine release_ends hr W (h4 _ (by rw [← h2]; exact (setStk_at ..).1) ?_)
      rw [← h2, (setStk_at ..).2]
      cases b
      · exact h3
      · simpa [upd] using h3
    split at h2
    · cases h2
    split at h2
    all_goals
      have h2 := Option.some.inj h2
      exact hdone _ _ _ (h4 _ (by rw [← h2]; exact (setStk_at ..).1) (by rw [← h2]; exact (setStk_at ..).2.trans h3))
  cases a <;> first | exact ha.elim | skip
  case registerThis => exact hreg _ h0
  case registerNative n => exact hreg _ h0
  case invoke id k => exact invoke_ends hr W h0
  case invokePackaged id k => exact invoke_ends hr W h0
  case allIds =>
    obtain ⟨q, ch, h1, h2, h3, h4⟩ := to_core hr W.fair (p := []) h0 fun n _ => by
      obtain ⟨q, h1, h2⟩ := W.glob n
      exact ⟨q, h1, by simp [Api.entry, stepCore, h2]⟩
    simp only [Api.entry, stepCore, List.nil_append] at h2
    split at h2
    · cases h2
    have h2 := Option.some.inj h2
    exact to_ends (h4 _ (by rw [← h2]; exact (ret_at ..).1) (by rw [← h2]; exact (ret_at ..).2.trans h3)) (by omega)
  case dispatch id k =>
    obtain ⟨q, ch, h1, h2, h3, h4⟩ := to_core hr W.fair (p := []) h0 fun n _ => ⟨n, Nat.le_refl _, by simp only [Api.entry, stepCore]; split <;> rfl⟩
    simp only [Api.entry, stepCore, List.nil_append] at h2
    split at h2
    · have h2 := Option.some.inj h2
      obtain ⟨q2, -, h5⟩ := to_code (W.run k) (h4 _ (by rw [← h2]; exact (setStk_at ..).1) (by rw [← h2]; exact (setStk_at ..).2.trans h3))
      obtain ⟨q3, ch3, -, h6, h7, h8⟩ := to_core hr W.fair (p := []) h5 fun n _ => ⟨n, Nat.le_refl _, rfl⟩
      simp only [stepCore, List.nil_append, Option.some.injEq] at h6
      obtain ⟨q4, -, h9⟩ := to_code (W.refused k none) (h8 _ (by rw [← h6]; exact (setStk_at ..).1) (by rw [← h6]; exact (setStk_at ..).2.trans h7))
      exact retv_ends hr W h9
    · have h2 := Option.some.inj h2
      exact invoke_ends hr W (h4 _ (by rw [← h2]; exact (setStk_at ..).1) (by rw [← h2]; exact (setStk_at ..).2.trans h3))
  case notifyExit id =>
    obtain ⟨q, ch, h1, h2, h3, h4⟩ := to_core hr W.fair (p := []) h0 fun n _ => by
      obtain ⟨q, h1, h2⟩ := W.glob n
      refine ⟨q, h1, ?_⟩
      simp only [Api.entry, stepCore, h2, Option.isSome_none, Bool.false_eq_true, if_false]
      split <;> rfl
    simp only [Api.entry, stepCore, List.nil_append] at h2
    split at h2
    · cases h2
    split at h2
    · have h2 := Option.some.inj h2
      exact to_ends (h4 _ (by rw [← h2]; exact (ret_at ..).1) (by rw [← h2]; exact (ret_at ..).2.trans h3)) (by omega)
    have h2 := Option.some.inj h2
    obtain ⟨q2, ch2, h5, h6, h7, h8⟩ := to_core hr W.fair (p := []) (h4 _ (by rw [← h2]; exact (setStk_at ..).1) (by rw [← h2]; exact (setStk_at ..).2.trans h3))
      fun n _ => ⟨n, Nat.le_refl _, by simp only [stepCore]; split <;> rfl⟩
    simp only [stepCore, List.nil_append] at h6
    split at h6
    · have h9 := (r.good (q2 + 1)).1
      rw [← Option.some.inj h6] at h9
      cases h9
    have h6 := Option.some.inj h6
    exact release_ends hr W (h8 _ (by rw [← h6]; exact (setStk_at ..).1) (by rw [← h6]; exact (setStk_at ..).2.trans h7))
  case pending id =>
    obtain ⟨q, ch, h1, h2, h3, h4⟩ := to_core hr W.fair (p := []) h0 fun n _ => by
      obtain ⟨q, h1, h2⟩ := W.glob n
      refine ⟨q, h1, ?_⟩
      simp only [Api.entry, stepCore, h2, Option.isSome_none, Bool.false_eq_true, if_false]
      repeat' split
      all_goals rfl
    simp only [Api.entry, stepCore, List.nil_append] at h2
    split at h2
    · have h2 := Option.some.inj h2
      exact to_ends (h4 _ (by rw [← h2]; exact (ret_at ..).1) (by rw [← h2]; exact (ret_at ..).2.trans h3)) (by omega)
    split at h2
    · cases h2
    split at h2
    · have h2 := Option.some.inj h2
      exact to_ends (h4 _ (by rw [← h2]; exact (ret_at ..).1) (by rw [← h2]; exact (ret_at ..).2.trans h3)) (by omega)
    have h2 := Option.some.inj h2
    obtain ⟨q2, ch2, h5, h6, h7, h8⟩ := to_core hr W.fair (p := []) (h4 _ (by rw [← h2]; exact (setStk_at ..).1) (by rw [← h2]; exact (setStk_at ..).2.trans h3))
      fun n _ => ⟨n, Nat.le_refl _, by simp only [stepCore]; split <;> rfl⟩
    simp only [stepCore, List.nil_append] at h6
    split at h6
    · have h9 := (r.good (q2 + 1)).1
      rw [← Option.some.inj h6] at h9
      cases h9
    have h6 := Option.some.inj h6
    exact release_ends hr W (h8 _ (by rw [← h6]; exact (setStk_at ..).1) (by rw [← h6]; exact (setStk_at ..).2.trans h7))
  case unregisterThis =>
    have hclear : ∀ m, r.To u G j (.core .unregClear :: G) m → ∃ m, r.Ends u G j m ∧ ((r.st m).thr u).exc = none := by
      intro m h
      obtain ⟨q, ch, h1, h2, h3, h4⟩ := to_core hr W.fair (p := []) h fun n _ => ⟨n, Nat.le_refl _, rfl⟩
      simp only [stepCore, List.nil_append, Option.some.injEq] at h2
      refine to_ends (h4 _ (by rw [← h2]; exact (ret_at ..).1) ?_) (by have := h.le; omega)
      rw [← h2, (ret_at ..).2]
      simpa [upd] using h3
    obtain ⟨q, ch, h1, h2, h3, h4⟩ := to_core hr W.fair (p := []) h0 fun n _ => by
      obtain ⟨q, h1, h2⟩ := W.glob n
      refine ⟨q, h1, ?_⟩
      simp only [Api.entry, stepCore, h2, Option.isSome_none, Bool.false_eq_true, if_false]
      split <;> rfl
    simp only [Api.entry, stepCore, List.nil_append] at h2
    split at h2
    · cases h2
    split at h2
    · have h2 := Option.some.inj h2
      exact hclear _ (h4 _ (by rw [← h2]; exact (setStk_at ..).1) (by rw [← h2]; exact (setStk_at ..).2.trans h3))
    have h2 := Option.some.inj h2
    obtain ⟨q2, -, h5⟩ := to_release hr W.fair (p := [.core .unregClear]) (fun k l => W.drop' k _ l _ _)
      (h4 _ (by rw [← h2]; exact (setStk_at ..).1) (by rw [← h2]; exact (setStk_at ..).2.trans h3))
    exact hclear _ h5

omit W in
/-- **C79.** init returns, if the log callback does. -/
theorem C79_init {cb : Option φ} (W : CallsCore r u (.core (.initCfg cb) :: G)) (hcb : ∀ f, cb = some f → r.Returns u f (.core .initEnd :: G))
    (hst : (r.st j).stk u = .core (Api.init cb : Api τ φ).entry :: G) (hx : ((r.st j).thr u).exc = none) : ∃ m, r.Ends u G j m ∧ ((r.st m).thr u).exc = none := by
  have h0 : r.To u G j (.core (.initIn cb) :: G) j := ⟨Nat.le_refl _, hst, hx, fun q h1 h2 => by omega⟩
  obtain ⟨q, ch, h1, h2, h3, h4⟩ := to_core hr W.fair (p := []) h0 fun n _ => ⟨n, Nat.le_refl _, by simp only [stepCore]; split <;> rfl⟩
  simp only [stepCore, List.nil_append] at h2
  split at h2
  · have h2 := Option.some.inj h2
    exact to_ends (h4 _ (by rw [← h2]; exact (ret_at ..).1) (by rw [← h2]; exact (ret_at ..).2.trans h3)) (by omega)
  have h2 := Option.some.inj h2
  have h5 := h4 (.core (.regLook none) :: .core (.initCfg cb) :: G) (by rw [← h2]; exact (setStk_at ..).1) (by rw [← h2]; exact (setStk_at ..).2.trans h3)
  -- register_this_thread
  obtain ⟨m1, ⟨p1, e1, v1⟩, x1⟩ := C79_call hr W (a := .registerThis) trivial h5.stk h5.exc
  have h6 : r.To u G j (.core (.initCfg cb) :: G) m1 := h5.over' (p := [.core (.initCfg cb)]) (by omega) (fun m' h7 h8 => by
    obtain ⟨pre, x, h9⟩ := v1 m' h7 h8
    cases pre with
    | nil => exact ⟨x, [], h9⟩
    | cons y w => exact ⟨y, w ++ [x], by rw [h9]; simp⟩) e1 x1
  -- the configuration and the log callback
  obtain ⟨q2, ch2, h7, h8, h9, h10⟩ := to_core hr W.fair (p := []) h6 fun n _ => by
    obtain ⟨q, h1, h2⟩ := W.glob n
    refine ⟨q, h1, ?_⟩
    simp only [stepCore, h2, Option.isSome_none, Bool.false_eq_true, if_false]
    split <;> rfl
  simp only [stepCore, List.nil_append] at h8
  split at h8
  · cases h8
  split at h8
  · have h8 := Option.some.inj h8
    exact to_ends (h10 _ (by rw [← h8]; exact (ret_at ..).1) (by rw [← h8]; exact (ret_at ..).2.trans h9)) (by omega)
  have h8 := Option.some.inj h8
  obtain ⟨q3, h11, h12⟩ := to_code (hcb _ rfl) (h10 _ (by rw [← h8]; exact (setStk_at ..).1) (by rw [← h8]; exact (setStk_at ..).2.trans h9))
  obtain ⟨q4, ch4, h13, h14, h15, h16⟩ := to_core hr W.fair (p := []) h12 fun n _ => ⟨n, Nat.le_refl _, rfl⟩
  simp only [stepCore, List.nil_append, Option.some.injEq] at h14
  exact to_ends (h16 _ (by rw [← h14]; exact (ret_at ..).1) (by rw [← h14]; exact (ret_at ..).2.trans h15)) (by omega)

end

/-! ## Example: main makes each of the calls -/

def callsProg : List (Act Nat Nat) :=
  [.call .registerThis 2, .call (.registerNative 5) 3, .call (.invoke 1 10) 4, .call (.invokePackaged 9 10) 5, .call (.dispatch 1 10) 6, .call (.pending 1) 7,
   .call .allIds 8, .call (.notifyExit 1) 9, .call .unregisterThis 0, .ret .unit]

/-- The call, the step at which it begins and the label of the code after it. -/
def callsAt : List (Api Nat Nat × Nat × Nat) :=
  [(.registerThis, 1, 2), (.registerNative 5, 5, 3), (.invoke 1 10, 9, 4), (.invokePackaged 9 10, 13, 5), (.dispatch 1 10, 15, 6), (.pending 1, 21, 7),
   (.allIds, 25, 8), (.notifyExit 1, 27, 9), (.unregisterThis, 31, 0)]

/-- Hypotheses of `C79_call`, for all calls; the invocation is accepted, the second refused, the dispatch executed at once, and unregistering destroys a queued task. -/
example : ∃ r : Run (tableClient (prog callsProg)), Reach (tableClient (prog callsProg)) () 1 (r.st 0) ∧ (∀ G, CallsCore r 0 G) ∧
    (∀ x ∈ callsAt, Prompt x.1 ∧ (r.st x.2.1).stk 0 = [.core x.1.entry, .client x.2.2] ∧ ((r.st x.2.1).thr 0).exc = none) := by
  have hend : (exec callsProg (go 0 39)).map (fun s => !s.ub && !s.term && !decide ((s.thr 0).status = .running) && (s.stk 0).isEmpty && s.gOwner.isNone) = some true := by
    decide +kernel
  have htab : (List.range 40).all (fun i => ((exec callsProg ((go 0 39).take i)).map (fun s => (s.thr 0).exc.isNone)).getD false) = true := by decide +kernel
  have hat : callsAt.all (fun x => ((exec callsProg ((go 0 39).take x.2.1)).map (fun s => decide (s.stk 0 = [.core x.1.entry, .client x.2.2]))).getD false) = true := by decide +kernel
  obtain ⟨s', hs', ho⟩ := Option.map_eq_some_iff.1 hend
  simp only [Bool.and_eq_true, Bool.not_eq_true', Option.isNone_iff_eq_none, List.isEmpty_iff] at ho
  obtain ⟨⟨⟨⟨e1, e2⟩, e3⟩, e4⟩, e5⟩ := ho
  obtain ⟨r, h0, hr, hl⟩ := Run.ofList hs' e1 e2
  have hl : ∀ i, 39 ≤ i → r.st i = s' := hl
  have hR : Reach (tableClient (prog callsProg)) () 1 (r.st 0) := by rw [h0]; exact ⟨[], rfl⟩
  have hx : ∀ i, ((r.st i).thr 0).exc = none := by
    have : ∀ i, i < 40 → ((r.st i).thr 0).exc = none := by
      intro i hi
      have h1 := List.all_eq_true.1 htab i (List.mem_range.2 hi)
      simpa only [exec, hr i, Option.map_some, Option.getD_some, Option.isNone_iff_eq_none] using h1
    intro i
    rcases Nat.lt_or_ge i 39 with h | h
    · exact this i (by omega)
    · rw [hl i h, ← hl 39 (Nat.le_refl _)]; exact this 39 (by omega)
  have hret := fun g L => Run.returns_end hR (t := 0) (N := 39) (fun i hi => by rw [hl i hi]; exact e4) hx g L
  refine ⟨r, hR, fun G => ⟨fun i hi => ?_, fun n => ⟨max n 39, by omega, by rw [hl _ (by omega)]; exact e5⟩, fun _ _ _ _ _ => hret _ _, fun _ _ _ _ _ => hret _ _,
    fun _ _ => hret _ _, fun _ => hret _ _⟩, fun x hm => ⟨?_, ?_, hx _⟩⟩
  · exfalso
    obtain ⟨q, h1, ch, h2⟩ := hi (max i 39) (by omega)
    rw [hl q (by omega)] at h2
    simp [step, e1, e2, of_decide_eq_false e3] at h2
  · simp only [callsAt, List.mem_cons, List.not_mem_nil, or_false] at hm
    rcases hm with rfl | rfl | rfl | rfl | rfl | rfl | rfl | rfl | rfl <;> trivial
  · have h1 := List.all_eq_true.1 hat x hm
    simpa only [exec, hr x.2.1, Option.map_some, Option.getD_some, decide_eq_true_eq] using h1

def initProg : List (Act Nat Nat) := [.call (.init (some 3)) 0, .ret .unit, .ret .unit]

/-- Hypotheses of `C79_init`: main calls init with a log callback. -/
example : ∃ r : Run (tableClient (prog initProg)), Reach (tableClient (prog initProg)) () 1 (r.st 0) ∧ (∀ G, CallsCore r 0 G) ∧ (∀ f G, r.Returns 0 f G) ∧
    (r.st 1).stk 0 = [.core (Api.init (some 3)).entry, .client 0] ∧ ((r.st 1).thr 0).exc = none := by
  have hend : (exec initProg (go 0 10)).map (fun s => !s.ub && !s.term && !decide ((s.thr 0).status = .running) && (s.stk 0).isEmpty && s.gOwner.isNone) = some true := by
    decide +kernel
  have htab : (List.range 11).all (fun i => ((exec initProg ((go 0 10).take i)).map (fun s => (s.thr 0).exc.isNone)).getD false) = true := by decide +kernel
  have h1 : (exec initProg ((go 0 10).take 1)).map (fun s => s.stk 0) = some [.core (Api.init (some 3)).entry, .client 0] := by decide +kernel
  obtain ⟨s', hs', ho⟩ := Option.map_eq_some_iff.1 hend
  simp only [Bool.and_eq_true, Bool.not_eq_true', Option.isNone_iff_eq_none, List.isEmpty_iff] at ho
  obtain ⟨⟨⟨⟨e1, e2⟩, e3⟩, e4⟩, e5⟩ := ho
  obtain ⟨r, h0, hr, hl⟩ := Run.ofList hs' e1 e2
  have hl : ∀ i, 10 ≤ i → r.st i = s' := hl
  have hR : Reach (tableClient (prog initProg)) () 1 (r.st 0) := by rw [h0]; exact ⟨[], rfl⟩
  have hx : ∀ i, ((r.st i).thr 0).exc = none := by
    have : ∀ i, i < 11 → ((r.st i).thr 0).exc = none := by
      intro i hi
      have h1 := List.all_eq_true.1 htab i (List.mem_range.2 hi)
      simpa only [exec, hr i, Option.map_some, Option.getD_some, Option.isNone_iff_eq_none] using h1
    intro i
    rcases Nat.lt_or_ge i 10 with h | h
    · exact this i (by omega)
    · rw [hl i h, ← hl 10 (Nat.le_refl _)]; exact this 10 (by omega)
  have hret := fun g L => Run.returns_end hR (t := 0) (N := 10) (fun i hi => by rw [hl i hi]; exact e4) hx g L
  refine ⟨r, hR, fun G => ⟨fun i hi => ?_, fun n => ⟨max n 10, by omega, by rw [hl _ (by omega)]; exact e5⟩, fun _ _ _ _ _ => hret _ _, fun _ _ _ _ _ => hret _ _,
    fun _ _ => hret _ _, fun _ => hret _ _⟩, hret, ?_, hx _⟩
  · exfalso
    obtain ⟨q, h1, ch, h2⟩ := hi (max i 10) (by omega)
    rw [hl q (by omega)] at h2
    simp [step, e1, e2, of_decide_eq_false e3] at h2
  · rw [exec, hr 1, Option.map_some] at h1
    exact Option.some.inj h1

end Itc
