import Verif.Core.Timed
import Verif.Props.LiveEnd
import Verif.Props.LiveTimed
import Verif.Props.Lifecycle

/-!
# C74: shutdown returns

For an arbitrary client and infinite execution in which time passes.
-/
namespace Itc
open Core
section
variable {τ φ δ χ : Type} {C : Client τ φ δ χ} {d : δ} {f0 : φ} {r : Run C}

namespace Core

/-- `cleanup_event` is notified only when the last registered thread is unregistered. -/
theorem stepCore_gcv (C : Client τ φ δ χ) (s s' : St τ φ δ) (t : Nat) (f : CF τ φ) (rest : List (Frame τ φ)) (ch : Ch χ)
    (h : stepCore C s t f rest ch = some s') : (s'.gcv = true → s.gcv = true) ∨ s.contexts ≠ [] ∧ s'.contexts = [] := by
  cases f with
  | retv d => cases d <;> simp only [stepCore] at h <;> obtain rfl := Option.some.inj h <;> exact .inl id
  | destroyList c l f v => cases l <;> simp only [stepCore] at h <;> obtain rfl := Option.some.inj h <;> exact .inl id
  | regDone c self => cases self <;> simp only [stepCore] at h <;> obtain rfl := Option.some.inj h <;> exact .inl id
  | sdNotify l T =>
    cases l with
    | cons i l => simp only [stepCore] at h; obtain rfl := Option.some.inj h; exact .inl id
    | nil =>
      simp only [stepCore] at h
      repeat' (split at h)
      all_goals first | contradiction | (obtain rfl := Option.some.inj h; first | exact .inl id | exact .inl fun h => nomatch h)
  | unreg =>
    simp only [stepCore] at h
    split at h
    · contradiction
    split at h
    · obtain rfl := Option.some.inj h; exact .inl id
    · rename_i c hf
      obtain rfl := Option.some.inj h
      by_cases he : (s.contexts.filter (fun p => !(p.1 == s.getId t))).isEmpty = true
      · refine .inr ⟨fun hn => ?_, List.isEmpty_iff.1 he⟩
        have := find_some hf
        rw [hn] at this; cases this
      · refine .inl fun hg => ?_
        have hg : (s.gcv || (s.contexts.filter (fun p => !(p.1 == s.getId t))).isEmpty) = true := hg
        simpa [he] using hg
  | _ =>
    simp only [stepCore] at h
    repeat' (split at h)
    all_goals first | contradiction | (obtain rfl := Option.some.inj h; first | exact .inl id | exact .inl fun h => nomatch h)

theorem step_gcv {s s' : St τ φ δ} {l : Lbl χ} (h0 : step C s l = some s') : (s'.gcv = true → s.gcv = true) ∨ s.contexts ≠ [] ∧ s'.contexts = [] := by
  cases l with
  | tick n => rw [step_tick C _ _ n h0]; exact .inl id
  | th t ch =>
    simp only [Core.step] at h0
    split at h0
    · contradiction
    split at h0
    · contradiction
    split at h0
    · obtain rfl := Option.some.inj h0
      left
      unfold stepExc
      repeat' split
      all_goals exact id
    split at h0
    · obtain rfl := Option.some.inj h0; exact .inl id
    · exact stepCore_gcv C s s' t _ _ ch h0
    · simp only [stepClient] at h0
      split at h0
      · contradiction
      · split at h0 <;> obtain rfl := Option.some.inj h0 <;> exact .inl id

end Core

/-- Thread `u` executes `shutdown` (thread.cpp:187-231) above `G`: the scheduler is strongly fair to it, time passes, no other call of `init` or `shutdown` holds the
    global mutex for ever; the log callback and the destructors of tasks that are still queued return. -/
structure Closing (r : Run C) (u : Nat) (G : List (Frame τ φ)) : Prop where
  fair : r.Strong u
  time : r.Time
  glob : ∀ n, ∃ m, n ≤ m ∧ (r.st m).gOwner = none
  log : ∀ f T, r.Returns u f (.core (.sdIds T) :: G)
  log' : ∀ f v, r.Returns u f (.core (.sdEnd v) :: G)
  free : ∀ k c l T, r.Returns u (C.destroy k) (.core (.destroyList c l .internal .unit) :: .core .unregClear :: .core (.sdLog T) :: G)
  free' : ∀ k c l l' T, r.Returns u (C.destroy k) (.core (.destroyList c l .notifyExit .unit) :: .core (.sdNotify l' T) :: G)

variable {u i : Nat} {G : List (Frame τ φ)}

/-- Thread `u` has come from `i` to `m`, where its stack is `L`; in between it was above `G`. -/
structure Run.To (r : Run C) (u : Nat) (G : List (Frame τ φ)) (i : Nat) (L : List (Frame τ φ)) (m : Nat) : Prop where
  le : i ≤ m
  stk : (r.st m).stk u = L
  exc : ((r.st m).thr u).exc = none
  over : r.Over u G i m

theorem Run.To.own {L p : List (Frame τ φ)} {x : Frame τ φ} {m q : Nat} {ch : Ch χ} (h : r.To u G i (x :: (p ++ G)) m) (ho : r.Own u m (x :: (p ++ G)) q ch)
    (h1 : (r.st (q + 1)).stk u = L) (h2 : ((r.st (q + 1)).thr u).exc = none) : r.To u G i L (q + 1) :=
  ⟨by have := h.le; have := ho.le; omega, h1, h2, h.over.trans ho.over⟩

theorem Run.Over.weak {p G : List (Frame τ φ)} {m : Nat} (h : r.Over u (p ++ G) i m) : r.Over u G i m := fun q ha hb => by
  obtain ⟨x, p', h⟩ := h q ha hb
  exact ⟨x, p' ++ p, by rw [h, List.append_assoc]⟩

theorem Run.To.over' {L p : List (Frame τ φ)} {L0 : List (Frame τ φ)} {m q : Nat} (h : r.To u G i L0 m) (hle : m ≤ q) (hv : r.Over u (p ++ G) m q)
    (h1 : (r.st q).stk u = L) (h2 : ((r.st q).thr u).exc = none) : r.To u G i L q :=
  ⟨by have := h.le; omega, h1, h2, h.over.trans hv.weak⟩

theorem over_of_suf {x : Frame τ φ} {p : List (Frame τ φ)} {m q : Nat} (h : ∀ n, m ≤ n → n ≤ q → (x :: p ++ G) <:+ (r.st n).stk u) : r.Over u (p ++ G) m q := fun n ha hb => by
  obtain ⟨w, hw⟩ := h n ha (by omega)
  cases w with
  | nil => exact ⟨x, [], hw.symm⟩
  | cons y w => exact ⟨y, w ++ [x], hw.symm.trans (by simp)⟩

/-- `get the lock`: a step that needs only the global mutex is made. -/
theorem Closing.ownG (h : Closing r u G) (hr : Reach C d f0 (r.st 0)) {f : CF τ φ} {L : List (Frame τ φ)} {m : Nat} (hst : (r.st m).stk u = .core f :: L)
    (hx : ((r.st m).thr u).exc = none) (hen : ∀ s : St τ φ δ, s.gOwner = none → ∃ ch, (stepCore C s u f L ch).isSome) : ∃ q ch, r.Own u m (.core f :: L) q ch :=
  Run.ownF hr h.fair hst hx fun j _ => by
    obtain ⟨m, hm, hg⟩ := h.glob j
    obtain ⟨ch, hc⟩ := hen _ hg
    exact ⟨m, hm, ch, hc⟩

/-- The end of `shutdown`: the second call of the log callback. -/
theorem Closing.fin (h : Closing r u G) (hr : Reach C d f0 (r.st 0)) {m : Nat} {v : Int} {f : φ} (h1 : r.To u G i (.client f :: .core (.sdEnd v) :: G) m) :
    ∃ q, r.To u G i G q := by
  obtain ⟨q, h2, h3, h4, h5⟩ := h.log' f v m h1.stk h1.exc
  have h6 := h1.over' (p := []) (by omega) (over_of_suf (p := []) h5) h3 h4
  obtain ⟨q', ch, o⟩ := Run.own hr h.fair.just h3 h4 fun m _ => ⟨.go, by simp [stepCore]⟩
  have s := o.core hr
  simp only [stepCore, Option.some.injEq] at s
  exact ⟨q' + 1, h6.own (p := []) o (by rw [← s]; simp [St.stk, St.ret]) (by rw [← s]; simpa [St.ret] using o.exc)⟩

/-- What a step of the blocked `shutdown` does. -/
def Fin (u : Nat) (G : List (Frame τ φ)) (s : St τ φ δ) : Prop :=
  (s.thr u).exc = none ∧ (s.stk u = G ∨ ∃ f v, s.stk u = .client f :: .core (.sdEnd v) :: G)

theorem park_step {s s' : St τ φ δ} {dl : Nat} {ch : Ch χ} (hst : s.stk u = .core (.sdPark dl) :: G) (hx : (s.thr u).exc = none)
    (h : stepCore C s u (.sdPark dl) G ch = some s') :
    Fin u G s' ∨ s.gcv = true ∧ s'.gcv = false ∧ s'.stk u = .core (.sdPark dl) :: G ∧ (s'.thr u).exc = none := by
  simp only [stepCore] at h
  have fin : ∀ v : Int, (match s.logCb with
      | none => some (s.ret u G .shutdown (.int v))
      | some f => some (({ s with gOwner := some u } : St τ φ δ).setStk u (.client f :: .core (.sdEnd v) :: G))) = some s' → Fin u G s' := by
    intro v h
    split at h <;> obtain rfl := Option.some.inj h
    · exact ⟨by simpa [St.ret] using hx, .inl (by simp [St.stk, St.ret])⟩
    · rename_i f _ _
      exact ⟨by simpa [St.setStk] using hx, .inr ⟨f, v, by simp [St.stk, St.setStk]⟩⟩
  split at h
  · contradiction
  split at h
  · split at h
    · rename_i hg
      split at h
      · exact .inl (fin _ h)
      · obtain rfl := Option.some.inj h; exact .inr ⟨hg, rfl, hst, hx⟩
    · contradiction
  · split at h
    · exact .inl (fin _ h)
    · contradiction
  · split at h
    · exact .inl (fin _ h)
    · contradiction
  · contradiction

/-- Blocked in `shutdown`: it ends at the latest after the deadline, unless the registry becomes empty again and again. -/
theorem Closing.park (h : Closing r u G) (hr : Reach C d f0 (r.st 0)) {m dl : Nat} (h1 : r.To u G i (.core (.sdPark dl) :: G) m) :
    (∃ q, r.To u G i G q) ∨ ∀ n, ∃ m, n ≤ m ∧ (r.st m).contexts ≠ [] ∧ (r.st (m + 1)).contexts = [] := by
  classical
  by_cases hinf : ∀ n, ∃ m, n ≤ m ∧ (r.st m).contexts ≠ [] ∧ (r.st (m + 1)).contexts = []
  · exact .inr hinf
  left
  push Not at hinf
  obtain ⟨N, hN⟩ := hinf
  have hgcv : ∀ q, N ≤ q → (r.st (q + 1)).gcv = true → (r.st q).gcv = true := by
    intro q hq hg
    rcases step_gcv (r.ok q) with h2 | ⟨h2, h3⟩
    · exact h2 hg
    · exact absurd h3 (hN q hq h2)
  let P : Nat → Prop := fun q => (r.st q).stk u = .core (.sdPark dl) :: G ∧ ((r.st q).thr u).exc = none
  have hstep : ∀ q, P q → P (q + 1) ∨ Fin u G (r.st (q + 1)) := by
    intro q hq
    by_cases hl : ∃ ch, r.lab q = .th u ch
    · obtain ⟨ch, hl⟩ := hl
      have hok := r.ok q
      rw [hl, step_th (r.reach hr q) (r.good q).1 (r.good q).2 hq.1 hq.2] at hok
      rcases park_step hq.1 hq.2 hok with h2 | ⟨-, -, h2⟩
      · exact .inr h2
      · exact .inl h2
    · have := r.same hr (t := u) (Nat.le_succ q) (by rw [hq.1]; simp) fun m' ha hb ch hc => hl ⟨ch, by obtain rfl : m' = q := (by omega); exact hc⟩
      exact .inl ⟨this.stk.trans hq.1, this.exc.trans hq.2⟩
  by_cases hf : ∃ k, (∀ q, m ≤ q → q ≤ m + k → P q) ∧ Fin u G (r.st (m + k + 1))
  · obtain ⟨k, h2, h3, h4⟩ := hf
    have hov : r.Over u G m (m + k + 1) := fun q ha hb => ⟨_, [], (h2 q ha (by omega)).1⟩
    rcases h4 with h4 | ⟨f, v, h4⟩
    · exact ⟨_, h1.over' (p := []) (by omega) hov h4 h3⟩
    · exact h.fin hr (h1.over' (p := []) (by omega) hov h4 h3)
  exfalso
  push Not at hf
  have hall' : ∀ k, ∀ q, m ≤ q → q ≤ m + k → P q := by
    intro k
    induction k with
    | zero => intro q ha hb; obtain rfl : q = m := (by omega); exact ⟨h1.stk, h1.exc⟩
    | succ k ih =>
      intro q ha hb
      rcases Nat.lt_or_eq_of_le hb with hb | rfl
      · exact ih q ha (by omega)
      · exact (hstep (m + k) (ih _ (by omega) (by omega))).resolve_right (hf k ih)
  have hall : ∀ q, m ≤ q → P q := fun q hq => hall' (q - m) q hq (by omega)
  have hnofin : ∀ q, m ≤ q → ¬ Fin u G (r.st (q + 1)) := fun q hq hfin => by
    obtain ⟨k, rfl⟩ := Nat.exists_eq_add_of_le hq
    exact hf k (hall' k) hfin
  -- a step after the deadline
  obtain ⟨D, hD⟩ := h.time dl
  have own : ∀ j, m ≤ j → ∃ q ch, j ≤ q ∧ stepCore C (r.st q) u (.sdPark dl) G ch = some (r.st (q + 1)) := by
    intro j hj
    obtain ⟨q, ch, o⟩ := Run.ownF hr h.fair (hall j hj).1 (hall j hj).2 fun j' hj' => by
      obtain ⟨m', hm, hg⟩ := h.glob (max j' D)
      refine ⟨m', by omega, .timeout, ?_⟩
      have : dl ≤ (r.st m').clock := Nat.le_trans hD (r.clock_le (by omega))
      simp only [stepCore, hg, Option.isSome_none, Bool.false_eq_true, if_false, this, if_true]
      split <;> rfl
    exact ⟨q, ch, o.le, o.core hr⟩
  obtain ⟨q1, ch1, p1, s1⟩ := own (max m N) (by omega)
  have g1 : (r.st (q1 + 1)).gcv = false := by
    rcases park_step (hall q1 (by omega)).1 (hall q1 (by omega)).2 s1 with h2 | ⟨-, h2, -⟩
    · exact absurd h2 (hnofin q1 (by omega))
    · exact h2
  have g2 : ∀ k, (r.st (q1 + 1 + k)).gcv = false := by
    intro k
    induction k with
    | zero => exact g1
    | succ k ih =>
      by_contra hc
      have := hgcv (q1 + 1 + k) (by omega) (by rw [show q1 + 1 + k + 1 = q1 + 1 + (k + 1) from rfl]; simpa only [Bool.not_eq_false] using hc)
      rw [ih] at this; cases this
  obtain ⟨q2, ch2, p2, s2⟩ := own (q1 + 1) (by omega)
  rcases park_step (hall q2 (by omega)).1 (hall q2 (by omega)).2 s2 with h2 | ⟨h2, -, -⟩
  · exact absurd h2 (hnofin q2 (by omega))
  · obtain ⟨k, rfl⟩ := Nat.exists_eq_add_of_le p2
    rw [g2 k] at h2; cases h2

/-- `notify_for_exit` for each of the identifiers; then `shutdown` looks whether threads are left. -/
theorem Closing.tell (h : Closing r u G) (hr : Reach C d f0 (r.st 0)) {T : Nat} (l : List Nat) : ∀ m, r.To u G i (.core (.sdNotify l T) :: G) m →
    (∃ q, r.To u G i G q) ∨ ∀ n, ∃ m, n ≤ m ∧ (r.st m).contexts ≠ [] ∧ (r.st (m + 1)).contexts = [] := by
  induction l with
  | nil =>
    intro m h1
    obtain ⟨q, ch, o⟩ := h.ownG hr h1.stk h1.exc fun s hg => ⟨.go, by
      simp only [stepCore, hg, Option.isSome_none, Bool.false_eq_true, if_false]
      split
      · split <;> rfl
      · rfl⟩
    have s := o.core hr
    simp only [stepCore] at s
    split at s
    · contradiction
    split at s
    · split at s <;> have s := Option.some.inj s
      · exact .inl ⟨_, h1.own (p := []) o (by rw [← s]; simp [St.stk, St.ret]) (by rw [← s]; simpa [St.ret] using o.exc)⟩
      · rename_i f _ _
        exact .inl (h.fin (f := f) (v := 0) hr (h1.own (p := []) o (by rw [← s]; simp [St.stk, St.setStk]) (by rw [← s]; simpa [St.setStk] using o.exc)))
    · have s := Option.some.inj s
      exact h.park (dl := (r.st q).clock + T) hr (h1.own (p := []) o (by rw [← s]; simp [St.stk, St.setStk]) (by rw [← s]; simpa [St.setStk] using o.exc))
  | cons id l ih =>
    intro m h1
    obtain ⟨q, ch, o⟩ := Run.own hr h.fair.just h1.stk h1.exc fun m _ => ⟨.go, by simp [stepCore]⟩
    have s := o.core hr
    simp only [stepCore, Option.some.injEq] at s
    have h2 := h1.own (p := []) (L := .core (.exitLook id) :: .core (.sdNotify l T) :: G) o (by rw [← s]; simp [St.stk, St.setStk]) (by rw [← s]; simpa [St.setStk] using o.exc)
    obtain ⟨q2, ch2, o2⟩ := h.ownG hr h2.stk h2.exc fun s hg => ⟨.go, by
      simp only [stepCore, hg, Option.isSome_none, Bool.false_eq_true, if_false]
      split <;> rfl⟩
    have s2 := o2.core hr
    simp only [stepCore] at s2
    split at s2
    · contradiction
    split at s2 <;> have s2 := Option.some.inj s2
    · exact ih _ (h2.own (p := [.core (.sdNotify l T)]) o2 (by rw [← s2]; simp [St.stk, St.ret]) (by rw [← s2]; simpa [St.ret] using o2.exc))
    · rename_i c hf _
      have h3 := h2.own (p := [.core (.sdNotify l T)]) (L := .core (.exitSet c) :: .core (.sdNotify l T) :: G) o2 (by rw [← s2]; simp [St.stk, St.setStk])
        (by rw [← s2]; simpa [St.setStk, St.hold, St.setCtx] using o2.exc)
      obtain ⟨q3, ch3, o3⟩ := Run.own hr h.fair.just h3.stk h3.exc fun m _ => ⟨.go, by simp only [stepCore]; split <;> rfl⟩
      have s3 := o3.core hr
      simp only [stepCore] at s3
      split at s3
      · have s3 := Option.some.inj s3
        have := (r.good (q3 + 1)).1
        rw [← s3] at this
        cases this
      have s3 := Option.some.inj s3
      have h4 := h3.own (p := [.core (.sdNotify l T)]) (L := .core (.release c .notifyExit .unit) :: .core (.sdNotify l T) :: G) o3 (by rw [← s3]; simp [St.stk, St.setStk])
        (by rw [← s3]; simpa [St.setStk, St.ev, St.setCtx] using o3.exc)
      obtain ⟨m5, p5, e5, x5, v5⟩ := Run.released hr h.fair.just (fun k l' => h.free' k c l' l T) h4.stk h4.exc
      exact ih m5 (h4.over' (p := [.core (.sdNotify l T)]) (by omega) v5 e5 x5)

/-- **C74.** `shutdown` returns, unless the registry becomes empty again and again (because threads register and unregister for ever). -/
theorem C74_shutdown (hr : Reach C d f0 (r.st 0)) (h : Closing r u G) {T : Nat} (hst : (r.st i).stk u = .core (Api.shutdown T).entry :: G)
    (hx : ((r.st i).thr u).exc = none) :
    (∃ m, i < m ∧ (r.st m).stk u = G ∧ ((r.st m).thr u).exc = none ∧ r.Over u G i m) ∨
      ∀ n, ∃ m, n ≤ m ∧ (r.st m).contexts ≠ [] ∧ (r.st (m + 1)).contexts = [] := by
  have done : ∀ m, r.To u G i G m → ∃ m, i < m ∧ (r.st m).stk u = G ∧ ((r.st m).thr u).exc = none ∧ r.Over u G i m := by
    intro m hm
    refine ⟨m, ?_, hm.stk, hm.exc, hm.over⟩
    rcases Nat.lt_or_eq_of_le hm.le with h1 | rfl
    · exact h1
    · have := hst.symm.trans hm.stk
      have := congrArg List.length this
      simp at this
  suffices (∃ q, r.To u G i G q) ∨ ∀ n, ∃ m, n ≤ m ∧ (r.st m).contexts ≠ [] ∧ (r.st (m + 1)).contexts = [] from
    this.imp (fun ⟨q, hq⟩ => done q hq) id
  have hj := h.fair.just
  have h0 : r.To u G i (.core (.sdIn T) :: G) i := ⟨Nat.le_refl _, hst, hx, fun q ha hb => absurd hb (by omega)⟩
  -- sdIn
  obtain ⟨q1, ch1, o1⟩ := Run.own hr hj h0.stk h0.exc fun m _ => ⟨.go, by simp only [stepCore]; split <;> rfl⟩
  have s1 := o1.core hr
  simp only [stepCore] at s1
  split at s1 <;> have s1 := Option.some.inj s1
  · exact .inl ⟨_, h0.own (p := []) o1 (by rw [← s1]; simp [St.stk, St.ret]) (by rw [← s1]; simpa [St.ret] using o1.exc)⟩
  have h1 := h0.own (p := []) (L := .core (.sdDec T) :: G) o1 (by rw [← s1]; simp [St.stk, St.setStk]) (by rw [← s1]; simpa [St.setStk] using o1.exc)
  -- sdDec
  obtain ⟨q2, ch2, o2⟩ := Run.own hr hj h1.stk h1.exc fun m _ => ⟨.go, by simp only [stepCore]; split <;> rfl⟩
  have s2 := o2.core hr
  simp only [stepCore] at s2
  split at s2 <;> have s2 := Option.some.inj s2
  · exact .inl ⟨_, h1.own (p := []) o2 (by rw [← s2]; simp [St.stk, St.ret]) (by rw [← s2]; simpa [St.ret, St.ev] using o2.exc)⟩
  have h2 := h1.own (p := []) (L := .core .unreg :: .core (.sdLog T) :: G) o2 (by rw [← s2]; simp [St.stk, St.setStk]) (by rw [← s2]; simpa [St.setStk, St.ev] using o2.exc)
  -- unregister_this_thread
  obtain ⟨m4, h4⟩ : ∃ m, r.To u G i (.core .unregClear :: .core (.sdLog T) :: G) m := by
    obtain ⟨q3, ch3, o3⟩ := h.ownG hr h2.stk h2.exc fun s hg => ⟨.go, by
      simp only [stepCore, hg, Option.isSome_none, Bool.false_eq_true, if_false]
      split <;> rfl⟩
    have s3 := o3.core hr
    simp only [stepCore] at s3
    split at s3
    · contradiction
    split at s3 <;> have s3 := Option.some.inj s3
    · exact ⟨_, h2.own (p := [.core (.sdLog T)]) o3 (by rw [← s3]; simp [St.stk, St.setStk]) (by rw [← s3]; simpa [St.setStk] using o3.exc)⟩
    · rename_i c hf _
      have h3 := h2.own (p := [.core (.sdLog T)]) (L := .core (.release c .internal .unit) :: .core .unregClear :: .core (.sdLog T) :: G) o3
        (by rw [← s3]; simp [St.stk, St.setStk]) (by rw [← s3]; simpa [St.setStk, St.hold, St.ev, St.setCtx] using o3.exc)
      obtain ⟨m4, p4, e4, x4, v4⟩ := Run.released hr hj (fun k l => h.free k c l T) h3.stk h3.exc
      exact ⟨m4, h3.over' (p := [.core .unregClear, .core (.sdLog T)]) (by omega) v4 e4 x4⟩
  obtain ⟨q5, ch5, o5⟩ := Run.own hr hj h4.stk h4.exc fun m _ => ⟨.go, by simp [stepCore]⟩
  have s5 := o5.core hr
  simp only [stepCore, Option.some.injEq] at s5
  have h5 := h4.own (p := [.core (.sdLog T)]) (L := .core (.sdLog T) :: G) o5 (by rw [← s5]; simp [St.stk, St.ret]) (by rw [← s5]; simpa [St.ret] using o5.exc)
  -- the first call of the log callback
  obtain ⟨m6, h6⟩ : ∃ m, r.To u G i (.core (.sdIds T) :: G) m := by
    obtain ⟨q6, ch6, o6⟩ := Run.own hr hj h5.stk h5.exc fun m _ => ⟨.go, by simp only [stepCore]; split <;> rfl⟩
    have s6 := o6.core hr
    simp only [stepCore] at s6
    split at s6 <;> have s6 := Option.some.inj s6
    · exact ⟨_, h5.own (p := []) o6 (by rw [← s6]; simp [St.stk, St.setStk]) (by rw [← s6]; simpa [St.setStk] using o6.exc)⟩
    · rename_i f hf _
      have h6 := h5.own (p := []) (L := .client f :: .core (.sdIds T) :: G) o6 (by rw [← s6]; simp [St.stk, St.setStk]) (by rw [← s6]; simpa [St.setStk] using o6.exc)
      obtain ⟨m7, p7, e7, x7, v7⟩ := h.log f T _ h6.stk h6.exc
      exact ⟨m7, h6.over' (p := []) (by omega) (over_of_suf (p := []) v7) e7 x7⟩
  -- the identifiers
  obtain ⟨q7, ch7, o7⟩ := h.ownG hr h6.stk h6.exc fun s hg => ⟨.go, by simp [stepCore, hg]⟩
  have s7 := o7.core hr
  simp only [stepCore] at s7
  split at s7
  · contradiction
  have s7 := Option.some.inj s7
  exact h.tell (T := T) hr ((r.st q7).contexts.map (·.1)) _ (h6.own (p := []) o7 (by rw [← s7]; simp [St.stk, St.setStk]) (by rw [← s7]; simpa [St.setStk] using o7.exc))

/-! ## Example: `shutdown` times out, as thread 1, which is registered, does not react -/

/-- The execution of `shutProg` in which the time is up for the blocked `shutdown`; then only time passes. -/
def shutSteps : List (Lbl Unit) := go 0 9 ++ go 1 4 ++ go 0 13 ++ [.tick 100, .th 0 .timeout] ++ go 0 2

/-- Hypotheses of `C74_shutdown`. -/
example : ∃ r : Run (tableClient (prog shutProg)), Reach (tableClient (prog shutProg)) () 1 (r.st 0) ∧ Closing r 0 [.client 4] ∧
    (r.st 13).stk 0 = .core (Api.shutdown 100).entry :: [.client 4] ∧ ((r.st 13).thr 0).exc = none ∧
    ∀ i, 13 ≤ i → (r.st i).contexts ≠ [] := by
  have hend : (exec shutProg shutSteps).map (fun s => !s.ub && !s.term && !decide ((s.thr 0).status = .running) && (s.stk 0).isEmpty && s.gOwner.isNone &&
      (s.thr 0).exc.isNone && !s.contexts.isEmpty) = some true := by decide +kernel
  have htab : (List.range 30).all (fun i => ((exec shutProg (shutSteps.take i)).map (fun s => (s.thr 0).exc.isNone && (decide (i < 13) || !s.contexts.isEmpty))).getD false) = true := by decide +kernel
  have h13 : (exec shutProg (shutSteps.take 13)).map (fun s => s.stk 0) = some (.core (Api.shutdown 100).entry :: [.client 4]) := by decide +kernel
  obtain ⟨s', hs', ho⟩ := Option.map_eq_some_iff.1 hend
  simp only [Bool.and_eq_true, Bool.not_eq_true', Option.isNone_iff_eq_none] at ho
  obtain ⟨⟨⟨⟨⟨⟨e1, e2⟩, e3⟩, e4⟩, e5⟩, e6⟩, e7⟩ := ho
  obtain ⟨r, hr0, hr, hl⟩ := Run.ofTicks hs' e1 e2
  have hlen : shutSteps.length = 30 := rfl
  rw [hlen] at hr hl
  have hR : Reach (tableClient (prog shutProg)) () 1 (r.st 0) := by rw [hr0]; exact ⟨[], rfl⟩
  have hfin : ∀ i, 30 ≤ i → r.st i = { s' with clock := s'.clock + (i - 30) } := fun i hi => by
    obtain ⟨k, rfl⟩ := Nat.exists_eq_add_of_le hi
    rw [hl k, Nat.add_sub_cancel_left]
  have hx : ∀ i, ((r.st i).thr 0).exc = none ∧ (13 ≤ i → (r.st i).contexts ≠ []) := by
    intro i
    rcases Nat.lt_or_ge i 30 with h | h
    · have h1 := List.all_eq_true.1 htab i (List.mem_range.2 h)
      simp only [exec, hr i (by omega), Option.map_some, Option.getD_some, Bool.and_eq_true, Option.isNone_iff_eq_none, Bool.or_eq_true, decide_eq_true_eq, Bool.not_eq_true',
        List.isEmpty_eq_false_iff] at h1
      exact ⟨h1.1, fun h2 => h1.2.resolve_left (by omega)⟩
    · rw [hfin i h]
      exact ⟨e6, fun _ => List.isEmpty_eq_false_iff.1 e7⟩
  have hret := fun g L => Run.returns_end hR (t := 0) (N := 30) (fun i hi => by rw [hfin i hi]; exact List.isEmpty_iff.1 e4) (fun i => (hx i).1) g L
  refine ⟨r, hR, ⟨?_, ?_, ?_, fun _ _ => hret _ _, fun _ _ => hret _ _, fun _ _ _ _ => hret _ _, fun _ _ _ _ _ => hret _ _⟩, ?_, (hx 13).1, fun i hi => (hx i).2 hi⟩
  · intro i hi
    exfalso
    obtain ⟨q, h1, ch, h2⟩ := hi (max i 30) (by omega)
    rw [hfin q (by omega)] at h2
    simp [step, e1, e2, of_decide_eq_false e3] at h2
  · exact fun n => ⟨30 + n, by rw [hl n]; exact Nat.le_add_left _ _⟩
  · exact fun n => ⟨30 + n, by omega, by rw [hl n]; exact e5⟩
  · rw [exec, hr 13 (by omega), Option.map_some] at h13
    exact Option.some.inj h13

end
end Itc
