import Verif.Props.LiveEnd
import Verif.Props.Obj

/-!
# C72: join, destruction and assignment of thread objects return
-/
namespace Itc
open Core Obj
section
variable {τ φ δ χ : Type} {U : User τ φ δ χ} {ud : δ} {f0 : φ} {r : Run (client U)}

/-- An object on which thread `u` performs an operation is changed by nobody else. -/
theorem obj_step {s s' : OSt τ φ δ} {l : Lbl χ} (hr : OR U ud f0 s) (hs : step (client U) s l = some s') {u o : Nat} {g : OFrame φ} (hg : .client g ∈ s.stk u)
    (ho : o ∈ objs g) (hw : (∀ ch, l ≠ .th u ch) ∨ ∃ x rest, s.stk u = x :: rest ∧ .client g ∈ rest) : s'.data.slot o = s.data.slot o := by
  cases l with
  | tick m => rw [step_tick _ s s' m hs]
  | th t ch =>
    rcases data_step hs with ⟨h1, -⟩ | ⟨f, rest, a, -, hold, hos, -⟩
    · rw [h1]
    · refine (os_keep hos (fun hof => ?_) (tok_busy hr hg ho)).1
      by_cases hut : u = t
      · subst hut
        rcases hw with hw | ⟨x, rest', hw, hw'⟩
        · exact hw ch rfl
        · rw [hold] at hw; cases hw
          exact tok_top hr hold hof hg ho (.inr hw')
      · exact tok_top hr hold hof hg ho (.inl hut)

theorem obj_over (hr : OR U ud f0 (r.st 0)) {u o i m : Nat} {g : OFrame φ} {L : List (Frame τ (OFrame φ))} (ho : o ∈ objs g) (him : i ≤ m)
    (h : r.Over u (.client g :: L) i m) : (r.st m).data.slot o = (r.st i).data.slot o := by
  obtain ⟨k, rfl⟩ := Nat.exists_eq_add_of_le him
  induction k with
  | zero => rfl
  | succ k ih =>
    rw [← ih (by omega) fun q ha hb => h q ha (by omega)]
    obtain ⟨x, p, hq⟩ := h (i + k) (by omega) (by omega)
    exact obj_step (r.reach hr _) (r.ok (i + k)) (u := u) (g := g) (by rw [hq]; simp) ho (.inr ⟨x, _, hq, by simp⟩)

theorem obj_wait (hr : OR U ud f0 (r.st 0)) {u o i m : Nat} {g : OFrame φ} {L : List (Frame τ (OFrame φ))} {ch : Ch χ} (ho : o ∈ objs g)
    (h : r.Own u i (.client g :: L) m ch) {q : Nat} (hq : i ≤ q) (hqm : q ≤ m) : (r.st q).data.slot o = (r.st i).data.slot o := by
  obtain ⟨k, rfl⟩ := Nat.exists_eq_add_of_le hq
  have : ∀ k', k' ≤ k → (r.st (i + k')).data.slot o = (r.st i).data.slot o := by
    intro k'
    induction k' with
    | zero => intro _; rfl
    | succ k' ih =>
      intro hk
      rw [← ih (by omega)]
      exact obj_step (r.reach hr _) (r.ok (i + k')) (u := u) (g := g) (by rw [h.keep (i + k') (by omega) (by omega)]; simp) ho
        (.inl (h.no (i + k') (by omega) (by omega)))
  exact this k (Nat.le_refl _)

variable {u n c id i j : Nat} {f g : OFrame φ} {K : JK} {L : List (Frame τ (OFrame φ))}

/-- **C72.** Thread `u` executes `join()` of a thread object, called by the user, by `~thread` or by `operator=` (`K`), whose thread `n` executes the function of
    `make_thread`: it gets to its loop later, or it was there at `i` and has not been joined since (it may have ended meanwhile).  Then the operation
    returns, after `std::thread::join` has. -/
theorem C72_join (hr : OR U ud f0 (r.st 0)) (E : Ending r n c f g i)
    (hown : ∀ q, i ≤ q → q ≤ j → ((r.st q).thr n).status ≠ .free)
    (hreg : .registered c id n ∈ (r.st j).log) (hu : r.Strong u) (hne : n ≠ u)
    (hst : (r.st j).stk u = .client (.jnAsk K) :: L) (hx : ((r.st j).thr u).exc = none) (hslot : (r.st j).data.slot K.obj = some ⟨⟨some n, id⟩, true⟩)
    (hd : ∀ k c l, r.Returns u ((client U).destroy k) (.core (.destroyList c l .notifyExit .unit) :: .client (.jnStd K) :: L)) :
    ∃ q m, j < q ∧ q < m ∧ .joined u K.obj n ∈ (r.st q).data.olog ∧ (r.st m).stk u = L ∧ ((r.st m).thr u).exc = none := by
  have en : ∀ (x : OFrame φ) L m, (∀ y, x ≠ .usr y) → ∃ ch, (stepClient (client U) (r.st m) u x L ch).isSome := by
    intro x L m hx
    refine ⟨.go, ?_⟩
    simp only [stepClient]
    split
    · rename_i hn
      exfalso
      cases x <;> simp only [client, ostep] at hn
      case usr y => exact hx y rfl
      all_goals (repeat' split at hn) <;> cases hn
    · split <;> rfl
  have hK := obj_objs K
  -- notify_for_exit is called
  obtain ⟨m1, ch1, o1⟩ := Run.own hr hu.just hst hx fun m _ => en _ _ m (by simp)
  have w1 := fun q (h1 : j ≤ q) (h2 : q ≤ m1) => (obj_wait hr (o := K.obj) (by exact hK) o1 h1 h2).trans hslot
  have s1 := o1.client hr
  have p1 := o1.le
  have e1 : (r.st (m1 + 1)).stk u = .core (.exitLook id) :: .client (.jnStd K) :: L ∧ ((r.st (m1 + 1)).thr u).exc = none ∧
      (r.st (m1 + 1)).data.slot = (r.st m1).data.slot := by
    cases ch1 <;> simp only [stepClient, client, reduceCtorEq] at s1
    simp only [ostep, w1 m1 p1 (Nat.le_refl _), Option.some.injEq] at s1
    rw [← s1]
    exact ⟨by simp [St.stk, St.setStk, Api.entry], by simpa [St.setStk] using o1.exc, rfl⟩
  -- it returns
  obtain ⟨m2, q2, p2, v2, e2, x2, t2⟩ := Run.told hr E hu (r.logm (by omega) hreg) e1.1 e1.2.1 hd
  have w2 : ∀ q, m1 + 1 ≤ q → q ≤ m2 → (r.st q).data.slot K.obj = some ⟨⟨some n, id⟩, true⟩ := fun q h1 h2 => by
    rw [obj_over hr (o := K.obj) (g := .jnStd K) (by exact hK) h1 fun q' h3 h4 => v2 q' h3 (by omega), e1.2.2]
    exact w1 m1 p1 (Nat.le_refl _)
  -- std::thread::join is called
  obtain ⟨m3, ch3, o3⟩ := Run.own hr hu.just e2 x2 fun m _ => en _ _ m (by simp)
  have p3 := o3.le
  have w3 := fun q (h1 : m2 ≤ q) (h2 : q ≤ m3) => (obj_wait hr (o := K.obj) (by exact hK) o3 h1 h2).trans (w2 m2 (by omega) (Nat.le_refl _))
  have hlive : ∀ q, min i j ≤ q → q < m3 + 1 → ((r.st q).thr n).status ≠ .free := fun q h1 h2 => by
    rcases Nat.lt_or_ge q j with h1' | h1
    · exact hown q (by omega) (by omega)
    have : (r.st q).data.slot K.obj = some ⟨⟨some n, id⟩, true⟩ := by
      rcases Nat.lt_or_ge m1 q with h | h
      · rcases Nat.lt_or_ge q m2 with h' | h'
        · exact w2 q (by omega) (by omega)
        · exact w3 q h' (by omega)
      · exact w1 q h1 h
    exact ((own_reach (r.reach hr q)).live (h := .inl K.obj) (by show slotH _ _ = _; rw [slotH_some this])).1
  have s3 := o3.client hr
  have e3 : (r.st (m3 + 1)).stk u = .core (.joinIn n) :: .client (.jnEnd K n) :: L ∧ ((r.st (m3 + 1)).thr u).exc = none := by
    cases ch3 <;> simp only [stepClient, client, reduceCtorEq] at s3
    simp only [ostep, w3 m3 p3 (Nat.le_refl _), St.view, hne, if_false, Option.some.injEq] at s3
    rw [← s3]
    exact ⟨by simp [St.stk, St.setStk, Api.entry], by simpa [St.setStk] using o3.exc⟩
  -- the thread ends
  obtain ⟨j', m', a1, a2, a3, a4, -, -, -, a5⟩ := C72_ends hr E t2
  obtain ⟨m4, ch4, o4, -, e4, x4, -⟩ := Run.joins (j0 := min i j) hr hu.just e3.1 e3.2 (fun q hq hk => by
    rcases Nat.lt_or_ge q (m3 + 1) with h | h
    · exact hlive q hq h
    · exact ((own_reach (r.reach hr q)).live (h := .inr u) (by show topH ((r.st q).stk u) = _; rw [hk q h (Nat.le_refl _)]; rfl)).1) (by omega) a5
  have p4 := o4.le
  -- and the rest of the operation
  obtain ⟨m5, ch5, o5⟩ := Run.own hr hu.just e4 x4 fun m _ => en _ _ m (by simp)
  have s5 := o5.client hr
  have p5 := o5.le
  have e5 : (r.st (m5 + 1)).stk u = .client K.next :: L ∧ ((r.st (m5 + 1)).thr u).exc = none ∧ .joined u K.obj n ∈ (r.st (m5 + 1)).data.olog := by
    cases ch5 <;> simp only [stepClient, client, reduceCtorEq] at s5
    simp only [ostep, Option.some.injEq] at s5
    rw [← s5]
    exact ⟨by simp [St.stk, St.setStk], by simpa [St.setStk] using o5.exc, by simp [OData.ev, St.setStk, St.view]⟩
  obtain ⟨m6, ch6, o6⟩ := Run.own hr hu.just e5.1 e5.2.1 fun m _ => en _ _ m (by cases K <;> simp [JK.next])
  have s6 := o6.client hr
  have p6 := o6.le
  refine ⟨m5 + 1, m6 + 1, by omega, by omega, e5.2.2, ?_⟩
  have ht := (r.good (m6 + 1)).2
  cases ch6 with
  | go =>
    cases K <;> simp only [stepClient, client, JK.next, ostep] at s6
    all_goals
      split at s6
      · contradiction
      rename_i hstep
      repeat' split at hstep
      all_goals
        cases hstep
        have s6 := Option.some.inj s6
        rw [← s6] at ht ⊢
        first
          | cases ht
          | exact ⟨by simp [St.stk], by simpa using o6.exc⟩
  | _ => cases K <;> simp [stepClient, client, JK.next] at s6

/-! ## A concrete case -/

/-- Main makes object 0 with thread 5, sends it task 7 and destroys the object; the thread registers, executes the loop at 11 until it is told to exit, and
    unregisters. -/
def endUser : User Nat Nat Unit Unit where
  run k := k
  destroy _ := 0
  step v _ f _ ch := match ch with
    | .go => some ((), match f with
      | 1 => .obj (.make 0 5 10) 2
      | 2 => .core (.invoke 1 7) 3
      | 3 => .obj (.dtor 0) 0
      | 10 => .core .registerThis 11
      | 11 => if v.exit then .core .unregisterThis 12 else .core .wait 11
      | _ => .ret .unit)
    | _ => none
  onThrow _ _ := none

def endLbls : List (Lbl Unit) := go 0 8 ++ go 5 6 ++ go 0 4 ++ go 5 7 ++ go 0 5 ++ go 5 7 ++ go 0 8

def endExec (ls : List (Lbl Unit)) : Option (OSt Nat Nat Unit) := run (client endUser) (Core.init { ud := () } (.usr 1)) ls

/-- The stacks of thread 5. -/
def endTab : List (List (Frame Nat (OFrame Nat))) :=
  List.replicate 3 [] ++ List.replicate 6 [.client (.usr 10)] ++
  [[.core (.regLook none), .client (.usr 11)], [.core (.regDone 0 true), .client (.usr 11)],
   [.core (.release 0 (.register 5) (.nat 1)), .client (.usr 11)], [.client (.usr 11)], [.core (.waitIn none), .client (.usr 11)]] ++
  List.replicate 5 [.core (.parked 0 none), .client (.usr 11)] ++
  [[.client (.usr 7), .core (.ran 0 7 (.toWait false)), .client (.usr 11)], [.core (.ran 0 7 (.toWait false)), .client (.usr 11)],
   [.client (.usr 0), .core (.freed 0 7 (.toWait false)), .client (.usr 11)], [.core (.freed 0 7 (.toWait false)), .client (.usr 11)],
   [.client (.usr 11)], [.core (.waitIn none), .client (.usr 11)]] ++
  List.replicate 6 [.core (.parked 0 none), .client (.usr 11)] ++
  [[.client (.usr 11)], [.core .unreg, .client (.usr 12)], [.core (.release 0 .internal .unit), .core .unregClear, .client (.usr 12)],
   [.core .unregClear, .client (.usr 12)], [.client (.usr 12)]] ++ List.replicate 10 []

theorem end_tab : (List.range 46).map (fun i => (endExec (endLbls.take i)).map fun s => (s.stk 5, (s.thr 5).exc)) =
    endTab.map fun x => some (x, none) := by decide +kernel

/-- Main destroys no task. -/
theorem end_main : (List.range 46).map (fun i => (endExec (endLbls.take i)).map fun s =>
    match s.stk 0 with | .client _ :: .core _ :: _ => true | _ => false) = List.replicate 46 (some false) := by decide +kernel

theorem end_unr : (List.range 46).map (fun i => (endExec (endLbls.take i)).map fun s =>
    decide ([.client (.usr 11)] <:+ s.stk 5) && s.log.any fun | .unregistered .. => true | _ => false) = List.replicate 46 (some false) := by
  decide +kernel

theorem end_end : (endExec endLbls).map (fun s => (s.ub, s.term, decide ((s.thr 0).status = .running), decide ((s.thr 5).status = .running), s.gOwner)) =
    some (false, false, false, false, none) := by decide +kernel

theorem end_ran {i : Nat} {g : OFrame Nat} {x : CF Nat (OFrame Nat)} {L : List (Frame Nat (OFrame Nat))} (h : i < 46)
    (hi : endTab.getD i [] = .client g :: .core x :: L) : (i = 19 ∨ i = 21) ∧ endTab.getD (i + 1) [] = .core x :: L := by
  interval_cases i <;> simp [endTab] at hi <;> simp [endTab, hi]

/-- Hypotheses of `C72_leaves`, `C72_ends` and `C72_join`: the destructor of object 0 tells thread 5 to exit and joins it. -/
example : ∃ r : Run (client endUser), OR endUser () 1 (r.st 0) ∧ Ending r 5 0 (.usr 11) (.usr 12) 12 ∧
    (∀ q, 12 ≤ q → q ≤ 27 → ((r.st q).thr 5).status ≠ .free) ∧ .registered 0 1 5 ∈ (r.st 27).log ∧ r.Strong 0 ∧
    (r.st 27).stk 0 = [.client (.jnAsk (.dtor 0)), .client (.usr 0)] ∧ ((r.st 27).thr 0).exc = none ∧
    (r.st 27).data.slot 0 = some ⟨⟨some 5, 1⟩, true⟩ ∧
    (∀ k c l, r.Returns 0 ((client endUser).destroy k) (.core (.destroyList c l .notifyExit .unit) :: .client (.jnStd (.dtor 0)) :: [.client (.usr 0)])) ∧
    .exitSet 0 ∈ (r.st 30).log := by
  obtain ⟨s', hs', ho⟩ := Option.map_eq_some_iff.1 end_end
  simp only [Prod.mk.injEq, decide_eq_false_iff_not] at ho
  obtain ⟨r, h0, hr, hl⟩ := Run.ofList hs' ho.1 ho.2.1
  have hl : ∀ i, 45 ≤ i → r.st i = s' := hl
  have htab : ∀ i, i < 46 → ((r.st i).stk 5, ((r.st i).thr 5).exc) = (endTab.getD i [], none) := by
    intro i hi
    have h1 := congrArg (fun l => l[i]?) end_tab
    have h2 : i < endTab.length := hi
    simp only [List.getElem?_map, List.getElem?_range hi, Option.map_some, endExec, hr i, List.getElem?_eq_getElem h2] at h1
    rw [List.getD_eq_getElem?_getD, List.getElem?_eq_getElem h2]
    exact Option.some.inj (Option.some.inj h1)
  have hrep : ∀ (g : OSt Nat Nat Unit → Bool), (List.range 46).map (fun i => (endExec (endLbls.take i)).map g) = List.replicate 46 (some false) →
      ∀ i, g (r.st i) = false := by
    intro g h i
    have : ∀ i, i < 46 → g (r.st i) = false := by
      intro i hi
      have h1 := congrArg (fun l => l[i]?) h
      simp only [List.getElem?_map, List.getElem?_range hi, Option.map_some, endExec, hr i, List.getElem?_replicate, hi, if_true] at h1
      exact Option.some.inj (Option.some.inj h1)
    rcases Nat.lt_or_ge i 46 with h1 | h1
    · exact this i h1
    · rw [hl i (by omega), ← hl 45 (by omega)]; exact this 45 (by omega)
  have hobs : ∀ {β : Type} (g : OSt Nat Nat Unit → β) (i : Nat) (b : β), (endExec (endLbls.take i)).map g = some b → g (r.st i) = b := by
    intro β g i b h
    simp only [endExec, hr i, Option.map_some] at h
    exact Option.some.inj h
  have hret : ∀ g x L, r.Returns 5 g (.core x :: L) := by
    intro g x L i hi _
    rcases Nat.lt_or_ge i 46 with h | h
    · rw [show (r.st i).stk 5 = _ from congrArg Prod.fst (htab i h)] at hi
      obtain ⟨h1, h2⟩ := end_ran h hi
      have h3 := htab (i + 1) (by omega)
      rw [h2] at h3
      refine ⟨i + 1, by omega, congrArg Prod.fst h3, congrArg Prod.snd h3, fun m m1 m2 => ?_⟩
      obtain rfl | rfl : m = i ∨ m = i + 1 := by omega
      · rw [show (r.st m).stk 5 = _ from congrArg Prod.fst (htab m h), hi]
        exact ⟨[.client g], rfl⟩
      · rw [show (r.st (i + 1)).stk 5 = _ from congrArg Prod.fst h3]
        exact List.suffix_refl _
    · have h45 := congrArg Prod.fst (htab 45 (by omega))
      rw [hl 45 (by omega), ← hl i (by omega), hi] at h45
      simp [endTab] at h45
  have hfair : ∀ t, (s'.thr t).status ≠ .running → r.Strong t := by
    intro t ht i hi
    exfalso
    obtain ⟨q, h1, ch, h2⟩ := hi (max i 45) (by omega)
    rw [hl q (by omega)] at h2
    simp [step, ho.1, ho.2.1, ht] at h2
  refine ⟨r, ?_, ⟨hfair 5 ho.2.2.2.1, ⟨⟨?_, ?_⟩, ?_, ?_, ?_⟩, ⟨?_, ?_, ?_⟩, ?_, fun k b => hret _ _ _, fun k b => hret _ _ _, fun k c l => hret _ _ _, ?_⟩,
    ?_, ?_, hfair 0 ho.2.2.1, ?_, ?_, ?_, ?_, ?_⟩
  · rw [h0]; exact ⟨[], rfl⟩
  · intro v d rv; exact ⟨.go, rfl⟩
  · intro v d rv ch d' a hv h
    cases ch <;> simp [client, ostep, endUser, hv] at h
    exact h.2.symm
  · intro v d rv ch d' a hv h
    cases ch <;> simp [client, ostep, endUser, hv] at h
    exact h.2.symm
  · intro v d rv; exact ⟨.go, rfl⟩
  · intro v d rv ch d' a h
    cases ch <;> simp [client, ostep, endUser] at h
    exact ⟨_, h.2.symm⟩
  · exact (congrArg Prod.fst (htab 12 (by omega))).trans rfl
  · exact (congrArg Prod.snd (htab 12 (by omega))).trans rfl
  · exact hobs (fun s => s.loc 5) 12 _ (by decide +kernel)
  · intro i j h1 _ h2 id n h3
    have := hrep _ end_unr j
    simp only [h2 j h1 (Nat.le_refl _), decide_true, Bool.true_and, List.any_eq_false] at this
    exact absurd rfl (this _ h3)
  · intro n
    exact ⟨max n 45, by omega, by rw [hl _ (by omega)]; exact ho.2.2.2.2⟩
  · intro m h1 h2
    have := hobs (fun s => decide ((s.thr 5).status = .free)) m false (by interval_cases m <;> decide +kernel)
    simpa using this
  · exact of_decide_eq_true (hobs (fun s => decide (.registered 0 1 5 ∈ s.log)) 27 _ (by decide +kernel))
  · exact hobs (fun s => s.stk 0) 27 _ (by decide +kernel)
  · exact hobs (fun s => (s.thr 0).exc) 27 _ (by decide +kernel)
  · exact hobs (fun s => s.data.slot 0) 27 _ (by decide +kernel)
  · intro k c l i hi _
    have := hrep _ end_main i
    simp [hi] at this
  · exact of_decide_eq_true (hobs (fun s => decide (.exitSet 0 ∈ s.log)) 30 _ (by decide +kernel))

end
end Itc
