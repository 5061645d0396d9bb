import Verif.Props.LiveSet

/-!
# C81: then and async return
-/

namespace Itc
open Core Sync

section
variable {α φ δ χ : Type} {A : App α φ δ χ} {ad : δ} {i0 : φ} {r : Run (client A)} {v j m p id : Nat} {as b : Bool} {a : α} {L : List (Fr α φ)} {c : Kont α}

/-- Assumptions on thread `v`, which launches the task `c` (future.hpp:657-678), called from `K` above `L`: the scheduler is strongly fair to it and the global
    mutex is not held for ever; the destructors of tasks that it executes return, and so does the function of the task if it is executed in place. -/
structure Launches (r : Run (client A)) (v : Nat) (K : LK α) (c : Kont α) (L : List (Fr α φ)) : Prop where
  fair : r.Strong v
  glob : GlobFree r
  drop : Drops r v (.laRet K c) L
  run : r.Returns v (.ftRun c.p c.body) (.client (.laInl K c) :: L)

/-- launch gives the task to a queue, or has kept it. -/
theorem AtN.launch {K : LK α} (hr : SR A ad i0 (r.st 0)) (h : Launches r v K c L) (ha : AtN r v L j m [.client (.laIn K c)]) :
    ∃ m' kept sd, m < m' ∧ AtN r v L j m' [.client (sd : SFrame α φ)] ∧ ActTo (r.st m') (r.st (m' + 1)) v L (laNext K c kept) := by
  obtain ⟨m2, sd, x, h7, h2, h3, h4, h5⟩ := ha.cl hr h.fair (by simp) fun m => by
    simp only [sstep]; repeat' split
    all_goals exact ⟨_, rfl⟩
  cases h3 with
  | laQueue =>
    obtain ⟨m3, h8, h9⟩ := AtN.invoke hr h.fair h.glob h.drop (by simp) (h2.succ (G' := [_, _]) h5.1 h5.2.1)
    obtain ⟨m4, sd, x, h10, h2, h3, h4, h5⟩ := h9.cl hr h.fair (by simp) fun m => ⟨_, rfl⟩
    cases h3
    exact ⟨m4, _, _, by omega, h2, h5⟩
  | laInl =>
    obtain ⟨m3, h8, h9⟩ := AtN.back _ _ h.run (h2.succ (G' := [_, _]) h5.1 h5.2.1)
    obtain ⟨m4, sd, x, h10, h2, h3, h4, h5⟩ := h9.cl hr h.fair (by simp) fun m => ⟨_, rfl⟩
    cases h3
    exact ⟨m4, _, _, by omega, h2, h5⟩

/-- A call from the caller `f`. -/
theorem AtN.below {f : Fr α φ} (h : AtN r v (f :: L) j m []) {i : Nat} (hij : i ≤ j) (hs : ∀ q, i ≤ q → q < j → ∃ pre x, (r.st q).stk v = pre ++ x :: L) :
    AtN r v L i m [f] :=
  ⟨Nat.le_trans hij h.le, h.stk, h.exc, fun q h1 h2 => by
    rcases Nat.lt_or_ge q j with hq | hq
    · exact hs q h1 hq
    · obtain ⟨pre, x, hp⟩ := h.suf q hq h2
      exact ⟨pre ++ [x], f, by rw [hp]; simp⟩⟩

/-- **C81, async.** async with the id of a thread (future.hpp:682-692) returns, without an exception: if the scheduler is strongly fair to the calling thread, the
    global mutex is not held for ever, and the function returns if it is executed in place, as do the destructors that the call executes. -/
theorem C81_async (hr : SR A ad i0 (r.st 0)) (h : ∀ q, Launches r v .as ⟨id, as, q, a⟩ L)
    (hd : ∀ q, r.Returns v (.ftDtor q a) (.client (.done (.nat q)) :: L))
    (hst : (r.st j).stk v = .client (SApi.async id as b a).entry :: L) (hexc : ((r.st j).thr v).exc = none) :
    ∃ m, r.Ends v L j m ∧ ((r.st m).thr v).exc = none := by
  have h0 : AtN r v L j j [.client (.asIn id as b a)] := ⟨Nat.le_refl _, hst, hexc, fun q h1 h2 => by omega⟩
  obtain ⟨m1, sd, x, h1, h2, h3, h4, h5⟩ := h0.cl hr (h 0).fair (by simp) fun m => ⟨_, rfl⟩
  cases h3
  obtain ⟨m2, kept, f, h6, h7, h8⟩ := AtN.launch hr (h _) (h2.succ (G' := [_]) h5.1 h5.2.1)
  cases kept with
  | false =>
    simp only [laNext, Bool.false_eq_true, if_false] at h8
    have h9 : AtN r v L j (m2 + 1) [] := h7.succ (G' := []) h8.1 h8.2.1
    exact ⟨_, h9.ends (by omega), h9.exc⟩
  | true =>
    simp only [laNext, if_true] at h8
    obtain ⟨m3, h9, h10⟩ := AtN.back _ _ (hd _) (h7.succ (G' := [_, _]) h8.1 h8.2.1)
    obtain ⟨m4, h11, h12⟩ := h10.noop hr (h 0).fair
    exact ⟨_, h12.ends (by omega), h12.exc⟩

/-- The guard is taken. -/
theorem AtN.scIn (hr : SR A ad i0 (r.st 0)) (hf : r.Strong v) (hl : Frees r v (.guard p) L) (hn : ∀ g, .client g ∈ L → gw p g ≠ 1)
    (ha : AtN r v L j m [.client (.scIn p c)]) : ∃ m', m < m' ∧ (AtN r v L j m' [.client (.laIn .sc c)] ∨ AtN r v L j m' []) := by
  obtain ⟨m1, sd, x, h1, h2, h3, h4, -, -⟩ := check_state hr hf (by simp) ha.stk ha.exc fun n hn' hst => by
    obtain ⟨m', h1, h2⟩ := hl n _ hst
    refine ⟨m', h1, ?_⟩
    have hl : (r.st m').data.sd.lk (.guard p) = none := by
      cases hl2 : (r.st m').data.sd.lk (.guard p) with
      | none => rfl
      | some w =>
        obtain rfl := h2 w hl2
        exact absurd hl2 (guard_none (r.reach hr m') (pre := [.client (.scIn p c)]) (hst m' h1) hn (by simp [gw]))
    simp only [sstep, hl]
    repeat' split
    all_goals first | exact ⟨_, rfl⟩ | simp_all
  have hs : ∀ q, j ≤ q → q < m1 + 1 → ∃ pre y, (r.st q).stk v = pre ++ y :: L := fun q h5 h6 => by
    rcases Nat.lt_or_ge q m with hq | hq
    · exact ha.suf q h5 hq
    · exact ⟨[], _, (h2 q hq (by omega)).stk.trans ha.stk⟩
  have hle := ha.le
  cases h3 with
  | scNow => exact ⟨m1 + 1, by omega, .inl ⟨by omega, h4.1, h4.2.1, hs⟩⟩
  | scLater => exact ⟨m1 + 1, by omega, .inr ⟨by omega, h4.1, h4.2.1, hs⟩⟩

/-- **C81, then.** then (future.hpp:722-747) returns, without an exception: if the scheduler is strongly fair to the calling thread, others do not hold the guard of
    the state for ever while it waits for it, nor the global mutex, and the function returns if it is executed in place, as do the destructors that the call
    executes. -/
theorem C81_then (hr : SR A ad i0 (r.st 0)) (h : ∀ q, Launches r v .sc ⟨id, as, q, a⟩ (.client (.done (.nat q)) :: L))
    (hl : ∀ q, Frees r v (.guard p) (.client (.done (.nat q)) :: L))
    (hd : ∀ q, r.Returns v (.ftDtor q a) (.client (.done (.nat q)) :: L))
    (hst : (r.st j).stk v = .client (SApi.futThen (some p) id as b a).entry :: L) (hexc : ((r.st j).thr v).exc = none)
    (hg : (r.st j).data.sd.lk (.guard p) ≠ some v) :
    ∃ m, r.Ends v L j m ∧ ((r.st m).thr v).exc = none := by
  have h0 : AtN r v L j j [.client (.thIn (some p) id as b a)] := ⟨Nat.le_refl _, hst, hexc, fun q h1 h2 => by omega⟩
  have hn : ∀ g, .client g ∈ L → gw p g ≠ 1 := fun g h4 h5 => hg (guard_own (r.reach hr j) (by rw [hst]; exact List.mem_cons_of_mem _ h4) h5)
  obtain ⟨m1, sd, x, h1, h2, h3, h4, h5⟩ := h0.cl hr (h 0).fair (by simp) fun m => by
    simp only [sstep]; repeat' split
    all_goals exact ⟨_, rfl⟩
  cases h3 with
  | thBad =>
    have := (r.good (m1 + 1)).2
    simp_all [ActTo]
  | thS _ _ _ _ _ hp =>
    generalize (r.st m1).data.sd.nst = q at h5
    have h6 : AtN r v (.client (.done (.nat q)) :: L) (m1 + 1) (m1 + 1) [.client (.scIn p ⟨id, as, q, a⟩)] :=
      ⟨Nat.le_refl _, h5.1, h5.2.1, fun q h1 h2 => by omega⟩
    have hs : ∀ q, j ≤ q → q < m1 + 1 → ∃ pre y, (r.st q).stk v = pre ++ y :: L := (h2.succ (G' := [_, _]) h5.1 h5.2.1).suf
    have key : ∀ m2, AtN r v (.client (.done (.nat q)) :: L) (m1 + 1) m2 [] → ∃ m, r.Ends v L j m ∧ ((r.st m).thr v).exc = none := fun m2 h7 => by
      obtain ⟨m3, h8, h9⟩ := (h7.below (by omega) hs).noop hr (h 0).fair
      have := h7.le
      exact ⟨_, h9.ends (by omega), h9.exc⟩
    obtain ⟨m2, h7, h8 | h8⟩ := AtN.scIn hr (h 0).fair (hl q) (fun g hm => by
      rcases List.mem_cons.1 hm with hm | hm
      · cases hm; simp [gw]
      · exact hn g hm) h6
    · obtain ⟨m3, kept, f, h9, h10, h11⟩ := AtN.launch hr (h q) h8
      cases kept with
      | false =>
        simp only [laNext, Bool.false_eq_true, if_false] at h11
        exact key _ (h10.succ (G' := []) h11.1 h11.2.1)
      | true =>
        simp only [laNext, if_true] at h11
        have h12 : AtN r v (.client (.done (.nat q)) :: L) (m1 + 1) (m3 + 1) [.client (.ftDtor q a)] := h10.succ (G' := [_]) h11.1 h11.2.1
        have h17 : AtN r v L j (m3 + 1) [.client (.ftDtor q a), .client (.done (.nat q))] := ⟨by have := h12.le; omega, h12.stk, h12.exc, fun q' g1 g2 => by
          rcases Nat.lt_or_ge q' (m1 + 1) with hq | hq
          · exact hs q' g1 hq
          · obtain ⟨pre, x, hp⟩ := h12.suf q' hq g2
            exact ⟨pre ++ [x], .client (.done (.nat q)), by rw [hp]; simp⟩⟩
        obtain ⟨m5, g1, g2⟩ := AtN.back _ _ (hd q) h17
        obtain ⟨m6, g3, g4⟩ := g2.noop hr (h 0).fair
        have := g2.le
        exact ⟨_, g4.ends (by omega), g4.exc⟩
    · exact key _ h8

/-- **C81, then.** On a future without a state it returns with the exception `no_state`. -/
theorem C81_then_none (hr : SR A ad i0 (r.st 0)) (hf : r.Strong v)
    (hst : (r.st j).stk v = .client (SApi.futThen none id as b a).entry :: L) (hexc : ((r.st j).thr v).exc = none) :
    ∃ m, r.Ends v L j m ∧ ((r.st m).thr v).exc = some .noState := by
  have h0 : AtN r v L j j [.client (.thIn none id as b a)] := ⟨Nat.le_refl _, hst, hexc, fun q h1 h2 => by omega⟩
  obtain ⟨m1, sd, x, h1, h2, h3, h4, h5⟩ := h0.cl hr hf (by simp) fun m => ⟨_, rfl⟩
  cases h3
  refine ⟨m1 + 1, ⟨by have := h2.le; omega, h5.1, fun q h6 h7 => ?_⟩, h5.2⟩
  rcases Nat.lt_or_ge q m1 with hq | hq
  · exact h2.suf q h6 hq
  · obtain rfl : q = m1 := by omega
    exact ⟨[], _, h2.stk⟩

end

/-! ## Examples -/

/-- main makes a promise and a thread, sets the value and calls `x`. -/
def thenProg (x : SApi Nat) : List (SAct Nat Nat) :=
  [.core .registerThis 2, .sync (.promNew 0 false) 3, .core (.spawn 1 5) 4, .sync (.promSet 0 (.val (.nat 7))) 6, .core .registerThis 8, .sync x 8]

theorem set_ok {P : List (SAct Nat Nat)} {ls : List (Lbl Unit)} {v : Nat} {r : Run (client (tableApp P))}
    (hobs : ∀ {β : Type} (g : DSt → β) (i : Nat) (b : β), (sexec P (ls.take i)).map g = some b → g (r.st i) = b)
    (hok : ∀ m < ls.length + 1, (sexec P (ls.take m)).map (setOk v) = some true) (m : Nat) : setOk v (r.st m) = true := by
  rcases Nat.lt_or_ge m (ls.length + 1) with hm | hm
  · exact hobs _ m _ (hok m hm)
  · exact hobs _ m _ (by rw [List.take_of_length_le (by omega)]; have := hok ls.length (by omega); rwa [List.take_length] at this)

/-- Hypotheses of `C81_then`: the task is given to the queue of thread 1. -/
example : ∃ r : Run (client (tableApp (thenProg (.futThen (some 0) 2 true false 0)))), SR (tableApp (thenProg (.futThen (some 0) 2 true false 0))) () 1 (r.st 0) ∧
    (∀ q, Launches r 0 .sc ⟨2, true, q, 0⟩ [.client (.done (.nat q)), .client (.app 8)]) ∧ (∀ q, Frees r 0 (.guard 0) [.client (.done (.nat q)), .client (.app 8)]) ∧
    (∀ q, r.Returns 0 (.ftDtor q 0) [.client (.done (.nat q)), .client (.app 8)]) ∧
    (r.st 24).stk 0 = [.client (SApi.futThen (some 0) 2 true false 0).entry, .client (.app 8)] ∧ ((r.st 24).thr 0).exc = none ∧
    (r.st 24).data.sd.lk (.guard 0) ≠ some 0 ∧ ((r.st 24).ctxs 1).pend = [] ∧ ((r.st 34).ctxs 1).pend ≠ [] := by
  obtain ⟨s', hs', ho⟩ := Option.map_eq_some_iff.1 (show (sexec (thenProg (.futThen (some 0) 2 true false 0)) (Core.go 0 9 ++ Core.go 1 5 ++ Core.go 0 20)).map
    (fun s => (s.ub, s.term)) = some (false, false) by decide +kernel)
  simp only [Prod.mk.injEq] at ho
  obtain ⟨r, hr0, hr, hl⟩ := Run.ofList hs' ho.1 ho.2
  have h3 : ∀ {β : Type} (g : DSt → β) (i : Nat) (b : β), (sexec (thenProg (.futThen (some 0) 2 true false 0)) ((Core.go 0 9 ++ Core.go 1 5 ++ Core.go 0 20).take i)).map g = some b →
      g (r.st i) = b := by
    intro β g i b h
    simp only [sexec, hr i, Option.map_some] at h
    exact Option.some.inj h
  have hE : (sexec (thenProg (.futThen (some 0) 2 true false 0)) (Core.go 0 9 ++ Core.go 1 5 ++ Core.go 0 20)).map (fun s => (s.ub || s.term,
    decide ((s.thr 0).status = .running), s.gOwner, s.data.sd.lk (.guard 0))) = some (false, false, none, none) := by decide +kernel
  have hO : ∀ m < (Core.go 0 9 ++ Core.go 1 5 ++ Core.go 0 20).length + 1,
    (sexec (thenProg (.futThen (some 0) 2 true false 0)) ((Core.go 0 9 ++ Core.go 1 5 ++ Core.go 0 20).take m)).map (setOk 0) = some true := by decide +kernel
  obtain ⟨h4, h5, h6, h7, -⟩ := set_run (v := 0) (p := 0) h3 hE hO
  have hok := set_ok h3 hO
  refine ⟨r, by rw [hr0]; exact ⟨[], rfl⟩, fun q => ⟨h4, h5, h7 _ _, fun i hi _ => by have := hok i; simp [setOk, hi] at this⟩, fun q => h6 _, fun q i hi _ => by have := hok i; simp [setOk, hi] at this,
    h3 (fun s => s.stk 0) 24 _ (by decide +kernel), h3 (fun s => (s.thr 0).exc) 24 _ (by decide +kernel),
    by rw [h3 (fun s => s.data.sd.lk (.guard 0)) 24 none (by decide +kernel)]; simp, h3 (fun s => (s.ctxs 1).pend) 24 _ (by decide +kernel), ?_⟩
  have := h3 (fun s => (s.ctxs 1).pend.isEmpty) 34 false (by decide +kernel)
  intro h
  rw [h] at this
  cases this

/-- Hypotheses of `C81_async`: the task is given to the queue of thread 1. -/
example : ∃ r : Run (client (tableApp (thenProg (.async 2 true false 0)))), SR (tableApp (thenProg (.async 2 true false 0))) () 1 (r.st 0) ∧
    (∀ q, Launches r 0 .as ⟨2, true, q, 0⟩ [.client (.app 8)]) ∧
    (∀ q, r.Returns 0 (.ftDtor q 0) [.client (.done (.nat q)), .client (.app 8)]) ∧
    (r.st 24).stk 0 = [.client (SApi.async 2 true false 0).entry, .client (.app 8)] ∧ ((r.st 24).thr 0).exc = none ∧
    (r.st 24).data.sd.lk (.guard 0) ≠ some 0 ∧ ((r.st 24).ctxs 1).pend = [] ∧ ((r.st 32).ctxs 1).pend ≠ [] := by
  obtain ⟨s', hs', ho⟩ := Option.map_eq_some_iff.1 (show (sexec (thenProg (.async 2 true false 0)) (Core.go 0 9 ++ Core.go 1 5 ++ Core.go 0 18)).map
    (fun s => (s.ub, s.term)) = some (false, false) by decide +kernel)
  simp only [Prod.mk.injEq] at ho
  obtain ⟨r, hr0, hr, hl⟩ := Run.ofList hs' ho.1 ho.2
  have h3 : ∀ {β : Type} (g : DSt → β) (i : Nat) (b : β), (sexec (thenProg (.async 2 true false 0)) ((Core.go 0 9 ++ Core.go 1 5 ++ Core.go 0 18).take i)).map g = some b →
      g (r.st i) = b := by
    intro β g i b h
    simp only [sexec, hr i, Option.map_some] at h
    exact Option.some.inj h
  have hE : (sexec (thenProg (.async 2 true false 0)) (Core.go 0 9 ++ Core.go 1 5 ++ Core.go 0 18)).map (fun s => (s.ub || s.term,
    decide ((s.thr 0).status = .running), s.gOwner, s.data.sd.lk (.guard 0))) = some (false, false, none, none) := by decide +kernel
  have hO : ∀ m < (Core.go 0 9 ++ Core.go 1 5 ++ Core.go 0 18).length + 1,
    (sexec (thenProg (.async 2 true false 0)) ((Core.go 0 9 ++ Core.go 1 5 ++ Core.go 0 18).take m)).map (setOk 0) = some true := by decide +kernel
  obtain ⟨h4, h5, h6, h7, -⟩ := set_run (v := 0) (p := 0) h3 hE hO
  have hok := set_ok h3 hO
  refine ⟨r, by rw [hr0]; exact ⟨[], rfl⟩, fun q => ⟨h4, h5, h7 _ _, fun i hi _ => by have := hok i; simp [setOk, hi] at this⟩, fun q i hi _ => by have := hok i; simp [setOk, hi] at this,
    h3 (fun s => s.stk 0) 24 _ (by decide +kernel), h3 (fun s => (s.thr 0).exc) 24 _ (by decide +kernel),
    by rw [h3 (fun s => s.data.sd.lk (.guard 0)) 24 none (by decide +kernel)]; simp, h3 (fun s => (s.ctxs 1).pend) 24 _ (by decide +kernel), ?_⟩
  have := h3 (fun s => (s.ctxs 1).pend.isEmpty) 32 false (by decide +kernel)
  intro h
  rw [h] at this
  cases this

end Itc
