import Verif.Props.LiveNotify

/-!
# C66: set_value and set_exception make the future ready and return, and then wait and get return

For an arbitrary application of this layer and infinite execution; vocabulary of `Verif.Props.Live`.
-/
namespace Itc
open Core Sync
section
variable {α φ δ χ : Type} {A : App α φ δ χ} {ad : δ} {i0 : φ} {r : Run (client A)} {v p j m : Nat} {L : List (Fr α φ)} {x : Res}

/-- Assumptions on thread `v`, which calls set_value or set_exception on the state `p` above `L`: the scheduler is strongly fair to it; the guard of the
    state and the global mutex are not held for ever by others; the continuations that it executes in place return, as do the destructors of tasks that
    it executes. -/
structure Sets (r : Run (client A)) (v p : Nat) (L : List (Fr α φ)) : Prop where
  fair : r.Strong v
  glob : GlobFree r
  lock : Frees r v (.guard p) L
  note : ∀ cs i k l, Drops r v (.nAfter (.fut p cs) i k l) L
  drop : ∀ dn l c, Drops r v (.laRet (.sr p dn l) c) L
  run : ∀ dn l (c : Kont α), r.Returns v (.ftRun c.p c.body) (.client (.laInl (.sr p dn l) c) :: L)
  dtor : ∀ l (c : Kont α), r.Returns v (.ftDtor c.p c.body) (.client (.srDtor p l) :: L)

/-- A call that returns. -/
theorem AtN.back (g : SFrame α φ) (F : Fr α φ) (h : r.Returns v g (F :: L)) (ha : AtN r v L j m [.client g, F]) : ∃ m', m < m' ∧ AtN r v L j m' [F] := by
  obtain ⟨m2, h5, h6, h7, h8⟩ := h _ ha.stk ha.exc
  exact ⟨m2, h5, by have := ha.le; omega, h6, h7, fun q h9 h10 => by
    rcases Nat.lt_or_ge q m with hq | hq
    · exact ha.suf q h9 hq
    · obtain ⟨pre, hp⟩ := h8 q hq (by omega)
      exact ⟨pre, F, hp.symm⟩⟩

/-- The guard is taken. -/
theorem AtN.svIn (hr : SR A ad i0 (r.st 0)) (hf : r.Strong v) (hl : Frees r v (.guard p) L) (hn : ∀ g, .client g ∈ L → gw p g ≠ 1)
    (ha : AtN r v L j m [.client (.svIn p x)]) : ∃ m', m < m' ∧ AtN r v L j m' [.client (.svChk p x)] := by
  obtain ⟨m1, sd, a, h1, h2, h3, h4, -, -⟩ := check_state hr hf (by simp) ha.stk ha.exc fun n hn' hst => by
    obtain ⟨m', h1, h2⟩ := hl n _ hst
    refine ⟨m', h1, ?_⟩
    have hl : (r.st m').data.sd.lk (.guard p) = none := by
      cases hl2 : (r.st m').data.sd.lk (.guard p) with
      | none => rfl
      | some w =>
        obtain rfl := h2 w hl2
        exact absurd hl2 (guard_none (r.reach hr m') (pre := [.client (.svIn p x)]) (hst m' h1) hn (by simp [gw]))
    simp [sstep, hl]
  cases h3
  refine ⟨m1 + 1, by omega, by have := ha.le; omega, h4.1, h4.2.1, fun q h5 h6 => ?_⟩
  rcases Nat.lt_or_ge q m with hq | hq
  · exact ha.suf q h5 hq
  · exact ⟨[], _, (h2 q hq (by omega)).stk.trans ha.stk⟩

/-- The state becomes ready, or is ready, and then set_value throws. -/
theorem AtN.svChk (hr : SR A ad i0 (r.st 0)) (hf : r.Strong v) (ha : AtN r v L j m [.client (.svChk p x)]) :
    ∃ m', m < m' ∧ (r.st m').data.sd.ready p = true ∧ ((∃ cs, AtN r v L j m' [.client (.naIn (.fut p cs))]) ∨
      (r.Ends v L j m' ∧ ((r.st m').thr v).exc = some .promiseSatisfied)) := by
  obtain ⟨m1, sd, a, h1, h2, h3, h4, h5⟩ := ha.cl hr hf (by simp) fun m => by
    simp only [sstep]; repeat' split
    all_goals exact ⟨_, rfl⟩
  have key : ∀ y, AtN r v L j (m1 + 1) [.client (.srSet p y)] → ∃ m', m1 < m' ∧ (r.st m').data.sd.ready p = true ∧ ∃ cs, AtN r v L j m' [.client (.naIn (.fut p cs))] := by
    intro y h6
    obtain ⟨m2, sd, a, h7, h8, h9, h10, h11⟩ := h6.cl hr hf (by simp) fun m => ⟨_, rfl⟩
    cases h9 <;> exact ⟨m2 + 1, by omega, by rw [h10]; simp [SData.ready, SData.setSt, SData.ev], _, h8.succ (G' := [_]) h11.1 h11.2.1⟩
  cases h3 with
  | svBad _ _ hrd =>
    refine ⟨m1 + 1, by omega, by rw [h4]; exact hrd, .inr ⟨⟨by have := h2.le; omega, h5.1, fun q h6 h7 => ?_⟩, h5.2⟩⟩
    rcases Nat.lt_or_ge q m1 with hq | hq
    · exact h2.suf q h6 hq
    · obtain rfl : q = m1 := by omega
      exact ⟨[], _, h2.stk⟩
  | svVal w _ => obtain ⟨m', h6, h7, h8⟩ := key _ (h2.succ (G' := [_]) h5.1 h5.2.1); exact ⟨m', by omega, h7, .inl h8⟩
  | svExn e _ => obtain ⟨m', h6, h7, h8⟩ := key _ (h2.succ (G' := [_]) h5.1 h5.2.1); exact ⟨m', by omega, h7, .inl h8⟩

variable (hr : SR A ad i0 (r.st 0)) (h : Sets r v p L)
include hr h

/-- The destruction of the continuations. -/
theorem AtN.srDtor : ∀ (l : List (Kont α)) {m : Nat}, AtN r v L j m [.client (.srDtor p l)] → ∃ m', m < m' ∧ AtN r v L j m' [] := by
  intro l
  induction l with
  | nil =>
    intro m ha
    obtain ⟨m', sd, a, h1, h2, h3, h4, h5⟩ := ha.cl hr h.fair (by simp) fun m => ⟨_, rfl⟩
    cases h3
    exact ⟨m' + 1, by omega, h2.succ (G' := []) h5.1 h5.2.1⟩
  | cons c l ih =>
    intro m ha
    obtain ⟨m', sd, a, h1, h2, h3, h4, h5⟩ := ha.cl hr h.fair (by simp) fun m => ⟨_, rfl⟩
    cases h3
    obtain ⟨m2, h6, h7⟩ := AtN.back _ _ (h.dtor l c) (h2.succ (G' := [_, _]) h5.1 h5.2.1)
    obtain ⟨m3, h8, h9⟩ := ih h7
    exact ⟨m3, by omega, h9⟩

/-- The continuations are launched. -/
theorem AtN.srLoop : ∀ (l : List (Kont α)) {dn : List (Kont α)} {m : Nat}, AtN r v L j m [.client (.srLoop p dn l)] → ∃ m', m < m' ∧ AtN r v L j m' [] := by
  intro l
  induction l with
  | nil =>
    intro dn m ha
    obtain ⟨m', sd, a, h1, h2, h3, h4, h5⟩ := ha.cl hr h.fair (by simp) fun m => ⟨_, rfl⟩
    cases h3
    obtain ⟨m3, h8, h9⟩ := AtN.srDtor hr h _ (h2.succ (G' := [_]) h5.1 h5.2.1)
    exact ⟨m3, by omega, h9⟩
  | cons c l ih =>
    intro dn m ha
    obtain ⟨m', sd, a, h1, h2, h3, h4, h5⟩ := ha.cl hr h.fair (by simp) fun m => ⟨_, rfl⟩
    cases h3
    have h6 : AtN r v L j (m' + 1) [.client (.laIn (.sr p dn l) c)] := h2.succ (G' := [_]) h5.1 h5.2.1
    clear h4 h5
    obtain ⟨m2, sd, a, h7, h2, h3, h4, h5⟩ := h6.cl hr h.fair (by simp) fun m => by
      simp only [sstep]; repeat' split
      all_goals exact ⟨_, rfl⟩
    cases h3 with
    | laQueue =>
      obtain ⟨m3, h8, h9⟩ := AtN.invoke hr h.fair h.glob (h.drop dn l c) (by simp) (h2.succ (G' := [_, _]) h5.1 h5.2.1)
      obtain ⟨m4, sd, a, h10, h2, h3, h4, h5⟩ := h9.cl hr h.fair (by simp) fun m => ⟨_, rfl⟩
      cases h3
      obtain ⟨m5, h11, h12⟩ := ih (h2.succ (G' := [_]) h5.1 h5.2.1)
      exact ⟨m5, by omega, h12⟩
    | laInl =>
      obtain ⟨m3, h8, h9⟩ := AtN.back _ _ (h.run dn l c) (h2.succ (G' := [_, _]) h5.1 h5.2.1)
      obtain ⟨m4, sd, a, h10, h2, h3, h4, h5⟩ := h9.cl hr h.fair (by simp) fun m => ⟨_, rfl⟩
      cases h3
      obtain ⟨m5, h11, h12⟩ := ih (h2.succ (G' := [_]) h5.1 h5.2.1)
      exact ⟨m5, by omega, h12⟩

/-- set_value and set_exception of the state. -/
theorem AtN.set (hn : ∀ g, .client g ∈ L → gw p g ≠ 1) (ha : AtN r v L j m [.client (.svIn p x)]) :
    ∃ m', m < m' ∧ r.Ends v L j m' ∧ (((r.st m').thr v).exc = none ∨ ((r.st m').thr v).exc = some .promiseSatisfied) := by
  obtain ⟨m1, h1, h2⟩ := AtN.svIn hr h.fair h.lock hn ha
  obtain ⟨m2, h3, -, ⟨cs, h4⟩ | ⟨h4, h5⟩⟩ := AtN.svChk hr h.fair h2
  · obtain ⟨m3, sd, a, h5, h6, h7, h8, h9⟩ := h4.cl hr h.fair (by simp) fun m => ⟨_, rfl⟩
    cases h7
    obtain ⟨m4, h10, h11, -⟩ := AtN.all hr ⟨h.fair, h.glob, h.note cs⟩ _ (h6.succ (G' := [_]) h9.1 h9.2.1)
    obtain ⟨m5, sd, a, h12, h6, h7, h8, h9⟩ := h11.cl hr h.fair (by simp) fun m => ⟨_, rfl⟩
    cases h7
    have h13 : AtN r v L j (m5 + 1) [.client (.srUnl p cs)] := h6.succ (G' := [_]) h9.1 h9.2.1
    clear h8 h9
    obtain ⟨m6, sd, a, h14, h6, h7, h8, h9⟩ := h13.cl hr h.fair (by simp) fun m => ⟨_, rfl⟩
    cases h7
    obtain ⟨m7, h15, h16⟩ := AtN.srLoop hr h _ (h6.succ (G' := [_]) h9.1 h9.2.1)
    exact ⟨m7, by omega, h16.ends (by have := ha.le; omega), .inl h16.exc⟩
  · exact ⟨m2, by omega, h4, .inr h5⟩

end

section
variable {α φ δ χ : Type} {A : App α φ δ χ} {ad : δ} {i0 : φ} {r : Run (client A)} {v p j q n : Nat} {ch : Ch χ} {L : List (Fr α φ)} {x : Res}

/-- The first step of set_value and set_exception. -/
theorem AtN.entry (hr : SR A ad i0 (r.st 0)) (hst : (r.st j).stk v = .client (SApi.promSet q x).entry :: L) (hexc : ((r.st j).thr v).exc = none)
    (hlab : r.lab j = .th v ch) (hq : (r.st j).data.sd.obj q = some p) (hg : (r.st j).data.sd.lk (.guard p) ≠ some v) :
    AtN r v L j (j + 1) [.client (.svIn p x)] ∧ ∀ g, .client g ∈ L → gw p g ≠ 1 := by
  refine ⟨?_, fun g h4 h5 => hg (guard_own (r.reach hr j) (by rw [hst]; exact List.mem_cons_of_mem _ h4) h5)⟩
  have hok := r.ok j
  rw [hlab] at hok
  obtain ⟨a, h1, h2⟩ := own_ss hst hok hexc (by simp [SApi.entry])
  have h0 : AtN r v L j j [.client (SApi.promSet q x).entry] := ⟨Nat.le_refl _, hst, hexc, fun q h1 h2 => by omega⟩
  generalize (r.st (j + 1)).data.sd = d at h1
  cases h1 with
  | poSetN _ _ h => rw [h] at hq; cases hq
  | poSet _ _ p' h =>
    rw [h] at hq; cases hq
    exact h0.succ (G' := [_]) h2.1 h2.2.1

/-- **C66.** Thread `v` calls set_value or set_exception on a promise with the state `p`.  The scheduler is strongly fair to it and others do not hold the guard of the
    state for ever.  Then the state becomes ready. -/
theorem C66_ready (hr : SR A ad i0 (r.st 0)) (hf : r.Strong v) (hl : Frees r v (.guard p) L)
    (hst : (r.st j).stk v = .client (SApi.promSet q x).entry :: L) (hexc : ((r.st j).thr v).exc = none)
    (hlab : r.lab j = .th v ch) (hq : (r.st j).data.sd.obj q = some p) (hg : (r.st j).data.sd.lk (.guard p) ≠ some v) :
    ∃ m, j < m ∧ (r.st m).data.sd.ready p = true := by
  obtain ⟨h1, h2⟩ := AtN.entry hr hst hexc hlab hq hg
  obtain ⟨m1, h3, h4⟩ := AtN.svIn hr hf hl h2 h1
  obtain ⟨m2, h5, h6, -⟩ := AtN.svChk hr hf h4
  exact ⟨m2, by omega, h6⟩

/-- **C66.** The call returns, normally or with the exception that says that the promise was satisfied before; if the continuations that it executes in place and the
    destructors of tasks return, and the global mutex is not held for ever. -/
theorem C66_returns (hr : SR A ad i0 (r.st 0)) (h : Sets r v p L)
    (hst : (r.st j).stk v = .client (SApi.promSet q x).entry :: L) (hexc : ((r.st j).thr v).exc = none)
    (hlab : r.lab j = .th v ch) (hq : (r.st j).data.sd.obj q = some p) (hg : (r.st j).data.sd.lk (.guard p) ≠ some v) :
    ∃ m, r.Ends v L j m ∧ (((r.st m).thr v).exc = none ∨ ((r.st m).thr v).exc = some .promiseSatisfied) := by
  obtain ⟨h1, h2⟩ := AtN.entry hr hst hexc hlab hq hg
  obtain ⟨m1, h3, h4, h5⟩ := AtN.set hr h h2 h1
  exact ⟨m1, h4, h5⟩

section
variable {u c k : Nat} {f : SFrame α φ} {rest : List (Fr α φ)}

/-- **C66.** So a thread `u` that waits for this future returns, whether it called wait before or after thread `v` called set_value. -/
theorem C66_wait (hr : SR A ad i0 (r.st 0)) (hf : r.Strong v) (hl : Frees r v (.guard p) L)
    (hst : (r.st j).stk v = .client (SApi.promSet q x).entry :: L) (hexc : ((r.st j).thr v).exc = none)
    (hlab : r.lab j = .th v ch) (hq : (r.st j).data.sd.obj q = some p) (hg : (r.st j).data.sd.lk (.guard p) ≠ some v)
    (hw : WaitsFor r u c p f rest) (hwst : (r.st k).stk u = .client (SApi.futWait (some p)).entry :: .client f :: rest)
    (hwexc : ((r.st k).thr u).exc = none) (hloc : (r.st k).loc u = some c) (hwg : (r.st k).data.sd.lk (.guard p) ≠ some u) :
    (∃ m, r.Ends u (.client f :: rest) k m ∧ ((r.st m).thr u).exc = none) ∨ (∃ m id n, .unregistered c id n ∈ (r.st m).log) ∨ Robbed r u p := by
  obtain ⟨M, -, hM⟩ := C66_ready hr hf hl hst hexc hlab hq hg
  exact C61_wait hr hw ⟨M, hM⟩ hwst hwexc hloc hwg

/-- **C66.** The same for get. -/
theorem C66_get (hr : SR A ad i0 (r.st 0)) (hf : r.Strong v) (hl : Frees r v (.guard p) L)
    (hst : (r.st j).stk v = .client (SApi.promSet q x).entry :: L) (hexc : ((r.st j).thr v).exc = none)
    (hlab : r.lab j = .th v ch) (hq : (r.st j).data.sd.obj q = some p) (hg : (r.st j).data.sd.lk (.guard p) ≠ some v)
    (hw : WaitsFor r u c p (.fgVal p) (.client f :: rest)) (hwst : (r.st k).stk u = .client (SApi.futGet (some p)).entry :: .client f :: rest)
    (hwexc : ((r.st k).thr u).exc = none) (hloc : (r.st k).loc u = some c) (hwg : (r.st k).data.sd.lk (.guard p) ≠ some u) :
    (∃ m, r.Ends u (.client f :: rest) k m) ∨ (∃ m id n, .unregistered c id n ∈ (r.st m).log) ∨ Robbed r u p := by
  obtain ⟨M, -, hM⟩ := C66_ready hr hf hl hst hexc hlab hq hg
  exact C61_get hr hw ⟨M, hM⟩ hwst hwexc hloc hwg

end

/-- **C64.** unlock of a mutex returns, normally or with the exception that says that the caller is not the owner. -/
theorem C64_unlock (hr : SR A ad i0 (r.st 0)) (h : Notifies r v (.mtx n) L) (hst : (r.st j).stk v = .client (SApi.mUnlock n).entry :: L)
    (hexc : ((r.st j).thr v).exc = none) : ∃ m, r.Ends v L j m ∧ (((r.st m).thr v).exc = none ∨ ((r.st m).thr v).exc = some .noLock) := by
  have h0 : AtN r v L j j [.client (.muIn n)] := ⟨Nat.le_refl _, hst, hexc, fun q h1 h2 => by omega⟩
  obtain ⟨m', sd, a, h1, h2, h3, h4, h5⟩ := h0.cl hr h.fair (by simp) fun m => by
    simp only [sstep]; split <;> exact ⟨_, rfl⟩
  cases h3 with
  | muBad =>
    refine ⟨m' + 1, ⟨by have := h2.le; omega, h5.1, fun q h6 h7 => ?_⟩, .inr h5.2⟩
    rcases Nat.lt_or_ge q m' with hq | hq
    · exact h2.suf q h6 hq
    · obtain rfl : q = m' := by omega
      exact ⟨[], _, h2.stk⟩
  | muIn =>
    obtain ⟨m2, sd, a, g1, g2, h3, g4, g5⟩ := (h2.succ (G' := [_]) h5.1 h5.2.1).cl hr h.fair (by simp) fun m => ⟨_, rfl⟩
    cases h3
    obtain ⟨m3, sd, a, k1, k2, h3, k4, k5⟩ := (g2.succ (G' := [_]) g5.1 g5.2.1).cl hr h.fair (by simp) fun m => ⟨_, rfl⟩
    cases h3
    obtain ⟨m4, sd, a, l1, l2, h3, l4, l5⟩ := (k2.succ (G' := [_]) k5.1 k5.2.1).cl hr h.fair (by simp) fun m => ⟨_, rfl⟩
    cases h3
    obtain ⟨m5, h6, h7, -⟩ := AtN.all hr h _ (l2.succ (G' := [_]) l5.1 l5.2.1)
    obtain ⟨m6, sd, a, n1, n2, h3, n4, n5⟩ := h7.cl hr h.fair (by simp) fun m => ⟨_, rfl⟩
    cases h3
    have h8 : AtN r v L j (m6 + 1) [] := n2.succ (G' := []) n5.1 n5.2.1
    exact ⟨m6 + 1, h8.ends (by omega), .inl h8.exc⟩

end

/-! ## Examples -/

/-- Thread `v` executes no destructor of a task and no task of a future. -/
def setOk (v : Nat) (s : DSt) : Bool :=
  (match s.stk v with | .client (.ftRun _ _) :: _ => false | .client (.ftDtor _ _) :: _ => false | _ => true) &&
  (match s.stk v with | _ :: .core (.destroyList _ _ _ _) :: _ => false | _ => true)

/-- A run that goes on for ever in the last state of the list. -/
theorem set_run {P : List (SAct Nat Nat)} {ls : List (Lbl Unit)} {v p : Nat} {r : Run (client (tableApp P))}
    (hobs : ∀ {β : Type} (g : DSt → β) (i : Nat) (b : β), (sexec P (ls.take i)).map g = some b → g (r.st i) = b)
    (hend : (sexec P ls).map (fun s => (s.ub || s.term, decide ((s.thr v).status = .running), s.gOwner, s.data.sd.lk (.guard p))) = some (false, false, none, none))
    (hok : ∀ m < ls.length + 1, (sexec P (ls.take m)).map (setOk v) = some true) :
    r.Strong v ∧ GlobFree r ∧ (∀ L, Frees r v (.guard p) L) ∧ (∀ F L, Drops r v F L) ∧ ∀ L, Sets r v p L := by
  have hE : ∀ i, ls.length ≤ i → ((r.st i).ub || (r.st i).term) = false ∧ decide (((r.st i).thr v).status = .running) = false ∧ (r.st i).gOwner = none ∧
      (r.st i).data.sd.lk (.guard p) = none := fun i hi => by
    have := hobs _ i _ (by rw [List.take_of_length_le hi]; exact hend)
    simpa only [Prod.mk.injEq] using this
  have hokr : ∀ m, setOk v (r.st m) = true := fun m => by
    rcases Nat.lt_or_ge m (ls.length + 1) with hm | hm
    · exact hobs _ m _ (hok m hm)
    · exact hobs _ m _ (by rw [List.take_of_length_le (by omega)]; have := hok ls.length (by omega); rwa [List.take_length] at this)
  have h1 : r.Strong v := fun i hi => by
    obtain ⟨q, h6, ch, h7⟩ := hi (max i ls.length) (by omega)
    have h8 := of_decide_eq_false (hE q (by omega)).2.1
    unfold step at h7
    split at h7
    · cases h7
    · dsimp only at h7
      rw [if_pos h8] at h7
      cases h7
  have h2 : GlobFree r := fun i => ⟨max i ls.length, by omega, (hE _ (by omega)).2.2.1⟩
  have h3 : ∀ L, Frees r v (.guard p) L := fun L i x _ => ⟨max i ls.length, by omega, by rw [(hE _ (by omega)).2.2.2]; simp⟩
  have h4 : ∀ F L, Drops r v F L := fun F L t c l fn x i hi _ => by have := hokr i; simp [setOk, hi] at this
  exact ⟨h1, h2, h3, h4, fun L => ⟨h1, h2, h3 L, fun _ _ _ _ => h4 _ L, fun _ _ _ => h4 _ L,
    fun _ _ _ i hi _ => by have := hokr i; simp [setOk, hi] at this, fun _ _ i hi _ => by have := hokr i; simp [setOk, hi] at this⟩⟩

/-- main makes a promise, thread 1 waits for its future and main sets the value. -/
def setProg (x : SApi Nat) : List (SAct Nat Nat) :=
  [.core .registerThis 2, .sync (.promNew 0 false) 3, .core (.spawn 1 5) 4, .sync (.promSet 0 (.val (.nat 7))) 8, .core .registerThis 6, .sync x 8]

/-- Which thread moves. -/
theorem moved {P : List (SAct Nat Nat)} {r : Run (client (tableApp P))} (hr : SR (tableApp P) () 1 (r.st 0)) {j v : Nat} (h : (r.st j).stk v ≠ [])
    (hne : (r.st (j + 1)).stk v ≠ (r.st j).stk v) : ∃ ch, r.lab j = .th v ch := by
  by_contra hcon
  push Not at hcon
  exact hne (same_step (r.reach hr j) (r.ok j) h hcon).stk

/-- Hypotheses of `C66_ready`, `C66_returns` and `C66_wait`. -/
example : ∃ (r : Run (client (tableApp (setProg (.futWait (some 0)))))) (ch : Ch Unit), SR (tableApp (setProg (.futWait (some 0)))) () 1 (r.st 0) ∧
    Sets r 0 0 [.client (.app 8)] ∧
    (r.st 23).stk 0 = [.client (SApi.promSet 0 (.val (.nat 7))).entry, .client (.app 8)] ∧ ((r.st 23).thr 0).exc = none ∧ r.lab 23 = .th 0 ch ∧
    (r.st 23).data.sd.obj 0 = some 0 ∧ (r.st 23).data.sd.lk (.guard 0) ≠ some 0 ∧ WaitsFor r 1 1 0 (.app 8) [] ∧
    (r.st 14).stk 1 = [.client (SApi.futWait (some 0)).entry, .client (.app 8)] ∧ ((r.st 14).thr 1).exc = none ∧ (r.st 14).loc 1 = some 1 ∧
    (r.st 14).data.sd.lk (.guard 0) ≠ some 1 := by
  obtain ⟨r, h1, h2, h3⟩ := wait_run (P := setProg (.futWait (some 0))) (ls := Core.go 0 9 ++ Core.go 1 14 ++ Core.go 0 18 ++ Core.go 1 11) (f := .app 8)
    (rest := []) 42 (by decide +kernel) (by decide +kernel) (by decide +kernel) (by decide +kernel) (by decide +kernel) (by decide +kernel)
  obtain ⟨-, -, -, -, h4⟩ := set_run (v := 0) (p := 0) h3 (by decide +kernel) (by decide +kernel)
  have h5 := h3 (fun s => s.stk 0) 23 [.client (SApi.promSet 0 (.val (.nat 7))).entry, .client (.app 8)] (by decide +kernel)
  have h6 := h3 (fun s => s.stk 0) 24 [.client (.svIn 0 (.val (.nat 7))), .client (.app 8)] (by decide +kernel)
  obtain ⟨ch, h7⟩ := moved h1 (j := 23) (v := 0) (by rw [h5]; simp) (by rw [h5, h6]; simp [SApi.entry])
  exact ⟨r, ch, h1, h4 _, h5, h3 (fun s => (s.thr 0).exc) 23 _ (by decide +kernel), h7, h3 (fun s => s.data.sd.obj 0) 23 _ (by decide +kernel),
    by rw [h3 (fun s => s.data.sd.lk (.guard 0)) 23 none (by decide +kernel)]; simp, h2, h3 (fun s => s.stk 1) 14 _ (by decide +kernel),
    h3 (fun s => (s.thr 1).exc) 14 _ (by decide +kernel), h3 (fun s => s.loc 1) 14 _ (by decide +kernel),
    by rw [h3 (fun s => s.data.sd.lk (.guard 0)) 14 none (by decide +kernel)]; simp⟩

/-- Hypotheses of `C66_get`. -/
example : ∃ (r : Run (client (tableApp (setProg (.futGet (some 0)))))) (ch : Ch Unit), SR (tableApp (setProg (.futGet (some 0)))) () 1 (r.st 0) ∧
    Sets r 0 0 [.client (.app 8)] ∧
    (r.st 23).stk 0 = [.client (SApi.promSet 0 (.val (.nat 7))).entry, .client (.app 8)] ∧ ((r.st 23).thr 0).exc = none ∧ r.lab 23 = .th 0 ch ∧
    (r.st 23).data.sd.obj 0 = some 0 ∧ (r.st 23).data.sd.lk (.guard 0) ≠ some 0 ∧ WaitsFor r 1 1 0 (.fgVal 0) [.client (.app 8)] ∧
    (r.st 14).stk 1 = [.client (SApi.futGet (some 0)).entry, .client (.app 8)] ∧ ((r.st 14).thr 1).exc = none ∧ (r.st 14).loc 1 = some 1 ∧
    (r.st 14).data.sd.lk (.guard 0) ≠ some 1 := by
  obtain ⟨r, h1, h2, h3⟩ := wait_run (P := setProg (.futGet (some 0))) (ls := Core.go 0 9 ++ Core.go 1 14 ++ Core.go 0 18 ++ Core.go 1 12) (f := .fgVal 0)
    (rest := [.client (.app 8)]) 42 (by decide +kernel) (by decide +kernel) (by decide +kernel) (by decide +kernel) (by decide +kernel) (by decide +kernel)
  obtain ⟨-, -, -, -, h4⟩ := set_run (v := 0) (p := 0) h3 (by decide +kernel) (by decide +kernel)
  have h5 := h3 (fun s => s.stk 0) 23 [.client (SApi.promSet 0 (.val (.nat 7))).entry, .client (.app 8)] (by decide +kernel)
  have h6 := h3 (fun s => s.stk 0) 24 [.client (.svIn 0 (.val (.nat 7))), .client (.app 8)] (by decide +kernel)
  obtain ⟨ch, h7⟩ := moved h1 (j := 23) (v := 0) (by rw [h5]; simp) (by rw [h5, h6]; simp [SApi.entry])
  exact ⟨r, ch, h1, h4 _, h5, h3 (fun s => (s.thr 0).exc) 23 _ (by decide +kernel), h7, h3 (fun s => s.data.sd.obj 0) 23 _ (by decide +kernel),
    by rw [h3 (fun s => s.data.sd.lk (.guard 0)) 23 none (by decide +kernel)]; simp, h2, h3 (fun s => s.stk 1) 14 _ (by decide +kernel),
    h3 (fun s => (s.thr 1).exc) 14 _ (by decide +kernel), h3 (fun s => s.loc 1) 14 _ (by decide +kernel),
    by rw [h3 (fun s => s.data.sd.lk (.guard 0)) 14 none (by decide +kernel)]; simp⟩

/-- main holds a mutex, for which thread 1 waits. -/
def unlProg : List (SAct Nat Nat) :=
  [.core .registerThis 2, .sync (.mLock 0) 3, .core (.spawn 1 5) 4, .sync (.mUnlock 0) 8, .core .registerThis 6, .sync (.mLock 0) 8]

/-- Hypotheses of `C64_unlock`. -/
example : ∃ r : Run (client (tableApp unlProg)), SR (tableApp unlProg) () 1 (r.st 0) ∧ Notifies r 0 (.mtx 0) [.client (.app 8)] ∧
    (r.st 24).stk 0 = [.client (SApi.mUnlock 0).entry, .client (.app 8)] ∧ ((r.st 24).thr 0).exc = none ∧
    (r.st 24).data.sd.sem (.mtx 0) = [(2, 0)] ∧ (r.st 38).stk 0 = [] := by
  obtain ⟨s', hs', ho⟩ := Option.map_eq_some_iff.1 (show (sexec unlProg (Core.go 0 11 ++ Core.go 1 13 ++ Core.go 0 14)).map (fun s => (s.ub, s.term)) =
    some (false, false) by decide +kernel)
  simp only [Prod.mk.injEq] at ho
  obtain ⟨r, hr0, hr, hl⟩ := Run.ofList hs' ho.1 ho.2
  have h3 : ∀ {β : Type} (g : DSt → β) (i : Nat) (b : β), (sexec unlProg ((Core.go 0 11 ++ Core.go 1 13 ++ Core.go 0 14).take i)).map g = some b → g (r.st i) = b := by
    intro β g i b h
    simp only [sexec, hr i, Option.map_some] at h
    exact Option.some.inj h
  obtain ⟨h4, h5, -, h6, -⟩ := set_run (v := 0) (p := 0) h3 (by decide +kernel) (by decide +kernel)
  exact ⟨r, by rw [hr0]; exact ⟨[], rfl⟩, ⟨h4, h5, fun _ _ _ => h6 _ _⟩, h3 (fun s => s.stk 0) 24 _ (by decide +kernel),
    h3 (fun s => (s.thr 0).exc) 24 _ (by decide +kernel), h3 (fun s => s.data.sd.sem (.mtx 0)) 24 _ (by decide +kernel),
    h3 (fun s => s.stk 0) 38 _ (by decide +kernel)⟩

end Itc
