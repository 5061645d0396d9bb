import Verif.Props.Lifecycle

/-!
# C17: nesting of init and shutdown
-/
namespace Itc
open Core
section
variable {τ φ δ χ : Type} {C : Client τ φ δ χ} {d : δ} {f : φ} {s s' s0 : St τ φ δ}

/-- Number of `init` calls that have incremented the counter. -/
def incs (l : List (Ev τ)) : Nat := l.countP fun | .inc _ => true | _ => false

/-- Number of `shutdown` calls that have decremented the counter. -/
def decs (l : List (Ev τ)) : Nat := l.countP fun | .dec _ => true | _ => false

theorem incs_cons (e : Ev τ) (l : List (Ev τ)) : incs (e :: l) = incs l + (match e with | .inc _ => 1 | _ => 0) := by
  cases e <;> simp [incs]
theorem decs_cons (e : Ev τ) (l : List (Ev τ)) : decs (e :: l) = decs l + (match e with | .dec _ => 1 | _ => 0) := by
  cases e <;> simp [decs]
theorem incs_drop (t c : Nat) (p : List τ) (l : List (Ev τ)) : incs ((p.map (Ev.dropped t c)).reverse ++ l) = incs l := by
  simp [incs, List.countP_append, List.countP_map, Function.comp_def]
theorem decs_drop (t c : Nat) (p : List τ) (l : List (Ev τ)) : decs ((p.map (Ev.dropped t c)).reverse ++ l) = decs l := by
  simp [decs, List.countP_append, List.countP_map, Function.comp_def]

/-- The program point of `shutdown` between its check and its decrement. -/
def Core.Frame.isDec : Frame τ φ → Bool
  | .core (.sdDec _) => true
  | _ => false

/-- Effect of a step of thread `t` on the counter. -/
inductive CStep (s : St τ φ δ) (t : Nat) (s' : St τ φ δ) : Prop
  | same (hstk : s'.stk t = s.stk t) (hi : incs s'.log = incs s.log) (hd : decs s'.log = decs s.log)
      (hc : s'.initCount = s.initCount)
  | keep (old : Frame τ φ) (rest : List (Frame τ φ)) (hold : s.stk t = old :: rest)
      (hnew : ∀ g ∈ s'.stk t, g.isDec = true → g ∈ rest)
      (hi : incs s'.log = incs s.log) (hd : decs s'.log = decs s.log)
      (hc : s'.initCount = s.initCount)
  | check (T : Nat) (rest : List (Frame τ φ)) (hold : s.stk t = .core (.sdIn T) :: rest)
      (hnew : s'.stk t = .core (.sdDec T) :: rest) (hpos : s.initCount ≠ 0)
      (hi : incs s'.log = incs s.log) (hd : decs s'.log = decs s.log) (hc : s'.initCount = s.initCount)
  | inc (cb : Option φ) (rest : List (Frame τ φ)) (hold : s.stk t = .core (.initIn cb) :: rest)
      (hnew : ∀ g ∈ s'.stk t, g.isDec = true → g ∈ rest)
      (hi : incs s'.log = incs s.log + 1) (hd : decs s'.log = decs s.log) (hc : s'.initCount = incCount s.initCount)
  | dec (T : Nat) (rest : List (Frame τ φ)) (hold : s.stk t = .core (.sdDec T) :: rest)
      (hnew : ∀ g ∈ s'.stk t, g.isDec = true → g ∈ rest)
      (hi : incs s'.log = incs s.log) (hd : decs s'.log = decs s.log + 1) (hc : s'.initCount = decCount s.initCount)

local macro "cs" : tactic => `(tactic|
  first
  | (refine CStep.same ?_ ?_ ?_ ?_ <;> rfl)
  | (refine CStep.keep _ _ ‹_› ?_ ?_ ?_ ?_ <;>
      first
      | rfl
      | (simp [St.stk, St.setStk, St.ret, St.ev, St.setCtx, St.hold, St.startTask, Frame.isDec, incs_cons, decs_cons,
          incs_drop, decs_drop]; done)
      | (intro g hg _; simpa [St.stk, St.setStk, St.ret, St.ev, St.setCtx, St.hold, St.startTask] using List.mem_of_mem_tail hg)
      | (simp [St.stk, St.setStk, St.ret, St.ev, St.setCtx, St.hold, St.startTask, Frame.isDec, incs_cons, decs_cons,
          incs_drop, decs_drop]; grind)))

set_option maxHeartbeats 1000000 in
theorem stepCore_cnt (t : Nat) (f : CF τ φ) (rest : List (Frame τ φ))
    (ch : Ch χ) (hstk : s.stk t = .core f :: rest) (hrun : (s.thr t).status = .running)
    (h : stepCore C s t f rest ch = some s') : CStep s t s' := by
  cases f with
  | retv dd => cases dd <;> (simp only [stepCore] at h; obtain rfl := Option.some.inj h; cs)
  | destroyList c l g v => cases l <;> (simp only [stepCore] at h; obtain rfl := Option.some.inj h; cs)
  | sdNotify l T =>
    cases l with
    | cons i l => simp only [stepCore] at h; obtain rfl := Option.some.inj h; cs
    | nil =>
      simp only [stepCore] at h
      repeat' (split at h)
      all_goals first | contradiction | (obtain rfl := Option.some.inj h; cs)
  | regDone c self => cases self <;> (simp only [stepCore] at h; obtain rfl := Option.some.inj h; cs)
  | initIn cb =>
    simp only [stepCore] at h
    split at h <;> obtain rfl := Option.some.inj h <;> refine .inc cb rest hstk ?_ ?_ ?_ rfl <;>
      (simp [St.stk, St.setStk, St.ret, St.ev, incs_cons, decs_cons, Frame.isDec] <;> grind)
  | sdIn T =>
    simp only [stepCore] at h
    split at h
    · obtain rfl := Option.some.inj h; cs
    · rename_i h0
      obtain rfl := Option.some.inj h
      exact .check T rest hstk (by simp [St.stk, St.setStk]) h0 rfl rfl rfl
  | sdDec T =>
    simp only [stepCore] at h
    split at h <;> obtain rfl := Option.some.inj h <;> refine .dec T rest hstk ?_ ?_ ?_ rfl <;>
      (simp [St.stk, St.setStk, St.ret, St.ev, incs_cons, decs_cons, Frame.isDec] <;> grind)
  | spawnIn n g =>
    simp only [stepCore] at h
    split at h
    · rename_i hn
      have hnt : n ≠ t := by rintro rfl; rw [hrun] at hn; contradiction
      obtain rfl := Option.some.inj h
      cs
    · contradiction
  | unreg =>
    simp only [stepCore] at h
    split at h
    · contradiction
    · split at h
      · obtain rfl := Option.some.inj h; cs
      · obtain rfl := Option.some.inj h
        refine .keep _ _ hstk ?_ ?_ ?_ rfl
        · simp [St.stk, St.setStk, Frame.isDec]
          grind
        · simp only [St.setStk, St.hold, St.setCtx, St.ev]; split <;> simp [incs_cons]
        · simp only [St.setStk, St.hold, St.setCtx, St.ev]; split <;> simp [decs_cons]
  | _ =>
    simp only [stepCore] at h
    repeat' (split at h)
    all_goals first | contradiction | (obtain rfl := Option.some.inj h; cs)

theorem step_cnt {t : Nat} {ch : Ch χ} (h : step C s (.th t ch) = some s') : CStep s t s' := by
  simp only [step] at h
  split at h
  · contradiction
  split at h
  · contradiction
  rename_i hrun
  have hrun : (s.thr t).status = .running := by simpa using hrun
  split at h
  · rename_i e he
    obtain rfl := Option.some.inj h
    generalize hstk : (s.thr t).stack = stk
    have hstk' : s.stk t = stk := hstk
    unfold stepExc
    split <;> try cs
    split
    · cs
    · cs
  · split at h
    · rename_i hst
      obtain rfl := Option.some.inj h
      have hst' : s.stk t = [] := hst
      exact .same (by rw [hst']; simp [St.stk, stepEnd]) rfl rfl rfl
    · rename_i g rest hst
      exact stepCore_cnt t g rest ch hst hrun h
    · rename_i g rest hst
      have hst' : s.stk t = .client g :: rest := hst
      simp only [stepClient] at h
      split at h
      · contradiction
      · rename_i d' a _
        cases a with
        | call a k =>
          obtain rfl := Option.some.inj h
          refine .keep _ _ hst' ?_ rfl rfl rfl
          cases a <;> (simp [St.stk, St.setStk, Frame.isDec, Api.entry]; grind)
        | _ => obtain rfl := Option.some.inj h; cs

/-- States reachable through states that all satisfy `P`. -/
inductive ReachP (C : Client τ φ δ χ) (d : δ) (f : φ) (P : St τ φ δ → Prop) : St τ φ δ → Prop
  | start : P (Core.init d f) → ReachP C d f P (Core.init d f)
  | step {s s' : St τ φ δ} {l : Lbl χ} : ReachP C d f P s → Core.step C s l = some s' → P s' → ReachP C d f P s'

theorem ReachP.reach {P : St τ φ δ → Prop} (h : ReachP C d f P s) : Reach C d f s := by
  induction h with
  | start => exact ⟨[], rfl⟩
  | step _ hs _ ih => exact ih.step hs

theorem ReachP.holds {P : St τ φ δ → Prop} (h : ReachP C d f P s) : P s := by
  cases h <;> assumption

/-- At most one `shutdown` call is between its check of the counter and its decrement. -/
def SerialShutdown (s : St τ φ δ) : Prop :=
  ∀ t u T T', Frame.core (.sdDec T) ∈ s.stk t → Frame.core (.sdDec T') ∈ s.stk u → t = u

structure CInv (s : St τ φ δ) : Prop where
  tl : ∀ t, ∀ g ∈ (s.stk t).tail, g.isDec = false
  pos : ∀ t, ∀ g ∈ s.stk t, g.isDec = true → s.initCount ≠ 0
  cnt : s.initCount + decs s.log = incs s.log

theorem isDec_iff {g : Frame τ φ} : g.isDec = true ↔ ∃ T, g = .core (.sdDec T) := by
  cases g with
  | client _ => simp [Frame.isDec]
  | core g => cases g <;> simp [Frame.isDec]

theorem incs_mono {l : Lbl χ} (hs : step C s l = some s') : incs s.log ≤ incs s'.log := by
  cases l with
  | tick m => rw [step_tick C s s' m hs]; exact Nat.le_refl _
  | th t ch => cases step_cnt hs <;> omega

theorem CInv.reach (h : ReachP C d f SerialShutdown s) (hlt : incs s.log < sizeMod) : CInv s := by
  induction h with
  | start =>
    refine ⟨?_, ?_, ?_⟩
    · intro t g hg
      by_cases ht : t = 0
      · subst ht; simp [Core.init, St.stk] at hg
      · simp [Core.init, St.stk, upd_ne _ _ ht] at hg
    · intro t g hg h
      by_cases ht : t = 0
      · subst ht; simp [Core.init, St.stk] at hg; subst hg; simp [Frame.isDec] at h
      · simp [Core.init, St.stk, upd_ne _ _ ht] at hg
    · simp [Core.init, incs, decs]
  | @step s s' l h hs hP ih =>
    have hm := incs_mono hs
    obtain ⟨htl, hpos, hcnt⟩ := ih (by omega)
    have hser := h.holds
    cases l with
    | tick m =>
      rw [step_tick C s s' m hs]
      exact ⟨htl, hpos, hcnt⟩
    | th t ch =>
      have hoth : ∀ u, u ≠ t → ∀ g ∈ s'.stk u, g.isDec = true → g ∈ s.stk u := by
        intro u hu g hg hd
        rcases step_stk_other' (FreeOK.reach h.reach) hu hs with h1 | ⟨-, x, h1⟩
        · rw [h1] at hg; exact hg
        · rw [h1] at hg; simp at hg; subst hg; simp [Frame.isDec] at hd
      have hotl : ∀ u, u ≠ t → ∀ g ∈ (s'.stk u).tail, g.isDec = false := by
        intro u hu g hg
        rcases step_stk_other' (FreeOK.reach h.reach) hu hs with h1 | ⟨-, x, h1⟩
        · rw [h1] at hg; exact htl u g hg
        · rw [h1] at hg; simp at hg
      have hrest : ∀ {old rest}, s.stk t = old :: rest → ∀ g ∈ rest, g.isDec = false := by
        intro old rest h1 g hg
        exact htl t g (by rw [h1]; exact hg)
      have hnone : ∀ {old rest}, s.stk t = old :: rest → (∀ g ∈ s'.stk t, g.isDec = true → g ∈ rest) →
          ∀ g ∈ s'.stk t, g.isDec = false := by
        intro old rest h1 h2 g hg
        by_contra hd
        have hd : g.isDec = true := by simpa using hd
        have := hrest h1 g (h2 g hg hd)
        rw [this] at hd
        contradiction
      cases step_cnt hs with
      | same h1 hi hd hc =>
        refine ⟨?_, ?_, by omega⟩
        · intro u g hg
          by_cases hu : u = t
          · subst hu; rw [h1] at hg; exact htl u g hg
          · exact hotl u hu g hg
        · intro u g hg hgd
          rw [hc]
          by_cases hu : u = t
          · subst hu; rw [h1] at hg; exact hpos u g hg hgd
          · exact hpos u g (hoth u hu g hg hgd) hgd
      | keep old rest h1 h2 hi hd hc =>
        refine ⟨?_, ?_, by omega⟩
        · intro u g hg
          by_cases hu : u = t
          · subst hu; exact hnone h1 h2 g (List.mem_of_mem_tail hg)
          · exact hotl u hu g hg
        · intro u g hg hgd
          rw [hc]
          by_cases hu : u = t
          · subst hu; rw [hnone h1 h2 g hg] at hgd; contradiction
          · exact hpos u g (hoth u hu g hg hgd) hgd
      | check T rest h1 h2 hp hi hd hc =>
        refine ⟨?_, ?_, by omega⟩
        · intro u g hg
          by_cases hu : u = t
          · subst hu; rw [h2] at hg; exact hrest h1 g hg
          · exact hotl u hu g hg
        · intro u g hg hgd
          rw [hc]; exact hp
      | inc cb rest h1 h2 hi hd hc =>
        have hne : s.initCount + 1 ≠ sizeMod := by omega
        rw [incCount, if_neg hne] at hc
        refine ⟨?_, ?_, by omega⟩
        · intro u g hg
          by_cases hu : u = t
          · subst hu; exact hnone h1 h2 g (List.mem_of_mem_tail hg)
          · exact hotl u hu g hg
        · intro u g hg hgd
          omega
      | dec T rest h1 h2 hi hd hc =>
        have hp := hpos t (.core (.sdDec T)) (by rw [h1]; simp) rfl
        rw [decCount, if_neg hp] at hc
        refine ⟨?_, ?_, by omega⟩
        · intro u g hg
          by_cases hu : u = t
          · subst hu; exact hnone h1 h2 g (List.mem_of_mem_tail hg)
          · exact hotl u hu g hg
        · intro u g hg hgd
          exfalso
          by_cases hu : u = t
          · subst hu; rw [hnone h1 h2 g hg] at hgd; contradiction
          · have := hoth u hu g hg hgd
            obtain ⟨T', rfl⟩ := isDec_iff.1 hgd
            exact hu (hser u t T' T this (by rw [h1]; simp))

/-- If at no time two `shutdown` calls are between check and decrement together (and fewer than 2^64 `init` calls are made) the
    counter is the number of effective inits minus effective shutdowns; it never wraps.
    Missing for the full claim: concurrent shutdowns (`C17_counterexample`). -/
theorem C17_count_partial (h : ReachP C d f SerialShutdown s) (hlt : incs s.log < sizeMod) :
    s.initCount + decs s.log = incs s.log := (CInv.reach h hlt).cnt

/-- Under the same conditions, the `shutdown` that tears down is exactly the one that makes the counts equal. -/
theorem C17_teardown_partial (h : ReachP C d f SerialShutdown s) (hlt : incs s.log < sizeMod) {t T : Nat}
    {rest : List (Frame τ φ)} (hst : s.stk t = .core (.sdDec T) :: rest) (hexc : (s.thr t).exc = none) {ch : Ch χ}
    (hs : step C s (.th t ch) = some s') :
    (incs s'.log = decs s'.log ∧ s'.stk t = .core .unreg :: .core (.sdLog T) :: rest) ∨
    (incs s'.log ≠ decs s'.log ∧ s'.stk t = rest ∧ (s'.thr t).rv = .int (-1)) := by
  have hi := CInv.reach h hlt
  have hp := hi.pos t (.core (.sdDec T)) (by rw [hst]; simp) rfl
  have hc := hi.cnt
  rcases step_core hs hst with ⟨-, h⟩ | ⟨e, he, -⟩
  · simp only [stepCore] at h
    rw [decCount, if_neg hp] at h
    split at h
    · obtain rfl := Option.some.inj h
      right
      refine ⟨?_, by simp [St.stk, St.ret], by simp [St.ret]⟩
      simp [St.ret, St.ev, incs_cons, decs_cons]
      omega
    · obtain rfl := Option.some.inj h
      left
      refine ⟨?_, by simp [St.stk, St.setStk]⟩
      simp [St.setStk, St.ev, incs_cons, decs_cons]
      omega
  · rw [hexc] at he; contradiction

/-- For every execution, also with concurrent shutdowns, the counter is the difference modulo 2^64. -/
theorem C17_count_mod (h : Reach C d f s) :
    s.initCount < sizeMod ∧ (s.initCount + decs s.log) % sizeMod = incs s.log % sizeMod := by
  refine Reach.induct (fun s => s.initCount < sizeMod ∧ (s.initCount + decs s.log) % sizeMod = incs s.log % sizeMod) ?_ ?_ h
  · simp [Core.init, incs, decs, sizeMod]
  · intro s l s' _ ⟨h1, h2⟩ hs
    cases l with
    | tick m => rw [step_tick C s s' m hs]; exact ⟨h1, h2⟩
    | th t ch =>
      have hS : sizeMod = 18446744073709551616 := rfl
      rw [hS] at h1 h2 ⊢
      cases step_cnt hs with
      | same _ hi hd hc => rw [hi, hd, hc]; exact ⟨h1, h2⟩
      | keep _ _ _ _ hi hd hc => rw [hi, hd, hc]; exact ⟨h1, h2⟩
      | check _ _ _ _ _ hi hd hc => rw [hi, hd, hc]; exact ⟨h1, h2⟩
      | inc _ _ _ _ hi hd hc =>
        simp only [hi, hd, hc, incCount, hS]
        split <;> omega
      | dec _ _ _ _ hi hd hc =>
        simp only [hi, hd, hc, decCount, hS]
        split <;> omega

/-- Main initialises once; main and thread 1 both call `shutdown`. -/
def wrapProg : List (Act Nat Nat) :=
  [.call (.init none) 2, .call (.spawn 1 5) 3, .call (.shutdown 0) 4, .ret .unit, .call (.shutdown 0) 0]

/-- The full C17 is false: two concurrent `shutdown` calls after one `init` both pass the check and the counter wraps to
    2^64 - 1, after which the library counts as initialised. -/
theorem C17_counterexample : ∃ s, Reach (tableClient (prog wrapProg)) () 1 s ∧
    (s.initCount, incs s.log, decs s.log) = (2 ^ 64 - 1, 1, 2) :=
  wit (ls := go 0 10 ++ go 1 3 ++ go 0 1) (fun s => (s.initCount, incs s.log, decs s.log)) (by decide +kernel)

/-- An execution in which only thread 0 has run satisfies the hypothesis of the partial theorems. -/
theorem ReachP.single {n : Nat} (h : run C (Core.init d f) (List.replicate n (.th 0 .go)) = some s) :
    ReachP C d f SerialShutdown s := by
  have ser : ∀ {s : St τ φ δ}, (∀ u, u ≠ 0 → ∀ g ∈ s.stk u, g.isDec = false) → SerialShutdown s := by
    intro s hq t u T T' h1 h2
    by_cases ht : t = 0
    · by_cases hu : u = 0
      · rw [ht, hu]
      · have := hq u hu _ h2; simp [Frame.isDec] at this
    · have := hq t ht _ h1; simp [Frame.isDec] at this
  have key : ∀ (n : Nat) (s0 : St τ φ δ), ReachP C d f SerialShutdown s0 → (∀ u, u ≠ 0 → ∀ g ∈ s0.stk u, g.isDec = false) →
      run C s0 (List.replicate n (.th 0 .go)) = some s → ReachP C d f SerialShutdown s := by
    intro n
    induction n with
    | zero =>
      intro s0 h0 _ h
      simp only [List.replicate_zero, run, Option.some.injEq] at h
      subst h
      exact h0
    | succ n ih =>
      intro s0 h0 hq h
      simp only [List.replicate_succ, run] at h
      split at h
      · contradiction
      · rename_i s1 hs
        have hq1 : ∀ u, u ≠ 0 → ∀ g ∈ s1.stk u, g.isDec = false := by
          intro u hu g hg
          rcases step_stk_other' (FreeOK.reach h0.reach) hu hs with h1 | ⟨-, x, h1⟩
          · rw [h1] at hg; exact hq u hu g hg
          · rw [h1] at hg; simp at hg; subst hg; rfl
        exact ih s1 (h0.step hs (ser hq1)) hq1 h
  have h0 : ∀ u, u ≠ 0 → ∀ g ∈ (Core.init d f : St τ φ δ).stk u, g.isDec = false := by
    intro u hu g hg
    simp [Core.init, St.stk, upd_ne _ _ hu] at hg
  exact key n _ (.start (ser h0)) h0 h

/-- `init` twice, `shutdown` twice. -/
def nestProg : List (Act Nat Nat) :=
  [.call (.init none) 2, .call (.init none) 3, .call (.shutdown 0) 4, .call (.shutdown 0) 0]

/-- Hypotheses of the partial theorems: the second of two nested `shutdown` calls is about to decrement. -/
example : ∃ s, ReachP (tableClient (prog nestProg)) () 1 SerialShutdown s ∧ incs s.log < sizeMod ∧
    s.stk 0 = [.core (.sdDec 0), .client 0] ∧ (s.thr 0).exc = none ∧ incs s.log = 2 ∧ decs s.log = 1 := by
  have h : (exec nestProg (go 0 13)).map (fun s => (s.stk 0, (s.thr 0).exc, incs s.log, decs s.log)) =
      some ([.core (.sdDec 0), .client 0], none, 2, 1) := by decide +kernel
  obtain ⟨s, h1, h2⟩ := Option.map_eq_some_iff.1 h
  simp only [Prod.mk.injEq] at h2
  exact ⟨s, ReachP.single h1, by rw [h2.2.2.1]; decide, h2.1, h2.2.1, h2.2.2.1, h2.2.2.2⟩

/-! ## C18: leftover registrations -/

/-- If after an unregistration of native thread `n` nobody registered it again, the registry has no entry for it.
    Missing for the full claim: that the constructor of `tpp::thread`, which registers the new thread from its creator, always
    does so before the thread unregisters itself; it does not (`C18_counterexample`). -/
theorem C18_no_leftover_partial (hr : Reach C d f s) {n c id : Nat} {l1 l2 : List (Ev τ)}
    (hlog : s.log = l1 ++ .unregistered c id n :: l2) (hno : ∀ c' id', Ev.registered c' id' n ∉ l1) :
    s.idMap n = none ∧ ∀ i x, (i, x) ∈ s.contexts → (s.ctxs x).native ≠ n := by
  have key : ∀ l1 : List (Ev τ), (∀ c' id', Ev.registered c' id' n ∉ l1) →
      regOf n (l1 ++ .unregistered c id n :: l2) = none := by
    intro l1
    induction l1 with
    | nil => simp [regOf]
    | cons e l1 ih =>
      intro h
      have ih' := ih (fun c' id' hm => h c' id' (List.mem_cons_of_mem _ hm))
      cases e with
      | registered c' id' m =>
        have hm : m ≠ n := by rintro rfl; exact h c' id' (by simp)
        simp [regOf, hm, ih']
      | unregistered c' id' m => simp only [List.cons_append, regOf, ih']; split <;> rfl
      | _ => simpa [regOf] using ih'
  have h1 : s.idMap n = none := by rw [← (LInv.reach hr).regOf, hlog]; exact key l1 hno
  refine ⟨h1, fun i x hm hn => ?_⟩
  have := ((WF.reach hr).idm n i).2 ⟨x, hm, hn⟩
  rw [h1] at this
  contradiction

/-- Creating a `tpp::thread` (thread.cpp:669-701): the native thread is spawned, then registered by its creator.  Its function
    registers itself, unregisters itself and returns. -/
def ctorProg : List (Act Nat Nat) :=
  [.call .registerThis 2, .call (.spawn 1 5) 3, .call (.registerNative 1) 4, .ret .unit, .call .registerThis 6, .call .unregisterThis 0]

/-- The full C18 is false: if the new thread runs to its end before its creator registers it, an entry for the finished thread
    stays in the registry after the constructor returned. -/
theorem C18_counterexample : ∃ s, Reach (tableClient (prog ctorProg)) () 1 s ∧
    (s.contexts.map (fun p => (s.ctxs p.2).native), (s.thr 1).status, s.stk 0) = ([0, 1], .zombie, [.client 4]) :=
  wit (ls := go 0 6 ++ go 1 11 ++ go 0 4) (fun s => (s.contexts.map (fun p => (s.ctxs p.2).native), (s.thr 1).status, s.stk 0))
    (by decide +kernel)

/-- Hypotheses of `C18_no_leftover_partial`: the creator registers the thread first, then the thread unregisters. -/
example : ∃ s, Reach (tableClient (prog ctorProg)) () 1 s ∧
    (s.log.head?, s.log.countP (fun | .registered _ _ 1 => true | _ => false), s.log.take 3) =
      (some (.ret 1 .unregister .unit), 1, [.ret 1 .unregister .unit, .ret 1 .internal .unit, .unregistered 1 2 1]) :=
  wit (ls := go 0 10 ++ go 1 9) (fun s => (s.log.head?, s.log.countP (fun | .registered _ _ 1 => true | _ => false), s.log.take 3))
    (by decide +kernel)

/-! ## C19: contexts are not used after they are freed -/

/-- The functions that run queued tasks or block. -/
def Core.CF.processing : CF τ φ → Bool
  | .waitIn _ | .parked _ _ | .procAll | .procFor _ => true
  | _ => false

/-- If no thread unregistered itself from inside a task, and no thread makes a processing or blocking call in a destructor of
    a task that its own unregistration destroys, no step touches a freed context.
    The second condition is missing in the claim (`C19_counterexample`). -/
theorem C19_no_use_after_free_partial (hr : Reach C d f s) (hub : s.ub = false)
    (hnest : ∀ t c, Ev.nestedUnreg t c ∉ s.log)
    (hdtor : ∀ t g rest, s.stk t = .core g :: rest → g.processing = true → Frame.core .unregClear ∉ s.stk t)
    {l : Lbl χ} (hs : step C s l = some s') : s'.ub = false := by
  have hwf := WF.reach hr
  cases l with
  | tick m => rw [step_tick C s s' m hs]; exact hub
  | th t ch =>
  simp only [step] at hs
  split at hs
  · contradiction
  split at hs
  · contradiction
  split at hs
  · obtain rfl := Option.some.inj hs
    unfold stepExc
    split <;> (first | exact hub | (split <;> exact hub))
  · split at hs
    · obtain rfl := Option.some.inj hs; exact hub
    · rename_i g rest hst
      have hst' : s.stk t = .core g :: rest := hst
      have held : ∀ c, (Frame.core g : Frame τ φ).holds c = true → (s.ctxs c).life = .alive := by
        intro c hc
        by_contra hn
        have h1 := (hwf.ded c hn).1
        have h2 := hwf.hol c t
        rw [h1, hst', List.countP_cons, hc] at h2
        simp at h2
      have locl : ∀ c, g.processing = true → s.loc t = some c → (s.ctxs c).life = .alive := by
        intro c hg hl
        have hnu := hdtor t g rest hst' hg
        rcases (hwf.loc t c hl).2.2 with ⟨i, hi⟩ | h1 | ⟨r, h1⟩ | ⟨_, _, r, h1⟩
        · exact (hwf.mem i c hi).2.2
        · exact absurd h1.2 hnu
        · exact absurd (by rw [h1]; simp) hnu
        · exact absurd (by rw [h1]; simp) hnu
      have task : ∀ c, (Frame.core g : Frame τ φ).task c = true → (s.ctxs c).life = .alive := by
        intro c hc
        rcases (hwf.tsk t _ c (by rw [hst']; simp) hc).2.2 with ⟨i, hi⟩ | h1
        · exact (hwf.mem i c hi).2.2
        · exact absurd h1 (hnest t c)
      cases g with
      | retv dd => cases dd <;> (simp only [stepCore] at hs; obtain rfl := Option.some.inj hs; exact hub)
      | destroyList c l g v => cases l <;> (simp only [stepCore] at hs; obtain rfl := Option.some.inj hs; exact hub)
      | regDone c self => cases self <;> (simp only [stepCore] at hs; obtain rfl := Option.some.inj hs; exact hub)
      | sdNotify l T =>
        cases l with
        | cons i l => simp only [stepCore] at hs; obtain rfl := Option.some.inj hs; exact hub
        | nil =>
          simp only [stepCore] at hs
          repeat' (split at hs)
          all_goals first | contradiction | (obtain rfl := Option.some.inj hs; exact hub)
      | exitSet c =>
        have := held c (by simp [Frame.holds])
        simp only [stepCore, this] at hs
        repeat' (split at hs)
        all_goals first | contradiction | (obtain rfl := Option.some.inj hs; exact hub)
      | invPush c k =>
        have := held c (by simp [Frame.holds])
        simp only [stepCore, this] at hs
        repeat' (split at hs)
        all_goals first | contradiction | (obtain rfl := Option.some.inj hs; exact hub)
      | pendRead c =>
        have := held c (by simp [Frame.holds])
        simp only [stepCore, this] at hs
        repeat' (split at hs)
        all_goals first | contradiction | (obtain rfl := Option.some.inj hs; exact hub)
      | parked c dl =>
        have := locl c rfl (hwf.prk t c dl rest hst')
        simp only [stepCore, this] at hs
        repeat' (split at hs)
        all_goals first | contradiction | (obtain rfl := Option.some.inj hs; exact hub)
      | freed c k r =>
        have := task c (by simp [Frame.task])
        simp only [stepCore, this] at hs
        repeat' (split at hs)
        all_goals first | contradiction | (obtain rfl := Option.some.inj hs; exact hub)
      | waitIn dd =>
        simp only [stepCore] at hs
        split at hs
        · obtain rfl := Option.some.inj hs; exact hub
        · rename_i c hl
          rw [if_neg (by simp [locl c rfl hl])] at hs
          repeat' (split at hs)
          all_goals first | contradiction | (obtain rfl := Option.some.inj hs; exact hub)
      | procAll =>
        simp only [stepCore] at hs
        split at hs
        · obtain rfl := Option.some.inj hs; exact hub
        · rename_i c hl
          rw [if_neg (by simp [locl c rfl hl])] at hs
          repeat' (split at hs)
          all_goals first | contradiction | (obtain rfl := Option.some.inj hs; exact hub)
      | procFor e =>
        simp only [stepCore] at hs
        split at hs
        · obtain rfl := Option.some.inj hs; exact hub
        · rename_i c hl
          rw [if_neg (by simp [locl c rfl hl])] at hs
          repeat' (split at hs)
          all_goals first | contradiction | (obtain rfl := Option.some.inj hs; exact hub)
      | _ =>
        simp only [stepCore] at hs
        repeat' (split at hs)
        all_goals first | contradiction | (obtain rfl := Option.some.inj hs; exact hub)
    · simp only [stepClient] at hs
      split at hs
      · contradiction
      · rename_i a _
        cases a <;> (obtain rfl := Option.some.inj hs; exact hub)

/-- A thread's own context, which `get_id`, `notified_for_exit` and `get_depth` read without a lock, exists unless the thread is
    just unregistering itself. -/
theorem C19_own_context_alive (hr : Reach C d f s) {t c : Nat} (hl : s.loc t = some c)
    (hno : Frame.core .unregClear ∉ s.stk t) : (s.ctxs c).life = .alive := by
  have hwf := WF.reach hr
  rcases (hwf.loc t c hl).2.2 with ⟨i, hi⟩ | h1 | ⟨r, h1⟩ | ⟨_, _, r, h1⟩
  · exact (hwf.mem i c hi).2.2
  · exact absurd h1.2 hno
  · exact absurd (by rw [h1]; simp) hno
  · exact absurd (by rw [h1]; simp) hno

/-- The context that another thread works on while it holds a reference (`invoke`, `notify_for_exit`, pending count) exists,
    also if its thread unregisters concurrently. -/
theorem C19_held_alive (hr : Reach C d f s) {t c : Nat} {g : Frame τ φ} (hg : g ∈ s.stk t) (hh : g.holds c = true) :
    (s.ctxs c).life = .alive := by
  have hwf := WF.reach hr
  by_contra hn
  have h1 := (hwf.ded c hn).1
  have h2 := hwf.hol c t
  rw [h1] at h2
  have : 0 < (s.stk t).countP (Frame.holds c) := List.countP_pos_iff.2 ⟨g, hg, hh⟩
  simp at h2
  omega

/-- Task objects whose destructor calls `process()`. -/
def dtorClient : Client Nat Nat Unit Unit :=
  { tableClient (prog [.call .registerThis 2, .call (.invoke 1 10) 3, .call .unregisterThis 0, .call .process 0]) with destroy := fun _ => 4 }

/-- The full C19 is false even without nested unregistration: the destructor of a queued task that is dropped by
    `unregister_this_thread` calls `process()`, which uses the freed context. -/
theorem C19_counterexample : ∃ s, Reach dtorClient () 1 s ∧ s.ub = true ∧ ∀ t c, Ev.nestedUnreg t c ∉ s.log := by
  have h : (run dtorClient (init () 1) (go 0 14)).map
      (fun s => (s.ub, s.log.any fun | .nestedUnreg _ _ => true | _ => false)) = some (true, false) := by decide +kernel
  obtain ⟨s, h1, h2⟩ := Option.map_eq_some_iff.1 h
  simp only [Prod.mk.injEq] at h2
  refine ⟨s, ⟨_, h1⟩, h2.1, fun t c hm => ?_⟩
  have := List.any_eq_false.1 h2.2 _ hm
  simp at this

/-- Hypotheses of `C19_no_use_after_free_partial` and `C19_held_alive`: thread 1 holds main's context (it is about to queue a
    task) after main has unregistered. -/
def uafProg : List (Act Nat Nat) :=
  [.call .registerThis 2, .call (.spawn 1 4) 3, .call .unregisterThis 0, .call (.invoke 1 10) 0]

example : ∃ s, Reach (tableClient (prog uafProg)) () 1 s ∧
    (s.ub || s.log.any (fun | .nestedUnreg _ _ => true | _ => false), s.contexts.length, s.stk 1, s.stk 0) =
      (false, 0, [.core (.invPush 0 10), .client 0], [.client 0]) :=
  wit (ls := go 0 6 ++ go 1 2 ++ go 0 4)
    (fun s => (s.ub || s.log.any (fun | .nestedUnreg _ _ => true | _ => false), s.contexts.length, s.stk 1, s.stk 0)) (by decide +kernel)

end
end Itc
