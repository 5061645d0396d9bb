import Verif.Core.Log
import Verif.Core.Demo

/-!
# C04 - C07, C09 - C11: task delivery

For an arbitrary client, arbitrary schedule, arbitrary length of the execution.  `accs c`, `stas c`, `fins c`, `dros c`
are the lists of tasks accepted for, started by, finished by and dropped from registration `c`, read off the log.
-/
namespace Itc
open Core
section
variable {τ φ δ χ : Type} {C : Client τ φ δ χ} {d : δ} {f : φ} {s s' : St τ φ δ}

/-! ## C04 -/

/-- **C04.** A refusal happens only for `invalid_id()` or an id that is not registered at that moment; an acceptance only
    for an id that was handed out; `invoke` returns `true` only after an acceptance and `false` only after a refusal. -/
theorem C04_invoke_result (h : Reach C d f s) {pre l : List (Ev τ)} {e : Ev τ} (hlog : s.log = pre ++ e :: l) :
    (∀ t id k, e = .refused t id k → id = 0 ∨ id ∉ liveIds l) ∧
    (∀ t c id k, e = .accepted t c id k → id ≠ 0 ∧ ∃ n, Ev.registered c id n ∈ l) ∧
    (∀ t id v, e = .ret t (.invoke id) v →
      (v = .bool true ∧ ∃ c k, Ev.accepted t c id k ∈ l) ∨ (v = .bool false ∧ ∃ k, Ev.refused t id k ∈ l)) := by
  have hl := LInv.reach h
  have he := hl.hist.split hlog
  refine ⟨?_, ?_, ?_⟩
  · rintro t id k rfl; exact he
  · rintro t c id k rfl
    obtain ⟨n, hn⟩ := he
    have := (hl.regd c id n).1 (by rw [hlog]; simp [hn])
    have h0 := ((WF.reach h).ids c this.1).1
    exact ⟨by omega, n, hn⟩
  · rintro t id v rfl; exact he

/-- The lookup decides: at the lookup step of `invoke`, the call is refused iff the id is invalid or not registered;
    otherwise it proceeds to the context registered under that id. -/
theorem C04_lookup (h : Reach C d f s) {t id : Nat} {k : τ} {own : Bool} {rest : List (Frame τ φ)} {ch : Ch χ}
    (htop : s.stk t = .core (.invLook id k own) :: rest) (hexc : (s.thr t).exc = none)
    (hs : step C s (.th t ch) = some s') :
    ((id = 0 ∨ id ∉ liveIds s.log) → Ev.refused t id k ∈ s'.log ∧ s'.ctxs = s.ctxs) ∧
    (id ≠ 0 → id ∈ liveIds s.log → s'.log = s.log ∧
      ∃ c n, Ev.registered c id n ∈ s.log ∧ regOf n s.log = some id ∧ s'.stk t = .core (.invPush c k) :: rest) := by
  have hw := WF.reach h
  have hl := LInv.reach h
  have htop' : (s.thr t).stack = _ := htop
  simp only [step] at hs
  split at hs
  · simp at hs
  split at hs
  · simp at hs
  rw [hexc] at hs
  simp only [htop'] at hs
  simp only [stepCore] at hs
  have hlive : s.find id = none ↔ id ∉ liveIds s.log := by
    rw [hl.live]
    constructor
    · intro hn hm
      obtain ⟨⟨i, c⟩, hc, hi⟩ := List.mem_map.1 hm
      simp only at hi
      subst hi
      exact find_none hn c hc
    · intro hn
      cases hf : s.find id with
      | none => rfl
      | some c => exact absurd (List.mem_map.2 ⟨_, find_some hf, rfl⟩) hn
  split at hs
  · rename_i h0
    refine ⟨fun _ => ?_, fun h1 => absurd h0 h1⟩
    split at hs <;> obtain rfl := Option.some.inj hs <;> simp [St.ev, St.setStk, St.ret]
  · rename_i h0
    split at hs
    · simp at hs
    · split at hs
      · rename_i hf
        refine ⟨fun _ => ?_, fun _ h1 => absurd h1 (hlive.1 hf)⟩
        split at hs <;> obtain rfl := Option.some.inj hs <;> simp [St.ev, St.setStk, St.ret]
      · rename_i c hf
        refine ⟨?_, fun _ _ => ?_⟩
        · rintro (h1 | h1)
          · exact absurd h1 h0
          · rw [← hlive, hf] at h1; simp at h1
        · obtain rfl := Option.some.inj hs
          have h1 := mem_of_find hw hf
          refine ⟨rfl, c, (s.ctxs c).native, (hl.regd _ _ _).2 ⟨h1.1, h1.2.1, rfl⟩, ?_, by simp [St.setStk, St.stk, St.hold, St.setCtx]⟩
          rw [hl.regOf, hw.idm]
          exact ⟨c, find_some hf, rfl⟩

/-- A refusal changes no queue and no registration. -/
theorem C04_refused_no_effect (h : Reach C d f s) {l : Lbl χ} (hs : step C s l = some s') {es : List (Ev τ)}
    (hlog : s'.log = es ++ s.log) {t id : Nat} {k : τ} (hr : Ev.refused t id k ∈ es) :
    s'.ctxs = s.ctxs ∧ liveIds s'.log = liveIds s.log ∧ (∀ c, accs c s'.log = accs c s.log) := by
  have hw := WF.reach h
  cases l with
  | tick n =>
    have := step_tick C s s' n hs
    subst this
    have : ([] : List (Ev τ)) ++ s.log = es ++ s.log := hlog
    have := List.append_cancel_right this
    subst this
    simp at hr
  | th u ch =>
    have he := step_eff C s s' u ch hs
    have key : ∀ es', s'.log = es' ++ s.log → Ev.refused t id k ∈ es' := fun es' h' => by
      have := List.append_cancel_right (h'.symm.trans hlog)
      rw [this]; exact hr
    have hn : ∀ es', s'.log = es' ++ s.log → Ev.refused t id k ∉ es' → False := fun es' h1 h2 => h2 (key es' h1)
    cases he with
    | ctl es' old new rest hreg hctx hloc hold holdp hstk hnewp hdl hlog' hes hok =>
      refine ⟨hctx, ?_, fun c => ?_⟩
      · rw [hlog', liveIds_neutral _ _ hes]
      · rw [hlog', accs_neutral _ _ _ hes]
    | unreg c rest hold hfind hgen hn' hidm hcon hctx hloc hstk hlog' =>
      exfalso
      split at hlog'
      · exact hn [_, _] hlog' (by simp)
      · exact hn [_] hlog' (by simp)
    | relLast c f v rest hreg hold hemp hnot hctx hloc hstk hlog' => exact (hn _ hlog' (by simp)).elim
    | freed c k r new rest es hreg hold halive hctx hloc hstk hnewp hnewd hlog' hes hes' =>
      exfalso
      rcases hes' with rfl | ⟨b, rfl⟩
      · exact hn [_] hlog' (by simp)
      · exact hn [_, _] hlog' (by simp)
    | halt hreg hctx hloc hstk hlog' => exact (hn [] hlog' (by simp)).elim
    | fin hreg hctx hold hloc hstk hlog' => exact (hn [] hlog' (by simp)).elim
    | spawn n f v rest hreg hctx hold hfree hne hloc hstk hlog' => exact (hn [_] hlog' (by simp)).elim
    | regFound n? n c self rest hold hself hfind hgen hidm hcon hn' hctx hloc hstk hlog' => exact (hn [_] hlog' (by simp)).elim
    | regNew n? n self rest hold hself hfind hgen hidm hcon hn' hctx hloc hstk hlog' => exact (hn [_, _] hlog' (by simp)).elim
    | regDone c self rest hreg hctx hold hloc hstk hlog' => exact (hn [] hlog' (by simp)).elim
    | unregNone rest hreg hctx hold hfind hloc hstk hlog' => exact (hn [] hlog' (by simp)).elim
    | unregClear rest hreg hctx hold hloc hstk hlog' => exact (hn [_] hlog' (by simp)).elim
    | hold id c f g rest hreg hold hf hg hgt hgu hgd hgp hgr hgf hfind hctx hloc hstk hlog' => exact (hn [] hlog' (by simp)).elim
    | relKeep c f v rest hreg hold hkeep hctx hloc hstk hlog' => exact (hn [_] hlog' (by simp)).elim
    | destroyed c f v rest hreg hold hctx hloc hstk hlog' => exact (hn [_] hlog' (by simp)).elim
    | exitSet c rest hreg hold halive hctx hloc hstk hlog' => exact (hn [_] hlog' (by simp)).elim
    | invPush c k rest hreg hold halive hctx hloc hstk hlog' => exact (hn [_] hlog' (by simp)).elim
    | pendRead c n rest hreg hctx hold halive hval hloc hstk hlog' => exact (hn [_] hlog' (by simp)).elim
    | start c k x r f rest w hreg hold hf halive hpop hctx hloc hstk hlog' => exact (hn [_] hlog' (by simp)).elim
    | park c d rest hreg hold hlc halive hpop hexit hctx hloc hstk hlog' => exact (hn [] hlog' (by simp)).elim
    | rewait c dl rest hreg hold halive hw hctx hloc hstk hlog' => exact (hn [] hlog' (by simp)).elim
    | parkRet c dl b rest hreg hold halive hpop hctx hloc hstk hlog' => exact (hn [_] hlog' (by simp)).elim
    | ran c k r rest hreg hctx hold hloc hstk hlog' => exact (hn [] hlog' (by simp)).elim
    | threw c k r e rest hreg hctx hold hloc hstk hlog' => exact (hn [_] hlog' (by simp)).elim

/-- Non-vacuity of the C04 theorems: the demo contains an acceptance, a refusal and both return values. -/
example : ∃ s, Reach (tableClient (prog demoProg)) () 1 s ∧
    (∃ pre l, s.log = pre ++ .refused 0 9 13 :: l ∧ 9 ∉ liveIds l) ∧
    (∃ pre l, s.log = pre ++ .accepted 0 0 1 12 :: l) ∧
    (∃ pre l, s.log = pre ++ .ret 0 (.invoke 9) (.bool false) :: l) := by
  obtain ⟨s, hs, hl⟩ := demo_reach
  exact ⟨s, hs,
    ⟨(demoLog.drop 18).reverse, (demoLog.take 17).reverse, by rw [hl]; decide, by decide⟩,
    ⟨(demoLog.drop 16).reverse, (demoLog.take 15).reverse, by rw [hl]; decide⟩,
    ⟨(demoLog.drop 19).reverse, (demoLog.take 18).reverse, by rw [hl]; decide⟩⟩

/-- Non-vacuity of `C04_lookup` (both cases). -/
example : (∃ s rest, Reach (tableClient (prog demoProg)) () 1 s ∧ s.stk 0 = .core (.invLook 9 13 true) :: rest ∧
      (s.thr 0).exc = none ∧ 9 ∉ liveIds s.log) ∧
    (∃ s rest, Reach (tableClient (prog demoProg)) () 1 s ∧ s.stk 0 = .core (.invLook 1 10 true) :: rest ∧
      (s.thr 0).exc = none ∧ 1 ∈ liveIds s.log) := by
  obtain ⟨s, hs, hl⟩ := wit (l := demoProg) (ls := go 0 37) (hnd := fun _ => none)
    (fun s => (s.stk 0, (s.thr 0).exc, liveIds s.log)) (b := ([.core (.invLook 9 13 true), .client 8], none, [1]))
    (by decide +kernel)
  obtain ⟨s', hs', hl'⟩ := wit (l := demoProg) (ls := go 0 5) (hnd := fun _ => none)
    (fun s => (s.stk 0, (s.thr 0).exc, liveIds s.log)) (b := ([.core (.invLook 1 10 true), .client 3], none, [1]))
    (by decide +kernel)
  simp only [Prod.mk.injEq] at hl hl'
  exact ⟨⟨s, _, hs, hl.1, hl.2.1, by rw [hl.2.2]; decide⟩, ⟨s', _, hs', hl'.1, hl'.2.1, by rw [hl'.2.2]; decide⟩⟩

/-! ## C05 - C07 -/

/-- **C05.** For every registration, the tasks started so far are a prefix of the tasks accepted so far, in order:
    FIFO, none twice, none skipped, none invented; likewise for those started at any earlier moment. -/
theorem C05_fifo (h : Reach C d f s) (c : Nat) : stas c s.log <+: accs c s.log := by
  rw [(QInv.reach h).cons c, List.append_assoc]
  exact List.prefix_append _ _

/-- **C06.** Every accepted task is started, dropped or still in its thread's queue, in this order and exactly once;
    while the registration has not ended nothing is dropped. -/
theorem C06_no_loss (h : Reach C d f s) (c : Nat) :
    accs c s.log = stas c s.log ++ dros c s.log ++ (s.ctxs c).pend ∧
    (dros c s.log ≠ [] → ∃ id n, Ev.unregistered c id n ∈ s.log) ∧
    ((∀ id n, Ev.unregistered c id n ∉ s.log) → accs c s.log = stas c s.log ++ (s.ctxs c).pend) := by
  have h1 := (QInv.reach h).cons c
  have hl := (LInv.reach h).hist
  have h2 : dros c s.log ≠ [] → ∃ id n, Ev.unregistered c id n ∈ s.log := by
    generalize s.log = log at hl
    induction log with
    | nil => intro hh; simp [dros, extract] at hh
    | cons e l ih =>
      intro hh
      have h3 := ih hl.2
      have h4 := hl.1
      cases e <;> simp only [dros, extract, Option.toList, List.append_nil] at hh h3
      case dropped t c' k =>
        by_cases hc : c' = c
        · subst hc
          obtain ⟨id, n, hm⟩ := h4
          exact ⟨id, n, List.mem_cons_of_mem _ hm⟩
        · simp only [hc, if_false, List.append_nil] at hh
          obtain ⟨id, n, hm⟩ := h3 hh
          exact ⟨id, n, List.mem_cons_of_mem _ hm⟩
      all_goals
        obtain ⟨id, n, hm⟩ := h3 hh
        exact ⟨id, n, List.mem_cons_of_mem _ hm⟩
  refine ⟨h1, h2, fun h3 => ?_⟩
  have h4 : dros c s.log = [] := by
    by_contra hne
    obtain ⟨id, n, hm⟩ := h2 hne
    exact h3 id n hm
  rw [h1, h4]; simp

/-- Non-vacuity: in the demo three tasks are accepted for registration 0, two are started, one is dropped. -/
example : ∃ s, Reach (tableClient (prog demoProg)) () 1 s ∧ accs 0 s.log = [10, 11, 12] ∧ stas 0 s.log = [10, 11] ∧
    dros 0 s.log = [12] := by
  obtain ⟨s, hs, hl⟩ := demo_reach
  exact ⟨s, hs, by rw [hl]; decide, by rw [hl]; decide, by rw [hl]; decide⟩

/-- **C07.** The thread that starts (or finishes) a queued task is the native thread registered under the id to which the
    tasks of that registration were sent. -/
theorem C07_right_thread (h : Reach C d f s) {t c : Nat} {k : τ} (hst : Ev.started t c k ∈ s.log ∨ Ev.finished t c k ∈ s.log) :
    ∃ id, Ev.registered c id t ∈ s.log ∧ ∀ u id' k', Ev.accepted u c id' k' ∈ s.log → id' = id := by
  have hl := LInv.reach h
  have : ∃ id, Ev.registered c id t ∈ s.log := by
    rcases hst with hst | hst <;> obtain ⟨pre, l, hlog⟩ := List.append_of_mem hst <;>
      obtain ⟨id, hid⟩ := hl.hist.split hlog <;> exact ⟨id, by rw [hlog]; simp [hid]⟩
  obtain ⟨id, hid⟩ := this
  refine ⟨id, hid, ?_⟩
  intro u id' k' ha
  obtain ⟨pre, l, hlog⟩ := List.append_of_mem ha
  obtain ⟨n, hn⟩ := hl.hist.split hlog
  have h1 := (hl.regd c id' n).1 (by rw [hlog]; simp [hn])
  have h2 := (hl.regd c id t).1 hid
  exact h1.2.1.symm.trans h2.2.1

/-- A registration has one id and one native thread for ever, and different registrations have different ids. -/
theorem C07_registration_unique (h : Reach C d f s) {c c' id id' n n' : Nat} (h1 : Ev.registered c id n ∈ s.log)
    (h2 : Ev.registered c' id' n' ∈ s.log) : (c = c' ↔ id = id') ∧ (c = c' → n = n') := by
  have hl := LInv.reach h
  have a := (hl.regd _ _ _).1 h1
  have b := (hl.regd _ _ _).1 h2
  refine ⟨⟨?_, ?_⟩, ?_⟩
  · rintro rfl; exact a.2.1.symm.trans b.2.1
  · rintro rfl; exact (WF.reach h).inj _ _ a.1 b.1 (a.2.1.trans b.2.1.symm)
  · rintro rfl; exact a.2.2.symm.trans b.2.2

/-- Main creates thread 1, registers it, and queues a task to it; thread 1 registers itself and runs it. -/
def twoThreads : List (Act Nat Nat) :=
  [.call (.spawn 1 5) 2, .call (.registerNative 1) 3, .call (.invoke 1 9) 0, .ret .unit,
   .call .registerThis 6, .call .wait 0]

/-- Non-vacuity: a task sent by thread 0 is started by thread 1. -/
example : ∃ s, Reach (tableClient (prog twoThreads)) () 1 s ∧ Ev.started 1 0 9 ∈ s.log ∧ Ev.accepted 0 0 1 9 ∈ s.log := by
  obtain ⟨s, hs, hl⟩ := wit (l := twoThreads) (ls := go 0 10 ++ go 1 6) (hnd := fun _ => none)
    (fun s => (decide (Ev.started 1 0 9 ∈ s.log), decide (Ev.accepted 0 0 1 9 ∈ s.log))) (b := (true, true)) (by decide +kernel)
  simp only [Prod.mk.injEq, decide_eq_true_eq] at hl
  exact ⟨s, hs, hl.1, hl.2⟩

/-! ## C09, C10 -/

/-- Tasks of registration `c` accepted and neither finished nor left by an exception. -/
def unfinished (c : Nat) (l : List (Ev τ)) : Nat := (accs c l).length - (fins c l).length - (thrs c l).length

/-- **C09 (partial).** `get_pending_task_count(id)` returns the number of unfinished tasks at the moment of the read, or 0 if
    `id` is invalid or not registered, provided no task of that thread was left by an exception before.
    Missing: with exceptions the statement is false, see `C09_counterexample`. -/
theorem C09_pending_exact_partial (h : Reach C d f s) {pre l : List (Ev τ)} {t id : Nat} {v : Val}
    (hlog : s.log = pre ++ .ret t (.pending id) v :: l) :
    (∃ c l1 l2 m n, l = l1 ++ .pendRes t c id n :: l2 ∧ Ev.registered c id m ∈ l2 ∧ v = .nat n ∧
      (thrs c l2 = [] → n = unfinished c l2)) ∨
    (v = .nat 0 ∧ (id = 0 ∨ id ∉ liveIds l)) := by
  have hl := LInv.reach h
  rcases hl.hist.split hlog with ⟨c, n, rfl, hm⟩ | h0
  · obtain ⟨l1, l2, rfl⟩ := List.append_of_mem hm
    have h1 : HP (.pendRes t c id n) l2 :=
      hl.hist.split (pre := pre ++ .ret t (.pending id) (.nat n) :: l1) (by simp [hlog])
    obtain ⟨⟨m, hm'⟩, h2⟩ := h1
    refine .inl ⟨c, l1, l2, m, n, rfl, hm', rfl, fun h3 => ?_⟩
    simp only [unfinished, h3, List.length_nil]
    omega
  · exact .inr h0

/-- Non-vacuity: the demo reads the count 1 while one task is queued and two have finished. -/
example : ∃ s, Reach (tableClient (prog demoProg)) () 1 s ∧ ∃ pre l, s.log = pre ++ .ret 0 (.pending 1) (.nat 1) :: l ∧
    thrs 0 l = [] ∧ unfinished 0 l = 1 ∧ accs 0 l = [10, 11, 12] := by
  obtain ⟨s, hs, hl⟩ := demo_reach
  exact ⟨s, hs, (demoLog.drop 21).reverse, (demoLog.take 20).reverse, by rw [hl]; decide, by decide, by decide, by decide⟩

/-- Main registers, queues a task that throws, runs it, catches the exception, and asks for the pending count. -/
def throwProg : List (Act Nat Nat) :=
  [.call .registerThis 2, .call (.invoke 1 10) 3, .call .process 5, .ret .unit, .call (.pending 1) 0,
   .ret .unit, .ret .unit, .ret .unit, .ret .unit, .throw (.user 7)]

/-- **C09 is false when a task throws**: the only task has been executed and nothing is queued, yet the count is 1
    (`process_one` does not restore `processing_stack_depth`, thread.cpp:416-429). -/
theorem C09_counterexample : ∃ s, Reach (tableClient (prog throwProg) (fun | 5 => some 5 | _ => none)) () 1 s ∧
    ∃ pre l, s.log = pre ++ .ret 0 (.pending 1) (.nat 1) :: l ∧ unfinished 0 l = 0 ∧ (s.ctxs 0).pend = [] ∧
      s.stk 0 = [.client 0] := by
  obtain ⟨s, hs, hl⟩ := wit (l := throwProg) (ls := go 0 19) (hnd := fun | 5 => some 5 | _ => none)
    (fun s => (s.log, (s.ctxs 0).pend, s.stk 0)) (b := (
      [.ret 0 (.pending 1) (.nat 1), .pendRes 0 0 1 1, .threw 0 0, .started 0 0 10, .ret 0 (.invoke 1) (.bool true),
       .accepted 0 0 1 10, .ret 0 (.register 0) (.nat 1), .regRes 0 0 1, .registered 0 1 0], [], [.client 0]))
    (by decide +kernel)
  simp only [Prod.mk.injEq] at hl
  exact ⟨s, hs, [], _, hl.1, by decide, hl.2⟩

/-- **C10 (partial).** `get_depth()` is the number of queued tasks of the calling thread's registration that are being
    executed: started, not finished; and these are exactly the task activations on its stack - provided none of its tasks
    was left by an exception.  Missing: with exceptions the statement is false, see `C10_counterexample`. -/
theorem C10_depth_exact_partial (h : Reach C d f s) {t c : Nat} (hloc : s.loc t = some c) (hthr : thrs c s.log = []) :
    s.getDepth t + (fins c s.log).length = (stas c s.log).length ∧ s.getDepth t = (s.stk t).countP (Frame.task c) := by
  have hq := QInv.reach h
  have hw := WF.reach h
  have hloc' : (s.thr t).loc = some c := hloc
  have hd : s.getDepth t = (s.ctxs c).depth := by simp [St.getDepth, hloc']
  have h1 := hq.depth c
  have h2 := hq.fin c
  rw [hthr, (hw.loc t c hloc).2.1] at h1
  rw [hd]
  exact ⟨by omega, by simpa [tcount] using h1⟩

/-- An unregistered thread has depth 0. -/
theorem C10_unregistered {t : Nat} (hloc : s.loc t = none) : s.getDepth t = 0 := by
  have hloc' : (s.thr t).loc = none := hloc
  simp [St.getDepth, hloc']

/-- Non-vacuity: in the middle of the demo, inside the second task, the depth is 1. -/
example : ∃ s, Reach (tableClient (prog demoProg)) () 1 s ∧ s.loc 0 = some 0 ∧ thrs 0 s.log = [] ∧ s.getDepth 0 = 1 := by
  obtain ⟨s, hs, hl⟩ := wit (l := demoProg) (ls := go 0 20) (hnd := fun _ => none)
    (fun s => (s.loc 0, thrs 0 s.log, s.getDepth 0)) (b := (some 0, [], 1)) (by decide +kernel)
  simp only [Prod.mk.injEq] at hl
  exact ⟨s, hs, hl⟩

/-- **C10 is false when a task throws**: no task is on the stack, yet the depth is 1. -/
theorem C10_counterexample : ∃ s, Reach (tableClient (prog throwProg) (fun | 5 => some 5 | _ => none)) () 1 s ∧
    s.loc 0 = some 0 ∧ s.stk 0 = [.client 0] ∧ s.getDepth 0 = 1 := by
  obtain ⟨s, hs, hl⟩ := wit (l := throwProg) (ls := go 0 19) (hnd := fun | 5 => some 5 | _ => none)
    (fun s => (s.loc 0, s.stk 0, s.getDepth 0)) (b := (some 0, [.client 0], 1)) (by decide +kernel)
  simp only [Prod.mk.injEq] at hl
  exact ⟨s, hs, hl⟩

/-! ## C11 -/

/-- **C11.** Called with the caller's own id, `dispatch` runs the functor directly: the next step executes it on the
    caller's stack, and no queue changes; otherwise the next step puts the caller exactly where a call of `invoke` starts. -/
theorem C11_dispatch {t id : Nat} {k : τ} {rest : List (Frame τ φ)} {ch : Ch χ}
    (htop : s.stk t = .core (.dispatch id k) :: rest) (hexc : (s.thr t).exc = none)
    (hs : step C s (.th t ch) = some s') :
    (s.getId t = id → s'.ctxs = s.ctxs ∧ s'.contexts = s.contexts ∧ s'.log = .inlined t id k :: s.log ∧
      s'.stk t = .client (C.run k) :: .core (.dispRan k) :: rest) ∧
    (s.getId t ≠ id → s' = s.setStk t (.core (Api.invoke id k : Api τ φ).entry :: rest)) := by
  have htop' : (s.thr t).stack = _ := htop
  simp only [step] at hs
  split at hs
  · simp at hs
  split at hs
  · simp at hs
  rw [hexc] at hs
  simp only [htop', stepCore] at hs
  split at hs
  · rename_i h0
    obtain rfl := Option.some.inj hs
    exact ⟨fun _ => ⟨rfl, rfl, rfl, by simp [St.setStk, St.stk]⟩, fun h1 => absurd h0 h1⟩
  · rename_i h0
    obtain rfl := Option.some.inj hs
    exact ⟨fun h1 => absurd h1 h0, fun _ => rfl⟩

/-- C11: when an inline `dispatch` returns, it returns `true` and the functor has been run by this thread before; a functor
    run inline is never in a queue. -/
theorem C11_returned (h : Reach C d f s) {pre l : List (Ev τ)} {t : Nat} {v : Val}
    (hlog : s.log = pre ++ .ret t .dispatch v :: l) : v = .bool true ∧ ∃ id k, Ev.inlined t id k ∈ l :=
  (LInv.reach h).hist.split hlog

/-- Non-vacuity of both branches and of the return. -/
example : (∃ s rest, Reach (tableClient (prog demoProg)) () 1 s ∧ s.stk 0 = .core (.dispatch 1 12) :: rest ∧
      (s.thr 0).exc = none ∧ s.getId 0 = 1) ∧
    (∃ s, Reach (tableClient (prog demoProg)) () 1 s ∧ ∃ pre l, s.log = pre ++ .ret 0 .dispatch (.bool true) :: l) := by
  obtain ⟨s, hs, hl⟩ := wit (l := demoProg) (ls := go 0 20) (hnd := fun _ => none)
    (fun s => (s.stk 0, (s.thr 0).exc, s.getId 0))
    (b := ([.core (.dispatch 1 12), .client 0, .core (.ran 0 11 .toAll), .client 5], none, 1)) (by decide +kernel)
  simp only [Prod.mk.injEq] at hl
  obtain ⟨s', hs', hl'⟩ := demo_reach
  exact ⟨⟨s, _, hs, hl.1, hl.2⟩, s', hs', (demoLog.drop 12).reverse, (demoLog.take 11).reverse, by rw [hl']; decide⟩

end
end Itc
