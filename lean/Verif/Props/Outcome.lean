import Verif.Sync.Out
import Verif.Sync.Asy
import Verif.Sync.Demo
import Verif.Props.Launch
import Verif.Props.Ready

/-!
# C37: the future of async holds the outcome of the function; C35: broken promises
-/
namespace Itc
open Core Sync
section
variable {α φ δ χ : Type} {A : App α φ δ χ} {ad : δ} {i0 : φ} {s s' : SSt α φ δ}

/-- The result `r`, set by thread `t`, is the outcome of the packaged task `p`: what its function returned or threw on that thread, or,
if the function was never called, broken_promise. -/
def IsOutcome (log : List SEv) (t p : Nat) (r : Res) : Prop :=
  (∃ v, r = .val v ∧ .bodyRet t p v ∈ log) ∨ (∃ e, r = .exn e ∧ .bodyThrew t p e ∈ log) ∨
    r = .exn .brokenPromise ∧ ∀ u, .bodyStart u p ∉ log

theorem sat_new (hr : SR A ad i0 s) {t u p : Nat} {ch : Ch χ} {r : Res} (hs : step (client A) s (.th t ch) = some s')
    (h : .sat u p r ∈ s'.data.sd.slog) : .sat u p r ∈ s.data.sd.slog ∨ (u = t ∧ ∃ rest, s.stk t = .client (.srSet p r) :: rest ∧ s.data.sd.ready p = false) := by
  by_cases h0 : .sat u p r ∈ s.data.sd.slog
  · exact .inl h0
  right
  have hrd := (ready_sat (hr.step hs) p).2 ⟨u, r, h⟩
  rcases ready_new hr hs hrd with h1 | ⟨r', rest, hst, hlog, hst', hn⟩
  · -- the state is ready already: nothing is set
    obtain ⟨w, x, hx⟩ := (ready_sat hr p).1 h1
    have h2 := (top2_ok (hr.step hs)).1.out p
    obtain ⟨es, hes⟩ := (step_ext hs).log
    have hes' : .sat u p r ∈ es := by
      rw [hes] at h
      rcases List.mem_append.1 h with h | h
      · exact h
      · exact absurd h h0
    have hlen : 2 ≤ (sats s'.data.sd.slog p).length := by
      rw [hes, sats, List.filterMap_append, List.length_append]
      have e1 : r ∈ es.filterMap (SEv.satOf p) := List.mem_filterMap.2 ⟨_, hes', by simp [SEv.satOf]⟩
      have e2 : x ∈ s.data.sd.slog.filterMap (SEv.satOf p) := List.mem_filterMap.2 ⟨_, hx, by simp [SEv.satOf]⟩
      have := List.length_pos_of_mem e1
      have := List.length_pos_of_mem e2
      omega
    simp only [outc] at h2
    cases hst : (s'.data.sd.st p).status <;> simp only [hst] at h2
    · rw [h2] at hlen; simp at hlen
    · obtain ⟨w, h3, -⟩ := h2; rw [h3] at hlen; simp at hlen
    · obtain ⟨w, h3, -⟩ := h2; rw [h3] at hlen; simp at hlen
  · rw [hlog] at h
    rcases List.mem_cons.1 h with h | h
    · cases h; exact ⟨rfl, rest, hst, hn⟩
    · exact absurd h h0

theorem start_new (hr : SR A ad i0 s) {t u p : Nat} {ch : Ch χ} (hs : step (client A) s (.th t ch) = some s')
    (h : .bodyStart u p ∈ s'.data.sd.slog) : .bodyStart u p ∈ s.data.sd.slog ∨ (u = t ∧ ∃ a, .client (.ftRun p a) ∈ s.stk t) := by
  cases mv hr hs with
  | sync f rest a he hst hS hact =>
    by_cases hc : callF f
    · generalize hd : s'.data.sd = d' at *
      cases hS <;> first | exact hc.elim | skip
      case ftRun q a =>
        rcases List.mem_cons.1 h with h | h
        · cases h; exact .inr ⟨rfl, a, by rw [hst]; simp⟩
        · exact .inl h
      case ftSet q => exact .inl (by simpa [SData.ev] using h)
      case ftThrew q e => exact .inl (by simpa [SData.ev] using h)
    · exact .inl ((call_log hS hc (e := .bodyStart u p) trivial).1 h)
  | app g rest a he hst hd hact => rw [hd] at h; exact .inl h
  | hand e f f' rest he hst hn hf hst' he' hd => rw [hd] at h; exact .inl h
  | drop e f rest he hst hn hf hst' he' hd => rw [hd] at h; exact .inl h
  | core f rest pre hst hpre hst' hd => rw [hd] at h; exact .inl h
  | still hst' he' hd => rw [hd] at h; exact .inl h

/-- The outcome events are what happened: `bodyRet t p v` is logged by the thread `t` in whose frame the call of the function has just returned `v`,
    `bodyThrew t p e` by the thread that has caught `e` there. -/
theorem C37_events {t u p : Nat} {ch : Ch χ} (hs : step (client A) s (.th t ch) = some s') :
    (∀ v, .bodyRet u p v ∈ s'.data.sd.slog → .bodyRet u p v ∉ s.data.sd.slog → u = t ∧ (s.thr t).exc = none ∧ (s.thr t).rv = v ∧
      ∃ rest, s.stk t = .client (.ftSet p) :: rest) ∧
    ∀ e, .bodyThrew u p e ∈ s'.data.sd.slog → .bodyThrew u p e ∉ s.data.sd.slog → u = t ∧ ∃ rest, s.stk t = .client (.ftThrew p e) :: rest := by
  rcases step_sd hs with hd | ⟨t', ch', f, rest, x, hl, he, hst, hS⟩
  · rw [hd]; exact ⟨fun v h h0 => absurd h h0, fun v h h0 => absurd h h0⟩
  · cases hl
    by_cases hc : callF f
    · generalize s'.data.sd = d' at hS ⊢
      cases hS <;> first | exact hc.elim | skip
      case ftRun q a => exact ⟨fun v h h0 => absurd (by simpa [SData.ev] using h) h0, fun v h h0 => absurd (by simpa [SData.ev] using h) h0⟩
      case ftSet q =>
        refine ⟨fun v h h0 => ?_, fun v h h0 => absurd (by simpa [SData.ev] using h) h0⟩
        simp only [SData.ev, List.mem_cons, SEv.bodyRet.injEq] at h
        rcases h with ⟨rfl, rfl, rfl⟩ | h
        · exact ⟨rfl, he, rfl, rest, hst⟩
        · exact absurd h h0
      case ftThrew q e =>
        refine ⟨fun v h h0 => absurd (by simpa [SData.ev] using h) h0, fun v h h0 => ?_⟩
        simp only [SData.ev, List.mem_cons, SEv.bodyThrew.injEq] at h
        rcases h with ⟨rfl, rfl, rfl⟩ | h
        · exact ⟨rfl, rest, hst⟩
        · exact absurd h h0
    · exact ⟨fun v h h0 => absurd ((call_log hS hc (e := .bodyRet u p v) trivial).1 h) h0,
        fun v h h0 => absurd ((call_log hS hc (e := .bodyThrew u p v) trivial).1 h) h0⟩

/-- The handler is entered only with an exception that leaves the call of the function. -/
theorem C37_caught (hr : SR A ad i0 s) {t u p : Nat} {e : Exn} {ch : Ch χ} (hs : step (client A) s (.th t ch) = some s')
    (h : .client (.ftThrew p e) ∈ s'.stk u) (h0 : .client (.ftThrew p e) ∉ s.stk u) :
    u = t ∧ (s.thr t).exc = some e ∧ ∃ rest, s.stk t = .client (.ftSet p) :: rest := by
  rcases mem_mv hr hs h with h | h | ⟨a, h⟩ | ⟨-, f, rest, a, he, hst, hS, -, hx⟩ | ⟨rfl, e', f, rest, he, hst, -, hf, -⟩
  · exact absurd h h0
  · exact h.elim
  · cases a <;> cases h
  · exfalso
    generalize s'.data.sd = d' at hS
    cases hS
    case laRet K c => cases K <;> cases h : decide ((s.thr t).rv ≠ .bool true) <;> simp [laNext, h] at hx
    case laEnd K c => cases K <;> simp [laNext] at hx
    all_goals simp at hx
  · cases f <;> simp only [sThrow, Option.some.injEq, reduceCtorEq, SFrame.ftThrew.injEq, Option.map_eq_some_iff, and_false, exists_false] at hf
    obtain ⟨rfl, rfl⟩ := hf
    exact ⟨rfl, he, rest, hst⟩

/-- C37, the future: a call of async that returns gives its caller the future of a state of its own, made during this call for exactly
    the given id, policy and function. -/
theorem C37_async_returns {s0 : SSt α φ δ} (hr : SR A ad i0 s0) {t n id : Nat} {as b : Bool} {a : α} {rest : List (Fr α φ)}
    (hst : s0.stk t = .client (SApi.async id as b a).entry :: rest) (hf : Frag (client A) t rest s0 n s) {l : Lbl χ}
    (hs : step (client A) s l = some s') (hend : s'.stk t = rest) (hexc : (s'.thr t).exc = none) :
    ∃ p, (s'.thr t).rv = .nat p ∧ s0.data.sd.nst ≤ p ∧ p < s'.data.sd.nst ∧ (s'.data.sd.st p).owner = .pkg ∧
      (s'.data.sd.st p).req = some ⟨id, as, p, a⟩ := async_ret hr hst hf hs hend hexc

/-- The same for then. -/
theorem C37_then_returns {s0 : SSt α φ δ} (hr : SR A ad i0 s0) {t n id : Nat} {q : Option Nat} {as b : Bool} {a : α} {rest : List (Fr α φ)}
    (hst : s0.stk t = .client (SApi.futThen q id as b a).entry :: rest) (hf : Frag (client A) t rest s0 n s) {l : Lbl χ}
    (hs : step (client A) s l = some s') (hend : s'.stk t = rest) (hexc : (s'.thr t).exc = none) :
    ∃ p, (s'.thr t).rv = .nat p ∧ s0.data.sd.nst ≤ p ∧ p < s'.data.sd.nst ∧ (s'.data.sd.st p).owner = .pkg ∧
      (s'.data.sd.st p).req = some ⟨id, as, p, a⟩ := then_ret hr hst hf hs hend hexc

/-- **C37.** Whatever the future of async / then is made ready with is the outcome of the function. -/
theorem C37_outcome (hr : SR A ad i0 s) : ∀ t p r, .sat t p r ∈ s.data.sd.slog → (s.data.sd.st p).owner = .pkg → IsOutcome s.data.sd.slog t p r := by
  refine Reach.induct (fun s => ∀ t p r, .sat t p r ∈ s.data.sd.slog → (s.data.sd.st p).owner = .pkg → IsOutcome s.data.sd.slog t p r) ?_ ?_ hr
  · intro t p r h; simp [Core.init] at h
  · intro s l s' hr q hs
    have hext := step_ext hs
    cases l with
    | tick n => rw [step_tick _ s s' n hs]; exact q
    | th t ch =>
      intro u p r h ho
      rcases sat_new hr hs h with h0 | ⟨rfl, rest, hst, hn⟩
      · have hrd := (ready_sat hr p).2 ⟨u, r, h0⟩
        have hlt : p < s.data.sd.nst := by
          by_contra hlt
          rw [SData.ready, (ty1_I hr).fresh p (by omega)] at hrd; simp at hrd
        have ho' : (s.data.sd.st p).owner = .pkg := by rw [← hext.owner hlt]; exact ho
        rcases q u p r h0 ho' with ⟨v, h1, h2⟩ | ⟨e, h1, h2⟩ | ⟨h1, h2⟩
        · exact .inl ⟨v, h1, hext.mem h2⟩
        · exact .inr (.inl ⟨e, h1, hext.mem h2⟩)
        · refine .inr (.inr ⟨h1, fun w hw => ?_⟩)
          rcases start_new hr hs hw with h3 | ⟨rfl, a, h3⟩
          · exact h2 w h3
          · have := run_notReady hr ⟨hlt, ho'⟩ h3
            rw [hrd] at this; cases this
      · have hmem : .client (.srSet p r) ∈ s.stk u := by rw [hst]; simp
        have hlt : p < s.data.sd.nst := svr_lt hr hmem (r := r) ⟨rfl, rfl⟩
        have hp : Pkg s.data.sd p := ⟨hlt, by rw [← hext.owner hlt]; exact ho⟩
        have hb := below hr u _ rest p r hst ⟨rfl, rfl⟩ hp.tk
        rcases hb with ⟨a, v, h1, h2, h3⟩ | ⟨a, e, h1, h2, h3⟩ | ⟨a, h1, h2⟩
        · exact .inl ⟨v, h2, hext.mem h3⟩
        · rcases h3 with h3 | ⟨-, h3⟩
          · exact .inr (.inl ⟨e, h2, hext.mem h3⟩)
          · rw [hn] at h3; cases h3
        · refine .inr (.inr ⟨h2, fun w hw => ?_⟩)
          have hpd : .client (.pdEnd p) ∈ s.stk u := by rw [hst, h1]; simp
          have hw1 : 1 ≤ fw .R p (.pdEnd p : SFrame α φ) := by simp [fw, Tab.dt, b1]
          rcases start_new hr hs hw with h3 | ⟨rfl, x, h3⟩
          · rcases startC hr w p h3 with ⟨-, h4⟩ | ⟨g, hg, h4⟩
            · rw [hn] at h4; cases h4
            · have := (uniqR hr hp hpd hg hw1 (runP_fw h4)).2
              subst this; exact h4.elim
          · have := (uniqR hr hp hpd h3 hw1 (by simp [fw, Tab.run0, b1])).2
            cases this


/-- Setting the state of a packaged task never finds it ready: set_value / set_exception is not refused there. -/
theorem C37_not_refused (hr : SR A ad i0 s) : ∀ t p r, .refusedSet t p r ∈ s.data.sd.slog → (s.data.sd.st p).owner ≠ .pkg := by
  refine (Reach.induct (fun s => ∀ t p r, .refusedSet t p r ∈ s.data.sd.slog → p < s.data.sd.nst ∧ (s.data.sd.st p).owner ≠ .pkg) ?_ ?_ hr · · · · |>.2)
  · intro t p r h; simp [Core.init] at h
  · intro s l s' hr q hs u p r h
    have hext := step_ext hs
    have old : .refusedSet u p r ∈ s.data.sd.slog → p < s'.data.sd.nst ∧ (s'.data.sd.st p).owner ≠ .pkg := by
      intro h0
      have h1 := q u p r h0
      exact ⟨lt_mono hext h1.1, by rw [hext.owner h1.1]; exact h1.2⟩
    rcases step_sd hs with h1 | ⟨t, ch, f, rest, a, rfl, he, hst, hS⟩
    · rw [h1] at h; exact old h
    · have hmem : .client f ∈ s.stk t := by rw [hst]; simp
      by_cases hf : ∃ p' r', f = .svChk p' r'
      · obtain ⟨p', r', rfl⟩ := hf
        generalize hd : s'.data.sd = d' at *
        cases hS
        case svBad hrd =>
          rcases List.mem_cons.1 h with h | h
          · cases h
            have hlt : p < s.data.sd.nst := ty1_F hr hmem
            refine ⟨lt_mono hext hlt, fun ho => ?_⟩
            have := (exclB hr).1 t _ p ⟨hlt, by rw [← hext.owner hlt]; exact ho⟩ hmem rfl
            rw [hrd] at this; cases this
          · exact old h
        all_goals exact old h
      · refine old ?_
        generalize hd : s'.data.sd = d' at *
        cases hS <;> first
          | exact h
          | exact absurd ⟨_, _, rfl⟩ hf
          | (rcases List.mem_cons.1 h with h | h
             · cases h
             · exact h)
          | (rw [relLk_slog] at h; exact h)
          | (unfold SData.addWaiter at h
             split at h
             · exact h
             · rcases List.mem_cons.1 h with h | h
               · cases h
               · exact h)

/-- Thread `t` has set the state of `p` to `r`, or is doing so. -/
def SetOrSetting (s : SSt α φ δ) (t p : Nat) (r : Res) : Prop :=
  .sat t p r ∈ s.data.sd.slog ∨ (∃ g rest, s.stk t = .client g :: rest ∧ svr p r g) ∨
    ∃ e rest, s.stk t = .client (.ftExc p e) :: rest ∧ r = .exn e

theorem setting_step (hr : SR A ad i0 s) {t u p : Nat} {ch : Ch χ} {r : Res} (hs : step (client A) s (.th t ch) = some s')
    (hp : Pkg s.data.sd p) (h : SetOrSetting s u p r) : SetOrSetting s' u p r := by
  have hext := step_ext hs
  rcases h with h | ⟨g, rest, hst, hg⟩ | ⟨e, rest, hst, rfl⟩
  · exact .inl (hext.mem h)
  · by_cases hu : u = t
    · subst hu
      have hmem : .client g ∈ s.stk u := by rw [hst]; simp
      have hn := (exclB hr).1 u g p hp hmem (svr_pre hg)
      cases mv hr hs with
      | sync f rest' a he hst0 hS hact =>
        rw [hst] at hst0; cases hst0
        generalize hd : s'.data.sd = d' at *
        cases hS <;> first | exact hg.elim | skip
        case svIn q r' hl => obtain ⟨rfl, rfl⟩ := hg; exact .inr (.inl ⟨_, rest, hact.1, rfl, rfl⟩)
        case svBad q r' hq => obtain ⟨rfl, rfl⟩ := hg; rw [hn] at hq; cases hq
        case svVal q w hq => obtain ⟨rfl, rfl⟩ := hg; exact .inr (.inl ⟨_, rest, hact.1, rfl, rfl⟩)
        case svExn q w hq => obtain ⟨rfl, rfl⟩ := hg; exact .inr (.inl ⟨_, rest, hact.1, rfl, rfl⟩)
        case srVal q w => obtain ⟨rfl, rfl⟩ := hg; left; rw [hd]; exact List.mem_cons_self
        case srExn q w => obtain ⟨rfl, rfl⟩ := hg; left; rw [hd]; exact List.mem_cons_self
      | app x rest a he hst0 hd hact => rw [hst] at hst0; cases hst0; exact hg.elim
      | hand e f f' rest he hst0 hn hf hst' he' hd =>
        rw [hst] at hst0; cases hst0
        cases g <;> first | exact hg.elim | exact absurd trivial hn
      | drop e f rest he hst0 hn hf hst' he' hd =>
        rw [hst] at hst0; cases hst0
        cases g <;> first | exact hg.elim | exact absurd trivial hn
      | core f rest pre hst0 hpre hst' hd => rw [hst] at hst0; cases hst0
      | still hst' he' hd => exact .inr (.inl ⟨g, rest, by rw [hst', hst], hg⟩)
    · rcases mv_oth hr hs hu with ⟨h1, -⟩ | ⟨h0, -⟩
      · exact .inr (.inl ⟨g, rest, by rw [h1, hst], hg⟩)
      · rw [hst] at h0; cases h0
  · by_cases hu : u = t
    · subst hu
      cases mv hr hs with
      | sync f rest' a he hst0 hS hact =>
        rw [hst] at hst0; cases hst0
        generalize hd : s'.data.sd = d' at *
        cases hS
        exact .inr (.inl ⟨_, _, hact.1, rfl, rfl⟩)
      | app x rest a he hst0 hd hact => rw [hst] at hst0; cases hst0
      | hand e f f' rest he hst0 hn hf hst' he' hd => rw [hst] at hst0; cases hst0; exact absurd trivial hn
      | drop e f rest he hst0 hn hf hst' he' hd => rw [hst] at hst0; cases hst0; exact absurd trivial hn
      | core f rest pre hst0 hpre hst' hd => rw [hst] at hst0; cases hst0
      | still hst' he' hd => exact .inr (.inr ⟨e, rest, by rw [hst', hst], rfl⟩)
    · rcases mv_oth hr hs hu with ⟨h1, -⟩ | ⟨h0, -⟩
      · exact .inr (.inr ⟨e, rest, by rw [h1, hst], rfl⟩)
      · rw [hst] at h0; cases h0

/-- When the function has returned or thrown, exactly that is set, by the thread that ran it, with nothing in between. -/
theorem C37_delivered (hr : SR A ad i0 s) : ∀ t p, (s.data.sd.st p).owner = .pkg →
    (∀ v, .bodyRet t p v ∈ s.data.sd.slog → SetOrSetting s t p (.val v)) ∧
    (∀ e, .bodyThrew t p e ∈ s.data.sd.slog → SetOrSetting s t p (.exn e)) := by
  refine Reach.induct (fun s : SSt α φ δ => ∀ t p, (s.data.sd.st p).owner = .pkg →
    (∀ v, .bodyRet t p v ∈ s.data.sd.slog → SetOrSetting s t p (.val v)) ∧
    (∀ e, .bodyThrew t p e ∈ s.data.sd.slog → SetOrSetting s t p (.exn e))) ?_ ?_ hr
  · intro t p h; simp [Core.init] at h ⊢
  · intro s l s' hr q hs
    have hext := step_ext hs
    cases l with
    | tick n => rw [step_tick _ s s' n hs]; exact q
    | th t ch =>
      intro u p ho
      have h5 := ty5_I hr
      have hback : p < s.data.sd.nst → Pkg s.data.sd p := fun hlt => ⟨hlt, by rw [← hext.owner hlt]; exact ho⟩
      have old1 : ∀ v, .bodyRet u p v ∈ s.data.sd.slog → SetOrSetting s' u p (.val v) := by
        intro v h
        have hp := hback (h5.lt _ _ (h5.ret _ _ _ h))
        exact setting_step hr hs hp ((q u p hp.2).1 v h)
      have old2 : ∀ e, .bodyThrew u p e ∈ s.data.sd.slog → SetOrSetting s' u p (.exn e) := by
        intro v h
        have hp := hback (h5.lt _ _ (h5.threw _ _ _ h))
        exact setting_step hr hs hp ((q u p hp.2).2 v h)
      rcases step_sd hs with h1 | ⟨t', ch', f, rest, a, hl, he, hst, hS⟩
      · rw [h1]; exact ⟨old1, old2⟩
      · cases hl
        by_cases hc : callF f
        · obtain ⟨a', hS', hact⟩ := own_ss hst hs he (by rintro g rfl; exact hc.elim)
          generalize hd : s'.data.sd = d' at *
          cases hS' <;> first | exact hc.elim | skip
          case ftRun q a => exact ⟨fun v h => old1 v (by simpa [SData.ev] using h), fun v h => old2 v (by simpa [SData.ev] using h)⟩
          case ftSet q =>
            refine ⟨fun v h => ?_, fun v h => old2 v (by simpa [SData.ev] using h)⟩
            rcases List.mem_cons.1 h with h | h
            · cases h; exact .inr (.inl ⟨_, _, hact.1, rfl, rfl⟩)
            · exact old1 v h
          case ftThrew q e =>
            refine ⟨fun v h => old1 v (by simpa [SData.ev] using h), fun v h => ?_⟩
            rcases List.mem_cons.1 h with h | h
            · cases h; exact .inr (.inr ⟨_, _, hact.1, rfl⟩)
            · exact old2 v h
        · exact ⟨fun v h => old1 v ((call_log hS hc (e := .bodyRet u p v) trivial).1 h), fun v h => old2 v ((call_log hS hc (e := .bodyThrew u p v) trivial).1 h)⟩

/-- When a packaged task is destroyed, its state is ready (checked at the end of its destructor). -/
theorem C37_dropped (hr : SR A ad i0 s) : ∀ t p, .dropped t p ∈ s.data.sd.slog → p < s.data.sd.nst ∧ s.data.sd.ready p = true := by
  refine Reach.induct (fun s => ∀ t p, .dropped t p ∈ s.data.sd.slog → rdy s.data.sd p) ?_ ?_ hr
  · intro t p h; simp [Core.init] at h
  · intro s l s' hr q hs u p h
    have hext := step_ext hs
    have old : .dropped u p ∈ s.data.sd.slog → rdy s'.data.sd p := fun h => rdy_mono hext (q u p h)
    rcases step_sd hs with h1 | ⟨t, ch, f, rest, a, rfl, he, hst, hS⟩
    · rw [h1] at h; exact old h
    · have hmem : .client f ∈ s.stk t := by rw [hst]; simp
      have h1F := ty1_F hr hmem
      generalize hd : s'.data.sd = d' at *
      cases hS <;> first
        | exact old h
        | (rcases List.mem_cons.1 h with h | h
           · cases h
           · exact old h)
        | (rw [relLk_slog] at h; exact old h)
        | (unfold SData.addWaiter at h
           split at h
           · exact old h
           · rcases List.mem_cons.1 h with h | h
             · cases h
             · exact old h)
        | skip
      case pdOk q hq =>
        rcases List.mem_cons.1 h with h | h
        · cases h; exact rdy_mono hext ⟨(show tkOk _ _ from h1F).1, hq⟩
        · exact old h
      case pdEnd q =>
        rcases List.mem_cons.1 h with h | h
        · cases h; exact rdy_mono hext (topReady hr t _ _ _ hst rfl)
        · exact old h

/-- The future of a packaged task that is destroyed without having been called holds broken_promise. -/
theorem C37_dropped_unrun (hr : SR A ad i0 s) {t p : Nat} (h : .dropped t p ∈ s.data.sd.slog) (hn : ∀ u, .bodyStart u p ∉ s.data.sd.slog)
    (ho : (s.data.sd.st p).owner = .pkg) : Holds (s.data.sd.st p) (.exn .brokenPromise) := by
  obtain ⟨u, r, h1⟩ := (ready_sat hr p).1 (C37_dropped hr t p h).2
  have h2 := (C29_once hr p).2.2 u r h1
  rcases C37_outcome hr u p r h1 ho with ⟨v, -, h3⟩ | ⟨e, -, h3⟩ | ⟨rfl, -⟩
  · exact absurd ((ty5_I hr).ret _ _ _ h3) (hn u)
  · exact absurd ((ty5_I hr).threw _ _ _ h3) (hn u)
  · exact h2

/-- The ready state of a packaged task holds the outcome of its function. -/
theorem C37_holds (hr : SR A ad i0 s) {p : Nat} (ho : (s.data.sd.st p).owner = .pkg) (h : (s.data.sd.st p).status ≠ .notSet) :
    ∃ t r, Holds (s.data.sd.st p) r ∧ IsOutcome s.data.sd.slog t p r := by
  obtain ⟨u, r, h1⟩ := (ready_sat hr p).1 (by simpa [SData.ready] using h)
  exact ⟨u, r, (C29_once hr p).2.2 u r h1, C37_outcome hr u p r h1 ho⟩

/-- The frame holds the packaged task `p` (to call it, to queue it or to destroy it). -/
def HoldsTask (p : Nat) : Fr α φ → Prop
  | .core (.dispatch _ k) => ∃ a, k = .fut p a
  | .core (.invLook _ k _) => ∃ a, k = .fut p a
  | .core (.invPush _ k) => ∃ a, k = .fut p a
  | .core (.destroyList _ l _ _) => ∃ a, .fut p a ∈ l
  | .core (.ran _ k _) => ∃ a, k = .fut p a
  | .core (.dispRan k) => ∃ a, k = .fut p a
  | .client (.naIn (.fut _ l)) => ∃ c ∈ l, c.p = p
  | .client (.nLoop (.fut _ l) _) => ∃ c ∈ l, c.p = p
  | .client (.nCall (.fut _ l) _ _ _) => ∃ c ∈ l, c.p = p
  | .client (.nAfter (.fut _ l) _ _ _) => ∃ c ∈ l, c.p = p
  | .client (.srUnl _ l) => ∃ c ∈ l, c.p = p
  | .client (.srLoop _ dn l) => ∃ c ∈ dn ++ l, c.p = p
  | .client (.srDtor _ dn) => ∃ c ∈ dn, c.p = p
  | .client (.scIn _ c) => c.p = p
  | .client (.laIn (.sr _ dn l) c) => ∃ c' ∈ c :: dn ++ l, c'.p = p
  | .client (.laIn _ c) => c.p = p
  | .client (.laRet (.sr _ dn l) c) => ∃ c' ∈ c :: dn ++ l, c'.p = p
  | .client (.laRet _ c) => c.p = p
  | .client (.laInl (.sr _ dn l) c) => ∃ c' ∈ c :: dn ++ l, c'.p = p
  | .client (.laInl _ c) => c.p = p
  | .client (.ftDtor q _) => q = p
  | .client (.pdIn q) => q = p
  | .client (.pdEnd q) => q = p
  | .client (.term (some q)) => q = p
  | _ => False

theorem b1_pos {q p : Nat} (h : 1 ≤ b1 q p) : q = p := by
  unfold b1 at h; split at h
  · assumption
  · omega

theorem fw_holds {p : Nat} {g : SFrame α φ} {v : Val} (h : 1 ≤ fw .O p g + fx .O p g v) : HoldsTask p (.client g) := by
  cases g <;> simp only [fw, fx, Tab.l1, Tab.d1, Tab.i0, Tab.i1, Tab.r1, Tab.run0, Tab.run1, Tab.dt, Nat.zero_mul, Nat.one_mul, Nat.add_zero] at h <;> (try exact absurd h (by decide))
  case naIn K => cases K <;> simp [NK.lw, Tab.l1] at h; exact cn_mem h
  case nLoop K l => cases K <;> simp [NK.lw, Tab.l1] at h; exact cn_mem h
  case nCall K i k l => cases K <;> simp [NK.lw, Tab.l1] at h; exact cn_mem h
  case nAfter K i k l => cases K <;> simp [NK.lw, Tab.l1] at h; exact cn_mem h
  case srUnl q l => exact cn_mem h
  case srLoop q dn l => exact cn_mem (l := dn ++ l) (by rw [cn_append]; exact h)
  case srDtor q dn => exact cn_mem h
  case scIn q c => exact b1_pos h
  case laIn K c =>
    cases K <;> simp only [LK.own, LK.lw, Tab.l1, Tab.d1, Nat.one_mul, Nat.add_zero] at h
    · rename_i x dn l
      have : 1 ≤ cn p (c :: dn ++ l) := by rw [cn_append, cn_cons]; omega
      exact cn_mem this
    · exact b1_pos h
    · exact b1_pos h
  case laRet K c =>
    cases K <;> simp only [LK.lw, Tab.l1, Tab.d1, Nat.one_mul, Nat.zero_add] at h
    · rename_i x dn l
      have : 1 ≤ cn p (c :: dn ++ l) := by
        rw [cn_append, cn_cons]
        split at h <;> omega
      exact cn_mem this
    all_goals
      split at h
      · omega
      · exact b1_pos h
  case laInl K c =>
    cases K <;> simp only [LK.lw, Tab.l1, Tab.d1, Nat.one_mul, Nat.add_zero] at h
    · rename_i x dn l
      have : 1 ≤ cn p (c :: dn ++ l) := by rw [cn_append, cn_cons]; omega
      exact cn_mem this
    · exact b1_pos h
    · exact b1_pos h
  case ftDtor q a => exact b1_pos h
  case pdIn q => exact b1_pos h
  case pdEnd q => exact b1_pos h
  case term q =>
    cases q with
    | none => simp at h
    | some q => simp [Tab.dt] at h; exact b1_pos h

theorem ktw_pos {p : Nat} {k : STask α} {w : Nat} (h : 1 ≤ ktw w p k) : ∃ a, k = .fut p a := by
  cases k <;> simp [ktw] at h
  rename_i q a
  have hb : 1 ≤ b1 q p := by
    by_contra h0
    have : b1 q p = 0 := by omega
    rw [this] at h; simp at h
  obtain rfl := b1_pos hb
  exact ⟨a, rfl⟩

theorem lo_holds {p : Nat} {f : Fr α φ} (h : 1 ≤ f.lo (wts δ φ .O p)) : HoldsTask p f := by
  cases f with
  | client g => exact fw_holds (v := .unit) (Nat.le_trans h (Nat.le_add_right _ _))
  | core f =>
    cases f <;> simp only [Frame.lo, CF.lw] at h <;> first
      | exact absurd h (by decide)
      | exact ktw_pos h
      | (obtain ⟨k, h1, h2⟩ := lsum_pos h; obtain ⟨a, rfl⟩ := ktw_pos h2; exact ⟨a, h1⟩)

theorem tw_holds {p : Nat} {f : CF (STask α) (SFrame α φ)} (h : 1 ≤ f.tw (wts δ φ .O p)) : HoldsTask p (.core f : Fr α φ) := by
  cases f <;> simp only [CF.tw, CF.lw] at h <;> first
    | exact absurd h (by decide)
    | exact ktw_pos h
    | (obtain ⟨k, h1, h2⟩ := lsum_pos h; obtain ⟨a, rfl⟩ := ktw_pos h2; exact ⟨a, h1⟩)

theorem thw_holds {p t : Nat} (h : 1 ≤ thw (wts δ φ .O p) s t) : ∃ f ∈ s.stk t, HoldsTask p f := by
  have lo : ∀ r : List (Fr α φ), 1 ≤ losum (wts δ φ .O p) r → ∃ f ∈ r, HoldsTask p f := by
    intro r hr
    obtain ⟨f, h1, h2⟩ := lsum_pos hr
    exact ⟨f, h1, lo_holds h2⟩
  unfold thw stw at h
  cases hst : s.stk t with
  | nil => rw [hst] at h; split at h <;> simp [topHi, topHx] at h
  | cons f r =>
    rw [hst] at h
    by_cases hr : 1 ≤ losum (wts δ φ .O p) r
    · obtain ⟨g, h1, h2⟩ := lo r hr; exact ⟨g, by simp [h1], h2⟩
    · refine ⟨f, by simp, ?_⟩
      cases f with
      | client g =>
        split at h
        · exact fw_holds (v := (s.thr t).rv) (by have h' : 1 ≤ (fw .O p g + fx .O p g (s.thr t).rv) + losum (wts δ φ .O p) r := h; omega)
        · exact fw_holds (v := .unit) (by simp only [topHx, Frame.hx] at h; have : 1 ≤ fw .O p g := by { have h' : 1 ≤ fw .O p g + losum (wts δ φ .O p) r := h; omega }; omega)
      | core g =>
        split at h
        · exact tw_holds (δ := δ) (by simp only [topHi, Frame.hi] at h; omega)
        · exact tw_holds (δ := δ) (by simp only [topHx, Frame.hx] at h; omega)

/-- A packaged task is never lost: until it is destroyed it is in a queue of a thread, among the continuations of a state, or held by an
activation. -/
theorem C37_kept (hr : SR A ad i0 s) {p : Nat} (hp : p < s.data.sd.nst) (ho : (s.data.sd.st p).owner = .pkg) :
    (∃ t, .dropped t p ∈ s.data.sd.slog) ∨ (∃ c a, .fut p a ∈ (s.ctxs c).pend) ∨ (∃ q, ∃ c ∈ (s.data.sd.st q).cbs, c.p = p) ∨
      ∃ t, ∃ f ∈ s.stk t, HoldsTask p f := by
  obtain ⟨N, h1, h2⟩ := lin_ok hr .O p
  have h3 : (wts δ φ .O p).inn s.data = 1 := inn_pkg hr ⟨hp, ho⟩
  have h2 : nsum N (thw (wts δ φ .O p) s) + nsum N (fun c => lsum (ktw 1 p) (s.ctxs c).pend) +
      (1 * CB p s.data.sd.nst s.data.sd.st + lsum (evO .O p) s.data.sd.slog) = (wts δ φ .O p).inn s.data := h2
  by_cases ha : 1 ≤ nsum N (thw (wts δ φ .O p) s)
  · obtain ⟨t, -, ht⟩ := nsum_pos ha
    exact .inr (.inr (.inr ⟨t, thw_holds ht⟩))
  by_cases hb : 1 ≤ nsum N (fun c => lsum (ktw 1 p) (s.ctxs c).pend)
  · obtain ⟨c, -, hc⟩ := nsum_pos hb
    obtain ⟨k, hk, hw⟩ := lsum_pos hc
    obtain ⟨a, rfl⟩ := ktw_pos hw
    exact .inr (.inl ⟨c, a, hk⟩)
  by_cases hc : 1 ≤ CB p s.data.sd.nst s.data.sd.st
  · obtain ⟨q, -, hq⟩ := nsum_pos (f := fun q => cn p (s.data.sd.st q).cbs) hc
    exact .inr (.inr (.inl ⟨q, cn_mem hq⟩))
  · left
    obtain ⟨e, he, hw⟩ := lsum_pos (w := evO .O p) (l := s.data.sd.slog) (by omega)
    cases e <;> simp only [evO] at hw <;> (try exact absurd hw (by decide))
    obtain rfl := b1_pos hw
    exact ⟨_, he⟩

/-! ## C35 -/

/-- The call of set_exception inside the destructor of a promise, and what is known when it has ended. -/
def Breaking (A : App α φ δ χ) (ad : δ) (i0 : φ) (t p : Nat) (g : SFrame α φ) (rest : List (Fr α φ)) (s : SSt α φ δ) : Prop :=
  (∃ s1 n, SR A ad i0 s1 ∧ s1.stk t = .client (.svIn p (.exn .brokenPromise)) :: .client g :: rest ∧ Frag (client A) t (.client g :: rest) s1 n s) ∨
  (s.stk t = .client g :: rest ∧ ((s.thr t).exc = none → sats s.data.sd.slog p = [.exn .brokenPromise]))

theorem Breaking.step {t p : Nat} {g : SFrame α φ} {rest : List (Fr α φ)} (hr : SR A ad i0 s) (h : Breaking A ad i0 t p g rest s) {l : Lbl χ}
    (hs : step (client A) s l = some s') (hst : ∃ pre, s'.stk t = pre ++ .client g :: rest) (hl : s.stk t = .client g :: rest → ∀ ch, l ≠ .th t ch) :
    Breaking A ad i0 t p g rest s' := by
  rcases h with ⟨s1, n, hr1, hs1, hfr⟩ | ⟨h1, h2⟩
  · rcases Frag.inner hfr hs hst with ⟨m, hfr'⟩ | hend
    · exact .inl ⟨s1, m, hr1, hs1, hfr'⟩
    · refine .inr ⟨hend, fun he => ?_⟩
      rcases C29_set hr1 hs1 hfr hs hend with ⟨-, -, h3, h4⟩ | ⟨h3, -⟩
      · have hr' := hr.step hs
        obtain ⟨u, r, h5⟩ := (ready_sat hr' p).1 (by simp [SData.ready, h3.1])
        have h6 := (C29_once hr' p).2.2 u r h5
        have h7 : r = .exn .brokenPromise := by
          cases r with
          | val v => have := h6.1.symm.trans h3.1; cases this
          | exn e => have := h6.2.2.symm.trans h3.2.2; cases this; rfl
        subst h7
        have h8 : (Res.exn .brokenPromise) ∈ sats s'.data.sd.slog p := List.mem_filterMap.2 ⟨_, h5, by simp [SEv.satOf]⟩
        rw [satCount_eq] at h4
        match hh : sats s'.data.sd.slog p with
        | [] => rw [hh] at h8; cases h8
        | [x] => rw [hh] at h8; simp at h8; rw [h8]
        | x :: y :: l => rw [hh] at h4; simp at h4
      · rw [he] at h3; cases h3
  · obtain ⟨e1, e2, e3, e4, -⟩ := still hr (by rw [h1]; simp) hs (hl h1)
    refine .inr ⟨e1.trans h1, ?_⟩
    rw [e3]
    intro a
    have := h2 a
    rw [← this]
    exact (frozen hr hs (sats_ready hr this).1).2

/-- Phases of the destructor of promise `q`. -/
def DtorPh (A : App α φ δ χ) (ad : δ) (i0 : φ) (t : Nat) (rest : List (Fr α φ)) (s0 : SSt α φ δ) (q : Nat) (s : SSt α φ δ) : SFrame α φ → Prop
  | .poDtor q' => q' = q ∧ ∃ n, Frag (client A) t rest s0 n s
  | .poEnd q' p => q' = q ∧ (∃ n s1, Frag (client A) t rest s0 n s1 ∧ s1.stk t = .client (.poDtor q) :: rest ∧ s1.data.sd.obj q = some p ∧
      (s1.data.sd.st p).status = .notSet) ∧ Breaking A ad i0 t p (.poEnd q' p) rest s
  | .term _ => True
  | _ => False

theorem DtorPh.frag (hr : SR A ad i0 s0) {t n q : Nat} {rest : List (Fr α φ)} (hst : s0.stk t = .client (.poDtor q) :: rest)
    (hf : Frag (client A) t rest s0 n s) : ∃ pre f, s.stk t = pre ++ .client f :: rest ∧ (s.term = true ∨ DtorPh A ad i0 t rest s0 q s f) := by
  refine SFrag.ind (fun f s => DtorPh A ad i0 t rest s0 q s f) hr hst ⟨rfl, 0, .here _ hst⟩ (fun g s h => h) ?_ ?_ ?_ hf
  · intro s1 s2 f g d' a ch hr1 hst1 he hp hS hc hd hs hck hst2
    cases hS <;> first | exact False.elim hp | (cases hc; done) | skip
    case poDbreak q' p hq hrd =>
      cases hc
      obtain ⟨rfl, n, hn⟩ := hp
      exact ⟨rfl, ⟨n, s1, hn, hst1, hq, by simpa [SData.ready] using hrd⟩, .inl ⟨s2, 0, hr1.step hs, hst2, .here _ hst2⟩⟩
  · intro s1 s2 f g e hr1 hst1 he hp hnt hf hd
    cases f <;> first
      | exact False.elim hp
      | (cases hf; done)
      | (cases hf; trivial)
  · intro s1 s2 f l hr1 hp hs h1 h2 h3
    cases f <;> first | exact False.elim hp | skip
    case poDtor q' =>
      obtain ⟨rfl, n, hn⟩ := hp
      obtain ⟨pre, h2⟩ := h2
      obtain ⟨m, hm⟩ := hn.snoc hs h2
      exact ⟨rfl, m, hm⟩
    case poEnd q' p => exact ⟨hp.1, hp.2.1, hp.2.2.step hr1 hs h2 h3⟩
    case term => trivial

/-- The destructor of a promise never throws; afterwards the promise has no state.  Either the state was ready already (or there was
none) in the one step that it took, or the state was not ready when the destructor looked, and it holds broken_promise at the end. -/
theorem C35_destroy (hr : SR A ad i0 s0) {t n q : Nat} {rest : List (Fr α φ)} (hst : s0.stk t = .client (.poDtor q) :: rest)
    (hf : Frag (client A) t rest s0 n s) {l : Lbl χ} (hs : step (client A) s l = some s') (hend : s'.stk t = rest) :
    (s'.thr t).exc = none ∧ s'.data.sd.obj q = none ∧
    ((s.stk t = .client (.poDtor q) :: rest ∧ s'.data.sd.st = s.data.sd.st ∧ ∀ p, s.data.sd.obj q = some p → (s.data.sd.st p).status ≠ .notSet) ∨
     ∃ p m s1, Frag (client A) t rest s0 m s1 ∧ s1.stk t = .client (.poDtor q) :: rest ∧ s1.data.sd.obj q = some p ∧
      (s1.data.sd.st p).status = .notSet ∧ Holds (s'.data.sd.st p) (.exn .brokenPromise)) := by
  obtain ⟨pre, f, hg, hph⟩ := DtorPh.frag hr hst hf
  have hr1 := hf.reach hr
  have h3 := hph.resolve_left (by rw [step_live hs]; simp)
  obtain ⟨rfl, hlast, ch, rfl⟩ := SFrag.last hr1 hg hs hend (by rintro g rfl; exact h3)
  cases hlast with
  | ret v d' he hS hdata hexc' hrv =>
    generalize hret : (.ret v : Act (STask α) (SFrame α φ)) = a at hS
    refine ⟨hexc', ?_⟩
    cases hS <;> first
      | exact False.elim h3
      | (cases hret; done)
      | skip
    case poDnone q' h => obtain ⟨rfl, -⟩ := h3; exact ⟨by rw [hdata]; exact h, .inl ⟨hg, by rw [hdata], by rw [h]; simp⟩⟩
    case poDok q' p h hrd =>
      obtain ⟨rfl, -⟩ := h3
      refine ⟨by rw [hdata]; simp, .inl ⟨hg, by rw [hdata], fun p' h' => ?_⟩⟩
      rw [h] at h'; cases h'
      simpa [SData.ready] using hrd
    case poEnd q' p =>
      obtain ⟨rfl, ⟨m, s1, h4, h5, h6, h7⟩, h8⟩ := h3
      refine ⟨by rw [hdata]; simp, .inr ⟨p, m, s1, h4, h5, h6, h7, ?_⟩⟩
      rcases h8 with ⟨s3, n, -, -, hfr⟩ | ⟨-, h9⟩
      · obtain ⟨pre, f, hfr⟩ := hfr.active
        exact (top_ne (hg.symm.trans hfr)).elim
      · have := h9 he
        exact (sats_ready (hr1.step hs) ((frozen hr1 hs (sats_ready hr1 this).1).2.trans this)).2
  | throw e d' hexc hS hdata hexc' =>
    generalize hret : (.throw e : Act (STask α) (SFrame α φ)) = a at hS
    cases hS <;> first
      | exact False.elim h3
      | (cases hret; done)
  | unwind e hexc hnt hf hdata hexc' =>
    cases f <;> first | exact h3.elim | exact absurd trivial hnt | (cases hf; done)

/-- No promise object refers to the state `p` of a promise, and no call that sets it is under way. -/
structure Orphan (s : SSt α φ δ) (p : Nat) : Prop where
  lt : p < s.data.sd.nst
  usr : (s.data.sd.st p).owner = .usr
  obj : ∀ q, s.data.sd.obj q ≠ some p
  fr : ∀ t g, .client g ∈ s.stk t → ∀ r, ¬ svr p r g
  not : (s.data.sd.st p).status = .notSet

theorem entry_not_svr (a : SApi α) (p : Nat) (r : Res) : ¬ svr p r (a.entry : SFrame α φ) := by cases a <;> exact id

theorem Orphan.step (hr : SR A ad i0 s) {p : Nat} (h : Orphan s p) {l : Lbl χ} (hs : step (client A) s l = some s') : Orphan s' p := by
  have hext := step_ext hs
  cases l with
  | tick n => rw [step_tick _ s s' n hs]; exact ⟨h.lt, h.usr, h.obj, h.fr, h.not⟩
  | th t ch =>
    refine ⟨lt_mono hext h.lt, by rw [hext.owner h.lt]; exact h.usr, ?_, ?_, ?_⟩
    · intro q
      rcases step_sd hs with h1 | ⟨t', ch', f, rest, a, hl, he, hst, hS⟩
      · rw [h1]; exact h.obj q
      · generalize s'.data.sd = d' at hS ⊢
        cases hS <;> first
          | exact h.obj q
          | (unfold SData.addWaiter; split <;> exact h.obj q)
          | (unfold SData.relLk; split <;> exact h.obj q)
          | skip
        case poNew q0 b h0 =>
          show set s.data.sd.obj q0 (some s.data.sd.nst) q ≠ _
          by_cases hq : q = q0
          · subst hq; simp only [set_same, ne_eq, Option.some.injEq]; have := h.lt; omega
          · rw [set_ne _ _ hq]; exact h.obj q
        case poDok q' p' hq hrd =>
          show set s.data.sd.obj q' none q ≠ _
          by_cases hq : q = q'
          · subst hq; simp
          · rw [set_ne _ _ hq]; exact h.obj q
        case poEnd q' p' =>
          show set s.data.sd.obj q' none q ≠ _
          by_cases hq : q = q'
          · subst hq; simp
          · rw [set_ne _ _ hq]; exact h.obj q
        case poMove q1 q2 hne =>
          show set (set s.data.sd.obj q1 (s.data.sd.obj q2)) q2 none q ≠ _
          by_cases hq : q = q2
          · subst hq; simp
          · rw [set_ne _ _ hq]
            by_cases hq : q = q1
            · subst hq; rw [set_same]; exact h.obj q2
            · rw [set_ne _ _ hq]; exact h.obj q
    · intro u g hg r hsv
      rcases mem_mv hr hs hg with h1 | h1 | ⟨a, rfl⟩ | ⟨rfl, f, rest, a, he, hst, hS, hact, hx⟩ | ⟨rfl, e, f, rest, he, hst, hnt, hf, -⟩
      · exact h.fr u g h1 r hsv
      · exact triv_not_svr h1 hsv
      · exact entry_not_svr a p r hsv
      · have hmem : .client f ∈ s.stk u := by rw [hst]; simp
        obtain ⟨h1, h2, h3, h4⟩ := to_svr hS hsv
        have usr := h.usr
        rcases hx with rfl | ⟨k, rfl⟩ | ⟨k, rfl⟩ | ⟨b, rfl⟩
        · rcases h1 rfl with h1 | ⟨q, hq, -⟩
          · exact h.fr u f hmem r h1
          · exact h.obj q hq
        · rcases h2 k rfl with ⟨-, ⟨rfl, -⟩ | ⟨e, rfl, -⟩ | ⟨rfl, -⟩ | ⟨q, hq, -⟩⟩
          · exact (show tkOk _ _ from ty1_F hr hmem).2 usr
          · exact (show tkOk _ _ from ty1_F hr hmem).2 usr
          · exact (show tkOk _ _ from ty1_F hr hmem).2 usr
          · exact h.obj q hq
        · exact h3 k rfl
        · exact h4 b rfl
      · cases f <;> simp only [sThrow, Option.map_eq_some_iff, reduceCtorEq, Option.some.injEq] at hf <;> first
          | (obtain ⟨a, -, rfl⟩ := hf; exact hsv)
          | (subst hf; exact hsv)
    · have : s'.data.sd.ready p = s.data.sd.ready p := by
        rcases step_sd hs with h1 | ⟨t', ch', f, rest, a, hl, he, hst, hS⟩
        · rw [h1]
        · refine ready_same (ty1_I hr) hS ?_
          rintro r rfl
          exact h.fr t' (.srSet p r) (by rw [hst]; simp) r ⟨rfl, rfl⟩
      have h2 : s.data.sd.ready p = false := by simp [SData.ready, h.not]
      rw [h2] at this
      simpa [SData.ready] using this

/-- Such a state never becomes ready. -/
theorem C35_never (hr : SR A ad i0 s) {p : Nat} (h : Orphan s p) : ∀ {ls : List (Lbl χ)} {s' : SSt α φ δ}, run (client A) s ls = some s' →
    (s'.data.sd.st p).status = .notSet := by
  intro ls
  induction ls generalizing s with
  | nil => intro s' h1; cases h1; exact h.not
  | cons l ls ih =>
    intro s' h1
    simp only [Core.run] at h1
    cases hs : Core.step (client A) s l with
    | none => rw [hs] at h1; cases h1
    | some s1 => rw [hs] at h1; exact ih (hr.step hs) (h.step hr hs) h1

/-- What move assignment does (and all that it does): the target's state is replaced. -/
theorem C35_move (_hr : SR A ad i0 s) {t q q' : Nat} {rest : List (Fr α φ)} (hst : s.stk t = .client (.poMove q q') :: rest) (hne : q ≠ q')
    (hexc : (s.thr t).exc = none) {ch : Ch χ} (hs : step (client A) s (.th t ch) = some s') :
    s'.stk t = rest ∧ (s'.thr t).exc = none ∧ s'.data.sd.obj q = s.data.sd.obj q' ∧ s'.data.sd.obj q' = none ∧ s'.data.sd.st = s.data.sd.st := by
  obtain ⟨a', hS', hact⟩ := own_ss hst hs hexc (by rintro g h; cases h)
  generalize hd : s'.data.sd = d' at *
  cases hS'
  · exact absurd rfl hne
  · exact ⟨hact.1, hact.2.1, by simp [set_ne _ _ hne], by simp, rfl⟩

/-- Distinct promise objects have distinct states. -/
theorem obj_inj (hr : SR A ad i0 s) : ∀ q q' p, s.data.sd.obj q = some p → s.data.sd.obj q' = some p → q = q' := by
  refine Reach.induct (fun s => ∀ q q' p, s.data.sd.obj q = some p → s.data.sd.obj q' = some p → q = q') ?_ ?_ hr
  · intro q q' p h; simp [Core.init] at h
  · intro s l s' hr ih hs
    rcases step_sd hs with h1 | ⟨t', ch', f, rest, a, hl, he, hst, hS⟩
    · rw [h1]; exact ih
    · have h1 := (ty1_I hr).obj
      generalize s'.data.sd = d' at hS ⊢
      cases hS <;> first
        | exact ih
        | (unfold SData.addWaiter; split <;> exact ih)
        | (unfold SData.relLk; split <;> exact ih)
        | skip
      case poNew q0 b h0 =>
        intro q q' p hq hq'
        have hq : set s.data.sd.obj q0 (some s.data.sd.nst) q = _ := hq
        have hq' : set s.data.sd.obj q0 (some s.data.sd.nst) q' = _ := hq'
        by_cases ha : q = q0 <;> by_cases hb : q' = q0
        · rw [ha, hb]
        · rw [ha, set_same] at hq; rw [set_ne _ _ hb] at hq'; cases hq; exact absurd (h1 _ _ hq').1 (Nat.lt_irrefl _)
        · rw [hb, set_same] at hq'; rw [set_ne _ _ ha] at hq; cases hq'; exact absurd (h1 _ _ hq).1 (Nat.lt_irrefl _)
        · rw [set_ne _ _ ha] at hq; rw [set_ne _ _ hb] at hq'; exact ih _ _ _ hq hq'
      case poDok q0 p' hq hrd =>
        intro q q' p hq hq'
        have hq : set s.data.sd.obj q0 none q = _ := hq
        have hq' : set s.data.sd.obj q0 none q' = _ := hq'
        by_cases ha : q = q0
        · rw [ha, set_same] at hq; cases hq
        by_cases hb : q' = q0
        · rw [hb, set_same] at hq'; cases hq'
        rw [set_ne _ _ ha] at hq; rw [set_ne _ _ hb] at hq'; exact ih _ _ _ hq hq'
      case poEnd q0 p' =>
        intro q q' p hq hq'
        have hq : set s.data.sd.obj q0 none q = _ := hq
        have hq' : set s.data.sd.obj q0 none q' = _ := hq'
        by_cases ha : q = q0
        · rw [ha, set_same] at hq; cases hq
        by_cases hb : q' = q0
        · rw [hb, set_same] at hq'; cases hq'
        rw [set_ne _ _ ha] at hq; rw [set_ne _ _ hb] at hq'; exact ih _ _ _ hq hq'
      case poMove q1 q2 hne =>
        intro q q' p hq hq'
        have hq : set (set s.data.sd.obj q1 (s.data.sd.obj q2)) q2 none q = _ := hq
        have hq' : set (set s.data.sd.obj q1 (s.data.sd.obj q2)) q2 none q' = _ := hq'
        by_cases ha : q = q2
        · rw [ha, set_same] at hq; cases hq
        by_cases hb : q' = q2
        · rw [hb, set_same] at hq'; cases hq'
        rw [set_ne _ _ ha] at hq; rw [set_ne _ _ hb] at hq'
        by_cases hc : q = q1 <;> by_cases hd : q' = q1
        · rw [hc, hd]
        · rw [hc, set_same] at hq; rw [set_ne _ _ hd] at hq'; exact absurd (ih _ _ _ hq hq').symm hb
        · rw [hd, set_same] at hq'; rw [set_ne _ _ hc] at hq; exact absurd (ih _ _ _ hq hq') ha
        · rw [set_ne _ _ hc] at hq; rw [set_ne _ _ hd] at hq'; exact ih _ _ _ hq hq'

/-- The part of the claim that is false: the future of a promise that is overwritten by move assignment before a result was set (and with no call
that sets it under way) never becomes ready. -/
theorem C35_overwritten (hr : SR A ad i0 s) {t q q' p : Nat} {rest : List (Fr α φ)} (hst : s.stk t = .client (.poMove q q') :: rest) (hne : q ≠ q')
    (hexc : (s.thr t).exc = none) (hq : s.data.sd.obj q = some p) (hn : (s.data.sd.st p).status = .notSet)
    (hfr : ∀ u r rest', s.stk u ≠ .client (.svIn p r) :: rest' ∧ s.stk u ≠ .client (.svChk p r) :: rest' ∧ s.stk u ≠ .client (.srSet p r) :: rest')
    {ch : Ch χ} (hs : step (client A) s (.th t ch) = some s') {ls : List (Lbl χ)} {s'' : SSt α φ δ} (hrun : run (client A) s' ls = some s'') :
    (s''.data.sd.st p).status = .notSet := by
  obtain ⟨h1, h2⟩ := (ty1_I hr).obj q p hq
  obtain ⟨a', hS', hact⟩ := own_ss hst hs hexc (by rintro g h; cases h)
  refine C35_never (hr.step hs) ?_ hrun
  have hsame : s'.data.sd = { s.data.sd with obj := set (set s.data.sd.obj q (s.data.sd.obj q')) q' none } := by
    generalize hd : s'.data.sd = d' at *
    cases hS'
    · exact absurd rfl hne
    · rfl
  refine ⟨by rw [hsame]; exact h1, by rw [hsame]; exact h2, ?_, ?_, by rw [hsame]; exact hn⟩
  · intro q0 h0
    rw [hsame] at h0
    have h0 : set (set s.data.sd.obj q (s.data.sd.obj q')) q' none q0 = some p := h0
    by_cases ha : q0 = q'
    · rw [ha, set_same] at h0; cases h0
    rw [set_ne _ _ ha] at h0
    by_cases hb : q0 = q
    · rw [hb, set_same] at h0; exact hne (obj_inj hr _ _ _ hq h0)
    · rw [set_ne _ _ hb] at h0; exact hb (obj_inj hr _ _ _ h0 hq)
  · intro u g hg r hsv
    have hrest : ∀ v, .client g ∈ s.stk v → False := by
      intro v hv
      obtain ⟨rest', hv⟩ := mem_top hr hv (fun u hu => above_svr hsv hu)
      obtain ⟨a, b, c⟩ := hfr v r rest'
      cases g <;> first | exact hsv.elim | (obtain ⟨rfl, rfl⟩ := hsv; contradiction)
    by_cases hu : u = t
    · subst hu
      have h3 : s'.stk u = rest := by
        generalize hd : s'.data.sd = d' at *
        cases hS'
        · exact absurd rfl hne
        · exact hact.1
      rw [h3] at hg
      exact hrest u (by rw [hst]; simp [hg])
    · rcases mv_oth hr hs hu with ⟨h3, -⟩ | ⟨-, f, h3, h4⟩
      · rw [h3] at hg; exact hrest u hg
      · rw [h3] at hg; simp at hg; subst hg; exact triv_not_svr h4 hsv

end

/-- No step of this schedule creates a thread. -/
def noSpawn {τ φ δ χ : Type} (C : Client τ φ δ χ) (s : St τ φ δ) : List (Lbl χ) → Bool
  | [] => true
  | l :: ls => (match l with
      | .th t _ => match s.stk t with | .core (.spawnIn _ _) :: _ => false | _ => true
      | .tick _ => true) && match step C s l with | none => true | some s' => noSpawn C s' ls

theorem noSpawn_stk {τ φ δ χ : Type} {C : Client τ φ δ χ} {u : Nat} : ∀ {ls : List (Lbl χ)} {s s' : St τ φ δ}, FreeOK s → noSpawn C s ls = true →
    run C s ls = some s' → (∀ ch, .th u ch ∉ ls) → s'.stk u = s.stk u := by
  intro ls
  induction ls with
  | nil => intro s s' _ _ h _; cases h; rfl
  | cons l ls ih =>
    intro s s' hfr hn h hu
    simp only [Core.run] at h
    cases hs : Core.step C s l with
    | none => rw [hs] at h; cases h
    | some s1 =>
      rw [hs] at h
      simp only [noSpawn, hs, Bool.and_eq_true] at hn
      have hfr1 : FreeOK s1 := hfr.step l hs
      rw [ih hfr1 hn.2 h (fun ch hc => hu ch (List.mem_cons_of_mem _ hc))]
      cases l with
      | tick n => rw [step_tick _ s s1 n hs]; rfl
      | th t ch =>
        have hut : u ≠ t := by rintro rfl; exact hu ch List.mem_cons_self
        rcases step_oth hfr hut hs with h1 | ⟨f, rest, h1, -⟩
        · exact h1.1
        · have := hn.1; simp [h1] at this

/-- Main makes two promises, takes the future of the first one and move-assigns the second one to it. -/
def demoMove : List (SAct Nat Nat) :=
  [.core .registerThis 2, .sync (.promNew 0 false) 3, .sync (.promNew 1 false) 4, .sync (.getFuture 0) 5, .sync (.promMove 0 1) 6, .sync (.futWait (some 0)) 7,
   .ret .unit]

set_option synthInstance.maxSize 1024 in
set_option synthInstance.maxHeartbeats 400000 in
/-- The claim fails for overwritten promises: a promise whose state was never set is overwritten by move assignment, and its future never becomes
ready in any continuation of the run (the defaulted move assignment, future.hpp:185, does not abandon). -/
theorem C35_overwritten_lost : ∃ s s' : DSt, SR (tableApp demoMove) () 1 s ∧ s.stk 0 = [.client (.poMove 0 1), .client (.app 6)] ∧
    s.data.sd.obj 0 = some 0 ∧ (s.data.sd.st 0).status = .notSet ∧ (s.data.sd.st 0).retrieved = true ∧
    step (client (tableApp demoMove)) s (.th 0 .go) = some s' ∧
    ∀ ls s'', run (client (tableApp demoMove)) s' ls = some s'' → (s''.data.sd.st 0).status = .notSet := by
  obtain ⟨s, h1, h0⟩ := Option.map_eq_some_iff.1 (show (sexec demoMove (go 0 11)).map (fun s => ((step (client (tableApp demoMove)) s (.th 0 .go)).isSome,
      s.stk 0, s.data.sd.obj 0, (s.data.sd.st 0).status, (s.data.sd.st 0).retrieved, (s.thr 0).exc)) =
      some (true, [.client (.poMove 0 1), .client (.app 6)], some 0, .notSet, true, none) by decide +kernel)
  have hn : noSpawn (client (tableApp demoMove)) (init { sd := {}, ad := () } (.app 1)) (go 0 11) = true := by decide +kernel
  simp only [Prod.mk.injEq] at h0
  obtain ⟨hx, h2, h3, h4, h5, h6⟩ := h0
  obtain ⟨s', hs⟩ := Option.isSome_iff_exists.1 hx
  have hr : SR (tableApp demoMove) () 1 s := ⟨_, h1⟩
  refine ⟨s, s', hr, h2, h3, h4, h5, hs, fun ls s'' hrun => C35_overwritten hr h2 (by decide) h6 h3 h4 ?_ hs hrun⟩
  intro u r rest'
  by_cases hu : u = 0
  · subst hu; rw [h2]; simp
  · have := noSpawn_stk (u := u) (FreeOK.init _ _) hn h1 (by simp [go]; exact hu)
    rw [this]
    simp [Core.init, St.stk, upd_ne _ _ hu]

/-- Main gives two tasks to thread 1 (the second one throws), runs one inline, gives one to an unknown thread, and breaks a promise. -/
def demoOut : List (SAct Nat Nat) :=
  [.core .registerThis 2, .core (.spawn 1 10) 3, .sync (.async 2 false false 20) 4, .sync (.async 2 false false 22) 5, .sync (.async 0 false false 20) 6,
   .sync (.async 7 false false 20) 7, .sync (.promNew 0 false) 8, .sync (.promDtor 0) 9, .ret .unit, .core .registerThis 11, .core .process 12, .ret .unit,
   .ret .unit, .ret .unit, .ret .unit, .ret .unit, .ret .unit, .ret .unit, .ret .unit, .ret (.nat 5), .ret .unit, .throw (.user 3)]

set_option synthInstance.maxSize 1024 in
set_option synthInstance.maxHeartbeats 400000 in
/-- All outcomes (`C37_outcome`, `C37_holds`, `C37_dropped`, `C37_dropped_unrun`): returned, thrown, run inline, refused. -/
example : ∃ s : DSt, SR (tableApp demoOut) () 1 s ∧ (s.data.sd.st 0).owner = .pkg ∧ .sat 1 0 (.val (.nat 5)) ∈ s.data.sd.slog ∧
    (s.data.sd.st 1).owner = .pkg ∧ .sat 1 1 (.exn (.user 3)) ∈ s.data.sd.slog ∧ .sat 0 2 (.val (.nat 5)) ∈ s.data.sd.slog ∧
    (s.data.sd.st 3).owner = .pkg ∧ .dropped 0 3 ∈ s.data.sd.slog ∧ (∀ u, .bodyStart u 3 ∉ s.data.sd.slog) := by
  obtain ⟨s, h1, h2⟩ := swit (l := demoOut) (ls := go 0 8 ++ go 1 4 ++ go 0 63 ++ go 1 40) (hnd := fun _ => none)
    (fun s => ((s.data.sd.st 0).owner, decide (.sat 1 0 (.val (.nat 5)) ∈ s.data.sd.slog), (s.data.sd.st 1).owner,
      decide (.sat 1 1 (.exn (.user 3)) ∈ s.data.sd.slog), decide (.sat 0 2 (.val (.nat 5)) ∈ s.data.sd.slog), (s.data.sd.st 3).owner,
      decide (.dropped 0 3 ∈ s.data.sd.slog), s.data.sd.slog.all (fun e => match e with | .bodyStart _ 3 => false | _ => true)))
    (b := (.pkg, true, .pkg, true, true, .pkg, true, true)) (by decide +kernel)
  simp only [Prod.mk.injEq, decide_eq_true_eq] at h2
  obtain ⟨a1, a2, a3, a4, a5, a6, a7, a8⟩ := h2
  refine ⟨s, h1, a1, a2, a3, a4, a5, a6, a7, fun u h => ?_⟩
  have := List.all_eq_true.1 a8 _ h
  simp at this

/-- `C37_delivered`: the function has thrown, the exception is being set; `C37_kept`: one task in a queue, one being called, one destroyed. -/
example : ∃ s : DSt, SR (tableApp demoOut) () 1 s ∧ .bodyThrew 1 1 (.user 3) ∈ s.data.sd.slog ∧ (s.data.sd.st 1).owner = .pkg ∧
    (s.data.sd.st 1).status = .notSet := by
  obtain ⟨s, h1, h2⟩ := swit (l := demoOut) (ls := go 0 8 ++ go 1 4 ++ go 0 63 ++ go 1 26) (hnd := fun _ => none)
    (fun s => (decide (.bodyThrew 1 1 (.user 3) ∈ s.data.sd.slog), (s.data.sd.st 1).owner, (s.data.sd.st 1).status))
    (b := (true, .pkg, .notSet)) (by decide +kernel)
  simp only [Prod.mk.injEq, decide_eq_true_eq] at h2
  exact ⟨s, h1, h2⟩
set_option synthInstance.maxSize 1024 in
set_option synthInstance.maxHeartbeats 400000 in
example : ∃ s : DSt, SR (tableApp demoOut) () 1 s ∧ (s.data.sd.nst, (s.data.sd.st 0).owner, (s.data.sd.st 1).owner, (s.data.sd.st 3).owner,
    decide (SEv.dropped 0 3 ∈ s.data.sd.slog), (s.ctxs 1).pend) = (5, .pkg, .pkg, .pkg, true, [.fut 1 22]) :=
  swit (l := demoOut) (ls := go 0 8 ++ go 1 4 ++ go 0 63 ++ go 1 6) (hnd := fun _ => none)
    (fun s => (s.data.sd.nst, (s.data.sd.st 0).owner, (s.data.sd.st 1).owner, (s.data.sd.st 3).owner, decide (SEv.dropped 0 3 ∈ s.data.sd.slog),
      (s.ctxs 1).pend)) (by decide +kernel)

/-- Destruction of a promise that was not set (`C35_destroy`). -/
example : ∃ s0 n s s' : _, SR (tableApp demoOut) () 1 s0 ∧ s0.stk 0 = .client (.poDtor 0) :: [.client (.app 9)] ∧
    Frag (client (tableApp demoOut)) 0 [.client (.app 9)] s0 n s ∧ step (client (tableApp demoOut)) s (.th 0 .go) = some s' ∧
    (decide (s'.stk 0 = [.client (.app 9)]), (s'.data.sd.st 4).exn) = (true, some .brokenPromise) :=
  sfragWit (l := demoOut) (ls1 := go 0 8 ++ go 1 4 ++ go 0 53) (ls2 := go 0 9) (hnd := fun _ => none)
    (obs := fun _ _ _ s' => (decide (s'.stk 0 = [.client (.app 9)]), (s'.data.sd.st 4).exn)) (by decide +kernel)

/-- `C37_events`: the step that logs the value returned. -/
example : ∃ s s' : DSt, SR (tableApp demoOut) () 1 s ∧ step (client (tableApp demoOut)) s (.th 1 .go) = some s' ∧
    (decide (.bodyRet 1 0 (.nat 5) ∈ s'.data.sd.slog), decide (.bodyRet 1 0 (.nat 5) ∈ s.data.sd.slog)) = (true, false) :=
  sstepWit (l := demoOut) (ls := go 0 8 ++ go 1 4 ++ go 0 63 ++ go 1 4) (hnd := fun _ => none)
    (fun s s' => (decide (.bodyRet 1 0 (.nat 5) ∈ s'.data.sd.slog), decide (.bodyRet 1 0 (.nat 5) ∈ s.data.sd.slog))) (by decide +kernel)
/-- `C37_events`: the step that logs the exception caught. -/
example : ∃ s s' : DSt, SR (tableApp demoOut) () 1 s ∧ step (client (tableApp demoOut)) s (.th 1 .go) = some s' ∧
    (decide (.bodyThrew 1 1 (.user 3) ∈ s'.data.sd.slog), decide (.bodyThrew 1 1 (.user 3) ∈ s.data.sd.slog)) = (true, false) :=
  sstepWit (l := demoOut) (ls := go 0 8 ++ go 1 4 ++ go 0 63 ++ go 1 23) (hnd := fun _ => none)
    (fun s s' => (decide (.bodyThrew 1 1 (.user 3) ∈ s'.data.sd.slog), decide (.bodyThrew 1 1 (.user 3) ∈ s.data.sd.slog))) (by decide +kernel)
/-- `C37_caught`: the handler is entered. -/
example : ∃ s s' : DSt, SR (tableApp demoOut) () 1 s ∧ step (client (tableApp demoOut)) s (.th 1 .go) = some s' ∧
    (decide (.client (.ftThrew 1 (.user 3)) ∈ s'.stk 1), decide (.client (.ftThrew 1 (.user 3)) ∈ s.stk 1)) = (true, false) :=
  sstepWit (l := demoOut) (ls := go 0 8 ++ go 1 4 ++ go 0 63 ++ go 1 22) (hnd := fun _ => none)
    (fun s s' => (decide (.client (.ftThrew 1 (.user 3)) ∈ s'.stk 1), decide (.client (.ftThrew 1 (.user 3)) ∈ s.stk 1))) (by decide +kernel)

/-- Main calls async for itself and attaches a continuation to the result. -/
def demoRet : List (SAct Nat Nat) :=
  [.core .registerThis 2, .sync (.async 0 false false 9) 3, .sync (.futThen (some 0) 0 false false 9) 4, .ret .unit, .ret .unit, .ret .unit,
   .ret .unit, .ret .unit, .ret (.nat 5)]

/-- `C37_async_returns`. -/
example : ∃ s0 n s s' : _, SR (tableApp demoRet) () 1 s0 ∧ s0.stk 0 = .client (SApi.async 0 false false 9).entry :: [.client (.app 3)] ∧
    Frag (client (tableApp demoRet)) 0 [.client (.app 3)] s0 n s ∧ step (client (tableApp demoRet)) s (.th 0 .go) = some s' ∧
    (decide (s'.stk 0 = [.client (.app 3)]), (s'.thr 0).exc, (s'.thr 0).rv) = (true, none, .nat 0) :=
  sfragWit (l := demoRet) (ls1 := go 0 5) (ls2 := go 0 18) (hnd := fun _ => none)
    (obs := fun _ _ _ s' => (decide (s'.stk 0 = [.client (.app 3)]), (s'.thr 0).exc, (s'.thr 0).rv)) (by decide +kernel)

/-- `C37_then_returns`. -/
example : ∃ s0 n s s' : _, SR (tableApp demoRet) () 1 s0 ∧ s0.stk 0 = .client (SApi.futThen (some 0) 0 false false 9).entry :: [.client (.app 4)] ∧
    Frag (client (tableApp demoRet)) 0 [.client (.app 4)] s0 n s ∧ step (client (tableApp demoRet)) s (.th 0 .go) = some s' ∧
    (decide (s'.stk 0 = [.client (.app 4)]), (s'.thr 0).exc, (s'.thr 0).rv) = (true, none, .nat 1) :=
  sfragWit (l := demoRet) (ls1 := go 0 25) (ls2 := go 0 19) (hnd := fun _ => none)
    (obs := fun _ _ _ s' => (decide (s'.stk 0 = [.client (.app 4)]), (s'.thr 0).exc, (s'.thr 0).rv)) (by decide +kernel)

end Itc
