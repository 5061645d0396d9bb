import Verif.Core.Calls
import Verif.Core.NewEv
import Verif.Core.FragDemo
import Verif.Props.Tasks

/-!
# C01, C02, C04, C05, C09, C11: what a single call does and returns; the log and the execution

The theorems about the log in `Props/Registry`, `Props/Tasks` say how its events are related.  Here the events are tied to the
execution: a task is `started` exactly when its code is entered by the library, it is `accepted` once per call, and what a call
returns is due to an event of that very call.
-/
namespace Itc
open Core
section
variable {τ φ δ χ : Type} {C : Client τ φ δ χ} {d : δ} {f0 : φ} {s s' s0 : St τ φ δ}

/-! ## C05: execution of tasks -/

/-- Why the library function at program point `f` enters the client code `g` (step of thread `t` from `s` to `s'`). -/
inductive Entered (C : Client τ φ δ χ) (s s' : St τ φ δ) (t : Nat) (f : CF τ φ) : φ → Prop
  | started (c : Nat) (k : τ) (hlog : s'.log = .started t c k :: s.log) : Entered C s s' t f (C.run k)
  | inlined (id : Nat) (k : τ) (hf : f = .dispatch id k) (hlog : s'.log = .inlined t id k :: s.log) : Entered C s s' t f (C.run k)
  | refused (id : Nat) (k : τ) (hf : f = .invLook id k true) (hlog : s'.log = .refused t id k :: s.log) : Entered C s s' t f (C.destroy k)
  | ended (c : Nat) (k : τ) (r : Cont) (hf : f = .ran c k r) (hlog : s'.log = s.log) : Entered C s s' t f (C.destroy k)
  | inlEnded (k : τ) (hf : f = .dispRan k) (hlog : s'.log = s.log) : Entered C s s' t f (C.destroy k)
  | dropped (c : Nat) (k : τ) (l : List τ) (fn : Fn) (v : Val) (hf : f = .destroyList c (k :: l) fn v) (hlog : s'.log = s.log) :
      Entered C s s' t f (C.destroy k)
  | callback (g : φ) (h : s.logCb = some g ∨ f = .initCfg (some g)) (hlog : s'.log = s.log) : Entered C s s' t f g

theorem core_enter {t : Nat} {f : CF τ φ} {rest : List (Frame τ φ)} {ch : Ch χ} (h : stepCore C s t f rest ch = some s') {g : φ}
    (hst : s.stk t = .core f :: rest) {tl : List (Frame τ φ)} (hst' : s'.stk t = .client g :: tl) (hne : s'.stk t ≠ rest) :
    Entered C s s' t f g ∧ ∃ x, tl = .core x :: rest := by
  cases f with
  | retv d => cases d <;> simp only [stepCore] at h <;> obtain rfl := Option.some.inj h <;> exact absurd (by simp [St.stk, St.ret]) hne
  | destroyList c l f v =>
    cases l <;> simp only [stepCore] at h <;> obtain rfl := Option.some.inj h
    · exact absurd (by simp [St.stk, St.ret]) hne
    · simp [St.stk, St.setStk] at hst'
      obtain ⟨rfl, rfl⟩ := hst'
      exact ⟨.dropped _ _ _ _ _ rfl rfl, _, rfl⟩
  | regDone c self => cases self <;> simp only [stepCore] at h <;> obtain rfl := Option.some.inj h <;> simp [St.stk, St.setStk] at hst'
  | sdNotify l T =>
    cases l with
    | cons i l => simp only [stepCore] at h; obtain rfl := Option.some.inj h; simp [St.stk, St.setStk] at hst'
    | nil =>
      simp only [stepCore] at h
      repeat' (split at h)
      all_goals first
        | contradiction
        | (obtain rfl := Option.some.inj h
           first
             | (exfalso; apply hne; simp [St.stk, St.ret]; done)
             | (exfalso; simp [St.stk, St.setStk] at hst'; done)
             | (simp [St.stk, St.setStk] at hst'
                obtain ⟨rfl, rfl⟩ := hst'
                exact ⟨.callback _ (.inl (by assumption)) rfl, _, rfl⟩))
  | _ =>
    simp only [stepCore] at h
    repeat' (split at h)
    all_goals first
      | contradiction
      | (obtain rfl := Option.some.inj h
         first
           | (exfalso; apply hne; simp [St.stk, St.ret, St.setCtx, St.ev]; done)
           | (exfalso; apply hne; simp [St.stk, St.setStk, St.ret, St.setCtx, St.ev]; done)
           | (exfalso; simp [St.stk, St.setStk, St.hold, St.ev, St.setCtx] at hst'; done)
           | (exfalso; simp only [St.stk] at hst hst'; rw [hst] at hst'; cases hst'; done)
           | (exfalso; simp only [St.stk, St.setCtx] at hst hst'; rw [hst] at hst'; cases hst'; done)
           | (simp [St.stk, St.setStk, St.startTask, St.ev] at hst'
              obtain ⟨rfl, rfl⟩ := hst'
              first
                | exact ⟨.started _ _ rfl, _, rfl⟩
                | exact ⟨.inlined _ _ rfl rfl, _, rfl⟩
                | (subst_vars; exact ⟨.refused _ _ rfl rfl, _, rfl⟩)
                | exact ⟨.ended _ _ _ rfl rfl, _, rfl⟩
                | exact ⟨.inlEnded _ rfl rfl, _, rfl⟩
                | exact ⟨.callback _ (.inl (by assumption)) rfl, _, rfl⟩
                | exact ⟨.callback _ (.inr rfl) rfl, _, rfl⟩))

/-- A step adds to the log; if it adds an acceptance or the start of a task, this is the only event that it adds. -/
theorem core_grow {t : Nat} {f : CF τ φ} {rest : List (Frame τ φ)} {ch : Ch χ} (h : stepCore C s t f rest ch = some s') :
    ∃ es, s'.log = es ++ s.log ∧
      (∀ u c i k, Ev.accepted u c i k ∈ es → es = [.accepted u c i k] ∧ u = t ∧ f = .invPush c k ∧
        s'.stk t = .core (.release c (.invoke i) (.bool true)) :: rest) ∧
      (∀ u c k, Ev.started u c k ∈ es → es = [.started u c k] ∧ u = t ∧ ∃ r, s'.stk t = .client (C.run k) :: .core (.ran c k r) :: rest) := by
  have none (h : s'.log = s.log) : ∃ es, s'.log = es ++ s.log ∧
      (∀ u c i k, Ev.accepted u c i k ∈ es → es = [.accepted u c i k] ∧ u = t ∧ f = .invPush c k ∧
        s'.stk t = .core (.release c (.invoke i) (.bool true)) :: rest) ∧
      (∀ u c k, Ev.started u c k ∈ es → es = [.started u c k] ∧ u = t ∧ ∃ r, s'.stk t = .client (C.run k) :: .core (.ran c k r) :: rest) :=
    ⟨[], h, by simp, by simp⟩
  have one {e : Ev τ} (h : s'.log = e :: s.log) (h1 : ∀ u c i k, e ≠ .accepted u c i k) (h2 : ∀ u c k, e ≠ .started u c k) :
      ∃ es, s'.log = es ++ s.log ∧
      (∀ u c i k, Ev.accepted u c i k ∈ es → es = [.accepted u c i k] ∧ u = t ∧ f = .invPush c k ∧
        s'.stk t = .core (.release c (.invoke i) (.bool true)) :: rest) ∧
      (∀ u c k, Ev.started u c k ∈ es → es = [.started u c k] ∧ u = t ∧ ∃ r, s'.stk t = .client (C.run k) :: .core (.ran c k r) :: rest) :=
    ⟨[e], h, fun u c i k hm => absurd (List.mem_singleton.1 hm).symm (h1 u c i k), fun u c k hm => absurd (List.mem_singleton.1 hm).symm (h2 u c k)⟩
  have two {e e' : Ev τ} (h : s'.log = e :: e' :: s.log) (h1 : ∀ u c i k, e ≠ .accepted u c i k ∧ e' ≠ .accepted u c i k)
      (h2 : ∀ u c k, e ≠ .started u c k ∧ e' ≠ .started u c k) :
      ∃ es, s'.log = es ++ s.log ∧
      (∀ u c i k, Ev.accepted u c i k ∈ es → es = [.accepted u c i k] ∧ u = t ∧ f = .invPush c k ∧
        s'.stk t = .core (.release c (.invoke i) (.bool true)) :: rest) ∧
      (∀ u c k, Ev.started u c k ∈ es → es = [.started u c k] ∧ u = t ∧ ∃ r, s'.stk t = .client (C.run k) :: .core (.ran c k r) :: rest) := by
    refine ⟨[e, e'], h, fun u c i k hm => ?_, fun u c k hm => ?_⟩
    · rcases List.mem_cons.1 hm with h | h
      · exact absurd h.symm (h1 u c i k).1
      · exact absurd (List.mem_singleton.1 h).symm (h1 u c i k).2
    · rcases List.mem_cons.1 hm with h | h
      · exact absurd h.symm (h2 u c k).1
      · exact absurd (List.mem_singleton.1 h).symm (h2 u c k).2
  cases f with
  | retv d => cases d <;> simp only [stepCore] at h <;> obtain rfl := Option.some.inj h <;> exact one rfl (by simp) (by simp)
  | destroyList c l f v =>
    cases l <;> simp only [stepCore] at h <;> obtain rfl := Option.some.inj h
    · exact one rfl (by simp) (by simp)
    · exact none rfl
  | regDone c self => cases self <;> simp only [stepCore] at h <;> obtain rfl := Option.some.inj h <;> exact none rfl
  | release c f v =>
    simp only [stepCore] at h
    split at h <;> obtain rfl := Option.some.inj h
    · exact ⟨_, rfl, by simp, by simp⟩
    · exact one rfl (by simp) (by simp)
  | invPush c k =>
    simp only [stepCore] at h
    split at h <;> obtain rfl := Option.some.inj h
    · exact none rfl
    · refine ⟨[_], rfl, fun u c' i k' hm => ?_, by simp⟩
      cases List.mem_singleton.1 hm
      exact ⟨rfl, rfl, rfl, by simp [St.stk, St.setStk]⟩
  | sdNotify l T =>
    cases l with
    | cons i l => simp only [stepCore] at h; obtain rfl := Option.some.inj h; exact none rfl
    | nil =>
      simp only [stepCore] at h
      repeat' (split at h)
      all_goals first
        | contradiction
        | (obtain rfl := Option.some.inj h; first | exact none rfl | exact one rfl (by simp) (by simp))
  | _ =>
    simp only [stepCore] at h
    repeat' (split at h)
    all_goals first
      | contradiction
      | (obtain rfl := Option.some.inj h
         first
           | exact none rfl
           | (refine ⟨[.started _ _ _], rfl, by simp, fun u c k hm => ?_⟩
              cases List.mem_singleton.1 hm
              exact ⟨rfl, rfl, _, by simp [St.stk, St.setStk, St.startTask]; rfl⟩)
           | exact one rfl (by simp) (by simp)
           | exact two rfl (by simp) (by simp))

theorem step_new {t : Nat} {ch : Ch χ} (hs : step C s (.th t ch) = some s') :
    ∃ es, s'.log = es ++ s.log ∧
      (∀ u c i k, Ev.accepted u c i k ∈ es → es = [.accepted u c i k] ∧ u = t ∧ ∃ rest, s.stk t = .core (.invPush c k) :: rest ∧
        s'.stk t = .core (.release c (.invoke i) (.bool true)) :: rest) ∧
      (∀ u c k, Ev.started u c k ∈ es → es = [.started u c k] ∧ u = t ∧ ∃ f r rest, s.stk t = .core f :: rest ∧
        s'.stk t = .client (C.run k) :: .core (.ran c k r) :: rest) := by
  cases step_cl hs with
  | core f rest hexc hold hcs hdata hcore =>
    obtain ⟨es, h1, h2, h3⟩ := core_grow hcore
    refine ⟨es, h1, fun u c i k hm => ?_, fun u c k hm => ?_⟩
    · obtain ⟨h4, h5, rfl, h6⟩ := h2 u c i k hm
      exact ⟨h4, h5, rest, hold, h6⟩
    · obtain ⟨h4, h5, r, h6⟩ := h3 u c k hm
      exact ⟨h4, h5, f, r, rest, hold, h6⟩
  | task e f k rest hexc hold hf hst hexc' hdata hlog =>
    obtain ⟨es, h1, h2⟩ := hlog
    refine ⟨es, h1, fun u c i k hm => ?_, fun u c k hm => ?_⟩ <;>
    · obtain ⟨_, _, h⟩ := h2 _ hm
      cases h
  | cl f rest d a hexc hold hstep hdata hact hlog => exact ⟨[], hlog, by simp, by simp⟩
  | halt e hexc hst hterm hexc' hdata hlog => exact ⟨[], hlog, by simp, by simp⟩
  | cpop e f rest hexc hold hf hst hexc' hdata hlog => exact ⟨[], hlog, by simp, by simp⟩
  | «catch» e g g' rest hexc hold hg hst hexc' hdata hlog => exact ⟨[], hlog, by simp, by simp⟩
  | pop e g rest hexc hold hg hst hexc' hdata hlog => exact ⟨[], hlog, by simp, by simp⟩
  | fin hold hst hexc' hdata hlog => exact ⟨[], hlog, by simp, by simp⟩

/-- Every step only adds to the log. -/
theorem step_grow {l : Lbl χ} (hs : step C s l = some s') : ∃ es, s'.log = es ++ s.log := by
  cases l with
  | tick n => exact ⟨[], by rw [step_tick _ s s' n hs]; rfl⟩
  | th t ch => exact (step_new hs).imp fun _ h => h.1

/-- C05: the library enters client code only to start a task (and then it is logged as `started` by this thread, or `inlined`
    if `dispatch` runs it directly), to destroy a task object, or to call the configured logger. -/
theorem C05_entered {t : Nat} {ch : Ch χ} (hs : step C s (.th t ch) = some s') {f : CF τ φ} {rest : List (Frame τ φ)}
    (hst : s.stk t = .core f :: rest) {g : φ} {tl : List (Frame τ φ)} (hst' : s'.stk t = .client g :: tl) (hne : s'.stk t ≠ rest) :
    Entered C s s' t f g ∨ ∃ e k, (s.thr t).exc = some e ∧ f.running = some k ∧ g = C.destroy k := by
  cases step_cl hs with
  | core f' rest' hexc hold hcs hdata hcore => rw [hst] at hold; cases hold; exact .inl (core_enter hcore hst hst' hne).1
  | task e f' k rest' hexc hold hf h =>
    rw [hst] at hold; cases hold
    rw [hst'] at h; cases h
    exact .inr ⟨e, k, hexc, hf, rfl⟩
  | cl f' rest' d a hexc hold => rw [hst] at hold; cases hold
  | halt e hexc h => rw [h, hst] at hst'; cases hst'
  | cpop e f' rest' hexc hold hf h => rw [hst] at hold; cases hold; exact absurd h hne
  | «catch» e g g' rest' hexc hold => rw [hst] at hold; cases hold
  | pop e g rest' hexc hold => rw [hst] at hold; cases hold
  | fin hold => rw [hst] at hold; cases hold

/-- C05: a step that logs the start of a task logs nothing else, and is a step of the thread that it names, which enters the
    code of this task, above a program point of the library that waits for its end. -/
theorem C05_started {l : Lbl χ} (hs : step C s l = some s') {es : List (Ev τ)} (hlog : s'.log = es ++ s.log) {t c : Nat} {k : τ}
    (hm : Ev.started t c k ∈ es) :
    es = [.started t c k] ∧ (∃ ch, l = .th t ch) ∧
      ∃ f r rest, s.stk t = .core f :: rest ∧ s'.stk t = .client (C.run k) :: .core (.ran c k r) :: rest := by
  cases l with
  | tick n =>
    rw [step_tick _ s s' n hs] at hlog
    have : es = [] := by simpa using hlog
    subst this
    cases hm
  | th u ch =>
    obtain ⟨es', h1, -, h3⟩ := step_new hs
    rw [h1] at hlog
    obtain rfl := List.append_cancel_right hlog
    obtain ⟨h4, rfl, h5⟩ := h3 _ _ _ hm
    exact ⟨h4, ⟨_, rfl⟩, h5⟩

/-- C05: a step that logs an acceptance logs nothing else, and is the step of a call of `invoke` (of the thread that it names)
    that ends the insertion: what remains of the call is to release the context and to return `true`. -/
theorem C05_accepted {l : Lbl χ} (hs : step C s l = some s') {es : List (Ev τ)} (hlog : s'.log = es ++ s.log) {t c id : Nat} {k : τ}
    (hm : Ev.accepted t c id k ∈ es) :
    es = [.accepted t c id k] ∧ (∃ ch, l = .th t ch) ∧
      ∃ rest, s.stk t = .core (.invPush c k) :: rest ∧ s'.stk t = .core (.release c (.invoke id) (.bool true)) :: rest := by
  cases l with
  | tick n =>
    rw [step_tick _ s s' n hs] at hlog
    have : es = [] := by simpa using hlog
    subst this
    cases hm
  | th u ch =>
    obtain ⟨es', h1, h2, -⟩ := step_new hs
    rw [h1] at hlog
    obtain rfl := List.append_cancel_right hlog
    obtain ⟨h4, rfl, h5⟩ := h2 _ _ _ _ hm
    exact ⟨h4, ⟨_, rfl⟩, h5⟩

/-! ## What one call returns -/

/-- The event `e` was logged after the log was `L`. -/
def Since (L : List (Ev τ)) (e : Ev τ) (l : List (Ev τ)) : Prop := ∃ a b, l = a ++ e :: (b ++ L)

theorem Since.grow {L l es : List (Ev τ)} {e : Ev τ} (h : Since L e l) : Since L e (es ++ l) := by
  obtain ⟨a, b, rfl⟩ := h
  exact ⟨es ++ a, b, by simp⟩

theorem Since.cons {L l : List (Ev τ)} {e x : Ev τ} (h : Since L e l) : Since L e (x :: l) := h.grow (es := [x])

theorem Since.step {L : List (Ev τ)} {e : Ev τ} {l : Lbl χ} (hs : step C s l = some s') (h : Since L e s.log) : Since L e s'.log := by
  obtain ⟨es, h1⟩ := step_grow hs
  rw [h1]
  exact h.grow

/-- The log is an extension of `L`. -/
def LExt (L l : List (Ev τ)) : Prop := ∃ b, l = b ++ L

theorem LExt.step {L : List (Ev τ)} {l : Lbl χ} (hs : step C s l = some s') (h : LExt L s.log) : LExt L s'.log := by
  obtain ⟨es, h1⟩ := step_grow hs
  obtain ⟨b, h2⟩ := h
  exact ⟨es ++ b, by rw [h1, h2]; simp⟩

theorem LExt.now {L l : List (Ev τ)} {e : Ev τ} (h : LExt L l) : Since L e (e :: l) := by
  obtain ⟨b, rfl⟩ := h
  exact ⟨[], b, rfl⟩

/-- The task `k` was accepted after the log was `L`, by the context `c` that was registered under `id` at some moment
    (its lookup) since then. -/
def AccSince (t id : Nat) (k : τ) (L l : List (Ev τ)) : Prop :=
  ∃ c n a a' b, l = a ++ .accepted t c id k :: (a' ++ (b ++ L)) ∧ Ev.registered c id n ∈ b ++ L ∧ id ∈ liveIds (b ++ L)

theorem AccSince.grow {t id : Nat} {k : τ} {L l es : List (Ev τ)} (h : AccSince t id k L l) : AccSince t id k L (es ++ l) := by
  obtain ⟨c, n, a, a', b, rfl, h⟩ := h
  exact ⟨c, n, es ++ a, a', b, by simp, h⟩

theorem AccSince.cons {t id : Nat} {k : τ} {L l : List (Ev τ)} {x : Ev τ} (h : AccSince t id k L l) : AccSince t id k L (x :: l) :=
  h.grow (es := [x])

theorem AccSince.step {t id : Nat} {k : τ} {L : List (Ev τ)} {l : Lbl χ} (hs : step C s l = some s') (h : AccSince t id k L s.log) :
    AccSince t id k L s'.log := by
  obtain ⟨es, h1⟩ := step_grow hs
  rw [h1]
  exact h.grow

/-- How an `invoke` or `dispatch` ended. -/
def InvR (dis : Prop) (t id : Nat) (k : τ) (L : List (Ev τ)) (s : St τ φ δ) : Prop :=
  (s.thr t).exc = none →
    ((s.thr t).rv = .bool true ∧ (AccSince t id k L s.log ∨ dis ∧ Since L (.inlined t id k) s.log)) ∨
    ((s.thr t).rv = .bool false ∧ Since L (.refused t id k) s.log)

def InvPh (dis : Prop) (t id : Nat) (k : τ) (L : List (Ev τ)) : CF τ φ → St τ φ δ → Prop
  | .dispatch i k', s => dis ∧ i = id ∧ k' = k ∧ LExt L s.log
  | .invLook i k' _, s => i = id ∧ k' = k ∧ LExt L s.log
  | .invPush c k', s => k' = k ∧ ∃ a b n, s.log = a ++ (b ++ L) ∧ Ev.registered c id n ∈ b ++ L ∧ id ∈ liveIds (b ++ L)
  | .release _ _ v, s => v = .bool true ∧ AccSince t id k L s.log
  | .destroyList _ _ _ v, s => v = .bool true ∧ AccSince t id k L s.log
  | .dispRan _, s => dis ∧ Since L (.inlined t id k) s.log
  | .rethrow _, s => dis ∧ Since L (.inlined t id k) s.log
  | .retv none, s => dis ∧ Since L (.inlined t id k) s.log
  | .retv (some _), s => Since L (.refused t id k) s.log
  | _, _ => False

theorem invPh (dis : Prop) (t id : Nat) (k : τ) (L : List (Ev τ)) (rest : List (Frame τ φ)) :
    CPh C d f0 t rest (InvPh dis t id k L) (InvR dis t id k L) where
  mono {s s' f l} hr hs h := by
    cases f <;> simp only [InvPh] at h ⊢ <;> first | exact h | skip
    case dispatch => exact ⟨h.1, h.2.1, h.2.2.1, h.2.2.2.step hs⟩
    case invLook => exact ⟨h.1, h.2.1, h.2.2.step hs⟩
    case invPush =>
      obtain ⟨h1, a, b, n, h2, h3⟩ := h
      obtain ⟨es, h4⟩ := step_grow hs
      exact ⟨h1, es ++ a, b, n, by rw [h4, h2]; simp, h3⟩
    case retv o => cases o <;> first | exact Since.step hs h | exact ⟨h.1, h.2.step hs⟩
    all_goals exact ⟨h.1, h.2.step hs⟩
  task {s f k e} hr hst he h hf := by cases f <;> first | exact h.elim | (cases hf; done) | exact h
  unw {s f} h := by cases f <;> first | exact h.elim | rfl
  core {s s' f ch} hr hst he h hs hc := by
    cases f <;> simp only [InvPh] at h <;> first | exact h.elim | skip
    case dispatch i k' =>
      obtain ⟨hdis, rfl, rfl, h⟩ := h
      simp only [stepCore] at hc
      split at hc <;> obtain rfl := Option.some.inj hc
      · exact .inr ⟨[_], .dispRan k', by simp [St.stk, St.setStk]; rfl, hdis, h.now⟩
      · exact .inr ⟨[], .invLook i k' true, by simp [St.stk, St.setStk], rfl, rfl, h⟩
    case invLook i k' own =>
      obtain ⟨rfl, rfl, h⟩ := h
      simp only [stepCore] at hc
      have rf : ∀ {s'}, (if own = true then some ((s.ev (.refused t i k')).setStk t (.client (C.destroy k') :: .core (.retv (some i)) :: rest))
          else some ((s.ev (.refused t i k')).ret t rest (.invoke i) (.bool false))) = some s' →
          (s'.stk t = rest ∧ InvR dis t i k' L s') ∨ ∃ pre g, s'.stk t = pre ++ .core g :: rest ∧ InvPh dis t i k' L g s' := by
        intro s' hc
        split at hc <;> obtain rfl := Option.some.inj hc
        · exact .inr ⟨[_], .retv (some i), by simp [St.stk, St.setStk]; rfl, h.now⟩
        · exact .inl ⟨by simp [St.stk, St.ret], fun _ => .inr ⟨by simp [St.ret], h.now.cons⟩⟩
      split at hc
      · exact rf hc
      split at hc
      · cases hc
      split at hc
      · exact rf hc
      · rename_i c hcf
        obtain rfl := Option.some.inj hc
        obtain ⟨b, hb⟩ := h
        refine .inr ⟨[], .invPush c k', by simp [St.stk, St.setStk], rfl, [], b, (s.ctxs c).native, hb, ?_⟩
        rw [← hb]
        obtain ⟨h1, h2⟩ := (WF.reach hr).mem _ _ (find_some hcf)
        refine ⟨((LInv.reach hr).regd c i _).2 ⟨h1, h2.1, rfl⟩, ?_⟩
        rw [(LInv.reach hr).live]
        exact List.mem_map.2 ⟨_, find_some hcf, rfl⟩
    case invPush c k' =>
      obtain ⟨rfl, a, b, n, hL, h, hlv⟩ := h
      obtain ⟨h1, h2, h3⟩ := ((LInv.reach hr).regd c id n).1 (by rw [hL]; exact List.mem_append_right _ h)
      simp only [stepCore] at hc
      split at hc <;> obtain rfl := Option.some.inj hc
      · exact .inr ⟨[], .invPush c k', hst, rfl, a, b, n, hL, h, hlv⟩
      · refine .inr ⟨[], .release c _ (.bool true), by simp [St.stk, St.setStk]; rfl, rfl, c, n, [], a, b, ?_, h, hlv⟩
        rw [← hL, ← h2]
        rfl
    case release c fn v =>
      simp only [stepCore] at hc
      split at hc <;> obtain rfl := Option.some.inj hc
      · exact .inr ⟨[], .destroyList c _ fn v, by simp [St.stk, St.setStk]; rfl, h.1, h.2.grow⟩
      · exact .inl ⟨by simp [St.stk, St.ret], fun _ => .inl ⟨by simp [St.ret, h.1], .inl h.2.cons⟩⟩
    case destroyList c l fn v =>
      cases l with
      | cons k l =>
        simp only [stepCore] at hc
        obtain rfl := Option.some.inj hc
        exact .inr ⟨[_], .destroyList c l fn v, by simp [St.stk, St.setStk]; rfl, h⟩
      | nil =>
        simp only [stepCore] at hc
        obtain rfl := Option.some.inj hc
        exact .inl ⟨by simp [St.stk, St.ret], fun _ => .inl ⟨by simp [St.ret, h.1], .inl h.2.cons⟩⟩
    case retv o =>
      cases o <;> simp only [stepCore] at hc <;> obtain rfl := Option.some.inj hc
      · exact .inl ⟨by simp [St.stk, St.ret], fun _ => .inl ⟨by simp [St.ret], .inr ⟨h.1, h.2.cons⟩⟩⟩
      · exact .inl ⟨by simp [St.stk, St.ret], fun _ => .inr ⟨by simp [St.ret], Since.cons h⟩⟩
    case dispRan k' =>
      simp only [stepCore] at hc
      obtain rfl := Option.some.inj hc
      exact .inr ⟨[_], .retv none, by simp [St.stk, St.setStk]; rfl, h⟩
    case rethrow e =>
      simp only [stepCore] at hc
      obtain rfl := Option.some.inj hc
      exact .inl ⟨by simp [St.stk], fun h => by simp at h⟩

/-- Main registers, makes the call `a`, and returns; a task returns. -/
def oneProg (a : Api Nat Nat) : List (Act Nat Nat) := [.call .registerThis 2, .call a 3, .ret .unit]

/-- C04, one call: if `invoke(id, k)` returns `true`, then during this call `id` was registered and the task was accepted by the
    context that had this id; if it returns `false`, then during this call `id` was found to be invalid or not registered. -/
theorem C04_call (hr : Reach C d f0 s0) {t n id : Nat} {k : τ} {own : Bool} {rest : List (Frame τ φ)}
    (hst : s0.stk t = .core (.invLook id k own) :: rest) (hf : Frag C t rest s0 n s) {l : Lbl χ} (hs : step C s l = some s')
    (hend : s'.stk t = rest) (hexc : (s'.thr t).exc = none) :
    ((s'.thr t).rv = .bool true ∧ id ≠ 0 ∧ ∃ c n a a' b, s'.log = a ++ .accepted t c id k :: (a' ++ (b ++ s0.log)) ∧
      Ev.registered c id n ∈ b ++ s0.log ∧ id ∈ liveIds (b ++ s0.log)) ∨
    ((s'.thr t).rv = .bool false ∧ ∃ a b, s'.log = a ++ .refused t id k :: (b ++ s0.log) ∧ (id = 0 ∨ id ∉ liveIds (b ++ s0.log))) := by
  have h := (invPh False t id k s0.log rest).fin hr hst (by exact ⟨rfl, rfl, [], rfl⟩) hf hs hend hexc
  have hr' : Reach C d f0 s' := (hf.reach hr).step hs
  have hh := (LInv.reach hr').hist
  rcases h with ⟨h1, ⟨c, m, a, a', b, h2, h3, h4⟩ | h⟩ | ⟨h1, a, b, h2⟩
  · refine .inl ⟨h1, ?_, c, m, a, a', b, h2, h3, h4⟩
    have h5 := ((LInv.reach hr').regd c id m).1 (by rw [h2]; simp at h3 ⊢; grind)
    have h0 := ((WF.reach hr').ids c h5.1).1
    omega
  · exact h.1.elim
  · exact .inr ⟨h1, a, b, h2, hh.split h2⟩

/-- C11, one call: if `dispatch(id, k)` returns `true`, then during this call the functor was run by the calling thread, or
    it was accepted by the context registered under `id`; if it returns `false`, then `id` was found not registered. -/
theorem C11_call (hr : Reach C d f0 s0) {t n id : Nat} {k : τ} {rest : List (Frame τ φ)}
    (hst : s0.stk t = .core (.dispatch id k) :: rest) (hf : Frag C t rest s0 n s) {l : Lbl χ} (hs : step C s l = some s')
    (hend : s'.stk t = rest) (hexc : (s'.thr t).exc = none) :
    ((s'.thr t).rv = .bool true ∧ ((∃ a b, s'.log = a ++ .inlined t id k :: (b ++ s0.log)) ∨
      ∃ c n a a' b, s'.log = a ++ .accepted t c id k :: (a' ++ (b ++ s0.log)) ∧
        Ev.registered c id n ∈ b ++ s0.log ∧ id ∈ liveIds (b ++ s0.log))) ∨
    ((s'.thr t).rv = .bool false ∧ ∃ a b, s'.log = a ++ .refused t id k :: (b ++ s0.log) ∧ (id = 0 ∨ id ∉ liveIds (b ++ s0.log))) := by
  have h := (invPh True t id k s0.log rest).fin hr hst (by exact ⟨trivial, rfl, rfl, [], rfl⟩) hf hs hend hexc
  have hr' : Reach C d f0 s' := (hf.reach hr).step hs
  rcases h with ⟨h1, h | h⟩ | ⟨h1, a, b, h2⟩
  · exact .inl ⟨h1, .inr h⟩
  · exact .inl ⟨h1, .inl h.2⟩
  · exact .inr ⟨h1, a, b, h2, (LInv.reach hr').hist.split h2⟩

/-! ## register_thread -/

def RgPh (t n : Nat) (L : List (Ev τ)) : CF τ φ → St τ φ δ → Prop
  | .regLook m, s => m.getD t = n ∧ LExt L s.log
  | .regDone c _, s => ∃ id, Since L (.regRes t n id) s.log ∧ Ev.registered c id n ∈ s.log
  | .release _ _ v, s => ∃ id, v = .nat id ∧ Since L (.regRes t n id) s.log
  | .destroyList _ _ _ v, s => ∃ id, v = .nat id ∧ Since L (.regRes t n id) s.log
  | _, _ => False

theorem rgPh (t n : Nat) (L : List (Ev τ)) (rest : List (Frame τ φ)) :
    CPh C d f0 t rest (RgPh t n L) (fun s => ∃ id, (s.thr t).rv = .nat id ∧ Since L (.regRes t n id) s.log) where
  mono {s s' f l} hr hs h := by
    cases f <;> simp only [RgPh] at h ⊢ <;> first | exact h | skip
    · exact ⟨h.1, h.2.step hs⟩
    · exact h.imp fun _ h => ⟨h.1.step hs, step_logm hs h.2⟩
    all_goals exact h.imp fun _ h => ⟨h.1, h.2.step hs⟩
  task {s f k e} hr hst he h hf := by cases f <;> first | exact h.elim | cases hf
  unw {s f} h := by cases f <;> first | exact h.elim | rfl
  core {s s' f ch} hr hst he h hs hc := by
    cases f <;> simp only [RgPh] at h <;> first | exact h.elim | skip
    case regLook m =>
      obtain ⟨rfl, h⟩ := h
      simp only [stepCore] at hc
      split at hc
      · cases hc
      split at hc
      · rename_i c hcf
        obtain rfl := Option.some.inj hc
        refine .inr ⟨[], .regDone c _, by simp [St.stk, St.setStk]; rfl, (s.ctxs c).id, h.now, ?_⟩
        obtain ⟨hm, hnat, -⟩ := (WF.reach hr).toRegOK.find_regId_some hcf
        have := ((LInv.reach hr).regd c _ (m.getD t)).2 ⟨((WF.reach hr).mem _ _ hm).1, rfl, hnat⟩
        exact step_logm hs this
      · obtain rfl := Option.some.inj hc
        refine .inr ⟨[], .regDone s.nctx _, by simp [St.stk, St.setStk]; rfl, s.regId (m.getD t), ?_, by simp [St.ev, St.setStk]⟩
        obtain ⟨b, h⟩ := h
        exact ⟨[], .registered s.nctx (s.regId (m.getD t)) (m.getD t) :: b, by simp [St.ev, St.setStk, h]⟩
    case regDone c self =>
      obtain ⟨id, hS, h⟩ := h
      simp only [stepCore] at hc
      obtain rfl := Option.some.inj hc
      obtain ⟨h1, h2, h3⟩ := ((LInv.reach hr).regd c id n).1 h
      refine .inr ⟨[], .release c (.register n) (.nat id), by simp [St.stk, St.setStk, h2, h3], id, rfl, ?_⟩
      cases self <;> exact hS
    case release c fn v =>
      obtain ⟨id, rfl, h⟩ := h
      simp only [stepCore] at hc
      split at hc <;> obtain rfl := Option.some.inj hc
      · exact .inr ⟨[], .destroyList c _ fn (.nat id), by simp [St.stk, St.setStk]; rfl, id, rfl, h.grow⟩
      · exact .inl ⟨by simp [St.stk, St.ret], id, by simp [St.ret], h.cons⟩
    case destroyList c l fn v =>
      obtain ⟨id, rfl, h⟩ := h
      cases l with
      | cons k l =>
        simp only [stepCore] at hc
        obtain rfl := Option.some.inj hc
        exact .inr ⟨[_], .destroyList c l fn (.nat id), by simp [St.stk, St.setStk]; rfl, id, rfl, h⟩
      | nil =>
        simp only [stepCore] at hc
        obtain rfl := Option.some.inj hc
        exact .inl ⟨by simp [St.stk, St.ret], id, by simp [St.ret], h.cons⟩

theorem regOf_mem {n id : Nat} {l : List (Ev τ)} (h : regOf n l = some id) : ∃ c, Ev.registered c id n ∈ l := by
  induction l with
  | nil => simp [regOf] at h
  | cons e l ih =>
    cases e <;> simp only [regOf] at h <;> try exact (ih h).imp fun _ => List.mem_cons_of_mem _
    case registered c i m =>
      split at h
      · obtain rfl := Option.some.inj h
        rename_i h'
        subst h'
        exact ⟨c, List.mem_cons_self⟩
      · exact (ih h).imp fun _ => List.mem_cons_of_mem _
    case unregistered c i m =>
      split at h
      · cases h
      · exact (ih h).imp fun _ => List.mem_cons_of_mem _

/-- C01, C02, one call: a registering call for native thread `n` (`m = none`: the calling thread) returns the nonzero id that
    `n` had at a moment during this call. -/
theorem C02_call (hr : Reach C d f0 s0) {t n : Nat} {m : Option Nat} {rest : List (Frame τ φ)}
    (hst : s0.stk t = .core (.regLook m) :: rest) (hf : Frag C t rest s0 n s) {l : Lbl χ} (hs : step C s l = some s')
    (hend : s'.stk t = rest) :
    ∃ id a b, (s'.thr t).rv = .nat id ∧ id ≠ 0 ∧ s'.log = a ++ .regRes t (m.getD t) id :: (b ++ s0.log) ∧
      regOf (m.getD t) (b ++ s0.log) = some id := by
  obtain ⟨id, h1, a, b, h2⟩ := (rgPh t (m.getD t) s0.log rest).fin hr hst (by exact ⟨rfl, [], rfl⟩) hf hs hend
  have hr' : Reach C d f0 s' := (hf.reach hr).step hs
  have h3 := (LInv.reach hr').hist.split h2
  refine ⟨id, a, b, h1, ?_, h2, h3⟩
  obtain ⟨c, h4⟩ := regOf_mem h3
  have h5 := ((LInv.reach hr').regd c id (m.getD t)).1 (by rw [h2]; simp at h4 ⊢; grind)
  have h0 := ((WF.reach hr').ids c h5.1).1
  omega

/-! ## get_pending_task_count -/

def PdPh (t id : Nat) (L : List (Ev τ)) : CF τ φ → St τ φ δ → Prop
  | .pendLook i, s => i = id ∧ LExt L s.log
  | .pendRead c, s => LExt L s.log ∧ ∃ n, Ev.registered c id n ∈ s.log
  | .release _ _ v, s => ∃ n c, v = .nat n ∧ Since L (.pendRes t c id n) s.log
  | .destroyList _ _ _ v, s => ∃ n c, v = .nat n ∧ Since L (.pendRes t c id n) s.log
  | _, _ => False

theorem pdPh (t id : Nat) (L : List (Ev τ)) (rest : List (Frame τ φ)) :
    CPh C d f0 t rest (PdPh t id L) (fun s => (∃ n c, (s.thr t).rv = .nat n ∧ Since L (.pendRes t c id n) s.log) ∨
      ((s.thr t).rv = .nat 0 ∧ (id = 0 ∨ id ∉ liveIds s.log))) where
  mono {s s' f l} hr hs h := by
    cases f <;> simp only [PdPh] at h ⊢ <;> first | exact h | skip
    case pendLook => exact ⟨h.1, h.2.step hs⟩
    case pendRead => exact ⟨h.1.step hs, h.2.imp fun _ => step_logm hs⟩
    all_goals exact h.imp fun _ h => h.imp fun _ h => ⟨h.1, h.2.step hs⟩
  task {s f k e} hr hst he h hf := by cases f <;> first | exact h.elim | cases hf
  unw {s f} h := by cases f <;> first | exact h.elim | rfl
  core {s s' f ch} hr hst he h hs hc := by
    cases f <;> simp only [PdPh] at h <;> first | exact h.elim | skip
    case pendLook i =>
      obtain ⟨rfl, h⟩ := h
      simp only [stepCore] at hc
      split at hc
      · rename_i h0
        obtain rfl := Option.some.inj hc
        exact .inl ⟨by simp [St.stk, St.ret], .inr ⟨by simp [St.ret], .inl h0⟩⟩
      split at hc
      · cases hc
      split at hc
      · rename_i hn
        obtain rfl := Option.some.inj hc
        refine .inl ⟨by simp [St.stk, St.ret], .inr ⟨by simp [St.ret], .inr ?_⟩⟩
        show i ∉ liveIds (.ret t (.pending i) (.nat 0) :: s.log)
        have : liveIds (Ev.ret t (.pending i) (.nat 0) :: s.log) = liveIds s.log := rfl
        rw [this, (LInv.reach hr).live]
        intro hm
        obtain ⟨⟨i', c⟩, hm', hi⟩ := List.mem_map.1 hm
        simp only at hi
        subst hi
        exact Core.find_none hn c hm'
      · rename_i c hcf
        obtain rfl := Option.some.inj hc
        obtain ⟨h1, h2⟩ := (WF.reach hr).mem _ _ (find_some hcf)
        exact .inr ⟨[], .pendRead c, by simp [St.stk, St.setStk], h, _, step_logm hs (((LInv.reach hr).regd c i _).2 ⟨h1, h2.1, rfl⟩)⟩
    case pendRead c =>
      obtain ⟨hL, n, h⟩ := h
      obtain ⟨h1, h2, h3⟩ := ((LInv.reach hr).regd c id n).1 h
      simp only [stepCore] at hc
      split at hc <;> obtain rfl := Option.some.inj hc
      · exact .inr ⟨[], .pendRead c, hst, hL, n, h⟩
      · refine .inr ⟨[], .release c _ _, by simp [St.stk, St.setStk]; exact ⟨rfl, rfl⟩, _, c, rfl, ?_⟩
        rw [← h2]
        exact hL.now
    case release c fn v =>
      obtain ⟨n, c', rfl, h⟩ := h
      simp only [stepCore] at hc
      split at hc <;> obtain rfl := Option.some.inj hc
      · exact .inr ⟨[], .destroyList c _ fn (.nat n), by simp [St.stk, St.setStk]; rfl, n, c', rfl, h.grow⟩
      · exact .inl ⟨by simp [St.stk, St.ret], .inl ⟨n, c', by simp [St.ret], h.cons⟩⟩
    case destroyList c l fn v =>
      obtain ⟨n, c', rfl, h⟩ := h
      cases l with
      | cons k l =>
        simp only [stepCore] at hc
        obtain rfl := Option.some.inj hc
        exact .inr ⟨[_], .destroyList c l fn (.nat n), by simp [St.stk, St.setStk]; rfl, n, c', rfl, h⟩
      | nil =>
        simp only [stepCore] at hc
        obtain rfl := Option.some.inj hc
        exact .inl ⟨by simp [St.stk, St.ret], .inl ⟨n, c', by simp [St.ret], h.cons⟩⟩

/-- C09, one call (partial as C09): `get_pending_task_count(id)` returns the number of unfinished tasks at a moment during this
    call, or 0 if `id` is invalid or not registered when it returns, provided no task of that thread was left by an exception.
    Missing: with exceptions the count is too high, see `C09_counterexample`. -/
theorem C09_call_partial (hr : Reach C d f0 s0) {t n id : Nat} {rest : List (Frame τ φ)}
    (hst : s0.stk t = .core (.pendLook id) :: rest) (hf : Frag C t rest s0 n s) {l : Lbl χ} (hs : step C s l = some s')
    (hend : s'.stk t = rest) :
    (∃ c a b m n, s'.log = a ++ .pendRes t c id n :: (b ++ s0.log) ∧ Ev.registered c id m ∈ b ++ s0.log ∧ (s'.thr t).rv = .nat n ∧
      (thrs c (b ++ s0.log) = [] → n = unfinished c (b ++ s0.log))) ∨
    ((s'.thr t).rv = .nat 0 ∧ (id = 0 ∨ id ∉ liveIds s'.log)) := by
  have hr' : Reach C d f0 s' := (hf.reach hr).step hs
  rcases (pdPh t id s0.log rest).fin hr hst (by exact ⟨rfl, [], rfl⟩) hf hs hend with ⟨n, c, h1, a, b, h2⟩ | h
  · obtain ⟨⟨m, h3⟩, h4⟩ := (LInv.reach hr').hist.split h2
    refine .inl ⟨c, a, b, m, n, h2, h3, h1, fun h5 => ?_⟩
    simp only [unfinished, h5, List.length_nil]
    omega
  · exact .inr h

/-! ## Examples: the hypotheses are met by concrete executions -/

/-- Main registers and invokes a task on itself: hypotheses of `C04_call`, first case. -/
example : ∃ s0 n s s', Reach (tableClient (prog (oneProg (.invoke 1 10)))) () 1 s0 ∧
    s0.stk 0 = .core (.invLook 1 10 true) :: [.client 3] ∧
    Frag (tableClient (prog (oneProg (.invoke 1 10)))) 0 [.client 3] s0 n s ∧
    step (tableClient (prog (oneProg (.invoke 1 10)))) s (.th 0 .go) = some s' ∧
    (s'.stk 0, (s'.thr 0).exc, (s'.thr 0).rv) = ([.client 3], none, .bool true) :=
  fragWit (ls1 := go 0 5) (ls2 := go 0 2) (obs := fun _ _ _ s' => (s'.stk 0, (s'.thr 0).exc, (s'.thr 0).rv)) (by decide +kernel)

/-- Main invokes a task on an id that nobody has: hypotheses of `C04_call`, second case. -/
example : ∃ s0 n s s', Reach (tableClient (prog (oneProg (.invoke 7 10)))) () 1 s0 ∧
    s0.stk 0 = .core (.invLook 7 10 true) :: [.client 3] ∧
    Frag (tableClient (prog (oneProg (.invoke 7 10)))) 0 [.client 3] s0 n s ∧
    step (tableClient (prog (oneProg (.invoke 7 10)))) s (.th 0 .go) = some s' ∧
    (s'.stk 0, (s'.thr 0).exc, (s'.thr 0).rv) = ([.client 3], none, .bool false) :=
  fragWit (ls1 := go 0 5) (ls2 := go 0 2) (obs := fun _ _ _ s' => (s'.stk 0, (s'.thr 0).exc, (s'.thr 0).rv)) (by decide +kernel)

/-- Main dispatches to itself: hypotheses of `C11_call`. -/
example : ∃ s0 n s s', Reach (tableClient (prog (oneProg (.dispatch 1 10)))) () 1 s0 ∧
    s0.stk 0 = .core (.dispatch 1 10) :: [.client 3] ∧
    Frag (tableClient (prog (oneProg (.dispatch 1 10)))) 0 [.client 3] s0 n s ∧
    step (tableClient (prog (oneProg (.dispatch 1 10)))) s (.th 0 .go) = some s' ∧
    (s'.stk 0, (s'.thr 0).exc, (s'.thr 0).rv) = ([.client 3], none, .bool true) :=
  fragWit (ls1 := go 0 5) (ls2 := go 0 4) (obs := fun _ _ _ s' => (s'.stk 0, (s'.thr 0).exc, (s'.thr 0).rv)) (by decide +kernel)

/-- Main registers native thread 5: hypotheses of `C02_call`. -/
example : ∃ s0 n s s', Reach (tableClient (prog (oneProg (.registerNative 5)))) () 1 s0 ∧
    s0.stk 0 = .core (.regLook (some 5)) :: [.client 3] ∧
    Frag (tableClient (prog (oneProg (.registerNative 5)))) 0 [.client 3] s0 n s ∧
    step (tableClient (prog (oneProg (.registerNative 5)))) s (.th 0 .go) = some s' ∧
    (s'.stk 0, (s'.thr 0).exc, (s'.thr 0).rv) = ([.client 3], none, .nat 2) :=
  fragWit (ls1 := go 0 5) (ls2 := go 0 2) (obs := fun _ _ _ s' => (s'.stk 0, (s'.thr 0).exc, (s'.thr 0).rv)) (by decide +kernel)

/-- Main asks for its own pending count: hypotheses of `C09_call_partial`. -/
example : ∃ s0 n s s', Reach (tableClient (prog (oneProg (.pending 1)))) () 1 s0 ∧
    s0.stk 0 = .core (.pendLook 1) :: [.client 3] ∧
    Frag (tableClient (prog (oneProg (.pending 1)))) 0 [.client 3] s0 n s ∧
    step (tableClient (prog (oneProg (.pending 1)))) s (.th 0 .go) = some s' ∧
    (s'.stk 0, (s'.thr 0).exc, (s'.thr 0).rv) = ([.client 3], none, .nat 0) :=
  fragWit (ls1 := go 0 5) (ls2 := go 0 2) (obs := fun _ _ _ s' => (s'.stk 0, (s'.thr 0).exc, (s'.thr 0).rv)) (by decide +kernel)

/-- Main invokes a task on itself; the step that accepts it: hypotheses of `C05_accepted`. -/
example : ∃ s0 n s s', Reach (tableClient (prog (oneProg (.invoke 1 10)))) () 1 s0 ∧
    s0.stk 0 = .core (.invLook 1 10 true) :: [.client 3] ∧
    Frag (tableClient (prog (oneProg (.invoke 1 10)))) 0 [.client 3] s0 n s ∧
    step (tableClient (prog (oneProg (.invoke 1 10)))) s (.th 0 .go) = some s' ∧
    decide (s'.log = [.accepted 0 0 1 10] ++ s.log) = true :=
  fragWit (ls1 := go 0 5) (ls2 := go 0 1) (obs := fun _ _ s s' => decide (s'.log = [.accepted 0 0 1 10] ++ s.log)) (by decide +kernel)

/-- Main invokes a task on itself and processes it; the step that starts it: hypotheses of `C05_started` and `C05_entered`. -/
example : ∃ s0 n s s', Reach (tableClient (prog [.call .registerThis 2, .call (.invoke 1 10) 3, .call .process 4, .ret .unit])) () 1 s0 ∧
    s0.stk 0 = .core .procAll :: [.client 4] ∧
    Frag (tableClient (prog [.call .registerThis 2, .call (.invoke 1 10) 3, .call .process 4, .ret .unit])) 0 [.client 4] s0 n s ∧
    step (tableClient (prog [.call .registerThis 2, .call (.invoke 1 10) 3, .call .process 4, .ret .unit])) s (.th 0 .go) = some s' ∧
    (decide (s'.log = [.started 0 0 10] ++ s.log), s'.stk 0) = (true, [.client 10, .core (.ran 0 10 .toAll), .client 4]) :=
  fragWit (ls1 := go 0 9) (ls2 := go 0 0)
    (obs := fun _ _ s s' => (decide (s'.log = [.started 0 0 10] ++ s.log), s'.stk 0)) (by decide +kernel)

end
end Itc
