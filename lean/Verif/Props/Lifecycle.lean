import Verif.Props.Calls

/-!
# C14, C16, C17, C18, C19: locks, init/shutdown, leftover registrations, freed contexts
-/
namespace Itc
open Core
section
variable {τ φ δ χ : Type} {C : Client τ φ δ χ} {d : δ} {f : φ} {s s' s0 : St τ φ δ}

/-! ## C14: no lock while tasks run -/

/-- The task-queue mutexes are only taken inside single steps.  The global mutex is held by a thread across other code only
    inside the log callback that `init` or `shutdown` calls: if no such call is on its stack it does not hold it.  In particular
    a task executed by `process_one` or `dispatch`, or destroyed, anywhere else runs without it.
    Missing for the full claim: tasks executed inside such a callback (`C14_counterexample`). -/
theorem C14_no_lock_partial (hr : Reach C d f s) {t : Nat}
    (hcb : ∀ g ∈ s.stk t, g ≠ .core .initEnd ∧ ∀ v, g ≠ .core (.sdEnd v)) : s.gOwner ≠ some t := by
  intro hg
  have h := (GInv.reach hr).own t
  rw [if_pos hg] at h
  have : 0 < (s.stk t).countP Frame.isG := by omega
  obtain ⟨g, hm, hG⟩ := List.countP_pos_iff.1 this
  cases g with
  | client _ => simp [Frame.isG] at hG
  | core g =>
    cases g with
    | initEnd => exact (hcb _ hm).1 rfl
    | sdEnd v => exact (hcb _ hm).2 v rfl
    | _ => simp [Frame.isG] at hG

/-- The calls of the library that do not wait for something by their specification. -/
def Api.nonBlocking : Api τ φ → Bool
  | .wait | .waitFor _ | .sleepFor _ | .shutdown _ | .spawn _ _ | .join _ => false
  | _ => true

/-- While no thread is inside an `init`/`shutdown` log callback, no non-blocking call can get stuck at any point of its own
    code, whatever locks, queues and registrations there are. -/
theorem C14_never_stuck (hr : Reach C d f s) (hub : s.ub = false) (hterm : s.term = false) (hg : s.gOwner = none) {t : Nat}
    {a : Api τ φ} (ha : Api.nonBlocking a = true) {rest : List (Frame τ φ)} (hst : s.stk t = .core a.entry :: rest) :
    ∃ s', step C s (.th t .go) = some s' := by
  have hrun := running_of_stk (FreeOK.reach hr) (t := t) (by rw [hst]; simp)
  have hst' : (s.thr t).stack = .core a.entry :: rest := hst
  simp only [step, hub, hterm, hrun]
  simp only [Bool.or_self, Bool.false_eq_true, if_false, ne_eq, not_true_eq_false]
  split
  · exact ⟨_, rfl⟩
  · rw [hst']
    cases a <;> simp only [Api.nonBlocking, Bool.false_eq_true] at ha <;> simp only [Api.entry, stepCore, hg] <;>
      (repeat' split) <;> first | exact ⟨_, rfl⟩ | contradiction | (simp at *; done)

/-- Main queues a task to itself and calls `init` with a log callback that processes the queue; the task calls `invoke`. -/
def lockProg : List (Act Nat Nat) :=
  [.call .registerThis 2, .call (.invoke 1 6) 3, .call (.init (some 5)) 4, .ret .unit, .call .process 0, .call (.invoke 1 0) 0]

/-- A thread that owns the global mutex and needs it for an `invoke` stays where it is forever, whatever the other threads do. -/
theorem stuck_forever (hr : Reach C d f s) {t id : Nat} {k : τ} {own : Bool} {rest : List (Frame τ φ)}
    (hst : s.stk t = .core (.invLook id k own) :: rest) (hid : id ≠ 0) (hexc : (s.thr t).exc = none)
    (hg : s.gOwner = some t) : ∀ ls s', run C s ls = some s' →
      s'.stk t = .core (.invLook id k own) :: rest ∧ ∀ ch, step C s' (.th t ch) = none := by
  have hno : ∀ {s : St τ φ δ}, s.stk t = .core (.invLook id k own) :: rest → (s.thr t).exc = none → s.gOwner = some t →
      ∀ ch, step C s (.th t ch) = none := by
    intro s hst hexc hg ch
    have hst' : (s.thr t).stack = .core (.invLook id k own) :: rest := hst
    simp only [step]
    split
    · rfl
    split
    · rfl
    rw [hexc, hst']
    simp [stepCore, hid, hg]
  intro ls
  induction ls generalizing s with
  | nil =>
    intro s' h
    obtain rfl := Option.some.inj h
    exact ⟨hst, hno hst hexc hg⟩
  | cons l ls ih =>
    intro s' h
    simp only [run] at h
    split at h
    · contradiction
    · rename_i s1 hs
      have key : s1.stk t = .core (.invLook id k own) :: rest ∧ (s1.thr t).exc = none ∧ s1.gOwner = some t := by
        cases l with
        | tick m => rw [step_tick C s s1 m hs]; exact ⟨hst, hexc, hg⟩
        | th u ch =>
          by_cases hu : u = t
          · subst hu; rw [hno hst hexc hg] at hs; contradiction
          · refine ⟨?_, ?_, ?_⟩
            · rw [step_stk_other hu (FreeOK.reach hr) hs (by rw [hst]; simp), hst]
            · rcases step_exc_other (Ne.symm hu) hs with h | h
              · rw [h, hexc]
              · exact h
            · have hin := (GInv.reach hr).own u
              rw [if_neg (by rw [hg]; simpa using Ne.symm hu)] at hin
              cases step_g C s s1 u ch hs with
              | same old r h1 h2 h3 h4 => rw [h4, hg]
              | stay h1 h2 => rw [h2, hg]
              | take old g x r h1 h2 h3 h4 h5 h6 => rw [hg] at h6; contradiction
              | drop old r h1 h2 h3 =>
                rw [h1, List.countP_cons, h3] at hin
                simp at hin
      exact ih (hr.step hs) key.1 key.2.1 key.2.2 s' h

/-- The full C14 is false: a task executed from the log callback of `init` runs with the global mutex held, and a call of any
    itc function from it blocks that thread forever, whatever other threads do. -/
theorem C14_counterexample : ∃ s, Reach (tableClient (prog lockProg)) () 1 s ∧ s.gOwner = some 0 ∧
    (∃ rest, s.stk 0 = .core (.invLook 1 0 true) :: .client 0 :: .core (.ran 0 6 .toAll) :: rest) ∧
    ∀ ls s', run (tableClient (prog lockProg)) s ls = some s' →
      s'.stk 0 = s.stk 0 ∧ ∀ ch, step (tableClient (prog lockProg)) s' (.th 0 ch) = none := by
  obtain ⟨s, h1, h2⟩ := wit (l := lockProg) (ls := go 0 17) (hnd := fun _ => none)
    (fun s => (s.gOwner, (s.stk 0), (s.thr 0).exc)) (b := (some 0, [.core (.invLook 1 0 true), .client 0, .core (.ran 0 6 .toAll),
      .client 0, .core .initEnd, .client 4], none)) (by decide +kernel)
  simp only [Prod.mk.injEq] at h2
  obtain ⟨h2, h3, h4⟩ := h2
  refine ⟨s, h1, h2, ⟨_, h3⟩, ?_⟩
  have := stuck_forever h1 h3 (by simp) h4 h2
  intro ls s' hs
  rw [h3]
  exact this ls s' hs

/-- Hypotheses of `C14_no_lock_partial` and `C14_never_stuck`: a task calls `dispatch` with no callback on the stack. -/
example : ∃ s, Reach (tableClient (prog demoProg)) () 1 s ∧ (s.ub, s.term, s.gOwner, s.stk 0) =
    (false, false, none, [.core (Api.entry (.dispatch 1 12)), .client 0, .core (.ran 0 11 .toAll), .client 5]) :=
  wit (ls := go 0 20) (fun s => (s.ub, s.term, s.gOwner, s.stk 0)) (by decide +kernel)

/-! ## C16: shutdown's result -/

/-- Phases of `shutdown(T)` called at time `t0`. -/
def SdPh (t0 T : Nat) (_n : Nat) (g : Frame τ φ) (s : St τ φ δ) : Prop :=
  t0 ≤ s.clock ∧ (g = .core (.sdIn T) ∨ g = .core (.sdDec T) ∨ g = .core (.sdLog T) ∨ g = .core (.sdIds T) ∨
    (∃ l, g = .core (.sdNotify l T)) ∨ (∃ dl, t0 + T ≤ dl ∧ g = .core (.sdPark dl)) ∨
    (∃ v : Int, g = .core (.sdEnd v) ∧ (v ≠ 0 → t0 + T ≤ s.clock)))

theorem SdPh.frag (hr : Reach C d f s0) {t n T : Nat} {rest : List (Frame τ φ)}
    (hst : s0.stk t = .core (.sdIn T) :: rest) (hf : Frag C t rest s0 n s) :
    ∃ pre g, s.stk t = pre ++ g :: rest ∧ SdPh s0.clock T n g s := by
  refine Frag.ind (SdPh s0.clock T) hr ?_ ?_ ?_ hf
  · intro g hg
    rw [hst] at hg
    obtain ⟨rfl, -⟩ := List.cons.inj hg
    exact ⟨Nat.le_refl _, .inl rfl⟩
  · intro s1 n f1 ch s2 pre f2 hr1 h1 hφ hs h2
    have hcs := step_clock hs
    have hck := Nat.le_trans hφ.1 hcs
    have stay : ∀ {x p}, s2.stk t = p ++ x :: rest → (∀ m, SdPh s0.clock T m x s2) →
        ((∃ c k, s2.log = .started t c k :: s1.log) → SdPh s0.clock T (n + 1) f2 s2) ∧
        ((¬ ∃ c k, s2.log = .started t c k :: s1.log) → SdPh s0.clock T n f2 s2) := by
      intro x p hx hp
      obtain ⟨-, rfl⟩ := top_uniq (h2.symm.trans hx)
      exact ⟨fun _ => hp _, fun _ => hp _⟩
    have gone : s2.stk t = rest → ∀ {P : Prop}, P := fun h => absurd (h.symm.trans h2) top_ne
    have same : s2.stk t = s1.stk t → s1.clock = s2.clock → ((∃ c k, s2.log = .started t c k :: s1.log) → SdPh s0.clock T (n + 1) f2 s2) ∧
        ((¬ ∃ c k, s2.log = .started t c k :: s1.log) → SdPh s0.clock T n f2 s2) := fun h hc =>
      stay (p := []) (x := f1) (h.trans h1) (fun _ => ⟨hck, by rw [← hc]; exact hφ.2⟩)
    obtain ⟨hc0, rfl | rfl | rfl | rfl | ⟨l, rfl⟩ | ⟨dl, hdl, rfl⟩ | ⟨v, rfl, hv⟩⟩ := hφ
    · rcases step_core hs h1 with ⟨-, h⟩ | ⟨e, -, rfl⟩
      · simp only [stepCore] at h
        split at h
        · obtain rfl := Option.some.inj h
          exact gone (by simp [St.stk, St.ret])
        · obtain rfl := Option.some.inj h
          exact stay (x := .core (.sdDec T)) (p := []) (by simp [St.stk, St.setStk]) (fun _ => ⟨hck, .inr (.inl rfl)⟩)
      · exact same rfl rfl
    · rcases step_core hs h1 with ⟨-, h⟩ | ⟨e, -, rfl⟩
      · simp only [stepCore] at h
        split at h
        · obtain rfl := Option.some.inj h
          exact gone (by simp [St.stk, St.ret])
        · obtain rfl := Option.some.inj h
          exact stay (x := .core (.sdLog T)) (p := [.core .unreg]) (by simp [St.stk, St.setStk])
            (fun _ => ⟨hck, .inr (.inr (.inl rfl))⟩)
      · exact same rfl rfl
    · rcases step_core hs h1 with ⟨-, h⟩ | ⟨e, -, rfl⟩
      · simp only [stepCore] at h
        split at h
        · obtain rfl := Option.some.inj h
          exact stay (x := .core (.sdIds T)) (p := []) (by simp [St.stk, St.setStk])
            (fun _ => ⟨hck, .inr (.inr (.inr (.inl rfl)))⟩)
        · rename_i g hg
          obtain rfl := Option.some.inj h
          exact stay (x := .core (.sdIds T)) (p := [.client g]) (by simp [St.stk, St.setStk])
            (fun _ => ⟨hck, .inr (.inr (.inr (.inl rfl)))⟩)
      · exact same rfl rfl
    · rcases step_core hs h1 with ⟨-, h⟩ | ⟨e, -, rfl⟩
      · simp only [stepCore] at h
        split at h
        · contradiction
        · obtain rfl := Option.some.inj h
          exact stay (x := .core (.sdNotify (s1.contexts.map (·.1)) T)) (p := []) (by simp [St.stk, St.setStk])
            (fun _ => ⟨hck, .inr (.inr (.inr (.inr (.inl ⟨_, rfl⟩))))⟩)
      · exact gone (by simp [St.stk, stepExc, St.setStk])
    · rcases step_core hs h1 with ⟨-, h⟩ | ⟨e, -, rfl⟩
      · cases l with
        | cons i l =>
          simp only [stepCore] at h
          obtain rfl := Option.some.inj h
          exact stay (x := .core (.sdNotify l T)) (p := [.core (.exitLook i)]) (by simp [St.stk, St.setStk])
            (fun _ => ⟨hck, .inr (.inr (.inr (.inr (.inl ⟨_, rfl⟩))))⟩)
        | nil =>
          simp only [stepCore] at h
          split at h
          · contradiction
          · split at h
            · split at h
              · obtain rfl := Option.some.inj h
                exact gone (by simp [St.stk, St.ret])
              · rename_i g _
                obtain rfl := Option.some.inj h
                exact stay (x := .core (.sdEnd 0)) (p := [.client g]) (by simp [St.stk, St.setStk])
                  (fun _ => ⟨hck, .inr (.inr (.inr (.inr (.inr (.inr ⟨0, rfl, by simp⟩)))))⟩)
            · obtain rfl := Option.some.inj h
              exact stay (x := .core (.sdPark (s1.clock + T))) (p := []) (by simp [St.stk, St.setStk])
                (fun _ => ⟨hck, .inr (.inr (.inr (.inr (.inr (.inl ⟨_, by omega, rfl⟩)))))⟩)
      · exact same rfl rfl
    · rcases step_core hs h1 with ⟨-, h⟩ | ⟨e, -, rfl⟩
      · have fin : ∀ v : Int, (v ≠ 0 → s0.clock + T ≤ s1.clock) → (match s1.logCb with
            | none => some (s1.ret t rest .shutdown (.int v))
            | some f => some (({ s1 with gOwner := some t } : St τ φ δ).setStk t (.client f :: .core (.sdEnd v) :: rest))) = some s2 →
            ((∃ c k, s2.log = .started t c k :: s1.log) → SdPh s0.clock T (n + 1) f2 s2) ∧
            ((¬ ∃ c k, s2.log = .started t c k :: s1.log) → SdPh s0.clock T n f2 s2) := by
          intro v hv h
          split at h
          · obtain rfl := Option.some.inj h
            exact gone (by simp [St.stk, St.ret])
          · rename_i g _
            obtain rfl := Option.some.inj h
            exact stay (x := .core (.sdEnd v)) (p := [.client g]) (by simp [St.stk, St.setStk])
              (fun _ => ⟨hck, .inr (.inr (.inr (.inr (.inr (.inr ⟨v, rfl, hv⟩)))))⟩)
        simp only [stepCore] at h
        split at h
        · contradiction
        · split at h
          · split at h
            · split at h
              · exact fin 0 (by simp) h
              · obtain rfl := Option.some.inj h
                exact same rfl rfl
            · contradiction
          · split at h
            · exact fin 0 (by simp) h
            · contradiction
          · split at h
            · exact fin _ (fun _ => by omega) h
            · contradiction
          · contradiction
      · exact same rfl rfl
    · rcases step_core hs h1 with ⟨-, h⟩ | ⟨e, -, rfl⟩
      · simp only [stepCore] at h
        obtain rfl := Option.some.inj h
        exact gone (by simp [St.stk, St.ret])
      · exact gone (by simp [St.stk, stepExc])
  · intro s1 n f1 l s2 hr1 hφ hs _ _
    have hcs := step_clock hs
    refine ⟨Nat.le_trans hφ.1 hcs, ?_⟩
    obtain ⟨hc0, h | h | h | h | h | h | ⟨v, h, hv⟩⟩ := hφ
    · exact .inl h
    · exact .inr (.inl h)
    · exact .inr (.inr (.inl h))
    · exact .inr (.inr (.inr (.inl h)))
    · exact .inr (.inr (.inr (.inr (.inl h))))
    · exact .inr (.inr (.inr (.inr (.inr (.inl h)))))
    · exact .inr (.inr (.inr (.inr (.inr (.inr ⟨v, h, fun h0 => Nat.le_trans (hv h0) hcs⟩)))))

/-- A normal return of `shutdown(T)` is: `-1`, and then in its last step no registration and no context was touched and either
    the library was not initialised or other `init` calls are outstanding; or the number of threads registered at that moment,
    which is not `0` only after the timeout has elapsed. -/
theorem C16_shutdown (hr : Reach C d f s0) {t n T : Nat} {rest : List (Frame τ φ)}
    (hst : s0.stk t = .core (.sdIn T) :: rest) (hf : Frag C t rest s0 n s) {l : Lbl χ} (hs : step C s l = some s')
    (hend : s'.stk t = rest) (hexc : (s'.thr t).exc = none) :
    ((s'.thr t).rv = .int (-1) ∧ (s.stk t = .core (.sdIn T) :: rest ∨ s.stk t = .core (.sdDec T) :: rest) ∧
      s'.contexts = s.contexts ∧ s'.ctxs = s.ctxs ∧ (s.initCount = 0 ∨ s'.initCount ≠ 0)) ∨
    ((s'.thr t).rv = .int (liveIds s.log).length ∧ ((liveIds s.log).length ≠ 0 → s0.clock + T ≤ s.clock)) := by
  have hrs := hf.reach hr
  obtain ⟨pre, g, hg, hph⟩ := SdPh.frag hr hst hf
  obtain ⟨rfl, ch, rfl⟩ := Frag.last (n := n) hrs hg hs hend
  simp only [List.nil_append] at hg
  have hlive : (liveIds s.log).length = s.contexts.length := by rw [(LInv.reach hrs).live]; simp
  rw [hlive]
  have stay : s'.stk t = s.stk t → ∀ {P : Prop}, P := fun h => by
    rw [hend, hg] at h
    exact absurd h (by simp)
  have more : ∀ {x p}, s'.stk t = p ++ x :: rest → ∀ {P : Prop}, P := fun h => absurd (hend.symm.trans h) top_ne
  obtain ⟨hc0, rfl | rfl | rfl | rfl | ⟨l, rfl⟩ | ⟨dl, hdl, rfl⟩ | ⟨v, rfl, hv⟩⟩ := hph
  · rcases step_core hs hg with ⟨-, h⟩ | ⟨e, -, rfl⟩
    · simp only [stepCore] at h
      split at h
      · rename_i h0
        obtain rfl := Option.some.inj h
        exact .inl ⟨by simp [St.ret], .inl hg, rfl, rfl, .inl h0⟩
      · obtain rfl := Option.some.inj h
        exact more (x := .core (.sdDec T)) (p := []) (by simp [St.stk, St.setStk])
    · exact stay rfl
  · rcases step_core hs hg with ⟨-, h⟩ | ⟨e, -, rfl⟩
    · simp only [stepCore] at h
      split at h
      · rename_i h0
        obtain rfl := Option.some.inj h
        exact .inl ⟨by simp [St.ret], .inr hg, rfl, rfl, .inr h0⟩
      · obtain rfl := Option.some.inj h
        exact more (x := .core (.sdLog T)) (p := [.core .unreg]) (by simp [St.stk, St.setStk])
    · exact stay rfl
  · rcases step_core hs hg with ⟨-, h⟩ | ⟨e, -, rfl⟩
    · simp only [stepCore] at h
      split at h
      · obtain rfl := Option.some.inj h
        exact more (x := .core (.sdIds T)) (p := []) (by simp [St.stk, St.setStk])
      · rename_i g _
        obtain rfl := Option.some.inj h
        exact more (x := .core (.sdIds T)) (p := [.client g]) (by simp [St.stk, St.setStk])
    · exact stay rfl
  · rcases step_core hs hg with ⟨-, h⟩ | ⟨e, he, rfl⟩
    · simp only [stepCore] at h
      split at h
      · contradiction
      · obtain rfl := Option.some.inj h
        exact more (x := .core (.sdNotify (s.contexts.map (·.1)) T)) (p := []) (by simp [St.stk, St.setStk])
    · simp [stepExc, St.setStk, he] at hexc
  · rcases step_core hs hg with ⟨-, h⟩ | ⟨e, -, rfl⟩
    · cases l with
      | cons i l =>
        simp only [stepCore] at h
        obtain rfl := Option.some.inj h
        exact more (x := .core (.sdNotify l T)) (p := [.core (.exitLook i)]) (by simp [St.stk, St.setStk])
      | nil =>
        simp only [stepCore] at h
        split at h
        · contradiction
        · split at h
          · rename_i he
            simp only [List.isEmpty_iff] at he
            split at h
            · obtain rfl := Option.some.inj h
              right
              rw [he]
              simp [St.ret]
            · rename_i g _
              obtain rfl := Option.some.inj h
              exact more (x := .core (.sdEnd 0)) (p := [.client g]) (by simp [St.stk, St.setStk])
          · obtain rfl := Option.some.inj h
            exact more (x := .core (.sdPark (s.clock + T))) (p := []) (by simp [St.stk, St.setStk])
    · exact stay rfl
  · rcases step_core hs hg with ⟨-, h⟩ | ⟨e, -, rfl⟩
    · have fin : ∀ v : Int, v = s.contexts.length → (v ≠ 0 → s0.clock + T ≤ s.clock) → (match s.logCb with
          | none => some (s.ret t rest .shutdown (.int v))
          | some f => some (({ s with gOwner := some t } : St τ φ δ).setStk t (.client f :: .core (.sdEnd v) :: rest))) = some s' →
          (s'.thr t).rv = .int s.contexts.length ∧ (s.contexts.length ≠ 0 → s0.clock + T ≤ s.clock) := by
        intro v hv hv' h
        subst hv
        split at h
        · obtain rfl := Option.some.inj h
          exact ⟨by simp [St.ret], fun h0 => hv' (by omega)⟩
        · rename_i g _
          obtain rfl := Option.some.inj h
          exact more (x := .core (.sdEnd s.contexts.length)) (p := [.client g]) (by simp [St.stk, St.setStk])
      right
      simp only [stepCore] at h
      split at h
      · contradiction
      · split at h
        · split at h
          · split at h
            · rename_i he
              simp only [List.isEmpty_iff] at he
              exact fin 0 (by rw [he]; rfl) (by simp) h
            · obtain rfl := Option.some.inj h
              exact stay rfl
          · contradiction
        · split at h
          · rename_i he
            simp only [List.isEmpty_iff] at he
            exact fin 0 (by rw [he]; rfl) (by simp) h
          · contradiction
        · split at h
          · exact fin _ rfl (fun _ => by omega) h
          · contradiction
        · contradiction
    · exact stay rfl
  · rcases step_core hs hg with ⟨-, h⟩ | ⟨e, he, rfl⟩
    · simp only [stepCore] at h
      obtain rfl := Option.some.inj h
      have := (GInv.reach hrs).val t v (by rw [hg]; simp)
      subst this
      exact .inr ⟨by simp [St.ret], fun h0 => hv (by omega)⟩
    · simp [stepExc, he] at hexc

/-- Before its last step a `shutdown` that returns `-1` has not touched anything either: its first step only moves on to the
    decrement. -/
theorem C16_refused_silent {t T : Nat} {rest : List (Frame τ φ)} (hst : s.stk t = .core (.sdIn T) :: rest) {ch : Ch χ}
    (hs : step C s (.th t ch) = some s') : s'.contexts = s.contexts ∧ s'.ctxs = s.ctxs ∧ s'.initCount = s.initCount := by
  rcases step_core hs hst with ⟨-, h⟩ | ⟨e, -, rfl⟩
  · simp only [stepCore] at h
    split at h <;> obtain rfl := Option.some.inj h <;> exact ⟨rfl, rfl, rfl⟩
  · exact ⟨rfl, rfl, rfl⟩

/-- Main initialises, another thread registers, main shuts down. -/
def shutProg : List (Act Nat Nat) :=
  [.call (.init none) 2, .call (.spawn 1 5) 3, .call (.shutdown 100) 4, .ret .unit, .call .registerThis 6, .ret .unit]

/-- `shutdown` times out with one thread still registered. -/
example : ∃ s0 n s s', Reach (tableClient (prog shutProg)) () 1 s0 ∧ s0.stk 0 = .core (.sdIn 100) :: [.client 4] ∧
    Frag (tableClient (prog shutProg)) 0 [.client 4] s0 n s ∧
    step (tableClient (prog shutProg)) s (.th 0 .timeout) = some s' ∧
    (s'.stk 0, (s'.thr 0).exc, (s'.thr 0).rv) = ([.client 4], none, .int 1) :=
  fragWit (ls1 := go 0 9 ++ go 1 4) (ls2 := go 0 13 ++ [.tick 100]) (obs := fun _ _ _ s' => (s'.stk 0, (s'.thr 0).exc, (s'.thr 0).rv))
    (by decide +kernel)

end
end Itc
