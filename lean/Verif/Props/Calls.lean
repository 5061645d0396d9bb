import Verif.Props.Wait
import Verif.Core.FragDemo

/-!
# C12, C13, C20, C21, C52: what a call of process / wait / wait_for / sleep_for / process_for does

`Frag C t rest s0 n s`: the call that thread `t` makes in `s0` (its program point is directly above `rest` on the stack) is still
in progress in `s` and has itself started `n` queued tasks.  A step from `s` after which the stack is `rest` and no exception
propagates is the normal return of the call.
-/
namespace Itc
open Core
section
variable {τ φ δ χ : Type} {C : Client τ φ δ χ} {d : δ} {f : φ} {s s' s0 : St τ φ δ}

/-- `this_thread::wait()` and `this_thread::wait_for(D)` (nanoseconds); `y` is the time `wait_for` is specified to wait: `D`
    rounded down to whole microseconds, nothing if `D ≤ 0`. -/
inductive WaitCall : CF τ φ → Option Nat → Prop
  | wait : WaitCall (.waitIn none) none
  | waitFor (D : Int) : WaitCall (.waitForIn D) (some (D.toNat / 1000 * 1000))

/-- Phases of a `wait`/`wait_for` activation begun at time `t0`. -/
def WaitPh (t0 : Nat) (y : Option Nat) (n : Nat) (g : Frame τ φ) (s : St τ φ δ) : Prop :=
  t0 ≤ s.clock ∧
  ((n = 0 ∧ (∃ D : Int, g = .core (.waitForIn D) ∧ y = some (D.toNat / 1000 * 1000))) ∨
   (n = 0 ∧ g = .core (.waitIn y)) ∨
   (n = 0 ∧ ∃ c dl, g = .core (.parked c dl) ∧ ∀ x, dl = some x → ∃ w, y = some w ∧ t0 + w ≤ x) ∨
   (n = 1 ∧ ∃ c k, g = .core (.ran c k (.toWait false)) ∨ g = .core (.freed c k (.toWait false))) ∨
   (n = 1 ∧ ∃ e, g = .core (.rethrow e)))

theorem pop_wakeup {x : Ctx τ} (h : x.pend = []) : ({ x with wakeup := false } : Ctx τ).pop = none :=
  pop_none.2 h

theorem WaitPh.frag (hr : Reach C d f s0) {g0 : CF τ φ} {y : Option Nat} (hc : WaitCall g0 y) {t n : Nat}
    {rest : List (Frame τ φ)} (hst : s0.stk t = .core g0 :: rest) (hf : Frag C t rest s0 n s) :
    ∃ pre g, s.stk t = pre ++ g :: rest ∧ WaitPh s0.clock y n g s := by
  refine Frag.ind (WaitPh s0.clock y) hr ?_ ?_ ?_ hf
  · intro g hg
    rw [hst] at hg
    obtain ⟨rfl, -⟩ := List.cons.inj hg
    refine ⟨Nat.le_refl _, ?_⟩
    cases hc with
    | wait => exact .inr (.inl ⟨rfl, rfl⟩)
    | waitFor D => exact .inl ⟨rfl, D, rfl, rfl⟩
  · intro s1 n f1 ch s2 pre f2 hr1 h1 hφ hs h2
    have hck := Nat.le_trans hφ.1 (step_clock hs)
    obtain ⟨-, hφ⟩ := hφ
    -- no event: the frame moved to `x` on the same level
    have stay : ∀ {x p}, s2.stk t = p ++ x :: rest → s2.log = s1.log → WaitPh s0.clock y n x s2 →
        ((∃ c k, s2.log = .started t c k :: s1.log) → WaitPh s0.clock y (n + 1) f2 s2) ∧
        ((¬ ∃ c k, s2.log = .started t c k :: s1.log) → WaitPh s0.clock y n f2 s2) := by
      intro x p hx hlog hp
      obtain ⟨-, rfl⟩ := top_uniq (h2.symm.trans hx)
      exact ⟨fun ⟨c, k, h⟩ => absurd (hlog.symm.trans h) log_ne, fun _ => hp⟩
    have gone : s2.stk t = rest → ∀ {P : Prop}, P := fun h => absurd (h.symm.trans h2) top_ne
    rcases hφ with ⟨rfl, D, rfl, hy⟩ | ⟨rfl, rfl⟩ | ⟨rfl, c, dl, rfl, hdl⟩ | ⟨rfl, c, k, hg⟩ | ⟨rfl, e, rfl⟩
    · rcases step_core hs h1 with ⟨-, h⟩ | ⟨e, -, rfl⟩
      · simp only [stepCore] at h
        split at h
        · obtain rfl := Option.some.inj h
          exact gone (by simp [St.stk, St.ret])
        · obtain rfl := Option.some.inj h
          refine stay (x := .core (.waitIn (some (D.toNat / 1000 * 1000)))) (p := []) (by simp [St.stk, St.setStk]) rfl ?_
          exact ⟨hck, .inr (.inl ⟨rfl, by rw [hy]⟩)⟩
      · exact stay (x := .core (.waitForIn D)) (p := []) h1 rfl ⟨hck, .inl ⟨rfl, D, rfl, hy⟩⟩
    · rcases step_core hs h1 with ⟨-, h⟩ | ⟨e, -, rfl⟩
      · simp only [stepCore] at h
        split at h
        · obtain rfl := Option.some.inj h
          exact gone (by simp [St.stk, St.ret])
        · rename_i c hl
          split at h
          · obtain rfl := Option.some.inj h
            exact stay (x := .core (.waitIn y)) (p := []) h1 rfl ⟨hck, .inr (.inl ⟨rfl, rfl⟩)⟩
          · split at h
            · rename_i k x hp
              obtain rfl := Option.some.inj h
              have hx : (St.startTask C s1 t c k x (.toWait false) rest).stk t =
                  [.client (C.run k)] ++ .core (.ran c k (.toWait false)) :: rest := by simp [St.stk, St.startTask, St.setStk]
              obtain ⟨-, rfl⟩ := top_uniq (h2.symm.trans hx)
              refine ⟨fun _ => ⟨hck, .inr (.inr (.inr (.inl ⟨rfl, c, k, .inl rfl⟩)))⟩, fun hno => absurd ⟨c, k, rfl⟩ hno⟩
            · split at h
              · obtain rfl := Option.some.inj h
                exact gone (by simp [St.stk, St.ret])
              · obtain rfl := Option.some.inj h
                refine stay (x := .core (.parked c (y.map (s1.clock + ·)))) (p := []) (by simp [St.stk, St.setStk]) rfl ?_
                refine ⟨hck, .inr (.inr (.inl ⟨rfl, c, _, rfl, ?_⟩))⟩
                intro x hx
                obtain ⟨w, rfl, rfl⟩ := Option.map_eq_some_iff.1 hx
                exact ⟨w, rfl, by have := Nat.le_trans (Nat.le_refl _) hck; simp [St.setCtx, St.setStk] at hck; omega⟩
      · exact stay (x := .core (.waitIn y)) (p := []) h1 rfl ⟨hck, .inr (.inl ⟨rfl, rfl⟩)⟩
    · have hexc : (s1.thr t).exc = none := by
        by_contra hne
        have := EInv.reach hr1 t hne (.core (.parked c dl)) (by rw [h1]; simp)
        simp [Frame.leaf] at this
      have hq := QInv.reach hr1
      have hwk := hq.wake t c dl rest h1
      rcases step_core hs h1 with ⟨-, h⟩ | ⟨e, he, -⟩
      · have park : s2.stk t = s1.stk t → s2.log = s1.log →
            ((∃ c k, s2.log = .started t c k :: s1.log) → WaitPh s0.clock y (0 + 1) f2 s2) ∧
            ((¬ ∃ c k, s2.log = .started t c k :: s1.log) → WaitPh s0.clock y 0 f2 s2) := fun ha hb =>
          stay (x := .core (.parked c dl)) (p := []) (ha.trans h1) hb ⟨hck, .inr (.inr (.inl ⟨rfl, c, dl, rfl, hdl⟩))⟩
        have proceed : ∀ b, (b = true → (s1.ctxs c).pend = []) →
            (match ({ s1.ctxs c with wakeup := false } : Ctx τ).pop with
              | some (k, x) => some (s1.startTask C t c k x (.toWait b) rest)
              | none => some ((s1.setCtx c { s1.ctxs c with wakeup := false }).ret t rest .wait (.cv b))) = some s2 →
            ((∃ c k, s2.log = .started t c k :: s1.log) → WaitPh s0.clock y (0 + 1) f2 s2) ∧
            ((¬ ∃ c k, s2.log = .started t c k :: s1.log) → WaitPh s0.clock y 0 f2 s2) := by
          intro b hb h
          split at h
          · rename_i k x hp
            cases b with
            | true => rw [pop_wakeup (hb rfl)] at hp; simp at hp
            | false =>
              obtain rfl := Option.some.inj h
              have hx : (St.startTask C s1 t c k x (.toWait false) rest).stk t =
                  [.client (C.run k)] ++ .core (.ran c k (.toWait false)) :: rest := by simp [St.stk, St.startTask, St.setStk]
              obtain ⟨-, rfl⟩ := top_uniq (h2.symm.trans hx)
              exact ⟨fun _ => ⟨hck, .inr (.inr (.inr (.inl ⟨rfl, c, k, .inl rfl⟩)))⟩, fun hno => absurd ⟨c, k, rfl⟩ hno⟩
          · obtain rfl := Option.some.inj h
            exact gone (by simp [St.stk, St.ret])
        simp only [stepCore] at h
        split at h
        · obtain rfl := Option.some.inj h
          exact park rfl rfl
        · split at h
          · split at h
            · split at h
              · exact proceed false (by simp) h
              · obtain rfl := Option.some.inj h
                exact park rfl rfl
            · contradiction
          · split at h
            · exact proceed false (by simp) h
            · contradiction
          · split at h
            · contradiction
            · split at h
              · refine proceed _ (fun hb => ?_) h
                by_contra hne
                have := hwk.1 (.inl hne)
                simp [this] at hb
              · contradiction
          · contradiction
      · rw [hexc] at he; simp at he
    · rcases hg with rfl | rfl
      · rcases step_core hs h1 with ⟨-, h⟩ | ⟨e, -, rfl⟩
        · simp only [stepCore] at h
          obtain rfl := Option.some.inj h
          exact stay (x := .core (.freed c k (.toWait false))) (p := [.client (C.destroy k)]) (by simp [St.stk, St.setStk]) rfl
            ⟨hck, .inr (.inr (.inr (.inl ⟨rfl, c, k, .inr rfl⟩)))⟩
        · have hx : (stepExc C s1 t e (.core (.ran c k (.toWait false)) :: rest)).stk t =
              [.client (C.destroy k)] ++ .core (.rethrow e) :: rest := by simp [St.stk, stepExc]
          obtain ⟨-, rfl⟩ := top_uniq (h2.symm.trans hx)
          refine ⟨fun ⟨c', k', h⟩ => ?_, fun _ => ⟨hck, .inr (.inr (.inr (.inr ⟨rfl, e, rfl⟩)))⟩⟩
          have := (List.cons.inj h).1
          simp at this
      · rcases step_core hs h1 with ⟨-, h⟩ | ⟨e, -, rfl⟩
        · simp only [stepCore] at h
          split at h
          · obtain rfl := Option.some.inj h
            exact stay (x := .core (.freed c k (.toWait false))) (p := []) h1 rfl
              ⟨hck, .inr (.inr (.inr (.inl ⟨rfl, c, k, .inr rfl⟩)))⟩
          · obtain rfl := Option.some.inj h
            exact gone (by simp [St.stk, St.ret])
        · exact stay (x := .core (.freed c k (.toWait false))) (p := []) h1 rfl
              ⟨hck, .inr (.inr (.inr (.inl ⟨rfl, c, k, .inr rfl⟩)))⟩
    · rcases step_core hs h1 with ⟨-, h⟩ | ⟨e', -, rfl⟩
      · simp only [stepCore] at h
        obtain rfl := Option.some.inj h
        exact gone (by simp [St.stk])
      · exact stay (x := .core (.rethrow e)) (p := []) h1 rfl ⟨hck, .inr (.inr (.inr (.inr ⟨rfl, e, rfl⟩)))⟩
  · intro s1 n f1 l s2 hr1 hφ hs _ _
    refine ⟨Nat.le_trans hφ.1 (step_clock hs), ?_⟩
    rcases hφ.2 with h | h | h | h | h
    · exact .inl h
    · exact .inr (.inl h)
    · exact .inr (.inr (.inl h))
    · exact .inr (.inr (.inr (.inl h)))
    · exact .inr (.inr (.inr (.inr h)))

/-! ## C13 -/

/-- At its own level, `wait`/`wait_for` starts at most one task. -/
theorem C13_at_most_one (hr : Reach C d f s0) {g0 : CF τ φ} {y : Option Nat} (hc : WaitCall g0 y) {t n : Nat}
    {rest : List (Frame τ φ)} (hst : s0.stk t = .core g0 :: rest) (hf : Frag C t rest s0 n s) : n ≤ 1 := by
  obtain ⟨-, g, -, -, h⟩ := WaitPh.frag hr hc hst hf
  rcases h with h | h | h | h | h <;> omega

/-- The last step of a normal return: one task was run; or the thread is not registered; or it was notified for exit; or
    (`wait_for`) the time is up, and then `b` (returned `cv_status::timeout`) is only true if nothing is queued and no exit
    notification was made. -/
theorem wait_return (hr : Reach C d f s0) {g0 : CF τ φ} {y : Option Nat} (hc : WaitCall g0 y) {t n : Nat}
    {rest : List (Frame τ φ)} (hst : s0.stk t = .core g0 :: rest) (hf : Frag C t rest s0 n s) {l : Lbl χ}
    (hs : step C s l = some s') (hend : s'.stk t = rest) (hexc : (s'.thr t).exc = none) :
    (n = 1 ∧ (s'.thr t).rv = .cv false) ∨ (s.loc t = none ∧ (s'.thr t).rv = .cv false) ∨
    (∃ c, s.loc t = some c ∧ Ev.exitSet c ∈ s.log ∧ (s'.thr t).rv = .cv false) ∨
    (∃ w, y = some w ∧ s0.clock + w ≤ s.clock ∧ ((s'.thr t).rv = .cv false ∨ (s'.thr t).rv = .cv true ∧
      ∃ c, s.loc t = some c ∧ stas c s.log = accs c s.log ∧ Ev.exitSet c ∉ s.log)) := by
  have hrs := hf.reach hr
  obtain ⟨pre, g, hg, hck, hph⟩ := WaitPh.frag hr hc hst hf
  obtain ⟨rfl, ch, rfl⟩ := Frag.last (n := n) hrs hg hs hend
  simp only [List.nil_append] at hg
  have stay : s'.stk t = s.stk t → ∀ {P : Prop}, P := fun h => by
    rw [hend, hg] at h
    exact absurd h (by simp)
  rcases hph with ⟨rfl, D, rfl, hy⟩ | ⟨rfl, rfl⟩ | ⟨rfl, c, dl, rfl, hdl⟩ | ⟨rfl, c, k, hgg⟩ | ⟨rfl, e, rfl⟩
  · rcases step_core hs hg with ⟨-, h⟩ | ⟨e, -, rfl⟩
    · simp only [stepCore] at h
      split at h
      · rename_i hD
        obtain rfl := Option.some.inj h
        refine .inr (.inr (.inr ⟨_, hy, ?_, .inl (by simp [St.ret])⟩))
        have : D.toNat = 0 := by omega
        simpa [this] using hck
      · obtain rfl := Option.some.inj h
        simp [St.stk, St.setStk] at hend
    · exact stay rfl
  · rcases step_core hs hg with ⟨-, h⟩ | ⟨e, -, rfl⟩
    · simp only [stepCore] at h
      split at h
      · rename_i hl
        obtain rfl := Option.some.inj h
        exact .inr (.inl ⟨hl, by simp [St.ret]⟩)
      · rename_i c hl
        split at h
        · obtain rfl := Option.some.inj h
          exact stay rfl
        · split at h
          · obtain rfl := Option.some.inj h
            have := congrArg List.length hend
            simp [St.stk, St.startTask, St.setStk] at this
            omega
          · split at h
            · rename_i hx
              obtain rfl := Option.some.inj h
              exact .inr (.inr (.inl ⟨c, hl, ((QInv.reach hrs).exit c).1 hx, by simp [St.ret]⟩))
            · obtain rfl := Option.some.inj h
              have := congrArg List.length hend
              simp [St.stk, St.setStk] at this
    · exact stay rfl
  · have hexc' : (s.thr t).exc = none := by
      by_contra hne
      have := EInv.reach hrs t hne (.core (.parked c dl)) (by rw [hg]; simp)
      simp [Frame.leaf] at this
    have hq := QInv.reach hrs
    have hwk := hq.wake t c dl rest hg
    have hpi := PInv.reach hrs t c dl rest hg
    have hl := (WF.reach hrs).prk t c dl rest hg
    rcases step_core hs hg with ⟨-, h⟩ | ⟨e, he, -⟩
    · have proceed : ∀ b, (match ({ s.ctxs c with wakeup := false } : Ctx τ).pop with
              | some (k, x) => some (s.startTask C t c k x (.toWait b) rest)
              | none => some ((s.setCtx c { s.ctxs c with wakeup := false }).ret t rest .wait (.cv b))) = some s' →
            (s.ctxs c).pend = [] ∧ (s'.thr t).rv = .cv b := by
        intro b h
        split at h
        · obtain rfl := Option.some.inj h
          have := congrArg List.length hend
          simp [St.stk, St.startTask, St.setStk] at this
          omega
        · rename_i hp
          obtain rfl := Option.some.inj h
          exact ⟨pop_none (x := { s.ctxs c with wakeup := false }) |>.1 hp, by simp [St.ret]⟩
      have woken : (s.ctxs c).wakeup = true → (s.ctxs c).pend = [] → Ev.exitSet c ∈ s.log := by
        intro h1 h2
        rcases hpi h1 with h3 | h3
        · exact absurd h2 h3
        · exact (hq.exit c).1 h3
      simp only [stepCore] at h
      split at h
      · obtain rfl := Option.some.inj h
        exact stay rfl
      · rename_i hal
        have hal : (s.ctxs c).life = .alive := by simpa using hal
        split at h
        · split at h
          · split at h
            · rename_i hw
              have := proceed false h
              exact .inr (.inr (.inl ⟨c, hl, woken hw this.1, this.2⟩))
            · obtain rfl := Option.some.inj h
              exact stay rfl
          · contradiction
        · split at h
          · rename_i hw
            have := proceed false h
            exact .inr (.inr (.inl ⟨c, hl, woken hw this.1, this.2⟩))
          · contradiction
        · split at h
          · contradiction
          · split at h
            · rename_i x hx
              have h1 := proceed _ h
              obtain ⟨w, rfl, hw⟩ := hdl x rfl
              refine .inr (.inr (.inr ⟨w, rfl, by omega, ?_⟩))
              cases hwu : (s.ctxs c).wakeup with
              | true => rw [hwu] at h1; exact .inl h1.2
              | false =>
                rw [hwu] at h1
                refine .inr ⟨h1.2, c, hl, ?_, ?_⟩
                · have := hq.cons c
                  rw [hq.alive c hal, h1.1] at this
                  simpa using this.symm
                · intro hex
                  have := hwk.1 (.inr ((hq.exit c).2 hex))
                  simp [hwu] at this
            · contradiction
        · contradiction
    · rw [hexc'] at he; simp at he
  · rcases hgg with rfl | rfl
    · rcases step_core hs hg with ⟨-, h⟩ | ⟨e, -, rfl⟩
      · simp only [stepCore] at h
        obtain rfl := Option.some.inj h
        have := congrArg List.length hend
        simp [St.stk, St.setStk] at this
        omega
      · have := congrArg List.length hend
        simp [St.stk, stepExc] at this
        omega
    · rcases step_core hs hg with ⟨-, h⟩ | ⟨e, -, rfl⟩
      · simp only [stepCore] at h
        split at h
        · obtain rfl := Option.some.inj h
          exact stay rfl
        · obtain rfl := Option.some.inj h
          exact .inl ⟨rfl, by simp [St.ret]⟩
      · exact stay rfl
  · rcases step_core hs hg with ⟨-, h⟩ | ⟨e', -, rfl⟩
    · simp only [stepCore] at h
      obtain rfl := Option.some.inj h
      simp at hexc
    · exact stay rfl

/-- A normal return of `wait`/`wait_for` has a reason: it ran exactly one task at its own level, or the thread is not
    registered, or it was notified for exit, or (`wait_for`) the time is up. -/
theorem C13_reason (hr : Reach C d f s0) {g0 : CF τ φ} {y : Option Nat} (hc : WaitCall g0 y) {t n : Nat}
    {rest : List (Frame τ φ)} (hst : s0.stk t = .core g0 :: rest) (hf : Frag C t rest s0 n s) {l : Lbl χ}
    (hs : step C s l = some s') (hend : s'.stk t = rest) (hexc : (s'.thr t).exc = none) :
    n = 1 ∨ s.loc t = none ∨ (∃ c, s.loc t = some c ∧ Ev.exitSet c ∈ s.log) ∨
    (∃ w, y = some w ∧ s0.clock + w ≤ s.clock) := by
  rcases wait_return hr hc hst hf hs hend hexc with h | h | ⟨c, h1, h2, -⟩ | ⟨w, h1, h2, -⟩
  · exact .inl h.1
  · exact .inr (.inl h.1)
  · exact .inr (.inr (.inl ⟨c, h1, h2⟩))
  · exact .inr (.inr (.inr ⟨w, h1, h2⟩))

/-! ## C21 -/

/-- `wait_for(D)` returns `cv_status::timeout` only if `D` rounded down to whole microseconds has elapsed since the call,
    no task is queued and no exit notification was made; `wait()` never does. -/
theorem C21_timeout (hr : Reach C d f s0) {g0 : CF τ φ} {y : Option Nat} (hc : WaitCall g0 y) {t n : Nat}
    {rest : List (Frame τ φ)} (hst : s0.stk t = .core g0 :: rest) (hf : Frag C t rest s0 n s) {l : Lbl χ}
    (hs : step C s l = some s') (hend : s'.stk t = rest) (hexc : (s'.thr t).exc = none)
    (htime : (s'.thr t).rv = .cv true) :
    ∃ w c, y = some w ∧ s0.clock + w ≤ s.clock ∧ s.loc t = some c ∧ stas c s.log = accs c s.log ∧ Ev.exitSet c ∉ s.log := by
  rcases wait_return hr hc hst hf hs hend hexc with h | h | ⟨c, h1, h2, h⟩ | ⟨w, h1, h2, h⟩
  · rw [htime] at h; simp at h
  · rw [htime] at h; simp at h
  · rw [htime] at h; simp at h
  · rcases h with h | ⟨-, c, h3, h4, h5⟩
    · rw [htime] at h; simp at h
    · exact ⟨w, c, h1, h2, h3, h4, h5⟩

/-! ## C12 -/

/-- Phases of `process()`. -/
def ProcPh (_n : Nat) (g : Frame τ φ) (_s : St τ φ δ) : Prop :=
  g = .core .procAll ∨ (∃ c k, g = .core (.ran c k .toAll) ∨ g = .core (.freed c k .toAll)) ∨ (∃ e, g = .core (.rethrow e))

theorem ProcPh.frag (hr : Reach C d f s0) {t n : Nat} {rest : List (Frame τ φ)} (hst : s0.stk t = .core .procAll :: rest)
    (hf : Frag C t rest s0 n s) : ∃ pre g, s.stk t = pre ++ g :: rest ∧ ProcPh n g s := by
  refine Frag.ind ProcPh hr ?_ ?_ ?_ hf
  · intro g hg
    rw [hst] at hg
    obtain ⟨rfl, -⟩ := List.cons.inj hg
    exact .inl rfl
  · intro s1 n f1 ch s2 pre f2 hr1 h1 hφ hs h2
    have stay : ∀ {x p}, s2.stk t = p ++ x :: rest → (∀ m, ProcPh m x s2) →
        ((∃ c k, s2.log = .started t c k :: s1.log) → ProcPh (n + 1) f2 s2) ∧
        ((¬ ∃ c k, s2.log = .started t c k :: s1.log) → ProcPh n f2 s2) := by
      intro x p hx hp
      obtain ⟨-, rfl⟩ := top_uniq (h2.symm.trans hx)
      exact ⟨fun _ => hp _, fun _ => hp _⟩
    have gone : s2.stk t = rest → ∀ {P : Prop}, P := fun h => absurd (h.symm.trans h2) top_ne
    have same : s2.stk t = s1.stk t → ((∃ c k, s2.log = .started t c k :: s1.log) → ProcPh (n + 1) f2 s2) ∧
        ((¬ ∃ c k, s2.log = .started t c k :: s1.log) → ProcPh n f2 s2) := fun h =>
      stay (p := []) (x := f1) (h.trans h1) (fun _ => hφ)
    rcases hφ with rfl | ⟨c, k, rfl | rfl⟩ | ⟨e, rfl⟩
    · rcases step_core hs h1 with ⟨-, h⟩ | ⟨e, -, rfl⟩
      · simp only [stepCore] at h
        split at h
        · obtain rfl := Option.some.inj h
          exact gone (by simp [St.stk, St.ret])
        · rename_i c hl
          split at h
          · obtain rfl := Option.some.inj h
            exact same rfl
          · split at h
            · obtain rfl := Option.some.inj h
              exact gone (by simp [St.stk, St.ret])
            · split at h
              · rename_i k x hp
                obtain rfl := Option.some.inj h
                exact stay (x := .core (.ran c k .toAll)) (p := [.client (C.run k)])
                  (by simp [St.stk, St.startTask, St.setStk]) (fun _ => .inr (.inl ⟨c, k, .inl rfl⟩))
              · obtain rfl := Option.some.inj h
                exact gone (by simp [St.stk, St.ret])
      · exact same rfl
    · rcases step_core hs h1 with ⟨-, h⟩ | ⟨e, -, rfl⟩
      · simp only [stepCore] at h
        obtain rfl := Option.some.inj h
        exact stay (x := .core (.freed c k .toAll)) (p := [.client (C.destroy k)]) (by simp [St.stk, St.setStk])
          (fun _ => .inr (.inl ⟨c, k, .inr rfl⟩))
      · exact stay (x := .core (.rethrow e)) (p := [.client (C.destroy k)]) (by simp [St.stk, stepExc])
          (fun _ => .inr (.inr ⟨e, rfl⟩))
    · rcases step_core hs h1 with ⟨-, h⟩ | ⟨e, -, rfl⟩
      · simp only [stepCore] at h
        split at h
        · obtain rfl := Option.some.inj h
          exact same rfl
        · obtain rfl := Option.some.inj h
          exact stay (x := .core .procAll) (p := []) (by simp [St.stk, St.setStk]) (fun _ => .inl rfl)
      · exact same rfl
    · rcases step_core hs h1 with ⟨-, h⟩ | ⟨e', -, rfl⟩
      · simp only [stepCore] at h
        obtain rfl := Option.some.inj h
        exact gone (by simp [St.stk])
      · exact same rfl
  · intro s1 n f1 l s2 hr1 hφ hs _ _
    exact hφ

/-- `process()` returns normally only if the calling thread is not registered, was notified for exit, or has no accepted task
    that was not started. -/
theorem C12_drains (hr : Reach C d f s0) {t n : Nat} {rest : List (Frame τ φ)} (hst : s0.stk t = .core .procAll :: rest)
    (hf : Frag C t rest s0 n s) {l : Lbl χ} (hs : step C s l = some s') (hend : s'.stk t = rest)
    (hexc : (s'.thr t).exc = none) :
    s.loc t = none ∨ ∃ c, s.loc t = some c ∧ (Ev.exitSet c ∈ s.log ∨ stas c s.log = accs c s.log) := by
  have hrs := hf.reach hr
  obtain ⟨pre, g, hg, hph⟩ := ProcPh.frag hr hst hf
  obtain ⟨rfl, ch, rfl⟩ := Frag.last (n := n) hrs hg hs hend
  simp only [List.nil_append] at hg
  have stay : s'.stk t = s.stk t → ∀ {P : Prop}, P := fun h => by
    rw [hend, hg] at h
    exact absurd h (by simp)
  have more : ∀ {x p}, s'.stk t = p ++ x :: rest → ∀ {P : Prop}, P := fun h => absurd (hend.symm.trans h) top_ne
  rcases hph with rfl | ⟨c, k, rfl | rfl⟩ | ⟨e, rfl⟩
  · rcases step_core hs hg with ⟨-, h⟩ | ⟨e, -, rfl⟩
    · simp only [stepCore] at h
      split at h
      · rename_i hl
        exact .inl hl
      · rename_i c hl
        refine .inr ⟨c, hl, ?_⟩
        split at h
        · obtain rfl := Option.some.inj h
          exact stay rfl
        · rename_i hal
          have hal : (s.ctxs c).life = .alive := by simpa using hal
          split at h
          · rename_i hx
            exact .inl (((QInv.reach hrs).exit c).1 hx)
          · split at h
            · rename_i k x hp
              obtain rfl := Option.some.inj h
              exact more (x := .core (.ran c k .toAll)) (p := [.client (C.run k)]) (by simp [St.stk, St.startTask, St.setStk])
            · rename_i hp
              right
              have := (QInv.reach hrs).cons c
              rw [(QInv.reach hrs).alive c hal, pop_none.1 hp] at this
              simpa using this.symm
    · exact stay rfl
  · rcases step_core hs hg with ⟨-, h⟩ | ⟨e, -, rfl⟩
    · simp only [stepCore] at h
      obtain rfl := Option.some.inj h
      exact more (x := .core (.freed c k .toAll)) (p := [.client (C.destroy k)]) (by simp [St.stk, St.setStk])
    · exact more (x := .core (.rethrow e)) (p := [.client (C.destroy k)]) (by simp [St.stk, stepExc])
  · rcases step_core hs hg with ⟨-, h⟩ | ⟨e, -, rfl⟩
    · simp only [stepCore] at h
      split at h
      · obtain rfl := Option.some.inj h
        exact stay rfl
      · obtain rfl := Option.some.inj h
        exact more (x := .core .procAll) (p := []) (by simp [St.stk, St.setStk])
    · exact stay rfl
  · rcases step_core hs hg with ⟨-, h⟩ | ⟨e', -, rfl⟩
    · simp only [stepCore] at h
      obtain rfl := Option.some.inj h
      simp at hexc
    · exact stay rfl

/-- A `process()` activation starts tasks of its own registration only, and none once that registration was notified for exit. -/
theorem C12_no_start_after_exit (hr : Reach C d f s0) {t n : Nat} {rest : List (Frame τ φ)}
    (hst : s0.stk t = .core .procAll :: rest) (hf : Frag C t rest s0 n s) (hlen : (s.stk t).length = rest.length + 1)
    {ch : Ch χ} (hs : step C s (.th t ch) = some s') {c : Nat} {k : τ} (hlog : s'.log = .started t c k :: s.log) :
    s.loc t = some c ∧ Ev.exitSet c ∉ s.log := by
  have hrs := hf.reach hr
  obtain ⟨pre, g, hg, hph⟩ := ProcPh.frag hr hst hf
  have hpre : pre = [] := by
    rw [hg] at hlen
    simp only [List.length_append, List.length_cons] at hlen
    exact List.length_eq_zero_iff.1 (by omega)
  subst hpre
  simp only [List.nil_append] at hg
  have noev : s'.log = s.log → ∀ {P : Prop}, P := fun h => absurd (h.symm.trans hlog) log_ne
  have other : ∀ {e}, s'.log = e :: s.log → (∀ c k, e ≠ .started t c k) → ∀ {P : Prop}, P := fun h h2 => by
    rw [hlog] at h
    exact absurd (List.cons.inj h).1.symm (h2 _ _)
  rcases hph with rfl | ⟨c', k', rfl | rfl⟩ | ⟨e, rfl⟩
  · rcases step_core hs hg with ⟨-, h⟩ | ⟨e, -, rfl⟩
    · simp only [stepCore] at h
      split at h
      · obtain rfl := Option.some.inj h
        exact other (e := .ret t .process .unit) rfl (by simp)
      · rename_i c' hl
        split at h
        · obtain rfl := Option.some.inj h
          exact noev rfl
        · split at h
          · obtain rfl := Option.some.inj h
            exact other (e := .ret t .process .unit) rfl (by simp)
          · rename_i hx
            split at h
            · rename_i k' x hp
              obtain rfl := Option.some.inj h
              simp only [St.startTask, St.setStk, St.ev, St.setCtx, List.cons.injEq, Ev.started.injEq, true_and, and_true] at hlog
              obtain ⟨rfl, -⟩ := hlog
              exact ⟨hl, fun hm => hx (((QInv.reach hrs).exit c').2 hm)⟩
            · obtain rfl := Option.some.inj h
              exact other (e := .ret t .process .unit) rfl (by simp)
    · exact noev rfl
  · rcases step_core hs hg with ⟨-, h⟩ | ⟨e, -, rfl⟩
    · simp only [stepCore] at h
      obtain rfl := Option.some.inj h
      exact noev rfl
    · exact other (e := .threw t c') rfl (by simp)
  · rcases step_core hs hg with ⟨-, h⟩ | ⟨e, -, rfl⟩
    · simp only [stepCore] at h
      split at h
      · obtain rfl := Option.some.inj h
        exact noev rfl
      · obtain rfl := Option.some.inj h
        exact other (e := .finished t c' k') rfl (by simp)
    · exact noev rfl
  · rcases step_core hs hg with ⟨-, h⟩ | ⟨e', -, rfl⟩
    · simp only [stepCore] at h
      obtain rfl := Option.some.inj h
      exact noev rfl
    · exact noev rfl

/-! ## C52: process_for -/

/-- Phases of `process_for(D)` called at time `t0`. -/
def ForPh (t0 : Nat) (D : Int) (_n : Nat) (g : Frame τ φ) (s : St τ φ δ) : Prop :=
  t0 ≤ s.clock ∧ (g = .core (.procForIn D) ∨
    (∃ e, t0 + D.toNat / 1000 * 1000 ≤ e ∧ (g = .core (.procFor e) ∨
      (∃ c k, g = .core (.ran c k (.toFor e)) ∨ g = .core (.freed c k (.toFor e))))) ∨ (∃ e, g = .core (.rethrow e)))

theorem ForPh.frag (hr : Reach C d f s0) {t n : Nat} {D : Int} {rest : List (Frame τ φ)}
    (hst : s0.stk t = .core (.procForIn D) :: rest) (hf : Frag C t rest s0 n s) :
    ∃ pre g, s.stk t = pre ++ g :: rest ∧ ForPh s0.clock D n g s := by
  refine Frag.ind (ForPh s0.clock D) hr ?_ ?_ ?_ hf
  · intro g hg
    rw [hst] at hg
    obtain ⟨rfl, -⟩ := List.cons.inj hg
    exact ⟨Nat.le_refl _, .inl rfl⟩
  · intro s1 n f1 ch s2 pre f2 hr1 h1 hφ hs h2
    have hck := Nat.le_trans hφ.1 (step_clock hs)
    have stay : ∀ {x p}, s2.stk t = p ++ x :: rest → (∀ m, ForPh s0.clock D m x s2) →
        ((∃ c k, s2.log = .started t c k :: s1.log) → ForPh s0.clock D (n + 1) f2 s2) ∧
        ((¬ ∃ c k, s2.log = .started t c k :: s1.log) → ForPh s0.clock D n f2 s2) := by
      intro x p hx hp
      obtain ⟨-, rfl⟩ := top_uniq (h2.symm.trans hx)
      exact ⟨fun _ => hp _, fun _ => hp _⟩
    have gone : s2.stk t = rest → ∀ {P : Prop}, P := fun h => absurd (h.symm.trans h2) top_ne
    have same : s2.stk t = s1.stk t → ((∃ c k, s2.log = .started t c k :: s1.log) → ForPh s0.clock D (n + 1) f2 s2) ∧
        ((¬ ∃ c k, s2.log = .started t c k :: s1.log) → ForPh s0.clock D n f2 s2) := fun h =>
      stay (p := []) (x := f1) (h.trans h1) (fun _ => ⟨hck, hφ.2⟩)
    obtain ⟨hc0, rfl | ⟨e, he, rfl | ⟨c, k, rfl | rfl⟩⟩ | ⟨e, rfl⟩⟩ := hφ
    · rcases step_core hs h1 with ⟨-, h⟩ | ⟨e, -, rfl⟩
      · simp only [stepCore] at h
        split at h
        · obtain rfl := Option.some.inj h
          exact gone (by simp [St.stk, St.ret])
        · obtain rfl := Option.some.inj h
          exact stay (x := .core (.procFor (s1.clock + D.toNat / 1000 * 1000))) (p := []) (by simp [St.stk, St.setStk])
            (fun _ => ⟨hck, .inr (.inl ⟨_, by omega, .inl rfl⟩)⟩)
      · exact same rfl
    · rcases step_core hs h1 with ⟨-, h⟩ | ⟨e', -, rfl⟩
      · simp only [stepCore] at h
        split at h
        · obtain rfl := Option.some.inj h
          exact gone (by simp [St.stk, St.ret])
        · rename_i c hl
          split at h
          · obtain rfl := Option.some.inj h
            exact same rfl
          · split at h
            · obtain rfl := Option.some.inj h
              exact gone (by simp [St.stk, St.ret])
            · split at h
              · rename_i k x hp
                obtain rfl := Option.some.inj h
                exact stay (x := .core (.ran c k (.toFor e))) (p := [.client (C.run k)])
                  (by simp [St.stk, St.startTask, St.setStk]) (fun _ => ⟨hck, .inr (.inl ⟨e, he, .inr ⟨c, k, .inl rfl⟩⟩)⟩)
              · obtain rfl := Option.some.inj h
                exact gone (by simp [St.stk, St.ret])
      · exact same rfl
    · rcases step_core hs h1 with ⟨-, h⟩ | ⟨e', -, rfl⟩
      · simp only [stepCore] at h
        obtain rfl := Option.some.inj h
        exact stay (x := .core (.freed c k (.toFor e))) (p := [.client (C.destroy k)]) (by simp [St.stk, St.setStk])
          (fun _ => ⟨hck, .inr (.inl ⟨e, he, .inr ⟨c, k, .inr rfl⟩⟩)⟩)
      · exact stay (x := .core (.rethrow e')) (p := [.client (C.destroy k)]) (by simp [St.stk, stepExc])
          (fun _ => ⟨hck, .inr (.inr ⟨e', rfl⟩)⟩)
    · rcases step_core hs h1 with ⟨-, h⟩ | ⟨e', -, rfl⟩
      · simp only [stepCore] at h
        split at h
        · obtain rfl := Option.some.inj h
          exact same rfl
        · obtain rfl := Option.some.inj h
          exact stay (x := .core (.procFor e)) (p := []) (by simp [St.stk, St.setStk])
            (fun _ => ⟨hck, .inr (.inl ⟨e, he, .inl rfl⟩)⟩)
      · exact same rfl
    · rcases step_core hs h1 with ⟨-, h⟩ | ⟨e', -, rfl⟩
      · simp only [stepCore] at h
        obtain rfl := Option.some.inj h
        exact gone (by simp [St.stk])
      · exact same rfl
  · intro s1 n f1 l s2 hr1 hφ hs _ _
    exact ⟨Nat.le_trans hφ.1 (step_clock hs), hφ.2⟩

/-- `process_for(D)` returns normally only if the thread is not registered, was notified for exit, has no accepted task that
    was not started, or `D` (rounded down to whole microseconds) has elapsed since the call. -/
theorem C52_returns (hr : Reach C d f s0) {t n : Nat} {D : Int} {rest : List (Frame τ φ)}
    (hst : s0.stk t = .core (.procForIn D) :: rest) (hf : Frag C t rest s0 n s) {l : Lbl χ} (hs : step C s l = some s')
    (hend : s'.stk t = rest) (hexc : (s'.thr t).exc = none) :
    s.loc t = none ∨ (∃ c, s.loc t = some c ∧ (Ev.exitSet c ∈ s.log ∨ stas c s.log = accs c s.log)) ∨
    s0.clock + D.toNat / 1000 * 1000 ≤ s.clock := by
  have hrs := hf.reach hr
  obtain ⟨pre, g, hg, hph⟩ := ForPh.frag hr hst hf
  obtain ⟨rfl, ch, rfl⟩ := Frag.last (n := n) hrs hg hs hend
  simp only [List.nil_append] at hg
  have stay : s'.stk t = s.stk t → ∀ {P : Prop}, P := fun h => by
    rw [hend, hg] at h
    exact absurd h (by simp)
  have more : ∀ {x p}, s'.stk t = p ++ x :: rest → ∀ {P : Prop}, P := fun h => absurd (hend.symm.trans h) top_ne
  obtain ⟨hc0, rfl | ⟨e, he, rfl | ⟨c, k, rfl | rfl⟩⟩ | ⟨e, rfl⟩⟩ := hph
  · rcases step_core hs hg with ⟨-, h⟩ | ⟨e, -, rfl⟩
    · simp only [stepCore] at h
      split at h
      · rename_i hl
        exact .inl hl
      · obtain rfl := Option.some.inj h
        exact more (x := .core (.procFor (s.clock + D.toNat / 1000 * 1000))) (p := []) (by simp [St.stk, St.setStk])
    · exact stay rfl
  · rcases step_core hs hg with ⟨-, h⟩ | ⟨e, -, rfl⟩
    · simp only [stepCore] at h
      split at h
      · rename_i hl
        exact .inl hl
      · rename_i c hl
        right
        split at h
        · obtain rfl := Option.some.inj h
          exact stay rfl
        · rename_i hal
          have hal : (s.ctxs c).life = .alive := by simpa using hal
          split at h
          · rename_i hx
            simp only [Bool.or_eq_true, decide_eq_true_eq] at hx
            rcases hx with hx | hx
            · exact .inl ⟨c, hl, .inl (((QInv.reach hrs).exit c).1 hx)⟩
            · exact .inr (by omega)
          · split at h
            · rename_i k x hp
              obtain rfl := Option.some.inj h
              exact more (x := .core (.ran c k (.toFor e))) (p := [.client (C.run k)]) (by simp [St.stk, St.startTask, St.setStk])
            · rename_i hp
              left
              refine ⟨c, hl, .inr ?_⟩
              have := (QInv.reach hrs).cons c
              rw [(QInv.reach hrs).alive c hal, pop_none.1 hp] at this
              simpa using this.symm
    · exact stay rfl
  · rcases step_core hs hg with ⟨-, h⟩ | ⟨e', -, rfl⟩
    · simp only [stepCore] at h
      obtain rfl := Option.some.inj h
      exact more (x := .core (.freed c k (.toFor e))) (p := [.client (C.destroy k)]) (by simp [St.stk, St.setStk])
    · exact more (x := .core (.rethrow e')) (p := [.client (C.destroy k)]) (by simp [St.stk, stepExc])
  · rcases step_core hs hg with ⟨-, h⟩ | ⟨e', -, rfl⟩
    · simp only [stepCore] at h
      split at h
      · obtain rfl := Option.some.inj h
        exact stay rfl
      · obtain rfl := Option.some.inj h
        exact more (x := .core (.procFor e)) (p := []) (by simp [St.stk, St.setStk])
    · exact stay rfl
  · rcases step_core hs hg with ⟨-, h⟩ | ⟨e', -, rfl⟩
    · simp only [stepCore] at h
      obtain rfl := Option.some.inj h
      simp at hexc
    · exact stay rfl

/-- The loop of `process_for` with end time `e` starts a task only before `e` and only if the thread was not notified for
    exit.  (`e` is fixed by the first step of the call: the time then plus the duration.) -/
theorem C52_no_start_late (hr : Reach C d f s) {t e : Nat} {rest : List (Frame τ φ)}
    (hst : s.stk t = .core (.procFor e) :: rest) {ch : Ch χ} (hs : step C s (.th t ch) = some s') {c : Nat} {k : τ}
    (hlog : s'.log = .started t c k :: s.log) : s.clock < e ∧ s.loc t = some c ∧ Ev.exitSet c ∉ s.log := by
  rcases step_core hs hst with ⟨-, h⟩ | ⟨e', -, rfl⟩
  · simp only [stepCore] at h
    split at h
    · obtain rfl := Option.some.inj h
      simp [St.ret] at hlog
    · rename_i c' hl
      split at h
      · obtain rfl := Option.some.inj h
        exact absurd hlog log_ne
      · split at h
        · obtain rfl := Option.some.inj h
          simp [St.ret] at hlog
        · rename_i hx
          split at h
          · obtain rfl := Option.some.inj h
            simp only [St.startTask, St.setStk, St.ev, St.setCtx, List.cons.injEq, Ev.started.injEq, true_and, and_true] at hlog
            obtain ⟨rfl, -⟩ := hlog
            simp only [Bool.or_eq_true, decide_eq_true_eq, not_or, Nat.not_le] at hx
            exact ⟨hx.2, hl, fun hm => hx.1 (((QInv.reach hr).exit c').2 hm)⟩
          · obtain rfl := Option.some.inj h
            simp [St.ret] at hlog
  · exact absurd hlog log_ne

/-! ## C20: sleep_for -/

/-- Phases of `sleep_for(D)` called at time `t0`. -/
def SleepPh (t0 : Nat) (D : Int) (_n : Nat) (g : Frame τ φ) (s : St τ φ δ) : Prop :=
  t0 ≤ s.clock ∧ (g = .core (.sleepIn D) ∨
    (∃ e, t0 + D.toNat ≤ e ∧ ((∃ now, now ≤ s.clock ∧ g = .core (.sleep e now)) ∨ g = .core (.sleepNow e))))

theorem SleepPh.frag (hr : Reach C d f s0) {t n : Nat} {D : Int} {rest : List (Frame τ φ)}
    (hst : s0.stk t = .core (.sleepIn D) :: rest) (hf : Frag C t rest s0 n s) :
    ∃ pre g, s.stk t = pre ++ g :: rest ∧ SleepPh s0.clock D n g s := by
  refine Frag.ind (SleepPh s0.clock D) hr ?_ ?_ ?_ hf
  · intro g hg
    rw [hst] at hg
    obtain ⟨rfl, -⟩ := List.cons.inj hg
    exact ⟨Nat.le_refl _, .inl rfl⟩
  · intro s1 n f1 ch s2 pre f2 hr1 h1 hφ hs h2
    have hcs := step_clock hs
    have hck := Nat.le_trans hφ.1 hcs
    have stay : ∀ {x p}, s2.stk t = p ++ x :: rest → (∀ m, SleepPh s0.clock D m x s2) →
        ((∃ c k, s2.log = .started t c k :: s1.log) → SleepPh s0.clock D (n + 1) f2 s2) ∧
        ((¬ ∃ c k, s2.log = .started t c k :: s1.log) → SleepPh s0.clock D n f2 s2) := by
      intro x p hx hp
      obtain ⟨-, rfl⟩ := top_uniq (h2.symm.trans hx)
      exact ⟨fun _ => hp _, fun _ => hp _⟩
    have gone : s2.stk t = rest → ∀ {P : Prop}, P := fun h => absurd (h.symm.trans h2) top_ne
    obtain ⟨hc0, rfl | ⟨e, he, ⟨now, hnow, rfl⟩ | rfl⟩⟩ := hφ
    · rcases step_core hs h1 with ⟨-, h⟩ | ⟨e, -, rfl⟩
      · simp only [stepCore] at h
        split at h
        · obtain rfl := Option.some.inj h
          exact gone (by simp [St.stk, St.ret])
        · obtain rfl := Option.some.inj h
          exact stay (x := .core (.sleep (s1.clock + D.toNat) s1.clock)) (p := []) (by simp [St.stk, St.setStk])
            (fun _ => ⟨hck, .inr ⟨_, by omega, .inl ⟨_, hcs, rfl⟩⟩⟩)
      · exact stay (x := .core (.sleepIn D)) (p := []) h1 (fun _ => ⟨hck, .inl rfl⟩)
    · rcases step_core hs h1 with ⟨-, h⟩ | ⟨e', -, rfl⟩
      · simp only [stepCore] at h
        split at h
        · split at h
          · obtain rfl := Option.some.inj h
            exact gone (by simp [St.stk, St.ret])
          · obtain rfl := Option.some.inj h
            exact stay (x := .core (.sleepNow e)) (p := [.core (.waitForIn ((e - now : Nat) : Int))])
              (by simp [St.stk, St.setStk]) (fun _ => ⟨hck, .inr ⟨e, he, .inr rfl⟩⟩)
        · obtain rfl := Option.some.inj h
          exact gone (by simp [St.stk, St.ret])
      · exact stay (x := .core (.sleep e now)) (p := []) h1 (fun _ => ⟨hck, .inr ⟨e, he, .inl ⟨now, hnow, rfl⟩⟩⟩)
    · rcases step_core hs h1 with ⟨-, h⟩ | ⟨e', -, rfl⟩
      · simp only [stepCore] at h
        obtain rfl := Option.some.inj h
        exact stay (x := .core (.sleep e s1.clock)) (p := []) (by simp [St.stk, St.setStk])
          (fun _ => ⟨hck, .inr ⟨e, he, .inl ⟨_, hcs, rfl⟩⟩⟩)
      · exact gone (by simp [St.stk, stepExc, St.setStk])
  · intro s1 n f1 l s2 hr1 hφ hs _ _
    have hcs := step_clock hs
    refine ⟨Nat.le_trans hφ.1 hcs, ?_⟩
    rcases hφ.2 with h | ⟨e, he, ⟨now, h1, h2⟩ | h⟩
    · exact .inl h
    · exact .inr ⟨e, he, .inl ⟨now, Nat.le_trans h1 hcs, h2⟩⟩
    · exact .inr ⟨e, he, .inr h⟩

/-- `sleep_for(D)` returns normally only if `D` has elapsed since the call, or the thread was notified for exit, or it is not
    registered. -/
theorem C20_sleep (hr : Reach C d f s0) {t n : Nat} {D : Int} {rest : List (Frame τ φ)}
    (hst : s0.stk t = .core (.sleepIn D) :: rest) (hf : Frag C t rest s0 n s) {l : Lbl χ} (hs : step C s l = some s')
    (hend : s'.stk t = rest) (hexc : (s'.thr t).exc = none) :
    s0.clock + D.toNat ≤ s.clock ∨ s.loc t = none ∨ ∃ c, s.loc t = some c ∧ Ev.exitSet c ∈ s.log := by
  have hrs := hf.reach hr
  obtain ⟨pre, g, hg, hph⟩ := SleepPh.frag hr hst hf
  obtain ⟨rfl, ch, rfl⟩ := Frag.last (n := n) hrs hg hs hend
  simp only [List.nil_append] at hg
  have stay : s'.stk t = s.stk t → ∀ {P : Prop}, P := fun h => by
    rw [hend, hg] at h
    exact absurd h (by simp)
  have more : ∀ {x p}, s'.stk t = p ++ x :: rest → ∀ {P : Prop}, P := fun h => absurd (hend.symm.trans h) top_ne
  obtain ⟨hc0, rfl | ⟨e, he, ⟨now, hnow, rfl⟩ | rfl⟩⟩ := hph
  · rcases step_core hs hg with ⟨-, h⟩ | ⟨e, -, rfl⟩
    · simp only [stepCore] at h
      split at h
      · left
        omega
      · obtain rfl := Option.some.inj h
        exact more (x := .core (.sleep (s.clock + D.toNat) s.clock)) (p := []) (by simp [St.stk, St.setStk])
    · exact stay rfl
  · rcases step_core hs hg with ⟨-, h⟩ | ⟨e', -, rfl⟩
    · simp only [stepCore] at h
      split at h
      · split at h
        · rename_i hx
          right
          unfold St.notified at hx
          split at hx
          · rename_i hl; exact .inl hl
          · rename_i c hl; exact .inr ⟨c, hl, ((QInv.reach hrs).exit c).1 hx⟩
        · obtain rfl := Option.some.inj h
          exact more (x := .core (.sleepNow e)) (p := [.core (.waitForIn ((e - now : Nat) : Int))]) (by simp [St.stk, St.setStk])
      · left
        omega
    · exact stay rfl
  · rcases step_core hs hg with ⟨-, h⟩ | ⟨e', he', rfl⟩
    · simp only [stepCore] at h
      obtain rfl := Option.some.inj h
      exact more (x := .core (.sleep e s.clock)) (p := []) (by simp [St.stk, St.setStk])
    · simp [stepExc, St.setStk, he'] at hexc

/-! ## C15: exit notification is sticky -/

/-- Once the exit notification of a registration has taken effect, its thread sees it (`notified_for_exit()`) as long as the
    registration's context is its own. -/
theorem C15_sticky (hr : Reach C d f s) {t c : Nat} (hset : Ev.exitSet c ∈ s.log) (hl : s.loc t = some c) :
    (s.view t).exit = true := by
  have hl' : (s.thr t).loc = some c := hl
  have := ((QInv.reach hr).exit c).2 hset
  simp [St.view, St.notified, hl', this]

/-- `notified_for_exit()` returns true exactly if the thread is not registered or its registration was notified. -/
theorem C15_exact (hr : Reach C d f s) (t : Nat) :
    (s.view t).exit = true ↔ s.loc t = none ∨ ∃ c, s.loc t = some c ∧ Ev.exitSet c ∈ s.log := by
  simp only [St.view, St.notified, St.loc]
  cases hl : (s.thr t).loc with
  | none => simp
  | some c => simp [(QInv.reach hr).exit c]

/-- After the notification no step makes the thread block in `wait`/`wait_for` (also inside other blocking functions). -/
theorem C15_never_blocks (hr : Reach C d f s) {t c : Nat} (hset : Ev.exitSet c ∈ s.log) {l : Lbl χ}
    (hs : step C s l = some s') (hst : ∀ dl rest, s.stk t ≠ .core (.parked c dl) :: rest) (dl : Option Nat)
    (rest : List (Frame τ φ)) : s'.stk t ≠ .core (.parked c dl) :: rest := by
  intro hp
  have hex := ((QInv.reach hr).exit c).2 hset
  cases l with
  | tick m =>
    rw [step_tick C s s' m hs] at hp
    exact hst _ _ hp
  | th u ch =>
  by_cases hu : u = t
  · subst hu
    have htail := (WF.reach hr).tail u
    have htl : ∀ {g rest'}, s.stk u = g :: rest' → rest' ≠ .core (.parked c dl) :: rest := by
      intro g rest' h1 h2
      have := htail (.core (.parked c dl)) (by rw [h1, h2]; simp)
      simp [Frame.leaf] at this
    have happ : ∀ {g new rest'}, s.stk u = g :: rest' → (∀ x ∈ new, Frame.plain x = true) →
        new ++ rest' ≠ .core (.parked c dl) :: rest := by
      intro g new rest' h1 h2 h3
      cases new with
      | nil => exact htl h1 h3
      | cons x new =>
        simp only [List.cons_append, List.cons.injEq] at h3
        have := h2 x (by simp)
        rw [h3.1] at this
        simp [Frame.plain] at this
    have he := step_eff C s s' u ch hs
    cases he with
    | ctl es old new rest' hreg hctx hloc hold holdp hstk hnewp =>
      rw [hstk, upd_same] at hp
      exact happ hold hnewp hp
    | halt hreg hctx hloc hstk => rw [hstk] at hp; exact hst _ _ hp
    | fin hreg hctx hold hloc hstk => rw [hstk, hold] at hp; simp at hp
    | spawn n g v rest' hreg hctx hold hfr hne hloc hstk =>
      rw [hstk, upd_same] at hp
      exact htl hold hp
    | unregClear rest' hreg hctx hold hloc hstk => rw [hstk, upd_same] at hp; exact htl hold hp
    | hold id c' g g' rest' hreg hold hf hg hgt hgu hgd hgp hgr hgf hfind hctx hloc hstk =>
      rw [hstk, upd_same] at hp
      exact hgp c dl (List.cons.inj hp).1
    | relKeep c' g v rest' hreg hold hkeep hctx hloc hstk => rw [hstk, upd_same] at hp; exact htl hold hp
    | destroyed c' g v rest' hreg hold hctx hloc hstk => rw [hstk, upd_same] at hp; exact htl hold hp
    | park c' d' rest' hreg hold hlc halive hpop hexit hctx hloc hstk =>
      rw [hstk, upd_same] at hp
      simp only [List.cons.injEq, Frame.core.injEq, CF.parked.injEq] at hp
      rw [hp.1.1, hex] at hexit
      simp at hexit
    | rewait c' dl' rest' hreg hold halive hw hctx hloc hstk => rw [hstk] at hp; exact hst _ _ hp
    | parkRet c' dl' b rest' hreg hold halive hpop hctx hloc hstk => rw [hstk, upd_same] at hp; exact htl hold hp
    | freed c' k r new rest' es hreg hold halive hctx hloc hstk hnewp =>
      rw [hstk, upd_same] at hp
      exact happ hold hnewp hp
    | _ =>
      rw [‹s'.stk = _›, upd_same] at hp
      simp at hp
  · rcases step_stk_other' (FreeOK.reach hr) (Ne.symm hu) hs with h | ⟨-, g, h⟩
    · rw [h] at hp; exact hst _ _ hp
    · rw [h] at hp; simp at hp

/-- Phases of `notify_for_exit(id)`. -/
def ExitPh (id : Nat) (_n : Nat) (g : Frame τ φ) (s : St τ φ δ) : Prop :=
  g = .core (.exitLook id) ∨ (∃ c n, Ev.registered c id n ∈ s.log ∧ g = .core (.exitSet c)) ∨
  (∃ c n v, Ev.registered c id n ∈ s.log ∧ Ev.exitSet c ∈ s.log ∧
    (g = .core (.release c .notifyExit v) ∨ ∃ l, g = .core (.destroyList c l .notifyExit v)))

theorem step_log_mono {l : Lbl χ} (hs : step C s l = some s') {e : Ev τ} (he : e ∈ s.log) : e ∈ s'.log := by
  cases l with
  | tick m => rw [step_tick C s s' m hs]; exact he
  | th u ch => exact log_mono (step_eff C s s' u ch hs) e he

theorem find_mem {id c : Nat} (h : s.find id = some c) : (id, c) ∈ s.contexts := by
  unfold St.find at h
  obtain ⟨⟨i, x⟩, h1, h2⟩ := Option.map_eq_some_iff.1 h
  have := List.mem_of_find?_eq_some h1
  have h3 := List.find?_some h1
  simp only [beq_iff_eq] at h3
  simp only at h2
  subst h3 h2
  exact this

theorem find_none {id : Nat} (h : s.find id = none) : id ∉ s.contexts.map (·.1) := by
  unfold St.find at h
  simp only [Option.map_eq_none_iff, List.find?_eq_none, beq_iff_eq] at h
  intro hm
  obtain ⟨p, hp, rfl⟩ := List.mem_map.1 hm
  exact h p hp rfl

theorem ExitPh.frag (hr : Reach C d f s0) {t n id : Nat} {rest : List (Frame τ φ)}
    (hst : s0.stk t = .core (.exitLook id) :: rest) (hf : Frag C t rest s0 n s) :
    ∃ pre g, s.stk t = pre ++ g :: rest ∧ ExitPh id n g s := by
  refine Frag.ind (ExitPh id) hr ?_ ?_ ?_ hf
  · intro g hg
    rw [hst] at hg
    obtain ⟨rfl, -⟩ := List.cons.inj hg
    exact .inl rfl
  · intro s1 n f1 ch s2 pre f2 hr1 h1 hφ hs h2
    have hm : ∀ e, e ∈ s1.log → e ∈ s2.log := fun e h => step_log_mono hs h
    have stay : ∀ {x p}, s2.stk t = p ++ x :: rest → (∀ m, ExitPh id m x s2) →
        ((∃ c k, s2.log = .started t c k :: s1.log) → ExitPh id (n + 1) f2 s2) ∧
        ((¬ ∃ c k, s2.log = .started t c k :: s1.log) → ExitPh id n f2 s2) := by
      intro x p hx hp
      obtain ⟨-, rfl⟩ := top_uniq (h2.symm.trans hx)
      exact ⟨fun _ => hp _, fun _ => hp _⟩
    have gone : s2.stk t = rest → ∀ {P : Prop}, P := fun h => absurd (h.symm.trans h2) top_ne
    obtain rfl | ⟨c, m, hc, rfl⟩ | ⟨c, m, v, hc, hx, rfl | ⟨l, rfl⟩⟩ := hφ
    · rcases step_core hs h1 with ⟨-, h⟩ | ⟨e, -, rfl⟩
      · simp only [stepCore] at h
        split at h
        · contradiction
        · split at h
          · obtain rfl := Option.some.inj h
            exact gone (by simp [St.stk, St.ret])
          · rename_i c hfind
            obtain rfl := Option.some.inj h
            have hmem := find_mem hfind
            have hreg := ((LInv.reach hr1).regd c id (s1.ctxs c).native).2
              ⟨((WF.reach hr1).mem id c hmem).1, ((WF.reach hr1).mem id c hmem).2.1, rfl⟩
            exact stay (x := .core (.exitSet c)) (p := []) (by simp [St.stk, St.setStk, St.hold])
              (fun _ => .inr (.inl ⟨c, _, hreg, rfl⟩))
      · exact stay (x := .core (.exitLook id)) (p := []) h1 (fun _ => .inl rfl)
    · rcases step_core hs h1 with ⟨-, h⟩ | ⟨e, -, rfl⟩
      · simp only [stepCore] at h
        split at h
        · obtain rfl := Option.some.inj h
          exact stay (x := .core (.exitSet c)) (p := []) h1 (fun _ => .inr (.inl ⟨c, m, hc, rfl⟩))
        · obtain rfl := Option.some.inj h
          exact stay (x := .core (.release c .notifyExit .unit)) (p := []) (by simp [St.stk, St.setStk])
            (fun _ => .inr (.inr ⟨c, m, _, hm _ hc, by simp [St.setStk, St.ev], .inl rfl⟩))
      · exact stay (x := .core (.exitSet c)) (p := []) h1 (fun _ => .inr (.inl ⟨c, m, hc, rfl⟩))
    · rcases step_core hs h1 with ⟨-, h⟩ | ⟨e, -, rfl⟩
      · simp only [stepCore] at h
        split at h
        · obtain rfl := Option.some.inj h
          exact stay (x := .core (.destroyList c (s1.ctxs c).pend .notifyExit v)) (p := []) (by simp [St.stk, St.setStk])
            (fun _ => .inr (.inr ⟨c, m, _, hm _ hc, hm _ hx, .inr ⟨_, rfl⟩⟩))
        · obtain rfl := Option.some.inj h
          exact gone (by simp [St.stk, St.ret])
      · exact stay (x := .core (.release c .notifyExit v)) (p := []) h1 (fun _ => .inr (.inr ⟨c, m, v, hc, hx, .inl rfl⟩))
    · rcases step_core hs h1 with ⟨-, h⟩ | ⟨e, -, rfl⟩
      · cases l with
        | nil =>
          simp only [stepCore] at h
          obtain rfl := Option.some.inj h
          exact gone (by simp [St.stk, St.ret])
        | cons k l =>
          simp only [stepCore] at h
          obtain rfl := Option.some.inj h
          exact stay (x := .core (.destroyList c l .notifyExit v)) (p := [.client (C.destroy k)]) (by simp [St.stk, St.setStk])
            (fun _ => .inr (.inr ⟨c, m, _, hm _ hc, hm _ hx, .inr ⟨_, rfl⟩⟩))
      · exact stay (x := .core (.destroyList c l .notifyExit v)) (p := []) h1
          (fun _ => .inr (.inr ⟨c, m, v, hc, hx, .inr ⟨_, rfl⟩⟩))
  · intro s1 n f1 l s2 hr1 hφ hs _ _
    have hm : ∀ e, e ∈ s1.log → e ∈ s2.log := fun e h => step_log_mono hs h
    obtain h | ⟨c, m, hc, h⟩ | ⟨c, m, v, hc, hx, h⟩ := hφ
    · exact .inl h
    · exact .inr (.inl ⟨c, m, hm _ hc, h⟩)
    · exact .inr (.inr ⟨c, m, v, hm _ hc, hm _ hx, h⟩)

/-- When `notify_for_exit(id)` returns, either no thread was registered as `id` when it looked, or the registration with that
    id has its exit notification. -/
theorem C15_takes_effect (hr : Reach C d f s0) {t n id : Nat} {rest : List (Frame τ φ)}
    (hst : s0.stk t = .core (.exitLook id) :: rest) (hf : Frag C t rest s0 n s) {l : Lbl χ} (hs : step C s l = some s')
    (hend : s'.stk t = rest) :
    id ∉ liveIds s.log ∨ ∃ c m, Ev.registered c id m ∈ s.log ∧ Ev.exitSet c ∈ s.log := by
  have hrs := hf.reach hr
  obtain ⟨pre, g, hg, hph⟩ := ExitPh.frag hr hst hf
  obtain ⟨rfl, ch, rfl⟩ := Frag.last (n := n) hrs hg hs hend
  simp only [List.nil_append] at hg
  have stay : s'.stk t = s.stk t → ∀ {P : Prop}, P := fun h => by
    rw [hend, hg] at h
    exact absurd h (by simp)
  have more : ∀ {x p}, s'.stk t = p ++ x :: rest → ∀ {P : Prop}, P := fun h => absurd (hend.symm.trans h) top_ne
  obtain rfl | ⟨c, m, hc, rfl⟩ | ⟨c, m, v, hc, hx, -⟩ := hph
  · rcases step_core hs hg with ⟨-, h⟩ | ⟨e, -, rfl⟩
    · simp only [stepCore] at h
      split at h
      · contradiction
      · split at h
        · rename_i hfind
          left
          rw [(LInv.reach hrs).live]
          exact find_none hfind
        · rename_i c hfind
          obtain rfl := Option.some.inj h
          exact more (x := .core (.exitSet c)) (p := []) (by simp [St.stk, St.setStk, St.hold])
    · exact stay rfl
  · rcases step_core hs hg with ⟨-, h⟩ | ⟨e, -, rfl⟩
    · simp only [stepCore] at h
      split at h
      · obtain rfl := Option.some.inj h
        exact stay rfl
      · obtain rfl := Option.some.inj h
        exact more (x := .core (.release c .notifyExit .unit)) (p := []) (by simp [St.stk, St.setStk])
    · exact stay rfl
  · exact .inr ⟨c, m, hc, hx⟩

/-- `notify_for_exit(id)` notifies no registration with another id. -/
theorem C15_only (hr : Reach C d f s0) {t n id : Nat} {rest : List (Frame τ φ)} {g : Frame τ φ}
    (hst : s0.stk t = .core (.exitLook id) :: rest) (hf : Frag C t rest s0 n s) (hg : s.stk t = g :: rest) {ch : Ch χ}
    (hs : step C s (.th t ch) = some s') {c : Nat} (hno : Ev.exitSet c ∉ s.log) (hset : Ev.exitSet c ∈ s'.log) :
    ∃ m, Ev.registered c id m ∈ s.log := by
  have hrs := hf.reach hr
  obtain ⟨pre, g', hg', hph⟩ := ExitPh.frag hr hst hf
  obtain ⟨rfl, rfl⟩ : pre = [] ∧ g = g' := by
    have := hg.symm.trans hg'
    cases pre with
    | nil => exact ⟨rfl, (List.cons.inj this).1⟩
    | cons a pre => exact absurd (congrArg List.length this) (by simp; omega)
  have stay : s'.log = s.log → ∀ {P : Prop}, P := fun h => absurd (h ▸ hset) hno
  obtain rfl | ⟨c', m, hc, rfl⟩ | ⟨c', m, v, hc, hx, rfl | ⟨l, rfl⟩⟩ := hph
  · rcases step_core hs hg with ⟨-, h⟩ | ⟨e, -, rfl⟩
    · simp only [stepCore] at h
      split at h
      · contradiction
      · split at h <;> (obtain rfl := Option.some.inj h; exact absurd hset (by simpa [St.ret, St.ev, St.setStk, St.setCtx, St.hold] using hno))
    · exact stay rfl
  · rcases step_core hs hg with ⟨-, h⟩ | ⟨e, -, rfl⟩
    · simp only [stepCore] at h
      split at h
      · obtain rfl := Option.some.inj h
        exact stay rfl
      · obtain rfl := Option.some.inj h
        simp only [St.setStk, St.ev, St.setCtx, List.mem_cons, Ev.exitSet.injEq] at hset
        rcases hset with rfl | h
        · exact ⟨m, hc⟩
        · exact absurd h hno
    · exact stay rfl
  · rcases step_core hs hg with ⟨-, h⟩ | ⟨e, -, rfl⟩
    · simp only [stepCore] at h
      split at h <;> (obtain rfl := Option.some.inj h; exact absurd hset (by simpa [St.ret, St.ev, St.setStk, St.setCtx, St.hold] using hno))
    · exact stay rfl
  · cases l <;> rcases step_core hs hg with ⟨-, h⟩ | ⟨e, -, rfl⟩
    all_goals try first | exact stay rfl | simp only [stepCore] at h
    all_goals (obtain rfl := Option.some.inj h; exact absurd hset (by simpa [St.ret, St.ev, St.setStk, St.setCtx, St.hold] using hno))

/-! ## Examples: the hypotheses are met by concrete executions -/

/-- Main registers, spawns thread 1, then makes the call `a`; thread 1 makes the call `b`. -/
def twoProg (a b : Api Nat Nat) : List (Act Nat Nat) :=
  [.call .registerThis 2, .call (.spawn 1 6) 3, .call a 4, .ret .unit, .ret .unit, .call b 0]

/-- `wait()` blocks, is woken by an invoke of thread 1 and runs the task: hypotheses of `C13_reason` with `n = 1`. -/
example : ∃ s0 n s s', Reach (tableClient (prog (twoProg .wait (.invoke 1 10)))) () 1 s0 ∧
    s0.stk 0 = .core (.waitIn none) :: [.client 4] ∧
    Frag (tableClient (prog (twoProg .wait (.invoke 1 10)))) 0 [.client 4] s0 n s ∧
    step (tableClient (prog (twoProg .wait (.invoke 1 10)))) s (.th 0 .go) = some s' ∧
    (s'.stk 0, (s'.thr 0).exc, n) = ([.client 4], none, 1) :=
  fragWit (ls1 := go 0 7) (ls2 := go 0 1 ++ go 1 4 ++ go 0 4) (obs := fun _ n _ s' => (s'.stk 0, (s'.thr 0).exc, n)) (by decide +kernel)

/-- `wait_for(2500ns)` times out after 2000ns: hypotheses of `C21_timeout`. -/
example : ∃ s0 n s s', Reach (tableClient (prog (twoProg (.waitFor 2500) (.invoke 1 10)))) () 1 s0 ∧
    s0.stk 0 = .core (.waitForIn 2500) :: [.client 4] ∧
    Frag (tableClient (prog (twoProg (.waitFor 2500) (.invoke 1 10)))) 0 [.client 4] s0 n s ∧
    step (tableClient (prog (twoProg (.waitFor 2500) (.invoke 1 10)))) s (.th 0 .timeout) = some s' ∧
    (s'.stk 0, (s'.thr 0).exc, (s'.thr 0).rv, n) = ([.client 4], none, .cv true, 0) :=
  fragWit (ls1 := go 0 7) (ls2 := go 0 2 ++ [.tick 2000]) (obs := fun _ n _ s' => (s'.stk 0, (s'.thr 0).exc, (s'.thr 0).rv, n))
    (by decide +kernel)

/-- `process()` runs the task thread 1 queued and returns: hypotheses of `C12_drains`. -/
example : ∃ s0 n s s', Reach (tableClient (prog (twoProg .process (.invoke 1 10)))) () 1 s0 ∧
    s0.stk 0 = .core .procAll :: [.client 4] ∧
    Frag (tableClient (prog (twoProg .process (.invoke 1 10)))) 0 [.client 4] s0 n s ∧
    step (tableClient (prog (twoProg .process (.invoke 1 10)))) s (.th 0 .go) = some s' ∧
    (s'.stk 0, (s'.thr 0).exc, n) = ([.client 4], none, 1) :=
  fragWit (ls1 := go 0 7) (ls2 := go 1 4 ++ go 0 5) (obs := fun _ n _ s' => (s'.stk 0, (s'.thr 0).exc, n)) (by decide +kernel)

/-- `process()` is about to start a task: hypotheses of `C12_no_start_after_exit`. -/
example : ∃ s0 n s s', Reach (tableClient (prog (twoProg .process (.invoke 1 10)))) () 1 s0 ∧
    s0.stk 0 = .core .procAll :: [.client 4] ∧
    Frag (tableClient (prog (twoProg .process (.invoke 1 10)))) 0 [.client 4] s0 n s ∧
    step (tableClient (prog (twoProg .process (.invoke 1 10)))) s (.th 0 .go) = some s' ∧
    ((s.stk 0).length, decide (s'.log = .started 0 0 10 :: s.log)) = (2, true) :=
  fragWit (ls1 := go 0 7) (ls2 := go 1 4) (obs := fun _ _ s s' => ((s.stk 0).length, decide (s'.log = .started 0 0 10 :: s.log)))
    (by decide +kernel)

/-- `process_for(5us)` runs one task and returns because the queue is empty: hypotheses of `C52_returns`; the state before the
    task is started meets those of `C52_no_start_late`. -/
example : ∃ s0 n s s', Reach (tableClient (prog (twoProg (.processFor 5000) (.invoke 1 10)))) () 1 s0 ∧
    s0.stk 0 = .core (.procForIn 5000) :: [.client 4] ∧
    Frag (tableClient (prog (twoProg (.processFor 5000) (.invoke 1 10)))) 0 [.client 4] s0 n s ∧
    step (tableClient (prog (twoProg (.processFor 5000) (.invoke 1 10)))) s (.th 0 .go) = some s' ∧
    (s'.stk 0, (s'.thr 0).exc, n) = ([.client 4], none, 1) :=
  fragWit (ls1 := go 0 7) (ls2 := go 1 4 ++ go 0 6) (obs := fun _ n _ s' => (s'.stk 0, (s'.thr 0).exc, n)) (by decide +kernel)

/-- `sleep_for(5us)` runs a task in between and returns when the time is up: hypotheses of `C20_sleep`. -/
example : ∃ s0 n s s', Reach (tableClient (prog (twoProg (.sleepFor 5000) (.invoke 1 10)))) () 1 s0 ∧
    s0.stk 0 = .core (.sleepIn 5000) :: [.client 4] ∧
    Frag (tableClient (prog (twoProg (.sleepFor 5000) (.invoke 1 10)))) 0 [.client 4] s0 n s ∧
    step (tableClient (prog (twoProg (.sleepFor 5000) (.invoke 1 10)))) s (.th 0 .go) = some s' ∧
    (s'.stk 0, (s'.thr 0).exc, s.clock, stas 0 s.log) = ([.client 4], none, 7000, [10]) :=
  fragWit (ls1 := go 0 7) (ls2 := go 1 4 ++ go 0 8 ++ [.tick 7000] ++ go 0 1)
    (obs := fun _ _ s s' => (s'.stk 0, (s'.thr 0).exc, s.clock, stas 0 s.log)) (by decide +kernel)

/-- Thread 1 notifies main: hypotheses of `C15_takes_effect`, `C15_sticky` (with `c = 0`) and `C15_never_blocks`. -/
example : ∃ s0 n s s', Reach (tableClient (prog (twoProg .wait (.notifyExit 1)))) () 1 s0 ∧
    s0.stk 1 = .core (.exitLook 1) :: [.client 0] ∧
    Frag (tableClient (prog (twoProg .wait (.notifyExit 1)))) 1 [.client 0] s0 n s ∧
    step (tableClient (prog (twoProg .wait (.notifyExit 1)))) s (.th 1 .go) = some s' ∧
    (s'.stk 1, decide (Ev.exitSet 0 ∈ s.log), s'.loc 0, s.stk 0) = ([.client 0], true, some 0, [.core (.waitIn none), .client 4]) :=
  fragWit (ls1 := go 0 7 ++ go 1 1) (ls2 := go 1 2)
    (obs := fun _ _ s s' => (s'.stk 1, decide (Ev.exitSet 0 ∈ s.log), s'.loc 0, s.stk 0)) (by decide +kernel)

/-- Thread 1 notifies main: hypotheses of `C15_only`. -/
example : ∃ s0 n s s', Reach (tableClient (prog (twoProg .wait (.notifyExit 1)))) () 1 s0 ∧
    s0.stk 1 = .core (.exitLook 1) :: [.client 0] ∧
    Frag (tableClient (prog (twoProg .wait (.notifyExit 1)))) 1 [.client 0] s0 n s ∧
    step (tableClient (prog (twoProg .wait (.notifyExit 1)))) s (.th 1 .go) = some s' ∧
    (s.stk 1, decide (Ev.exitSet 0 ∈ s.log), decide (Ev.exitSet 0 ∈ s'.log)) = ([.core (.exitSet 0), .client 0], false, true) :=
  fragWit (ls1 := go 0 7 ++ go 1 1) (ls2 := go 1 1)
    (obs := fun _ _ s s' => (s.stk 1, decide (Ev.exitSet 0 ∈ s.log), decide (Ev.exitSet 0 ∈ s'.log))) (by decide +kernel)

/-- Main is blocked in `wait()` and thread 1 has queued a task: hypotheses of `C08_no_lost_wakeup`. -/
example : ∃ s, Reach (tableClient (prog (twoProg .wait (.invoke 1 10)))) () 1 s ∧
    (s.ub, s.term, s.stk 0, decide (stas 0 s.log = accs 0 s.log), s.log.any fun | .unregistered _ _ _ => true | _ => false) =
      (false, false, [.core (.parked 0 none), .client 4], false, false) :=
  wit (ls := go 0 8 ++ go 1 3) (fun s => (s.ub, s.term, s.stk 0, decide (stas 0 s.log = accs 0 s.log),
    s.log.any fun | .unregistered _ _ _ => true | _ => false)) (by decide +kernel)

/-- The infinite execution that performs the steps `ls` and then only lets time pass by zero. -/
theorem Run.ofList {C : Client τ φ δ χ} {s s' : St τ φ δ} {ls : List (Lbl χ)} (h : run C s ls = some s') (hub : s'.ub = false)
    (hterm : s'.term = false) : ∃ r : Run C, r.st 0 = s ∧ (∀ i, run C s (ls.take i) = some (r.st i)) ∧
      ∀ i, ls.length ≤ i → r.st i = s' := by
  induction ls generalizing s with
  | nil =>
    obtain rfl := Option.some.inj h
    refine ⟨⟨fun _ => s, fun _ => .tick 0, ?_⟩, rfl, ?_, fun _ _ => rfl⟩
    · intro i
      unfold step
      rw [if_neg (by simp [hub, hterm])]
      rfl
    · intro i; simp [run]
  | cons l ls ih =>
    simp only [run] at h
    split at h
    · contradiction
    · rename_i s1 h1
      obtain ⟨r, h2, h3, h4⟩ := ih h
      refine ⟨⟨fun i => match i with | 0 => s | i + 1 => r.st i, fun i => match i with | 0 => l | i + 1 => r.lab i, ?_⟩,
        rfl, ?_, ?_⟩
      · intro i
        cases i with
        | zero => simp only [h2, h1]
        | succ i => exact r.ok i
      · intro i
        cases i with
        | zero => simp [run]
        | succ i => simp [run, h1, h3]
      · intro i hi
        cases i with
        | zero => simp at hi
        | succ i => exact h4 i (by simpa using hi)

/-- An infinite fair execution in which main is blocked in `wait()` while a task is queued: hypotheses of
    `C08_eventually_wakes`. -/
example : ∃ r : Run (tableClient (prog (twoProg .wait (.invoke 1 10)))), Reach (tableClient (prog (twoProg .wait (.invoke 1 10)))) () 1 (r.st 0) ∧
    r.Fair 0 ∧ (r.st 11).stk 0 = [.core (.parked 0 none), .client 4] ∧ stas 0 (r.st 11).log ≠ accs 0 (r.st 11).log := by
  have h : (exec (twoProg .wait (.invoke 1 10)) (go 0 8 ++ go 1 3 ++ go 0 7)).map
      (fun s => (s.ub, s.term, (s.thr 0).status)) = some (false, false, .zombie) := by decide +kernel
  have h11 : (exec (twoProg .wait (.invoke 1 10)) (go 0 8 ++ go 1 3)).map
      (fun s => (s.stk 0, decide (stas 0 s.log = accs 0 s.log))) = some ([.core (.parked 0 none), .client 4], false) := by decide +kernel
  obtain ⟨s', hs', ho⟩ := Option.map_eq_some_iff.1 h
  obtain ⟨s1, hs1, ho1⟩ := Option.map_eq_some_iff.1 h11
  simp only [Prod.mk.injEq] at ho ho1
  obtain ⟨r, h0, hr, hl⟩ := Run.ofList hs' ho.1 ho.2.1
  have he : r.st 11 = s1 := by
    have := hr 11
    have h2 : (go 0 8 ++ go 1 3 ++ go 0 7).take 11 = go 0 8 ++ go 1 3 := by rfl
    rw [h2] at this
    exact Option.some.inj (this.symm.trans hs1)
  refine ⟨r, ?_, ?_, ?_, ?_⟩
  · rw [h0]; exact ⟨[], rfl⟩
  · intro i hi
    have := hi (max i 18) (by omega)
    rw [hl (max i 18) (Nat.le_max_right i 18)] at this
    simp [step, ho.2.2] at this
  · rw [he]; exact ho1.1
  · rw [he]; simpa using ho1.2

end
end Itc
