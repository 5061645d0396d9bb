import Verif.Core.Live

/-!
# Infinite executions: calls that wait for a limited time (proof infrastructure, no claims)
-/
namespace Itc
open Core
section
variable {τ φ δ χ : Type} {C : Client τ φ δ χ} {d : δ} {f0 : φ} {r : Run C} {t j m : Nat} {l : Option Nat} {f : φ} {rest : List (Frame τ φ)}

/-- Time passes. -/
def Run.Time (r : Run C) : Prop := ∀ n, ∃ m, n ≤ (r.st m).clock

/-- Thread `t` is fairly scheduled; if it is registered it is never unregistered. -/
structure TEnv (r : Run C) (d : δ) (f0 : φ) (t : Nat) (l : Option Nat) : Prop where
  hr : Reach C d f0 (r.st 0)
  just : r.Just t
  unr : ∀ c, l = some c → ∀ j id n, .unregistered c id n ∉ (r.st j).log

/-- From the time `j` to the time `m` thread `t` was above `f`; at the time `m` its stack is `g` above `f`. -/
structure AtT (r : Run C) (t : Nat) (l : Option Nat) (f : φ) (rest : List (Frame τ φ)) (j m : Nat) (g : List (Frame τ φ)) : Prop where
  le : j ≤ m
  stk : (r.st m).stk t = g ++ .client f :: rest
  exc : ((r.st m).thr t).exc = none
  loc : (r.st m).loc t = l
  suf : ∀ m', j ≤ m' → m' < m → ∃ pre x, (r.st m').stk t = pre ++ x :: .client f :: rest

/-- The tasks that a call above `L` executes return, as do their destructors. -/
structure Tasks (r : Run C) (t : Nat) (l : Option Nat) (rr : Cont) (L : List (Frame τ φ)) : Prop where
  run : ∀ c, l = some c → ∀ k, r.Returns t (C.run k) (.core (.ran c k rr) :: L)
  drop : ∀ c, l = some c → ∀ k, r.Returns t (C.destroy k) (.core (.freed c k rr) :: L)

section
set_option tactic.hygienic false in
theorem Core.cv_wake' {C : Client τ φ δ χ} {s s' : St τ φ δ} (h : WF s)
    (q : ∀ u c dl rest, s.stk u = .core (.parked c dl) :: rest → (s.ctxs c).cv = true → (s.ctxs c).wakeup = true) {t : Nat} (he : Eff C s t s') :
    ∀ u c dl rest, s'.stk u = .core (.parked c dl) :: rest → (s'.ctxs c).cv = true → (s'.ctxs c).wakeup = true := by
  intro u c dl0 rest0 hs
  have hL : (Frame.core (.parked c dl0) : Frame τ φ).leaf = true := rfl
  have ht := h.tail t
  have hp := @plain_leaf τ φ
  have h0 := q u c dl0
  have hl0 := h.prk u c dl0
  have hlt := h.loc t
  have hlu := h.loc u
  by_cases hut : u = t
  · subst hut
    cases he
    case ctl =>
      exfalso
      rw [hstk, upd_same] at hs
      rw [hold] at ht
      cases new with
      | nil => simp at hs; grind
      | cons g new => grind
    case freed =>
      exfalso
      rw [hstk, upd_same] at hs
      rw [hold] at ht
      cases new with
      | nil => simp at hs; grind
      | cons g new => grind
    case halt => rw [hstk] at hs; rw [hctx]; exact h0 _ hs
    case fin => rw [hstk, hold] at hs; simp at hs
    case rewait =>
      rw [hstk] at hs
      rw [hctx]
      have h1 := h0 _ hs
      grind [upd_app, Ctx.pend]
    case park =>
      rw [hstk, upd_same] at hs
      simp at hs
      obtain ⟨⟨rfl, -⟩, -⟩ := hs
      rw [hctx]
      simp
    all_goals
      exfalso
      rw [hstk] at hs
      grind [upd_app]
  · have hold' : ∃ r, s.stk u = .core (.parked c dl0) :: r := by
      cases he
      case spawn =>
        rw [hstk, upd_ne _ _ hut] at hs
        by_cases hun : u = n
        · subst hun; simp at hs
        · rw [upd_ne _ _ hun] at hs; exact ⟨_, hs⟩
      all_goals
        rw [hstk] at hs
        try rw [upd_ne _ _ hut] at hs
        exact ⟨_, hs⟩
    obtain ⟨r, hr⟩ := hold'
    have h1 := h0 r hr
    have h2 := hlu c (hl0 r hr)
    have hpt := h.prk t
    cases he
    case regNew =>
      rw [hctx, upd_ne _ _ (by omega)]
      exact h1
    case start =>
      have hl : s.loc t = some c_1 := by
        rcases hf with ⟨-, h3, -⟩ | ⟨dl, rfl, -⟩
        · exact h3
        · exact h.prk t _ dl rest hold
      have h3 := hlt c_1 hl
      rw [hctx]
      rw [upd_ne _ _ (by rintro rfl; exact hut (h2.2.1.symm.trans h3.2.1))]
      exact h1
    case rewait =>
      have h3 := hlt c_1 (hpt _ _ _ hold)
      rw [hctx]
      rw [upd_ne _ _ (by rintro rfl; exact hut (h2.2.1.symm.trans h3.2.1))]
      exact h1
    case parkRet =>
      have h3 := hlt c_1 (hpt _ _ _ hold)
      rw [hctx]
      rw [upd_ne _ _ (by rintro rfl; exact hut (h2.2.1.symm.trans h3.2.1))]
      exact h1
    case park =>
      have h3 := hlt c_1 hlc
      rw [hctx]
      rw [upd_ne _ _ (by rintro rfl; exact hut (h2.2.1.symm.trans h3.2.1))]
      exact h1
    all_goals
      rw [hctx]
      grind [upd_app, Ctx.pend]

/-- While a thread is blocked in a wait, its condition variable has been notified only if the flag is set. -/
theorem Core.cv_wake {s : St τ φ δ} (h : Reach C d f0 s) :
    ∀ u c dl rest, s.stk u = .core (.parked c dl) :: rest → (s.ctxs c).cv = true → (s.ctxs c).wakeup = true := by
  refine Reach.induct (fun s : St τ φ δ => ∀ u c dl rest, s.stk u = .core (.parked c dl) :: rest → (s.ctxs c).cv = true → (s.ctxs c).wakeup = true) ?_ ?_ h
  · intro u c dl rest h1 h2
    simp [Core.init] at h2
  · intro s l s' hr ih hs
    cases l with
    | tick n => rw [step_tick C s s' n hs]; exact ih
    | th t ch => exact Core.cv_wake' (WF.reach hr) ih (step_eff C s s' t ch hs)

theorem pre_of {x : Frame τ φ} {g L L' : List (Frame τ φ)} (h : x :: g ++ L <:+ L') : ∃ pre y, L' = pre ++ y :: L := by
  obtain ⟨pre, rfl⟩ := h
  rcases List.eq_nil_or_concat (x :: g) with h | ⟨a, b, h⟩
  · cases h
  · exact ⟨pre ++ a, b, by rw [h]; simp⟩

theorem Run.clock_le (r : Run C) {i j : Nat} (hij : i ≤ j) : (r.st i).clock ≤ (r.st j).clock := by
  obtain ⟨k, rfl⟩ := Nat.exists_eq_add_of_le hij
  induction k with
  | zero => exact Nat.le_refl _
  | succ k ih => exact Nat.le_trans (ih (by omega)) (step_clock (r.ok (i + k)))

end

section
variable (h : TEnv r d f0 t l) {g : List (Frame τ φ)} {x : Frame τ φ}
include h

/-- The next step of the thread, if it can make one from some time on. -/
theorem TEnv.own (hA : AtT r t l f rest j m (x :: g))
    (hen : (∀ m', m ≤ m' → Same t (r.st m) (r.st m')) → ∃ M, ∀ m', M ≤ m' → m ≤ m' → ∃ ch, (step C (r.st m') (.th t ch)).isSome) :
    ∃ m', m ≤ m' ∧ AtT r t l f rest j m' (x :: g) ∧ ∃ ch, step C (r.st m') (.th t ch) = some (r.st (m' + 1)) := by
  classical
  have hne : (r.st m).stk t ≠ [] := by rw [hA.stk]; simp
  have hex : ∃ j, m ≤ j ∧ ∃ ch, r.lab j = .th t ch := by
    by_contra hcon
    push Not at hcon
    obtain ⟨M, hM⟩ := hen fun m' hm => r.same h.hr hm hne fun q h1 _ => hcon q h1
    obtain ⟨j, h1, ch, h2⟩ := h.just (max M m) fun j hij => hM j (by omega) (by omega)
    exact hcon j (by omega) ch h2
  have h0 := Nat.find_spec hex
  have hmin := fun m => Nat.find_min hex (m := m)
  generalize Nat.find hex = m' at h0 hmin
  obtain ⟨h1, ch, h3⟩ := h0
  have hkeep : ∀ q, m ≤ q → q ≤ m' → Same t (r.st m) (r.st q) := fun q h1 h2 =>
    r.same h.hr h1 hne fun m' h3 h4 ch h5 => hmin m' (by omega) ⟨h3, ch, h5⟩
  have h2 := hkeep m' h1 (Nat.le_refl _)
  have hok := r.ok m'
  rw [h3] at hok
  refine ⟨m', h1, ⟨Nat.le_trans hA.le h1, h2.stk.trans hA.stk, h2.exc.trans hA.exc, h2.loc.trans hA.loc, fun q ha hb => ?_⟩, ch, hok⟩
  rcases Nat.lt_or_ge q m with hq | hq
  · exact hA.suf q ha hq
  · rw [(hkeep q hq (by omega)).stk, hA.stk]
    exact pre_of (List.suffix_refl _)

/-- The same for a thread in a function of the library. -/
theorem TEnv.coreM {F : CF τ φ} (hA : AtT r t l f rest j m (.core F :: g)) {M : Nat}
    (hen : ∀ m', M ≤ m' → AtT r t l f rest j m' (.core F :: g) → ∃ ch, (stepCore C (r.st m') t F (g ++ .client f :: rest) ch).isSome) :
    ∃ m', m ≤ m' ∧ AtT r t l f rest j m' (.core F :: g) ∧ ∃ ch, stepCore C (r.st m') t F (g ++ .client f :: rest) ch = some (r.st (m' + 1)) := by
  obtain ⟨m', h1, h2, ch, h3⟩ := h.own hA fun hsame => ⟨M, fun m' hM hm => by
    have hs := hsame m' hm
    obtain ⟨ch, h1⟩ := hen m' hM ⟨Nat.le_trans hA.le hm, hs.stk.trans hA.stk, hs.exc.trans hA.exc, hs.loc.trans hA.loc, fun q ha hb => by
      rcases Nat.lt_or_ge q m with hq | hq
      · exact hA.suf q ha hq
      · rw [(hsame q hq).stk, hA.stk]
        exact pre_of (List.suffix_refl _)⟩
    refine ⟨ch, ?_⟩
    rw [step_th (r.reach h.hr m') (r.good m').1 (r.good m').2 (hs.stk.trans hA.stk) (hs.exc.trans hA.exc)]
    exact h1⟩
  rw [step_th (r.reach h.hr m') (r.good m').1 (r.good m').2 h2.stk h2.exc] at h3
  exact ⟨m', h1, h2, ch, h3⟩

theorem TEnv.core {F : CF τ φ} (hA : AtT r t l f rest j m (.core F :: g))
    (hen : ∀ m', m ≤ m' → ∃ ch, (stepCore C (r.st m') t F (g ++ .client f :: rest) ch).isSome) :
    ∃ m', m ≤ m' ∧ AtT r t l f rest j m' (.core F :: g) ∧ ∃ ch, stepCore C (r.st m') t F (g ++ .client f :: rest) ch = some (r.st (m' + 1)) :=
  h.coreM hA (M := m) fun m' hm _ => hen m' hm

omit h in
theorem AtT.succ {G : List (Frame τ φ)} (hA : AtT r t l f rest j m (x :: g)) (h1 : (r.st (m + 1)).stk t = G ++ .client f :: rest)
    (h2 : ((r.st (m + 1)).thr t).exc = none) (h3 : (r.st (m + 1)).loc t = (r.st m).loc t) : AtT r t l f rest j (m + 1) G := by
  refine ⟨Nat.le_succ_of_le hA.le, h1, h2, h3.trans hA.loc, fun q ha hb => ?_⟩
  rcases Nat.lt_or_eq_of_le (Nat.le_of_lt_succ hb) with hq | rfl
  · exact hA.suf q ha hq
  · rw [hA.stk]
    exact pre_of (List.suffix_refl _)

theorem TEnv.alive {c : Nat} (hl : l = some c) (hA : AtT r t l f rest j m g) : ((r.st m).ctxs c).life = .alive := by
  have hw := WF.reach (r.reach h.hr m)
  have hloc := hA.loc.trans hl
  obtain ⟨h1, h2, -⟩ := hw.loc t c hloc
  obtain ⟨i, hi⟩ := r.inReg h.hr (((LInv.reach (r.reach h.hr m)).regd c _ t).2 ⟨h1, rfl, h2⟩) (h.unr c hl m)
  exact (hw.mem i c hi).2.2

/-- The thread keeps its registration. -/
theorem TEnv.loc {c n : Nat} (hl : l = some c) (hA : AtT r t l f rest j m g) (hg : .core .unregClear ∉ g) (hn : m ≤ n)
    (hsuf : ∀ m', m ≤ m' → m' ≤ n → .client f :: rest <:+ (r.st m').stk t) : (r.st n).loc t = l := by
  have h0 : Above t c (.client f :: rest) (r.st m) := ⟨g, hA.stk, hg, hA.loc.trans hl⟩
  obtain ⟨id, hreg⟩ := h0.reg (r.reach h.hr m)
  obtain ⟨-, -, -, h1⟩ := r.above h.hr hn hreg (h.unr c hl) h0 hsuf
  exact h1.trans hl.symm

/-- User code returns. -/
theorem TEnv.code {c : Nat} {k : φ} (hl : l = some c) (hA : AtT r t l f rest j m (.client k :: x :: g)) (hg : .core .unregClear ∉ x :: g)
    (hR : r.Returns t k (x :: g ++ .client f :: rest)) : ∃ m', m < m' ∧ AtT r t l f rest j m' (x :: g) := by
  obtain ⟨m', h1, h2, h3, h4⟩ := hR m hA.stk hA.exc
  have hs : ∀ q, m ≤ q → q ≤ m' → .client f :: rest <:+ (r.st q).stk t := fun q ha hb => (List.suffix_append _ _).trans (h4 q ha hb)
  refine ⟨m', h1, ⟨by have := hA.le; omega, h2, h3, h.loc hl hA (by
    simp only [List.mem_cons, reduceCtorEq, false_or] at hg ⊢; exact hg) (by omega) hs, fun q ha hb => ?_⟩⟩
  rcases Nat.lt_or_ge q m with hq | hq
  · exact hA.suf q ha hq
  · exact pre_of (h4 q hq (by omega))

/-- A task returns and is destroyed; then `freed` is left. -/
theorem TEnv.task {c : Nat} {k : τ} {rr : Cont} (hl : l = some c) (hA : AtT r t l f rest j m (.client (C.run k) :: .core (.ran c k rr) :: g))
    (hg : .core .unregClear ∉ g) (hT : Tasks r t l rr (g ++ .client f :: rest)) :
    ∃ m', m < m' ∧ AtT r t l f rest j m' (.core (.freed c k rr) :: g) := by
  obtain ⟨m1, h1, hA1⟩ := h.code hl hA (by simpa using hg) (hT.run c hl k)
  obtain ⟨m2, h2, hA2, ch, hs⟩ := h.core hA1 fun m' _ => ⟨.go, by simp [stepCore]⟩
  simp only [stepCore, Option.some.injEq] at hs
  have hA3 : AtT r t l f rest j (m2 + 1) (.client (C.destroy k) :: .core (.freed c k rr) :: g) :=
    hA2.succ (by rw [← hs]; simp [St.stk, St.setStk]) (by rw [← hs]; simpa [St.setStk] using hA2.exc) (by rw [← hs]; simp [St.loc, St.setStk])
  obtain ⟨m4, h4, hA4⟩ := h.code hl hA3 (by simpa using hg) (hT.drop c hl k)
  exact ⟨m4, by omega, hA4⟩

/-- A task of a wait. -/
theorem TEnv.taskW {c : Nat} {k : τ} {b : Bool} (hl : l = some c) (hA : AtT r t l f rest j m (.client (C.run k) :: .core (.ran c k (.toWait b)) :: g))
    (hg : .core .unregClear ∉ g) (hT : Tasks r t l (.toWait b) (g ++ .client f :: rest)) : ∃ m', m < m' ∧ AtT r t l f rest j m' g := by
  obtain ⟨m1, h1, hA1⟩ := h.task hl hA hg hT
  obtain ⟨m2, h2, hA2, ch, hs⟩ := h.core hA1 fun m' _ => ⟨.go, by simp only [stepCore]; split <;> rfl⟩
  simp only [stepCore, h.alive hl hA2, ne_eq, not_true_eq_false, if_false, Option.some.injEq] at hs
  exact ⟨m2 + 1, by omega, hA2.succ (by rw [← hs]; simp [St.stk, St.ret]) (by rw [← hs]; simpa [St.ret, St.setCtx, St.ev] using hA2.exc)
    (by rw [← hs]; simp [St.loc, St.ret, St.setCtx, St.ev])⟩

omit h in
theorem AtT.started {c : Nat} {k : τ} {y : Ctx τ} {rr : Cont} (hA : AtT r t l f rest j m (x :: g))
    (hs : (r.st m).startTask C t c k y rr (g ++ .client f :: rest) = r.st (m + 1)) :
    AtT r t l f rest j (m + 1) (.client (C.run k) :: .core (.ran c k rr) :: g) := by
  obtain ⟨h1, h2, -⟩ := start_at (C := C) (t := t) (c := c) (s := r.st m) (k := k) (x := y) (rr := rr) (L := g ++ .client f :: rest)
  rw [hs] at h1 h2
  exact hA.succ h1 (h2.trans hA.exc) (by rw [← hs]; simp [St.startTask, St.loc, St.setStk, St.setCtx, St.ev])

/-- A thread that is blocked with a limit wakes up. -/
theorem TEnv.parked (ht : r.Time) {c e : Nat} (hl : l = some c) (hA : AtT r t l f rest j m (.core (.parked c (some e)) :: g)) (hg : .core .unregClear ∉ g)
    (hT : ∀ b, Tasks r t l (.toWait b) (g ++ .client f :: rest)) : ∃ m', m < m' ∧ AtT r t l f rest j m' g := by
  obtain ⟨M, hM⟩ := ht e
  obtain ⟨m1, h1, hA1, ch, hs⟩ := h.coreM hA (M := M) fun m' hm hA' => ⟨.timeout, by
    have hc : e ≤ (r.st m').clock := Nat.le_trans hM (r.clock_le hm)
    simp only [stepCore, hc, if_true]
    repeat' split
    all_goals rfl⟩
  have hpop : ∀ b, (match ({ (r.st m1).ctxs c with wakeup := false } : Ctx τ).pop with
      | some (k, x) => some ((r.st m1).startTask C t c k x (.toWait b) (g ++ .client f :: rest))
      | none => some (((r.st m1).setCtx c { (r.st m1).ctxs c with wakeup := false }).ret t (g ++ .client f :: rest) .wait (.cv b))) = some (r.st (m1 + 1)) →
      ∃ m', m < m' ∧ AtT r t l f rest j m' g := by
    intro b h2
    split at h2
    · obtain ⟨m2, h3, hA2⟩ := h.taskW hl (hA1.started (Option.some.inj h2)) hg (hT _)
      exact ⟨m2, by omega, hA2⟩
    · have h2 := Option.some.inj h2
      exact ⟨m1 + 1, by omega, hA1.succ (by rw [← h2]; simp [St.stk, St.ret]) (by rw [← h2]; simpa [St.ret, St.setCtx] using hA1.exc)
        (by rw [← h2]; simp [St.loc, St.ret, St.setCtx])⟩
  simp only [stepCore] at hs
  rw [if_neg (by simp [h.alive hl hA1])] at hs
  cases ch with
  | go =>
    simp only at hs
    split at hs
    · rename_i hcv
      rw [if_pos (cv_wake (r.reach h.hr m1) t c _ _ hA1.stk hcv)] at hs
      exact hpop _ hs
    · contradiction
  | spurious =>
    simp only at hs
    split at hs
    · exact hpop _ hs
    · contradiction
  | timeout =>
    simp only at hs
    split at hs
    · exact hpop _ hs
    · contradiction
  | user u => contradiction

/-- A wait with a limit, or of a thread that is not registered, returns. -/
theorem TEnv.waitIn (ht : r.Time) {dl : Nat} (hA : AtT r t l f rest j m (.core (.waitIn (some dl)) :: g)) (hg : .core .unregClear ∉ g)
    (hT : ∀ b, Tasks r t l (.toWait b) (g ++ .client f :: rest)) : ∃ m', m < m' ∧ AtT r t l f rest j m' g := by
  obtain ⟨m1, h1, hA1, ch, hs⟩ := h.core hA fun m' _ => ⟨.go, by
    simp only [stepCore]
    repeat' split
    all_goals rfl⟩
  have hloc : ((r.st m1).thr t).loc = l := hA1.loc
  simp only [stepCore, hloc] at hs
  cases l with
  | none =>
    simp only [Option.some.injEq] at hs
    exact ⟨m1 + 1, by omega, hA1.succ (by rw [← hs]; simp [St.stk, St.ret]) (by rw [← hs]; simpa [St.ret] using hA1.exc)
      (by rw [← hs]; simp [St.loc, St.ret])⟩
  | some c =>
    simp only [h.alive rfl hA1, ne_eq, not_true_eq_false, if_false] at hs
    split at hs
    · obtain ⟨m2, h2, hA2⟩ := h.taskW rfl (hA1.started (Option.some.inj hs)) hg (hT _)
      exact ⟨m2, by omega, hA2⟩
    split at hs
    · have hs := Option.some.inj hs
      exact ⟨m1 + 1, by omega, hA1.succ (by rw [← hs]; simp [St.stk, St.ret]) (by rw [← hs]; simpa [St.ret] using hA1.exc)
        (by rw [← hs]; simp [St.loc, St.ret])⟩
    have hs := Option.some.inj hs
    have hA2 : AtT r t (some c) f rest j (m1 + 1) (.core (.parked c (some ((r.st m1).clock + dl))) :: g) :=
      hA1.succ (by rw [← hs]; simp [St.stk, St.setStk]) (by rw [← hs]; simpa [St.setStk, St.setCtx] using hA1.exc)
        (by rw [← hs]; simp [St.loc, St.setStk, St.setCtx])
    obtain ⟨m', h2, h3⟩ := h.parked ht rfl hA2 hg hT
    exact ⟨m', by omega, h3⟩

/-- this_thread::wait_for returns. -/
theorem TEnv.waitFor (ht : r.Time) {dur : Int} (hA : AtT r t l f rest j m (.core (.waitForIn dur) :: g)) (hg : .core .unregClear ∉ g)
    (hT : ∀ b, Tasks r t l (.toWait b) (g ++ .client f :: rest)) : ∃ m', m < m' ∧ AtT r t l f rest j m' g := by
  obtain ⟨m1, h1, hA1, ch, hs⟩ := h.core hA fun m' _ => ⟨.go, by
    simp only [stepCore]
    split <;> rfl⟩
  simp only [stepCore] at hs
  split at hs
  · have hs := Option.some.inj hs
    exact ⟨m1 + 1, by omega, hA1.succ (by rw [← hs]; simp [St.stk, St.ret]) (by rw [← hs]; simpa [St.ret] using hA1.exc)
      (by rw [← hs]; simp [St.loc, St.ret])⟩
  · have hs := Option.some.inj hs
    obtain ⟨m2, h2, hA2⟩ := h.waitIn ht (g := g) (dl := dur.toNat / 1000 * 1000)
      (hA1.succ (by rw [← hs]; simp [St.stk, St.setStk]) (by rw [← hs]; simpa [St.setStk] using hA1.exc)
        (by rw [← hs]; simp [St.loc, St.setStk])) hg hT
    exact ⟨m2, by omega, hA2⟩

/-- One round of sleep_for: it returns, or it reads the clock again at some later time. -/
theorem TEnv.sleepR (ht : r.Time) {e now : Nat} (hA : AtT r t l f rest j m (.core (.sleep e now) :: g)) (hg : .core .unregClear ∉ g)
    (hT : ∀ b, Tasks r t l (.toWait b) (.core (.sleepNow e) :: g ++ .client f :: rest)) :
    (∃ m', m < m' ∧ AtT r t l f rest j m' g) ∨ ∃ m', m < m' ∧ AtT r t l f rest j m' (.core (.sleep e (r.st (m' - 1)).clock) :: g) ∧ now < e := by
  obtain ⟨m1, h1, hA1, ch, hs⟩ := h.core hA fun m' _ => ⟨.go, by
    simp only [stepCore]
    repeat' split
    all_goals rfl⟩
  have hret : (r.st m1).ret t (g ++ .client f :: rest) .sleepFor .unit = r.st (m1 + 1) → ∃ m', m < m' ∧ AtT r t l f rest j m' g := by
    intro hs
    exact ⟨m1 + 1, by omega, hA1.succ (by rw [← hs]; simp [St.stk, St.ret]) (by rw [← hs]; simpa [St.ret] using hA1.exc)
      (by rw [← hs]; simp [St.loc, St.ret])⟩
  simp only [stepCore] at hs
  split at hs
  · rename_i hlt
    split at hs
    · exact .inl (hret (Option.some.inj hs))
    · have hs := Option.some.inj hs
      obtain ⟨m2, h2, hA2⟩ := h.waitFor ht (g := .core (.sleepNow e) :: g) (dur := ((e - now : Nat) : Int))
        (hA1.succ (by rw [← hs]; simp [St.stk, St.setStk]) (by rw [← hs]; simpa [St.setStk] using hA1.exc)
          (by rw [← hs]; simp [St.loc, St.setStk])) (by simpa using hg) hT
      obtain ⟨m3, h3, hA3, ch, hs⟩ := h.core hA2 fun m' _ => ⟨.go, rfl⟩
      simp only [stepCore, Option.some.injEq] at hs
      exact .inr ⟨m3 + 1, by omega, hA3.succ (by rw [← hs]; simp [St.stk, St.setStk]) (by rw [← hs]; simpa [St.setStk] using hA3.exc)
        (by rw [← hs]; simp [St.loc, St.setStk]), hlt⟩
  · exact .inl (hret (Option.some.inj hs))

/-- this_thread::sleep_for returns. -/
theorem TEnv.sleep (ht : r.Time) {e now : Nat} (hA : AtT r t l f rest j m (.core (.sleep e now) :: g)) (hg : .core .unregClear ∉ g)
    (hT : ∀ b, Tasks r t l (.toWait b) (.core (.sleepNow e) :: g ++ .client f :: rest)) : ∃ m', m < m' ∧ AtT r t l f rest j m' g := by
  obtain ⟨M, hM⟩ := ht e
  -- after the time M + 1 the clock that is read is past the end
  suffices hk : ∀ k m now, M + 1 - m ≤ k → (m ≤ M ∨ e ≤ now) → AtT r t l f rest j m (.core (.sleep e now) :: g) → ∃ m', m < m' ∧ AtT r t l f rest j m' g by
    rcases Nat.le_total m M with h1 | h1
    · exact hk _ m now (Nat.le_refl _) (.inl h1) hA
    · rcases h.sleepR ht hA hg hT with h2 | ⟨m2, h2, hA2, -⟩
      · exact h2
      · obtain ⟨m3, h3, hA3⟩ := hk _ m2 _ (Nat.le_refl _) (.inr (Nat.le_trans hM (r.clock_le (by omega)))) hA2
        exact ⟨m3, by omega, hA3⟩
  intro k
  induction k with
  | zero =>
    intro m now h0 h1 hA
    rcases h.sleepR ht hA hg hT with h2 | ⟨m2, -, -, h3⟩
    · exact h2
    · omega
  | succ k ih =>
    intro m now h0 h1 hA
    rcases h.sleepR ht hA hg hT with h2 | ⟨m2, h2, hA2, h3⟩
    · exact h2
    · obtain ⟨m3, h4, hA3⟩ := ih m2 _ (by omega) (by
        rcases Nat.lt_or_ge M m2 with h4 | h4
        · exact .inr (Nat.le_trans hM (r.clock_le (by omega)))
        · exact .inl h4) hA2
      exact ⟨m3, by omega, hA3⟩

theorem TEnv.sleepIn (ht : r.Time) {dur : Int} (hA : AtT r t l f rest j m (.core (.sleepIn dur) :: g)) (hg : .core .unregClear ∉ g)
    (hT : ∀ e b, Tasks r t l (.toWait b) (.core (.sleepNow e) :: g ++ .client f :: rest)) : ∃ m', m < m' ∧ AtT r t l f rest j m' g := by
  obtain ⟨m1, h1, hA1, ch, hs⟩ := h.core hA fun m' _ => ⟨.go, by
    simp only [stepCore]
    split <;> rfl⟩
  simp only [stepCore] at hs
  split at hs
  · have hs := Option.some.inj hs
    exact ⟨m1 + 1, by omega, hA1.succ (by rw [← hs]; simp [St.stk, St.ret]) (by rw [← hs]; simpa [St.ret] using hA1.exc)
      (by rw [← hs]; simp [St.loc, St.ret])⟩
  · have hs := Option.some.inj hs
    obtain ⟨m2, h2, hA2⟩ := h.sleep ht (g := g) (e := (r.st m1).clock + dur.toNat) (now := (r.st m1).clock)
      (hA1.succ (by rw [← hs]; simp [St.stk, St.setStk]) (by rw [← hs]; simpa [St.setStk] using hA1.exc)
        (by rw [← hs]; simp [St.loc, St.setStk])) hg (hT _)
    exact ⟨m2, by omega, hA2⟩

/-- One round of process_for: it returns, or it has executed a task before its end. -/
theorem TEnv.procR {e : Nat} (hA : AtT r t l f rest j m (.core (.procFor e) :: g)) (hg : .core .unregClear ∉ g)
    (hT : Tasks r t l (.toFor e) (g ++ .client f :: rest)) :
    (∃ m', m < m' ∧ AtT r t l f rest j m' g) ∨ ∃ m1 m', m ≤ m1 ∧ m1 < m' ∧ (r.st m1).clock < e ∧ AtT r t l f rest j m' (.core (.procFor e) :: g) := by
  obtain ⟨m1, h1, hA1, ch, hs⟩ := h.core hA fun m' _ => ⟨.go, by
    simp only [stepCore]
    repeat' split
    all_goals rfl⟩
  have hret : (r.st m1).ret t (g ++ .client f :: rest) .processFor .unit = r.st (m1 + 1) → ∃ m', m < m' ∧ AtT r t l f rest j m' g := by
    intro hs
    exact ⟨m1 + 1, by omega, hA1.succ (by rw [← hs]; simp [St.stk, St.ret]) (by rw [← hs]; simpa [St.ret] using hA1.exc)
      (by rw [← hs]; simp [St.loc, St.ret])⟩
  have hloc : ((r.st m1).thr t).loc = l := hA1.loc
  simp only [stepCore, hloc] at hs
  cases l with
  | none => exact .inl (hret (Option.some.inj hs))
  | some c =>
    simp only [h.alive rfl hA1, ne_eq, not_true_eq_false, if_false] at hs
    split at hs
    · exact .inl (hret (Option.some.inj hs))
    rename_i hlt
    simp only [Bool.or_eq_true, decide_eq_true_eq, not_or, not_le] at hlt
    split at hs
    · obtain ⟨m2, h2, hA2⟩ := h.task rfl (hA1.started (Option.some.inj hs)) hg hT
      obtain ⟨m3, h3, hA3, ch, hs⟩ := h.core hA2 fun m' _ => ⟨.go, by simp only [stepCore]; split <;> rfl⟩
      simp only [stepCore, h.alive rfl hA3, ne_eq, not_true_eq_false, if_false, Option.some.injEq] at hs
      exact .inr ⟨m1, m3 + 1, h1, by omega, hlt.2, hA3.succ (by rw [← hs]; simp [St.stk, St.setStk]) (by rw [← hs]; simpa [St.setStk, St.setCtx, St.ev] using hA3.exc)
        (by rw [← hs]; simp [St.loc, St.setStk, St.setCtx, St.ev])⟩
    · exact .inl (hret (Option.some.inj hs))

/-- process_for returns. -/
theorem TEnv.procFor (ht : r.Time) {e : Nat} (hA : AtT r t l f rest j m (.core (.procFor e) :: g)) (hg : .core .unregClear ∉ g)
    (hT : Tasks r t l (.toFor e) (g ++ .client f :: rest)) : ∃ m', m < m' ∧ AtT r t l f rest j m' g := by
  obtain ⟨M, hM⟩ := ht e
  have hk : ∀ k m, M - m ≤ k → AtT r t l f rest j m (.core (.procFor e) :: g) → ∃ m', m < m' ∧ AtT r t l f rest j m' g := by
    intro k
    induction k with
    | zero =>
      intro m h0 hA
      rcases h.procR hA hg hT with h2 | ⟨m1, m2, h2, h3, h4, -⟩
      · exact h2
      · have := r.clock_le (i := M) (j := m1) (by omega)
        omega
    | succ k ih =>
      intro m h0 hA
      rcases h.procR hA hg hT with h2 | ⟨m1, m2, h2, h3, h4, hA2⟩
      · exact h2
      · obtain ⟨m3, h4, hA3⟩ := ih m2 (by omega) hA2
        exact ⟨m3, by omega, hA3⟩
  exact hk _ m (Nat.le_refl _) hA

theorem TEnv.procForIn (ht : r.Time) {dur : Int} (hA : AtT r t l f rest j m (.core (.procForIn dur) :: g)) (hg : .core .unregClear ∉ g)
    (hT : ∀ e, Tasks r t l (.toFor e) (g ++ .client f :: rest)) : ∃ m', m < m' ∧ AtT r t l f rest j m' g := by
  obtain ⟨m1, h1, hA1, ch, hs⟩ := h.core hA fun m' _ => ⟨.go, by
    simp only [stepCore]
    split <;> rfl⟩
  have hloc : ((r.st m1).thr t).loc = l := hA1.loc
  simp only [stepCore, hloc] at hs
  cases l with
  | none =>
    have hs := Option.some.inj hs
    exact ⟨m1 + 1, by omega, hA1.succ (by rw [← hs]; simp [St.stk, St.ret]) (by rw [← hs]; simpa [St.ret] using hA1.exc)
      (by rw [← hs]; simp [St.loc, St.ret])⟩
  | some c =>
    have hs := Option.some.inj hs
    obtain ⟨m2, h2, hA2⟩ := h.procFor ht (g := g) (e := (r.st m1).clock + dur.toNat / 1000 * 1000)
      (hA1.succ (by rw [← hs]; simp [St.stk, St.setStk]) (by rw [← hs]; simpa [St.setStk] using hA1.exc)
        (by rw [← hs]; simp [St.loc, St.setStk])) hg (hT _)
    exact ⟨m2, by omega, hA2⟩

end
end
end Itc
