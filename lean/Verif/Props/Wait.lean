import Verif.Core.Ctl
import Verif.Core.Demo

/-!
# C08, C12, C13, C15, C20, C21, C52: blocking and processing functions of this_thread

For an arbitrary client, schedule and execution length.  `Frag C t rest s0 n s`: the call that thread `t` makes in `s0` (its
program point is directly above `rest` on the stack) is still in progress in `s` and has itself started `n` queued tasks.
-/
namespace Itc
open Core
section
variable {τ φ δ χ : Type} {C : Client τ φ δ χ} {d : δ} {f : φ} {s s' s0 : St τ φ δ}

/-! ## Infrastructure: steps of the activation -/

theorem step_core {t : Nat} {ch : Ch χ} {g : CF τ φ} {rest : List (Frame τ φ)} (hs : step C s (.th t ch) = some s')
    (hst : s.stk t = .core g :: rest) :
    ((s.thr t).exc = none ∧ stepCore C s t g rest ch = some s') ∨
    (∃ e, (s.thr t).exc = some e ∧ s' = stepExc C s t e (.core g :: rest)) := by
  have hst' : (s.thr t).stack = .core g :: rest := hst
  simp only [step] at hs
  split at hs
  · contradiction
  split at hs
  · contradiction
  split at hs
  · rename_i e he
    rw [hst'] at hs
    exact .inr ⟨e, he, (Option.some.inj hs).symm⟩
  · rename_i he
    rw [hst'] at hs
    exact .inl ⟨he, hs⟩

theorem top_uniq {rest a b : List (Frame τ φ)} {x y : Frame τ φ} (hab : a ++ x :: rest = b ++ y :: rest) : a = b ∧ x = y := by
  have h1 : (a ++ [x]) ++ rest = (b ++ [y]) ++ rest := by simpa using hab
  have h2 := List.append_cancel_right h1
  exact ⟨(List.append_inj' h2 rfl).1, by simpa using (List.append_inj' h2 rfl).2⟩

theorem top_ne {rest a : List (Frame τ φ)} {x : Frame τ φ} : rest ≠ a ++ x :: rest := by
  intro h
  have := congrArg List.length h
  simp only [List.length_append, List.length_cons] at this
  omega

theorem log_ne {e : Ev τ} {l : List (Ev τ)} : l ≠ e :: l := by
  intro h
  have := congrArg List.length h
  simp at this

theorem log_ne2 {e e' : Ev τ} {l : List (Ev τ)} : e' :: l ≠ e :: e' :: l := by
  intro h
  have := congrArg List.length h
  simp at this

/-- The step that ends an activation is a step of its thread, with the activation's frame on top. -/
theorem Frag.last {t n : Nat} {rest pre : List (Frame τ φ)} {g : Frame τ φ} {l : Lbl χ} (hr : Reach C d f s)
    (hst : s.stk t = pre ++ g :: rest) (hs : step C s l = some s') (hend : s'.stk t = rest) :
    pre = [] ∧ ∃ ch, l = .th t ch := by
  cases l with
  | tick m =>
    rw [step_tick C s s' m hs] at hend
    exact absurd (hend.symm.trans hst) top_ne
  | th u ch =>
    by_cases hu : u = t
    · subst hu
      refine ⟨?_, ch, rfl⟩
      cases pre with
      | nil => rfl
      | cons p pre =>
        obtain ⟨new, hnew⟩ := step_stk_self hs (g := p) (r := pre ++ g :: rest) (by simpa using hst)
        rw [hend, ← List.append_assoc] at hnew
        exact absurd hnew top_ne
    · rw [step_stk_other hu (FreeOK.reach hr) hs (by rw [hst]; simp)] at hend
      exact absurd (hend.symm.trans hst) top_ne

/-! ## C08: no lost wake-up -/

theorem live_inReg (h : Reach C d f s) {t c : Nat} {dl : Option Nat} {rest : List (Frame τ φ)}
    (hst : s.stk t = .core (.parked c dl) :: rest) (hreg : ∀ id n, Ev.unregistered c id n ∉ s.log) : InReg s c := by
  by_contra hn
  have hwf := WF.reach h
  have hlt := (hwf.loc t c (hwf.prk t c dl rest hst)).1
  exact hreg _ _ (((LInv.reach h).unr c _ _).2 ⟨hlt, hn, rfl, rfl⟩)

theorem wake_reason (h : Reach C d f s) {c : Nat} (hreg : InReg s c)
    (hw : stas c s.log ≠ accs c s.log ∨ Ev.exitSet c ∈ s.log) : (s.ctxs c).pend ≠ [] ∨ (s.ctxs c).exit = true := by
  have hq := QInv.reach h
  obtain ⟨i, hi⟩ := hreg
  have hal := ((WF.reach h).mem i c hi).2.2
  rcases hw with h1 | h1
  · left
    intro h3
    have := hq.cons c
    rw [hq.alive c hal, h3] at this
    simp at this
    exact h1 this.symm
  · right; exact (hq.exit c).2 h1

/-- A registered blocked thread that has an accepted task not yet started, or was notified for exit, can continue at once: the
    step in which its condition variable wait ends because of a notification is enabled, and that step unblocks it. -/
theorem C08_no_lost_wakeup (h : Reach C d f s) (hub : s.ub = false) (hterm : s.term = false) {t c : Nat}
    {dl : Option Nat} {rest : List (Frame τ φ)} (hst : s.stk t = .core (.parked c dl) :: rest)
    (hreg : ∀ id n, Ev.unregistered c id n ∉ s.log)
    (hw : stas c s.log ≠ accs c s.log ∨ Ev.exitSet c ∈ s.log) :
    ∃ s', step C s (.th t .go) = some s' ∧ ∀ c' dl' rest', s'.stk t ≠ .core (.parked c' dl') :: rest' := by
  have hq := QInv.reach h
  have hwf := WF.reach h
  have hin := live_inReg h hst hreg
  have hk := hq.wake t c dl rest hst
  have hwk := hk.1 (wake_reason h hin hw)
  have hcv := hk.2 hwk
  have hal : (s.ctxs c).life = .alive := by obtain ⟨i, hi⟩ := hin; exact (hwf.mem i c hi).2.2
  have hrun := running_of_stk (FreeOK.reach h) (t := t) (by rw [hst]; simp)
  have hexc : (s.thr t).exc = none := by
    by_contra hne
    have := EInv.reach h t hne (.core (.parked c dl)) (by rw [hst]; simp)
    simp [Frame.leaf] at this
  have hst' : (s.thr t).stack = .core (.parked c dl) :: rest := hst
  have htail : ∀ c' dl' rest', rest ≠ Frame.core (.parked c' dl') :: rest' := by
    intro c' dl' rest' h1
    have := hwf.tail t (.core (.parked c' dl')) (by rw [hst]; simp [h1])
    simp [Frame.leaf] at this
  have hstep : step C s (.th t .go) = stepCore C s t (.parked c dl) rest .go := by
    simp only [step, hub, hterm, hrun, hexc, hst']
    simp
  rw [hstep]
  simp only [stepCore]
  rw [if_neg (by simp [hal]), if_pos hcv, if_pos hwk]
  split
  · refine ⟨_, rfl, ?_⟩
    intro c' dl' rest'
    simp [St.stk, St.startTask, St.setStk]
  · refine ⟨_, rfl, ?_⟩
    intro c' dl' rest'
    simp only [St.stk, St.ret, upd_same]
    exact htail c' dl' rest'

/-- An infinite execution. -/
structure Run (C : Client τ φ δ χ) where
  st : Nat → St τ φ δ
  lab : Nat → Lbl χ
  ok : ∀ i, step C (st i) (lab i) = some (st (i + 1))

/-- The scheduler does not forever ignore thread `t` while its condition variable signal lets it continue. -/
def Run.Fair (r : Run C) (t : Nat) : Prop :=
  ∀ i, (∀ j, i ≤ j → (step C (r.st j) (.th t .go)).isSome) → ∃ j, i ≤ j ∧ r.lab j = .th t .go

/-- Under a fair scheduler, a registered blocked thread that has an accepted task not yet started or was notified for exit
    eventually continues. -/
theorem C08_eventually_wakes (r : Run C) (hr : Reach C d f (r.st 0)) {t c : Nat} (hfair : r.Fair t) {i : Nat} {dl : Option Nat}
    {rest : List (Frame τ φ)} (hst : (r.st i).stk t = .core (.parked c dl) :: rest)
    (hreg : ∀ id n, Ev.unregistered c id n ∉ (r.st i).log)
    (hw : stas c (r.st i).log ≠ accs c (r.st i).log ∨ Ev.exitSet c ∈ (r.st i).log) :
    ∃ j, i < j ∧ ∀ dl' rest', (r.st j).stk t ≠ .core (.parked c dl') :: rest' := by
  have hreach : ∀ j, Reach C d f (r.st j) := by
    intro j
    induction j with
    | zero => exact hr
    | succ j ih => exact ih.step (r.ok j)
  have hgood : ∀ j, (r.st j).ub = false ∧ (r.st j).term = false := by
    intro j
    have := r.ok j
    simp only [step] at this
    split at this
    · contradiction
    · rename_i hh; simpa using hh
  by_contra hcon
  push Not at hcon
  have hpark : ∀ j, i ≤ j → ∃ dl' rest', (r.st j).stk t = .core (.parked c dl') :: rest' := by
    intro j hj
    rcases Nat.lt_or_eq_of_le hj with h1 | rfl
    · exact hcon j h1
    · exact ⟨dl, rest, hst⟩
  -- the reason to continue persists
  have hkeep : ∀ k, InReg (r.st (i + k)) c ∧
      (((r.st (i + k)).ctxs c).pend ≠ [] ∨ ((r.st (i + k)).ctxs c).exit = true) := by
    intro k
    induction k with
    | zero =>
      have hin := live_inReg (hreach i) hst hreg
      exact ⟨hin, wake_reason (hreach i) hin hw⟩
    | succ k ih =>
      obtain ⟨dl1, rest1, hp1⟩ := hpark (i + k) (by omega)
      obtain ⟨dl2, rest2, hp2⟩ := hpark (i + k + 1) (by omega)
      have hok := r.ok (i + k)
      cases hl : r.lab (i + k) with
      | tick m =>
        rw [hl] at hok
        have := step_tick C _ _ m hok
        rw [show i + (k + 1) = i + k + 1 from rfl, this]
        exact ih
      | th u ch =>
        rw [hl] at hok
        exact park_persist (WF.reach (hreach _)) (step_eff C _ _ u ch hok) hp1 hp2 ih.1 ih.2
  have hgo : ∀ j, i ≤ j → ∃ s', step C (r.st j) (.th t .go) = some s' ∧
      ∀ c' dl' rest', s'.stk t ≠ .core (.parked c' dl') :: rest' := by
    intro j hj
    obtain ⟨dl1, rest1, hp1⟩ := hpark j hj
    obtain ⟨k, rfl⟩ := Nat.exists_eq_add_of_le hj
    have hk := hkeep k
    have hq := QInv.reach (hreach (i + k))
    obtain ⟨ii, hii⟩ := hk.1
    have hal := ((WF.reach (hreach (i + k))).mem ii c hii).2.2
    refine C08_no_lost_wakeup (hreach _) (hgood _).1 (hgood _).2 hp1 ?_ ?_
    · intro id n hm
      exact (((LInv.reach (hreach (i + k))).unr c id n).1 hm).2.1 hk.1
    · rcases hk.2 with h1 | h1
      · left
        intro h2
        have := hq.cons c
        rw [hq.alive c hal, h2] at this
        simp at this
        exact h1 this
      · right; exact (hq.exit c).1 h1
  obtain ⟨j, hj, hlab⟩ := hfair i (fun j hj => by obtain ⟨s', h1, -⟩ := hgo j hj; rw [h1]; rfl)
  obtain ⟨s', h1, h2⟩ := hgo j hj
  have hok := r.ok j
  rw [hlab, h1] at hok
  obtain rfl := Option.some.inj hok
  obtain ⟨dl', rest', hp⟩ := hpark (j + 1) (by omega)
  exact h2 _ _ _ hp

end
end Itc
