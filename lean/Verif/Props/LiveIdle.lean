import Verif.Props.LiveTimed
import Verif.Props.LiveEnd

/-!
# C80: `wait` and `process` return

For an arbitrary client and infinite execution; vocabulary of `Verif.Props.Live` and `Verif.Props.LiveTimed`.
-/
namespace Itc
open Core
section
variable {τ φ δ χ : Type} {C : Client τ φ δ χ} {d : δ} {f0 : φ} {r : Run C} {t i j m : Nat} {l : Option Nat} {f : φ} {rest g : List (Frame τ φ)}

/-- From the time `m` on thread `t` is blocked, all tasks sent to it have been started, and it has not been told to exit. -/
def Idle (r : Run C) (t c m : Nat) : Prop :=
  ∀ q, m ≤ q → (∃ dl L, (r.st q).stk t = .core (.parked c dl) :: L) ∧ stas c (r.st q).log = accs c (r.st q).log ∧ .exitSet c ∉ (r.st q).log

theorem TEnv.parkedFree (h : TEnv r d f0 t l) {c : Nat} (hl : l = some c) (hA : AtT r t l f rest j m [.core (.parked c none)])
    (hT : ∀ b, Tasks r t l (.toWait b) (.client f :: rest)) : (∃ m', m < m' ∧ AtT r t l f rest j m' []) ∨ Idle r t c m := by
  by_cases hst : ∀ m', m ≤ m' → Same t (r.st m) (r.st m')
  · right
    have hcalm : Calm r d f0 t c f rest := ⟨h.hr, h.just, .of (h.unr c hl), fun k b => (hT b).run c hl k, fun k b => (hT b).drop c hl k⟩
    have hrnd : ∀ q, m ≤ q → Round r t c f rest m q [.core (.parked c none)] := fun q hq =>
      ⟨hq, (hst q hq).stk.trans hA.stk, (hst q hq).exc.trans hA.exc, fun n h1 _ => by rw [(hst n h1).stk, hA.stk]; exact List.suffix_append _ _⟩
    have h0 : Above t c (.client f :: rest) (r.st m) := ⟨[.core (.parked c none)], hA.stk, by simp, hA.loc.trans hl⟩
    intro q hq
    have hno := fun hp => hcalm.wakes h0 hrnd hq hp
    refine ⟨⟨_, _, (hrnd q hq).stk⟩, ?_, fun hx => hno (.inr (((QInv.reach (r.reach h.hr q)).exit c).2 hx))⟩
    have h1 := (hcalm.at hq h0 (hrnd q hq).suf).2.2.2
    rw [show ((r.st q).ctxs c).pend = [] from by by_contra hp; exact hno (.inl hp), List.append_nil] at h1
    exact h1.symm
  left
  obtain ⟨m1, h1, hA1, ch, hs⟩ := h.own hA fun h1 => absurd h1 hst
  rw [step_th (r.reach h.hr m1) (r.good m1).1 (r.good m1).2 hA1.stk hA1.exc] at hs
  have hpop : ∀ b, (match ({ (r.st m1).ctxs c with wakeup := false } : Ctx τ).pop with
      | some (k, x) => some ((r.st m1).startTask C t c k x (.toWait b) (.client f :: rest))
      | none => some (((r.st m1).setCtx c { (r.st m1).ctxs c with wakeup := false }).ret t (.client f :: rest) .wait (.cv b))) = some (r.st (m1 + 1)) →
      ∃ m', m < m' ∧ AtT r t l f rest j m' [] := by
    intro b h2
    split at h2
    · obtain ⟨m2, h3, hA2⟩ := h.taskW hl (hA1.started (Option.some.inj h2)) (by simp) (hT _)
      exact ⟨m2, by omega, hA2⟩
    · have h2 := Option.some.inj h2
      exact ⟨m1 + 1, by omega, hA1.succ (by rw [← h2]; simp [St.stk, St.ret]) (by rw [← h2]; simpa [St.ret, St.setCtx] using hA1.exc)
        (by rw [← h2]; simp [St.loc, St.ret, St.setCtx])⟩
  simp only [stepCore, List.nil_append] at hs
  rw [if_neg (by simp [h.alive hl hA1])] at hs
  cases ch with
  | go =>
    simp only at hs
    split at hs
    · rename_i hcv
      rw [if_pos (cv_wake (r.reach h.hr m1) t c _ _ hA1.stk hcv)] at hs
      exact hpop _ hs
    · contradiction
  | spurious =>
    simp only at hs
    split at hs
    · exact hpop _ hs
    · contradiction
  | timeout => contradiction
  | user u => contradiction

theorem TEnv.waitFree (h : TEnv r d f0 t l) (hA : AtT r t l f rest j m [.core (.waitIn none)])
    (hT : ∀ b, Tasks r t l (.toWait b) (.client f :: rest)) : (∃ m', m < m' ∧ AtT r t l f rest j m' []) ∨ ∃ c m', l = some c ∧ m < m' ∧ Idle r t c m' := by
  obtain ⟨m1, h1, hA1, ch, hs⟩ := h.core hA fun m' _ => ⟨.go, by
    simp only [stepCore]
    repeat' split
    all_goals rfl⟩
  have hloc : ((r.st m1).thr t).loc = l := hA1.loc
  simp only [stepCore, hloc, List.nil_append] at hs
  cases l with
  | none =>
    simp only [Option.some.injEq] at hs
    exact .inl ⟨m1 + 1, by omega, hA1.succ (by rw [← hs]; simp [St.stk, St.ret]) (by rw [← hs]; simpa [St.ret] using hA1.exc)
      (by rw [← hs]; simp [St.loc, St.ret])⟩
  | some c =>
    simp only [h.alive rfl hA1, ne_eq, not_true_eq_false, if_false] at hs
    split at hs
    · obtain ⟨m2, h2, hA2⟩ := h.taskW rfl (hA1.started (Option.some.inj hs)) (by simp) (hT _)
      exact .inl ⟨m2, by omega, hA2⟩
    split at hs
    · have hs := Option.some.inj hs
      exact .inl ⟨m1 + 1, by omega, hA1.succ (by rw [← hs]; simp [St.stk, St.ret]) (by rw [← hs]; simpa [St.ret] using hA1.exc)
        (by rw [← hs]; simp [St.loc, St.ret])⟩
    have hs := Option.some.inj hs
    have hA2 : AtT r t (some c) f rest j (m1 + 1) [.core (.parked c none)] :=
      hA1.succ (by rw [← hs]; simp [St.stk, St.setStk]) (by rw [← hs]; simpa [St.setStk, St.setCtx] using hA1.exc)
        (by rw [← hs]; simp [St.loc, St.setStk, St.setCtx])
    rcases h.parkedFree rfl hA2 hT with ⟨m', h2, h3⟩ | h2
    · exact .inl ⟨m', by omega, h3⟩
    · exact .inr ⟨c, _, rfl, by omega, h2⟩

/-- One round of process: it returns, or it was not told to exit and has executed a task. -/
theorem TEnv.allR (h : TEnv r d f0 t l) (hA : AtT r t l f rest j m [.core .procAll]) (hT : Tasks r t l .toAll (.client f :: rest)) :
    (∃ m', m < m' ∧ AtT r t l f rest j m' []) ∨ ∃ c m1 m', l = some c ∧ m ≤ m1 ∧ m1 < m' ∧ .exitSet c ∉ (r.st m1).log ∧
      (stas c (r.st m).log).length < (stas c (r.st m').log).length ∧ AtT r t l f rest j m' [.core .procAll] := by
  obtain ⟨m1, h1, hA1, ch, hs⟩ := h.core hA fun m' _ => ⟨.go, by
    simp only [stepCore]
    repeat' split
    all_goals rfl⟩
  have hret : (r.st m1).ret t (.client f :: rest) .process .unit = r.st (m1 + 1) → ∃ m', m < m' ∧ AtT r t l f rest j m' [] := by
    intro hs
    exact ⟨m1 + 1, by omega, hA1.succ (by rw [← hs]; simp [St.stk, St.ret]) (by rw [← hs]; simpa [St.ret] using hA1.exc)
      (by rw [← hs]; simp [St.loc, St.ret])⟩
  have hloc : ((r.st m1).thr t).loc = l := hA1.loc
  simp only [stepCore, hloc, List.nil_append] at hs
  cases l with
  | none => exact .inl (hret (Option.some.inj hs))
  | some c =>
    simp only [h.alive rfl hA1, ne_eq, not_true_eq_false, if_false] at hs
    split at hs
    · exact .inl (hret (Option.some.inj hs))
    rename_i hx
    split at hs
    · have hs := Option.some.inj hs
      obtain ⟨m2, h2, hA2⟩ := h.task rfl (hA1.started hs) (by simp) hT
      obtain ⟨m3, h3, hA3, ch, hs'⟩ := h.core hA2 fun m' _ => ⟨.go, by simp only [stepCore]; split <;> rfl⟩
      simp only [stepCore, h.alive rfl hA3, ne_eq, not_true_eq_false, if_false, Option.some.injEq, List.nil_append] at hs'
      refine .inr ⟨c, m1, m3 + 1, rfl, h1, by omega, fun h4 => hx (((QInv.reach (r.reach h.hr m1)).exit c).2 h4), ?_,
        hA3.succ (by rw [← hs']; simp [St.stk, St.setStk]) (by rw [← hs']; simpa [St.setStk, St.setCtx, St.ev] using hA3.exc)
        (by rw [← hs']; simp [St.loc, St.setStk, St.setCtx, St.ev])⟩
      obtain ⟨l1, e1⟩ := r.stas_le h1 c
      obtain ⟨l2, e2⟩ := r.stas_le (show m1 + 1 ≤ m3 + 1 by omega) c
      rw [e2, ← hs, start_at.2.2, e1]
      simp
    · exact .inl (hret (Option.some.inj hs))

theorem TEnv.procAll (h : TEnv r d f0 t l) (hA : AtT r t l f rest j m [.core .procAll]) (hT : Tasks r t l .toAll (.client f :: rest))
    (hfin : ∀ c, l = some c → (∃ B, ∀ m, (accs c (r.st m).log).length ≤ B) ∨ ∃ m, .exitSet c ∈ (r.st m).log) : ∃ m', m < m' ∧ AtT r t l f rest j m' [] := by
  rcases h.allR hA hT with h1 | ⟨c, -, -, hl, -⟩
  · exact h1
  rcases hfin c hl with ⟨B, hB⟩ | ⟨M, hM⟩
  · have hk : ∀ k m, B - (stas c (r.st m).log).length ≤ k → AtT r t l f rest j m [.core .procAll] → ∃ m', m < m' ∧ AtT r t l f rest j m' [] := by
      intro k
      induction k with
      | zero =>
        intro m h0 hA
        rcases h.allR hA hT with h2 | ⟨c', m1, m2, hl', -, -, -, h4, -⟩
        · exact h2
        · obtain rfl := Option.some.inj (hl.symm.trans hl')
          have := (C05_fifo (r.reach h.hr m2) c).length_le
          have := hB m2
          omega
      | succ k ih =>
        intro m h0 hA
        rcases h.allR hA hT with h2 | ⟨c', m1, m2, hl', h2, h3, -, h4, hA2⟩
        · exact h2
        · obtain rfl := Option.some.inj (hl.symm.trans hl')
          obtain ⟨m3, h5, hA3⟩ := ih m2 (by omega) hA2
          exact ⟨m3, by omega, hA3⟩
    exact hk _ m (Nat.le_refl _) hA
  · have hk : ∀ k m, M - m ≤ k → AtT r t l f rest j m [.core .procAll] → ∃ m', m < m' ∧ AtT r t l f rest j m' [] := by
      intro k
      induction k with
      | zero =>
        intro m h0 hA
        rcases h.allR hA hT with h2 | ⟨c', m1, m2, hl', h2, -, h4, -⟩
        · exact h2
        · obtain rfl := Option.some.inj (hl.symm.trans hl')
          exact absurd (r.logm (show M ≤ m1 by omega) hM) h4
      | succ k ih =>
        intro m h0 hA
        rcases h.allR hA hT with h2 | ⟨c', m1, m2, hl', h2, h3, -, h4, hA2⟩
        · exact h2
        · obtain ⟨m3, h5, hA3⟩ := ih m2 (by omega) hA2
          exact ⟨m3, by omega, hA3⟩
    exact hk _ m (Nat.le_refl _) hA

/-- **C80.** this_thread::wait returns, provided that the scheduler is fair to the thread and the task that it may execute returns; unless the thread is
    unregistered, or from some moment on has no task in its queue and is not told to exit. -/
theorem C80_wait (r : Run C) (hr : Reach C d f0 (r.st 0)) (hj : r.Just t) (hst : (r.st i).stk t = .core Api.wait.entry :: .client f :: rest)
    (hexc : ((r.st i).thr t).exc = none) (hT : ∀ c b, (r.st i).loc t = some c → FromTasks r t c (.toWait b) (.client f :: rest)) :
    (∃ m, r.Ends t (.client f :: rest) i m ∧ ((r.st m).thr t).exc = none) ∨
    (∃ c m id n, (r.st i).loc t = some c ∧ .unregistered c id n ∈ (r.st m).log) ∨ ∃ c m, (r.st i).loc t = some c ∧ i < m ∧ Idle r t c m := by
  by_cases hid : ∃ c m, (r.st i).loc t = some c ∧ i < m ∧ Idle r t c m
  · exact .inr (.inr hid)
  refine (back_of fun hu => ?_).imp id .inl
  rcases TEnv.waitFree ⟨hr, hj, hu⟩ (atT_of hst hexc) fun b => ⟨fun c hc k => (hT c b hc k).1, fun c hc k => (hT c b hc k).2⟩ with h1 | h1
  · exact h1
  · exact absurd h1 hid

/-- **C80.** this_thread::process returns, provided that the scheduler is fair to the thread, the tasks that it executes return, and the thread is sent finitely many
    tasks or told to exit; unless the thread is unregistered. -/
theorem C80_process (r : Run C) (hr : Reach C d f0 (r.st 0)) (hj : r.Just t) (hst : (r.st i).stk t = .core Api.process.entry :: .client f :: rest)
    (hexc : ((r.st i).thr t).exc = none) (hT : ∀ c, (r.st i).loc t = some c → FromTasks r t c .toAll (.client f :: rest))
    (hfin : ∀ c, (r.st i).loc t = some c → (∃ B, ∀ m, (accs c (r.st m).log).length ≤ B) ∨ ∃ m, .exitSet c ∈ (r.st m).log) :
    (∃ m, r.Ends t (.client f :: rest) i m ∧ ((r.st m).thr t).exc = none) ∨ ∃ c m id n, (r.st i).loc t = some c ∧ .unregistered c id n ∈ (r.st m).log :=
  back_of fun hu => TEnv.procAll ⟨hr, hj, hu⟩ (atT_of hst hexc) ⟨fun c hc k => (hT c hc k).1, fun c hc k => (hT c hc k).2⟩ hfin

end

/-- Main sends itself a task and processes it, then waits for the task that thread 1 sends when main is blocked. -/
def idleProg : List (Act Nat Nat) :=
  [.call .registerThis 2, .call (.invoke 1 20) 3, .call .process 4, .call (.spawn 1 6) 5, .call .wait 0, .call (.invoke 1 20) 0]

def idleLbls : List (Lbl Unit) := go 0 19 ++ go 1 4 ++ go 0 7

/-- Hypotheses of `C80_process` and `C80_wait`, with a task to be executed by each; main is not unregistered and not idle for ever. -/
example : ∃ r : Run (tableClient (prog idleProg)), Reach (tableClient (prog idleProg)) () 1 (r.st 0) ∧ r.Just 0 ∧ (∀ c rr L, FromTasks r 0 c rr L) ∧
    (∀ i, ((r.st i).thr 0).exc = none) ∧ (∀ m, (accs 0 (r.st m).log).length ≤ 2) ∧ (∀ m id n, .unregistered 0 id n ∉ (r.st m).log) ∧ (∀ m, ¬ Idle r 0 0 m) ∧
    ((r.st 9).stk 0 = [.core Api.process.entry, .client 4] ∧ (r.st 9).loc 0 = some 0 ∧ ((r.st 9).ctxs 0).pend = [20]) ∧
    (r.st 18).stk 0 = [.core Api.wait.entry, .client 0] ∧ (r.st 18).loc 0 = some 0 ∧ (r.st 19).stk 0 = [.core (.parked 0 none), .client 0] := by
  have hend : (exec idleProg idleLbls).map (fun s => !s.ub && !s.term && !decide ((s.thr 0).status = .running) && (s.stk 0).isEmpty &&
      decide ((accs 0 s.log).length ≤ 2) && s.log.all (fun e => match e with | .unregistered .. => false | _ => true)) = some true := by decide +kernel
  have htab : (List.range 31).all (fun i => ((exec idleProg (idleLbls.take i)).map (fun s => (s.thr 0).exc.isNone)).getD false) = true := by decide +kernel
  have h9 : (exec idleProg (idleLbls.take 9)).map (fun s => (s.stk 0, s.loc 0, (s.ctxs 0).pend)) = some ([.core Api.process.entry, .client 4], some 0, [20]) := by
    decide +kernel
  have h18 : (exec idleProg (idleLbls.take 18)).map (fun s => (s.stk 0, s.loc 0)) = some ([.core Api.wait.entry, .client 0], some 0) := by decide +kernel
  have h19 : (exec idleProg (idleLbls.take 19)).map (fun s => s.stk 0) = some [.core (.parked 0 none), .client 0] := by decide +kernel
  obtain ⟨s', hs', ho⟩ := Option.map_eq_some_iff.1 hend
  simp only [Bool.and_eq_true, Bool.not_eq_true', List.isEmpty_iff, decide_eq_true_eq] at ho
  obtain ⟨⟨⟨⟨⟨e1, e2⟩, e3⟩, e4⟩, e5⟩, e6⟩ := ho
  obtain ⟨r, h0, hr, hl⟩ := Run.ofList hs' e1 e2
  have hl : ∀ i, 30 ≤ i → r.st i = s' := hl
  have hR : Reach (tableClient (prog idleProg)) () 1 (r.st 0) := by rw [h0]; exact ⟨[], rfl⟩
  have hx : ∀ i, ((r.st i).thr 0).exc = none := by
    have : ∀ i, i < 31 → ((r.st i).thr 0).exc = none := by
      intro i hi
      have h1 := List.all_eq_true.1 htab i (List.mem_range.2 hi)
      simpa only [exec, hr i, Option.map_some, Option.getD_some, Option.isNone_iff_eq_none] using h1
    intro i
    rcases Nat.lt_or_ge i 30 with h | h
    · exact this i (by omega)
    · rw [hl i h, ← hl 30 (Nat.le_refl _)]; exact this 30 (by omega)
  have hobs : ∀ {β : Type} (g : St Nat Nat Unit → β) (i : Nat) (b : β), (exec idleProg (idleLbls.take i)).map g = some b → g (r.st i) = b := by
    intro β g i b h
    simp only [exec, hr i, Option.map_some] at h
    exact Option.some.inj h
  have hret := fun g L => Run.returns_end hR (t := 0) (N := 30) (fun i hi => by rw [hl i hi]; exact e4) hx g L
  have a9 := hobs _ _ _ h9
  have a18 := hobs _ _ _ h18
  simp only [Prod.mk.injEq] at a9 a18
  refine ⟨r, hR, fun i hi => ?_, fun c rr L k => ⟨hret _ _, hret _ _⟩, hx, fun m => ?_, fun m id n hn => ?_, fun m hm => ?_, a9, a18.1, a18.2, hobs _ _ _ h19⟩
  · exfalso
    obtain ⟨ch, h2⟩ := hi (max i 30) (by omega)
    rw [hl _ (by omega)] at h2
    simp [step, e1, e2, of_decide_eq_false e3] at h2
  · have := (r.accs_le (show m ≤ max m 30 by omega) 0).length_le
    rw [hl (max m 30) (by omega)] at this
    omega
  · have := r.logm (show m ≤ max m 30 by omega) hn
    rw [hl _ (by omega)] at this
    have := List.all_eq_true.1 e6 _ this
    simp at this
  · obtain ⟨⟨dl, L, h1⟩, -⟩ := hm (max m 30) (by omega)
    rw [hl _ (by omega), e4] at h1
    simp at h1

end Itc
