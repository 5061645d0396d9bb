import Verif.Sync.Mv

/-!
# Application frames that wait for a call (proof infrastructure, no claims)

`AQ`: application frames that are only ever the continuation of one particular call. Such a frame on a stack is under the activation of
that call, or on top because that call has returned.
-/
namespace Itc
namespace Sync
open Core
section
variable {α φ δ χ : Type}

structure AQ (A : App α φ δ χ) (ad0 : δ) (f0 : φ) where
  E : φ → Option (Fr α φ)
  e0 : E f0 = none
  run : ∀ a, E (A.run a) = none ∧ E (A.destroy a) = none
  throw : ∀ {f e f'}, A.onThrow f e = some f' → E f' = none
  code : ∀ {v ad f rv ch ad' a k}, A.step v ad f rv ch = some (ad', .core a k) → ApiOK (fun _ g => E g = none) (fun _ => True) a
  push : ∀ {v ad f rv ch ad' g k}, A.step v ad f rv ch = some (ad', .push g k) → E g = none
  step : ∀ {v ad f rv ch ad' sa k x}, A.step v ad f rv ch = some (ad', sa) → (liftAct sa).cont = some (.app k) → E k = some x →
    (liftAct sa).callee = some x

variable {A : App α φ δ χ} {ad0 : δ} {f0 : φ}

/-- From `s` to `s'` by steps of other threads than `t`. -/
inductive Still (A : App α φ δ χ) (t : Nat) (s : SSt α φ δ) : SSt α φ δ → Prop
  | refl : Still A t s s
  | step {s1 s2 : SSt α φ δ} (h : Still A t s s1) (l : Lbl χ) (hs : Core.step (client A) s1 l = some s2) (hl : ∀ ch, l ≠ .th t ch) : Still A t s s2

/-- Application code `g` of thread `t` makes the call. -/
structure Calls (A : App α φ δ χ) (ad0 : δ) (f0 : φ) (t : Nat) (x : Fr α φ) (k : φ) (rest : List (Fr α φ)) (s0 : SSt α φ δ) : Prop where
  reach : SR A ad0 f0 s0
  stk : s0.stk t = x :: .client (.app k) :: rest
  exc : (s0.thr t).exc = none
  from' : ∃ s1 g ch sa, SR A ad0 f0 s1 ∧ s1.stk t = .client (.app g) :: rest ∧ (s1.thr t).exc = none ∧ s0.data.sd = s1.data.sd ∧
    A.step (s1.view t) s1.data.ad g (s1.thr t).rv ch = some (s0.data.ad, sa) ∧ (liftAct sa).cont = some (.app k) ∧
    (liftAct sa).callee = some x ∧ ∃ ch, Core.step (client A) s1 (.th t ch) = some s0

/-- The call returned. -/
def Back (A : App α φ δ χ) (ad0 : δ) (f0 : φ) (t : Nat) (x : Fr α φ) (k : φ) (rest : List (Fr α φ)) (s : SSt α φ δ) : Prop :=
  ∃ s0 n s1 ch s2, Calls A ad0 f0 t x k rest s0 ∧ Frag (client A) t (.client (.app k) :: rest) s0 n s1 ∧
    Core.step (client A) s1 (.th t ch) = some s2 ∧ s2.stk t = .client (.app k) :: rest ∧ (s2.thr t).exc = none ∧ Still A t s2 s

namespace AQ
variable (B : AQ A ad0 f0)

def ef : SFrame α φ → Prop
  | .app g => B.E g = none
  | _ => True

theorem codes {s : SSt α φ δ} (h : SR A ad0 f0 s) : Codes B.ef s := by
  refine Codes.reach ?_ h
  intro v d f rv ch d' a k hs
  have key : ∀ x, (client A).step v d f rv ch = some (d', x) → x = .call a k → ApiOK (fun _ g => B.ef g) (fun _ => True) a := by
    intro x hs hx
    cases client_cs hs with
    | app g ad sa hA =>
      clear hs
      cases sa <;> simp [liftAct] at hx
      obtain ⟨rfl, -⟩ := hx
      rename_i a' k'
      have := B.code hA
      clear hA
      cases a' <;> simp only [mapApi, ApiOK] at this ⊢ <;> first | trivial | exact this | skip
      intro f hf u
      simp only [Option.mem_def, Option.map_eq_some_iff] at hf
      obtain ⟨g, hg, rfl⟩ := hf
      exact this g hg u
    | sync f sd x hS =>
      cases hS
      case laRet K c => exact (laNext_call hx).elim
      case laEnd K c => exact (laNext_call hx).elim
      all_goals first | (cases hx; done) | (cases hx; trivial)
  exact key _ hs rfl

/-- Frames that a step of the layer puts on the stack are not waiting. -/
theorem ss_new {v : View} {d d' : SData α} {rv : Val} {f : SFrame α φ} {a : Act (STask α) (SFrame α φ)}
    (h : SS A.run A.destroy v d rv f d' a) : (∀ g, a = .goto g → B.ef g) ∧ (∀ g k, a = .push g k → B.ef g ∧ B.ef k) ∧ ∀ b k, a = .call b k → B.ef k := by
  cases h
  case laRet K c => cases K <;> simp only [laNext] <;> (try split) <;> simp [ef]
  case laEnd K c => cases K <;> simp only [laNext] <;> (try split) <;> simp [ef]
  case ftRun p b => exact ⟨by simp, by rintro g k h; cases h; exact ⟨(B.run b).1, trivial⟩, by simp⟩
  case ftDtor p b => exact ⟨by simp, by rintro g k h; cases h; exact ⟨(B.run b).2, trivial⟩, by simp⟩
  all_goals (refine ⟨?_, ?_, ?_⟩ <;> intros <;> first | contradiction | (rename_i h; cases h; first | trivial | exact ⟨trivial, trivial⟩))

def Org (s : SSt α φ δ) : Prop :=
  ∀ t pre k x rest, s.stk t = pre ++ .client (.app k) :: rest → B.E k = some x →
    (pre ≠ [] → ∃ s0 n, Calls A ad0 f0 t x k rest s0 ∧ Frag (client A) t (.client (.app k) :: rest) s0 n s) ∧
    (pre = [] → s.term = false → (s.thr t).exc = none → Back A ad0 f0 t x k rest s)

theorem entry_none (a : SApi α) : B.ef (a.entry : SFrame α φ) := by cases a <;> trivial

theorem org {s : SSt α φ δ} (h : SR A ad0 f0 s) : B.Org s := by
  refine Reach.induct B.Org ?_ ?_ h
  · intro t pre k x rest hst hk
    simp only [Core.init, St.stk, upd] at hst
    exfalso
    split at hst
    · rcases List.append_eq_cons_iff.1 hst.symm with ⟨rfl, h2⟩ | ⟨p, rfl, h2⟩
      · cases h2; rw [B.e0] at hk; cases hk
      · simp at h2
    · simp at hst
  · intro s l s' hr q hs t pre k x rest hst hk
    have oth : (∀ ch, l ≠ .th t ch) → s'.stk t = s.stk t → (s'.thr t).exc = (s.thr t).exc →
        (pre ≠ [] → ∃ s0 n, Calls A ad0 f0 t x k rest s0 ∧ Frag (client A) t (.client (.app k) :: rest) s0 n s') ∧
        (pre = [] → s'.term = false → (s'.thr t).exc = none → Back A ad0 f0 t x k rest s') := by
      intro hl h1 h2
      obtain ⟨q1, q2⟩ := q t pre k x rest (h1 ▸ hst) hk
      constructor
      · intro hp
        obtain ⟨s0, n, hc, hf⟩ := q1 hp
        obtain ⟨pre', y, rfl⟩ : ∃ pre' y, pre = pre' ++ [y] := by
          rcases List.eq_nil_or_concat pre with h | ⟨a, b, h⟩
          · exact absurd h hp
          · exact ⟨a, b, by simpa using h⟩
        obtain ⟨m, hf⟩ := hf.snoc hs (pre := pre') (f := y) (by simpa using hst)
        exact ⟨s0, m, hc, hf⟩
      · intro hp ht he
        obtain ⟨s0, n, s1, ch, s2, h3, h4, h5, h6, h7, h8⟩ := q2 hp (step_live hs) (h2 ▸ he)
        exact ⟨s0, n, s1, ch, s2, h3, h4, h5, h6, h7, h8.step l hs hl⟩
    cases l with
    | tick n =>
      refine oth (by simp) ?_ ?_ <;> rw [step_tick _ s s' n hs] <;> rfl
    | th u ch =>
      by_cases hu : t = u
      · subst hu
        -- a frame that was below the top
        have low : ∀ top r0 new, s.stk t = top :: r0 → s'.stk t = new ++ r0 → (∀ k x, .client (.app k) ∈ new → B.E k = some x → False) →
            (pre ≠ [] → ∃ s0 n, Calls A ad0 f0 t x k rest s0 ∧ Frag (client A) t (.client (.app k) :: rest) s0 n s') ∧
            (pre = [] → s'.term = false → (s'.thr t).exc = none → Back A ad0 f0 t x k rest s') := by
          intro top r0 new h1 h2 h3
          rw [h2] at hst
          have : ∃ r1, r0 = r1 ++ .client (.app k) :: rest ∧ pre = new ++ r1 := by
            rcases List.append_eq_append_iff.1 hst with ⟨l', h4, h5⟩ | ⟨l', h4, h5⟩
            · exact ⟨l', h5, h4⟩
            · cases l' with
              | nil => exact ⟨[], by simpa using h5.symm, by simpa using h4.symm⟩
              | cons y l' =>
                simp only [List.cons_append, List.cons.injEq] at h5
                obtain ⟨rfl, -⟩ := h5
                exact (h3 k x (by rw [h4]; simp) hk).elim
          obtain ⟨r1, rfl, rfl⟩ := this
          obtain ⟨s0, n, hc, hf⟩ := (q t (top :: r1) k x rest (by simpa using h1) hk).1 (by simp)
          constructor
          · intro hp
            obtain ⟨pre', y, hy⟩ : ∃ pre' y, new ++ r1 = pre' ++ [y] := by
              rcases List.eq_nil_or_concat (new ++ r1) with h | ⟨a, b, h⟩
              · exact absurd h hp
              · exact ⟨a, b, by simpa using h⟩
            obtain ⟨m, hf⟩ := hf.snoc hs (pre := pre') (f := y) (by rw [h2, ← List.append_assoc, hy]; simp)
            exact ⟨s0, m, hc, hf⟩
          · intro hp ht he
            exact ⟨s0, n, s, ch, s', hc, hf, hs, by rw [h2, ← List.append_assoc, hp]; rfl, he, .refl⟩
        have newc : ∀ (y : Fr α φ) (k' : φ), (∀ k x, y = .client (.app k) → B.E k = some x → False) → ∀ r0, ∀ {g0 : φ}, s.stk t = .client (.app g0) :: r0 →
            s'.stk t = y :: .client (.app k') :: r0 → (s'.thr t).exc = none →
            (∃ ch' sa, A.step (s.view t) s.data.ad g0 (s.thr t).rv ch' = some (s'.data.ad, sa) ∧ (liftAct sa).cont = some (.app k') ∧
              (liftAct sa).callee = some y) → (s.thr t).exc = none → s'.data.sd = s.data.sd → B.E k' ≠ none →
            (pre ≠ [] → ∃ s0 n, Calls A ad0 f0 t x k rest s0 ∧ Frag (client A) t (.client (.app k) :: rest) s0 n s') ∧
            (pre = [] → s'.term = false → (s'.thr t).exc = none → Back A ad0 f0 t x k rest s') := by
          rintro y k' hy r0 g0 h1 h2 h3 ⟨ch', sa, h4, h5, h6⟩ h7 h8 h9
          have hst2 := hst
          rw [h2] at hst2
          match pre, hst2 with
          | [], e => cases e; exact (hy _ _ rfl hk).elim
          | [z], e =>
            cases e
            have := B.step h4 h5 hk
            rw [h6] at this; cases this
            exact ⟨fun _ => ⟨s', 0, ⟨hr.step hs, h2, h3, s, g0, ch', sa, hr, h1, h7, h8, h4, h5, h6, ch, hs⟩, .here _ h2⟩, by simp⟩
          | z :: z' :: r1, e =>
            simp only [List.cons_append, List.cons.injEq] at e
            obtain ⟨rfl, rfl, rfl⟩ := e
            refine ⟨fun _ => ?_, by simp⟩
            obtain ⟨s0, n, hc, hf⟩ := (q t (.client (.app g0) :: r1) k x rest (by simpa using h1) hk).1 (by simp)
            obtain ⟨pre', w, hw⟩ : ∃ pre' w, y :: .client (.app k') :: r1 = pre' ++ [w] := by
              rcases List.eq_nil_or_concat (y :: .client (.app k') :: r1) with h | ⟨a, b, h⟩
              · cases h
              · exact ⟨a, b, by simpa using h⟩
            obtain ⟨m, hf⟩ := hf.snoc hs (pre := pre') (f := w) (by
              rw [h2]
              show (y :: .client (.app k') :: r1) ++ .client (.app k) :: rest = _
              rw [hw]; simp)
            exact ⟨s0, m, hc, hf⟩
        cases mvT hr (B.codes hr) (T := B.ef) (by intro k; cases k <;> first | trivial | exact (B.run _).1)
            (by intro k; cases k <;> first | trivial | exact (B.run _).2) hs with
        | sync f r0 a he hst0 hS hact had =>
          obtain ⟨n1, n2, n3⟩ := B.ss_new hS
          cases a with
          | goto g => exact low _ _ [.client g] hst0 hact.1 (by
              intro k x hm hk; simp at hm; subst hm; have := n1 _ rfl; exact absurd (this.symm.trans hk) (by simp))
          | push g k' => exact low _ _ [.client g, .client k'] hst0 hact.1 (by
              intro k x hm hk
              have := n2 _ _ rfl
              simp at hm
              rcases hm with rfl | rfl
              · exact absurd (this.1.symm.trans hk) (by simp)
              · exact absurd (this.2.symm.trans hk) (by simp))
          | call b k' => exact low _ _ [.core b.entry, .client k'] hst0 hact.1 (by
              intro k x hm hk
              have := n3 _ _ rfl
              simp at hm
              subst hm
              exact absurd (this.symm.trans hk) (by simp))
          | ret v => exact low _ _ [] hst0 hact.1 (by simp)
          | throw v => exact low _ _ [] hst0 hact.1 (by simp)
          | terminate =>
            rw [hact.1, hst0] at hst
            refine low (.client f) r0 [.client f] hst0 (by rw [hact.1, hst0]; rfl) ?_
            intro k x hm hk
            simp at hm; subst hm
            exact hS.not_app
        | app g r0 a he hst0 hd hact hA =>
          cases a with
          | ret v => exact low _ _ [] hst0 hact.1 (by simp)
          | throw v => exact low _ _ [] hst0 hact.1 (by simp)
          | terminate =>
            refine ⟨fun hp => ?_, fun hp ht => absurd (hact.2.1.symm.trans ht) (by simp)⟩
            have h1 := hst
            rw [hact.1] at hst
            obtain ⟨s0, n, hc, hf⟩ := (q t pre k x rest hst hk).1 hp
            obtain ⟨pre', y, rfl⟩ : ∃ pre' y, pre = pre' ++ [y] := by
              rcases List.eq_nil_or_concat pre with h | ⟨a, b, h⟩
              · exact absurd h hp
              · exact ⟨a, b, by simpa using h⟩
            obtain ⟨m, hf⟩ := hf.snoc hs (pre := pre') (f := y) (by simpa using h1)
            exact ⟨s0, m, hc, hf⟩
          | goto g' =>
            refine low _ _ [.client (.app g')] hst0 hact.1 ?_
            intro k x hm hk
            simp at hm; subst hm
            obtain ⟨ch', hA⟩ := hA
            have := B.step hA (k := k) rfl hk
            cases this
          | push g' k' =>
            obtain ⟨ch', hA⟩ := hA
            by_cases hk' : B.E k' = none
            · refine low _ _ [.client (.app g'), .client (.app k')] hst0 hact.1 ?_
              intro k x hm hk
              simp at hm
              rcases hm with rfl | rfl
              · rw [B.push hA] at hk; cases hk
              · rw [hk'] at hk; cases hk
            · exact newc (.client (.app g')) k' (by rintro k x h hx; cases h; rw [B.push hA] at hx; cases hx) r0 hst0 hact.1 hact.2.1
                ⟨_, _, hA, rfl, rfl⟩ he hd hk'
          | core b k' =>
            obtain ⟨ch', hA⟩ := hA
            by_cases hk' : B.E k' = none
            · refine low _ _ [.core (mapApi b).entry, .client (.app k')] hst0 hact.1 ?_
              intro k x hm hk
              simp at hm
              subst hm
              rw [hk'] at hk; cases hk
            · exact newc (.core (mapApi b).entry) k' (by rintro k x h; cases h) r0 hst0 hact.1 hact.2.1 ⟨_, _, hA, rfl, rfl⟩ he hd hk'
          | sync b k' =>
            obtain ⟨ch', hA⟩ := hA
            have hb := B.entry_none b
            by_cases hk' : B.E k' = none
            · refine low _ _ [.client b.entry, .client (.app k')] hst0 hact.1 ?_
              intro k x hm hk
              simp at hm
              rcases hm with h | rfl
              · rw [← h] at hb; exact absurd (hb.symm.trans hk) (by simp)
              · rw [hk'] at hk; cases hk
            · exact newc (.client b.entry) k' (by rintro k x h hx; have h := Frame.client.inj h; rw [h] at hb; exact absurd (hb.symm.trans hx) (by simp)) r0 hst0
                hact.1 hact.2.1 ⟨_, _, hA, rfl, rfl⟩ he hd hk'
        | hand e f f' r0 he hst0 hn hf hst' he' hd had =>
          refine low _ _ [.client f'] hst0 hst' ?_
          intro k x hm hk
          simp at hm; subst hm
          have : ∃ e y, A.onThrow y e = some k := by
            cases f <;> simp only [sThrow, Option.map_eq_some_iff, Option.some.injEq, reduceCtorEq, SFrame.app.injEq] at hf <;> (try split at hf) <;> first
              | (cases hf; done)
              | (obtain ⟨y, hy, rfl⟩ := hf; exact ⟨_, _, hy⟩)
          obtain ⟨e, y, hy⟩ := this
          rw [B.throw hy] at hk; cases hk
        | drop e f r0 he hst0 hn hf hst' he' hd had => exact low _ _ [] hst0 hst' (by simp)
        | core f r0 new hst0 hpre hst' hd had =>
          refine low _ _ new hst0 hst' ?_
          intro k x hm hk
          have := hpre _ hm
          exact absurd (this.symm.trans hk) (by simp)
        | still hst' he' hd had =>
          rw [hst'] at hst
          obtain ⟨q1, q2⟩ := q t pre k x rest hst hk
          constructor
          · intro hp
            obtain ⟨s0, n, hc, hf⟩ := q1 hp
            obtain ⟨pre', y, rfl⟩ : ∃ pre' y, pre = pre' ++ [y] := by
              rcases List.eq_nil_or_concat pre with h | ⟨a, b, h⟩
              · exact absurd h hp
              · exact ⟨a, b, by simpa using h⟩
            obtain ⟨m, hf⟩ := hf.snoc hs (pre := pre') (f := y) (by rw [hst']; simpa using hst)
            exact ⟨s0, m, hc, hf⟩
          · rintro rfl ht he
            exfalso
            have he0 : (s.thr t).exc = none := by
              rcases he' with h | h
              · exact h ▸ he
              · rw [h] at hst; simp at hst
            simp only [List.nil_append] at hst
            rcases step_cl hs with ⟨f, r0, d', a, hexc', hold, hstep, hdata, hact, -⟩ | ⟨f, r0, hexc', hold, hcs, hdata, -⟩ | ⟨e, hexc', -⟩ |
              ⟨e, f, k, r0, hexc', -⟩ | ⟨e, f, r0, hexc', -⟩ | ⟨e, g', g'', r0, hexc', -⟩ | ⟨e, g', r0, hexc', -⟩ | ⟨hold, -⟩
            · rw [hst] at hold; cases hold
              have hgo : ∀ f, a = .goto f → False := by
                rintro f rfl
                have h1 := (hst.symm.trans hst'.symm).trans hact.1
                cases h1
                generalize hz : (Act.goto (SFrame.app k) : Act (STask α) (SFrame α φ)) = z at hstep
                cases client_cs hstep with
                | app g ad sa hA =>
                  have := B.step hA (k := k) (by rw [← hz]; rfl) hk
                  rw [← hz] at this; cases this
                | sync f sd a hS => exact hS.not_app
              cases a <;> simp only [ActTo, hst'] at hact
              · exact hgo _ rfl
              · have := congrArg List.length (hst.symm.trans hact.1); simp at this
              · have := congrArg List.length (hst.symm.trans hact.1); simp at this
              · have := congrArg List.length (hst.symm.trans hact.1); simp at this
              · have := congrArg List.length (hst.symm.trans hact.1); simp at this
              · rw [hact.2.1] at ht; cases ht
            · rw [hst] at hold; cases hold
            all_goals first
              | (rw [he0] at hexc'; cases hexc'; done)
              | (rw [hst] at hold; cases hold)
      · rcases mv_othT hr (B.codes hr) hs hu with ⟨h1, h2⟩ | ⟨h1, g, h2, h3⟩
        · exact oth (by rintro ch h; cases h; exact hu rfl) h1 (h2 (by rw [← h1, hst]; simp))
        · rw [h2] at hst
          exfalso
          rcases List.append_eq_cons_iff.1 hst.symm with ⟨rfl, h4⟩ | ⟨p, rfl, h4⟩
          · cases h4; exact absurd (h3.symm.trans hk) (by simp)
          · simp at h4

end AQ
end
end Sync
end Itc
