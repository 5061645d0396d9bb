import Verif.Core.Cl
import Verif.Core.Top
import Verif.Core.Frag

/-!
# Steps that write the events of dispatch (proof infrastructure, no claims)
-/
namespace Itc
namespace Core
section
variable {τ φ δ χ : Type} {C : Client τ φ δ χ} {s s' : St τ φ δ}

def EvBy (C : Client τ φ δ χ) (s s' : St τ φ δ) (t : Nat) (f : CF τ φ) (rest : List (Frame τ φ)) : Ev τ → Prop
  | .inlined u i k => u = t ∧ f = .dispatch i k ∧ s'.stk t = .client (C.run k) :: .core (.dispRan k) :: rest
  | .started u c k => u = t ∧ ∃ r, s'.stk t = .client (C.run k) :: .core (.ran c k r) :: rest
  | .refused u i k => u = t ∧ (∃ own, f = .invLook i k own) ∧ (i = 0 ∨ s.find i = none)
  | _ => True

theorem core_ev {t : Nat} {f : CF τ φ} {rest : List (Frame τ φ)} {ch : Ch χ} (h : stepCore C s t f rest ch = some s') {e : Ev τ} (he : e ∈ s'.log) :
    e ∈ s.log ∨ EvBy C s s' t f rest e := by
  cases f with
  | retv d => cases d <;> simp only [stepCore] at h <;> obtain rfl := Option.some.inj h <;>
      (simp only [St.ret, St.ev, List.mem_cons] at he; rcases he with rfl | he; exact .inr trivial; exact .inl he)
  | destroyList c l f v => cases l <;> simp only [stepCore] at h <;> obtain rfl := Option.some.inj h <;>
      simp only [St.ret, St.ev, St.setStk, St.setCtx, List.mem_cons] at he <;> first | exact .inl he | (rcases he with rfl | he; exact .inr trivial; exact .inl he)
  | regDone c self => cases self <;> simp only [stepCore] at h <;> obtain rfl := Option.some.inj h <;> exact .inl he
  | release c f v =>
    simp only [stepCore] at h
    split at h <;> obtain rfl := Option.some.inj h
    · simp only [St.setStk, List.mem_append, List.mem_reverse, List.mem_map] at he
      rcases he with ⟨k, -, rfl⟩ | he
      · exact .inr trivial
      · exact .inl he
    · simp only [St.ret, St.ev, St.setCtx, List.mem_cons] at he; rcases he with rfl | he; exact .inr trivial; exact .inl he
  | sdNotify l T =>
    cases l with
    | cons i l => simp only [stepCore] at h; obtain rfl := Option.some.inj h; exact .inl he
    | nil =>
      simp only [stepCore] at h
      repeat' (split at h)
      all_goals first
        | contradiction
        | (obtain rfl := Option.some.inj h
           simp only [St.ret, St.ev, St.setStk, St.setCtx, List.mem_cons] at he
           first | exact .inl he | (rcases he with rfl | he; exact .inr trivial; exact .inl he))
  | _ =>
    simp only [stepCore] at h
    repeat' (split at h)
    all_goals first
      | contradiction
      | (obtain rfl := Option.some.inj h
         simp only [St.ret, St.ev, St.setStk, St.setCtx, St.hold, St.startTask, List.mem_cons] at he
         first
           | exact .inl he
           | (rcases he with rfl | he
              · exact .inr trivial
              · exact .inl he)
           | (rcases he with rfl | he
              · refine .inr ⟨rfl, ?_⟩
                first
                  | exact ⟨rfl, by simp [St.stk, St.setStk]⟩
                  | exact ⟨_, by simp [St.stk, St.setStk, St.startTask]; rfl⟩
                  | exact ⟨⟨_, rfl⟩, by simp_all⟩
              · exact .inl he)
           | (rcases he with rfl | rfl | he
              · exact .inr trivial
              · first | exact .inr trivial | exact .inr ⟨rfl, ⟨_, rfl⟩, by simp_all⟩
              · exact .inl he)
           | skip)

theorem step_ev {t : Nat} {ch : Ch χ} (hs : step C s (.th t ch) = some s') {e : Ev τ} (he : e ∈ s'.log) :
    e ∈ s.log ∨ (∃ u c, e = .threw u c) ∨ ∃ f rest, s.stk t = .core f :: rest ∧ s'.data = s.data ∧ EvBy C s s' t f rest e := by
  cases step_cl hs with
  | cl f r d a hexc hold hstep hdata hact hlog => rw [hlog] at he; exact .inl he
  | core f r hexc hold hcs hdata hcore => exact (core_ev hcore he).imp id fun h => .inr ⟨f, r, hold, hdata, h⟩
  | halt e' hexc hst hterm hexc' hdata hlog => rw [hlog] at he; exact .inl he
  | task e' f k r hexc hold hf hst hexc' hdata hlog =>
    obtain ⟨es, h1, h2⟩ := hlog
    rw [h1] at he
    rcases List.mem_append.1 he with h | h
    · exact .inr (.inl (h2 _ h))
    · exact .inl h
  | cpop e' f r hexc hold hf hst hexc' hdata hlog => rw [hlog] at he; exact .inl he
  | «catch» e' g g' r hexc hold hg hst hexc' hdata hlog => rw [hlog] at he; exact .inl he
  | pop e' g r hexc hold hg hst hexc' hdata hlog => rw [hlog] at he; exact .inl he
  | fin hold hst hexc' hdata hlog => rw [hlog] at he; exact .inl he

/-- A client frame on top, without an exception, and still there after the step. -/
theorem exc_fwd {d : δ} {f0 : φ} (hr : Reach C d f0 s) {t : Nat} {f : φ} {rest : List (Frame τ φ)} (hst : s.stk t = .client f :: rest) (hexc : (s.thr t).exc = none)
    {l : Lbl χ} (hs : step C s l = some s') (hst' : s'.stk t = .client f :: rest) : (s'.thr t).exc = none := by
  cases l with
  | tick n => rw [step_tick _ s s' n hs]; exact hexc
  | th u ch =>
    by_cases hu : t = u
    · subst hu
      cases step_cl hs with
      | cl f r d a hexc' hold hstep hdata hact =>
        rw [hst] at hold; cases hold
        cases a with
        | throw e => have h := hact.1; rw [hst'] at h; have := congrArg List.length h; simp at this
        | terminate => exact hact.2.2
        | _ => exact hact.2.1
      | core f r hexc hold => rw [hst] at hold; cases hold
      | halt e h => rw [h] at hexc; cases hexc
      | task e f k r h => rw [h] at hexc; cases hexc
      | cpop e f r h => rw [h] at hexc; cases hexc
      | «catch» e g g' r h => rw [h] at hexc; cases hexc
      | pop e g r h => rw [h] at hexc; cases hexc
      | fin hold => rw [hst] at hold; cases hold
    · rw [(step_thr_other (FreeOK.reach hr) hu (by rw [hst]; simp) hs).2.2.1]; exact hexc

/-- A frame stays on its stack, or it was on top and its thread made the step. -/
theorem frame_stays {d : δ} {f0 : φ} (hr : Reach C d f0 s) {t u : Nat} {f : Frame τ φ} (hm : f ∈ s.stk u) {ch : Ch χ} (hs : step C s (.th t ch) = some s') :
    f ∈ s'.stk u ∨ u = t ∧ ∃ rest, s.stk u = f :: rest := by
  by_cases hu : u = t
  · subst hu
    cases hst : s.stk u with
    | nil => rw [hst] at hm; cases hm
    | cons g r =>
      rw [hst] at hm
      rcases List.mem_cons.1 hm with rfl | hm
      · exact .inr ⟨rfl, r, rfl⟩
      · obtain ⟨new, h⟩ := step_stk_self hs hst
        exact .inl (by rw [h]; simp [hm])
  · rcases step_stk_other' (FreeOK.reach hr) hu hs with h | ⟨h, -⟩
    · exact .inl (h ▸ hm)
    · rw [h] at hm; cases hm

end
end Core
end Itc
