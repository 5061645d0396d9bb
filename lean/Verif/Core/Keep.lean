import Verif.Core.Ctl

/-!
# What another thread cannot take away from a registered thread (proof infrastructure, no claims)
-/
namespace Itc
namespace Core
section
variable {τ φ δ χ : Type}

set_option tactic.hygienic false in
/-- Queued tasks and the exit request of a registered thread survive the steps of others. -/
theorem pend_keep {C : Client τ φ δ χ} {s s' : St τ φ δ} (h : WF s) {t u c : Nat} (he : Eff C s t s') (hut : u ≠ t)
    (hloc : s.loc u = some c) (hreg : InReg s c) :
    InReg s' c ∧ (((s.ctxs c).pend ≠ [] ∨ (s.ctxs c).exit = true) → ((s'.ctxs c).pend ≠ [] ∨ (s'.ctxs c).exit = true)) := by
  have hlt := h.loc t
  have h2 := h.loc u c hloc
  cases he
  case regNew =>
    rw [hctx, upd_ne _ _ (by omega)]
    obtain ⟨i, hi⟩ := hreg
    exact ⟨⟨i, by rw [hcon]; simp [hi]⟩, id⟩
  case regFound =>
    obtain ⟨i, hi⟩ := hreg
    refine ⟨⟨i, by rw [hcon]; exact hi⟩, ?_⟩
    rw [hctx]
    grind [upd_app, Ctx.pend]
  case unreg =>
    have h3 := hlt c_1 (h.unreg_loc hfind)
    have hcc : c ≠ c_1 := by rintro rfl; exact hut (h2.2.1.symm.trans h3.2.1)
    obtain ⟨i, hi⟩ := hreg
    have h4 := h.mem i c hi
    have h5 := mem_of_find h hfind
    refine ⟨⟨i, ?_⟩, ?_⟩
    · rw [hcon]
      simp only [List.mem_filter, Bool.not_eq_true', beq_eq_false_iff_ne, ne_eq]
      refine ⟨hi, ?_⟩
      intro h6
      exact hcc (h.inj c c_1 h4.1 h5.1 (by rw [h4.2.1, h5.2.1]; exact h6))
    · rw [hctx, upd_ne _ _ hcc]; exact id
  case start =>
    have hl : s.loc t = some c_1 := by
      rcases hf with ⟨-, h3, -⟩ | ⟨dl, rfl, -⟩
      · exact h3
      · exact h.prk t _ dl rest hold
    have h3 := hlt c_1 hl
    rw [inReg_same hreg_1.contexts, hctx]
    rw [upd_ne _ _ (by rintro rfl; exact hut (h2.2.1.symm.trans h3.2.1))]
    exact ⟨hreg, id⟩
  case relLast =>
    rw [inReg_same hreg_1.contexts, hctx]
    by_cases hcc : c = c_1
    · subst hcc
      obtain ⟨i, hi⟩ := hreg
      exact absurd hi (hnot i)
    · rw [upd_ne _ _ hcc]; exact ⟨hreg, id⟩
  case invPush =>
    rw [inReg_same hreg_1.contexts, hctx]
    by_cases hcc : c = c_1
    · subst hcc; simp [Ctx.pend, hreg]
    · rw [upd_ne _ _ hcc]; exact ⟨hreg, id⟩
  all_goals
    rw [inReg_same hreg_1.contexts, hctx]
    grind [upd_app, Ctx.pend]

/-- Two threads never have the same id. -/
theorem id_uniq {s : St τ φ δ} (h : WF s) {u v c : Nat} (hu : s.loc u = some c) (hv : s.getId v = (s.ctxs c).id) : v = u := by
  have h1 := h.loc u c hu
  have h3 := h.ids c h1.1
  simp only [St.getId] at hv
  split at hv
  · omega
  · rename_i c' hc'
    have h2 := h.loc v c' hc'
    have := h.inj c' c h2.1 h1.1 hv
    subst this
    exact h2.2.1.symm.trans h1.2.1

end
end Core
end Itc
