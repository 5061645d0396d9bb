import Verif.Sync.Mv
import Verif.Props.Outcome

/-!
# A thread that waits for a mutex it owns (proof infrastructure, no claims)
-/
namespace Itc
open Core Sync
section
variable {τ φ δ χ : Type}

/-- Every thread created by this schedule has a name below `n`. -/
def spawnLt (n : Nat) (C : Client τ φ δ χ) (s : St τ φ δ) : List (Lbl χ) → Bool
  | [] => true
  | l :: ls => (match l with
      | .th t _ => match s.stk t with | .core (.spawnIn m _) :: _ => decide (m < n) | _ => true
      | .tick _ => true) && match step C s l with | none => true | some s' => spawnLt n C s' ls

theorem spawnLt_stk {C : Client τ φ δ χ} {n u : Nat} : ∀ {ls : List (Lbl χ)} {s s' : St τ φ δ}, FreeOK s → spawnLt n C s ls = true →
    run C s ls = some s' → n ≤ u → (∀ ch, .th u ch ∉ ls) → s'.stk u = s.stk u := by
  intro ls
  induction ls with
  | nil => intro s s' _ _ h _ _; cases h; rfl
  | cons l ls ih =>
    intro s s' hfr hn h hnu hu
    simp only [Core.run] at h
    cases hs : Core.step C s l with
    | none => rw [hs] at h; cases h
    | some s1 =>
      rw [hs] at h
      simp only [spawnLt, hs, Bool.and_eq_true] at hn
      have hfr1 : FreeOK s1 := hfr.step l hs
      rw [ih hfr1 hn.2 h hnu (fun ch hc => hu ch (List.mem_cons_of_mem _ hc))]
      cases l with
      | tick n => rw [step_tick _ s s1 n hs]; rfl
      | th t ch =>
        have hut : u ≠ t := by rintro rfl; exact hu ch List.mem_cons_self
        rcases step_oth hfr hut hs with h1 | ⟨f, rest, h1, -⟩
        · exact h1.1
        · have := hn.1
          simp only [h1, decide_eq_true_eq] at this
          omega

end

section
variable {α φ δ χ : Type} {A : App α φ δ χ} {ad0 : δ} {f0 : φ}

/-- A thread that waits for a `std::mutex` it owns, all other threads being over, stays there in every continuation of the execution. -/
theorem stuck {t n : Nat} {rest : List (Fr α φ)} : ∀ {ls : List (Lbl χ)} {s s' : SSt α φ δ}, SR A ad0 f0 s → s.stk t = .client (.lkIn n) :: rest →
    (s.thr t).exc = none → s.data.sd.lk (.user n) = some t → (∀ u, u ≠ t → s.stk u = []) → run (client A) s ls = some s' →
    s'.stk t = .client (.lkIn n) :: rest := by
  intro ls
  induction ls with
  | nil => intro s s' _ h _ _ _ hs; cases hs; exact h
  | cons l ls ih =>
    intro s s' hr hst he hlk hoth h
    simp only [Core.run] at h
    cases hs : Core.step (client A) s l with
    | none => rw [hs] at h; cases h
    | some s1 =>
      rw [hs] at h
      have hr1 : SR A ad0 f0 s1 := hr.step hs
      cases l with
      | tick n => rw [step_tick _ s s1 n hs] at h hr1; exact ih hr1 hst he hlk hoth h
      | th u ch =>
        by_cases hu : u = t
        · subst hu
          cases mv hr hs with
          | sync f rest' a he' hst' hS hact had =>
            rw [hst] at hst'
            cases hst'
            generalize s1.data.sd = d' at hS
            cases hS
            rename_i hl
            rw [hlk] at hl; cases hl
          | app g rest' a he' hst' => rw [hst] at hst'; cases hst'
          | hand e f f' rest' he' => rw [he] at he'; cases he'
          | drop e f rest' he' => rw [he] at he'; cases he'
          | core f rest' pre hst' => rw [hst] at hst'; cases hst'
          | still hst' he' hd had =>
            rcases he' with he' | he'
            · refine ih hr1 (hst'.trans hst) (he'.trans he) (by rw [hd]; exact hlk) ?_ h
              intro w hw
              rcases hr.stk_oth hw hs with ⟨h, -⟩ | ⟨f, r, h, -⟩
              · rw [h]; exact hoth w hw
              · rw [hst] at h; cases h
            · rw [hst] at he'; cases he'
        · have hnil := hoth u hu
          have hd : s1.data.sd = s.data.sd ∧ s1.stk u = [] := by
            cases mv hr hs with
            | sync f rest' a he' hst' hS hact had => rw [hnil] at hst'; cases hst'
            | app g rest' a he' hst' => rw [hnil] at hst'; cases hst'
            | hand e f f' rest' he' hst' => rw [hnil] at hst'; cases hst'
            | drop e f rest' he' hst' => rw [hnil] at hst'; cases hst'
            | core f rest' pre hst' => rw [hnil] at hst'; cases hst'
            | still hst' he' hd had => exact ⟨hd, hst'.trans hnil⟩
          have hot : ∀ w, w ≠ u → s1.stk w = s.stk w ∧ ((s1.thr w).exc = (s.thr w).exc ∨ (s1.thr w).exc = none) := by
            intro w hw
            rcases hr.stk_oth hw hs with h | ⟨f, r, h, -⟩
            · exact h
            · rw [hnil] at h; cases h
          have ht := hot t (Ne.symm hu)
          refine ih hr1 (ht.1.trans hst) ?_ (by rw [hd.1]; exact hlk) ?_ h
          · rcases ht.2 with h | h
            · exact h.trans he
            · exact h
          · intro w hw
            by_cases hwu : w = u
            · subst hwu; exact hd.2
            · rw [(hot w hwu).1]; exact hoth w hw

end
end Itc
