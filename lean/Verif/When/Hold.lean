import Verif.Sync.AHold
import Verif.When.Ty0

/-!
# The mutex of a when_all / when_any context (proof infrastructure, no claims)
-/
namespace Itc
namespace When
open Core Sync
section
variable {α φ δ χ : Type} {U : WApp α φ δ χ} {u0 : δ} {f0 : φ}

/-- Frames between the lock and the unlock of the mutex of context `c`: the lambdas (when_all_any.hpp:245-252, 338-351; variadic: :165-172,
    70-83) and the end of when_any (:357-363; variadic: :404-412). -/
def inSection (c : Nat) : WFrame φ → Prop
  | .aIn c' _ => c' = c
  | .aSet c' _ => c' = c
  | .aUnl c' _ => c' = c
  | .kBody c' _ _ => c' = c
  | .kSet c' _ => c' = c
  | .kAll c' _ => c' = c
  | .kUnl c' _ => c' = c
  | .kThr c' _ _ => c' = c
  | _ => False

def quiet (c : Nat) : WFrame φ → Prop
  | .aIn c' _ => c' = c
  | .aUnl c' _ => c' = c
  | .kBody c' _ _ => c' = c
  | .kUnl c' _ => c' = c
  | .kThr c' _ _ => c' = c
  | _ => False

theorem mapS_ncv (c : Nat) (a : SApi α) : (mapS a).ncv (pob c) ∧ (mapS a) ≠ .lock (pob c) := by
  cases a <;> simp only [mapS, SApi.ncv, true_and, ne_eq, reduceCtorEq, not_false_eq_true, and_true, SApi.lock.injEq, pob] <;> omega

def ah (U : WApp α φ δ χ) (f0 : φ) (c : Nat) : AH (whenApp U) (.usr f0) where
  n := pob c
  H := inSection c
  Q := quiet c
  q0 h := h
  h0 h := h
  run a := by cases a <;> exact ⟨fun h => h, fun h => h⟩
  code := by
    intro v ad f rv ch ad' a k hs
    generalize hx : (SAct.core a k : SAct (WTask α) (WFrame φ)) = x at hs
    cases when_wc hs with
    | usr g u wa hU =>
      clear hs
      cases wa <;> simp only [liftW, SAct.core.injEq, reduceCtorEq] at hx
      obtain ⟨rfl, -⟩ := hx
      exact mapW_ok (fun _ _ h => h) (fun _ => trivial) _
    | wh f d' a' hf hW =>
      cases hW <;> first | (cases hx; done) | skip
      all_goals (rename_i ha; rcases ha with ⟨-, rfl⟩ | rfl <;> cases hx)
  app := by
    intro v ad f rv ch ad' sa hs
    cases when_wc hs with
    | usr g u wa hU =>
      clear hs
      cases wa <;> simp only [liftW]
      · exact fun h => h
      · exact ⟨fun h => h, fun h => h⟩
      · exact ⟨fun h => h, fun h => h⟩
      · exact ⟨(mapS_ncv c _).1, False.elim, fun h => absurd h (mapS_ncv c _).2, False.elim⟩
      · exact ⟨fun h => h, fun h => h⟩
      · exact fun h => h
      · exact fun h => h
    | wh f d' a' hf hW =>
      clear hs
      have hl : ∀ {c'}, c' = c → (SApi.lock (pob c') : SApi (WTask α)) = .lock (pob c) := fun h => by rw [h]
      have hl' : ∀ {c'}, (SApi.lock (pob c') : SApi (WTask α)) = .lock (pob c) → c' = c := fun h => pob_inj (by simpa using h)
      cases hW <;> first
        | (rename_i ha; rcases ha with ⟨-, rfl⟩ | rfl <;> first | exact False.elim | exact ⟨trivial, False.elim, by simp, False.elim⟩)
        | exact fun h => h
        | exact trivial
        | exact ⟨trivial, False.elim, by simp, fun h => h.elim⟩
        | exact ⟨trivial, hl, hl', fun h => h.elim⟩
        | exact ⟨trivial, False.elim, by simp, fun h => .inl h⟩
        | exact ⟨trivial, False.elim, by simp, fun h => .inr (by rw [show _ = c from h])⟩
  throw := by
    intro f e h hq
    cases f <;> first | exact False.elim h | exact absurd h hq | exact ⟨_, rfl, h⟩

end
end When
end Itc
