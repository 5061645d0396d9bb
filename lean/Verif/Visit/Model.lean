/-!
# visit_at, when_all_any.hpp

Access to an element of a tuple by run-time index.  The tuple has `n` elements of types `T 0, …, T (n-1)`; the visitor is a
generic callable, given as one function per element, that acts on a state `σ` and may throw an `ε`.
-/
namespace Itc
namespace Visit

/-- What a call does: the new state, and the exception it leaves with, if any. -/
abbrev Eff (σ ε : Type) := σ → σ × Option ε

/-- Exceptions that leave `visit_at`: one of the visitor, or `std::runtime_error("bad field index")`. -/
inductive Exc (ε : Type) | user (e : ε) | badIndex
  deriving DecidableEq, Repr

variable {σ ε : Type} {n : Nat} {T : Fin n → Type}

/-- `fun(std::get<i>(tup))` -/
def callAt (tup : (i : Fin n) → T i) (fn : (i : Fin n) → T i → Eff σ ε) (i : Fin n) : Eff σ (Exc ε) := fun s =>
  let r := fn i (tup i) s
  (r.1, r.2.map .user)

/-- `visit_impl<I>::visit`, when_all_any.hpp:187-212: the primary template (I > 0) tests index I - 1 and otherwise goes on with
    `visit_impl<I - 1>`; the specialisation for 0 throws. -/
def visitImpl (tup : (i : Fin n) → T i) (idx : Nat) (fn : (i : Fin n) → T i → Eff σ ε) : (I : Nat) → I ≤ n → Eff σ (Exc ε)
  | 0, _ => fun s => (s, some .badIndex)
  | I + 1, h => if idx = I then callAt tup fn ⟨I, h⟩ else visitImpl tup idx fn I (Nat.le_of_succ_le h)

/-- `visit_at`, when_all_any.hpp:416-420 -/
def visitAt (tup : (i : Fin n) → T i) (idx : Nat) (fn : (i : Fin n) → T i → Eff σ ε) : Eff σ (Exc ε) :=
  visitImpl tup idx fn n (Nat.le_refl n)

end Visit
end Itc
