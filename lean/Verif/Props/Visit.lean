import Verif.Visit.Model

/-!
# C41: visit_at visits exactly the indexed element

The visitor used in the statements records its calls: `logged fn` appends `(i, v)` to a list for a call on element `i` with value
`v`, and otherwise behaves like the arbitrary `fn`.
-/
namespace Itc
namespace Visit
variable {σ ε : Type} {n : Nat} {T : Fin n → Type}

/-- The visitor `fn` together with the list of the calls made to it. -/
def logged (fn : (i : Fin n) → T i → Eff σ ε) : (i : Fin n) → T i → Eff (List ((i : Fin n) × T i) × σ) ε := fun i v s =>
  ((s.1 ++ [⟨i, v⟩], (fn i v s.2).1), (fn i v s.2).2)

theorem visitImpl_hit (tup : (i : Fin n) → T i) (fn : (i : Fin n) → T i → Eff σ ε) (i : Fin n) :
    ∀ I (h : I ≤ n), i.1 < I → visitImpl tup i.1 fn I h = callAt tup fn i
  | 0, _, hi => absurd hi (Nat.not_lt_zero _)
  | I + 1, h, hi => by
    by_cases he : i.1 = I
    · subst he; simp [visitImpl]
    · rw [visitImpl, if_neg he]
      exact visitImpl_hit tup fn i I _ (by omega)

theorem visitImpl_miss (tup : (i : Fin n) → T i) (fn : (i : Fin n) → T i → Eff σ ε) {idx : Nat} :
    ∀ I (h : I ≤ n), I ≤ idx → visitImpl tup idx fn I h = fun s => (s, some .badIndex)
  | 0, _, _ => rfl
  | I + 1, h, hi => by
    rw [visitImpl, if_neg (by omega)]
    exact visitImpl_miss tup fn I _ (by omega)

end Visit
open Visit
variable {σ ε : Type} {n : Nat} {T : Fin n → Type}

/-- C41, index below the tuple size: the visitor is called exactly once, on element `i`, and `visit_at` has the effect of that call
    and ends as that call ends (normally, or with the exception of the visitor). -/
theorem C41_visits (tup : (i : Fin n) → T i) (fn : (i : Fin n) → T i → Eff σ ε) (i : Fin n) (s : σ) :
    visitAt tup i.1 (logged fn) ([], s) = (([⟨i, tup i⟩], (fn i (tup i) s).1), (fn i (tup i) s).2.map .user) := by
  unfold visitAt
  rw [visitImpl_hit tup _ i n _ i.2]
  rfl

/-- C41, other indices: the visitor is not called, nothing happens to the state, and `visit_at` throws its own exception. -/
theorem C41_throws (tup : (i : Fin n) → T i) (fn : (i : Fin n) → T i → Eff σ ε) (idx : Nat) (h : n ≤ idx) (s : σ) :
    visitAt tup idx (logged fn) ([], s) = (([], s), some .badIndex) := by
  unfold visitAt
  rw [visitImpl_miss tup _ n _ h]

/-- A tuple of a number, a Boolean and a number, and a visitor that adds up and throws at `false`. -/
private def exT : Fin 3 → Type
  | 0 => Nat | 1 => Bool | 2 => Nat

private def exTup : (i : Fin 3) → exT i
  | 0 => (5 : Nat) | 1 => false | 2 => (7 : Nat)

private def exFn : (i : Fin 3) → exT i → Eff Nat String
  | 0, (v : Nat) => fun s => (s + v, none)
  | 1, (v : Bool) => fun s => (s, if v then none else some "no")
  | 2, (v : Nat) => fun s => (s * v, none)

example : visitAt exTup 0 (logged exFn) ([], 10) = (([⟨0, (5 : Nat)⟩], 15), none) := C41_visits exTup exFn 0 10
example : visitAt exTup 1 (logged exFn) ([], 10) = (([⟨1, false⟩], 10), some (.user "no")) := C41_visits exTup exFn 1 10
example : visitAt exTup 2 (logged exFn) ([], 10) = (([⟨2, (7 : Nat)⟩], 70), none) := C41_visits exTup exFn 2 10
example : visitAt exTup 3 (logged exFn) ([], 10) = (([], 10), some .badIndex) := C41_throws exTup exFn 3 (by decide) 10
example : visitAt (n := 0) (T := Fin.elim0) (fun i => i.elim0) 0 (logged (σ := Nat) (ε := String) fun i => i.elim0) ([], 10) = (([], 10), some .badIndex) :=
  C41_throws _ _ 0 (by decide) 10

end Itc
