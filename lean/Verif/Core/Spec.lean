import Verif.Core.Model

/-!
# Specification vocabulary: functions of the event log only

The log is newest-first.  Nothing here mentions queues, maps or frames.
-/
namespace Itc
namespace Core
section
variable {τ : Type}

/-- Oldest-first list of what `g` extracts from the log. -/
def extract {β : Type} (g : Ev τ → Option β) : List (Ev τ) → List β
  | [] => []
  | e :: l => extract g l ++ (g e).toList

/-- Tasks accepted for registration `c`, in order. -/
def accs (c : Nat) : List (Ev τ) → List τ :=
  extract fun | .accepted _ d _ k => if d = c then some k else none | _ => none

/-- Tasks of registration `c` whose execution was started, in order. -/
def stas (c : Nat) : List (Ev τ) → List τ :=
  extract fun | .started _ d k => if d = c then some k else none | _ => none

/-- Tasks of registration `c` that finished (executed and destroyed), in order. -/
def fins (c : Nat) : List (Ev τ) → List τ :=
  extract fun | .finished _ d k => if d = c then some k else none | _ => none

/-- Tasks of registration `c` destroyed without having been started, in order. -/
def dros (c : Nat) : List (Ev τ) → List τ :=
  extract fun | .dropped _ d k => if d = c then some k else none | _ => none

/-- The tasks of registration `c` that were left by an exception. -/
def thrs (c : Nat) : List (Ev τ) → List Unit :=
  extract fun | .threw _ d => if d = c then some () else none | _ => none

/-- Ids registered and not unregistered, in order of registration. -/
def liveIds : List (Ev τ) → List Nat
  | [] => []
  | .registered _ id _ :: l => liveIds l ++ [id]
  | .unregistered _ id _ :: l => (liveIds l).filter (fun i => !(i == id))
  | _ :: l => liveIds l

/-- The id under which native thread `n` is currently registered. -/
def regOf (n : Nat) : List (Ev τ) → Option Nat
  | [] => none
  | .registered _ id m :: l => if m = n then some id else regOf n l
  | .unregistered _ _ m :: l => if m = n then none else regOf n l
  | _ :: l => regOf n l

/-- All ids ever handed out. -/
def allRegs : List (Ev τ) → List Nat :=
  extract fun | .registered _ id _ => some id | _ => none

/-- `P e l`: event `e` happened when the log was `l`.  `Hist P log`: every event of the log satisfies it. -/
def Hist (P : Ev τ → List (Ev τ) → Prop) : List (Ev τ) → Prop
  | [] => True
  | e :: l => P e l ∧ Hist P l

theorem Hist.split {P : Ev τ → List (Ev τ) → Prop} {log : List (Ev τ)} (h : Hist P log) {pre : List (Ev τ)}
    {e : Ev τ} {l : List (Ev τ)} (hl : log = pre ++ e :: l) : P e l := by
  subst hl
  induction pre with
  | nil => exact h.1
  | cons a pre ih => exact ih h.2

theorem Hist.mono {P Q : Ev τ → List (Ev τ) → Prop} (hpq : ∀ e l, P e l → Q e l) {log : List (Ev τ)}
    (h : Hist P log) : Hist Q log := by
  induction log with
  | nil => trivial
  | cons a log ih => exact ⟨hpq _ _ h.1, ih h.2⟩

end
end Core
end Itc
