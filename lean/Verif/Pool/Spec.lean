import Verif.Pool.Model

/-!
# Thread pool: what the claims are about

Functions of the ghost log `plog` (newest event first). They do not mention the data of the pool.
-/
namespace Itc
namespace Pool
section
variable {α : Type}

def PEv.schedId (i : Nat) : PEv α → Option Nat
  | .sched _ j id _ _ => if j = i then some id else none
  | _ => none

def PEv.takenId (i : Nat) : PEv α → Option Nat
  | .took _ j _ id _ _ => if j = i then some id else none
  | _ => none

def PEv.cutId (i : Nat) : PEv α → Option Nat
  | .stopped _ j id _ => if j = i then some id else none
  | .discarded _ j id _ => if j = i then some id else none
  | _ => none

def PEv.goneId (i : Nat) : PEv α → Option Nat
  | .stopped _ j id _ => if j = i then some id else none
  | .discarded _ j id _ => if j = i then some id else none
  | .forgot _ j id => if j = i then some id else none
  | .done _ j id _ => if j = i then some id else none
  | _ => none

/-- The jobs of pool `i` that were inserted. -/
def schedIds (i : Nat) (l : List (PEv α)) : List Nat := l.filterMap (PEv.schedId i)

/-- The jobs whose callable a worker has taken to execute it. -/
def takenIds (i : Nat) (l : List (PEv α)) : List Nat := l.filterMap (PEv.takenId i)

/-- The jobs that stop, stop_all or the destructor erased before a worker took the callable. -/
def cutIds (i : Nat) (l : List (PEv α)) : List Nat := l.filterMap (PEv.cutId i)

/-- The jobs that are no longer in `jobs_`. -/
def goneIds (i : Nat) (l : List (PEv α)) : List Nat := l.filterMap (PEv.goneId i)

/-- The priority group of job `id`: the one of schedule or of the last change_priority that took effect. -/
def curGrp (i id : Nat) : List (PEv α) → Option Grp
  | [] => none
  | .sched _ j id' _ g :: l => if j = i ∧ id' = id then some g else curGrp i id l
  | .changed _ j id' g :: l => if j = i ∧ id' = id then some g else curGrp i id l
  | _ :: l => curGrp i id l

/-- `g` is or was the priority group of job `id`. -/
def hadGrp (i id : Nat) (g : Grp) (l : List (PEv α)) : Prop := (∃ t c, .sched t i id c g ∈ l) ∨ ∃ t, .changed t i id g ∈ l

/-- Job `id` was inserted, no worker has taken it, it was not stopped or discarded. -/
def Pending (i id : Nat) (l : List (PEv α)) : Prop := id ∈ schedIds i l ∧ id ∉ takenIds i l ∧ id ∉ cutIds i l

/-- Level first, then priority. -/
def Grp.le (a b : Grp) : Prop := a.lvl < b.lvl ∨ a.lvl = b.lvl ∧ a.prio ≤ b.prio

/-- A fact about every event and the log before it. -/
def Hst (P : PEv α → List (PEv α) → Prop) (l : List (PEv α)) : Prop := ∀ l1 e l2, l = l1 ++ e :: l2 → P e l2

/-- What is true of the log `l` when the event is appended to it. -/
def PEv.fact : PEv α → List (PEv α) → Prop
  | .sched _ i id c _, l => (∃ k, .packed k c.u ∈ l) ∧ (∃ k, .packed k c.p ∈ l) ∧ 1 ≤ id ∧ id ∉ schedIds i l
  | .changed _ i id g, l => Pending i id l ∧ curGrp i id l ≠ some g
  | .took _ i L id c h, l => (∃ t g, .sched t i id c g ∈ l) ∧ Pending i id l ∧ h.id = id ∧ hadGrp i id h.g l ∧ (∃ g, curGrp i id l = some g ∧ L ≤ g.lvl) ∧
      L ≤ h.g.lvl ∧ ∀ id' g', Pending i id' l → curGrp i id' l = some g' → L ≤ g'.lvl → g'.le h.g
  | .skipped _ i L h, l => hadGrp i h.id h.g l ∧ L ≤ h.g.lvl ∧ (Pending i h.id l → ∃ g, curGrp i h.id l = some g ∧ g.lvl < L)
  | .idle _ i L, l => ∀ id' g', Pending i id' l → curGrp i id' l = some g' → g'.lvl < L
  | .stopped _ i id c, l => (∃ t g, .sched t i id c g ∈ l) ∧ Pending i id l
  | .noStop _ i id, l => ¬ Pending i id l
  | .discarded _ i id c, l => (∃ t g, .sched t i id c g ∈ l) ∧ Pending i id l
  | .forgot _ i id, l => id ∈ takenIds i l
  | .done _ i id c, l => ∃ t L h, .took t i L id c h ∈ l
  | .returned _ i id u, l => ∃ t c g, .sched t i id c g ∈ l ∧ c.u = u
  | .waits _ i id none, l => id ∉ schedIds i l ∨ id ∈ goneIds i l
  | .waits _ i id (some p), l => id ∉ goneIds i l ∧ ∃ t c g, .sched t i id c g ∈ l ∧ c.p = p
  | .waitsAll _ i m, l => m.map (·.1) = ((schedIds i l).filter (· ∉ goneIds i l)).reverse ∧ ∀ x ∈ m, ∃ t c g, .sched t i x.1 c g ∈ l ∧ c.p = x.2
  | .counted _ i n, l => n = ((schedIds i l).filter (· ∉ goneIds i l)).length
  | _, _ => True

variable {P : PEv α → List (PEv α) → Prop} {l : List (PEv α)}

theorem Hst.nil : Hst P [] := by intro l1 e l2 h; simp at h

theorem Hst.cons {e : PEv α} (h : Hst P l) (he : P e l) : Hst P (e :: l) := by
  intro l1 e' l2 hl
  cases l1 with
  | nil => simp only [List.nil_append, List.cons.injEq] at hl; obtain ⟨rfl, rfl⟩ := hl; exact he
  | cons x l1 => simp only [List.cons_append, List.cons.injEq] at hl; exact h l1 e' l2 hl.2

theorem Hst.mem (h : Hst P l) {e : PEv α} (he : e ∈ l) : ∃ l1 l2, l = l1 ++ e :: l2 ∧ P e l2 := by
  obtain ⟨l1, l2, rfl⟩ := List.append_of_mem he
  exact ⟨l1, l2, rfl, h l1 e l2 rfl⟩

end
end Pool
end Itc
