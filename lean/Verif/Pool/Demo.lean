import Verif.Pool.Model
import Verif.Sync.Demo

/-!
# Table-driven user code above the thread pool, used only for concrete witnesses
-/
namespace Itc
namespace Pool
open Core Sync

def pprog (l : List (PAct Nat Nat)) : Nat → PAct Nat Nat
  | 0 => .ret .unit
  | n + 1 => l.getD n (.ret .unit)

/-- User code is a list of labelled actions (label 0 returns); a functor is the label of its code; destructors do nothing. -/
def tableP (l : List (PAct Nat Nat)) : PApp Nat Nat Unit Unit where
  run k := k
  destroy _ := 0
  step _ d f _ ch := match ch with
    | .go => some (d, pprog l f)
    | _ => none
  onThrow _ _ := none

abbrev DPSt := PSt Nat Nat Unit

/-- Thread `t` takes `n` steps. -/
def pgo (t n : Nat) : List (Lbl (PCh Unit)) := List.replicate n (.th t .go)

/-- Thread `t` takes the handle at position `k` of the queue. -/
def ptop (t k : Nat) : List (Lbl (PCh Unit)) := [.th t (.user (.inr k))]

/-- An execution started at label 1. -/
def pexec (l : List (PAct Nat Nat)) (ls : List (Lbl (PCh Unit))) : Option DPSt :=
  run (client (poolApp (tableP l))) (init { sd := {}, ad := { u := () } } (.app (.usr 1))) ls

/-- A concrete execution, observed through `g`. -/
theorem pwit {β : Type} {l : List (PAct Nat Nat)} {ls : List (Lbl (PCh Unit))} (g : DPSt → β) {b : β} (h : (pexec l ls).map g = some b) :
    ∃ s, PR (tableP l) () 1 s ∧ g s = b := by
  obtain ⟨s, h1, h2⟩ := Option.map_eq_some_iff.1 h
  exact ⟨s, ⟨ls, h1⟩, h2⟩

/-- Two states of a concrete execution. -/
theorem pwit2 {β : Type} {l : List (PAct Nat Nat)} {ls ls' : List (Lbl (PCh Unit))} (g : DPSt → DPSt → β) {b : β}
    (h : ((pexec l ls).bind fun s => (run (client (poolApp (tableP l))) s ls').map fun s' => g s s') = some b) :
    ∃ s s', PR (tableP l) () 1 s ∧ run (client (poolApp (tableP l))) s ls' = some s' ∧ g s s' = b := by
  obtain ⟨s, h1, h⟩ := Option.bind_eq_some_iff.1 h
  obtain ⟨s', h2, h3⟩ := Option.map_eq_some_iff.1 h
  exact ⟨s, s', ⟨ls, h1⟩, h2, h3⟩

end Pool
end Itc
