import Verif.When.Model
import Verif.Sync.Demo

/-!
# Table-driven user code above when_all / when_any, used only for concrete witnesses
-/
namespace Itc
namespace When
open Core Sync

def wprog (l : List (WAct Nat Nat)) : Nat → WAct Nat Nat
  | 0 => .ret .unit
  | n + 1 => l.getD n (.ret .unit)

/-- User code is a list of labelled actions (label 0 returns); a functor is the label of its code; destructors do nothing. -/
def tableW (l : List (WAct Nat Nat)) : WApp Nat Nat Unit Unit where
  run k := k
  destroy _ := 0
  step _ d f _ ch := match ch with
    | .go => some (d, wprog l f)
    | _ => none
  onThrow _ _ := none

abbrev DWSt := WSt Nat Nat Unit

/-- An execution started at label 1. -/
def wexec (l : List (WAct Nat Nat)) (ls : List (Lbl Unit)) : Option DWSt :=
  run (client (whenApp (tableW l))) (init { sd := {}, ad := { u := () } } (.app (.usr 1))) ls

theorem wexec_reach {l : List (WAct Nat Nat)} {ls : List (Lbl Unit)} {s : DWSt} (h : wexec l ls = some s) : WR (tableW l) () 1 s := ⟨ls, h⟩

/-- A concrete execution, observed through `g`. -/
theorem wwit {β : Type} {l : List (WAct Nat Nat)} {ls : List (Lbl Unit)} (g : DWSt → β) {b : β} (h : (wexec l ls).map g = some b) :
    ∃ s, WR (tableW l) () 1 s ∧ g s = b := by
  obtain ⟨s, h1, h2⟩ := Option.map_eq_some_iff.1 h
  exact ⟨s, ⟨ls, h1⟩, h2⟩

/-- Two states of a concrete execution. -/
theorem wwit2 {β : Type} {l : List (WAct Nat Nat)} {ls ls' : List (Lbl Unit)} (g : DWSt → DWSt → β) {b : β}
    (h : ((wexec l ls).bind fun s => (run (client (whenApp (tableW l))) s ls').map fun s' => g s s') = some b) :
    ∃ s s', WR (tableW l) () 1 s ∧ run (client (whenApp (tableW l))) s ls' = some s' ∧ g s s' = b := by
  obtain ⟨s, h1, h⟩ := Option.bind_eq_some_iff.1 h
  obtain ⟨s', h2, h3⟩ := Option.map_eq_some_iff.1 h
  exact ⟨s, s', ⟨ls, h1⟩, h2, h3⟩

end When
end Itc
