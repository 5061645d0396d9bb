import Verif.Abs.Model
import Verif.Sync.Demo

/-!
# Table-driven user code, used only for concrete witnesses
-/
namespace Itc
namespace Abs
open Core Sync

def uprog (l : List (UAct Nat Nat)) : Nat → UAct Nat Nat
  | 0 => .act (.ret .unit)
  | n + 1 => l.getD n (.act (.ret .unit))

def utable (l : List (UAct Nat Nat)) : UApp Nat Nat Unit Unit where
  run k := k
  destroy _ := 0
  step _ d f _ ch := match ch with
    | .go => some (d, uprog l f)
    | _ => none
  onThrow _ _ := none

/-- An execution of the table application started at label 1. -/
def uexec (l : List (UAct Nat Nat)) (ls : List (Lbl Unit)) : Option (USt Nat Nat Unit) :=
  run (client (absApp (utable l))) (init { sd := {}, ad := () } (.app (.usr 1))) ls

/-- A concrete execution, observed through `g`. -/
theorem uwit {β : Type} {l : List (UAct Nat Nat)} {ls : List (Lbl Unit)}
    (g : USt Nat Nat Unit → β) {b : β} (h : (uexec l ls).map g = some b) : ∃ s, UR (utable l) () 1 s ∧ g s = b := by
  obtain ⟨s, h1, h2⟩ := Option.map_eq_some_iff.1 h
  exact ⟨s, ⟨ls, h1⟩, h2⟩

/-- A concrete call: execution `ls1`, then the activation of `g` above `rest` runs for `ls2`, then the step `lb`. -/
theorem ufragWit {β : Type} {l : List (UAct Nat Nat)} {ls1 ls2 : List (Lbl Unit)} {lb : Lbl Unit}
    {t : Nat} {g : Fr Nat (UFrame Nat)} {rest : List (Fr Nat (UFrame Nat))}
    {obs : USt Nat Nat Unit → Nat → USt Nat Nat Unit → USt Nat Nat Unit → β} {b : β}
    (h : ((uexec l ls1).bind fun s0 => if s0.stk t = g :: rest then
        (fragRun (client (absApp (utable l))) t rest s0 0 ls2).bind fun p =>
          (step (client (absApp (utable l))) p.2 lb).map fun s' => obs s0 p.1 p.2 s' else none) = some b) :
    ∃ s0 n s s', UR (utable l) () 1 s0 ∧ s0.stk t = g :: rest ∧
      Frag (client (absApp (utable l))) t rest s0 n s ∧ step (client (absApp (utable l))) s lb = some s' ∧ obs s0 n s s' = b := by
  obtain ⟨s0, h0, h⟩ := Option.bind_eq_some_iff.1 h
  split at h
  · rename_i hst
    obtain ⟨⟨n, s⟩, h1, h⟩ := Option.bind_eq_some_iff.1 h
    obtain ⟨s', h2, h3⟩ := Option.map_eq_some_iff.1 h
    exact ⟨s0, n, s, s', ⟨ls1, h0⟩, hst, fragRun_sound ls2 (Frag.here g hst) h1, h2, h3⟩
  · contradiction

end Abs
end Itc
