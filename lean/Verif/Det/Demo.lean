import Verif.Det.Model
import Verif.Sync.Demo

/-!
# Table-driven user code, used only for concrete witnesses
-/
namespace Itc
namespace Det
open Core Sync

def dprog (l : List (DAct Nat Nat)) : Nat → DAct Nat Nat
  | 0 => .act (.ret .unit)
  | n + 1 => l.getD n (.act (.ret .unit))

def dtable (l : List (DAct Nat Nat)) : DApp Nat Nat Unit Unit where
  run k := k
  destroy _ := 0
  step _ d f _ ch := match ch with
    | .go => some (d, dprog l f)
    | _ => none
  onThrow _ _ := none

/-- An execution of the table application started at label 1. -/
def dexec (l : List (DAct Nat Nat)) (ls : List (Lbl Unit)) : Option (DSt Nat Nat Unit) :=
  run (client (detApp (dtable l))) (init { sd := {}, ad := { u := () } } (.app (.usr 1))) ls

/-- A concrete execution, observed through `g`. -/
theorem dwit {β : Type} {l : List (DAct Nat Nat)} {ls : List (Lbl Unit)}
    (g : DSt Nat Nat Unit → β) {b : β} (h : (dexec l ls).map g = some b) : ∃ s, DR (dtable l) () 1 s ∧ g s = b := by
  obtain ⟨s, h1, h2⟩ := Option.map_eq_some_iff.1 h
  exact ⟨s, ⟨ls, h1⟩, h2⟩

/-- A concrete call: execution `ls1`, then the activation of `g` above `rest` runs for `ls2`, then the step `lb`. -/
theorem dfragWit {β : Type} {l : List (DAct Nat Nat)} {ls1 ls2 : List (Lbl Unit)} {lb : Lbl Unit}
    {t : Nat} {g : Fr Nat (DFrame Nat Nat)} {rest : List (Fr Nat (DFrame Nat Nat))}
    {obs : DSt Nat Nat Unit → Nat → DSt Nat Nat Unit → DSt Nat Nat Unit → β} {b : β}
    (h : ((dexec l ls1).bind fun s0 => if s0.stk t = g :: rest then
        (fragRun (client (detApp (dtable l))) t rest s0 0 ls2).bind fun p =>
          (step (client (detApp (dtable l))) p.2 lb).map fun s' => obs s0 p.1 p.2 s' else none) = some b) :
    ∃ s0 n s s', DR (dtable l) () 1 s0 ∧ s0.stk t = g :: rest ∧
      Frag (client (detApp (dtable l))) t rest s0 n s ∧ step (client (detApp (dtable l))) s lb = some s' ∧ obs s0 n s s' = b := by
  obtain ⟨s0, h0, h⟩ := Option.bind_eq_some_iff.1 h
  split at h
  · rename_i hst
    obtain ⟨⟨n, s⟩, h1, h⟩ := Option.bind_eq_some_iff.1 h
    obtain ⟨s', h2, h3⟩ := Option.map_eq_some_iff.1 h
    exact ⟨s0, n, s, s', ⟨ls1, h0⟩, hst, fragRun_sound ls2 (Frag.here g hst) h1, h2, h3⟩
  · contradiction

/-- Main calls `async(f)` and gets the future. -/
def det1 : List (DAct Nat Nat) :=
  [.act (.core .registerThis 2), .det { n := 7, body := 4 } 3, .act (.sync (.futGet (some 0)) 0), .act (.ret (.nat 9))]

/-- Main calls `async(f)`; thread 5 notifies the id 2. -/
def det2 : List (DAct Nat Nat) :=
  [.act (.core .registerThis 2), .act (.core (.spawn 5 5) 3), .det { n := 7, body := 6 } 4, .act (.sync (.futGet (some 0)) 0),
   .act (.core (.notifyExit 2) 0), .act (.ret (.nat 9))]

/-- Main makes a promise, calls `then(f)` on its future, sets the promise and gets the future of the continuation. -/
def det3 : List (DAct Nat Nat) :=
  [.act (.core .registerThis 2), .act (.sync (.promNew 0 false) 3), .act (.sync (.getFuture 0) 4), .det { n := 7, on := some (some 0), as := true, body := 7 } 5,
   .act (.sync (.promSet 0 (.val (.nat 5))) 6), .act (.sync (.futGet (some 1)) 0), .act (.ret (.nat 9))]

/-- Main calls `then(f)` on a future without state. -/
def det4 : List (DAct Nat Nat) :=
  [.act (.core .registerThis 2), .det { n := 7, on := some none, body := 0 } 0]

end Det
end Itc
