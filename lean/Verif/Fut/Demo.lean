import Verif.Fut.Model
import Verif.Sync.Demo

/-!
# Table-driven user code, used only for concrete witnesses
-/
namespace Itc
namespace Fut
open Core Sync

def fprog (l : List (FAct Nat Nat)) : Nat → FAct Nat Nat
  | 0 => .act (.ret .unit)
  | n + 1 => l.getD n (.act (.ret .unit))

/-- User code that is a table; a function with a parameter reads the parameter's name nowhere. -/
def ftable (l : List (FAct Nat Nat)) : FApp Nat Nat Unit Unit where
  run k := k
  destroy _ := 0
  cont k _ := k
  step _ d f _ ch := match ch with
    | .go => some (d, fprog l f)
    | _ => none
  onThrow _ _ := none

/-- An execution of the table application started at label 1. -/
def fexec (l : List (FAct Nat Nat)) (ls : List (Lbl Unit)) : Option (FSt Nat Nat Unit) :=
  run (client (futApp (ftable l))) (init { sd := {}, ad := { u := () } } (.app (.usr 1))) ls

/-- A concrete execution, observed through `g`. -/
theorem fwit {β : Type} {l : List (FAct Nat Nat)} {ls : List (Lbl Unit)}
    (g : FSt Nat Nat Unit → β) {b : β} (h : (fexec l ls).map g = some b) : ∃ s, FR (ftable l) () 1 s ∧ g s = b := by
  obtain ⟨s, h1, h2⟩ := Option.map_eq_some_iff.1 h
  exact ⟨s, ⟨ls, h1⟩, h2⟩

/-- A concrete call: execution `ls1`, the step `l0`, then the activation of `g` above `rest` runs for `ls2`, then the step `lb`. -/
theorem ffragWit {β : Type} {l : List (FAct Nat Nat)} {ls1 ls2 : List (Lbl Unit)} {lb : Lbl Unit}
    {t : Nat} {g : Fr (FTask Nat) (FFrame Nat Nat)} {rest : List (Fr (FTask Nat) (FFrame Nat Nat))}
    {obs : FSt Nat Nat Unit → Nat → FSt Nat Nat Unit → FSt Nat Nat Unit → β} {b : β}
    (h : ((fexec l ls1).bind fun s0 => if s0.stk t = g :: rest then
        (fragRun (client (futApp (ftable l))) t rest s0 0 ls2).bind fun p =>
          (step (client (futApp (ftable l))) p.2 lb).map fun s' => obs s0 p.1 p.2 s' else none) = some b) :
    ∃ s0 n s s', FR (ftable l) () 1 s0 ∧ s0.stk t = g :: rest ∧
      Frag (client (futApp (ftable l))) t rest s0 n s ∧ step (client (futApp (ftable l))) s lb = some s' ∧ obs s0 n s s' = b := by
  obtain ⟨s0, h0, h⟩ := Option.bind_eq_some_iff.1 h
  split at h
  · rename_i hst
    obtain ⟨⟨n, s⟩, h1, h⟩ := Option.bind_eq_some_iff.1 h
    obtain ⟨s', h2, h3⟩ := Option.map_eq_some_iff.1 h
    exact ⟨s0, n, s, s', ⟨ls1, h0⟩, hst, fragRun_sound ls2 (Frag.here g hst) h1, h2, h3⟩
  · contradiction

/-- Main makes a promise, gets its future, moves it, sets the promise and gets the value; then it uses the object again. -/
def fut1 : List (FAct Nat Nat) :=
  [.act (.core .registerThis 2), .act (.sync (.promNew 0 false) 3), .fut (.getFut 0 0) 4, .fut (.move 1 (.usr 0) false) 5,
   .act (.sync (.promSet 0 (.val (.nat 5))) 6), .fut (.get (.usr 1)) 7, .fut (.isReady (.usr 1)) 0]

/-- Main makes a promise, shares its future, copies it, calls then on the copy and sets the promise; the continuation does nothing. -/
def fut2 : List (FAct Nat Nat) :=
  [.act (.core .registerThis 2), .act (.sync (.promNew 0 false) 3), .fut (.getFut 0 0) 4, .fut (.move 1 (.usr 0) true) 5, .fut (.copy 2 (.usr 1)) 6,
   .fut (.chain (.usr 2) 1 true true 9 3) 7, .act (.sync (.promSet 0 (.val (.nat 5))) 8), .fut (.get (.usr 3)) 0, .act (.ret .unit)]

/-- Main waits in `get` of a future; meanwhile a task on the same thread sets the promise and gets the same object. -/
def fut3 : List (FAct Nat Nat) :=
  [.act (.core .registerThis 2), .act (.sync (.promNew 0 false) 3), .fut (.getFut 0 0) 4, .act (.core (.invoke 1 6) 5), .fut (.get (.usr 0)) 0,
   .act (.sync (.promSet 0 (.val (.nat 5))) 7), .fut (.get (.usr 0)) 0]

/-- Main calls then on the future of a promise, moves on and sets the promise. -/
def fut4 : List (FAct Nat Nat) :=
  [.act (.core .registerThis 2), .act (.sync (.promNew 0 false) 3), .fut (.getFut 0 0) 4, .fut (.chain (.usr 0) 1 true false 7 1) 5,
   .act (.sync (.promSet 0 (.val (.nat 5))) 6), .fut (.get (.usr 1)) 0, .act (.ret (.nat 9))]

end Fut
end Itc
