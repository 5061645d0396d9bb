import Verif.Sync.Base
import Verif.Core.FragDemo

/-!
# Table-driven application, used only for concrete witnesses

Application code is a list of labelled actions (label 0 returns); a functor is the label of its code; destructors of functors
do nothing.
-/
namespace Itc
namespace Sync
open Core

def sprog (l : List (SAct Nat Nat)) : Nat → SAct Nat Nat
  | 0 => .ret .unit
  | n + 1 => l.getD n (.ret .unit)

def tableApp (l : List (SAct Nat Nat)) (hnd : Nat → Option Nat := fun _ => none) : App Nat Nat Unit Unit where
  run k := k
  destroy _ := 0
  step _ d f _ ch := match ch with
    | .go => some (d, sprog l f)
    | _ => none
  onThrow f _ := hnd f

abbrev demo (l : List (SAct Nat Nat)) := client (tableApp l)

abbrev DSt := SSt Nat Nat Unit

/-- An execution of the table application started at label 1. -/
def sexec (l : List (SAct Nat Nat)) (ls : List (Lbl Unit)) (hnd : Nat → Option Nat := fun _ => none) : Option DSt :=
  run (client (tableApp l hnd)) (init { sd := {}, ad := () } (.app 1)) ls

/-- A concrete execution, observed through `g`. -/
theorem swit {β : Type} {l : List (SAct Nat Nat)} {ls : List (Lbl Unit)} {hnd : Nat → Option Nat}
    (g : DSt → β) {b : β} (h : (sexec l ls hnd).map g = some b) : ∃ s, SR (tableApp l hnd) () 1 s ∧ g s = b := by
  obtain ⟨s, h1, h2⟩ := Option.map_eq_some_iff.1 h
  exact ⟨s, ⟨ls, h1⟩, h2⟩

/-- One step after a concrete execution. -/
theorem sstepWit {β : Type} {l : List (SAct Nat Nat)} {ls : List (Lbl Unit)} {lb : Lbl Unit} {hnd : Nat → Option Nat}
    (g : DSt → DSt → β) {b : β}
    (h : ((sexec l ls hnd).bind fun s => (step (client (tableApp l hnd)) s lb).map fun s' => g s s') = some b) :
    ∃ s s', SR (tableApp l hnd) () 1 s ∧ step (client (tableApp l hnd)) s lb = some s' ∧ g s s' = b := by
  obtain ⟨s, h1, h⟩ := Option.bind_eq_some_iff.1 h
  obtain ⟨s', h2, h3⟩ := Option.map_eq_some_iff.1 h
  exact ⟨s, s', ⟨ls, h1⟩, h2, h3⟩

/-- A concrete call: execution `ls1`, then the activation of `g` above `rest` runs for `ls2`, then the step `lb`. -/
theorem sfragWit {β : Type} {l : List (SAct Nat Nat)} {ls1 ls2 : List (Lbl Unit)} {lb : Lbl Unit} {hnd : Nat → Option Nat}
    {t : Nat} {g : Fr Nat Nat} {rest : List (Fr Nat Nat)} {obs : DSt → Nat → DSt → DSt → β} {b : β}
    (h : ((sexec l ls1 hnd).bind fun s0 => if s0.stk t = g :: rest then
        (fragRun (client (tableApp l hnd)) t rest s0 0 ls2).bind fun p =>
          (step (client (tableApp l hnd)) p.2 lb).map fun s' => obs s0 p.1 p.2 s' else none) = some b) :
    ∃ s0 n s s', SR (tableApp l hnd) () 1 s0 ∧ s0.stk t = g :: rest ∧
      Frag (client (tableApp l hnd)) t rest s0 n s ∧ step (client (tableApp l hnd)) s lb = some s' ∧ obs s0 n s s' = b := by
  obtain ⟨s0, h0, h⟩ := Option.bind_eq_some_iff.1 h
  split at h
  · rename_i hst
    obtain ⟨⟨n, s⟩, h1, h⟩ := Option.bind_eq_some_iff.1 h
    obtain ⟨s', h2, h3⟩ := Option.map_eq_some_iff.1 h
    exact ⟨s0, n, s, s', ⟨ls1, h0⟩, hst, fragRun_sound ls2 (Frag.here g hst) h1, h2, h3⟩
  · contradiction

/-- Main makes a promise, gets its future, sets the value 7 and gets it. -/
def demo1 : List (SAct Nat Nat) :=
  [.core .registerThis 2, .sync (.promNew 0 false) 3, .sync (.getFuture 0) 4, .sync (.promSet 0 (.val (.nat 7))) 5,
   .sync (.futGet (some 0)) 6, .ret .unit]

/-- Main sets a promise twice. -/
def demo2 : List (SAct Nat Nat) :=
  [.core .registerThis 2, .sync (.promNew 0 false) 3, .sync (.getFuture 0) 4, .sync (.promSet 0 (.val (.nat 7))) 5,
   .sync (.promSet 0 (.exn (.user 3))) 6, .ret .unit]

/-- Main calls get_future twice. -/
def demo3 : List (SAct Nat Nat) :=
  [.core .registerThis 2, .sync (.promNew 0 false) 3, .sync (.getFuture 0) 4, .sync (.getFuture 0) 5, .ret .unit]

/-- Main, notified for exit, calls get of a `future<void>` nobody sets. -/
def demo4 : List (SAct Nat Nat) :=
  [.core .registerThis 2, .sync (.promNew 0 true) 3, .sync (.getFuture 0) 4, .core (.notifyExit 1) 5,
   .sync (.futGet (some 0)) 6, .ret .unit]

/-- Main calls wait_for(1500ns) while thread 1 sets the promise. -/
def demo5 : List (SAct Nat Nat) :=
  [.core .registerThis 2, .sync (.promNew 0 false) 3, .sync (.getFuture 0) 4, .core (.spawn 1 10) 5,
   .sync (.futWaitFor (some 0) 1500) 6, .ret .unit, .ret .unit, .ret .unit, .ret .unit,
   .sync (.promSet 0 (.val (.nat 7))) 11, .ret .unit]

/-- Main waits on condition variable 0 with lock 0; thread 1 notifies it. -/
def demo6 : List (SAct Nat Nat) :=
  [.core .registerThis 2, .core (.spawn 1 10) 3, .sync (.lock 0) 4, .sync (.cvWait 0 0) 5, .sync (.unlock 0) 6, .ret .unit,
   .ret .unit, .ret .unit, .ret .unit, .sync (.lock 0) 11, .sync (.notifyAll 0) 12, .sync (.unlock 0) 13, .ret .unit]

end Sync
end Itc
