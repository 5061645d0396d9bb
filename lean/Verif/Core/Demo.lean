import Verif.Core.Model

/-!
# Table-driven client, used only for concrete witnesses

Client code is a table `prog : Nat → Act Nat Nat` of labelled actions; a task object is the label of its code; label `0`
returns (it is also the destructor of every task).  `hnd` is the exception handler table.
-/
namespace Itc
namespace Core

def tableClient (prog : Nat → Act Nat Nat) (hnd : Nat → Option Nat := fun _ => none) : Client Nat Nat Unit Unit where
  run k := k
  destroy _ := 0
  step _ d f _ ch := match ch with
    | .go => some (d, prog f)
    | _ => none
  onThrow f _ := hnd f

/-- The table given by a list; everything else returns. -/
def prog (l : List (Act Nat Nat)) : Nat → Act Nat Nat
  | 0 => .ret .unit
  | n + 1 => l.getD n (.ret .unit)

/-- `n` steps of thread `t`. -/
def go (t n : Nat) : List (Lbl Unit) := List.replicate n (.th t .go)

/-- An execution of the table client started at label 1. -/
def exec (l : List (Act Nat Nat)) (ls : List (Lbl Unit)) (hnd : Nat → Option Nat := fun _ => none) :
    Option (St Nat Nat Unit) :=
  run (tableClient (prog l) hnd) (init () 1) ls

deriving instance DecidableEq for Ev
deriving instance DecidableEq for CF
deriving instance DecidableEq for Frame

theorem exec_reach {l : List (Act Nat Nat)} {ls : List (Lbl Unit)} {hnd : Nat → Option Nat} {s : St Nat Nat Unit}
    (h : exec l ls hnd = some s) : Reach (tableClient (prog l) hnd) () 1 s := ⟨ls, h⟩

/-- A concrete execution, observed through `g`. -/
theorem wit {β : Type} {l : List (Act Nat Nat)} {ls : List (Lbl Unit)} {hnd : Nat → Option Nat}
    (g : St Nat Nat Unit → β) {b : β} (h : (exec l ls hnd).map g = some b) :
    ∃ s, Reach (tableClient (prog l) hnd) () 1 s ∧ g s = b := by
  obtain ⟨s, h1, h2⟩ := Option.map_eq_some_iff.1 h
  exact ⟨s, exec_reach h1, h2⟩

/-- Main registers, queues two tasks to itself, runs them with `process`, queues one more and unregisters. -/
def demoProg : List (Act Nat Nat) :=
  [.call .registerThis 2, .call (.invoke 1 10) 3, .call (.invoke 1 11) 4, .call .process 5, .call .allIds 6,
   .call (.invoke 1 12) 7, .call (.invoke 9 13) 8, .call (.pending 1) 9, .call .unregisterThis 0,
   .ret .unit, .call (.dispatch 1 12) 0, .ret .unit]

def demo (n : Nat) : Option (St Nat Nat Unit) := exec demoProg (go 0 n)

/-- The log of the demo, oldest event first. -/
def demoLog : List (Ev Nat) :=
  [.registered 0 1 0, .regRes 0 0 1, .ret 0 (.register 0) (.nat 1),
   .accepted 0 0 1 10, .ret 0 (.invoke 1) (.bool true), .accepted 0 0 1 11, .ret 0 (.invoke 1) (.bool true),
   .started 0 0 10, .finished 0 0 10, .started 0 0 11, .inlined 0 1 12, .ret 0 .dispatch (.bool true), .finished 0 0 11,
   .ret 0 .process .unit, .ret 0 .allIds (.ids [1]), .accepted 0 0 1 12, .ret 0 (.invoke 1) (.bool true),
   .refused 0 9 13, .ret 0 (.invoke 9) (.bool false), .pendRes 0 0 1 1, .ret 0 (.pending 1) (.nat 1),
   .unregistered 0 1 0, .dropped 0 0 12, .ret 0 .internal .unit, .ret 0 .unregister .unit]

theorem demo_run : (demo 52).map (fun s => s.log.reverse) = some demoLog := by decide +kernel

/-- The demo is an execution. -/
theorem demo_reach : ∃ s, Reach (tableClient (prog demoProg)) () 1 s ∧ s.log = demoLog.reverse := by
  obtain ⟨s, h1, h2⟩ := wit (fun s => s.log.reverse) demo_run
  exact ⟨s, h1, by rw [← h2]; simp⟩

end Core
end Itc
