import Verif.Basic

/-!
# Packaged tasks and what they capture (threadpp/detail/utility/capture.hpp, apply.hpp, threadpp/thread.h:81, 273-286)

`invoke(id, f, args...)` makes a `task` (`std::function<void()>`) of a lambda that holds the function and the arguments in objects of type
`move_on_copy_t`, whose copy constructor moves the values out of the object that is copied.  The model has the variables of the caller, the objects of
type `task`, and the lambdas that they point to.  `package_future_task` (future.hpp:617-650) captures the function and the arguments in the same way.

Simplifications:
* The function is the first element of the list of arguments (the code has one `move_on_copy_t` for it and one for the arguments; both are copied when
  the lambda is copied).
* A variable that is passed as an rvalue is not passed a second time (the order in which the elements of a tuple are constructed is not specified).
  Arguments of type `std::reference_wrapper` are not modelled (the parameter `std::decay_t<Args>&` of the lambda in thread.h:279-280 does not bind to them).
* A call of a task is one step; what the function leaves in the captured objects is arbitrary.
-/
namespace Itc
namespace Cap

/-- The value category of an argument, which `Args` records: `T&` or `T`. -/
inductive Cat | lv | rv
  deriving DecidableEq

/-- The contents of an object: a value, or `none` if it was moved out. -/
abbrev Cell (β : Type) := Option β

/-- The lambda, thread.h:276: the `value_` of its members (capture.hpp:52). -/
structure Lam (β : Type) where
  val : List (Cell β)
  tag : Nat              -- ghost: the number of the package_simple_task call
  deriving DecidableEq

/-- What the caller and the library do with tasks. -/
inductive Op (β : Type)
  | write (x : Nat) (v : Cell β)           -- the caller changes a variable
  | pack (o : Nat) (args : List (Cat × Nat)) -- package_simple_task, thread.h:273-286; the result is object `o`
  | move (o o' : Nat)                      -- `task o' = std::move(o)`, e.g. thread.cpp:382, 414
  | copy (o o' : Nat)                      -- `task o' = o`
  | massign (o o' : Nat)                   -- `o' = std::move(o)`, e.g. thread_pool.cpp:89, 267
  | cassign (o o' : Nat)                   -- `o' = o`
  | destroy (o : Nat)                      -- ~function
  | call (o : Nat) (after : List (Cell β)) -- `o()`; `after`: what the function leaves in the captured objects

inductive Ev (β : Type)
  | packed (o k : Nat)
  | moved (o o' : Nat)                     -- `o'` is made of `o`, by copy or move
  | assigned (o o' : Nat)                  -- `o'` is assigned, by copy or move
  | destroyed (o : Nat)
  | called (o k : Nat) (vals : List (Cell β)) -- the function and the arguments that the call passes
  | bad (o : Nat)                          -- std::bad_function_call
  deriving DecidableEq

structure St (β : Type) where
  var : Nat → Cell β := fun _ => none            -- the variables of the caller
  fn : Nat → Option (Option Nat) := fun _ => none -- the objects of type task: no object; empty; the lambda
  lam : Nat → Option (Lam β) := fun _ => none     -- the lambdas
  nlam : Nat := 0
  ntag : Nat := 0
  log : List (Ev β) := []

section
variable {β : Type}

def set {γ : Type} (f : Nat → γ) (a : Nat) (b : γ) : Nat → γ := fun x => if x = a then b else f x

/-- A variable passed as an rvalue is passed once. -/
def okArgs (args : List (Cat × Nat)) : Bool := args.all fun a => a.1 = .lv || (args.map (·.2)).count a.2 = 1

/-- `std::forward<U>(args)...` into the tuple, capture.hpp:34: rvalues are moved out of the variables. -/
def moveOut (f : Nat → Cell β) (args : List (Cat × Nat)) : Nat → Cell β := fun x => if (Cat.rv, x) ∈ args then none else f x

/-- A lambda that was moved from. -/
def Lam.hollow (a : Lam β) : Lam β := { a with val := a.val.map fun _ => none }

/-- The copy constructor of the lambda, i.e. of its members, capture.hpp:38-40: a new lambda has the values, the old one has not. -/
def St.dup (s : St β) (c : Nat) : St β :=
  { s with lam := set (set s.lam s.nlam (s.lam c)) c ((s.lam c).map Lam.hollow), nlam := s.nlam + 1 }

/-- The lambda of an object is destroyed. -/
def St.free (s : St β) (o : Nat) : St β :=
  { s with lam := fun c => if s.fn o = some (some c) then none else s.lam c }

def St.ev (s : St β) (e : Ev β) : St β := { s with log := e :: s.log }

/-- One operation; `none`: not a C++ program. -/
def step (s : St β) : Op β → Option (St β)
  | .write x v => some { s with var := set s.var x v }
  | .pack o args =>
    -- thread.h:276: `capture(std::forward<F>(f)), capture(std::forward<Args>(args)...)`
    if (s.fn o).isNone ∧ okArgs args then
      some { s with
        lam := set s.lam s.nlam (some ⟨args.map fun a => s.var a.2, s.ntag⟩)
        var := moveOut s.var args
        fn := set s.fn o (some (some s.nlam))
        nlam := s.nlam + 1
        ntag := s.ntag + 1
        log := .packed o s.ntag :: s.log }
    else none
  | .move o o' =>
    match s.fn o, s.fn o' with
    | some x, none => some ({ s with fn := set (set s.fn o (some none)) o' (some x) }.ev (.moved o o'))
    | _, _ => none
  | .copy o o' =>
    match s.fn o, s.fn o' with
    | some none, none => some ({ s with fn := set s.fn o' (some none) }.ev (.moved o o'))
    | some (some c), none => some ({ s.dup c with fn := set s.fn o' (some (some s.nlam)) }.ev (.moved o o'))
    | _, _ => none
  | .massign o o' =>
    -- `function(std::move(o)).swap(o')`
    match s.fn o, s.fn o' with
    | some x, some _ =>
      if o = o' then some (s.ev (.assigned o o'))
      else some ({ s.free o' with fn := set (set s.fn o (some none)) o' (some x) }.ev (.assigned o o'))
    | _, _ => none
  | .cassign o o' =>
    -- `function(o).swap(o')`
    match s.fn o, s.fn o' with
    | some none, some _ => some ({ s.free o' with fn := set s.fn o' (some none) }.ev (.assigned o o'))
    | some (some c), some _ => some ({ (s.dup c).free o' with fn := set s.fn o' (some (some s.nlam)) }.ev (.assigned o o'))
    | _, _ => none
  | .destroy o =>
    match s.fn o with
    | some _ => some ({ s.free o with fn := set s.fn o none }.ev (.destroyed o))
    | none => none
  | .call o after =>
    match s.fn o with
    | none => none
    | some none => some (s.ev (.bad o))
    | some (some c) =>
      match s.lam c with
      | none => none
      | some a =>
        -- thread.h:278-283, apply.hpp:18: the elements of the tuples, in order
        if after.length = a.val.length then
          some ({ s with lam := set s.lam c (some { a with val := after }) }.ev (.called o a.tag a.val))
        else none

/-- Sequences of operations. -/
inductive Steps : St β → St β → Prop
  | refl (s : St β) : Steps s s
  | snoc {s s' s'' : St β} (h : Steps s s') (op : Op β) (hs : step s' op = some s'') : Steps s s''

/-- The states that a program reaches. -/
def Reach (s : St β) : Prop := Steps {} s

end
end Cap
end Itc
