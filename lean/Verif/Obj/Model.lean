import Verif.Core.Model

/-!
# Thread objects: class tpp::thread

A client of the core machine, itself parametric in arbitrary user code that creates, moves, swaps, assigns, joins, detaches and
destroys `tpp::thread` objects and calls the functions of the core.

* An object is its `std::thread` base (`native`: the handle, `none` if not joinable) and `id_`.
* Objects are numbered; `slot o = none`: there is no object `o` (not yet constructed, or destroyed).
* An object is not thread-safe.  `busy` marks an object while an operation on it is in progress; an operation on a busy object is
  a data race, an operation on an object that does not exist is a lifetime error: both end the model (`terminate`).
* User code starts and joins threads only through objects: `spawn` / `join` / `detach` of the core are refused (`terminate`).
* `std::thread::join` and `detach` invalidate the handle when the system call returns; here the handle is taken out of the object
  at the call, which nobody can observe since the object is busy.
* The native id of a new thread is a parameter of the constructor call: the operating system may choose any free one.
* The ghost log `olog` is never read.
-/
namespace Itc
namespace Obj
open Core

/-- `class thread`, thread.h:18-65: the `std::thread` base and `id_`. -/
structure TObj where
  native : Option Nat := none
  id : Nat := 0
  deriving DecidableEq, Repr

structure Slot where
  obj : TObj := {}
  busy : Bool := false
  deriving DecidableEq, Repr

/-- The operations that may destroy or join. -/
inductive Op | join | assign | dtor
  deriving DecidableEq, Repr

/-- Observable events (append-only, newest first, never read by the machine). -/
inductive OEv
  | made (t o n id : Nat)              -- a constructor has started native thread `n`, registered as `id`, in object `o`
  | began (t o : Nat) (f : Op) (x : TObj)  -- thread `t` starts operation `f` on object `o`, whose content is `x`
  | asks (t o id : Nat)                -- join of object `o` calls notify_for_exit(id)
  | joins (t o n : Nat)                -- join of object `o` calls std::thread::join, its handle was `n`
  | joined (t o n : Nat)               -- std::thread::join of object `o` has returned, its handle was `n`
  | swapped (t o : Nat)                -- operator= is about to exchange the contents of object `o`
  | gone (t o : Nat) (h : Option Nat)  -- ~std::thread of object `o` starts with handle `h`
  deriving DecidableEq, Repr

structure OData (δ : Type) where
  slot : Nat → Option Slot := fun _ => none
  olog : List OEv := []
  ud : δ

/-- Operations on thread objects; `o` is the object itself (the left operand). -/
inductive OApi (φ : Type)
  | new (o : Nat)                       -- thread(), thread.h:25
  | make (o n : Nat) (f : φ)            -- thread(f), thread.h:29-40
  | moveNew (o o' : Nat)                -- thread(thread&&), thread.h:26
  | swap (o o' : Nat)                   -- thread.cpp:701-705
  | assign (o o' : Nat)                 -- thread.cpp:707-715
  | join (o : Nat)                      -- thread.cpp:687-691
  | detach (o : Nat)                    -- std::thread::detach
  | dtor (o : Nat)                      -- thread.cpp:717-723
  | getId (o : Nat)                     -- thread.cpp:682-685
  | joinable (o : Nat)                  -- std::thread::joinable

/-- What a step of user code does. -/
inductive OAct (τ φ : Type)
  | goto (f : φ)
  | push (callee k : φ)
  | core (a : Api τ φ) (k : φ)
  | obj (a : OApi φ) (k : φ)
  | ret (v : Val)
  | throw (e : Exn)
  | terminate

/-- User code. -/
structure User (τ φ δ χ : Type) where
  run : τ → φ
  destroy : τ → φ
  step : View → δ → φ → Val → Ch χ → Option (δ × OAct τ φ)
  onThrow : φ → Exn → Option φ

/-- Who called `join`: the user, `operator=` (with its right operand), the destructor. -/
inductive JK | join (o : Nat) | assign (o o' : Nat) | dtor (o : Nat)
  deriving DecidableEq, Repr

/-- The object joined. -/
def JK.obj : JK → Nat
  | .join o => o
  | .assign o _ => o
  | .dtor o => o

def JK.op : JK → Op
  | .join _ => .join
  | .assign _ _ => .assign
  | .dtor _ => .dtor

/-- Program points.  The comment gives the code that the next step executes.  Calls of `join` are expanded in place. -/
inductive OFrame (φ : Type)
  | usr (f : φ)
  | term                                 -- an exception left a noexcept function
  | new (o : Nat)                        -- thread.h:25
  | mkIn (o n : Nat) (f : φ)             -- the std::thread constructor, thread.h:30, 37
  | mkReg (o n : Nat)                    -- register_this, thread.cpp:695
  | mkId (o n : Nat)                     -- thread.cpp:696
  | mvIn (o o' : Nat)                    -- thread.h:26
  | swIn (o o' : Nat)                    -- thread.cpp:703-704
  | asIn (o o' : Nat)                    -- thread.cpp:709-711
  | asSwap (o o' : Nat)                  -- thread.cpp:713-714
  | jnIn (o : Nat)                       -- entry of join() called by the user
  | jnOut (o : Nat)                      -- join() returns to the user
  | jnFail (o : Nat) (e : Exn)           -- join() throws to the user
  | jnAsk (K : JK)                       -- thread.cpp:689
  | jnStd (K : JK)                       -- thread.cpp:690
  | jnEnd (K : JK) (n : Nat)             -- std::thread::join has returned, its handle was `n`
  | deIn (o : Nat)                       -- std::thread::detach
  | deEnd (o : Nat)                      -- std::thread::detach has returned
  | dtIn (o : Nat)                       -- thread.cpp:719-722
  | dtStd (o : Nat)                      -- ~std::thread
  | idIn (o : Nat)                       -- thread.cpp:684
  | jaIn (o : Nat)                       -- std::thread::joinable
  deriving DecidableEq

def OApi.entry {φ} : OApi φ → OFrame φ
  | .new o => .new o
  | .make o n f => .mkIn o n f
  | .moveNew o o' => .mvIn o o'
  | .swap o o' => .swIn o o'
  | .assign o o' => .asIn o o'
  | .join o => .jnIn o
  | .detach o => .deIn o
  | .dtor o => .dtIn o
  | .getId o => .idIn o
  | .joinable o => .jaIn o

section
variable {τ φ δ χ : Type}

/-- The core functions that user code calls. -/
def mapApi : Api τ φ → Option (Api τ (OFrame φ))
  | .registerThis => some .registerThis
  | .registerNative n => some (.registerNative n)
  | .unregisterThis => some .unregisterThis
  | .notifyExit id => some (.notifyExit id)
  | .invoke id k => some (.invoke id k)
  | .invokePackaged id k => some (.invokePackaged id k)
  | .dispatch id k => some (.dispatch id k)
  | .pending id => some (.pending id)
  | .allIds => some .allIds
  | .wait => some .wait
  | .waitFor d => some (.waitFor d)
  | .process => some .process
  | .processFor d => some (.processFor d)
  | .sleepFor d => some (.sleepFor d)
  | .init cb => some (.init (cb.map .usr))
  | .shutdown T => some (.shutdown T)
  | .spawn _ _ => none
  | .join _ => none
  | .detach _ => none

namespace OData

def setSlot (d : OData δ) (o : Nat) (x : Option Slot) : OData δ := { d with slot := upd d.slot o x }

def ev (d : OData δ) (e : OEv) : OData δ := { d with olog := e :: d.olog }

/-- The object, if it exists and no operation on it is in progress. -/
def idle (d : OData δ) (o : Nat) : Option TObj :=
  match d.slot o with
  | some ⟨x, false⟩ => some x
  | _ => none

/-- Store `x` in object `o`. -/
def put (d : OData δ) (o : Nat) (x : TObj) (busy : Bool) : OData δ := d.setSlot o (some ⟨x, busy⟩)

end OData

/-- `std::swap` of the bases and of the ids, thread.cpp:703-704; both objects are idle afterwards. -/
def OData.exch (d : OData δ) (o o' : Nat) (x x' : TObj) : OData δ := (d.put o x' false).put o' x false

/-- Where `join` returns to. -/
def JK.next {φ} : JK → OFrame φ
  | .join o => .jnOut o
  | .assign o o' => .asSwap o o'
  | .dtor o => .dtStd o

/-- Where an exception of `join` arrives: operator= and the destructor are noexcept. -/
def JK.fail {φ} (e : Exn) : JK → OFrame φ
  | .join o => .jnFail o e
  | .assign _ _ => .term
  | .dtor _ => .term

/-- One step of the functions of class thread, for thread `v.tid`. -/
def ostep (v : View) (d : OData δ) (f : OFrame φ) (rv : Val) : Option (OData δ × Act τ (OFrame φ)) :=
  let t := v.tid
  match f with
  | .usr _ => none
  | .term => some (d, .terminate)
  | .new o => if (d.slot o).isSome then some (d, .terminate) else some (d.put o {} false, .ret .unit)
  | .mkIn o n f =>
    if (d.slot o).isSome then some (d, .terminate) else some (d.put o {} true, .call (.spawn n (.usr f)) (.mkReg o n))
  | .mkReg o n => some (d.put o { native := some n } true, .call (.registerNative n) (.mkId o n))
  | .mkId o n =>
    match rv with
    | .nat id => some ((d.put o { native := some n, id := id } false).ev (.made t o n id), .ret .unit)
    | _ => some (d, .terminate)
  | .mvIn o o' =>
    -- the implicitly defined constructor moves the base and copies id_
    match d.slot o, d.idle o' with
    | none, some x => some ((d.put o x false).put o' { x with native := none } false, .ret .unit)
    | _, _ => some (d, .terminate)
  | .swIn o o' =>
    match d.idle o, d.idle o' with
    | some x, some x' => some (d.exch o o' x x', .ret .unit)
    | _, _ => some (d, .terminate)
  | .asIn o o' =>
    match d.idle o, d.idle o' with
    | some x, some x' =>
      some (((d.put o' x' true).put o x true).ev (.began t o .assign x),
        .goto (if x.native.isSome then .jnAsk (.assign o o') else .asSwap o o'))
    | _, _ => some (d, .terminate)
  | .asSwap o o' =>
    match d.slot o, d.slot o' with
    | some x, some x' => some ((d.exch o o' x.obj x'.obj).ev (.swapped t o), .ret .unit)
    | _, _ => some (d, .terminate)
  | .jnIn o =>
    match d.idle o with
    | some x => some ((d.put o x true).ev (.began t o .join x), .goto (.jnAsk (.join o)))
    | none => some (d, .terminate)
  | .jnOut o =>
    match d.slot o with
    | some x => some (d.put o x.obj false, .ret .unit)
    | none => some (d, .terminate)
  | .jnFail o e =>
    match d.slot o with
    | some x => some (d.put o x.obj false, .throw e)
    | none => some (d, .terminate)
  | .jnAsk K =>
    match d.slot K.obj with
    | some x => some (d.ev (.asks t K.obj x.obj.id), .call (.notifyExit x.obj.id) (.jnStd K))
    | none => some (d, .terminate)
  | .jnStd K =>
    match d.slot K.obj with
    | some x =>
      match x.obj.native with
      | none => some (d, .goto (K.fail .invalidArg))
      | some n =>
        if n = t then some (d, .goto (K.fail .deadlock))
        else some ((d.put K.obj { x.obj with native := none } true).ev (.joins t K.obj n), .call (.join n) (.jnEnd K n))
    | none => some (d, .terminate)
  | .jnEnd K n => some (d.ev (.joined t K.obj n), .goto K.next)
  | .deIn o =>
    match d.idle o with
    | some x =>
      match x.native with
      | none => some (d, .throw .invalidArg)
      | some n => some (d.put o { x with native := none } true, .call (.detach n) (.deEnd o))
    | none => some (d, .terminate)
  | .deEnd o =>
    match d.slot o with
    | some x => some (d.put o x.obj false, .ret .unit)
    | none => some (d, .terminate)
  | .dtIn o =>
    match d.idle o with
    | some x => some ((d.put o x true).ev (.began t o .dtor x), .goto (if x.native.isSome then .jnAsk (.dtor o) else .dtStd o))
    | none => some (d, .terminate)
  | .dtStd o =>
    match d.slot o with
    | some x =>
      if x.obj.native.isSome then some (d.ev (.gone t o x.obj.native), .terminate)
      else some ((d.setSlot o none).ev (.gone t o none), .ret .unit)
    | none => some (d, .terminate)
  | .idIn o =>
    match d.idle o with
    | some x => some (d, .ret (.nat x.id))
    | none => some (d, .terminate)
  | .jaIn o =>
    match d.idle o with
    | some x => some (d, .ret (.bool x.native.isSome))
    | none => some (d, .terminate)

/-- Exception handlers: only those of user code (`JK.fail` has the ones of class thread). -/
def oThrow (onThrow : φ → Exn → Option φ) : OFrame φ → Exn → Option (OFrame φ)
  | .usr f, e => (onThrow f e).map .usr
  | _, _ => none

/-- Actions of user code as actions of the whole client. -/
def liftAct : OAct τ φ → Act τ (OFrame φ)
  | .goto g => .goto (.usr g)
  | .push g k => .push (.usr g) (.usr k)
  | .core a k => match mapApi a with
    | some a => .call a (.usr k)
    | none => .terminate
  | .obj a k => .push a.entry (.usr k)
  | .ret v => .ret v
  | .throw e => .throw e
  | .terminate => .terminate

/-- Class thread plus user code is a client of the core machine. -/
def client (U : User τ φ δ χ) : Client τ (OFrame φ) (OData δ) χ where
  run k := .usr (U.run k)
  destroy k := .usr (U.destroy k)
  step v d f rv ch :=
    match f with
    | .usr g =>
      match U.step v d.ud g rv ch with
      | none => none
      | some (ud, a) => some ({ d with ud := ud }, liftAct a)
    | f =>
      match ch with
      | .go => ostep v d f rv
      | _ => none
  onThrow := oThrow U.onThrow

end
end Obj
end Itc
