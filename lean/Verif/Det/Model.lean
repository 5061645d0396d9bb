import Verif.Sync.Base

/-!
# async and then without a thread id (threadpp/future.hpp)

An application of the synchronisation layer (`Verif.Sync.Model`) that offers the overloads without a thread id to arbitrary user code `DApp`:
`async(policy, f)` (future.hpp:700-712), `async(f)` (:714-718), `then(policy, f)` and `then(f)` of `future<T>` (:755-775), `shared_future<T>`
(:813-834), `future<void>` and `shared_future<void>` (the same text).  They start a thread that registers itself, waits once and unregisters itself, detach
it, and call the overload with the id of that thread.  `f` is already packaged with its arguments (`std::forward` only).

Simplifications:
* The native id `n` of the new thread, which the operating system chooses, is part of the request of the user code, which is arbitrary; the thread
  constructor accepts any that is free (`Verif.Core.Model`, `spawnIn`).
* The object `detached_thread` has no handle after `detach`, so its destructor (thread.cpp:723-729) does nothing, and its id is a local value.
* `async(f)` and `then(f)` pass `deferred | async`, which is the policy `as = false` (compare `detail::launch`, :657-678).
-/
namespace Itc
namespace Det
open Core Sync

/-- The arguments of one call: `on = none` is async, `on = some q` is then of the future with state `q`; `n` is the native id that the new thread gets. -/
structure Req (α : Type) where
  n : Nat
  on : Option (Option Nat) := none
  as : Bool := false
  isVoid : Bool := false
  body : α
  deriving DecidableEq

/-- Ghost events. -/
inductive DEv (α : Type)
  | made (t n id : Nat)                   -- thread `t` has started the native thread `n`; `detached_thread.id_` is `id`
  | returned (t id p : Nat) (r : Req α)   -- the call `r` of thread `t`, with `id`, gives its caller the future with state `p`
  | left (t : Nat)                        -- a detached thread `t` has left its `wait`
  deriving DecidableEq

structure DData (α δ : Type) where
  u : δ
  dlog : List (DEv α) := []

/-- Actions of user code. -/
inductive DAct (α φ : Type)
  | act (a : SAct α φ)
  | det (r : Req α) (k : φ)

/-- User code. -/
structure DApp (α φ δ χ : Type) where
  run : α → φ
  destroy : α → φ
  step : View → δ → φ → Val → Ch χ → Option (δ × DAct α φ)
  onThrow : φ → Exn → Option φ

/-- Program points. The comment gives the code of async that the next step executes; then has the same text. -/
inductive DFrame (α φ : Type)
  | usr (f : φ)
  | dIn (r : Req α)             -- :703-709, std::thread constructor, thread.h:30
  | dReg (r : Req α)            -- thread.h:32, thread.cpp:695
  | dId (r : Req α)             -- thread.cpp:696, then future.hpp:710
  | dCall (r : Req α) (id : Nat) -- :711
  | dRet (r : Req α) (id : Nat)  -- :711
  | tIn                         -- :706
  | tWait                       -- :707
  | tUnreg                      -- :708
  | tEnd                        -- :709
  deriving DecidableEq

section
variable {α φ δ χ : Type}

/-- User code inside core calls. -/
def mapD : Api α φ → Api α (DFrame α φ)
  | .registerThis => .registerThis
  | .registerNative n => .registerNative n
  | .unregisterThis => .unregisterThis
  | .notifyExit id => .notifyExit id
  | .invoke id k => .invoke id k
  | .invokePackaged id k => .invokePackaged id k
  | .dispatch id k => .dispatch id k
  | .pending id => .pending id
  | .allIds => .allIds
  | .wait => .wait
  | .waitFor d => .waitFor d
  | .process => .process
  | .processFor d => .processFor d
  | .sleepFor d => .sleepFor d
  | .init cb => .init (cb.map .usr)
  | .shutdown T => .shutdown T
  | .spawn n f => .spawn n (.usr f)
  | .join n => .join n
  | .detach n => .detach n

/-- What a step of user code does. -/
def liftD : DAct α φ → SAct α (DFrame α φ)
  | .act (.goto f) => .goto (.usr f)
  | .act (.push f k) => .push (.usr f) (.usr k)
  | .act (.core a k) => .core (mapD a) (.usr k)
  | .act (.sync a k) => .sync a (.usr k)
  | .act (.ret v) => .ret v
  | .act (.throw e) => .throw e
  | .act .terminate => .terminate
  | .det r k => .push (.dIn r) (.usr k)

/-- The overload with a thread id that is called, :711, 767. -/
def Req.call (r : Req α) (id : Nat) : SApi α :=
  match r.on with
  | none => .async id r.as r.isVoid r.body
  | some q => .futThen q id r.as r.isVoid r.body

/-- One step of the overloads (`d..`) and of the thread they start (`t..`), future.hpp:700-712. -/
def dstep (v : View) (d : DData α δ) (rv : Val) : DFrame α φ → DData α δ × SAct α (DFrame α φ)
  | .usr _ => (d, .terminate)
  | .dIn r => (d, .core (.spawn r.n .tIn) (.dReg r))
  | .dReg r => (d, .core (.registerNative r.n) (.dId r))
  | .dId r =>
    match rv with
    | .nat id => ({ d with dlog := .made v.tid r.n id :: d.dlog }, .core (.detach r.n) (.dCall r id))
    | _ => (d, .terminate)
  | .dCall r id => (d, .sync (r.call id) (.dRet r id))
  | .dRet r id =>
    match rv with
    | .nat p => ({ d with dlog := .returned v.tid id p r :: d.dlog }, .ret (.nat p))
    | _ => (d, .terminate)
  | .tIn => (d, .core .registerThis .tWait)
  | .tWait => (d, .core .wait .tUnreg)
  | .tUnreg => ({ d with dlog := .left v.tid :: d.dlog }, .core .unregisterThis .tEnd)
  | .tEnd => (d, .ret .unit)

/-- User code plus these overloads. No handlers: an exception leaves the overload (then of a future without state) or ends the thread. -/
def detApp (U : DApp α φ δ χ) : App α (DFrame α φ) (DData α δ) χ where
  run a := .usr (U.run a)
  destroy a := .usr (U.destroy a)
  step v d f rv ch :=
    match f with
    | .usr g =>
      match U.step v d.u g rv ch with
      | none => none
      | some (u, a) => some ({ d with u := u }, liftD a)
    | f =>
      match ch with
      | .go => some (dstep v d rv f)
      | _ => none
  onThrow f e :=
    match f with
    | .usr g => (U.onThrow g e).map .usr
    | _ => none

abbrev DSt (α φ δ : Type) := SSt α (DFrame α φ) (DData α δ)

/-- States reachable with user code `U`. -/
abbrev DR (U : DApp α φ δ χ) (u : δ) (f : φ) (s : DSt α φ δ) : Prop := SR (detApp U) { u := u } (.usr f) s

end
end Det
end Itc
