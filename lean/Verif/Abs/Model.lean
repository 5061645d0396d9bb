import Verif.Sync.Base

/-!
# Waiting until a time point (threadpp/thread.h, condition_variable.hpp, future.hpp)

An application of the synchronisation layer (`Verif.Sync.Model`) that offers to arbitrary user code `UApp` the functions that take a time
point: `this_thread::wait_until` (thread.h:349-353), `this_thread::sleep_until` (thread.h:380-384), `condition_variable::wait_until`
(condition_variable.hpp:81-86), `future::wait_until` (future.hpp:155-159; `shared_future` inherits it).  Each computes
`abs_time.time_since_epoch() - Clock::now().time_since_epoch()` and calls the function that takes a duration.

Simplifications:
* Every `Clock` runs at the rate of the clock of the library (`steady_clock`) and differs from it in its epoch only: `off` is what it shows when the
  clock of the model shows 0.  A clock that is adjusted while the call is under way (`system_clock`) is not modelled.
* The durations are in ns and exact (the common type of the two durations; no overflow).
-/
namespace Itc
namespace Abs
open Core Sync

/-- The function that is called. -/
inductive Till
  | wait                      -- this_thread::wait_until
  | sleep                     -- this_thread::sleep_until
  | cv (n m : Nat)            -- condition_variable::wait_until on condition variable `n` with a lock of mutex `m`
  | fut (p : Option Nat)      -- future::wait_until on a future with that state
  deriving DecidableEq

/-- The arguments of one call: `Clock` (by what it shows at 0) and `abs_time.time_since_epoch()`. -/
structure Req where
  f : Till
  off : Int := 0
  at_ : Int
  deriving DecidableEq

/-- `Clock::now().time_since_epoch()` -/
def Req.now (r : Req) (clock : Nat) : Int := clock + r.off

/-- Actions of user code. -/
inductive UAct (α φ : Type)
  | act (a : SAct α φ)
  | till (r : Req) (k : φ)

/-- User code. -/
structure UApp (α φ δ χ : Type) where
  run : α → φ
  destroy : α → φ
  step : View → δ → φ → Val → Ch χ → Option (δ × UAct α φ)
  onThrow : φ → Exn → Option φ

/-- Program points. -/
inductive UFrame (φ : Type)
  | usr (f : φ)
  | uIn (r : Req)     -- the argument of the call in the return statement is computed, and the call is made
  | uRet (r : Req)    -- the return statement returns what the call has returned
  deriving DecidableEq

section
variable {α φ δ χ : Type}

/-- User code inside core calls. -/
def mapU : Api α φ → Api α (UFrame φ)
  | .registerThis => .registerThis
  | .registerNative n => .registerNative n
  | .unregisterThis => .unregisterThis
  | .notifyExit id => .notifyExit id
  | .invoke id k => .invoke id k
  | .invokePackaged id k => .invokePackaged id k
  | .dispatch id k => .dispatch id k
  | .pending id => .pending id
  | .allIds => .allIds
  | .wait => .wait
  | .waitFor d => .waitFor d
  | .process => .process
  | .processFor d => .processFor d
  | .sleepFor d => .sleepFor d
  | .init cb => .init (cb.map .usr)
  | .shutdown T => .shutdown T
  | .spawn n f => .spawn n (.usr f)
  | .join n => .join n
  | .detach n => .detach n

/-- What a step of user code does. -/
def liftU : UAct α φ → SAct α (UFrame φ)
  | .act (.goto f) => .goto (.usr f)
  | .act (.push f k) => .push (.usr f) (.usr k)
  | .act (.core a k) => .core (mapU a) (.usr k)
  | .act (.sync a k) => .sync a (.usr k)
  | .act (.ret v) => .ret v
  | .act (.throw e) => .throw e
  | .act .terminate => .terminate
  | .till r k => .push (.uIn r) (.usr k)

/-- One step of the functions, thread.h:349-353, 380-384, condition_variable.hpp:81-86, future.hpp:155-159. -/
def ustep (v : View) (rv : Val) : UFrame φ → SAct α (UFrame φ)
  | .usr _ => .terminate
  | .uIn r =>
    match r.f with
    | .wait => .core (.waitFor (r.at_ - r.now v.clock)) (.uRet r)
    | .sleep => .core (.sleepFor (r.at_ - r.now v.clock)) (.uRet r)
    | .cv n m => .sync (.cvWaitFor n m (r.at_ - r.now v.clock)) (.uRet r)
    | .fut p => .sync (.futWaitFor p (r.at_ - r.now v.clock)) (.uRet r)
  | .uRet _ => .ret rv

/-- User code plus these functions. No handlers: an exception leaves the function. -/
def absApp (U : UApp α φ δ χ) : App α (UFrame φ) δ χ where
  run a := .usr (U.run a)
  destroy a := .usr (U.destroy a)
  step v d f rv ch :=
    match f with
    | .usr g =>
      match U.step v d g rv ch with
      | none => none
      | some (u, a) => some (u, liftU a)
    | f =>
      match ch with
      | .go => some (d, ustep v rv f)
      | _ => none
  onThrow f e :=
    match f with
    | .usr g => (U.onThrow g e).map .usr
    | _ => none

abbrev USt (α φ δ : Type) := SSt α (UFrame φ) δ

/-- States reachable with user code `U`. -/
abbrev UR (U : UApp α φ δ χ) (u : δ) (f : φ) (s : USt α φ δ) : Prop := SR (absApp U) u (.usr f) s

end
end Abs
end Itc
