import Verif.Sync.Base

/-!
# Objects of type future and shared_future (threadpp/future.hpp)

An application of the synchronisation layer (`Verif.Sync.Model`) that gives arbitrary user code `FApp` objects of the classes `future<T>`,
`future<void>`, `shared_future<T>` and `shared_future<void>` (future.hpp:81-177, 280-532) in place of references to shared states: construction,
destruction, moves, copies, `share` (:574-583), `valid`, `is_ready`, `has_error`, `wait`, `wait_for`, `get`, `then` (:724-747 and the three other
overloads with a thread id), and the objects that `promise::get_future` (:221-228) and `async` (:683-692) return.  User code names the objects it makes; an
object that a continuation receives as its parameter has a name of its own.

Simplifications:
* `state_` is a `std::shared_ptr`; an object of this layer holds the number of the shared state or nothing.  Shared states are never deallocated.
* The type `T` of a state is not tracked, so user code may move a `future<int>` into a `future<void>`; C++ forbids that.
* One step per operation on an object, so data races on an object are outside the model.
* What C++ forbids is `terminate`: using an object that does not exist, constructing one that exists, copying a `future`, making a `future` of a `shared_future`.
* `get` is `wait`, then the move of `state_`, then the call of the layer below, which waits a second time: that wait finds the state ready, or the
  calling thread told to exit, as the first one did.  If the object was given another state during the first wait (by code that the wait executes, or by
  another thread) the model stops, with the event `other`; the code would read that state without waiting for it.
* A continuation whose parameter is taken by value gets a second object, moved from `self`; here both are one object that lives until the function returns.
* A promise is an object of the layer below.  User code may use `promise`, locks, mutexes and condition variables directly, but no shared state by number.
-/
namespace Itc
namespace Fut
open Core Sync

/-- Names of objects: made by user code; the object `self` of a continuation, future.hpp:733. -/
inductive Loc | usr (n : Nat) | par (n : Nat)
  deriving DecidableEq, Repr

/-- An object; `sh`: it is a shared_future, `st`: the member `state_`, future.hpp:176. -/
structure FO where
  sh : Bool
  st : Option Nat
  deriving DecidableEq, Repr

/-- Functors: of user code; the lambda that then packages, future.hpp:731-735, with the captured state, the kind of `self` and the captured function. -/
inductive FTask (α : Type)
  | usr (a : α)
  | cont (p : Nat) (sh : Bool) (a : α)
  deriving DecidableEq

/-- Ghost events. -/
inductive FEv (α : Type)
  | made (t : Nat) (y : Loc) (p : Nat)                  -- `y` is the object that get_future, then or async returned
  | took (t : Nat) (x : Loc) (p : Nat)                  -- future::get has moved the state out of `x`
  | shared (t : Nat) (y : Loc) (p : Nat)                -- a shared_future took the state of the future `y`
  | chained (t : Nat) (x : Loc) (p : Nat) (sh : Bool) (a : α) -- then was called on `x`, a shared_future if `sh`, with the function `a`
  | param (t n p : Nat) (sh : Bool) (a : α)             -- the function `a` is about to be called with the object `par n`
  | null (t : Nat) (x : Loc)                            -- get uses the null pointer `state_` of `x`
  | other (t : Nat) (x : Loc)                           -- `x` was given another state while get waited for the first one
  | got (t : Nat) (x : Loc) (p : Nat) (v : Val)         -- get of `x` returns `v`
  deriving DecidableEq

/-- Operations on objects; `y : Nat` is the name for the object that is made. -/
inductive FReq (α : Type)
  | new (y : Nat) (sh : Bool)                           -- :91, 288, 351, 426, 493
  | dtor (x : Loc)
  | move (y : Nat) (x : Loc) (sh : Bool)                -- :92, 289, 352, 429-433, 495-499, share :574-583
  | copy (y : Nat) (x : Loc)                            -- :95, 427, 494
  | assign (y x : Loc)                                  -- :93, 290, 353, 435, 501
  | copyAsg (y x : Loc)                                 -- :96, 434, 500
  | valid (x : Loc)                                     -- :103
  | isReady (x : Loc)                                   -- :112
  | hasError (x : Loc)                                  -- :122
  | wait (x : Loc)                                      -- :132
  | waitFor (x : Loc) (d : Int)                         -- :148
  | get (x : Loc)                                       -- :303, 366, 444, 510
  | getFut (q y : Nat)                                  -- :221
  | chain (x : Loc) (id : Nat) (as isVoid : Bool) (a : α) (y : Nat)   -- then, :724, 782, 840, 894
  | async (id : Nat) (as isVoid : Bool) (a : α) (y : Nat)             -- :683
  deriving DecidableEq

structure FData (α δ : Type) where
  u : δ
  objs : List (Loc × FO) := []
  npar : Nat := 0
  flog : List (FEv α) := []

/-- The object with a name. -/
def look (l : List (Loc × FO)) (x : Loc) : Option FO := (l.find? fun e => e.1 = x).map (·.2)

def del (x : Loc) (l : List (Loc × FO)) : List (Loc × FO) := l.filter fun e => e.1 ≠ x

def put (x : Loc) (o : FO) (l : List (Loc × FO)) : List (Loc × FO) := (x, o) :: del x l

/-- Actions of user code. -/
inductive FAct (α φ : Type)
  | act (a : SAct α φ)
  | fut (r : FReq α) (k : φ)

/-- User code; `cont a n` is the function `a` called with the object `par n`. -/
structure FApp (α φ δ χ : Type) where
  run : α → φ
  destroy : α → φ
  cont : α → Nat → φ
  step : View → δ → φ → Val → Ch χ → Option (δ × FAct α φ)
  onThrow : φ → Exn → Option φ

/-- Program points. -/
inductive FFrame (α φ : Type)
  | usr (f : φ)
  | op (r : FReq α)                      -- the operation begins
  | fwd                                  -- returns what the call returned
  | gMv (x : Loc) (o : Option Nat)       -- :306, 369, 447, 513: after the wait of get for the state `o`
  | gEnd (x : Loc) (p : Nat)             -- the end of get
  | hRet (y : Nat)                       -- the object `y` is made of the result: get_future, then, async
  | kIn (p : Nat) (sh : Bool) (a : α)    -- :733, 792, 849, 904
  | kRun (n : Nat)                       -- :734, after the call of `f`
  | kThr (n : Nat) (e : Exn)             -- :734, after `f` has thrown
  deriving DecidableEq

section
variable {α φ δ χ : Type}

/-- User code inside core calls. -/
def mapF : Api α φ → Api (FTask α) (FFrame α φ)
  | .registerThis => .registerThis
  | .registerNative n => .registerNative n
  | .unregisterThis => .unregisterThis
  | .notifyExit id => .notifyExit id
  | .invoke id k => .invoke id (.usr k)
  | .invokePackaged id k => .invokePackaged id (.usr k)
  | .dispatch id k => .dispatch id (.usr k)
  | .pending id => .pending id
  | .allIds => .allIds
  | .wait => .wait
  | .waitFor d => .waitFor d
  | .process => .process
  | .processFor d => .processFor d
  | .sleepFor d => .sleepFor d
  | .init cb => .init (cb.map .usr)
  | .shutdown T => .shutdown T
  | .spawn n f => .spawn n (.usr f)
  | .join n => .join n
  | .detach n => .detach n

/-- The calls of the layer below that user code may make directly: those without shared states. -/
def mapS : SApi α → Option (SApi (FTask α))
  | .lock n => some (.lock n)
  | .unlock n => some (.unlock n)
  | .cvWait n m => some (.cvWait n m)
  | .cvWaitFor n m d => some (.cvWaitFor n m d)
  | .notifyOne n => some (.notifyOne n)
  | .notifyAll n => some (.notifyAll n)
  | .mLock m => some (.mLock m)
  | .mTry m => some (.mTry m)
  | .mUnlock m => some (.mUnlock m)
  | .promNew q b => some (.promNew q b)
  | .promDtor q => some (.promDtor q)
  | .promMove q q' => some (.promMove q q')
  | .promSet q r => some (.promSet q r)
  | _ => none

/-- What a step of user code does. -/
def liftF : FAct α φ → SAct (FTask α) (FFrame α φ)
  | .act (.goto f) => .goto (.usr f)
  | .act (.push f k) => .push (.usr f) (.usr k)
  | .act (.core a k) => .core (mapF a) (.usr k)
  | .act (.sync a k) => match mapS a with
    | some b => .sync b (.usr k)
    | none => .terminate
  | .act (.ret v) => .ret v
  | .act (.throw e) => .throw e
  | .act .terminate => .terminate
  | .fut r k => .push (.op r) (.usr k)

def FData.ev (d : FData α δ) (e : FEv α) : FData α δ := { d with flog := e :: d.flog }

/-- A new object at `y`; there must be none. -/
def FData.make (d : FData α δ) (y : Loc) (o : FO) : FData α δ × SAct (FTask α) (FFrame α φ) :=
  match look d.objs y with
  | some _ => (d, .terminate)
  | none => ({ d with objs := put y o d.objs }, .ret .unit)

/-- The state of `x` (an object `o`) goes to `y`, which then is `sh`; `state_` of `x` becomes null, future.hpp:92-93. -/
def FData.pass (d : FData α δ) (t : Nat) (y : Loc) (sh : Bool) (x : Loc) (o : FO) : FData α δ :=
  let d' : FData α δ := { d with objs := put y ⟨sh, o.st⟩ (put x ⟨o.sh, none⟩ d.objs) }
  match o.st with
  | some p => if sh && !o.sh then d'.ev (.shared t x p) else d'
  | none => d'

/-- A member function that only reads `state_` and calls a function of the state. -/
def FData.use (d : FData α δ) (x : Loc) (k : FFrame α φ) (f : Option Nat → SApi (FTask α)) : FData α δ × SAct (FTask α) (FFrame α φ) :=
  match look d.objs x with
  | none => (d, .terminate)
  | some o => (d, .sync (f o.st) k)

/-- The first step of an operation, by thread `t`. -/
def opStep (t : Nat) (d : FData α δ) : FReq α → FData α δ × SAct (FTask α) (FFrame α φ)
  | .new y sh => d.make (.usr y) ⟨sh, none⟩
  | .dtor x => match look d.objs x with
    | none => (d, .terminate)
    | some _ => ({ d with objs := del x d.objs }, .ret .unit)
  | .move y x sh => match look d.objs x, look d.objs (.usr y) with
    | some o, none => if o.sh && !sh then (d, .terminate) else (d.pass t (.usr y) sh x o, .ret .unit)
    | _, _ => (d, .terminate)
  | .copy y x => match look d.objs x with
    | some o => if o.sh then d.make (.usr y) o else (d, .terminate)
    | none => (d, .terminate)
  | .assign y x => match look d.objs x, look d.objs y with
    | some o, some o' =>
      if o.sh && !o'.sh then (d, .terminate)
      else if x = y then (d, .ret .unit)
      else (d.pass t y o'.sh x o, .ret .unit)
    | _, _ => (d, .terminate)
  | .copyAsg y x => match look d.objs x, look d.objs y with
    | some o, some o' => if o.sh && o'.sh then ({ d with objs := put y o d.objs }, .ret .unit) else (d, .terminate)
    | _, _ => (d, .terminate)
  | .valid x => match look d.objs x with
    | none => (d, .terminate)
    | some o => (d, .ret (.bool o.st.isSome))
  | .isReady x => d.use x .fwd .isReady
  | .hasError x => d.use x .fwd .hasError
  | .wait x => d.use x .fwd .futWait
  | .waitFor x n => d.use x .fwd (.futWaitFor · n)
  | .get x => match look d.objs x with
    | none => (d, .terminate)
    | some o => (d, .sync (.futWait o.st) (.gMv x o.st))
  | .getFut q y => (d, .sync (.getFuture q) (.hRet y))
  | .chain x id as b a y => match look d.objs x with
    | none => (d, .terminate)
    | some o => match o.st with
      | none => (d, .throw .noState)
      | some p =>
        let d' := if o.sh then d else { d with objs := put x ⟨false, none⟩ d.objs }
        (d'.ev (.chained t x p o.sh a), .sync (.futThen (some p) id as b (.cont p o.sh a)) (.hRet y))
  | .async id as b a y => (d, .sync (.async id as b (.usr a)) (.hRet y))

/-- One step of the code of this layer. -/
def fstep (cont : α → Nat → φ) (v : View) (d : FData α δ) (rv : Val) : FFrame α φ → FData α δ × SAct (FTask α) (FFrame α φ)
  | .usr _ => (d, .terminate)
  | .op r => opStep v.tid d r
  | .fwd => (d, .ret rv)
  | .gMv x w => match look d.objs x with
    | none => (d.ev (.null v.tid x), .terminate)
    | some o => match o.st with
      | none => (d.ev (.null v.tid x), .terminate)
      | some p =>
        if w ≠ some p then (d.ev (.other v.tid x), .terminate) else
        let d' := if o.sh then d else ({ d with objs := put x ⟨false, none⟩ d.objs }).ev (.took v.tid x p)
        (d', .sync (.futGet (some p)) (.gEnd x p))
  | .gEnd x p => (d.ev (.got v.tid x p rv), .ret rv)
  | .hRet y => match rv with
    | .nat p => match look d.objs (.usr y) with
      | some _ => (d, .terminate)
      | none => ({ d with objs := put (.usr y) ⟨false, some p⟩ d.objs }.ev (.made v.tid (.usr y) p), .ret .unit)
    | _ => (d, .terminate)
  | .kIn p sh a => ({ d with objs := put (.par d.npar) ⟨sh, some p⟩ d.objs, npar := d.npar + 1, flog := .param v.tid d.npar p sh a :: d.flog },
      .push (.usr (cont a d.npar)) (.kRun d.npar))
  | .kRun n => ({ d with objs := del (.par n) d.objs }, .ret rv)
  | .kThr n e => ({ d with objs := del (.par n) d.objs }, .throw e)

/-- User code plus objects. The only handler: `self` is destroyed when the continuation throws, future.hpp:733-734. -/
def futApp (U : FApp α φ δ χ) : App (FTask α) (FFrame α φ) (FData α δ) χ where
  run
    | .usr a => .usr (U.run a)
    | .cont p sh a => .kIn p sh a
  destroy
    | .usr a => .usr (U.destroy a)
    | .cont _ _ a => .usr (U.destroy a)
  step v d f rv ch :=
    match f with
    | .usr g =>
      match U.step v d.u g rv ch with
      | none => none
      | some (u, a) => some ({ d with u := u }, liftF a)
    | f =>
      match ch with
      | .go => some (fstep U.cont v d rv f)
      | _ => none
  onThrow f e :=
    match f with
    | .usr g => (U.onThrow g e).map .usr
    | .kRun n => some (.kThr n e)
    | _ => none

abbrev FSt (α φ δ : Type) := SSt (FTask α) (FFrame α φ) (FData α δ)

/-- States reachable with user code `U`. -/
abbrev FR (U : FApp α φ δ χ) (u : δ) (f : φ) (s : FSt α φ δ) : Prop := SR (futApp U) { u := u } (.usr f) s

end
end Fut
end Itc
