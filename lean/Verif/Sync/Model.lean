import Verif.Core.Model

/-!
# Synchronisation layer: semaphore, condition_variable, mutex, promise / future, async, then

A client of the core machine, itself parametric in an arbitrary application `App` (user code, `when_all`/`when_any`, the
thread pool) that calls the functions of this layer and of the core.

* One step = one `std::mutex` critical section without foreign code, or one atomic access, or a control transfer.
  `semaphore::mutex_` is only ever held inside single steps.  `basic_state::guard` and the `std::mutex` objects that
  user code passes to `condition_variable::wait` are held across calls and have an owner (`lk`).
* All value types are `Val`; `isVoid` distinguishes `future<void>` from `future<T>`.
* `std::launch` is modelled by one Boolean: is it exactly `std::launch::async` (future.hpp:661).
* Future handles are the numbers of the shared states; a null handle is `none`.  Shared states are never freed (only
  observable when a promise was lost by move assignment while a continuation was attached).
* A handle is obtained only from the creation of a shared state.  The numbers that application code passes are checked: one
  that no state has, or `runTask`/`dropTask` of a state not made by `package`, ends the model (`terminate`).
* A packaged task (`package_future_task`) owns the promise of its own state, so it is identified by that state's number.
* A `std::mutex` locked again by its owner blocks forever; unlocking one that is not owned, or waiting on a condition
  variable without owning the lock, is a contract violation of the standard library and ends the model (`terminate`).
* The ghost log `slog` is never read.
-/
namespace Itc
namespace Sync
open Core

/-- Point update of a map with arbitrary keys. -/
def set {κ β : Type} [DecidableEq κ] (f : κ → β) (a : κ) (b : β) : κ → β := fun x => if x = a then b else f x

@[simp] theorem set_same {κ β : Type} [DecidableEq κ] (f : κ → β) (a : κ) (b : β) : set f a b a = b := by simp [set]
theorem set_ne {κ β : Type} [DecidableEq κ] (f : κ → β) {a x : κ} (b : β) (h : x ≠ a) : set f a b x = f x := by
  simp [set, h]

/-- The semaphores (semaphore.h:31-106): inside a condition_variable, a future's shared state, a mutex. -/
inductive SemId | cv (n : Nat) | fut (p : Nat) | mtx (m : Nat)
  deriving DecidableEq, Repr

/-- `std::mutex` objects: `basic_state::guard` (future_state.hpp:24) and those of user code. -/
inductive Lk | guard (p : Nat) | user (n : Nat)
  deriving DecidableEq, Repr

/-- `value_status`, future_state.hpp:10-15 -/
inductive VStat | notSet | ready | error
  deriving DecidableEq, Repr

/-- What a promise is satisfied with. -/
inductive Res | val (v : Val) | exn (e : Exn)
  deriving DecidableEq, Repr

/-- How the promise of a shared state is owned: by a promise object of the application, by a task made by `async`/`then`,
    or by a packaged task that the application stores itself (the thread pool). -/
inductive Owner | usr | pkg | ext
  deriving DecidableEq, Repr

/-- A continuation stored by `then` (future.hpp:741-745): a packaged task (state `p`, functor `body`), the target thread
    id and whether the policy is exactly `async`. -/
structure Kont (α : Type) where
  id : Nat
  async : Bool
  p : Nat
  body : α
  deriving DecidableEq

/-- `basic_state` / `future_state<T>`, future_state.hpp:18-192. `owner`, `req` (what was given to then / async)
    and `home` (the promise object, or the name of the packaged task, that the state was made for) are ghost. -/
structure FSt (α : Type) where
  isVoid : Bool := false
  status : VStat := .notSet
  value : Option Val := none
  exn : Option Exn := none
  cbs : List (Kont α) := []
  retrieved : Bool := false
  owner : Owner := .usr
  req : Option (Kont α) := none
  home : Nat := 0

/-- Why a semaphore wait ended: its token was interrupted, the thread was notified for exit, the time was up. -/
inductive Why | sig | exit | time
  deriving DecidableEq, Repr

/-- Observable events of this layer (append-only, newest first, never read by the machine). -/
inductive SEv
  | made (t p : Nat)                   -- a shared state is created
  | sat (t p : Nat) (r : Res)          -- thread `t` makes the state ready
  | refusedSet (t p : Nat) (r : Res)   -- a setter finds the state already ready and throws
  | gotFut (t p : Nat)                 -- get_future succeeds
  | bodyStart (t p : Nat)              -- the function of packaged task `p` is called
  | bodyRet (t p : Nat) (v : Val)      -- it returns
  | bodyThrew (t p : Nat) (e : Exn)    -- it throws
  | dropped (t p : Nat)                -- the packaged task `p` has been destroyed
  | called (t p : Nat)                 -- the application calls its packaged task `p`
  | freed (t p : Nat)                  -- the application destroys its packaged task `p`
  | attached (t p p' : Nat)            -- continuation (packaged task) `p'` is attached to `p`
  | launched (t p' id : Nat) (async : Bool) (own : Nat)
    -- packaged task `p'` is launched for thread `id` (an id 0 is resolved to the own id) by thread `t` whose id is `own`
  | enter (t : Nat) (s : SemId) (i k : Nat)  -- thread `t` (id `i`) becomes a waiter of `s` with a new token `k`
  | left (t : Nat) (s : SemId) (l : List (Nat × Nat)) (k : Nat) (y : Why)
    -- thread `t` ends a wait on `s` with token `k` for reason `y`; these entries were removed from the waiters
  | took (t : Nat) (s : SemId) (l : List (Nat × Nat)) -- a notifier takes these waiters
  | sig (t k : Nat)                    -- token `k` is interrupted
  | acq (t m i : Nat)                  -- the flag of mutex `m` is acquired by thread `t` with id `i`
  | rel (t m i : Nat)                  -- the flag of mutex `m` is cleared by unlock of thread `t` with id `i`
  deriving DecidableEq

structure SData (α : Type) where
  sem : SemId → List (Nat × Nat) := fun _ => []  -- semaphore::waiters_: (id, token)
  tok : Nat → Bool := fun _ => false             -- interrupt_token::flag_
  ntok : Nat := 0
  lk : Lk → Option Nat := fun _ => none          -- owners of the std::mutex objects
  flag : Nat → Bool := fun _ => false            -- mutex::flag_
  owner : Nat → Nat := fun _ => 0                -- mutex::owner_
  st : Nat → FSt α := fun _ => {}
  nst : Nat := 0
  obj : Nat → Option Nat := fun _ => none        -- promise objects of the application: their state_
  slog : List SEv := []

/-- Data of the layer and of the application. -/
structure Data (α δ : Type) where
  sd : SData α := {}
  ad : δ

/-- `std::function<void()>` objects in the queues: the empty functor of `notify` (thread.cpp:338), an application functor,
    a packaged task (future.hpp:625-648). -/
inductive STask (α : Type)
  | noop
  | app (a : α)
  | fut (p : Nat) (a : α)
  deriving DecidableEq

/-- Functions of this layer that applications call. Future handles: `none` is an invalid future. -/
inductive SApi (α : Type)
  | lock (n : Nat) | unlock (n : Nat)                                   -- std::mutex
  | cvWait (n m : Nat) | cvWaitFor (n m : Nat) (d : Int)                -- condition_variable.hpp:35-73
  | notifyOne (n : Nat) | notifyAll (n : Nat)                           -- condition_variable.hpp:19-30
  | mLock (m : Nat) | mTry (m : Nat) | mUnlock (m : Nat)                -- mutex.hpp
  | promNew (q : Nat) (isVoid : Bool) | promDtor (q : Nat) | promMove (q q' : Nat) -- future.hpp:183-196, 242
  | promSet (q : Nat) (r : Res) | getFuture (q : Nat)                   -- future.hpp:203-240, 253-279
  | futWait (p : Option Nat) | futWaitFor (p : Option Nat) (d : Int)    -- future.hpp:132-159
  | futGet (p : Option Nat)                                             -- future.hpp:303-308 and the other get()
  | isReady (p : Option Nat) | hasError (p : Option Nat)                -- future.hpp:112-127
  | futThen (p : Option Nat) (id : Nat) (async isVoid : Bool) (a : α)   -- future.hpp:724-747 and the other then()
  | async (id : Nat) (async isVoid : Bool) (a : α)                      -- future.hpp:683-692
  | package (q : Nat) (isVoid : Bool)                                             -- future.hpp:616-650, task kept by the caller
  | runTask (p : Nat) (a : α) | dropTask (p : Nat) (a : α)              -- call / destroy a packaged task kept by the caller

/-- What a step of application code does. -/
inductive SAct (α φ : Type)
  | goto (f : φ)
  | push (callee k : φ)
  | core (a : Api α φ) (k : φ)
  | sync (a : SApi α) (k : φ)
  | ret (v : Val)
  | throw (e : Exn)
  | terminate

/-- Application code. -/
structure App (α φ δ χ : Type) where
  run : α → φ
  destroy : α → φ
  step : View → δ → φ → Val → Ch χ → Option (δ × SAct α φ)
  onThrow : φ → Exn → Option φ

/-- Who calls `semaphore::wait` / `wait_for` (a return address): condition variable `n` with user lock `m`
    (condition_variable.hpp:35-73), `mutex::lock` of `m` by id `i` (mutex.hpp:34), `future::wait` / `wait_for` of `p`
    (future_state.hpp:100, 116). -/
inductive W | cv (n m : Nat) | mtx (m i : Nat) | fw (p : Nat) | fv (p : Nat) (d : Int)
  deriving DecidableEq, Repr

/-- The semaphore waited on. -/
def W.sem : W → SemId
  | .cv n _ => .cv n
  | .mtx m _ => .mtx m
  | .fw p => .fut p
  | .fv p _ => .fut p

/-- The lock that before_wait / after_wait release and take: condition_variable.hpp:38-46, 60-72; none at mutex.hpp:34. -/
def W.lk : W → Option Lk
  | .cv _ m => some (.user m)
  | .mtx _ _ => none
  | .fw p => some (.guard p)
  | .fv p _ => some (.guard p)

/-- Who calls `notify_one` / `notify_all`: a condition variable (condition_variable.hpp:19-30), `mutex::unlock`
    (mutex.hpp:72), `set_ready` with the continuations it took (future_state.hpp:61). -/
inductive NK (α : Type) | cv (n : Nat) | mtx (m : Nat) | fut (p : Nat) (l : List (Kont α))
  deriving DecidableEq

def NK.sem {α} : NK α → SemId
  | .cv n => .cv n
  | .mtx m => .mtx m
  | .fut p _ => .fut p

/-- Who calls `launch`: a continuation in the loop of `set_ready` (future_state.hpp:65-71), one in `set_continuation`
    (future_state.hpp:86-89), `async` (future.hpp:689). -/
inductive LK (α : Type) | sr (p : Nat) (done l : List (Kont α)) | sc | as
  deriving DecidableEq

/-- Program points.  The comment gives the code that the next step executes. -/
inductive SFrame (α φ : Type)
  | app (f : φ)
  | done (v : Val)                                 -- return v
  | term (p : Option Nat)                          -- an exception left a noexcept function; ghost: the packaged task being destroyed
  | lkIn (n : Nat) | lkUn (n : Nat)
  -- semaphore::wait, semaphore.cpp:72-103
  | cwIn (n m : Nat)                               -- condition_variable.hpp:35-47
  | swIn (w : W)                                   -- :74-80, add_waiter :156-176
  | swLoop (w : W) (i k : Nat)                     -- :82
  | swChk (w : W) (i k : Nat)                      -- :84-87
  | swBefore (w : W) (i k : Nat)                   -- :89-94
  | swAfter (w : W) (i k : Nat)                    -- :96-99
  | swRem (w : W) (i k : Nat) (y : Why)            -- :102 (`k`, `y` are ghost), remove_waiter :178-189, and the return to the caller
  -- semaphore::wait_for_impl, semaphore.cpp:105-154
  | cfIn (n m : Nat) (d : Int)                     -- condition_variable.hpp:57-73
  | wfIn (w : W) (d : Int)                         -- :109-111
  | wfAdd (w : W) (now e : Int)                    -- :113-119
  | wfLoop (w : W) (i k : Nat) (now e : Int) (b : Bool) -- :121-127; `b`: status is timeout
  | wfChk (w : W) (i k : Nat) (now e : Int) (b : Bool)  -- :129-132
  | wfBefore (w : W) (i k : Nat) (now e : Int)     -- :133-140
  | wfAfter (w : W) (i k : Nat) (e : Int)          -- :140-145
  | wfNow (w : W) (i k : Nat) (e : Int) (b : Bool) -- :147
  | wfRem (w : W) (i : Nat) (b : Bool) (k : Nat) (y : Why) -- :151-153 (`k`, `y` are ghost), and the return to the caller
  -- notify, semaphore.cpp:25-70
  | n1In (n : Nat)                                 -- :27-42
  | naIn (K : NK α)                                -- :54-59
  | nLoop (K : NK α) (l : List (Nat × Nat))        -- :44-46, 61-65
  | nCall (K : NK α) (i k : Nat) (l : List (Nat × Nat))  -- :48, 67; thread.cpp:335-341
  | nAfter (K : NK α) (i k : Nat) (l : List (Nat × Nat)) -- notify returned
  -- mutex.hpp
  | mlIn (m : Nat) | mlTry (m i : Nat) | mlChk (m i : Nat) | mlOwn (m i : Nat)  -- :26, :27, :30-34, :37
  | mtIn (m : Nat) | mtOwn (m : Nat)               -- :46, :51
  | muIn (m : Nat) | muOwn (m i : Nat) | muFlag (m i : Nat) -- :62-68, :70, :71-72
  -- set_value / set_exception / set_ready, future_state.hpp:42-72, 139-151, 176-186
  | svIn (p : Nat) (r : Res)                       -- :44, 142, 178
  | svChk (p : Nat) (r : Res)                      -- :46-50, 144-149, 180-183
  | srSet (p : Nat) (r : Res)                      -- :58-60
  | srUnl (p : Nat) (l : List (Kont α))            -- :64 (after :61)
  | srLoop (p : Nat) (done l : List (Kont α))      -- :65-69; `done`: launched and not moved from
  | srDtor (p : Nat) (done : List (Kont α))        -- :72 destruction of `continuations`
  -- set_continuation, future_state.hpp:74-89
  | scIn (p : Nat) (c : Kont α)                    -- :76-83
  -- launch, future.hpp:652-679
  | laIn (K : LK α) (c : Kont α)                   -- :654-677
  | laRet (K : LK α) (c : Kont α)                  -- invoke_packaged_task returned
  | laInl (K : LK α) (c : Kont α)                  -- func() returned
  -- packaged task, future.hpp:625-648
  | rtIn (p : Nat) (a : α) | dtIn (p : Nat) (a : α) -- call / destruction of a packaged task by the application
  | xtRet (p : Nat)                                -- that call or destruction has returned
  | ftRun (p : Nat) (a : α)                        -- :632-635
  | ftSet (p : Nat)                                -- :589, 605
  | ftDone (p : Nat)                               -- end of the try block
  | ftThrew (p : Nat) (e : Exn)                    -- the functor threw
  | ftExc (p : Nat) (e : Exn)                      -- :642
  | ftEnd (p : Nat)                                -- set_exception returned, :643-647
  | ftFin (p : Nat)                                -- end of the inner catch block, :644-646
  | ftDtor (p : Nat) (a : α)                       -- destructor of the closure: params, f, then the promise
  | pdIn (p : Nat)                                 -- ~basic_promise, future.hpp:190-196
  | pdEnd (p : Nat)                                -- abandon returned
  -- promise objects, future.hpp:180-279
  | poNew (q : Nat) (isVoid : Bool) | poDtor (q : Nat) | poEnd (q p : Nat) | poMove (q q' : Nat) | poSet (q : Nat) (r : Res) | poFut (q : Nat)
  -- future::wait / wait_for / get / then / async
  | fwIn (p : Nat)                                 -- future_state.hpp:93
  | fwLoop (p : Nat)                               -- :94
  | fwChk (p : Nat)                                -- :96-100
  | fvIn (p : Nat) (d : Int)                       -- :107
  | fvLoop (p : Nat) (d : Int)                     -- :109, 122
  | fvChk (p : Nat) (d : Int)                      -- :111-116
  | fvRes (p : Nat) (d : Int) (b : Bool)           -- :116-119; `b`: wait_for timed out
  | fwIn? (p : Option Nat) | fvIn? (p : Option Nat) (d : Int) | fgIn? (p : Option Nat)  -- check_state
  | fgVal (p : Nat)                                -- get_value_assuming_ready, future_state.hpp:153-170, 188-191
  | frIn (p : Option Nat) | feIn (p : Option Nat)  -- future.hpp:112-127
  | thIn (p : Option Nat) (id : Nat) (async isVoid : Bool) (a : α)  -- future.hpp:726-739
  | asIn (id : Nat) (async isVoid : Bool) (a : α)  -- future.hpp:685-689
  | pkIn (q : Nat) (isVoid : Bool)                           -- package_future_task
  deriving DecidableEq

def SApi.entry {α φ} : SApi α → SFrame α φ
  | .lock n => .lkIn n
  | .unlock n => .lkUn n
  | .cvWait n m => .cwIn n m
  | .cvWaitFor n m d => .cfIn n m d
  | .notifyOne n => .n1In n
  | .notifyAll n => .naIn (.cv n)
  | .mLock m => .mlIn m
  | .mTry m => .mtIn m
  | .mUnlock m => .muIn m
  | .promNew q v => .poNew q v
  | .promDtor q => .poDtor q
  | .promMove q q' => .poMove q q'
  | .promSet q r => .poSet q r
  | .getFuture q => .poFut q
  | .futWait p => .fwIn? p
  | .futWaitFor p d => .fvIn? p d
  | .futGet p => .fgIn? p
  | .isReady p => .frIn p
  | .hasError p => .feIn p
  | .futThen p id as v a => .thIn p id as v a
  | .async id as v a => .asIn id as v a
  | .package q v => .pkIn q v
  | .runTask p a => .rtIn p a
  | .dropTask p a => .dtIn p a

section
variable {α φ δ χ : Type}

/-- Application code and tasks inside core calls. -/
def mapApi : Api α φ → Api (STask α) (SFrame α φ)
  | .registerThis => .registerThis
  | .registerNative n => .registerNative n
  | .unregisterThis => .unregisterThis
  | .notifyExit id => .notifyExit id
  | .invoke id k => .invoke id (.app k)
  | .invokePackaged id k => .invoke id (.app k)  -- internal function; applications get invoke
  | .dispatch id k => .dispatch id (.app k)
  | .pending id => .pending id
  | .allIds => .allIds
  | .wait => .wait
  | .waitFor d => .waitFor d
  | .process => .process
  | .processFor d => .processFor d
  | .sleepFor d => .sleepFor d
  | .init cb => .init (cb.map .app)
  | .shutdown T => .shutdown T
  | .spawn n f => .spawn n (.app f)
  | .join n => .join n
  | .detach n => .detach n

namespace SData

def ev (d : SData α) (e : SEv) : SData α := { d with slog := e :: d.slog }

def setSt (d : SData α) (p : Nat) (x : FSt α) : SData α := { d with st := set d.st p x }

def setLk (d : SData α) (l : Lk) (o : Option Nat) : SData α := { d with lk := set d.lk l o }

/-- Release the lock of a wait, if there is one. -/
def relLk (d : SData α) : Option Lk → SData α
  | none => d
  | some l => d.setLk l none

/-- `ready()`, future_state.hpp:32-35 -/
def ready (d : SData α) (p : Nat) : Bool := decide ((d.st p).status ≠ .notSet)

/-- A new shared state. -/
def mkState (d : SData α) (t : Nat) (x : FSt α) : SData α :=
  { d with st := set d.st d.nst x, nst := d.nst + 1, slog := .made t d.nst :: d.slog }

/-- `add_waiter`, semaphore.cpp:156-176: the token of the existing entry with this id, or a new entry with a new token. -/
def addWaiter (d : SData α) (t : Nat) (s : SemId) (i : Nat) : SData α × Nat :=
  match (d.sem s).find? (fun w => w.1 == i) with
  | some w => (d, w.2)
  | none => ({ d with sem := set d.sem s (d.sem s ++ [(i, d.ntok)]), tok := set d.tok d.ntok false, ntok := d.ntok + 1,
                      slog := .enter t s i d.ntok :: d.slog }, d.ntok)

/-- `remove_waiter`, semaphore.cpp:178-189 -/
def remWaiter (d : SData α) (t : Nat) (s : SemId) (i k : Nat) (y : Why) : SData α :=
  { d with sem := set d.sem s ((d.sem s).filter (fun w => !(w.1 == i))),
           slog := .left t s ((d.sem s).filter (fun w => w.1 == i)) k y :: d.slog }

end SData

abbrev SStep (α φ : Type) := Option (SData α × Act (STask α) (SFrame α φ))

/-- Take the lock of a wait (blocks while it is owned), then continue at `f`. -/
def takeLk (d : SData α) (t : Nat) (L : Option Lk) (f : SFrame α φ) : SStep α φ :=
  match L with
  | none => some (d, .goto f)
  | some l => if (d.lk l).isSome then none else some (d.setLk l (some t), .goto f)

/-- `launch` returns to its caller; `kept`: the task was not moved into a queue, so the caller still owns it. -/
def laNext (K : LK α) (c : Kont α) (kept : Bool) : Act (STask α) (SFrame α φ) :=
  match K with
  | .sr p done l => .goto (.srLoop p (if kept then done ++ [c] else done) l)
  | .sc => if kept then .goto (.ftDtor c.p c.body) else .ret .unit
  | .as => if kept then .push (.ftDtor c.p c.body) (.done (.nat c.p)) else .ret (.nat c.p)

/-- One step of the functions of this layer, for thread `v.tid`; `run`/`destroy`: code of application functors. -/
def sstep (run destroy : α → φ) (v : View) (d : SData α) (f : SFrame α φ) (rv : Val) : SStep α φ :=
  let t := v.tid
  match f with
  | .app _ => none
  | .done r => some (d, .ret r)
  | .term _ => some (d, .terminate)
  -- std::mutex
  | .lkIn n => if (d.lk (.user n)).isSome then none else some (d.setLk (.user n) (some t), .ret .unit)
  | .lkUn n => if d.lk (.user n) = some t then some (d.setLk (.user n) none, .ret .unit) else some (d, .terminate)
  -- semaphore::wait
  | .cwIn n m => if d.lk (.user m) = some t then some (d, .goto (.swIn (.cv n m))) else some (d, .terminate)
  | .swIn w => some ((d.addWaiter t w.sem v.id).1, .goto (.swLoop w v.id (d.addWaiter t w.sem v.id).2))
  | .swLoop w i k => if d.tok k then some (d, .goto (.swRem w i k .sig)) else some (d, .goto (.swChk w i k))
  | .swChk w i k => if v.exit then some (d, .goto (.swRem w i k .exit)) else some (d, .goto (.swBefore w i k))
  | .swBefore w i k => some (d.relLk w.lk, .call .wait (.swAfter w i k))
  | .swAfter w i k => takeLk d t w.lk (.swLoop w i k)
  | .swRem w i k y =>
    match w with
    | .mtx m j => some (d.remWaiter t w.sem i k y, .goto (.mlTry m j))
    | .fw p => some (d.remWaiter t w.sem i k y, .goto (.fwLoop p))
    | _ => some (d.remWaiter t w.sem i k y, .ret .unit)
  -- semaphore::wait_for_impl
  | .cfIn n m dur => if d.lk (.user m) = some t then some (d, .goto (.wfIn (.cv n m) dur)) else some (d, .terminate)
  | .wfIn w dur => some (d, .goto (.wfAdd w v.clock (v.clock + dur)))
  | .wfAdd w now e =>
    some ((d.addWaiter t w.sem v.id).1, .goto (.wfLoop w v.id (d.addWaiter t w.sem v.id).2 now e false))
  | .wfLoop w i k now e b =>
    if d.tok k then some (d, .goto (.wfRem w i b k .sig))
    else if e ≤ now then some (d, .goto (.wfRem w i true k .time))
    else some (d, .goto (.wfChk w i k now e b))
  | .wfChk w i k now e b =>
    if v.exit then some (d, .goto (.wfRem w i b k .exit)) else some (d, .goto (.wfBefore w i k now e))
  | .wfBefore w i k now e => some (d.relLk w.lk, .call (.waitFor (e - now)) (.wfAfter w i k e))
  | .wfAfter w i k e => takeLk d t w.lk (.wfNow w i k e (decide (rv = .cv true)))
  | .wfNow w i k e b => some (d, .goto (.wfLoop w i k v.clock e b))
  | .wfRem w i b k y =>
    match w with
    | .fv p dur => some (d.remWaiter t w.sem i k y, .goto (.fvRes p dur b))
    | _ => some (d.remWaiter t w.sem i k y, .ret (.cv b))
  -- notify_one / notify_all
  | .n1In n => some ({ d with sem := set d.sem (.cv n) (d.sem (.cv n)).tail,
                              slog := .took t (.cv n) ((d.sem (.cv n)).take 1) :: d.slog },
      .goto (.nLoop (.cv n) ((d.sem (.cv n)).take 1)))
  | .naIn K => some ({ d with sem := set d.sem K.sem [], slog := .took t K.sem (d.sem K.sem) :: d.slog },
      .goto (.nLoop K (d.sem K.sem)))
  | .nLoop K l =>
    match l with
    | [] =>
      match K with
      | .fut p cs => some (d, .goto (.srUnl p cs))
      | _ => some (d, .ret .unit)
    | (i, k) :: l =>
      if i = 0 then some (d, .goto (.nLoop K l))
      else some ({ d with tok := set d.tok k true, slog := .sig t k :: d.slog }, .goto (.nCall K i k l))
  | .nCall K i k l => some (d, .call (.dispatch i .noop) (.nAfter K i k l))
  | .nAfter K _ _ l => some (d, .goto (.nLoop K l))
  -- mutex
  | .mlIn m => some (d, .goto (.mlTry m v.id))
  | .mlTry m i =>
    if d.flag m then some (d, .goto (.mlChk m i))
    else some ({ d with flag := set d.flag m true, slog := .acq t m i :: d.slog }, .goto (.mlOwn m i))
  | .mlChk m i => if d.owner m = i then some (d, .throw .deadlock) else some (d, .goto (.swIn (.mtx m i)))
  | .mlOwn m i => some ({ d with owner := set d.owner m i }, .ret .unit)
  | .mtIn m =>
    if d.flag m then some (d, .ret (.bool false))
    else some ({ d with flag := set d.flag m true, slog := .acq t m v.id :: d.slog }, .goto (.mtOwn m))
  | .mtOwn m => some ({ d with owner := set d.owner m v.id }, .ret (.bool true))
  | .muIn m => if d.owner m = v.id then some (d, .goto (.muOwn m v.id)) else some (d, .throw .noLock)
  | .muOwn m i => some ({ d with owner := set d.owner m 0 }, .goto (.muFlag m i))
  | .muFlag m i => some ({ d with flag := set d.flag m false, slog := .rel t m i :: d.slog }, .goto (.naIn (.mtx m)))
  -- set_value / set_exception
  | .svIn p r => if (d.lk (.guard p)).isSome then none else some (d.setLk (.guard p) (some t), .goto (.svChk p r))
  | .svChk p r =>
    if d.ready p then some ((d.setLk (.guard p) none).ev (.refusedSet t p r), .throw .promiseSatisfied)
    else match r with
      | .val w => some (d.setSt p { d.st p with value := if (d.st p).isVoid then none else some w }, .goto (.srSet p r))
      | .exn e => some (d.setSt p { d.st p with exn := some e }, .goto (.srSet p r))
  | .srSet p r =>
    let st : VStat := match r with | .val _ => .ready | .exn _ => .error
    some ((d.setSt p { d.st p with status := st, cbs := [] }).ev (.sat t p r), .goto (.naIn (.fut p (d.st p).cbs)))
  | .srUnl p l => some (d.setLk (.guard p) none, .goto (.srLoop p [] l))
  | .srLoop p done l =>
    match l with
    | [] => some (d, .goto (.srDtor p done))
    | c :: l => some (d, .goto (.laIn (.sr p done l) c))
  | .srDtor p done =>
    match done with
    | [] => some (d, .ret .unit)
    | c :: l => some (d, .push (.ftDtor c.p c.body) (.srDtor p l))
  -- set_continuation
  | .scIn p c =>
    if (d.lk (.guard p)).isSome then none
    else if d.ready p then some (d.ev (.attached t p c.p), .goto (.laIn .sc c))
    else some ((d.setSt p { d.st p with cbs := (d.st p).cbs ++ [c] }).ev (.attached t p c.p), .ret .unit)
  -- launch
  | .laIn K c =>
    let id := if c.id = 0 then v.id else c.id
    if c.async then some (d.ev (.launched t c.p id c.async v.id), .call (.invokePackaged id (.fut c.p c.body)) (.laRet K c))
    else if v.id = id then some (d.ev (.launched t c.p id c.async v.id), .push (.ftRun c.p c.body) (.laInl K c))
    else some (d.ev (.launched t c.p id c.async v.id), .call (.invokePackaged id (.fut c.p c.body)) (.laRet K c))
  | .laRet K c => some (d, laNext K c (decide (rv ≠ .bool true)))
  | .laInl K c => some (d, laNext K c true)
  -- packaged task
  | .rtIn p a => if p < d.nst ∧ (d.st p).owner = .ext then some (d.ev (.called v.tid p), .push (.ftRun p a) (.xtRet p)) else some (d, .terminate)
  | .dtIn p a => if p < d.nst ∧ (d.st p).owner = .ext then some (d.ev (.freed v.tid p), .push (.ftDtor p a) (.xtRet p)) else some (d, .terminate)
  | .xtRet _ => some (d, .ret .unit)
  | .ftRun p a => some (d.ev (.bodyStart t p), .push (.app (run a)) (.ftSet p))
  | .ftSet p => some (d.ev (.bodyRet t p rv), .push (.svIn p (.val rv)) (.ftDone p))
  | .ftDone _ => some (d, .ret .unit)
  | .ftThrew p e => some (d.ev (.bodyThrew t p e), .goto (.ftExc p e))
  | .ftExc p e => some (d, .push (.svIn p (.exn e)) (.ftEnd p))
  | .ftEnd _ => some (d, .ret .unit)
  | .ftFin _ => some (d, .ret .unit)
  | .ftDtor p a => some (d, .push (.app (destroy a)) (.pdIn p))
  | .pdIn p =>
    if d.ready p then some (d.ev (.dropped t p), .ret .unit)
    else some (d, .push (.svIn p (.exn .brokenPromise)) (.pdEnd p))
  | .pdEnd p => some (d.ev (.dropped t p), .ret .unit)
  -- promise objects
  | .poNew q b =>
    if d.obj q = none then some ({ d.mkState t { isVoid := b, home := q } with obj := set d.obj q (some d.nst) }, .ret .unit)
    else some (d, .terminate)
  | .poDtor q =>
    match d.obj q with
    | none => some (d, .ret .unit)
    | some p =>
      if d.ready p then some ({ d with obj := set d.obj q none }, .ret .unit)
      else some (d, .push (.svIn p (.exn .brokenPromise)) (.poEnd q p))
  | .poEnd q _ => some ({ d with obj := set d.obj q none }, .ret .unit)
  | .poMove q q' =>
    if q = q' then some (d, .ret .unit) else some ({ d with obj := set (set d.obj q (d.obj q')) q' none }, .ret .unit)
  | .poSet q r =>
    match d.obj q with
    | none => some (d, .throw .noState)
    | some p => some (d, .goto (.svIn p r))
  | .poFut q =>
    match d.obj q with
    | none => some (d, .throw .noState)
    | some p =>
      if (d.st p).retrieved then some (d, .throw .futureRetrieved)
      else some ((d.setSt p { d.st p with retrieved := true }).ev (.gotFut t p), .ret (.nat p))
  -- future::wait
  | .fwIn? p => match p with | none => some (d, .throw .noState) | some p => if p < d.nst then some (d, .goto (.fwIn p)) else some (d, .terminate)
  | .fwIn p => if (d.lk (.guard p)).isSome then none else some (d.setLk (.guard p) (some t), .goto (.fwLoop p))
  | .fwLoop p => if d.ready p then some (d.setLk (.guard p) none, .ret .unit) else some (d, .goto (.fwChk p))
  | .fwChk p =>
    if v.exit then some (d.setLk (.guard p) none, .ret .unit)
    else some (d, .goto (.swIn (.fw p)))
  -- future::wait_for
  | .fvIn? p dur => match p with | none => some (d, .throw .noState) | some p => if p < d.nst then some (d, .goto (.fvIn p dur)) else some (d, .terminate)
  | .fvIn p dur => if (d.lk (.guard p)).isSome then none else some (d.setLk (.guard p) (some t), .goto (.fvLoop p dur))
  | .fvLoop p dur =>
    if d.ready p then some (d.setLk (.guard p) none, .ret (.fs .ready)) else some (d, .goto (.fvChk p dur))
  | .fvChk p dur =>
    if v.exit then some (d.setLk (.guard p) none, .ret (.fs .deferred))
    else some (d, .goto (.wfIn (.fv p dur) dur))
  | .fvRes p dur b =>
    if b then some (d.setLk (.guard p) none, .ret (.fs .timeout)) else some (d, .goto (.fvLoop p dur))
  -- get
  | .fgIn? p => match p with | none => some (d, .throw .noState) | some p => if p < d.nst then some (d, .push (.fwIn p) (.fgVal p)) else some (d, .terminate)
  | .fgVal p =>
    if (d.st p).isVoid then
      match (d.st p).exn with
      | some e => some (d, .throw e)
      | none => some (d, .ret .unit)
    else if (d.lk (.guard p)).isSome then none
    else match (d.st p).value with
      | some w => some (d, .ret w)
      | none => match (d.st p).exn with
        | some e => some (d, .throw e)
        | none => some (d, .throw .brokenPromise)
  | .frIn p => match p with | none => some (d, .throw .noState) | some p => if p < d.nst then some (d, .ret (.bool (d.ready p))) else some (d, .terminate)
  | .feIn p => match p with
    | none => some (d, .throw .noState)
    | some p => if p < d.nst then some (d, .ret (.bool (decide ((d.st p).status = .error)))) else some (d, .terminate)
  -- then / async / package
  | .thIn p id as b a => match p with
    | none => some (d, .throw .noState)
    | some p => if p < d.nst then some (d.mkState t { isVoid := b, retrieved := true, owner := .pkg, req := some ⟨id, as, d.nst, a⟩ },
        .push (.scIn p ⟨id, as, d.nst, a⟩) (.done (.nat d.nst))) else some (d, .terminate)
  | .asIn id as b a => some (d.mkState t { isVoid := b, retrieved := true, owner := .pkg, req := some ⟨id, as, d.nst, a⟩ },
      .goto (.laIn .as ⟨id, as, d.nst, a⟩))
  | .pkIn q b => some (d.mkState t { isVoid := b, retrieved := true, owner := .ext, home := q }, .ret (.nat d.nst))

/-- Exception handlers of this layer.  `noexcept`: notify_one / notify_all (semaphore.cpp:25, 52) and destructors.
    All other frames are unwound without a handler; a `unique_lock` that could be unwound is not owned at that point
    (before_wait has released it and after_wait has not run). -/
def sThrow (onThrow : φ → Exn → Option φ) : SFrame α φ → Exn → Option (SFrame α φ)
  | .app f, e => (onThrow f e).map .app
  | .nAfter _ _ _ _, _ => some (.term none)
  | .ftSet p, e => some (.ftThrew p e)
  | .ftDone p, e => some (.ftExc p e)
  | .ftEnd p, _ => some (.ftFin p)
  | .pdIn p, _ => some (.term (some p))
  | .pdEnd p, _ => some (.term (some p))
  | .poEnd _ _, _ => some (.term none)
  | .srDtor _ _, _ => some (.term none)
  | _, _ => none

/-- Actions of application code as actions of the whole client. -/
def liftAct : SAct α φ → Act (STask α) (SFrame α φ)
  | .goto g => .goto (.app g)
  | .push g k => .push (.app g) (.app k)
  | .core a k => .call (mapApi a) (.app k)
  | .sync a k => .push a.entry (.app k)
  | .ret v => .ret v
  | .throw e => .throw e
  | .terminate => .terminate

/-- The layer plus an application is a client of the core machine. -/
def client (A : App α φ δ χ) : Client (STask α) (SFrame α φ) (Data α δ) χ where
  run
    | .noop => .done .unit
    | .app a => .app (A.run a)
    | .fut p a => .ftRun p a
  destroy
    | .noop => .done .unit
    | .app a => .app (A.destroy a)
    | .fut p a => .ftDtor p a
  step v d f rv ch :=
    match f with
    | .app g =>
      match A.step v d.ad g rv ch with
      | none => none
      | some (ad, a) => some ({ d with ad := ad }, liftAct a)
    | f =>
      match ch with
      | .go =>
        match sstep A.run A.destroy v d.sd f rv with
        | none => none
        | some (sd, a) => some ({ d with sd := sd }, a)
      | _ => none
  onThrow := sThrow A.onThrow

end
end Sync
end Itc
