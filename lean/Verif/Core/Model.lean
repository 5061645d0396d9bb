import Verif.Basic

/-!
# Core machine: threadpp/thread.h and threadpp/thread.cpp

Small-step model of the thread registry, the per-thread task queues, the blocking functions of
`tpp::this_thread`, `init`/`shutdown`, and native threads.

* `τ` : task objects (`std::function<void()>`), `φ` : control states of client code (user code and the
  library parts built on top), `δ` : the client's data, `χ` : the choices user code can make.
* One step = one critical section of a `std::mutex` that contains no foreign code, or one atomic access,
  or a control transfer.  `tasks_mutex` is only ever held inside single steps, so it does not appear in
  the state; the global mutex is held across a user callback in `init`/`shutdown`, so it has an owner field.
* Not modelled: names, vector capacities (`reserve`, `shrink_to_fit`), log strings, log callbacks that are
  called while no lock is held and that do nothing to the library state, `set_thread_name`,
  `on_thread_start` (user code called by user-visible loops; covered by arbitrary client code).
* Atomics and mutexes are sequentially consistent (the code uses only default memory orders).
-/
namespace Itc
namespace Core

/-- Life cycle of a `thread_context` object (owned by `std::shared_ptr`).
    `dying`: its destructor is running; `dead`: freed. -/
inductive Life | alive | dying | dead
  deriving DecidableEq, Repr

/-- `struct thread_context`, thread.cpp:12-29.
    `holders`: the threads that currently hold a `shared_ptr` to it in a local variable (the reference in
    `global_context.contexts` is not counted here).  `cv`: `wakeup_event` has been notified since the owner
    last blocked on it.  Elements of `proc` before `idx` are moved-from. -/
structure Ctx (τ : Type) where
  native : Nat := 0
  id : Nat := 0
  tasks : List τ := []
  proc : List τ := []
  idx : Nat := 0
  depth : Nat := 0
  wakeup : Bool := false
  cv : Bool := false
  exit : Bool := false
  holders : List Nat := []
  life : Life := .alive

/-- Tasks accepted and not yet started, oldest first. -/
def Ctx.pend {τ} (x : Ctx τ) : List τ := x.proc.drop x.idx ++ x.tasks

/-- `prepare_tasks`, thread.cpp:297-311 (capacity handling omitted). -/
def Ctx.prepare {τ} (x : Ctx τ) : Ctx τ :=
  if !(decide (x.idx < x.proc.length)) && !x.tasks.isEmpty then
    { x with proc := x.tasks, tasks := [], idx := 0 }
  else x

/-- First half of `process_one`, thread.cpp:412-417: prepare, move the next task out, advance the index,
    increment the stack depth.  `none`: nothing to process (line 434). -/
def Ctx.pop {τ} (x : Ctx τ) : Option (τ × Ctx τ) :=
  match x.prepare.proc[x.prepare.idx]? with
  | some k => some (k, { x.prepare with idx := x.prepare.idx + 1, depth := x.prepare.depth + 1 })
  | none => none

/-- The public functions, to label return events in the log. -/
inductive Fn
  | register (n : Nat) | unregister | notifyExit | invoke (id : Nat) | dispatch | pending (id : Nat) | allIds
  | wait | waitFor | process | processFor | sleepFor | init | shutdown | spawn | join | detach | internal
  deriving DecidableEq, Repr

/-- Observable events (append-only log; never read by the machine). -/
inductive Ev (τ : Type)
  | registered (c id n : Nat)        -- a new context was put in the registry
  | unregistered (c id n : Nat)      -- removed from the registry
  | regRes (t n id : Nat)            -- a call of thread `t` registering native thread `n` obtains `id`
  | accepted (t c id : Nat) (k : τ)  -- task queued by thread `t` to the thread registered as `id`
  | refused (t id : Nat) (k : τ)     -- invoke returned false
  | started (t c : Nat) (k : τ)      -- thread `t` starts executing a queued task of context `c`
  | finished (t c : Nat) (k : τ)     -- it has been executed and destroyed
  | inlined (t id : Nat) (k : τ)     -- dispatch to `id` executes the functor directly
  | pendRes (t c id n : Nat)         -- a call of get_pending_task_count reads `n` for context `c` (id `id`)
  | dropped (t c : Nat) (k : τ)      -- queued task destroyed by thread `t` without being executed
  | exitSet (c : Nat)                -- notify_for_exit took effect
  | threw (t c : Nat)                -- an exception leaves a queued task
  | nestedUnreg (t c : Nat)          -- unregister_this_thread called from inside a queued task
  | inc (t : Nat)                    -- init incremented init_count
  | dec (t : Nat)                    -- shutdown decremented init_count
  | ret (t : Nat) (f : Fn) (v : Val) -- a core function returns to its caller

/-- What `process_one` returns to: `wait`/`wait_for` (with its status), `process_all`, `process_all_for`. -/
inductive Cont
  | toWait (timedOut : Bool)
  | toAll
  | toFor (e : Nat)
  deriving DecidableEq, Repr

/-- Program points inside the core functions.  The comment gives the code that the *next* step executes. -/
inductive CF (τ φ : Type)
  | regLook (n : Option Nat)                 -- register_thread_impl, thread.cpp:106-139; none: own native id
  | regDone (c : Nat) (self : Bool)          -- thread.cpp:346-347, 581-582, 587-588, 695-696
  | unreg                                    -- unregister_this_thread, thread.cpp:593, 142-170
  | unregClear                               -- set_local_context(nullptr), thread.cpp:594
  | release (c : Nat) (f : Fn) (v : Val)     -- end of scope of a local shared_ptr<thread_context>
  | destroyList (c : Nat) (l : List τ) (f : Fn) (v : Val)  -- ~thread_context: destroying queued tasks
  | exitLook (id : Nat)                      -- notify_for_exit, thread.cpp:315-326
  | exitSet (c : Nat)                        -- notify_for_exit, thread.cpp:328-332
  | invLook (id : Nat) (k : τ) (own : Bool)  -- invoke_packaged_task, thread.cpp:357-378
  | invPush (c : Nat) (k : τ)                -- invoke_packaged_task, thread.cpp:380-385
  | retv (d : Option Nat)                    -- after the functor's destructor: dispatch returns true (none) / invoke returns false
  | dispatch (id : Nat) (k : τ)              -- dispatch, thread.h:304-316
  | dispRan (k : τ)                          -- dispatch, thread.h:309-310
  | pendLook (id : Nat)                      -- get_pending_task_count_detailed, thread.cpp:249-265
  | pendRead (c : Nat)                       -- get_pending_task_count_detailed, thread.cpp:267-284
  | allIds                                   -- get_all_registered_threads, thread.cpp:232-245
  | waitIn (d : Option Nat)                  -- detail::wait / wait_for up to blocking, thread.cpp:498-528, 542-571
  | parked (c : Nat) (dl : Option Nat)       -- blocked on wakeup_event, thread.cpp:528-537, 571-575
  | waitForIn (d : Int)                      -- this_thread::wait_for, thread.h:336-347
  | ran (c : Nat) (k : τ) (r : Cont)         -- process_one after task(), thread.cpp:421-426
  | freed (c : Nat) (k : τ) (r : Cont)       -- process_one, thread.cpp:428-431
  | procAll                                  -- process_all, thread.cpp:453-462, 480-494
  | procForIn (d : Int)                      -- process_for, thread.cpp:464-478, 437-440
  | procFor (e : Nat)                        -- process_all_for, thread.cpp:442-450
  | sleepIn (d : Int)                        -- sleep_for, thread.h:356-364
  | sleep (e now : Nat)                      -- sleep_for, thread.h:366-374
  | sleepNow (e : Nat)                       -- sleep_for, thread.h:376
  | initIn (cb : Option φ)                   -- init, thread.cpp:175-180
  | initCfg (cb : Option φ)                  -- init, thread.cpp:181-184
  | initEnd                                  -- init, thread.cpp:184-185 (callback returned)
  | sdIn (T : Nat)                           -- shutdown, thread.cpp:190-194
  | sdDec (T : Nat)                          -- shutdown, thread.cpp:196-201
  | sdLog (T : Nat)                          -- shutdown, thread.cpp:202
  | sdIds (T : Nat)                          -- shutdown, thread.cpp:203
  | sdNotify (l : List Nat) (T : Nat)        -- shutdown, thread.cpp:204-216
  | sdPark (dl : Nat)                        -- shutdown, blocked on cleanup_event, thread.cpp:216
  | sdEnd (v : Int)                          -- shutdown, thread.cpp:218-229 (callback returned)
  | spawnIn (n : Nat) (f : φ)                -- std::thread constructor
  | joinIn (n : Nat)                         -- std::thread::join
  | detachIn (n : Nat)                       -- std::thread::detach
  | rethrow (e : Exn)                        -- continue stack unwinding after a destructor

/-- A stack frame: core program point, or client code. -/
inductive Frame (τ φ : Type)
  | core (f : CF τ φ)
  | client (f : φ)

inductive TStatus | free | running | zombie
  deriving DecidableEq, Repr

/-- A native thread, indexed by its `std::thread::id`.  `free` slots may be (re)used by a new thread, so native
    ids are recycled as on a real system.  `loc` is the thread-local `local_data` pointer, thread.cpp:48.
    `rv`: value returned by the last call.  `exc`: an exception is propagating. -/
structure Thr (τ φ : Type) where
  status : TStatus := .free
  detached : Bool := false
  loc : Option Nat := none
  stack : List (Frame τ φ) := []
  rv : Val := .unit
  exc : Option Exn := none

/-- `struct program_context` (thread.cpp:31-41), all contexts, all threads, the clock, and the ghost log.
    `idMap`, `contexts` are the two unordered maps; `gOwner` is the owner of `global_context.mutex` when it is
    held across a callback; `gcv`: `cleanup_event` notified since `shutdown` last blocked. -/
structure St (τ φ δ : Type) where
  gen : Nat := 0
  idMap : Nat → Option Nat := fun _ => none
  contexts : List (Nat × Nat) := []
  mainId : Nat := 0
  initCount : Nat := 0
  logCb : Option φ := none
  gOwner : Option Nat := none
  gcv : Bool := false
  ctxs : Nat → Ctx τ := fun _ => {}
  nctx : Nat := 0
  thr : Nat → Thr τ φ := fun _ => {}
  clock : Nat := 0
  data : δ
  log : List (Ev τ) := []
  ub : Bool := false
  term : Bool := false

/-- What client code can read about its own thread without a lock: `get_id`, `notified_for_exit`,
    `is_registered`, `get_depth` (thread.cpp:597-650) and `clock::now()`. -/
structure View where
  tid : Nat
  id : Nat
  exit : Bool
  reg : Bool
  depth : Nat
  clock : Nat

/-- Scheduler's choice for a step of a thread. `timeout`/`spurious` are the other ways a condition variable wait
    can end; `user` carries a decision of client code. -/
inductive Ch (χ : Type)
  | go | timeout | spurious
  | user (c : χ)
  deriving DecidableEq

/-- Calls that client code can make. -/
inductive Api (τ φ : Type)
  | registerThis                 -- this_thread::register_this_thread
  | registerNative (n : Nat)     -- register_thread / thread::register_this
  | unregisterThis
  | notifyExit (id : Nat)
  | invoke (id : Nat) (k : τ)            -- invoke (thread.h:294): the task object is destroyed if refused
  | invokePackaged (id : Nat) (k : τ)    -- detail::invoke_packaged_task: the caller keeps it if refused
  | dispatch (id : Nat) (k : τ)
  | pending (id : Nat)
  | allIds
  | wait
  | waitFor (d : Int)
  | process
  | processFor (d : Int)
  | sleepFor (d : Int)
  | init (cb : Option φ)
  | shutdown (T : Nat)
  | spawn (n : Nat) (f : φ)
  | join (n : Nat)
  | detach (n : Nat)

/-- What a step of client code does. -/
inductive Act (τ φ : Type)
  | goto (f : φ)
  | push (callee k : φ)           -- call other client code, continue at `k`
  | call (a : Api τ φ) (k : φ)    -- call a core function, continue at `k`
  | ret (v : Val)
  | throw (e : Exn)
  | terminate                     -- std::terminate

/-- Client code: how a task object is executed and destroyed, how code advances, and its exception handlers. -/
structure Client (τ φ δ χ : Type) where
  run : τ → φ
  destroy : τ → φ
  step : View → δ → φ → Val → Ch χ → Option (δ × Act τ φ)
  onThrow : φ → Exn → Option φ

def Api.entry {τ φ} : Api τ φ → CF τ φ
  | .registerThis => .regLook none
  | .registerNative n => .regLook (some n)
  | .unregisterThis => .unreg
  | .notifyExit id => .exitLook id
  | .invoke id k => .invLook id k true
  | .invokePackaged id k => .invLook id k false
  | .dispatch id k => .dispatch id k
  | .pending id => .pendLook id
  | .allIds => .allIds
  | .wait => .waitIn none
  | .waitFor d => .waitForIn d
  | .process => .procAll
  | .processFor d => .procForIn d
  | .sleepFor d => .sleepIn d
  | .init cb => .initIn cb
  | .shutdown T => .sdIn T
  | .spawn n f => .spawnIn n f
  | .join n => .joinIn n
  | .detach n => .detachIn n

section
variable {τ φ δ χ : Type}

namespace St

/-- `global_context.contexts.find(id)` -/
def find (s : St τ φ δ) (id : Nat) : Option Nat :=
  (s.contexts.find? (fun p => p.1 == id)).map (·.2)

/-- `this_thread::get_id`, thread.cpp:621-632 -/
def getId (s : St τ φ δ) (t : Nat) : Nat :=
  match (s.thr t).loc with
  | none => 0
  | some c => (s.ctxs c).id

/-- `this_thread::notified_for_exit`, thread.cpp:597-609 -/
def notified (s : St τ φ δ) (t : Nat) : Bool :=
  match (s.thr t).loc with
  | none => true
  | some c => (s.ctxs c).exit

/-- `this_thread::get_depth`, thread.cpp:634-645 -/
def getDepth (s : St τ φ δ) (t : Nat) : Nat :=
  match (s.thr t).loc with
  | none => 0
  | some c => (s.ctxs c).depth

def view (s : St τ φ δ) (t : Nat) : View :=
  { tid := t, id := s.getId t, exit := s.notified t, reg := (s.thr t).loc.isSome,
    depth := s.getDepth t, clock := s.clock }

def setStk (s : St τ φ δ) (t : Nat) (stk : List (Frame τ φ)) : St τ φ δ :=
  { s with thr := upd s.thr t { s.thr t with stack := stk } }

def setCtx (s : St τ φ δ) (c : Nat) (x : Ctx τ) : St τ φ δ :=
  { s with ctxs := upd s.ctxs c x }

def ev (s : St τ φ δ) (e : Ev τ) : St τ φ δ := { s with log := e :: s.log }

/-- Pop the frame and return `v` to the caller. -/
def ret (s : St τ φ δ) (t : Nat) (rest : List (Frame τ φ)) (f : Fn) (v : Val) : St τ φ δ :=
  { s with thr := upd s.thr t { s.thr t with stack := rest, rv := v }, log := .ret t f v :: s.log }

/-- A local `shared_ptr` to context `c` is created by thread `t`. -/
def hold (s : St τ φ δ) (c t : Nat) : St τ φ δ :=
  s.setCtx c { s.ctxs c with holders := t :: (s.ctxs c).holders }

/-- `process_one` found the task `k` (context already updated to `x`): unlock and execute it, thread.cpp:414-421. -/
def startTask (C : Client τ φ δ χ) (s : St τ φ δ) (t c : Nat) (k : τ) (x : Ctx τ) (r : Cont)
    (rest : List (Frame τ φ)) : St τ φ δ :=
  ((s.setCtx c x).ev (.started t c k)).setStk t (.client (C.run k) :: .core (.ran c k r) :: rest)

/-- The id `register_thread_impl` will use: the one in `id_map`, or a fresh one. thread.cpp:108-121 -/
def regId (s : St τ φ δ) (n : Nat) : Nat :=
  if (s.idMap n).getD 0 = 0 then s.gen + 1 else (s.idMap n).getD 0

def regGen (s : St τ φ δ) (n : Nat) : Nat :=
  if (s.idMap n).getD 0 = 0 then s.gen + 1 else s.gen

end St

/-- Is this a frame of a task being executed (or destroyed) by `process_one`? -/
def Frame.inTask : Frame τ φ → Bool
  | .core (.ran _ _ _) => true
  | .core (.freed _ _ _) => true
  | _ => false

/-- `init_count` is a `std::size_t`. -/
def sizeMod : Nat := 2 ^ 64

/-- `init_count++` on a `std::size_t` -/
def incCount (n : Nat) : Nat := if n + 1 = sizeMod then 0 else n + 1

/-- `--init_count` on a `std::size_t` -/
def decCount (n : Nat) : Nat := if n = 0 then sizeMod - 1 else n - 1

/-- One step of a core function whose frame is on top of thread `t`'s stack. -/
def stepCore (C : Client τ φ δ χ) (s : St τ φ δ) (t : Nat) (f : CF τ φ) (rest : List (Frame τ φ)) (ch : Ch χ) :
    Option (St τ φ δ) :=
  match f with
  | .regLook n? =>
    -- thread.cpp:107 lock; 108-121 id; 123-127 existing context; 129-139 new context
    if s.gOwner.isSome then none else
    let n := n?.getD t
    match s.find (s.regId n) with
    | some c =>
      some ((({ s with gen := s.regGen n }.hold c t).ev (.regRes t n (s.ctxs c).id)).setStk t
        (.core (.regDone c n?.isNone) :: rest))
    | none =>
      some (((({ s with
          gen := s.regGen n
          idMap := upd s.idMap n (some (s.regId n))
          contexts := s.contexts ++ [(s.regId n, s.nctx)]
          ctxs := upd s.ctxs s.nctx { native := n, id := s.regId n, holders := [t] }
          nctx := s.nctx + 1 } : St τ φ δ).ev (.registered s.nctx (s.regId n) n)).ev (.regRes t n (s.regId n))).setStk t
            (.core (.regDone s.nctx n?.isNone) :: rest))
  | .regDone c self =>
    -- self: set_local_context(context.get()); otherwise: read ctx->id
    let s1 : St τ φ δ :=
      if self then { s with thr := upd s.thr t { s.thr t with loc := some c } } else s
    some (s1.setStk t (.core (.release c (.register (s.ctxs c).native) (.nat (s.ctxs c).id)) :: rest))
  | .unreg =>
    -- thread.cpp:148-169; both locks are taken and released inside
    if s.gOwner.isSome then none else
    match s.find (s.getId t) with
    | none => some (s.setStk t (.core .unregClear :: rest))
    | some c =>
      let s1 : St τ φ δ :=
        { s with
          idMap := upd s.idMap (s.ctxs c).native none
          contexts := s.contexts.filter (fun p => !(p.1 == s.getId t))
          gcv := s.gcv || (s.contexts.filter (fun p => !(p.1 == s.getId t))).isEmpty
          log := if rest.any Frame.inTask then .nestedUnreg t c :: s.log else s.log }
      some (((s1.ev (.unregistered c (s.getId t) (s.ctxs c).native)).hold c t).setStk t
        (.core (.release c .internal .unit) :: .core .unregClear :: rest))
  | .unregClear =>
    some (({ s with thr := upd s.thr t { s.thr t with loc := none } } : St τ φ δ).ret t rest .unregister .unit)
  | .release c f v =>
    -- shared_ptr destructor; the last reference destroys the context (members in reverse order:
    -- processing_tasks, then tasks)
    let x := s.ctxs c
    let hs := x.holders.erase t
    if hs.isEmpty && !(s.contexts.any (fun p => p.2 == c)) then
      some (({ s.setCtx c { x with holders := hs, life := .dying, tasks := [], proc := [], idx := 0 } with
          log := (x.pend.map (Ev.dropped t c)).reverse ++ s.log } : St τ φ δ).setStk t
            (.core (.destroyList c x.pend f v) :: rest))
    else
      some ((s.setCtx c { x with holders := hs }).ret t rest f v)
  | .destroyList c (k :: l) f v =>
    some (s.setStk t (.client (C.destroy k) :: .core (.destroyList c l f v) :: rest))
  | .destroyList c [] f v =>
    some ((s.setCtx c { s.ctxs c with life := .dead }).ret t rest f v)
  | .exitLook id =>
    if s.gOwner.isSome then none else
    match s.find id with
    | none => some (s.ret t rest .notifyExit .unit)
    | some c => some ((s.hold c t).setStk t (.core (.exitSet c) :: rest))
  | .exitSet c =>
    if (s.ctxs c).life ≠ .alive then some { s with ub := true } else
    some (((s.setCtx c { s.ctxs c with exit := true, wakeup := true, cv := true }).ev (.exitSet c)).setStk t
      (.core (.release c .notifyExit .unit) :: rest))
  | .invLook id k own =>
    -- a task object is never null here: package_simple_task / package_future_task always produce a callable
    let refuse : Option (St τ φ δ) :=
      if own then
        some ((s.ev (.refused t id k)).setStk t
          (.client (C.destroy k) :: .core (.retv (some id)) :: rest))
      else some ((s.ev (.refused t id k)).ret t rest (.invoke id) (.bool false))
    if id = 0 then refuse else
    if s.gOwner.isSome then none else
    match s.find id with
    | none => refuse
    | some c => some ((s.hold c t).setStk t (.core (.invPush c k) :: rest))
  | .invPush c k =>
    if (s.ctxs c).life ≠ .alive then some { s with ub := true } else
    some (((s.setCtx c { s.ctxs c with tasks := (s.ctxs c).tasks ++ [k], wakeup := true, cv := true }).ev
      (.accepted t c (s.ctxs c).id k)).setStk t (.core (.release c (.invoke (s.ctxs c).id) (.bool true)) :: rest))
  | .retv none => some (s.ret t rest .dispatch (.bool true))
  | .retv (some id) => some (s.ret t rest (.invoke id) (.bool false))
  | .dispatch id k =>
    if s.getId t = id then
      some ((s.ev (.inlined t id k)).setStk t (.client (C.run k) :: .core (.dispRan k) :: rest))
    else some (s.setStk t (.core (.invLook id k true) :: rest))
  | .dispRan k =>
    some (s.setStk t (.client (C.destroy k) :: .core (.retv none) :: rest))
  | .pendLook id =>
    if id = 0 then some (s.ret t rest (.pending id) (.nat 0)) else
    if s.gOwner.isSome then none else
    match s.find id with
    | none => some (s.ret t rest (.pending id) (.nat 0))
    | some c => some ((s.hold c t).setStk t (.core (.pendRead c) :: rest))
  | .pendRead c =>
    if (s.ctxs c).life ≠ .alive then some { s with ub := true } else
    let x := s.ctxs c
    let n := x.depth + (x.proc.length - x.idx) + x.tasks.length
    some ((s.ev (.pendRes t c x.id n)).setStk t (.core (.release c (.pending x.id) (.nat n)) :: rest))
  | .allIds =>
    if s.gOwner.isSome then none else
    some (s.ret t rest .allIds (.ids (s.contexts.map (·.1))))
  | .waitIn d =>
    match (s.thr t).loc with
    | none => some (s.ret t rest .wait (.cv false))
    | some c =>
      if (s.ctxs c).life ≠ .alive then some { s with ub := true } else
      match (s.ctxs c).pop with
      | some (k, x) => some (s.startTask C t c k x (.toWait false) rest)
      | none =>
        if (s.ctxs c).exit then some (s.ret t rest .wait (.cv false)) else
        some ((s.setCtx c { s.ctxs c with wakeup := false, cv := false }).setStk t
          (.core (.parked c (d.map (s.clock + ·))) :: rest))
  | .parked c dl =>
    if (s.ctxs c).life ≠ .alive then some { s with ub := true } else
    -- wakes up with status `b`: thread.cpp:533-537 / 573-575
    let proceed (b : Bool) : Option (St τ φ δ) :=
      match ({ s.ctxs c with wakeup := false } : Ctx τ).pop with
      | some (k, x) => some (s.startTask C t c k x (.toWait b) rest)
      | none => some ((s.setCtx c { s.ctxs c with wakeup := false }).ret t rest .wait (.cv b))
    match ch with
    | .go =>
      if (s.ctxs c).cv then
        if (s.ctxs c).wakeup then proceed false
        else some (s.setCtx c { s.ctxs c with cv := false })
      else none
    | .spurious => if (s.ctxs c).wakeup then proceed false else none
    | .timeout =>
      match dl with
      | none => none
      | some d => if d ≤ s.clock then proceed (!(s.ctxs c).wakeup) else none
    | .user _ => none
  | .waitForIn d =>
    if d ≤ 0 then some (s.ret t rest .waitFor (.cv false))
    else some (s.setStk t (.core (.waitIn (some (d.toNat / 1000 * 1000))) :: rest))
  | .ran c k r =>
    some (s.setStk t (.client (C.destroy k) :: .core (.freed c k r) :: rest))
  | .freed c k r =>
    if (s.ctxs c).life ≠ .alive then some { s with ub := true } else
    let s1 := (s.setCtx c { s.ctxs c with depth := (s.ctxs c).depth - 1 }).ev (.finished t c k)
    match r with
    | .toWait b => some (s1.ret t rest .wait (.cv b))
    | .toAll => some (s1.setStk t (.core .procAll :: rest))
    | .toFor e => some (s1.setStk t (.core (.procFor e) :: rest))
  | .procAll =>
    match (s.thr t).loc with
    | none => some (s.ret t rest .process .unit)
    | some c =>
      if (s.ctxs c).life ≠ .alive then some { s with ub := true } else
      if (s.ctxs c).exit then some (s.ret t rest .process .unit) else
      match (s.ctxs c).pop with
      | some (k, x) => some (s.startTask C t c k x .toAll rest)
      | none => some (s.ret t rest .process .unit)
  | .procForIn d =>
    match (s.thr t).loc with
    | none => some (s.ret t rest .processFor .unit)
    | some _ => some (s.setStk t (.core (.procFor (s.clock + d.toNat / 1000 * 1000)) :: rest))
  | .procFor e =>
    match (s.thr t).loc with
    | none => some (s.ret t rest .processFor .unit)
    | some c =>
      if (s.ctxs c).life ≠ .alive then some { s with ub := true } else
      if (s.ctxs c).exit || decide (e ≤ s.clock) then some (s.ret t rest .processFor .unit) else
      match (s.ctxs c).pop with
      | some (k, x) => some (s.startTask C t c k x (.toFor e) rest)
      | none => some (s.ret t rest .processFor .unit)
  | .sleepIn d =>
    if d ≤ 0 then some (s.ret t rest .sleepFor .unit)
    else some (s.setStk t (.core (.sleep (s.clock + d.toNat) s.clock) :: rest))
  | .sleep e now =>
    if now < e then
      if s.notified t then some (s.ret t rest .sleepFor .unit)
      else some (s.setStk t (.core (.waitForIn ((e - now : Nat) : Int)) :: .core (.sleepNow e) :: rest))
    else some (s.ret t rest .sleepFor .unit)
  | .sleepNow e => some (s.setStk t (.core (.sleep e s.clock) :: rest))
  | .initIn cb =>
    let s1 : St τ φ δ := ({ s with initCount := incCount s.initCount } : St τ φ δ).ev (.inc t)
    if s.initCount ≠ 0 then some (s1.ret t rest .init .unit)
    else some (s1.setStk t (.core (.regLook none) :: .core (.initCfg cb) :: rest))
  | .initCfg cb =>
    if s.gOwner.isSome then none else
    let s1 : St τ φ δ := { s with mainId := s.getId t, logCb := cb }
    match cb with
    | none => some (s1.ret t rest .init .unit)
    | some f => some (({ s1 with gOwner := some t } : St τ φ δ).setStk t (.client f :: .core .initEnd :: rest))
  | .initEnd => some (({ s with gOwner := none } : St τ φ δ).ret t rest .init .unit)
  | .sdIn T =>
    if s.initCount = 0 then some (s.ret t rest .shutdown (.int (-1)))
    else some (s.setStk t (.core (.sdDec T) :: rest))
  | .sdDec T =>
    let s1 : St τ φ δ := ({ s with initCount := decCount s.initCount } : St τ φ δ).ev (.dec t)
    if decCount s.initCount ≠ 0 then some (s1.ret t rest .shutdown (.int (-1)))
    else some (s1.setStk t (.core .unreg :: .core (.sdLog T) :: rest))
  | .sdLog T =>
    match s.logCb with
    | none => some (s.setStk t (.core (.sdIds T) :: rest))
    | some f => some (s.setStk t (.client f :: .core (.sdIds T) :: rest))
  | .sdIds T =>
    if s.gOwner.isSome then none else
    some (s.setStk t (.core (.sdNotify (s.contexts.map (·.1)) T) :: rest))
  | .sdNotify (i :: l) T =>
    some (s.setStk t (.core (.exitLook i) :: .core (.sdNotify l T) :: rest))
  | .sdNotify [] T =>
    if s.gOwner.isSome then none else
    if s.contexts.isEmpty then
      match s.logCb with
      | none => some (s.ret t rest .shutdown (.int 0))
      | some f => some (({ s with gOwner := some t } : St τ φ δ).setStk t (.client f :: .core (.sdEnd 0) :: rest))
    else
      some (({ s with gcv := false } : St τ φ δ).setStk t (.core (.sdPark (s.clock + T)) :: rest))
  | .sdPark dl =>
    if s.gOwner.isSome then none else
    let fin (v : Int) : Option (St τ φ δ) :=
      match s.logCb with
      | none => some (s.ret t rest .shutdown (.int v))
      | some f => some (({ s with gOwner := some t } : St τ φ δ).setStk t (.client f :: .core (.sdEnd v) :: rest))
    match ch with
    | .go =>
      if s.gcv then
        if s.contexts.isEmpty then fin 0 else some { s with gcv := false }
      else none
    | .spurious => if s.contexts.isEmpty then fin 0 else none
    | .timeout => if dl ≤ s.clock then fin s.contexts.length else none
    | .user _ => none
  | .sdEnd v => some (({ s with gOwner := none, logCb := none } : St τ φ δ).ret t rest .shutdown (.int v))
  | .spawnIn n f =>
    if (s.thr n).status = .free then
      some (({ s with thr := upd s.thr n { status := .running, stack := [.client f] } } : St τ φ δ).ret t rest
        .spawn .unit)
    else none
  | .joinIn n =>
    if (s.thr n).status = .zombie then
      some (({ s with thr := upd s.thr n { s.thr n with status := .free } } : St τ φ δ).ret t rest .join .unit)
    else none
  | .detachIn n =>
    match (s.thr n).status with
    | .zombie =>
      some (({ s with thr := upd s.thr n { s.thr n with status := .free } } : St τ φ δ).ret t rest .detach .unit)
    | .running =>
      some (({ s with thr := upd s.thr n { s.thr n with detached := true } } : St τ φ δ).ret t rest .detach .unit)
    | .free => some (s.ret t rest .detach .unit)
  | .rethrow e =>
    some { s with thr := upd s.thr t { s.thr t with stack := rest, exc := some e } }

/-- One step of client code on top of thread `t`'s stack. -/
def stepClient (C : Client τ φ δ χ) (s : St τ φ δ) (t : Nat) (f : φ) (rest : List (Frame τ φ)) (ch : Ch χ) :
    Option (St τ φ δ) :=
  match C.step (s.view t) s.data f (s.thr t).rv ch with
  | none => none
  | some (d, a) =>
    let s1 : St τ φ δ := { s with data := d }
    match a with
    | .goto f' => some (s1.setStk t (.client f' :: rest))
    | .push g f' => some (s1.setStk t (.client g :: .client f' :: rest))
    | .call a f' => some (s1.setStk t (.core a.entry :: .client f' :: rest))
    | .ret v => some { s1 with thr := upd s.thr t { s.thr t with stack := rest, rv := v } }
    | .throw e => some { s1 with thr := upd s.thr t { s.thr t with stack := rest, exc := some e } }
    | .terminate => some { s1 with term := true }

/-- Stack unwinding: exception `e` propagates into the frame on top of the stack. Destructors are `noexcept`:
    an exception leaving one, or leaving the thread function, is `std::terminate`. -/
def stepExc (C : Client τ φ δ χ) (s : St τ φ δ) (t : Nat) (e : Exn) (stk : List (Frame τ φ)) : St τ φ δ :=
  match stk with
  | [] => { s with term := true }
  | .core (.ran c k _) :: rest =>
    -- process_one is left at line 421: `lock` is not re-acquired, the depth is not decremented,
    -- the local `task` is destroyed
    { s with
      thr := upd s.thr t { s.thr t with exc := none, stack := .client (C.destroy k) :: .core (.rethrow e) :: rest }
      log := .threw t c :: s.log }
  | .core (.dispRan k) :: rest =>
    { s with thr := upd s.thr t { s.thr t with exc := none, stack := .client (C.destroy k) :: .core (.rethrow e) :: rest } }
  | .core .initEnd :: rest =>
    { s with gOwner := none, thr := upd s.thr t { s.thr t with stack := rest } }
  | .core (.sdEnd _) :: rest =>
    { s with gOwner := none, thr := upd s.thr t { s.thr t with stack := rest } }
  | .core (.sleepNow _) :: rest => s.setStk t rest
  | .core (.sdIds _) :: rest => s.setStk t rest
  -- everything else either has no callee that can throw, or has a destructor as callee
  | .core _ :: _ => { s with term := true }
  | .client f :: rest =>
    match C.onThrow f e with
    | some f' =>
      { s with thr := upd s.thr t { s.thr t with exc := none, rv := .exn e, stack := .client f' :: rest } }
    | none => s.setStk t rest

/-- The end of the thread function. -/
def stepEnd (s : St τ φ δ) (t : Nat) : St τ φ δ :=
  { s with thr := upd s.thr t { status := if (s.thr t).detached then .free else .zombie } }

inductive Lbl (χ : Type)
  | th (t : Nat) (ch : Ch χ)
  | tick (n : Nat)

/-- One step of the whole program. After undefined behaviour or `std::terminate` nothing is specified: no step. -/
def step (C : Client τ φ δ χ) (s : St τ φ δ) (l : Lbl χ) : Option (St τ φ δ) :=
  if s.ub || s.term then none else
  match l with
  | .tick n => some { s with clock := s.clock + n }
  | .th t ch =>
    if (s.thr t).status ≠ .running then none else
    match (s.thr t).exc with
    | some e => some (stepExc C s t e (s.thr t).stack)
    | none =>
      match (s.thr t).stack with
      | [] => some (stepEnd s t)
      | .core f :: rest => stepCore C s t f rest ch
      | .client f :: rest => stepClient C s t f rest ch

/-- A whole execution. -/
def run (C : Client τ φ δ χ) (s : St τ φ δ) : List (Lbl χ) → Option (St τ φ δ)
  | [] => some s
  | l :: ls => match step C s l with
    | none => none
    | some s' => run C s' ls

/-- Program start: thread 0 runs client code `f`, nothing is registered. -/
def init (d : δ) (f : φ) : St τ φ δ :=
  { data := d, thr := upd (fun _ => {}) 0 { status := .running, stack := [.client f] } }

/-- The states some execution reaches. -/
def Reach (C : Client τ φ δ χ) (d : δ) (f : φ) (s : St τ φ δ) : Prop :=
  ∃ ls, run C (init d f) ls = some s

end
end Core
end Itc
