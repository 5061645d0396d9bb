import Verif.Sync.Base

/-!
# The thread pool (threadpp/thread_pool.h, threadpp/thread_pool.cpp)

An application of the synchronisation layer (`Verif.Sync.Model`) that offers class `thread_pool` to arbitrary user code `PApp`. Line numbers
without a file name are those of thread_pool.cpp.

Simplifications:
* `thread_pool` objects live at addresses chosen by the user; `impl` objects are numbered in order of creation and their records are kept
  after destruction. Access to an object that does not exist, or through a null `impl_`, is undefined behaviour: the model terminates.
  So is the destruction of an `impl` whose destruction has begun.
* The destruction of the members at the end of ~impl (the jobs that were inserted after :70) is modelled as a second `clear_all`, with the
  lock: nobody else may use the object any more.
* The constructor is given the list of workers (level and native thread) in the order in which :43-60 creates them. `set_thread_config` (:57),
  thread names and `jobs_.reserve` (:42) are not modelled.
* `jobs_` is a list in order of insertion, so stop_all and wait_all visit the jobs in that order.
* `job_priority_queues_` is one list of handles, each with its level and priority. `priority_queue::top` may be any handle of greatest
  priority: the scheduler chooses its position in the list.
* The locked regions are one step each, apart from lock and unlock, the dispatch calls of `notify_workers` and the destruction of callables.
* A moved-from `task` (:267) is empty.
* `make_ready_future().share()` (:153) is a future on which wait returns at once; wait is not called in the model.
* User code has no access to `detail::package_future_task` and to the task objects that it returns.
-/
namespace Itc
namespace Pool
open Core Sync

/-- `priority::group`, thread_pool.h:20-29; the level is a `category` (0, 1, 2) but any number is allowed. -/
structure Grp where
  lvl : Nat
  prio : Nat
  deriving DecidableEq

/-- A notification of a worker of pool `i`, level `L` (ghost: its number `n` and the id `w` of the worker). -/
structure Tok where
  n : Nat
  i : Nat
  L : Nat
  w : Nat
  deriving DecidableEq

/-- Functors: those of the user; the callable that `add_job` packages (:83): the packaged task (state `p`) of the user's `a`, made by
    `schedule` (thread_pool.h:218); the lambda :206-209 with the captured `this` (`x.i`) and level (`x.L`). -/
inductive PTask (α : Type)
  | usr (a : α)
  | inner (p : Nat) (a : α)
  | check (x : Tok)
  deriving DecidableEq

/-- A callable that `add_job` stores: a packaged task with state `p` whose function is the packaged task of `a` with state `u`. -/
structure Call (α : Type) where
  p : Nat
  u : Nat
  a : α
  deriving DecidableEq

/-- `job_info`, :21-27 -/
structure Job (α : Type) where
  id : Nat                 -- handle.id
  g : Grp                  -- handle.group
  call : Option (Call α)   -- callable
  fut : Nat                -- callable_future: its state
  usr : Nat                -- ghost: the state of the future given to the user
  deriving DecidableEq

/-- A worker: its level (key in `workers_`), its native thread and its `id_`. -/
structure Wk where
  lvl : Nat
  n : Nat
  id : Nat
  deriving DecidableEq

/-- `job_handle`, :15-19 -/
structure Hd where
  id : Nat
  g : Grp
  deriving DecidableEq

/-- The members of `impl`, :282-286 -/
structure Imp (α : Type) where
  free : Nat := 1            -- free_id_
  wk : List Wk := []         -- workers_
  jobs : List (Job α) := []  -- jobs_
  q : List Hd := []          -- job_priority_queues_

/-- A `thread_pool` object: `impl_` and `sentinel_`, thread_pool.h:210-212 -/
structure PObj where
  impl : Option Nat
  sen : Option Nat
  deriving DecidableEq

/-- Ghost events. -/
inductive PEv (α : Type)
  | made (t i : Nat)                           -- the constructor of pool `i` has finished
  | worker (t i l n id : Nat)                  -- a worker of level `l` of pool `i`: native thread `n` with this id
  | packed (k p : Nat)                         -- the packaged task with tag `k` has state `p`
  | sched (t i id : Nat) (c : Call α) (g : Grp) -- a job is inserted: `c.u` is the state of the user's future, `c.p` that of callable_future
  | changed (t i id : Nat) (g : Grp)           -- change_priority stores a new group
  | took (t i L id : Nat) (c : Call α) (h : Hd) -- a worker of level `L` takes the callable of job `id`, found by handle `h`
  | skipped (t i L : Nat) (h : Hd)             -- it pops a handle without taking a callable
  | idle (t i L : Nat)                         -- it finds no handle
  | exits (t : Nat) (x : Tok)                  -- check_jobs returns because the thread is told to exit
  | stopped (t i id : Nat) (c : Call α)        -- stop erases a job that still has its callable
  | noStop (t i id : Nat)                      -- stop erases nothing
  | discarded (t i id : Nat) (c : Call α)      -- stop_all or ~impl erases a job that still has its callable
  | forgot (t i id : Nat)                      -- stop_all or ~impl erases a job whose callable was taken
  | done (t i id : Nat) (c : Call α)           -- the callable has returned; the worker executes clear(id, false)
  | returned (t i id u : Nat)                  -- schedule returns
  | waits (t i id : Nat) (p : Option Nat)      -- wait finds this state / no job
  | waitsAll (t i : Nat) (l : List (Nat × Nat)) -- wait_all finds these jobs and states
  | waited (t i k p : Nat) (x r : Bool)        -- the wait for `p` is over; `x`: notified_for_exit of the thread, `r`: it is registered
  | waitRet (t i k : Nat) (l : List Nat)       -- wait / wait_all returns; these are the states that it waited for (k: the number of events before its `waits`, `waitsAll`)
  | counted (t i n : Nat)                      -- get_jobs_count
  | aborted (i : Nat)                          -- an exception leaves notify_workers
  | expired (t id : Nat)                       -- a function of job_future finds its sentinel expired
  | dies (t i : Nat)                           -- ~impl begins
  | parted (t i : Nat)                         -- ~impl moves the workers out of the pool
  deriving DecidableEq

structure PData (α δ : Type) where
  u : δ
  imp : Nat → Imp α := fun _ => {}
  nimp : Nat := 0
  obj : Nat → Option PObj := fun _ => none
  live : Nat → Bool := fun _ => false  -- sentinels that are not expired
  nsen : Nat := 0
  sim : Nat → Nat := fun _ => 0         -- ghost: the pool for which a sentinel was made
  mix : Nat → Bool := fun _ => false   -- ghost: the object that holds the sentinel took part in a move assignment
  dying : Nat → Bool := fun _ => false -- `~impl` of this pool has begun
  ntag : Nat := 0                      -- ghost: number of package_future_task calls
  ntok : Nat := 0                      -- ghost: number of notifications
  opn : List Tok := []                 -- ghost: notifications not yet served
  plog : List (PEv α) := []

/-- The members of `job_future_storage` (thread_pool.h:54-74). -/
structure JF where
  id : Nat
  sen : Option Nat
  owner : Option Nat
  deriving DecidableEq

/-- Functions of `thread_pool` on the object at address `h`. -/
inductive PApi (α : Type)
  | new (h : Nat) (ws : List (Nat × Nat))              -- :290-297: (level, native thread) of each worker
  | del (h : Nat)                                      -- :299
  | move (h h' : Nat) | assign (h h' : Nat)            -- thread_pool.h:148-149
  | schedule (h : Nat) (g : Grp) (isVoid : Bool) (a : α) -- thread_pool.h:216-224
  | change (h id : Nat) (g : Grp)                      -- :306-309
  | stop (h id : Nat) | stopAll (h : Nat)              -- :311-314, 321-324
  | wait (h id : Nat) | waitAll (h : Nat)              -- :316-319, 326-329
  | count (h : Nat)                                    -- :331-334
  | jfChange (f : JF) (g : Grp) | jfStop (f : JF)      -- :336-360

/-- Actions of user code. -/
inductive PAct (α φ : Type)
  | goto (f : φ)
  | push (f k : φ)
  | core (a : Api α φ) (k : φ)
  | sync (a : SApi α) (k : φ)
  | pool (a : PApi α) (k : φ)
  | ret (v : Val)
  | throw (e : Exn)
  | terminate

/-- User code. -/
structure PApp (α φ δ χ : Type) where
  run : α → φ
  destroy : α → φ
  step : View → δ → φ → Val → Ch χ → Option (δ × PAct α φ)
  onThrow : φ → Exn → Option φ

/-- Who calls `add_job_handle`: `add_job` for the `schedule` of object `h` (user state `u`, id), `change_priority`. -/
inductive AK' | sched (h u id : Nat) | chg
  deriving DecidableEq

/-- Who calls `clear`: `stop`, `check_jobs` for the callable that it has run. -/
inductive CK (α : Type) | stop | job (c : Call α)
  deriving DecidableEq

/-- Who destroys an `impl`: `~thread_pool`, the move assignment. -/
inductive DK | del (h : Nat) | asg (h h' : Nat)
  deriving DecidableEq

/-- Who calls `clear_all`: `stop_all`, `~impl` (:70); `mem`: the destruction of the members after the body of `~impl`. -/
inductive SK | user | dtor (k : DK) | mem (k : DK)
  deriving DecidableEq

/-- Program points. The comment gives the code that the next step executes. -/
inductive PFrame (α φ : Type)
  | usr (f : φ)
  | newIn (h : Nat) (ws : List (Nat × Nat))                    -- :293-296
  | newW (i h : Nat) (ws : List (Nat × Nat))                   -- :52-55: the std::thread constructor, thread.h:37
  | newReg (i h l n : Nat) (ws : List (Nat × Nat))             -- thread.h:39, thread.cpp:695
  | newId (i h l n : Nat) (ws : List (Nat × Nat))              -- thread.cpp:696, emplace_back :55
  | wkIn                                                       -- thread.cpp:661
  | wkLoop                                                     -- thread.cpp:665-670
  | wkEnd                                                      -- end of the lambda
  | scIn (h : Nat) (g : Grp) (b : Bool) (a : α)                -- thread_pool.h:218
  | scTask (k : Nat) (b : Bool) (h : Nat) (g : Grp) (a : α)    -- thread_pool.h:219-220, :303, :83 (k, b: ghost)
  | scJob (k i h : Nat) (g : Grp) (u : Nat) (a : α)            -- :83-84
  | ajIn (i h : Nat) (g : Grp) (c : Call α)                    -- :85-92, 190
  | nw (i : Nat) (l : List Tok) (cur : Option Tok) (K : AK')   -- :196-212
  | nwFin (i : Nat) (K : AK')                                  -- thread_pool.h:220-223, end of change_priority
  | nwThr (i : Nat) (e : Exn)                                  -- unwinding of the lock_guard in notify_workers' callers
  | clThr (i : Nat) (e : Exn)                                  -- unwinding of the lock_guard in clear, clear_all
  | thr (e : Exn)
  | cpIn (h id : Nat) (g : Grp)                                -- :308, 98
  | cpBody (i id : Nat) (g : Grp)                              -- :100-115, 190
  | unl (i : Nat) (v : Val)                                    -- ~lock_guard, then return
  | done (v : Val)
  | stIn (h id : Nat)                                          -- :323, 120
  | clIn (i id : Nat) (K : CK α)                               -- :121-135
  | clUnl (i : Nat) (o : Option (Call α)) (K : CK α)           -- :136 (o: ghost, the callable just destroyed)
  | clFin (K : CK α)                                           -- end of stop; the end of check_jobs: ~task
  | saIn (h : Nat)                                             -- :313, 140
  | caIn (i : Nat) (K : SK)                                    -- :141
  | caLoop (i : Nat) (o : Option (Call α)) (l : List (Call α)) (K : SK) -- :141-142 (o: ghost, the callable just destroyed)
  | caFin (i : Nat) (K : SK)                                   -- end of stop_all; :74; end of ~impl
  | delIn (h : Nat)                                            -- ~shared_ptr, ~unique_ptr, :70, 140
  | diIn (i : Nat) (K : DK)                                    -- :75
  | diJoin (i : Nat) (ws : List Wk) (K : DK)                   -- :78: ~thread, thread.cpp:719-722, 689; :79, ~unordered_map of :285
  | diStd (i : Nat) (x : Wk) (ws : List Wk) (K : DK)           -- thread.cpp:690
  | diEnd (K : DK)                                             -- the impl is deleted
  | mvIn (h h' : Nat)                                          -- thread_pool.h:148
  | maIn (h h' : Nat)                                          -- thread_pool.h:149
  | wtIn (h id : Nat)                                          -- :318, 149
  | wtBody (i id : Nat)                                        -- :150-155
  | wtGo (i k : Nat) (dn l : List Nat)                         -- :158, 175-178 (ghosts: k: the call, dn: the states waited for, the last one first)
  | waIn (h : Nat)                                             -- :328, 165
  | waBody (i : Nat)                                           -- :166-172
  | cnIn (h : Nat)                                             -- :333, 183
  | cnBody (i : Nat)                                           -- :184
  | jsIn (f : JF)                                              -- :351-358
  | jcIn (f : JF) (g : Grp)                                    -- :338-345
  | ckIn (x : Tok)                                             -- :238-247
  | ckBody (x : Tok)                                           -- :248-270
  | ckUnl (x : Tok) (id : Nat) (c : Option (Call α))           -- :271
  | ckGo (x : Tok) (id : Nat) (c : Option (Call α))            -- :273-275
  | ckRan (x : Tok) (id : Nat) (c : Call α)                    -- :278, 120
  | inRun (p : Nat) (a : α)                                    -- call of the packaged task of schedule
  | inDtor (p : Nat) (a : α)                                   -- its destructor
  | rtEnd (p : Nat) (a : α)                                    -- return from the call
  | dtEnd (p : Nat) (a : α)                                    -- return from the destructor
  | ckDtor                                                     -- destructor of the lambda :206
  deriving DecidableEq

section
variable {α φ δ χ : Type}

/-- Functions of the pool. -/
def PApi.entry : PApi α → PFrame α φ
  | .new h ws => .newIn h ws
  | .del h => .delIn h
  | .move h h' => .mvIn h h'
  | .assign h h' => .maIn h h'
  | .schedule h g b a => .scIn h g b a
  | .change h id g => .cpIn h id g
  | .stop h id => .stIn h id
  | .stopAll h => .saIn h
  | .wait h id => .wtIn h id
  | .waitAll h => .waIn h
  | .count h => .cnIn h
  | .jfChange f g => .jcIn f g
  | .jfStop f => .jsIn f

/-- User code and functors inside core calls. -/
def mapP : Api α φ → Api (PTask α) (PFrame α φ)
  | .registerThis => .registerThis
  | .registerNative n => .registerNative n
  | .unregisterThis => .unregisterThis
  | .notifyExit id => .notifyExit id
  | .invoke id k => .invoke id (.usr k)
  | .invokePackaged id k => .invoke id (.usr k)
  | .dispatch id k => .dispatch id (.usr k)
  | .pending id => .pending id
  | .allIds => .allIds
  | .wait => .wait
  | .waitFor d => .waitFor d
  | .process => .process
  | .processFor d => .processFor d
  | .sleepFor d => .sleepFor d
  | .init cb => .init (cb.map .usr)
  | .shutdown T => .shutdown T
  | .spawn n f => .spawn n (.usr f)
  | .join n => .join n
  | .detach n => .detach n

/-- Calls of user code into the synchronisation layer. The user's std::mutex objects have the even names, those of the pools the odd ones. -/
def mapS : SApi α → Option (SApi (PTask α))
  | .lock n => some (.lock (2 * n))
  | .unlock n => some (.unlock (2 * n))
  | .cvWait n m => some (.cvWait n (2 * m))
  | .cvWaitFor n m d => some (.cvWaitFor n (2 * m) d)
  | .notifyOne n => some (.notifyOne n)
  | .notifyAll n => some (.notifyAll n)
  | .mLock m => some (.mLock m)
  | .mTry m => some (.mTry m)
  | .mUnlock m => some (.mUnlock m)
  | .promNew q v => some (.promNew q v)
  | .promDtor q => some (.promDtor q)
  | .promMove q q' => some (.promMove q q')
  | .promSet q r => some (.promSet q r)
  | .getFuture q => some (.getFuture q)
  | .futWait p => some (.futWait p)
  | .futWaitFor p d => some (.futWaitFor p d)
  | .futGet p => some (.futGet p)
  | .isReady p => some (.isReady p)
  | .hasError p => some (.hasError p)
  | .futThen p id as v a => some (.futThen p id as v (.usr a))
  | .async id as v a => some (.async id as v (.usr a))
  | .package _ _ => none
  | .runTask _ _ => none
  | .dropTask _ _ => none

def liftP : PAct α φ → SAct (PTask α) (PFrame α φ)
  | .goto f => .goto (.usr f)
  | .push f k => .push (.usr f) (.usr k)
  | .core a k => .core (mapP a) (.usr k)
  | .sync a k =>
    match mapS a with
    | some a => .sync a (.usr k)
    | none => .terminate
  | .pool a k => .push a.entry (.usr k)
  | .ret v => .ret v
  | .throw e => .throw e
  | .terminate => .terminate

/-- `guard_` of pool `i`. -/
def gd (i : Nat) : Nat := 2 * i + 1

def PData.upd (d : PData α δ) (i : Nat) (x : Imp α) : PData α δ := { d with imp := set d.imp i x }
def PData.ev (d : PData α δ) (e : PEv α) : PData α δ := { d with plog := e :: d.plog }

/-- `impl_->` of the object at `h`. -/
def PData.deref (d : PData α δ) (h : Nat) : Option Nat := (d.obj h).bind (·.impl)

/-- `impl_->f(…)`, where `f` begins with a lock_guard for guard_: :84, 98, 120, 140, 149, 165, 183 -/
def enter (d : PData α δ) (h : Nat) (k : Nat → PFrame α φ) : PData α δ × SAct (PTask α) (PFrame α φ) :=
  match d.deref h with
  | some i => (d, .sync (.lock (gd i)) (k i))
  | none => (d, .terminate)

def findJob (l : List (Job α)) (id : Nat) : Option (Job α) := l.find? (fun j => j.id = id)

def erase (l : List (Job α)) (id : Nat) : List (Job α) := l.filter (fun j => j.id ≠ id)

def modJob (l : List (Job α)) (id : Nat) (f : Job α → Job α) : List (Job α) := l.map (fun j => if j.id = id then f j else j)

/-- The workers that `notify_workers` notifies for a handle of this level, :196-204, each with a fresh number. -/
def mkToks (i lvl : Nat) : Nat → List Wk → List Tok
  | _, [] => []
  | n, x :: l => if x.lvl ≤ lvl then ⟨n, i, x.lvl, x.id⟩ :: mkToks i lvl (n + 1) l else mkToks i lvl n l

/-- `add_job_handle` up to the loop, :190, 196 -/
def addHandle (d : PData α δ) (i : Nat) (h : Hd) (K : AK') : PData α δ × SAct (PTask α) (PFrame α φ) :=
  let l := mkToks i h.g.lvl d.ntok (d.imp i).wk
  ({ d.upd i { d.imp i with q := (d.imp i).q ++ [h] } with ntok := d.ntok + l.length, opn := d.opn ++ l }, .goto (.nw i l none K))

/-- The handles that a worker of level `L` looks at, :219-232 -/
def elig (L : Nat) (q : List Hd) : List Hd := q.filter (fun h => L ≤ h.g.lvl)

/-- Position `k` holds a handle that can be the top of the highest non-empty queue of level `L` or above, :215-234, 254, 29-32 -/
def isTop (L : Nat) (q : List Hd) (k : Nat) : Bool :=
  match q[k]? with
  | none => false
  | some h => decide (L ≤ h.g.lvl) && q.all fun x => decide (L ≤ x.g.lvl → x.g.lvl < h.g.lvl ∨ x.g.lvl = h.g.lvl ∧ x.g.prio ≤ h.g.prio)

/-- Ghost: the wait for a state is over. -/
def waitEv (v : View) (d : PData α δ) (i k : Nat) : List Nat → PData α δ
  | [] => d
  | p :: _ => d.ev (.waited v.tid i k p v.exit v.reg)

/-- Ghost: notification `n` is served. -/
def PData.close (d : PData α δ) (x : Tok) : PData α δ := { d with opn := d.opn.erase x }

/-- :248-270 of a worker of level `L`, thread `t`, with the top of the queue at position `k` (none: the queue is empty). -/
def pick (t : Nat) (d : PData α δ) (i L : Nat) : Option Nat → Option (PData α δ × Nat × Option (Call α))
  | none => if elig L (d.imp i).q = [] then some (d.ev (.idle t i L), 0, none) else none
  | some k =>
    if isTop L (d.imp i).q k then
      match (d.imp i).q[k]? with
      | none => none
      | some h =>
        let q := (d.imp i).q.eraseIdx k
        match findJob (d.imp i).jobs h.id with
        | none => some ((d.upd i { d.imp i with q := q }).ev (.skipped t i L h), 0, none)
        | some j =>
          if L ≤ j.g.lvl then
            match j.call with
            | none => some ((d.upd i { d.imp i with q := q }).ev (.skipped t i L h), j.id, none)
            | some c =>
              some ((d.upd i { d.imp i with q := q, jobs := modJob (d.imp i).jobs h.id fun j => { j with call := none } }).ev
                (.took t i L j.id c h), j.id, some c)
          else some ((d.upd i { d.imp i with q := q }).ev (.skipped t i L h), 0, none)
    else none

/-- Ghost events for a cleared map. -/
def dropEvs (t i : Nat) : List (Job α) → List (PEv α)
  | [] => []
  | j :: l => (match j.call with | some c => PEv.discarded t i j.id c | none => PEv.forgot t i j.id) :: dropEvs t i l

/-- Ghost: a move assignment between these objects. -/
def mixed (f : Nat → Bool) (o o' : PObj) : Nat → Bool := fun n => f n || o.sen = some n || o'.sen = some n

/-- What the destruction of an impl returns to. -/
def endDtor (d : PData α δ) : DK → PData α δ × SAct (PTask α) (PFrame α φ)
  | .del h => ({ d with obj := set d.obj h none }, .ret .unit)
  | .asg h h' =>
    -- sentinel_ = std::move(other.sentinel_): the old sentinel of h expires
    match d.obj h, d.obj h' with
    | some o, some o' =>
      ({ d with
          live := match o.sen with | some n => set d.live n false | none => d.live
          obj := set (set d.obj h (some { o with sen := o'.sen })) h' (some { o' with sen := none })
          mix := mixed d.mix o o' }, .ret .unit)
    | _, _ => (d, .terminate)

/-- The code of the pool, apart from :248-270. -/
def pstep (v : View) (d : PData α δ) (rv : Val) : PFrame α φ → PData α δ × SAct (PTask α) (PFrame α φ)
  | .usr _ => (d, .terminate)
  | .newIn h ws =>
    if (d.obj h).isSome then (d, .terminate)
    else ({ d.upd d.nimp {} with nimp := d.nimp + 1 }, .goto (.newW d.nimp h ws))
  | .newW i h [] =>
    ({ d.ev (.made v.tid i) with obj := set d.obj h (some ⟨some i, some d.nsen⟩), live := set d.live d.nsen true, nsen := d.nsen + 1, sim := set d.sim d.nsen i }, .ret .unit)
  | .newW i h ((l, n) :: ws) => (d, .core (.spawn n .wkIn) (.newReg i h l n ws))
  | .newReg i h l n ws => (d, .core (.registerNative n) (.newId i h l n ws))
  | .newId i h l n ws =>
    match rv with
    | .nat id => ((d.upd i { d.imp i with wk := (d.imp i).wk ++ [⟨l, n, id⟩] }).ev (.worker v.tid i l n id), .goto (.newW i h ws))
    | _ => (d, .terminate)
  | .wkIn => (d, .core .registerThis .wkLoop)
  | .wkLoop => (d, if v.exit then .core .unregisterThis .wkEnd else .core .wait .wkLoop)
  | .wkEnd => (d, .ret .unit)
  | .scIn h g b a => ({ d with ntag := d.ntag + 1 }, .sync (.package d.ntag b) (.scTask d.ntag b h g a))
  | .scTask k _ h g a =>
    match rv, d.deref h with
    | .nat u, some i =>
      ({ d.ev (.packed k u) with ntag := d.ntag + 1 }, .sync (.package d.ntag true) (.scJob d.ntag i h g u a))
    | _, _ => (d, .terminate)
  | .scJob k i h g u a =>
    match rv with
    | .nat p => (d.ev (.packed k p), .sync (.lock (gd i)) (.ajIn i h g ⟨p, u, a⟩))
    | _ => (d, .terminate)
  | .ajIn i h g c =>
    let id := (d.imp i).free
    let d' := d.upd i { d.imp i with free := id + 1, jobs := (d.imp i).jobs ++ [⟨id, g, some c, c.p, c.u⟩] }
    addHandle (d'.ev (.sched v.tid i id c g)) i ⟨id, g⟩ (.sched h c.u id)
  | .nw i [] _ K => (d, .sync (.unlock (gd i)) (.nwFin i K))
  | .nw i (x :: l) _ K => (d, .core (.dispatch x.w (.check x)) (.nw i l (some x) K))
  | .nwFin i K =>
    match K with
    | .chg => (d, .ret .unit)
    | .sched h u id =>
      match d.obj h with
      | some o => (d.ev (.returned v.tid i id u), .ret (.ids [u, id, match o.sen with | some n => n + 1 | none => 0]))
      | none => (d, .terminate)
  | .nwThr i e => (d.ev (.aborted i), .sync (.unlock (gd i)) (.thr e))
  | .clThr i e => (d, .sync (.unlock (gd i)) (.thr e))
  | .thr e => (d, .throw e)
  | .cpIn h id g => enter d h (.cpBody · id g)
  | .cpBody i id g =>
    match findJob (d.imp i).jobs id with
    | none => (d, .goto (.unl i .unit))
    | some j =>
      if j.call.isNone ∨ j.g = g then (d, .goto (.unl i .unit))
      else
        let d' := d.upd i { d.imp i with jobs := modJob (d.imp i).jobs id fun j => { j with g := g } }
        addHandle (d'.ev (.changed v.tid i id g)) i ⟨j.id, g⟩ .chg
  | .unl i v => (d, .sync (.unlock (gd i)) (.done v))
  | .done v => (d, .ret v)
  | .stIn h id => enter d h (.clIn · id .stop)
  | .clIn i id K =>
    match K, findJob (d.imp i).jobs id with
    | .stop, none => (d.ev (.noStop v.tid i id), .goto (.clUnl i none K))
    | .stop, some j =>
      match j.call with
      | none => (d.ev (.noStop v.tid i id), .goto (.clUnl i none K))
      | some c =>
        ((d.upd i { d.imp i with jobs := erase (d.imp i).jobs id }).ev (.stopped v.tid i id c),
          .sync (.dropTask c.p (.inner c.u c.a)) (.clUnl i (some c) K))
    | .job c, none => (d.ev (.done v.tid i id c), .goto (.clUnl i none K))
    | .job c, some j =>
      ((d.upd i { d.imp i with jobs := erase (d.imp i).jobs id }).ev (.done v.tid i id c),
        match j.call with
        | none => .goto (.clUnl i none K)
        | some c => .sync (.dropTask c.p (.inner c.u c.a)) (.clUnl i (some c) K))
  | .clUnl i _ K => (d, .sync (.unlock (gd i)) (.clFin K))
  | .clFin K =>
    match K with
    | .stop => (d, .ret .unit)
    | .job c => (d, .sync (.dropTask c.p (.inner c.u c.a)) (.done .unit))
  | .saIn h => enter d h (.caIn · .user)
  | .caIn i K =>
    ({ d.upd i { d.imp i with jobs := [] } with plog := dropEvs v.tid i (d.imp i).jobs ++ d.plog },
      .goto (.caLoop i none ((d.imp i).jobs.filterMap (·.call)) K))
  | .caLoop i _ (c :: l) K => (d, .sync (.dropTask c.p (.inner c.u c.a)) (.caLoop i (some c) l K))
  | .caLoop i _ [] K => (d.upd i { d.imp i with q := [] }, .sync (.unlock (gd i)) (.caFin i K))
  | .caFin i K =>
    match K with
    | .user => (d, .ret .unit)
    | .dtor k => (d, .sync (.lock (gd i)) (.diIn i k))
    | .mem k => (d, .goto (.diEnd k))
  | .delIn h =>
    match d.obj h with
    | none => (d, .terminate)
    | some o =>
      let d' := { d with
        live := match o.sen with | some n => set d.live n false | none => d.live
        obj := set d.obj h (some { o with sen := none }) }
      match o.impl with
      | none => (d', .goto (.diEnd (.del h)))
      | some i =>
        if d.dying i then (d, .terminate)
        else ({ d' with dying := set d.dying i true, plog := .dies v.tid i :: d.plog }, .sync (.lock (gd i)) (.caIn i (.dtor (.del h))))
  | .diIn i K => ((d.upd i { d.imp i with wk := [] }).ev (.parted v.tid i), .sync (.unlock (gd i)) (.diJoin i (d.imp i).wk K))
  | .diJoin i [] K => (d, .sync (.lock (gd i)) (.caIn i (.mem K)))
  | .diJoin i (x :: ws) K => (d, .core (.notifyExit x.id) (.diStd i x ws K))
  | .diStd i x ws K => (d, if x.n = v.tid then .terminate else .core (.join x.n) (.diJoin i ws K))
  | .diEnd K => endDtor d K
  | .mvIn h h' =>
    match d.obj h, d.obj h' with
    | none, some o => ({ d with obj := set (set d.obj h (some o)) h' (some ⟨none, none⟩) }, .ret .unit)
    | _, _ => (d, .terminate)
  | .maIn h h' =>
    if h = h' then (d, .ret .unit)
    else
      match d.obj h, d.obj h' with
      | some o, some o' =>
        let d' := { d with obj := set (set d.obj h (some { o with impl := o'.impl })) h' (some { o' with impl := none }), mix := mixed d.mix o o' }
        match o.impl with
        | none => (d', .goto (.diEnd (.asg h h')))
        | some i =>
          if d.dying i then (d, .terminate)
          else ({ d' with dying := set d.dying i true, plog := .dies v.tid i :: d.plog }, .sync (.lock (gd i)) (.caIn i (.dtor (.asg h h'))))
      | _, _ => (d, .terminate)
  | .wtIn h id => enter d h (.wtBody · id)
  | .wtBody i id =>
    match findJob (d.imp i).jobs id with
    | none => (d.ev (.waits v.tid i id none), .sync (.unlock (gd i)) (.wtGo i d.plog.length [] []))
    | some j => (d.ev (.waits v.tid i id (some j.fut)), .sync (.unlock (gd i)) (.wtGo i d.plog.length [] [j.fut]))
  | .wtGo i k dn [] => ((waitEv v d i k dn).ev (.waitRet v.tid i k dn.reverse), .ret .unit)
  | .wtGo i k dn (p :: l) => (waitEv v d i k dn, .sync (.futWait (some p)) (.wtGo i k (p :: dn) l))
  | .waIn h => enter d h .waBody
  | .waBody i =>
    (d.ev (.waitsAll v.tid i ((d.imp i).jobs.map fun j => (j.id, j.fut))),
      .sync (.unlock (gd i)) (.wtGo i d.plog.length [] ((d.imp i).jobs.map (·.fut))))
  | .cnIn h => enter d h .cnBody
  | .cnBody i => (d.ev (.counted v.tid i (d.imp i).jobs.length), .goto (.unl i (.nat (d.imp i).jobs.length)))
  | .jsIn f =>
    match f.sen with
    | none => (d.ev (.expired v.tid f.id), .ret .unit)
    | some n =>
      if d.live n then
        match f.owner with
        | none => (d, .ret .unit)
        | some h => (d, .goto (.stIn h f.id))
      else (d.ev (.expired v.tid f.id), .ret .unit)
  | .jcIn f g =>
    match f.sen with
    | none => (d.ev (.expired v.tid f.id), .ret .unit)
    | some n =>
      if d.live n then
        match f.owner with
        | none => (d, .ret .unit)
        | some h => (d, .goto (.cpIn h f.id g))
      else (d.ev (.expired v.tid f.id), .ret .unit)
  | .ckIn x =>
    if v.exit then ((d.close x).ev (.exits v.tid x), .ret .unit)
    else (d, .sync (.lock (gd x.i)) (.ckBody x))
  | .ckBody _ => (d, .terminate)
  | .ckUnl x id c => (d, .sync (.unlock (gd x.i)) (.ckGo x id c))
  | .ckGo x id c =>
    match c with
    | none => (d, .ret .unit)
    | some c => (d, .sync (.runTask c.p (.inner c.u c.a)) (.ckRan x id c))
  | .ckRan x id c => (d, .sync (.lock (gd x.i)) (.clIn x.i id (.job c)))
  | .inRun p a => (d, .sync (.runTask p (.usr a)) (.rtEnd p a))
  | .inDtor p a => (d, .sync (.dropTask p (.usr a)) (.dtEnd p a))
  | .rtEnd _ _ => (d, .ret .unit)
  | .dtEnd _ _ => (d, .ret .unit)
  | .ckDtor => (d, .ret .unit)

/-- Unwinding of the lock_guards. -/
def pthrow : PFrame α φ → Exn → Option (PFrame α φ)
  | .nw i _ _ _, e => some (.nwThr i e)
  | .clUnl i _ _, e => some (.clThr i e)
  | .caLoop i _ _ _, e => some (.clThr i e)
  | _, _ => none

/-- Choices: those of the user code, and the position of the top of a priority queue. -/
abbrev PCh (χ : Type) := χ ⊕ Nat

/-- The choice that user code sees. -/
def usrCh : Ch (PCh χ) → Option (Ch χ)
  | .go => some .go
  | .timeout => some .timeout
  | .spurious => some .spurious
  | .user (.inl c) => some (.user c)
  | .user (.inr _) => none

/-- Where the scheduler says the top of the queue is. -/
def topCh : Ch (PCh χ) → Option (Option Nat)
  | .go => some none
  | .user (.inr k) => some (some k)
  | _ => none

/-- The pool plus user code is an application of the synchronisation layer. -/
def poolApp (U : PApp α φ δ χ) : App (PTask α) (PFrame α φ) (PData α δ) (PCh χ) where
  run
    | .usr a => .usr (U.run a)
    | .inner p a => .inRun p a
    | .check x => .ckIn x
  destroy
    | .usr a => .usr (U.destroy a)
    | .inner p a => .inDtor p a
    | .check _ => .ckDtor
  step v d f rv ch :=
    match f with
    | .usr g =>
      match usrCh ch with
      | none => none
      | some ch =>
        match U.step v d.u g rv ch with
        | none => none
        | some (u, a) => some ({ d with u := u }, liftP a)
    | .ckBody x =>
      match topCh ch with
      | none => none
      | some k =>
        match pick v.tid d x.i x.L k with
        | none => none
        | some (d', id, c) => some (d'.close x, .goto (.ckUnl x id c))
    | f =>
      match ch with
      | .go => some (pstep v d rv f)
      | _ => none
  onThrow f e :=
    match f with
    | .usr g => (U.onThrow g e).map .usr
    | f => pthrow f e

abbrev PSt (α φ δ : Type) := SSt (PTask α) (PFrame α φ) (PData α δ)

/-- States reachable with user code `U`. -/
abbrev PR (U : PApp α φ δ χ) (u : δ) (f : φ) (s : PSt α φ δ) : Prop := SR (poolApp U) { u := u } (.usr f) s

end
end Pool
end Itc
