# Formal model of volcoma/itc (threadpp) in Lean 4

All code is in `lean/Verif`; `lake build` in `lean` checks everything. Properties are in `properties.jsonl`, the map from properties to
theorems in `MANIFEST.json`, the experiments with wrong programs in `seeded/LOG.jsonl`.

## 1. Shape of the model

A program is a stack of small-step machines with explicit control states (one constructor per program point; its comment gives the
code the next step executes). Each layer is *parametric in the code above it*, so a theorem about a layer holds for every program that uses
the layer: every number of threads, every sequence of calls, every schedule, every functor, every value.

| layer | files | models | parameter |
|---|---|---|---|
| Core | `Verif/Core` | `thread.h`, `thread.cpp`: registry, task queues, `invoke`, `dispatch`, `wait`, `wait_for`, `process`, `process_for`, `sleep_for`, `notify_for_exit`, `init`, `shutdown`, native threads | `Client`: all code above |
| Sync | `Verif/Sync` | `detail/semaphore`, `condition_variable.hpp`, `mutex.hpp`, `future.hpp`, `detail/future_state.hpp`: a Core client | `App`: all code above |
| When | `Verif/When` | `when_all`, `when_any` of `when_all_any.hpp`: a Sync app | `WApp`: user code |
| Pool | `Verif/Pool` | `thread_pool.h`, `thread_pool.cpp`: a Sync app | `PApp`: user code |
| Det | `Verif/Det` | `async` and `then` of `future.hpp` without a thread id: a Sync app | `DApp`: user code |
| Abs | `Verif/Abs` | the functions that take a time point (`wait_until`, `sleep_until`): a Sync app | `UApp`: user code |
| Cap | `Verif/Cap` | packaged tasks and what they capture (`move_on_copy_t`, `package_simple_task`, moves and copies of `std::function`); on its own, sequential | any sequence of operations |
| Fut | `Verif/Fut` | objects of the classes `future` and `shared_future` of `future.hpp`: a Sync app | `FApp`: user code |
| Obj | `Verif/Obj` | class `tpp::thread` (objects, moves, join, destructor): a Core client | user code |
| Visit | `Verif/Visit` | `visit_at`: a pure function | visitor |
| Props | `Verif/Props` | the theorems named in the manifest, each with a witness that its hypotheses are satisfiable | |

*Step.* One step is one critical section of a `std::mutex` that contains no foreign code, or one atomic access, or one control transfer. The label
of a step picks the thread and resolves non-determinism (what user code does, which of several equal elements a heap returns, a spurious
wake-up); `tick n` advances the clock. A step that is not enabled (a blocked lock, a parked thread) is simply not possible. `std::terminate`
(`term`) and undefined behaviour by use of a freed context (`ub`) are outcomes of their own.

*User code.* Client / app code is a function `step` from a view of its thread, its own data, its control state and the value returned by the last
call to an action: continue, call an own function, call the library, return, throw, terminate. It has unrestricted own data shared between its
threads and unrestricted choice, so any C++ program that respects the language rules is an instance at this granularity.

*Log.* Every observable effect is recorded in an append-only log (newest first) in the state: `log` (Core), `slog` (Sync), `wlog` (When), `plog` (Pool),
`olog` (Obj), `dlog` (Det), `flog` (Fut). The logs are ghost state: no step reads them. Properties about the past ("accepted before", "was set with") are stated
with the log. Other ghost components are marked `ghost` where they are declared (e.g. `made`, `done`, `freed` of a when context, `req`, `owner`,
`home` in frames); erasing them changes no step.

*Proof method.* `Reach C d f s` is reachability from the initial state by any list of labels. A property is proved by an invariant over all reachable
states (induction over the list of steps), by inversion of the step relation, or both. No bound on anything is used. The main
invariants: `WF`, `LInv`, `QInv` (Core: registry, queue conservation `accepted = started ++ dropped ++ pending`), `Eff`/`Post`/`Calls`
(who caused an event; what a call returned), `Frag` (calls and returns as a bracket structure); in Sync `SSt` typing of stacks, `Lin`
(each promise / packaged task has one owner), `Sem`, `Nest` (waiters), `Deliver`/`Out`/`Place` (outcomes and places of functors), `ALock`
(ownership of the mutexes); in Pool counting of notifications against handles (`Inv`, `Idle`, `Quiet`).

*Liveness.* C59 to C67 and C72 to C85 are about infinite executions (`Run`). Their assumptions: `Run.Just t`, weak fairness (a thread that can make a step from some
moment on makes one); `Run.Returns`, the code that the loop calls returns without an exception (user code may loop forever, then nothing can be promised);
for C60 that `init` / `shutdown` do not hold the global mutex; for C61 `Run.Strong`, strong fairness (a thread that can make a step again and again
makes one; needed because other threads may take the guard of the state), and that again and again no other thread holds the guard of the state; for C62, C63 and C75 `Run.Time`, the clock grows
without bound; for C63 and C75 also strong fairness, `Frees` (others do not hold the lock for ever while the thread waits for it) and `Leaves` (tasks do not keep it); for C64 and C65
the same for the notifier and the waiter, and that the global mutex is not held for ever; for C66 also that continuations executed in place return; for C67 that from some moment on no job is added to the pool; for C72
that no task executed in the loop unregisters the thread, and that the destructors of the tasks left in the queue return; for C73 also that no other thread joins a worker; for C74 that time passes and the log callback returns; for C76 what C61 and C67 assume; for C77 that nobody holds the mutex of the pool for ever; for C78 what C67 and C77 assume; for C79 that the global mutex is not held for ever; for C80 (process) that the thread is sent finitely many tasks or told to exit; for C81 to C83 what C66 assumes; C84 and C85 need only weak fairness. They are hypotheses
of the theorems, not part of the model; examples beside the theorems give executions that meet them.

*False claims.* 22 of the properties are false of the code as written. For each there is (a) a machine-checked execution of the model in which the
claim fails (usually named `…_counterexample`, `…_lost`, `…_deadlock`, …), and (b) the strongest true statement found (`…_partial` if it is a
weakening of the claim). The executions are evaluated by the kernel (`decide +kernel`); a single execution is a proof of an existential statement,
so this is not a bounded check of a universal one.

## 2. Trusted base

* The Lean 4.33.0 kernel. The theorems depend on no axioms other than `propext`, `Classical.choice`, `Quot.sound`. There is no `sorry`, no own
  `axiom`, no `native_decide`, no `bv_decide`. A few list modules of Mathlib are imported (`Mathlib.Data.List.…`).
* The claim that the model describes the code. Each definition cites the lines it models. What is left out follows.

### 2.1 Modelled, file by file

| file | modelled | not modelled |
|---|---|---|
| `thread.h` / `thread.cpp` | registration (three ways), unregistration, id map, exit flags, `invoke`/`dispatch`/`invoke_packaged_task`, `process_one` with depth counter and its exception path, `wait` / `wait_for` with flag, signal, spurious wake-up, `process(_for)`, `sleep_for`, `wait_until` / `sleep_until` (layer Abs), `get_pending_task_count`, `get_all_registered_threads`, `notify_for_exit`, `init`/`shutdown` with counter modulo 2^64 and callbacks, `main_thread::get_id`, `thread` objects (in Obj), contexts and their lifetime by reference count | names, capacities (`set_thread_config`, `reserve`, `shrink_to_fit`), log text, `get_pending_task_count_detailed` (same loop, other result shape) |
| `make_thread` | as user code: the loop is `registerThis; while (!exit) wait; unregisterThis` | `on_thread_start` other than as arbitrary client code |
| `detail/semaphore` | `wait`, `wait_for`, `notify_one`, `notify_all`, list of waiters, `before_wait` / `after_wait` | `wait_until` (no caller) |
| `condition_variable.hpp` | all (`wait_until` in layer Abs) | |
| `mutex.hpp` | `lock`, `try_lock`, `unlock` | |
| `future.hpp`, `future_state.hpp` | `promise` (construction, move, assignment, destruction, `set_value`, `set_exception`, `get_future`), `future` / `shared_future` `wait`, `wait_for`, `wait_until` (layer Abs), `get`, `is_ready`, `has_error`, `then`, `async`, `package_future_task`, `launch`, `make_ready_future`; `async` / `then` without a thread id (layer Det); objects of type `future` / `shared_future` with construction, moves, copies, assignment, `share`, `valid`, destruction and all operations on them (layer Fut; in the other layers a future is the name of its state or `none`) | types of values (one type `Val`), allocation failure |
| `when_all_any.hpp` | `when_all`, `when_any`, each for an iterator range and for a list of arguments; `visit_at` | the types of the inputs (a tuple is a list of states, with an empty place for an input not yet stored) |
| `thread_pool.*` | everything except names, configuration and reserved capacities | |
| `detail/utility/*` | `capture.hpp`, `apply.hpp` (layer Cap) | `invoke.hpp` (call syntax only), `std::reference_wrapper` arguments (thread.h:279 does not compile for them) |

### 2.2 Simplifications

General
* Memory is sequentially consistent (the code uses default memory orders). Data races are not detected as such. Two known ones are outside the model:
  the log functions read the global `config` without its lock while `init` may write it; in `when_all` / `when_any` called by an
  unregistered thread (id 0) continuations run in place on other threads and may touch the vectors while the caller still appends to them.
* `tasks_mutex` and `semaphore::mutex_` are held only inside code without foreign calls; their critical sections are single steps.
* Time is a natural number of nanoseconds; durations are integers. There is no overflow of time points.
* Allocation does not fail, thread creation does not fail.

Core
* Reads of the thread's own context inside destructors that `~thread_context` runs are not flagged as `ub`; all other uses of the own context are
  covered by `C19_own_context_alive`.
* Log callbacks called without a lock are not modelled unless they are client code of `init` / `shutdown`, which call them under the global mutex.

Sync
* Shared states are never destroyed (observable only for a promise lost by move assignment while a continuation was attached).
* Names that application code passes are checked; an invalid one ends the model (`terminate`): the corresponding C++ program has no defined
  behaviour.
* `std::launch` is one Boolean: exactly `std::launch::async` or not (future.hpp:661).
* The memory of promise objects is named by the application (`promNew q`); constructing over a live one ends the model.
* `future_state<void>::get_value_assuming_ready` reads `exception` without the guard; the model reads it in the step that follows the wait.
* A waiter of a thread that is no longer registered stays in the list ("stale"); the model keeps it, as the code does.

When
* A context is one record with a reference count; the vector is not emptied by `std::move(result)` (every later `set_value` is refused before it
  looks at its argument).

Pool
* `jobs_` is a list in order of insertion instead of an `unordered_map`; `job_priority_queues_` is one list of handles; `top` returns any
  handle of greatest priority (scheduler's choice), so the theorems hold for every heap order.
* Impl records are kept after destruction; use of a destroyed or null impl is undefined behaviour and ends the model. So does destroying a pool
  that is being destroyed.
* The destruction of the members of an impl (implicit, after `~impl`, thread_pool.cpp:68-80) is modelled as the destruction of what is left in
  `jobs_`, job by job, like `clear_all`; the model locks `guard_` for the removal, the code does not.

Fut
* An operation on an object is one step, so data races on an object are outside the model; what C++ forbids at compile time (copying a `future`, making a
  `future` of a `shared_future`) and the use of objects that do not exist end the model. Value types are not tracked.
* `get` waits, moves `state_` out and then calls `get` of the layer below, whose wait finds what the first wait found. If the object was given another
  state during the wait the model stops (event `other`).
* The parameter of a continuation is one object; the code makes `self` and, for a parameter by value, a second object moved from it.

Cap
* The function is the first argument; a variable is not passed twice if it is passed as an rvalue; a call is one step that leaves arbitrary values in the captured
  objects. In the other layers a functor is a value of type `α`: it is what it was when the task was made (this is C70).

Obj
* Thread objects are not thread-safe: an operation on an object that is in use ends the model.

## 3. Properties

| | property | status | modelled in | proof |
|---|---|---|---|---|
| C01 | Thread ids are unique and never invalid | proved | Core, registration | invariant over registry, id map and generator (`WF`, `LInv`) |
| C02 | Registering is idempotent and both sides agree | proved | Core, registration | invariant over registry, id map and generator (`WF`, `LInv`) |
| C03 | The registry lists exactly the registered threads | proved | Core, registration | invariant over registry, id map and generator (`WF`, `LInv`) |
| C04 | invoke to an invalid or unknown thread is refused without effect | proved | Core, `invoke` | step inversion and log |
| C05 | Tasks run in the order they were accepted, at most once | proved | Core, queues | conservation `accepted = started ++ dropped ++ pending`, order and thread of events (`QInv`) |
| C06 | An accepted task is never lost while its thread is registered | proved | Core, queues | conservation `accepted = started ++ dropped ++ pending`, order and thread of events (`QInv`) |
| C07 | A task runs only on the thread it was sent to | proved | Core, queues | conservation `accepted = started ++ dropped ++ pending`, order and thread of events (`QInv`) |
| C08 | No lost wake-up in this_thread::wait / wait_for | proved | Core, `wait` | invariant for parked threads (flag, signal); progress lemma |
| C09 | Pending task count is exact | partial | Core, depth | depth = number of tasks on the stack unless a task threw (`Own`) |
| C10 | Nesting depth is exact | partial | Core, depth | depth = number of tasks on the stack unless a task threw (`Own`) |
| C11 | dispatch runs inline on the own thread and queues otherwise | proved | Core, `dispatch` | step inversion, call brackets |
| C12 | process drains the queue | proved | Core, `process`, `wait` | call brackets (`Frag`, `Calls`) |
| C13 | wait returns only for a reason and runs at most one task | proved | Core, `process`, `wait` | call brackets (`Frag`, `Calls`) |
| C14 | Tasks are executed and destroyed with no library lock held | partial | Core, locks | owner of the global mutex is inside init/shutdown |
| C15 | Exit notification is sticky | proved | Core, exit flag | monotone in the log; blocking points test it |
| C16 | shutdown reports the truth | proved | Core, `init`/`shutdown` | call brackets; counter against log, modulo 2^64 |
| C17 | init/shutdown nesting is counted | partial | Core, `init`/`shutdown` | call brackets; counter against log, modulo 2^64 |
| C18 | A finished thread leaves no registration behind | partial | Core, contexts | history of the native thread; reference counts (`Free`) |
| C19 | Contexts are not used after they are freed | partial | Core, contexts | history of the native thread; reference counts (`Free`) |
| C20 | sleep_for returns early only on exit | proved | Core, time | deadlines in frames against the clock |
| C21 | wait_for reports timeout only when time is up | proved | Core, time | deadlines in frames against the clock |
| C22 | notify_all wakes every waiter | partial | Sync, semaphore | waiter list against parked frames (`Sem`, `Nest`) |
| C23 | notify_one wakes the oldest waiter and only that one | partial | Sync, semaphore | waiter list against parked frames (`Sem`, `Nest`) |
| C24 | condition_variable::wait returns with the lock held | proved | Sync, semaphore | waiter list against parked frames (`Sem`, `Nest`) |
| C25 | condition_variable does not lose notifications | partial | Sync, semaphore | waiter list against parked frames (`Sem`, `Nest`) |
| C26 | mutex gives mutual exclusion | partial | Sync, mutex | owner field against the flag; waiters |
| C27 | mutex reports misuse | partial | Sync, mutex | owner field against the flag; waiters |
| C28 | mutex does not lose a wake-up | partial | Sync, mutex | owner field against the flag; waiters |
| C29 | A promise is satisfied at most once | proved | Sync, shared state | state is frozen once ready (`Set`, `Out`); waiters as for C22 |
| C30 | get returns what was set | partial | Sync, shared state | state is frozen once ready (`Set`, `Out`); waiters as for C22 |
| C31 | future::wait returns only when ready or exiting | partial | Sync, shared state | state is frozen once ready (`Set`, `Out`); waiters as for C22 |
| C32 | No waiter sleeps through a ready future | partial | Sync, shared state | state is frozen once ready (`Set`, `Out`); waiters as for C22 |
| C33 | Each continuation is launched exactly once, after readiness | proved | Sync, continuations | list of continuations against log (`Cont`, `Place`) |
| C34 | Continuations and async tasks run on the requested thread | proved | Sync, continuations | list of continuations against log (`Cont`, `Place`) |
| C35 | Destroying an unfulfilled promise breaks it | partial | Sync, promises, packaged tasks | one owner per promise (`Lin`), outcome travels with it (`Deliver`, `Out`) |
| C36 | get_future succeeds exactly once | proved | Sync, promises, packaged tasks | one owner per promise (`Lin`), outcome travels with it (`Deliver`, `Out`) |
| C37 | async delivers the function's outcome | proved | Sync, promises, packaged tasks | one owner per promise (`Lin`), outcome travels with it (`Deliver`, `Out`) |
| C38 | when_all completes exactly when all inputs are ready | proved | When | invariant over context, lambdas in flight and log (`Inv`) |
| C39 | when_any completes once with a ready input | proved | When | invariant over context, lambdas in flight and log (`Inv`) |
| C40 | A continuation of when_any may use itc freely | partial | When | invariant over context, lambdas in flight and log (`Inv`) |
| C41 | visit_at visits exactly the indexed element | proved | Visit | induction on the tuple |
| C42 | A pool job runs at most once | proved | Pool | life of a callable (`Jobs`, `Once`, `Cut`) |
| C43 | No pool job is forgotten | proved | Pool | notifications in flight are at least the handles not yet popped (`Idle`, `Quiet`) |
| C44 | Workers take the best eligible job | proved | Pool, queues | step inversion plus workers invariant (`Work`) |
| C45 | change_priority takes effect | partial | Pool, queues | step inversion plus workers invariant (`Work`) |
| C46 | stop prevents a pending job from running | proved | Pool | life of a callable (`Jobs`, `Once`, `Cut`) |
| C47 | pool wait returns only when the job is over | partial | Pool, `wait` | future of a job is ready only when it is over (`Over`, `Pkg`) |
| C48 | Jobs may use the pool | partial | Pool, `guard_` | owner is inside a pool function (`Sec`, `Hold`) |
| C49 | Job ids are unique and the count is exact | partial | Pool, ids | generator against log; jobs_ against history (`Hist`) |
| C50 | job_future operations are safe over the pool's lifetime | partial | Pool, handles | case analysis over addresses and impls |
| C51 | thread objects always join | proved | Obj | ownership of native threads (`Own`, `Pair`) |
| C52 | process_for stops in time and not early | proved | Core, time | deadlines in frames against the clock |
| C53 | async and then without a thread id run the function on a thread of its own | proved | Det | frames that wait for a call know its caller and its result (Core/Called, Core/Stay); placement from C34 |
| C54 | ~thread_pool ends the workers and every job | proved | Pool | phases of the call up to its return (`DPh`); a context whose thread was told to exit takes no job (Core/Gone) |
| C55 | A future is the only reference to its shared state | proved | Fut | counting of references: objects, functors of continuations and spent references against references given out (`refs`, from Sync/ALin, Sync/AHand) |
| C56 | future::get moves a value out at most once | proved | Fut | `refs`; the wait and the get of the layer below as calls (Sync/AFut, C30, C31) |
| C57 | Operations on a future without state throw no_state | proved | Fut | phases of the call up to its end (`NullAt`) |
| C58 | A continuation gets the future it was attached to | proved | Fut | typing of functors and frames (`Inv`, Sync/ATy) |
| C59 | Tasks sent to a thread that executes its loop are eventually started | proved | Core | infinite executions; rounds of the loop (Core/Live), no lost wakeup (C17), order of tasks (C02) |
| C60 | The future of a function sent with async to a thread that executes its loop becomes ready | proved | Sync | C59 for packaged tasks; each packaged task is in one place until it is destroyed (Sync/Lin, Sync/Live); destroyed ones have made their future ready (C37) |
| C61 | future::wait and get return once the future is ready | proved | Sync | infinite executions; the places of a wait with a bound on what is left once the future is ready (Props/LiveWait); waiters of a ready future are signalled when its guard is free (Sync/Took); wake-ups are delivered (C32) |
| C62 | wait_for, sleep_for and process_for return | proved | Core | infinite executions; a blocked thread with a limit leaves when the clock has passed it (weak fairness; while it is blocked its condition variable is notified only together with the flag, Core/Timed); induction on the time left |
| C63 | condition_variable::wait_for and future::wait_for return | proved | Sync | infinite executions; the round of semaphore::wait_for takes time when it does not end (C62 for the thread::wait_for inside); induction on the time left; a signalled waiter of a future finds it ready, so the loop of future::wait_for is executed at most twice (Props/LiveTimedSync) |
| C64 | notify_one, notify_all and mutex::unlock return | proved | Sync | infinite executions; the notifier works on a list of its own, each entry takes finitely many steps (Props/LiveNotify) |
| C65 | A waiter found by a notification returns from wait | proved | Sync | infinite executions; the entry is taken, so its token is interrupted (C64); then each place of the wait is nearer to the end, and a blocked waiter has a task, is told to exit, or its unique taker is bringing the wake-up, which arrives (Props/LiveNotify) |
| C66 | set_value and set_exception return, and then every wait and get of the future returns | proved | Sync | infinite executions; the setter gets the guard (C61 machinery), makes the state ready and passes it on; the loops work on lists of their own; with C61 for wait and get (Props/LiveSet) |
| C67 | Every job of a pool is executed, once no more jobs are added | proved | Pool | infinite executions; every handle in the queue has an open notification for each worker (C43), every open notification is served (C59), and no new one appears; a worker at its loop has finished what it took (Props/LivePool) |
| C68 | condition_variable::wait and wait_for return only for a reason | proved | Sync | induction over the steps of the call; the entry that the wait adds is in the list at that moment, so its token is not interrupted yet and whoever takes it out and interrupts it does so later (invariant of the waiter lists) |
| C69 | The functions that take a time point wait until that time point | proved | Abs | the call is split into the reading of the clock, the call of the function with a duration and its return; postconditions of that function (C20, C21, C31, C68) survive the return |
| C70 | A task passes on the arguments it was made with, and there is one copy of them | proved | Cap | invariant over objects and lambdas: the object that the events name as holder points to the lambda with the values, all others of the task are hollow |
| C71 | main_thread::get_id is the id of the thread that initialised the library | proved | Core | invariant: above the frame of init that assigns the id there is only its own registration, after which the thread is registered (other threads cannot unregister it); without a decrement at most one such frame exists |
| C72 | A thread of make_thread that is told to exit ends, and the operation that joins it returns | proved | Core, Obj | infinite executions; a round of the loop ends (Core/Live) and there are only finitely many tasks before the exit flag is seen; then the steps of unregister_this_thread, each enabled again and again (Props/LiveEnd); the object keeps its handle while it is joined (Obj/Own), a joinable thread that ends is a zombie until it is joined (Props/LiveJoin) |
| C73 | The destruction of a thread pool returns | proved | Pool | infinite executions; induction over the list of workers: each is told to exit (or has been), ends (C72), and remains a zombie until it is joined; then the steps of ~impl and clear_all |
| C74 | shutdown returns | proved | Core | infinite executions; each step up to the wait is enabled again and again; cleanup_event is notified only when the registry becomes empty, so from some moment on a blocked shutdown consumes at most one more notification before it sees the deadline |
| C75 | Calls with a time point return | proved | Abs | the call of the function with a duration returns (C62, C63); the steps before and after it are always enabled |
| C76 | wait and wait_all of a pool return | proved | Pool | induction over the futures that the call found, each wait returns by C61; with workers the futures become ready as in C67 |
| C77 | the operations of a pool return | proved | Pool | infinite executions; each step of the call is enabled again and again; induction over the workers to be notified and over the jobs to be destroyed |
| C78 | a scheduled job is executed; a stopped job's future is broken | proved | Pool | the part of the execution between call and return (C77) is a call in the sense of C42 and C46; the job that it inserted is executed as in C67 |
| C79 | the calls that do not wait return | proved | Core | infinite executions; each step of the call is enabled again and again; the release of a context destroys finitely many tasks |
| C80 | wait and process return | proved | Core | infinite executions; a thread that stays blocked has nothing to do (C08); process: induction over the tasks that are still to be started, or over the time until the exit request |
| C81 | then and async return | proved | Sync | infinite executions; each step of the call is enabled again and again; the tools of C64 and C66 for the guard and for invoke |
| C82 | A future whose promise or task is destroyed becomes ready, and waits for it return | proved | Sync | the destructor calls set_exception; then as C66; an exception in the destructor would terminate the program, which an infinite execution does not; C61 for the waiting thread |
| C83 | The task of a future returns, and its future is then ready | proved | Sync | infinite executions; the function ends, normally or not; the handlers of the closure are followed step by step; set_value and set_exception as in C66 |
| C84 | The calls of promises, futures and mutexes that do not wait return | proved | Sync | infinite executions; each frame of these calls can always make a step; weak fairness |
| C85 | mutex::lock ends, or waits only after it has found another owner | proved | Sync | infinite executions; each step of the call before the wait can always be made; weak fairness |

For the partial ones, and for proved ones with a remark, the manifest says:

* **C09** exact when no exception left a task of that thread; false otherwise (witness): process_one does not decrement the depth when a task throws
* **C10** same defect as C09
* **C14** holds outside the log callbacks that init/shutdown run under the global mutex; false inside them (witness: permanent self-deadlock)
* **C17** exact if no two shutdown calls are between check and decrement at once; in general only modulo 2^64, and two concurrent shutdowns wrap the counter (witness)
* **C18** holds if nobody registers the thread after its unregistration; the tpp::thread constructor may do exactly that (witness)
* **C19** needs also that destructors of dropped tasks make no processing call; false otherwise (witness)
* **C22** holds unless another notifier took the waiter and is still delivering, or another wait of the same thread removed the entry; literally false with a concurrent notifier (witness)
* **C23** proved for registered waiters; an unregistered front waiter swallows the notification (witness)
* **C25** holds unless a nested wait of the same thread on the same condition variable ended by time-out or exit; false then (witness: the outer waiter sleeps forever)
* **C26** holds as long as no unregistered thread releases the mutex; literally false otherwise (witness: two registered threads own the mutex)
* **C27** for registered callers, as long as no unregistered thread releases the mutex; an unregistered caller of lock may get resource_deadlock_would_occur without owning the mutex (witness)
* **C28** holds for a thread that entered the waiter list while the mutex was held; false otherwise (witness: lost wake-up between test_and_set and the entry into the list)
* **C30** proved for every get that returns while the state is ready; false otherwise (witness): get of a future<void> whose wait was ended by the exit request returns normally although nothing was set
* **C31** wait and the null handle fully; wait_for: timeout may be reported less than 1 microsecond early and although the future is ready (witness)
* **C32** holds unless a nested wait of the same thread on the same future ended by time-out or exit; false then (witness)
* **C35** Destruction of a promise and tasks dropped unrun: proved. Overwriting by move assignment: the claim is false for the code (defaulted operator=, future.hpp:185, drops the state without abandon); C35_overwritten proves that the future then never becomes ready, C35_overwritten_lost is a concrete run.
* **C38** iterator and variadic versions; C38_complete: once the continuations of all inputs have run, the future is ready with the inputs; a when_all future can also become ready with broken_promise, when the thread that called when_all drops the continuations of the inputs unrun; the theorem says so (and that all inputs are ready even then)
* **C39** iterator and variadic versions; C39_complete: once when_any has returned and a continuation of an input has run (none has thrown), the future is ready; as for C38, the future can also become ready with broken_promise
* **C40** the claim is false for the code: set_value is called with the context mutex locked, so a continuation run in place that processes a second continuation of the same when_any waits for itself forever (C40_deadlock, in every continuation of the execution); C40_partial: threads that are not inside such a section do not own the mutex
* **C43** per worker and for all workers; idle: registered, not told to exit, empty queue, not inside check_jobs before the pop; the mutex of the pool is free (nobody is in the middle of adding a job: while a second job is being added, the worker may have popped the handle of that job for the notification of the first one)
* **C44** all queue contents, all choices of the priority queue among equal elements; C44_worker: whoever serves level L is a recorded worker of that level; C44_runs: whoever executes a job is such a worker and took the job itself
* **C45** holds for raised (and unchanged) priorities; the claim is false for the code for a lowered job: its old handle stays in the queue and the job is taken by it (witness C45_lowered)
* **C47** holds for registered waiters and jobs that no stop_all made the pool forget before the call; false for the code otherwise: wait after stop_all returns while the job is executing (C47_forgotten), an unregistered thread does not wait at all (C47_unregistered)
* **C48** false for the code: schedule / change_priority from a job dispatches check_jobs to the calling worker in place while guard_ is locked (C48_deadlock: self-deadlock). Proved: the pool only ever waits for guard_, guard_ is held only inside pool functions, and a thread waits for itself only inside notify_workers or inside a destructor called by clear / clear_all
* **C49** ids: proved. Count: exact unless stop_all was called while a job was executing; the claim is false for the code then (witness C49_forgotten)
* **C50** a job_future of a destroyed pool does nothing: proved for all executions. On a live pool it acts on that pool if the pool was not moved since; false for the code after a move: the owner pointer keeps the old address, so the call dereferences a null impl_ (C50_moved) or stops a job of another pool made there (C50_other)
* **C51** C51_stale_id is an extra finding: join on a moved-from object asks the thread of the new owner to exit and then throws
* **C53** C53_lost and C53_then_throws are extra findings: f is not always called (the started thread waits only once; notified for exit before the constructor registers it, it is gone and the task is queued for nobody); then of a future without state throws only after the thread was started
* **C54** also for the pool that a move assignment replaces (C54_assign); an object that was moved from has no pool (Empty)
* **C56** C56_value is about states with a value; what get of a future<void> may return is C30
* **C57** a state at the beginning is no protection for get: if a task executed during its wait gets the same object, get uses a null pointer (C57_get_null)
* **C72** C72_join for the three operations that join: join, ~thread and operator=
* **C74** The exception in the statement is an execution of the model: a condition_variable whose wait ends by a notification after the deadline. The standard library reports a timeout then, so the code returns also in that case; the model does not say so.
* **C76** For C76_served the futures of stopped and discarded jobs are assumed to become ready.
* **C77** The exception for workers is the defect of C48; executions in which the model ends (use of a moved-from or destroyed pool object) are not infinite.
* **C78** From the call to the execution: C77 (the call returns), C42 and C46 (what it has done) and C67 (the workers execute the jobs), for one execution.
* **C79** C79_call is one theorem for all the functions (predicate Prompt) other than init; for arbitrary client code.
* **C80** For arbitrary client code; the case of a thread that is blocked for ever because there is nothing to do is the third alternative of C80_wait.
* **C81** For arbitrary applications. The overload of async that makes a thread is C79 (spawn) followed by this call.
* **C82** For arbitrary applications. The alternatives of C82_wait are those of C61_wait.
* **C83** For arbitrary applications. C83_task is about the execution of the closure wherever it is executed, C83_call about the call of a task that the caller keeps.
* **C84** For arbitrary applications. The calls are those of the predicate Quick; only weak fairness is assumed.
* **C85** For arbitrary applications. What happens after the call has begun to wait is not part of it (C28, where a wake-up can be lost).

## 4. Wrong programs

`seeded/LOG.jsonl` records edits of the model that a realistic bug would be (a dropped notification, a wrong order, a missing check, …), each applied to a copy
of this tree, with the theorems that stopped checking. Every theorem of a property that the edit breaks has to fail; where one did not it was
strengthened (field `tightened`).
