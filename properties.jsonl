{"id": "C01", "title": "Thread ids are unique and never invalid", "statement": "Every id handed out by a registration is different from invalid_id(), and at no time do two different registered native threads have the same id; an id that was unregistered is never given to a new registration.", "quantifier": "all histories of register/unregister/spawn/exit by any number of threads", "why_tests_cant": "Must hold after every history of calls, of any length.", "anchors": ["threadpp/thread.cpp: register_thread_impl", "threadpp/thread.cpp: unregister_thread_impl"]}
{"id": "C02", "title": "Registering is idempotent and both sides agree", "statement": "While a native thread is registered, registering it again - by itself or by another thread through register_thread / the tpp::thread constructor - returns the id it already has, so the creator and the thread itself agree on the id.", "quantifier": "all interleavings of the two registrations with any other activity", "why_tests_cant": "Depends on the interleaving of several threads; a test runs a handful of schedules.", "anchors": ["threadpp/thread.cpp: register_thread_impl", "threadpp/thread.cpp: thread::register_this", "threadpp/thread.cpp: this_thread::register_this_thread"]}
{"id": "C03", "title": "The registry lists exactly the registered threads", "statement": "get_all_registered_threads() returns, without duplicates, exactly the ids that were registered and not yet unregistered at the moment the call reads the registry.", "quantifier": "all histories", "why_tests_cant": "Must hold after every history of calls, of any length.", "anchors": ["threadpp/thread.cpp: get_all_registered_threads", "threadpp/thread.cpp: register_thread_impl", "threadpp/thread.cpp: unregister_thread_impl"]}
{"id": "C04", "title": "invoke to an invalid or unknown thread is refused without effect", "statement": "invoke(id, f) returns false exactly when id is invalid_id() or not registered at the moment of the lookup, and then no queue of any thread changes and f is never run by the library.", "quantifier": "all ids, all states, all interleavings", "why_tests_cant": "Depends on the interleaving of several threads; a test runs a handful of schedules.", "anchors": ["threadpp/thread.cpp: detail::invoke_packaged_task"]}
{"id": "C05", "title": "Tasks run in the order they were accepted, at most once", "statement": "The sequence of tasks a thread starts is always a prefix of the sequence of tasks accepted for it: first in first out, no task twice, none skipped, none that was not accepted - also when tasks are processed by nested blocking calls inside other tasks.", "quantifier": "all numbers of senders, all schedules, all nesting depths of process/wait/sleep inside tasks", "why_tests_cant": "Depends on the interleaving of several threads; a test runs a handful of schedules. Nesting depth and queue length are unbounded.", "anchors": ["threadpp/thread.cpp: prepare_tasks", "threadpp/thread.cpp: this_thread::detail::process_one", "threadpp/thread.cpp: detail::invoke_packaged_task"]}
{"id": "C06", "title": "An accepted task is never lost while its thread is registered", "statement": "Every accepted task is at any time exactly one of: started, still pending in its thread's queue, or destroyed because the thread's registration ended; it is only destroyed unrun after the thread has unregistered.", "quantifier": "all schedules and histories", "why_tests_cant": "Depends on the interleaving of several threads; a test runs a handful of schedules.", "anchors": ["threadpp/thread.cpp: detail::invoke_packaged_task", "threadpp/thread.cpp: unregister_thread_impl", "threadpp/thread.cpp: process_one"]}
{"id": "C07", "title": "A task runs only on the thread it was sent to", "statement": "Whenever a queued task is started, the thread executing it is the native thread registered under the id the task was sent to.", "quantifier": "all schedules", "why_tests_cant": "Depends on the interleaving of several threads; a test runs a handful of schedules.", "anchors": ["threadpp/thread.cpp: process_one", "threadpp/thread.cpp: detail::invoke_packaged_task"]}
{"id": "C08", "title": "No lost wake-up in this_thread::wait / wait_for", "statement": "A thread blocked in wait or wait_for (directly or inside any itc blocking call) whose queue is non-empty or that has been notified for exit always has its wake-up condition true and its condition variable signalled, so it cannot sleep through an invoke or a notify_for_exit.", "quantifier": "all interleavings of invoke / notify_for_exit with the blocking thread", "why_tests_cant": "Depends on the interleaving of several threads; a test runs a handful of schedules.", "anchors": ["threadpp/thread.cpp: this_thread::detail::wait", "threadpp/thread.cpp: this_thread::detail::wait_for", "threadpp/thread.cpp: invoke_packaged_task", "threadpp/thread.cpp: notify_for_exit"]}
{"id": "C09", "title": "Pending task count is exact", "statement": "get_pending_task_count(id) returns the number of tasks accepted by that thread that have not finished (queued, plus started and still on its stack), at the moment of the read.", "quantifier": "all schedules, all nesting depths", "why_tests_cant": "A test observes one schedule; exceptions and nesting change the counters.", "anchors": ["threadpp/thread.cpp: get_pending_task_count_detailed", "threadpp/thread.cpp: process_one"]}
{"id": "C10", "title": "Nesting depth is exact", "statement": "this_thread::get_depth() equals the number of queued tasks currently executing (nested) on the calling thread.", "quantifier": "all nesting depths and histories, including tasks that throw", "why_tests_cant": "Must hold after every history of calls, of any length.", "anchors": ["threadpp/thread.cpp: this_thread::get_depth", "threadpp/thread.cpp: process_one"]}
{"id": "C11", "title": "dispatch runs inline on the own thread and queues otherwise", "statement": "dispatch(id,f) called on the thread registered as id runs f before returning and puts nothing in any queue; called from any other thread it behaves exactly as invoke.", "quantifier": "all callers, all ids", "why_tests_cant": "Must hold after every history of calls, of any length.", "anchors": ["threadpp/thread.h: dispatch", "threadpp/thread.cpp: notify"]}
{"id": "C12", "title": "process drains the queue", "statement": "this_thread::process() returns only when the calling thread's queue is empty at that moment, or the thread has been notified for exit, or it is not registered; once notified for exit it starts no further task.", "quantifier": "all queue contents, concurrent senders, tasks that enqueue more tasks", "why_tests_cant": "Depends on the interleaving of several threads; a test runs a handful of schedules.", "anchors": ["threadpp/thread.cpp: process_all", "threadpp/thread.cpp: detail::process"]}
{"id": "C13", "title": "wait returns only for a reason and runs at most one task", "statement": "this_thread::wait() / wait_for start at most one queued task at their own level, and return only after having run a task, or because of exit notification, or because they were woken after blocking, or (wait_for) because the time is up, or on an unregistered thread.", "quantifier": "all schedules", "why_tests_cant": "Depends on the interleaving of several threads; a test runs a handful of schedules.", "anchors": ["threadpp/thread.cpp: detail::wait", "threadpp/thread.cpp: detail::wait_for"]}
{"id": "C14", "title": "Tasks are executed and destroyed with no library lock held", "statement": "While a user task is executing, or a task object is being destroyed, the executing thread holds neither the global registry mutex nor any task-queue mutex, so tasks may call any itc function.", "quantifier": "all schedules, all nesting", "why_tests_cant": "A lock held at a wrong moment shows only if the callback happens to re-enter.", "anchors": ["threadpp/thread.cpp: process_one", "threadpp/thread.cpp: unregister_thread_impl", "threadpp/thread.cpp: init", "threadpp/thread.cpp: shutdown"]}
{"id": "C15", "title": "Exit notification is sticky", "statement": "Once notify_for_exit(id) has taken effect on a registered thread, notified_for_exit() on it returns true until that registration ends, and a make_thread loop that checks it never blocks again.", "quantifier": "all histories after the notification", "why_tests_cant": "Must hold after every history of calls, of any length.", "anchors": ["threadpp/thread.cpp: notify_for_exit", "threadpp/thread.cpp: this_thread::notified_for_exit", "threadpp/thread.cpp: make_thread"]}
{"id": "C16", "title": "shutdown reports the truth", "statement": "shutdown returns 0 only if at that moment no thread is registered; a positive result is the number of threads still registered when the time was up, and it is returned only after the timeout elapsed; it returns -1 without touching any thread if the library is not initialised or other init calls are outstanding.", "quantifier": "all interleavings with registering and exiting threads", "why_tests_cant": "Depends on the interleaving of several threads; a test runs a handful of schedules.", "anchors": ["threadpp/thread.cpp: shutdown", "threadpp/thread.cpp: init"]}
{"id": "C17", "title": "init/shutdown nesting is counted", "statement": "n init calls need n shutdown calls: only the shutdown matching the first init tears down, and any number of concurrent init/shutdown calls keeps the count equal to inits minus effective shutdowns (it never wraps).", "quantifier": "all numbers of concurrent init/shutdown calls", "why_tests_cant": "Depends on the interleaving of several threads; a test runs a handful of schedules.", "anchors": ["threadpp/thread.cpp: init", "threadpp/thread.cpp: shutdown"]}
{"id": "C18", "title": "A finished thread leaves no registration behind", "statement": "If the function of a tpp::thread registers and unregisters itself, then after it has finished and the constructor has returned, the registry has no entry for it.", "quantifier": "all interleavings of the child with the parent's constructor", "why_tests_cant": "Depends on the interleaving of several threads; a test runs a handful of schedules. The window is between std::thread's start and register_this.", "anchors": ["threadpp/thread.h: thread::thread", "threadpp/thread.cpp: thread::register_this", "threadpp/thread.cpp: register_thread_impl"]}
{"id": "C19", "title": "Contexts are not used after they are freed", "statement": "If no thread unregisters itself from inside a task it is processing, no library call ever touches the context of a thread after that context was destroyed, whatever other threads do concurrently.", "quantifier": "all interleavings of invoke/notify/pending-count with unregistration", "why_tests_cant": "Depends on the interleaving of several threads; a test runs a handful of schedules.", "anchors": ["threadpp/thread.cpp: unregister_thread_impl", "threadpp/thread.cpp: invoke_packaged_task", "threadpp/thread.cpp: process_one"]}
{"id": "C20", "title": "sleep_for returns early only on exit", "statement": "this_thread::sleep_for(d) on a registered thread returns only when at least d has elapsed or the thread was notified for exit, however many tasks it processes meanwhile.", "quantifier": "all durations, all task arrivals", "why_tests_cant": "Quantifies over all arrival times and clock readings.", "anchors": ["threadpp/thread.h: this_thread::sleep_for"]}
{"id": "C21", "title": "wait_for reports timeout only when time is up", "statement": "this_thread::wait_for(d) returns cv_status::timeout only if at least d rounded down to whole microseconds has elapsed since the call and no wake-up was pending.", "quantifier": "all durations and schedules", "why_tests_cant": "Quantifies over all clock readings.", "anchors": ["threadpp/thread.h: this_thread::wait_for", "threadpp/thread.cpp: detail::wait_for"]}
{"id": "C22", "title": "notify_all wakes every waiter", "statement": "After condition_variable::notify_all returns, every registered thread that had begun waiting (entered the waiter list) before the call and did not wait again has its wait signalled and, if it is blocked, a wake-up pending: it cannot stay blocked.", "quantifier": "all numbers of waiters, all schedules, waits nested inside tasks", "why_tests_cant": "Depends on the interleaving of several threads; a test runs a handful of schedules.", "anchors": ["threadpp/detail/semaphore.cpp: semaphore::notify_all", "threadpp/detail/semaphore.cpp: semaphore::wait", "threadpp/condition_variable.hpp: notify_all"]}
{"id": "C23", "title": "notify_one wakes the oldest waiter and only that one", "statement": "notify_one signals exactly the waiter that has been waiting longest, and signals nobody else; with no waiter it does nothing.", "quantifier": "all waiter lists", "why_tests_cant": "Must hold after every history of calls, of any length.", "anchors": ["threadpp/detail/semaphore.cpp: semaphore::notify_one"]}
{"id": "C24", "title": "condition_variable::wait returns with the lock held", "statement": "Every normal return of condition_variable::wait / wait_for has the caller's lock held by the caller, and while it is blocked or executes other tasks the lock is not held by that wait.", "quantifier": "all schedules", "why_tests_cant": "Depends on the interleaving of several threads; a test runs a handful of schedules.", "anchors": ["threadpp/condition_variable.hpp: wait", "threadpp/condition_variable.hpp: wait_for", "threadpp/detail/semaphore.cpp: semaphore::wait"]}
{"id": "C25", "title": "condition_variable does not lose notifications", "statement": "If a thread calls wait with the lock held, a notify_all issued by anyone who acquired the lock after the waiter released it always ends that wait, also when the waiter processes other tasks that themselves wait on the same condition_variable.", "quantifier": "all schedules and nestings", "why_tests_cant": "Depends on the interleaving of several threads; a test runs a handful of schedules.", "anchors": ["threadpp/condition_variable.hpp: wait", "threadpp/detail/semaphore.cpp: add_waiter", "threadpp/detail/semaphore.cpp: remove_waiter"]}
{"id": "C26", "title": "mutex gives mutual exclusion", "statement": "At no time do two different registered threads own the same tpp::mutex (have returned from lock/try_lock without having started unlock).", "quantifier": "all numbers of threads and all schedules", "why_tests_cant": "Depends on the interleaving of several threads; a test runs a handful of schedules.", "anchors": ["threadpp/mutex.hpp: lock", "threadpp/mutex.hpp: try_lock", "threadpp/mutex.hpp: unlock"]}
{"id": "C27", "title": "mutex reports misuse", "statement": "lock() by the owner throws resource_deadlock_would_occur, and throws only then; unlock() by a registered thread that is not the owner throws and leaves the mutex unchanged.", "quantifier": "all histories", "why_tests_cant": "Must hold after every history of calls, of any length.", "anchors": ["threadpp/mutex.hpp: lock", "threadpp/mutex.hpp: unlock"]}
{"id": "C28", "title": "mutex does not lose a wake-up", "statement": "A registered thread blocked in mutex::lock while the mutex is free always has a wake-up pending or on its way, so it eventually acquires the mutex.", "quantifier": "all interleavings of lock with unlock", "why_tests_cant": "Depends on the interleaving of several threads; a test runs a handful of schedules.", "anchors": ["threadpp/mutex.hpp: lock", "threadpp/mutex.hpp: unlock", "threadpp/detail/semaphore.cpp: semaphore::wait"]}
{"id": "C29", "title": "A promise is satisfied at most once", "statement": "The shared state of a promise changes from not ready to ready (value or error) at most once; every later set_value/set_exception throws promise_already_satisfied and changes nothing, also with concurrent setters.", "quantifier": "all numbers of concurrent setters and schedules", "why_tests_cant": "Depends on the interleaving of several threads; a test runs a handful of schedules.", "anchors": ["threadpp/detail/future_state.hpp: future_state::set_value", "threadpp/detail/future_state.hpp: basic_state::set_exception"]}
{"id": "C30", "title": "get returns what was set", "statement": "future::get / shared_future::get return a value only if exactly that value was set by the promise, throw a stored exception only if exactly that was set, and never return normally from a state that is not ready.", "quantifier": "all schedules, values, and exit notifications", "why_tests_cant": "Depends on the interleaving of several threads; a test runs a handful of schedules.", "anchors": ["threadpp/future.hpp: future::get", "threadpp/future.hpp: shared_future::get", "threadpp/detail/future_state.hpp: get_value_assuming_ready"]}
{"id": "C31", "title": "future::wait returns only when ready or exiting", "statement": "wait() returns only if the shared state is ready or the waiting thread was notified for exit (or is not registered); wait_for returns ready only if ready, deferred only on exit, timeout only after the time is up.", "quantifier": "all schedules", "why_tests_cant": "Depends on the interleaving of several threads; a test runs a handful of schedules.", "anchors": ["threadpp/detail/future_state.hpp: basic_state::wait", "threadpp/detail/future_state.hpp: basic_state::wait_for"]}
{"id": "C32", "title": "No waiter sleeps through a ready future", "statement": "A registered thread blocked in future::wait on a state that is ready has a wake-up pending or being delivered, so it returns; this must hold also when the waiting thread runs other tasks that wait on the same future.", "quantifier": "all schedules, all nestings", "why_tests_cant": "Depends on the interleaving of several threads; a test runs a handful of schedules.", "anchors": ["threadpp/detail/future_state.hpp: basic_state::wait", "threadpp/detail/future_state.hpp: set_ready", "threadpp/detail/semaphore.cpp: semaphore::wait", "threadpp/detail/semaphore.cpp: remove_waiter"]}
{"id": "C33", "title": "Each continuation is launched exactly once, after readiness", "statement": "Every continuation attached with then is launched exactly once, never before the state is ready, in attachment order for those attached before readiness, whether it is attached before, during or after the state becomes ready.", "quantifier": "all interleavings of then with set_value/set_exception", "why_tests_cant": "Depends on the interleaving of several threads; a test runs a handful of schedules.", "anchors": ["threadpp/detail/future_state.hpp: set_continuation", "threadpp/detail/future_state.hpp: set_ready", "threadpp/future.hpp: future::then"]}
{"id": "C34", "title": "Continuations and async tasks run on the requested thread", "statement": "With launch::async the task is always queued to the given thread; with the default policy it runs inline iff the launching thread is the target (or no target is given), otherwise it is queued to the target; it never runs anywhere else.", "quantifier": "all target ids, launching threads and policies", "why_tests_cant": "Must hold after every history of calls, of any length.", "anchors": ["threadpp/future.hpp: detail::launch", "threadpp/future.hpp: async", "threadpp/future.hpp: future::then"]}
{"id": "C35", "title": "Destroying an unfulfilled promise breaks it", "statement": "When a promise object is destroyed, overwritten or its task is dropped unrun, and no result was set, the future becomes ready with broken_promise.", "quantifier": "all histories, including move assignment of promises and tasks dropped by exiting threads", "why_tests_cant": "Must hold after every history of calls, of any length.", "anchors": ["threadpp/future.hpp: basic_promise::~basic_promise", "threadpp/future.hpp: basic_promise::operator=", "threadpp/future.hpp: basic_promise::abandon"]}
{"id": "C36", "title": "get_future succeeds exactly once", "statement": "The first get_future on a promise succeeds and every other throws future_already_retrieved, also concurrently.", "quantifier": "all numbers of concurrent callers", "why_tests_cant": "Depends on the interleaving of several threads; a test runs a handful of schedules.", "anchors": ["threadpp/future.hpp: basic_promise::get_future", "threadpp/future.hpp: check_retrieved_flag"]}
{"id": "C37", "title": "async delivers the function's outcome", "statement": "The future returned by async/schedule holds exactly the value the function returned, or exactly the exception it threw; if the function is never run because its task was refused or dropped, it holds broken_promise.", "quantifier": "all functions, target threads, schedules and exits", "why_tests_cant": "Depends on the interleaving of several threads; a test runs a handful of schedules.", "anchors": ["threadpp/future.hpp: package_future_task", "threadpp/future.hpp: async", "threadpp/future.hpp: apply_and_forward_as"]}
{"id": "C38", "title": "when_all completes exactly when all inputs are ready", "statement": "The when_all future becomes ready at most once, only after every input is ready, and its result holds exactly the inputs, in order; for an empty input it is ready immediately.", "quantifier": "all numbers of inputs, all completion orders and schedules", "why_tests_cant": "Depends on the interleaving of several threads; a test runs a handful of schedules. Number of inputs is unbounded.", "anchors": ["threadpp/when_all_any.hpp: when_all", "threadpp/when_all_any.hpp: when_inner_helper"]}
{"id": "C39", "title": "when_any completes once with a ready input", "statement": "The when_any future becomes ready at most once, not before some input is ready; the index designates a ready input and the result holds exactly the inputs in order; for empty input it is ready with index size_t(-1).", "quantifier": "all numbers of inputs, all completion orders, including inputs that complete while when_any is still attaching", "why_tests_cant": "Depends on the interleaving of several threads; a test runs a handful of schedules.", "anchors": ["threadpp/when_all_any.hpp: when_any", "threadpp/when_all_any.hpp: when_any_inner_helper"]}
{"id": "C40", "title": "A continuation of when_any may use itc freely", "statement": "A continuation attached to the when_any result may call blocking itc functions without deadlocking.", "quantifier": "all schedules", "why_tests_cant": "Depends on the interleaving of several threads; a test runs a handful of schedules.", "anchors": ["threadpp/when_all_any.hpp: when_any"]}
{"id": "C41", "title": "visit_at visits exactly the indexed element", "statement": "visit_at(t, i, f) calls f exactly once, on element i, when i is below the tuple size, and throws without calling f otherwise.", "quantifier": "all tuple sizes and indices", "why_tests_cant": "Tuple size and index are unbounded.", "anchors": ["threadpp/when_all_any.hpp: visit_at", "threadpp/when_all_any.hpp: visit_impl"]}
{"id": "C42", "title": "A pool job runs at most once", "statement": "Every scheduled job is executed at most once, also when its priority is changed any number of times or it is stopped concurrently.", "quantifier": "all numbers of workers, jobs, priority changes and schedules", "why_tests_cant": "Depends on the interleaving of several threads; a test runs a handful of schedules.", "anchors": ["threadpp/thread_pool.cpp: check_jobs", "threadpp/thread_pool.cpp: change_priority", "threadpp/thread_pool.cpp: add_job"]}
{"id": "C43", "title": "No pool job is forgotten", "statement": "If some worker may serve a job's level, then whenever every worker is idle with nothing queued (and not exiting), no scheduled unstopped job is left unstarted.", "quantifier": "all histories of schedule / change_priority / stop and all schedules", "why_tests_cant": "Depends on the interleaving of several threads; a test runs a handful of schedules.", "anchors": ["threadpp/thread_pool.cpp: notify_workers", "threadpp/thread_pool.cpp: check_jobs", "threadpp/thread_pool.cpp: add_job_handle"]}
{"id": "C44", "title": "Workers take the best eligible job", "statement": "A worker of level L only runs jobs whose level is at least L, and takes them from the highest non-empty level, the highest priority in it first.", "quantifier": "all queue contents", "why_tests_cant": "Must hold after every history of calls, of any length.", "anchors": ["threadpp/thread_pool.cpp: get_highest_priority_queue_above", "threadpp/thread_pool.cpp: check_jobs", "threadpp/thread_pool.cpp: operator<"]}
{"id": "C45", "title": "change_priority takes effect", "statement": "After change_priority(id, g) a pending job is scheduled according to g (raised or lowered).", "quantifier": "all histories", "why_tests_cant": "Must hold after every history of calls, of any length.", "anchors": ["threadpp/thread_pool.cpp: change_priority"]}
{"id": "C46", "title": "stop prevents a pending job from running", "statement": "If stop(id) takes effect before the job starts, the job never runs and its future becomes ready with broken_promise; if the job is already executing, stop does nothing.", "quantifier": "all interleavings of stop with the workers", "why_tests_cant": "Depends on the interleaving of several threads; a test runs a handful of schedules.", "anchors": ["threadpp/thread_pool.cpp: clear", "threadpp/thread_pool.cpp: stop", "threadpp/thread_pool.cpp: check_jobs"]}
{"id": "C47", "title": "pool wait returns only when the job is over", "statement": "thread_pool::wait(id) / wait_all return only when the job(s) present at the call have finished or were discarded (or the waiting thread is told to exit) - in particular not while the job is executing.", "quantifier": "all schedules, including stop_all", "why_tests_cant": "Depends on the interleaving of several threads; a test runs a handful of schedules.", "anchors": ["threadpp/thread_pool.cpp: wait", "threadpp/thread_pool.cpp: wait_all", "threadpp/thread_pool.cpp: clear_all"]}
{"id": "C48", "title": "Jobs may use the pool", "statement": "A job may call schedule / change_priority / stop on its own pool; no pool call deadlocks.", "quantifier": "all jobs and schedules", "why_tests_cant": "Depends on the interleaving of several threads; a test runs a handful of schedules.", "anchors": ["threadpp/thread_pool.cpp: add_job", "threadpp/thread_pool.cpp: notify_workers", "threadpp/thread_pool.cpp: check_jobs", "threadpp/thread_pool.cpp: clear_all"]}
{"id": "C49", "title": "Job ids are unique and the count is exact", "statement": "schedule returns non-zero ids that are never reused; get_jobs_count is the number of jobs scheduled that have neither finished nor been discarded.", "quantifier": "all histories", "why_tests_cant": "Must hold after every history of calls, of any length.", "anchors": ["threadpp/thread_pool.cpp: add_job", "threadpp/thread_pool.cpp: get_jobs_count", "threadpp/thread_pool.cpp: clear"]}
{"id": "C50", "title": "job_future operations are safe over the pool's lifetime", "statement": "job_future::stop / change_priority on a job whose pool was destroyed do nothing, and on a live pool - also one that was moved - act on that pool.", "quantifier": "all lifetimes of the pool and the future", "why_tests_cant": "Must hold after every history of calls, of any length.", "anchors": ["threadpp/thread_pool.cpp: job_future_storage::stop", "threadpp/thread_pool.cpp: job_future_storage::change_priority", "threadpp/thread_pool.h: thread_pool"]}
{"id": "C51", "title": "thread objects always join", "statement": "Destroying or move-assigning over a joinable tpp::thread notifies that thread for exit and joins it first; no operation destroys a joinable std::thread; swap and move keep each handle paired with its id.", "quantifier": "all sequences of construct/move/swap/assign/join/detach/destroy", "why_tests_cant": "Must hold after every history of calls, of any length.", "anchors": ["threadpp/thread.cpp: thread::~thread", "threadpp/thread.cpp: thread::operator=", "threadpp/thread.cpp: thread::swap", "threadpp/thread.cpp: thread::join"]}
{"id": "C52", "title": "process_for stops in time and not early", "statement": "this_thread::process_for(d) returns only when the queue is empty at that moment, or the thread was notified for exit, or it is not registered, or d (whole microseconds) has elapsed since the call; it starts no task after its end time or after an exit notification.", "quantifier": "all durations, queue contents and schedules", "why_tests_cant": "depends on the exact relation of arrival times, task durations and the end time", "anchors": ["threadpp/thread.cpp:437-478"]}
{"id": "C53", "title": "async and then without a thread id run the function on a thread of its own", "statement": "A call of async(policy, f), async(f), then(policy, f) or then(f) without a thread id starts one new thread, and the future it returns belongs to a state made for f, the policy and a valid id under which that thread is registered. f is called only on that thread, never on the thread that made the call. The started thread leaves its only wait after it has started a task, or because it was notified for exit.", "quantifier": "all callers, policies, numbers of calls, user code and schedules", "why_tests_cant": "The new thread registers itself concurrently with the constructor that registers it and with other threads that may notify it or send it tasks.", "anchors": ["threadpp/future.hpp:700-718", "threadpp/future.hpp:755-775", "threadpp/future.hpp:813-834", "threadpp/thread.h:29-33", "threadpp/thread.cpp:693-697"]}
{"id": "C54", "title": "~thread_pool ends the workers and every job", "statement": "When ~thread_pool, or a move assignment to a pool, returns normally and the object had a pool, then it has first, before it waited for any worker, discarded every job that no worker had taken; every thread the pool ever started has ended before the pool's members are destroyed; no job is left; every job that no worker has taken by then is discarded, its future holds broken_promise and its function is never called; every job that was inserted is over and stays so (its future is ready and its function is not being executed), except a job that another thread is in the course of discarding at that moment.", "quantifier": "all numbers of workers and jobs, all schedules, user code and concurrent callers of the pool", "why_tests_cant": "The destructor races with workers that take jobs, with threads that schedule or stop jobs, and with workers that end before the constructor has registered them.", "anchors": ["threadpp/thread_pool.cpp:68-80", "threadpp/thread_pool.cpp:299", "threadpp/thread.cpp:681-691", "threadpp/thread.cpp:719-722"]}
{"id": "C55", "title": "A future is the only reference to its shared state", "statement": "At any time at most one object of type future refers to a given shared state, and while one does no shared_future refers to it. Every object that refers to a state goes back to one single result of get_future, then or async for that state.", "quantifier": "all sequences of constructions, moves, copies, assignments, share, get, then and destructions by any threads, including the parameters of continuations", "why_tests_cant": "A reference moves between objects, continuations that wait in a state or in a task queue, and parameters of continuations on other threads; a second reference shows only if both are used later.", "anchors": ["threadpp/future.hpp:81-97", "threadpp/future.hpp:221-228", "threadpp/future.hpp:280-353", "threadpp/future.hpp:574-583", "threadpp/future.hpp:724-747"]}
{"id": "C56", "title": "future::get moves a value out at most once", "statement": "future::get takes the state out of its object when the state is ready or the calling thread was told to exit; for each state this happens at most once, never if a shared_future was made of it, and afterwards no object refers to the state, so no one sees a value that was moved from. What get of a state with a value returns was set for that state.", "quantifier": "all objects, user code, threads and schedules", "why_tests_cant": "get waits while it executes other tasks, which may use the same objects.", "anchors": ["threadpp/future.hpp:303-308", "threadpp/future.hpp:366-371", "threadpp/future.hpp:444-448", "threadpp/future.hpp:510-514", "threadpp/detail/future_state.hpp:153-170"]}
{"id": "C57", "title": "Operations on a future without state throw no_state", "statement": "is_ready, has_error, wait, wait_for, get and then on an object of type future or shared_future that has no state when the call begins throw future_error(no_state).", "quantifier": "all objects, callers and schedules", "why_tests_cant": "An object loses its state by operations on other threads and in tasks executed during waits.", "anchors": ["threadpp/future.hpp:103-157", "threadpp/future.hpp:724-727", "threadpp/detail/future_state.hpp:194-201"]}
{"id": "C58", "title": "A continuation gets the future it was attached to", "statement": "When the function given to then is called, its parameter is an object of the kind (future or shared_future) that then was called on, it refers to the same shared state, and that state is ready.", "quantifier": "all chains of continuations, all policies, threads and schedules", "why_tests_cant": "The lambda travels through the state and through task queues to other threads before it makes the parameter.", "anchors": ["threadpp/future.hpp:731-735", "threadpp/future.hpp:790-794", "threadpp/future.hpp:847-851", "threadpp/future.hpp:902-906"]}
{"id": "C59", "title": "Tasks sent to a thread that executes its loop are eventually started", "statement": "While a thread executes the loop of make_thread (while(!notified_for_exit()) wait();), every task accepted for it by invoke is eventually started, provided the scheduler is weakly fair to that thread and the tasks it executes return; the only exceptions are that the thread is told to exit or is unregistered.", "quantifier": "all infinite weakly fair executions, all other threads and their programs", "why_tests_cant": "Liveness: a lost wakeup shows only as a hang in one interleaving of push, notify and the test of the flag before the wait.", "anchors": ["threadpp/thread.cpp:501-590", "threadpp/thread.cpp:654-675", "threadpp/thread.cpp:355-400"]}
{"id": "C60", "title": "The future of a function sent with async to a thread that executes its loop becomes ready", "statement": "If a thread calls async with the id of a thread that executes the loop of make_thread (with launch::async, or from another thread), the future returned by this call eventually becomes ready, provided the scheduler is weakly fair to both threads, the tasks of the loop return and no init or shutdown holds the global mutex; the only exceptions are that the target thread is told to exit or is unregistered. The same holds for the packaged task of a continuation once it is in the queue.", "quantifier": "all infinite weakly fair executions, all applications, functions and other threads", "why_tests_cant": "Liveness across two threads: a lost packaged task or wakeup shows only as a hang in rare interleavings.", "anchors": ["threadpp/future.hpp:630-700", "threadpp/thread.cpp:355-400", "threadpp/thread.cpp:501-590"]}
{"id": "C61", "title": "future::wait and get return once the future is ready", "statement": "If a registered thread calls future::wait or get and the future is or becomes ready, the call eventually returns (wait without an exception), provided the scheduler is strongly fair to the thread, other threads do not hold the guard of the state for ever, the caller does not hold it when it makes the call and the tasks that the wait executes return. The only exceptions are that a task executed by the call unregisters the thread, and that a nested wait of the same thread on the same future ended by time-out or exit and removed the entry of the outer wait (the defect of C32).", "quantifier": "all infinite strongly fair executions, all applications, states and other threads", "why_tests_cant": "Liveness: a lost signal between set_value and a waiter that executes tasks in between shows only as a hang in rare interleavings.", "anchors": ["threadpp/detail/future_state.hpp:88-105", "threadpp/detail/semaphore.cpp:70-104", "threadpp/future.hpp:132-137", "threadpp/future.hpp:303-308", "threadpp/future.hpp:366-371", "threadpp/future.hpp:444-448", "threadpp/thread.cpp:501-590"]}
{"id": "C62", "title": "wait_for, sleep_for and process_for return", "statement": "Every call of this_thread::wait_for, sleep_for and process_for returns, without an exception, whatever other threads do (also if tasks are queued all the time, or nobody ever wakes the thread), provided the scheduler is weakly fair to the thread, time passes without bound and the tasks that the call executes return. The only exception is that the thread, if registered, is unregistered. The claim holds for every duration, zero and negative ones included, and for unregistered threads.", "quantifier": "all infinite weakly fair executions in which the clock is unbounded, all durations, all clients and other threads", "why_tests_cant": "Liveness: a missed wake-up or a loop that computes the remaining time wrongly shows only as a hang in rare interleavings.", "anchors": ["threadpp/thread.h:336-379", "threadpp/thread.cpp:437-478", "threadpp/thread.cpp:501-577"]}
{"id": "C63", "title": "condition_variable::wait_for and future::wait_for return", "statement": "Every call of condition_variable::wait_for (the lock being held by the caller) and of future::wait_for (on a valid future) returns, without an exception, whatever other threads do: also if nobody notifies, the future never becomes ready, or tasks are queued all the time. Provided: the scheduler is strongly fair to the thread, time passes without bound, the tasks that the call executes return and do not keep the lock, and the lock (for a future: the guard of the shared state, which the caller does not hold when it makes the call) is not held for ever by others while the thread wants to have it. The only exception is that the thread, if registered, is unregistered. The claim holds for every duration and for unregistered threads.", "quantifier": "all infinite strongly fair executions in which the clock is unbounded, all durations, applications, states and other threads", "why_tests_cant": "Liveness: a loop that computes the remaining time wrongly, or waits again after the limit because a task woke the thread, shows only as a hang in rare interleavings.", "anchors": ["threadpp/condition_variable.hpp:51-72", "threadpp/detail/semaphore.cpp:105-151", "threadpp/detail/future_state.hpp:104-123", "threadpp/future.hpp:139-159"]}
{"id": "C64", "title": "notify_one, notify_all and mutex::unlock return", "statement": "Every call of condition_variable::notify_one and notify_all returns, without an exception, and every call of mutex::unlock returns, without an exception or with the one that says that the caller is not the owner, whatever other threads do: however many waiters there are, and also if waiters are unregistered, woken for other reasons or wait again in the meantime. Provided: the scheduler is strongly fair to the thread, the global mutex is not held for ever (by init or shutdown), and the destructors of tasks return that the call executes if it is the last one that refers to the queue of a thread unregistered in the meantime.", "quantifier": "all infinite strongly fair executions, applications, states, condition variables, mutexes and other threads", "why_tests_cant": "Liveness: a notifier that waits for a waiter, or works on a list that grows while it is worked on, hangs only in rare interleavings.", "anchors": ["threadpp/condition_variable.hpp:19-32", "threadpp/mutex.hpp:60-73", "threadpp/detail/semaphore.cpp:25-66", "threadpp/thread.cpp:335-341"]}
{"id": "C65", "title": "A waiter found by a notification returns from wait", "statement": "Thread u, registered, has called condition_variable::wait, and its entry is in the list of waiters when a thread starts notify_all (for notify_one: is the first in the list). Then the wait returns, without an exception, whatever u does in the meantime (it may be about to block, blocked, or executing a task) and whatever other threads do. Provided: the scheduler is strongly fair to the waiter and to the notifier, the tasks that the wait executes return and do not keep the lock, others do not hold the lock for ever, the global mutex is not held for ever, and destructors of tasks executed by the notifier return. The only exception is that u is unregistered by a task that the wait executes.", "quantifier": "all infinite strongly fair executions, applications, states, condition variables, locks and other threads", "why_tests_cant": "A lost wake-up is the classic concurrency bug: it needs the notification in a window of a few instructions, and shows as a hang only.", "anchors": ["threadpp/condition_variable.hpp:19-49", "threadpp/detail/semaphore.cpp:25-103", "threadpp/thread.cpp:335-341", "threadpp/thread.cpp:354-435", "threadpp/thread.cpp:540-576"]}
{"id": "C66", "title": "set_value and set_exception return, and then every wait and get of the future returns", "statement": "When a thread calls set_value or set_exception on a promise with a shared state, the future becomes ready; the call returns, without an exception or with the one that says that the promise was satisfied before; and every call of wait and get of the future returns, whether it was made before or after. Provided: the scheduler is strongly fair to the threads, the guard of the state is not held for ever by others (and not held by the caller at the call); for the return of set_value also: the continuations that it executes in place and the destructors of tasks that it executes return, and the global mutex is not held for ever; for the return of wait and get the assumptions and exceptions of C61.", "quantifier": "all infinite strongly fair executions, applications, states, promises, values, exceptions, continuations, waiters and other threads", "why_tests_cant": "Liveness over all interleavings of the setter with any number of waiters, continuations and other setters; a hang needs a window of a few instructions.", "anchors": ["threadpp/future.hpp:203-281", "threadpp/detail/future_state.hpp:42-72", "threadpp/detail/future_state.hpp:140-186", "threadpp/detail/semaphore.cpp:25-66", "threadpp/thread.cpp:335-341"]}
{"id": "C67", "title": "Every job of a pool is executed, once no more jobs are added", "statement": "Jobs of a high priority that are added again and again can keep a job of a low priority waiting for ever. But if from some moment on no job is added to a pool and no priority is changed, then there is a moment at which every job of a level that some worker serves has been taken by a worker, or stopped or discarded; and if all workers of the pool execute their loops, the future that schedule returned for the job becomes ready (or the job was stopped or discarded). Provided: the scheduler is weakly fair to the worker(s), the tasks that a worker executes return, as do their destructors, the mutex of the pool is again and again free, and no worker is told to exit or is unregistered.", "quantifier": "all infinite fair executions, user programs, pools, workers, jobs, priorities and other threads", "why_tests_cant": "A lost job shows as a hang: the check that was sent to a worker is consumed without serving a job, in one of unboundedly many interleavings of schedule, change_priority, stop and several workers.", "anchors": ["threadpp/thread_pool.cpp:81-94", "threadpp/thread_pool.cpp:96-118", "threadpp/thread_pool.cpp:188-213", "threadpp/thread_pool.cpp:215-280"]}
{"id": "C68", "title": "condition_variable::wait and wait_for return only for a reason", "statement": "condition_variable::wait has no predicate and executes tasks while it blocks, but it does not return for no reason: it returns only if, since the call, a notify_one or notify_all on the same condition_variable picked the entry of the calling thread and interrupted it, or the calling thread is notified for exit (or not registered). wait_for(d) returns timeout only if d has passed since the call (but for at most 999 ns: the code rounds down to microseconds), and no_timeout only if it was notified in that sense or the thread is notified for exit (or not registered). A task that the waiting thread executes, a notification of another condition_variable, or one from before the call do not end the wait.", "quantifier": "all numbers of threads, condition_variables, notifications and tasks, all durations, all schedules", "why_tests_cant": "A spurious return needs a wakeup for something else (a task, a notification of another condition_variable, one left over from before) to arrive in a particular window; tests sample few of the interleavings, and callers that loop over a predicate hide it.", "anchors": ["threadpp/condition_variable.hpp:36-73", "threadpp/detail/semaphore.cpp:12-189"]}
{"id": "C69", "title": "The functions that take a time point wait until that time point", "statement": "this_thread::sleep_until returns only if the given clock shows the time point, or the thread is notified for exit (or not registered), also when it executes tasks meanwhile. this_thread::wait_until, condition_variable::wait_until and future::wait_until return timeout only if the time point has been reached (but for less than 1 us); otherwise this_thread::wait_until returns no_timeout because it has executed a task, condition_variable::wait_until because it was notified since the call, future::wait_until returns ready because the state is ready, or the thread is notified for exit (or not registered). For every epoch of the clock, and however much time passes between the readings of the clock. this_thread::wait_until with a time point that is past returns no_timeout (unlike the functions of std).", "quantifier": "all time points and clocks with any epoch, all schedules, all numbers of threads, tasks, notifications", "why_tests_cant": "Tests sample a few time points and sleep for them; a thread that is descheduled between the two readings of the clock, a task or a notification that arrives in a window, or a clock with another epoch are not exercised, and timing assertions in tests have tolerances that hide an early return.", "anchors": ["threadpp/thread.h:349-384", "threadpp/condition_variable.hpp:81-86", "threadpp/future.hpp:155-159"]}
{"id": "C70", "title": "A task passes on the arguments it was made with, and there is one copy of them", "statement": "invoke packages the function and the arguments in a task. However often the task object is then moved, copied, assigned and however the caller changes its variables: as long as the task was not called, the object to which it was handed last can be called, and the call passes the function and the arguments with the values that they had at the call of invoke, in the order given. A call of any other object throws bad_function_call, or calls another task, or passes moved-out objects only (copying a task moves the captured values out of the original). Making the task moves exactly the rvalue arguments out of the variables of the caller; nothing else changes a variable.", "quantifier": "all numbers and values of arguments, all value categories, all sequences of operations on any number of task objects", "why_tests_cant": "Tests package a few argument lists and call the task at once; a sequence of copies, moves and assignments after which two objects hold the values, or none does, or in which an argument aliases a variable of the caller, needs the history to be arbitrary.", "anchors": ["threadpp/detail/utility/capture.hpp:25-58", "threadpp/detail/utility/apply.hpp:13-30", "threadpp/thread.h:273-286", "threadpp/thread.cpp:382", "threadpp/thread.cpp:414"]}
{"id": "C71", "title": "main_thread::get_id is the id of the thread that initialised the library", "statement": "main_thread::get_id() is invalid until init has been called. It changes only in a call of init that incremented the counter from 0, at a moment when the calling thread is registered, and the new value is the valid id of that thread; it is never changed otherwise, in particular not by shutdown or by the thread ending. A call of init that ends, even by an exception of the logging callback, found the counter not 0 or has made its thread the main thread. Once valid, the value does not change until some shutdown has decremented the counter.", "quantifier": "all programs, numbers of threads and schedules; concurrent, nested and repeated init and shutdown, threads registered before or not; the last sentence for fewer than 2^64 calls of init", "why_tests_cant": "A test calls init once from main and compares; a race of several init and shutdown calls, or a thread that unregisters between its registration and the assignment, needs all interleavings.", "anchors": ["threadpp/thread.cpp:38", "threadpp/thread.cpp:172-186", "threadpp/thread.cpp:388-395"]}
{"id": "C72", "title": "A thread of make_thread that is told to exit ends, and the operation that joins it returns", "statement": "A thread that executes the function of make_thread (the loop while(!notified_for_exit()) wait(); then unregister_this_thread) leaves the loop once it has been told to exit, at a moment when no task is being executed, unregisters its context, and its function returns: the thread ends. If a thread calls join() of a thread object, destroys it or assigns another one to it, and the object holds a thread that executes this function, then this operation tells the thread to exit, joins it, and returns.", "quantifier": "all infinite executions of all programs and all schedules that are strongly fair to the thread (and to the thread that joins), in which the tasks it executes and the destructors of the tasks return, none of these tasks unregisters the thread, and init and shutdown do not hold the global mutex for ever; the joining thread is not the joined one", "why_tests_cant": "That every fair schedule ends the thread is a statement about infinite executions: the notification may arrive before, during or after the check of the loop, during a task or while the thread is parked, and the last reference to the context may be released by either thread.", "anchors": ["threadpp/thread.cpp:313-333", "threadpp/thread.cpp:450-460", "threadpp/thread.cpp:591-606", "threadpp/thread.cpp:654-676", "threadpp/thread.cpp:687-730"]}
{"id": "C73", "title": "The destruction of a thread pool returns", "statement": "When a thread destroys a pool (~thread_pool, or a move assignment to a thread_pool that holds one), this tells each worker to exit and waits until its thread has ended; this wait ends, and the destruction returns: all workers that the pool had when they were taken out of it have ended by then.", "quantifier": "all infinite executions of all programs, any number of workers and jobs, all schedules that are strongly fair to the destroying thread and the workers, in which the jobs and checks that the workers execute return, as do the destructors of jobs and tasks, the mutex of the pool and the global mutex are not held for ever, no job unregisters its worker, and no other thread joins a worker; the destroying thread is not a worker of the pool", "why_tests_cant": "A deadlock between the destructor and a worker (lost notification, or a lock held while joining) shows up only under particular interleavings; that there is none is a statement about all fair infinite executions.", "anchors": ["threadpp/thread_pool.cpp:68-80", "threadpp/thread_pool.cpp:138-145", "threadpp/thread_pool.cpp:299", "threadpp/thread.cpp:654-676", "threadpp/thread.cpp:687-691", "threadpp/thread.cpp:717-723"]}
{"id": "C74", "title": "shutdown returns", "statement": "Every call of shutdown returns, without an exception: at once if the library is not initialised or other init calls are outstanding, otherwise at the latest after the timeout, however many threads are registered and whether or not they react; the only exception is an execution in which the registry is emptied again and again because threads register and unregister for ever.", "quantifier": "all infinite executions of all programs in which time passes, all schedules that are strongly fair to the calling thread, in which the log callback and the destructors of queued tasks return and the global mutex is not held for ever by other calls of init or shutdown", "why_tests_cant": "Tests try a few numbers of threads and a few moments at which they unregister; a lost notification or an endless wait appears only in particular infinite executions.", "anchors": ["threadpp/thread.cpp:187-231", "threadpp/thread.cpp:148-169"]}
{"id": "C75", "title": "Calls with a time point return", "statement": "this_thread::wait_until, this_thread::sleep_until, condition_variable::wait_until and future::wait_until return, without an exception, for every time point and every clock that runs at the rate of the clock of the library, unless the calling thread is unregistered meanwhile.", "quantifier": "all infinite executions of all programs in which time passes, all time points (also in the past) and epochs, all schedules that are fair to the thread (strongly fair for condition_variable and future), in which the tasks that the call executes return and do not keep the lock, and others do not hold the lock for ever", "why_tests_cant": "That a wait ends in all fair schedules is a statement about infinite executions; a test sees only that some of them have not hung.", "anchors": ["threadpp/thread.h:349-353", "threadpp/thread.h:380-384", "threadpp/condition_variable.hpp:81-86", "threadpp/future.hpp:155-159"]}
{"id": "C76", "title": "wait and wait_all of a pool return", "statement": "thread_pool::wait(id) and wait_all return, without an exception, if the futures of the jobs that they find become ready; in particular wait_all returns if the workers of the pool execute their loops, each job is of a level that some worker serves, and from some moment on no job is added and no priority changed. The only exceptions are that a task executed by the call unregisters the calling thread, and that a nested wait of the same thread on the same future removed the entry of the outer wait (the defect of C32).", "quantifier": "all infinite executions of all user programs, pools, jobs, priorities and other threads, all schedules that are strongly fair to the calling thread and weakly fair to the workers, in which the tasks that the caller and the workers execute return and nobody holds the mutex of the pool or the guard of a job's state for ever", "why_tests_cant": "That a wait for an arbitrary number of jobs ends in all fair schedules is a statement about infinite executions; a test sees only that some of them have not hung.", "anchors": ["threadpp/thread_pool.cpp:145-179", "threadpp/thread_pool.cpp:316-329", "threadpp/thread_pool.cpp:236-280"]}
{"id": "C77", "title": "the operations of a pool return", "statement": "thread_pool::schedule, change_priority, stop, stop_all and get_jobs_count, and job_future::change_priority and stop, return, without an exception. For schedule and change_priority the calling thread must not be a worker of the pool (a worker deadlocks with itself, C48).", "quantifier": "all infinite executions of all user programs, pools with arbitrarily many workers, jobs, priorities, states of the pool and other threads, all schedules that are strongly fair to the calling thread, in which nobody holds the mutex of the pool (for schedule and change_priority also the global mutex) for ever and the destructors of the functors that the call destroys return", "why_tests_cant": "That a call which locks a mutex, notifies arbitrarily many workers and destroys arbitrarily many jobs ends in all fair schedules is a statement about infinite executions; a test sees only that some of them have not hung.", "anchors": ["threadpp/thread_pool.cpp:70-213", "threadpp/thread_pool.cpp:301-360", "threadpp/thread_pool.h:216-224"]}
{"id": "C78", "title": "a scheduled job is executed; a stopped job's future is broken", "statement": "schedule returns a future and the id of a job that it has inserted; if the workers of the pool execute their loops, each job is of a level that some worker serves, and from some moment on no job is added and no priority changed, then this future becomes ready, the function having been called at most once, unless the job is stopped or discarded. stop(id) returns; if the job was pending when the call looked, its future is ready with broken_promise when the call has returned, and its function is never called. stop_all returns, and the same holds for all jobs that were pending when the call looked.", "quantifier": "all infinite executions of all user programs, pools with arbitrarily many workers, jobs, priorities and other threads, all schedules that are strongly fair to the calling thread and weakly fair to the workers, under the assumptions of C67 and C77", "why_tests_cant": "The statement is about the whole of an infinite execution: from the call in one thread to the execution of the job in another, in all fair schedules.", "anchors": ["threadpp/thread_pool.cpp:70-145", "threadpp/thread_pool.cpp:187-280", "threadpp/thread_pool.h:216-224"]}
{"id": "C79", "title": "the calls that do not wait return", "statement": "init, register_this_thread, register_thread, unregister_this_thread, notify_for_exit, invoke, dispatch, get_pending_task_count and get_all_registered_threads return, without an exception, from every state of the library and of the calling thread, also for ids that are not registered and when called from inside tasks.", "quantifier": "all infinite executions of all programs, all threads, ids and tasks, all schedules that are strongly fair to the calling thread, in which the global mutex is not held for ever (by init or shutdown) and the log callback, the destructors of tasks and, for dispatch to the own thread, the task itself return", "why_tests_cant": "That a call which takes a contended mutex and destroys arbitrarily many queued tasks ends in all fair schedules is a statement about infinite executions; a test sees only that some of them have not hung.", "anchors": ["threadpp/thread.cpp:104-170", "threadpp/thread.cpp:232-290", "threadpp/thread.cpp:313-388", "threadpp/thread.cpp:579-595", "threadpp/thread.h:288-316", "threadpp/thread.cpp:172-185"]}
{"id": "C80", "title": "wait and process return", "statement": "this_thread::wait returns, without an exception, unless from some moment on the queue of the thread is empty and it is not told to exit, for ever; this_thread::process returns, without an exception, if the thread is sent finitely many tasks or is told to exit; in both cases unless the thread is unregistered. On a thread that is not registered both return.", "quantifier": "all infinite executions of all programs, all threads and senders, all schedules that are weakly fair to the calling thread, in which the tasks that the call executes return, as do their destructors", "why_tests_cant": "A lost wakeup leaves a thread blocked only in particular interleavings of the sender with the thread that goes to sleep; that there is none in any fair schedule is a statement about infinite executions.", "anchors": ["threadpp/thread.cpp:400-435", "threadpp/thread.cpp:453-462", "threadpp/thread.cpp:480-494", "threadpp/thread.cpp:540-577"]}
{"id": "C81", "title": "then and async return", "statement": "future::then and async with the id of a thread return, without an exception, whether the task is attached to the state, given to the queue of a thread, refused and destroyed, or executed in place; then on a future without a state returns with no_state.", "quantifier": "all infinite executions of all programs, all ids, policies, functions, states and other threads, all schedules that are strongly fair to the calling thread, in which others do not hold the guard of the state or the global mutex for ever, the function returns if the call executes it in place, and the destructors that the call executes return", "why_tests_cant": "The call takes the guard of the state and then launches a task, which may lock the global mutex, destroy the queue of a thread that has just been unregistered, or execute the function in place; that none of the interleavings with setters, unregistering threads and other callers of then blocks it for ever is a statement about infinite executions.", "anchors": ["threadpp/future.hpp:652-692", "threadpp/future.hpp:722-747", "threadpp/detail/future_state.hpp:74-89"]}
{"id": "C82", "title": "A future whose promise or task is destroyed becomes ready, and waits for it return", "statement": "The destructor of a promise, and the destructor of the task made by async, then or package_future_task, returns without an exception, and its future becomes ready (if the promise was not satisfied before, with broken_promise, C35); so a thread that waits for the future returns from wait under the conditions of C61, whether it called wait before or after the destruction.", "quantifier": "all infinite executions of all programs, all promises, tasks, continuations, waiting threads and other threads, all schedules that are strongly fair to the destroying and to the waiting thread, in which others do not hold the guard of the state or the global mutex for ever and the functions and destructors that the destructor executes return", "why_tests_cant": "A destructor that forgot to break the promise, or broke it without waking a thread that was just going to sleep, leaves a thread blocked for ever only in particular interleavings; that there is none is a statement about infinite executions.", "anchors": ["threadpp/future.hpp:190-196", "threadpp/future.hpp:615-650", "threadpp/detail/future_state.hpp:26-72", "threadpp/detail/future_state.hpp:91-103"]}
{"id": "C83", "title": "The task of a future returns, and its future is then ready", "statement": "If the function of a task made by async, then or package_future_task returns or throws an exception, then the task, executed by a loop, in place, or called by its owner, returns without an exception, and when it has returned its future is ready.", "quantifier": "all infinite executions of all programs, all functions, return values, exceptions, continuations and waiting threads, all schedules that are strongly fair to the executing thread, in which others do not hold the guard of the state or the global mutex for ever and the continuations that the task executes in place return, as do the destructors that it executes", "why_tests_cant": "The task has three exits (set_value, set_exception in the handler, the handler of the handler); that each leaves a ready future and never an exception or a blocked thread, for every interleaving with waiters and other threads, is a statement about all executions.", "anchors": ["threadpp/future.hpp:584-606", "threadpp/future.hpp:615-650", "threadpp/detail/future_state.hpp:41-72"]}
{"id": "C84", "title": "The calls of promises, futures and mutexes that do not wait return", "statement": "The constructor of a promise, the move of a promise, get_future, is_ready, has_error, package_future_task and mutex::try_lock return whatever the other threads do, even if these hold locks for ever or have stopped. They throw an exception only in get_future (no state, or the future has been retrieved before) and in is_ready and has_error of a future that has no state.", "quantifier": "all infinite executions of all programs, all promises, futures and mutexes, all other threads, all schedules that are weakly fair to the calling thread", "why_tests_cant": "That a call needs no help of another thread is a statement about all infinite executions, among them those in which every other thread stops at the worst moment; a test sees a few finite executions in which the others go on.", "anchors": ["threadpp/future.hpp:112-127", "threadpp/future.hpp:180-186", "threadpp/future.hpp:221-240", "threadpp/future.hpp:615-650", "threadpp/mutex.hpp:44-53"]}
{"id": "C85", "title": "mutex::lock ends, or waits only after it has found another owner", "statement": "A call of mutex::lock finds the mutex free and returns without an exception, with the calling thread as owner; or it finds it locked and then its own id in owner_, and throws resource_deadlock_would_occur; or it finds it locked and then another id, and begins to wait. One of these happens whatever the other threads do.", "quantifier": "all infinite executions of all programs, all mutexes and other threads, all schedules that are weakly fair to the calling thread", "why_tests_cant": "Between the test of the flag and the test of the owner other threads may lock and unlock the mutex any number of times; that every interleaving leads to one of the three outcomes is a statement about all infinite executions.", "anchors": ["threadpp/mutex.hpp:24-38"]}
