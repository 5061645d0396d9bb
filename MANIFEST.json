{
 "claims": [
  {
   "property": "C01",
   "status": "proved",
   "theorems": [
    "Itc.C01_ids_unique",
    "Itc.C01_returned",
    "Itc.C02_call"
   ],
   "note": ""
  },
  {
   "property": "C02",
   "status": "proved",
   "theorems": [
    "Itc.C02_idempotent",
    "Itc.C02_returned",
    "Itc.C02_call"
   ],
   "note": ""
  },
  {
   "property": "C03",
   "status": "proved",
   "theorems": [
    "Itc.C03_registry_exact",
    "Itc.C03_registry_spec"
   ],
   "note": ""
  },
  {
   "property": "C04",
   "status": "proved",
   "theorems": [
    "Itc.C04_invoke_result",
    "Itc.C04_lookup",
    "Itc.C04_refused_no_effect",
    "Itc.C04_call"
   ],
   "note": ""
  },
  {
   "property": "C05",
   "status": "proved",
   "theorems": [
    "Itc.C05_fifo",
    "Itc.C05_accepted",
    "Itc.C05_started",
    "Itc.C05_entered"
   ],
   "note": ""
  },
  {
   "property": "C06",
   "status": "proved",
   "theorems": [
    "Itc.C06_no_loss"
   ],
   "note": ""
  },
  {
   "property": "C07",
   "status": "proved",
   "theorems": [
    "Itc.C07_right_thread",
    "Itc.C07_registration_unique"
   ],
   "note": ""
  },
  {
   "property": "C08",
   "status": "proved",
   "theorems": [
    "Itc.C08_no_lost_wakeup",
    "Itc.C08_eventually_wakes"
   ],
   "note": ""
  },
  {
   "property": "C09",
   "status": "partial",
   "theorems": [
    "Itc.C09_pending_exact_partial",
    "Itc.C09_call_partial",
    "Itc.C09_counterexample"
   ],
   "note": "exact when no exception left a task of that thread; false otherwise (witness): process_one does not decrement the depth when a task throws"
  },
  {
   "property": "C10",
   "status": "partial",
   "theorems": [
    "Itc.C10_depth_exact_partial",
    "Itc.C10_unregistered",
    "Itc.C10_counterexample"
   ],
   "note": "same defect as C09"
  },
  {
   "property": "C11",
   "status": "proved",
   "theorems": [
    "Itc.C11_dispatch",
    "Itc.C11_returned",
    "Itc.C11_call"
   ],
   "note": ""
  },
  {
   "property": "C12",
   "status": "proved",
   "theorems": [
    "Itc.C12_drains",
    "Itc.C12_no_start_after_exit"
   ],
   "note": ""
  },
  {
   "property": "C13",
   "status": "proved",
   "theorems": [
    "Itc.C13_at_most_one",
    "Itc.C13_reason"
   ],
   "note": ""
  },
  {
   "property": "C14",
   "status": "partial",
   "theorems": [
    "Itc.C14_no_lock_partial",
    "Itc.C14_never_stuck",
    "Itc.C14_counterexample"
   ],
   "note": "holds outside the log callbacks that init/shutdown run under the global mutex; false inside them (witness: permanent self-deadlock)"
  },
  {
   "property": "C15",
   "status": "proved",
   "theorems": [
    "Itc.C15_sticky",
    "Itc.C15_exact",
    "Itc.C15_only",
    "Itc.C15_never_blocks",
    "Itc.C15_takes_effect"
   ],
   "note": ""
  },
  {
   "property": "C16",
   "status": "proved",
   "theorems": [
    "Itc.C16_shutdown",
    "Itc.C16_refused_silent"
   ],
   "note": ""
  },
  {
   "property": "C17",
   "status": "partial",
   "theorems": [
    "Itc.C17_count_partial",
    "Itc.C17_teardown_partial",
    "Itc.C17_count_mod",
    "Itc.C17_counterexample"
   ],
   "note": "exact if no two shutdown calls are between check and decrement at once; in general only modulo 2^64, and two concurrent shutdowns wrap the counter (witness)"
  },
  {
   "property": "C18",
   "status": "partial",
   "theorems": [
    "Itc.C18_no_leftover_partial",
    "Itc.C18_counterexample"
   ],
   "note": "holds if nobody registers the thread after its unregistration; the tpp::thread constructor may do exactly that (witness)"
  },
  {
   "property": "C19",
   "status": "partial",
   "theorems": [
    "Itc.C19_no_use_after_free_partial",
    "Itc.C19_own_context_alive",
    "Itc.C19_held_alive",
    "Itc.C19_counterexample"
   ],
   "note": "needs also that destructors of dropped tasks make no processing call; false otherwise (witness)"
  },
  {
   "property": "C20",
   "status": "proved",
   "theorems": [
    "Itc.C20_sleep"
   ],
   "note": ""
  },
  {
   "property": "C21",
   "status": "proved",
   "theorems": [
    "Itc.C21_timeout"
   ],
   "note": ""
  },
  {
   "property": "C22",
   "status": "partial",
   "theorems": [
    "Itc.C22_notify_all_partial",
    "Itc.C22_notify_all",
    "Itc.C22_concurrent"
   ],
   "note": "holds unless another notifier took the waiter and is still delivering, or another wait of the same thread removed the entry; literally false with a concurrent notifier (witness)"
  },
  {
   "property": "C23",
   "status": "partial",
   "theorems": [
    "Itc.C23_longest",
    "Itc.C23_nobody_else",
    "Itc.C23_signals_partial",
    "Itc.C23_swallowed"
   ],
   "note": "proved for registered waiters; an unregistered front waiter swallows the notification (witness)"
  },
  {
   "property": "C24",
   "status": "proved",
   "theorems": [
    "Itc.C24_locked",
    "Itc.C24_released"
   ],
   "note": ""
  },
  {
   "property": "C25",
   "status": "partial",
   "theorems": [
    "Itc.C25_notified_partial",
    "Itc.C25_returns",
    "Itc.C25_lost"
   ],
   "note": "holds unless a nested wait of the same thread on the same condition variable ended by time-out or exit; false then (witness: the outer waiter sleeps forever)"
  },
  {
   "property": "C26",
   "status": "partial",
   "theorems": [
    "Itc.C26_exclusive_partial",
    "Itc.C26_lock",
    "Itc.C26_try_lock",
    "Itc.C26_until_unlock",
    "Itc.C26_anonymous"
   ],
   "note": "holds as long as no unregistered thread releases the mutex; literally false otherwise (witness: two registered threads own the mutex)"
  },
  {
   "property": "C27",
   "status": "partial",
   "theorems": [
    "Itc.C27_lock_owner_partial",
    "Itc.C27_lock_only_owner_partial",
    "Itc.C27_unlock_other_partial",
    "Itc.C27_unlock_owner_partial",
    "Itc.C27_spurious"
   ],
   "note": "for registered callers, as long as no unregistered thread releases the mutex; an unregistered caller of lock may get resource_deadlock_would_occur without owning the mutex (witness)"
  },
  {
   "property": "C28",
   "status": "partial",
   "theorems": [
    "Itc.C28_waiter_partial",
    "Itc.C28_lost"
   ],
   "note": "holds for a thread that entered the waiter list while the mutex was held; false otherwise (witness: lost wake-up between test_and_set and the entry into the list)"
  },
  {
   "property": "C29",
   "status": "proved",
   "theorems": [
    "Itc.C29_frozen",
    "Itc.C29_once",
    "Itc.C29_set",
    "Itc.C29_promise"
   ],
   "note": ""
  },
  {
   "property": "C30",
   "status": "partial",
   "theorems": [
    "Itc.C30_get_partial",
    "Itc.C30_value",
    "Itc.C30_void_not_ready"
   ],
   "note": "proved for every get that returns while the state is ready; false otherwise (witness): get of a future<void> whose wait was ended by the exit request returns normally although nothing was set"
  },
  {
   "property": "C31",
   "status": "partial",
   "theorems": [
    "Itc.C31_wait",
    "Itc.C31_wait_for_partial",
    "Itc.C31_null",
    "Itc.C31_early_timeout"
   ],
   "note": "wait and the null handle fully; wait_for: timeout may be reported less than 1 microsecond early and although the future is ready (witness)"
  },
  {
   "property": "C32",
   "status": "partial",
   "theorems": [
    "Itc.C32_no_sleep_partial",
    "Itc.C32_no_sleep",
    "Itc.C32_lost"
   ],
   "note": "holds unless a nested wait of the same thread on the same future ended by time-out or exit; false then (witness)"
  },
  {
   "property": "C33",
   "status": "proved",
   "theorems": [
    "Itc.C33_at_most_once",
    "Itc.C33_not_before_ready",
    "Itc.C33_order",
    "Itc.C33_launched",
    "Itc.C33_set",
    "Itc.C33_attach",
    "Itc.C33_then"
   ],
   "note": ""
  },
  {
   "property": "C34",
   "status": "proved",
   "theorems": [
    "Itc.C34_place",
    "Itc.C34_given",
    "Itc.C34_body",
    "Itc.C34_async",
    "Itc.C34_then",
    "Itc.C34_launch",
    "Itc.C34_runs",
    "Itc.C34_logged",
    "Itc.C34_own"
   ],
   "note": ""
  },
  {
   "property": "C35",
   "status": "partial",
   "theorems": [
    "Itc.C35_destroy",
    "Itc.C35_overwritten",
    "Itc.C35_overwritten_lost",
    "Itc.C35_never",
    "Itc.C35_move",
    "Itc.C37_dropped",
    "Itc.C37_dropped_unrun"
   ],
   "note": "Destruction of a promise and tasks dropped unrun: proved. Overwriting by move assignment: the claim is false for the code (defaulted operator=, future.hpp:185, drops the state without abandon); C35_overwritten proves that the future then never becomes ready, C35_overwritten_lost is a concrete run."
  },
  {
   "property": "C36",
   "status": "proved",
   "theorems": [
    "Itc.C36_once",
    "Itc.C36_first"
   ],
   "note": ""
  },
  {
   "property": "C37",
   "status": "proved",
   "theorems": [
    "Itc.C37_outcome",
    "Itc.C37_delivered",
    "Itc.C37_not_refused",
    "Itc.C37_dropped",
    "Itc.C37_dropped_unrun",
    "Itc.C37_holds",
    "Itc.C37_kept",
    "Itc.C37_events",
    "Itc.C37_caught",
    "Itc.C37_returned",
    "Itc.C37_threw",
    "Itc.C37_async_returns",
    "Itc.C37_then_returns"
   ],
   "note": ""
  },
  {
   "property": "C38",
   "status": "proved",
   "theorems": [
    "Itc.C38_call",
    "Itc.C38_all",
    "Itc.C38_empty",
    "Itc.C38_complete"
   ],
   "note": "iterator and variadic versions; C38_complete: once the continuations of all inputs have run, the future is ready with the inputs; a when_all future can also become ready with broken_promise, when the thread that called when_all drops the continuations of the inputs unrun; the theorem says so (and that all inputs are ready even then)"
  },
  {
   "property": "C39",
   "status": "proved",
   "theorems": [
    "Itc.C39_call",
    "Itc.C39_any",
    "Itc.C39_empty",
    "Itc.C39_complete"
   ],
   "note": "iterator and variadic versions; C39_complete: once when_any has returned and a continuation of an input has run (none has thrown), the future is ready; as for C38, the future can also become ready with broken_promise"
  },
  {
   "property": "C40",
   "status": "partial",
   "theorems": [
    "Itc.C40_partial",
    "Itc.C40_deadlock"
   ],
   "note": "the claim is false for the code: set_value is called with the context mutex locked, so a continuation run in place that processes a second continuation of the same when_any waits for itself forever (C40_deadlock, in every continuation of the execution); C40_partial: threads that are not inside such a section do not own the mutex"
  },
  {
   "property": "C41",
   "status": "proved",
   "theorems": [
    "Itc.C41_visits",
    "Itc.C41_throws"
   ],
   "note": ""
  },
  {
   "property": "C42",
   "status": "proved",
   "theorems": [
    "Itc.C42_once",
    "Itc.C42_own",
    "Itc.C42_function",
    "Itc.C42_taken",
    "Itc.C42_call"
   ],
   "note": ""
  },
  {
   "property": "C43",
   "status": "proved",
   "theorems": [
    "Itc.C43_worker",
    "Itc.C43_no_job_left",
    "Itc.C43_parked"
   ],
   "note": "per worker and for all workers; idle: registered, not told to exit, empty queue, not inside check_jobs before the pop; the mutex of the pool is free (nobody is in the middle of adding a job: while a second job is being added, the worker may have popped the handle of that job for the notification of the first one)"
  },
  {
   "property": "C44",
   "status": "proved",
   "theorems": [
    "Itc.C44_pick",
    "Itc.C44_none",
    "Itc.C44_taken",
    "Itc.C44_idle",
    "Itc.C44_worker",
    "Itc.C44_registered",
    "Itc.C44_runs"
   ],
   "note": "all queue contents, all choices of the priority queue among equal elements; C44_worker: whoever serves level L is a recorded worker of that level; C44_runs: whoever executes a job is such a worker and took the job itself"
  },
  {
   "property": "C45",
   "status": "partial",
   "theorems": [
    "Itc.C45_change",
    "Itc.C45_call",
    "Itc.C45_partial",
    "Itc.C45_lowered"
   ],
   "note": "holds for raised (and unchanged) priorities; the claim is false for the code for a lowered job: its old handle stays in the queue and the job is taken by it (witness C45_lowered)"
  },
  {
   "property": "C46",
   "status": "proved",
   "theorems": [
    "Itc.C46_never",
    "Itc.C46_broken",
    "Itc.C46_stop",
    "Itc.C46_call",
    "Itc.C46_call_all"
   ],
   "note": ""
  },
  {
   "property": "C47",
   "status": "partial",
   "theorems": [
    "Itc.C47_partial",
    "Itc.C47_exit",
    "Itc.C47_call",
    "Itc.C47_call_all",
    "Itc.C47_return",
    "Itc.C47_wait_partial",
    "Itc.C47_wait_all_partial",
    "Itc.C47_forgotten",
    "Itc.C47_unregistered"
   ],
   "note": "holds for registered waiters and jobs that no stop_all made the pool forget before the call; false for the code otherwise: wait after stop_all returns while the job is executing (C47_forgotten), an unregistered thread does not wait at all (C47_unregistered)"
  },
  {
   "property": "C48",
   "status": "partial",
   "theorems": [
    "Itc.C48_holder",
    "Itc.C48_partial",
    "Itc.C48_step",
    "Itc.C48_lock",
    "Itc.C48_deadlock"
   ],
   "note": "false for the code: schedule / change_priority from a job dispatches check_jobs to the calling worker in place while guard_ is locked (C48_deadlock: self-deadlock). Proved: the pool only ever waits for guard_, guard_ is held only inside pool functions, and a thread waits for itself only inside notify_workers or inside a destructor called by clear / clear_all"
  },
  {
   "property": "C49",
   "status": "partial",
   "theorems": [
    "Itc.C49_ids",
    "Itc.C49_result",
    "Itc.C49_count_partial",
    "Itc.C49_done",
    "Itc.C49_counted",
    "Itc.C49_call_partial",
    "Itc.C49_forgotten"
   ],
   "note": "ids: proved. Count: exact unless stop_all was called while a job was executing; the claim is false for the code then (witness C49_forgotten)"
  },
  {
   "property": "C50",
   "status": "partial",
   "theorems": [
    "Itc.C50_destroyed",
    "Itc.C50_nothing",
    "Itc.C50_stays",
    "Itc.C50_stop_partial",
    "Itc.C50_change_partial",
    "Itc.C50_pool_partial",
    "Itc.C50_future",
    "Itc.C50_moved",
    "Itc.C50_other"
   ],
   "note": "a job_future of a destroyed pool does nothing: proved for all executions. On a live pool it acts on that pool if the pool was not moved since; false for the code after a move: the owner pointer keeps the old address, so the call dereferences a null impl_ (C50_moved) or stops a job of another pool made there (C50_other)"
  },
  {
   "property": "C51",
   "status": "proved",
   "theorems": [
    "Itc.C51_destroyed",
    "Itc.C51_assigned",
    "Itc.C51_asks",
    "Itc.C51_joins",
    "Itc.C51_join_waits",
    "Itc.C51_paired",
    "Itc.C51_one_owner",
    "Itc.C51_handle_live",
    "Itc.C51_made",
    "Itc.C51_asks_own",
    "Itc.C51_reaches",
    "Itc.C51_stale_id"
   ],
   "note": "C51_stale_id is an extra finding: join on a moved-from object asks the thread of the new owner to exit and then throws"
  },
  {
   "property": "C52",
   "status": "proved",
   "theorems": [
    "Itc.C52_returns",
    "Itc.C52_no_start_late"
   ],
   "note": ""
  },
  {
   "property": "C53",
   "status": "proved",
   "theorems": [
    "Itc.C53_thread",
    "Itc.C53_made",
    "Itc.C53_returned",
    "Itc.C53_call",
    "Itc.C53_left",
    "Itc.C53_lost",
    "Itc.C53_then_throws"
   ],
   "note": "C53_lost and C53_then_throws are extra findings: f is not always called (the started thread waits only once; notified for exit before the constructor registers it, it is gone and the task is queued for nobody); then of a future without state throws only after the thread was started"
  },
  {
   "property": "C54",
   "status": "proved",
   "theorems": [
    "Itc.C54_dtor",
    "Itc.C54_assign"
   ],
   "note": "also for the pool that a move assignment replaces (C54_assign); an object that was moved from has no pool (Empty)"
  },
  {
   "property": "C55",
   "status": "proved",
   "theorems": [
    "Itc.C55_unique",
    "Itc.C55_origin"
   ],
   "note": ""
  },
  {
   "property": "C56",
   "status": "proved",
   "theorems": [
    "Itc.C56_once",
    "Itc.C56_gone",
    "Itc.C56_ready",
    "Itc.C56_value",
    "Itc.C56_call"
   ],
   "note": "C56_value is about states with a value; what get of a future<void> may return is C30"
  },
  {
   "property": "C57",
   "status": "proved",
   "theorems": [
    "Itc.C57_no_state",
    "Itc.C57_get_null"
   ],
   "note": "a state at the beginning is no protection for get: if a task executed during its wait gets the same object, get uses a null pointer (C57_get_null)"
  },
  {
   "property": "C58",
   "status": "proved",
   "theorems": [
    "Itc.C58_param"
   ],
   "note": ""
  },
  {
   "property": "C59",
   "status": "proved",
   "theorems": [
    "Itc.C59_started"
   ],
   "note": ""
  },
  {
   "property": "C60",
   "status": "proved",
   "theorems": [
    "Itc.C60_ready",
    "Itc.C60_async"
   ],
   "note": ""
  },
  {
   "property": "C61",
   "status": "proved",
   "theorems": [
    "Itc.C61_wait",
    "Itc.C61_get"
   ],
   "note": ""
  },
  {
   "property": "C62",
   "status": "proved",
   "theorems": [
    "Itc.C62_wait_for",
    "Itc.C62_sleep_for",
    "Itc.C62_process_for"
   ],
   "note": ""
  },
  {
   "property": "C63",
   "status": "proved",
   "theorems": [
    "Itc.C63_cv",
    "Itc.C63_future"
   ],
   "note": ""
  },
  {
   "property": "C64",
   "status": "proved",
   "theorems": [
    "Itc.C64_notify_all",
    "Itc.C64_notify_one",
    "Itc.C64_unlock"
   ],
   "note": ""
  },
  {
   "property": "C65",
   "status": "proved",
   "theorems": [
    "Itc.C65_notify_all",
    "Itc.C65_notify_one"
   ],
   "note": ""
  },
  {
   "property": "C66",
   "status": "proved",
   "theorems": [
    "Itc.C66_ready",
    "Itc.C66_returns",
    "Itc.C66_wait",
    "Itc.C66_get"
   ],
   "note": ""
  },
  {
   "property": "C67",
   "status": "proved",
   "theorems": [
    "Itc.C67_jobs",
    "Itc.C67_ready"
   ],
   "note": ""
  },
  {
   "property": "C68",
   "status": "proved",
   "theorems": [
    "Itc.C68_wait",
    "Itc.C68_wait_for"
   ],
   "note": ""
  },
  {
   "property": "C69",
   "status": "proved",
   "theorems": [
    "Itc.C69_sleep",
    "Itc.C69_wait",
    "Itc.C69_wait_past",
    "Itc.C69_cv",
    "Itc.C69_future"
   ],
   "note": ""
  },
  {
   "property": "C70",
   "status": "proved",
   "theorems": [
    "Itc.C70_args",
    "Itc.C70_others",
    "Itc.C70_caller"
   ],
   "note": ""
  },
  {
   "property": "C71",
   "status": "proved",
   "theorems": [
    "Itc.C71_set",
    "Itc.C71_stays",
    "Itc.C71_value",
    "Itc.C71_init",
    "Itc.C71_fixed"
   ],
   "note": ""
  },
  {
   "property": "C72",
   "status": "proved",
   "theorems": [
    "Itc.C72_leaves",
    "Itc.C72_ends",
    "Itc.C72_join"
   ],
   "note": "C72_join for the three operations that join: join, ~thread and operator="
  },
  {
   "property": "C73",
   "status": "proved",
   "theorems": [
    "Itc.C73_workers",
    "Itc.C73_dtor"
   ],
   "note": ""
  },
  {
   "property": "C74",
   "status": "proved",
   "theorems": [
    "Itc.C74_shutdown"
   ],
   "note": "The exception in the statement is an execution of the model: a condition_variable whose wait ends by a notification after the deadline. The standard library reports a timeout then, so the code returns also in that case; the model does not say so."
  },
  {
   "property": "C75",
   "status": "proved",
   "theorems": [
    "Itc.C75_wait",
    "Itc.C75_sleep",
    "Itc.C75_cv",
    "Itc.C75_future"
   ],
   "note": ""
  },
  {
   "property": "C76",
   "status": "proved",
   "theorems": [
    "Itc.C76_wait",
    "Itc.C76_wait_all",
    "Itc.C76_served"
   ],
   "note": "For C76_served the futures of stopped and discarded jobs are assumed to become ready."
  },
  {
   "property": "C77",
   "status": "proved",
   "theorems": [
    "Itc.C77_stop",
    "Itc.C77_stop_all",
    "Itc.C77_count",
    "Itc.C77_future",
    "Itc.C77_change",
    "Itc.C77_future_change",
    "Itc.C77_schedule"
   ],
   "note": "The exception for workers is the defect of C48; executions in which the model ends (use of a moved-from or destroyed pool object) are not infinite."
  },
  {
   "property": "C78",
   "status": "proved",
   "theorems": [
    "Itc.C78_schedule",
    "Itc.C78_stop",
    "Itc.C78_stop_all"
   ],
   "note": "From the call to the execution: C77 (the call returns), C42 and C46 (what it has done) and C67 (the workers execute the jobs), for one execution."
  },
  {
   "property": "C79",
   "status": "proved",
   "theorems": [
    "Itc.C79_call",
    "Itc.C79_init"
   ],
   "note": "C79_call is one theorem for all the functions (predicate Prompt) other than init; for arbitrary client code."
  },
  {
   "property": "C80",
   "status": "proved",
   "theorems": [
    "Itc.C80_wait",
    "Itc.C80_process"
   ],
   "note": "For arbitrary client code; the case of a thread that is blocked for ever because there is nothing to do is the third alternative of C80_wait."
  },
  {
   "property": "C81",
   "status": "proved",
   "theorems": [
    "Itc.C81_then",
    "Itc.C81_then_none",
    "Itc.C81_async"
   ],
   "note": "For arbitrary applications. The overload of async that makes a thread is C79 (spawn) followed by this call."
  },
  {
   "property": "C82",
   "status": "proved",
   "theorems": [
    "Itc.C82_promise",
    "Itc.C82_promise_returns",
    "Itc.C82_task",
    "Itc.C82_task_returns",
    "Itc.C82_wait",
    "Itc.C82_wait_task"
   ],
   "note": "For arbitrary applications. The alternatives of C82_wait are those of C61_wait."
  },
  {
   "property": "C83",
   "status": "proved",
   "theorems": [
    "Itc.C83_task",
    "Itc.C83_call"
   ],
   "note": "For arbitrary applications. C83_task is about the execution of the closure wherever it is executed, C83_call about the call of a task that the caller keeps."
  },
  {
   "property": "C84",
   "status": "proved",
   "theorems": [
    "Itc.C84_quick"
   ],
   "note": "For arbitrary applications. The calls are those of the predicate Quick; only weak fairness is assumed."
  },
  {
   "property": "C85",
   "status": "proved",
   "theorems": [
    "Itc.C85_lock"
   ],
   "note": "For arbitrary applications. What happens after the call has begun to wait is not part of it (C28, where a wake-up can be lost)."
  }
 ]
}