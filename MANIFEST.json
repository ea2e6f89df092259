{
 "claims": [
  {
   "property": "C01",
   "status": "proved",
   "theorems": [
    "Verif.Spinlock.C01_spinlock_excludes",
    "Verif.Spinlock.C01_spinlock_free_can_be_taken",
    "Verif.Spinlock.C01_unlock_by_stranger_breaks_exclusion"
   ],
   "note": "all schedules; the last theorem shows that the precondition (only holders unlock) is needed"
  },
  {
   "property": "C02",
   "status": "proved",
   "theorems": [
    "Verif.Mutex.C02_mutex_excludes",
    "Verif.Mutex.C02_mutex_one_holder"
   ],
   "note": "spinlock, owner, queue and sleep flags are separate steps; clients that never re-lock"
  },
  {
   "property": "C03",
   "status": "proved",
   "theorems": [
    "Verif.Mutex.C03_mutex_unlock_checked",
    "Verif.Mutex.C03_mutex_bad_unlock_changes_nothing"
   ],
   "note": ""
  },
  {
   "property": "C04",
   "status": "proved",
   "theorems": [
    "Verif.Mutex.C04_mutex_fifo",
    "Verif.Mutex.C04_mutex_release_count"
   ],
   "note": "order of acquisitions is the queue order; exactly k+1 releases"
  },
  {
   "property": "C05",
   "status": "proved",
   "theorems": [
    "Verif.Mutex.C05_mutex_no_lost_wakeup"
   ],
   "note": ""
  },
  {
   "property": "C06",
   "status": "proved",
   "theorems": [
    "Verif.Mutex.C06_mutex_stuck_only_behind_holder",
    "Verif.Mutex.C06_mutex_no_deadlock",
    "Verif.Mutex.C06_mutex_calls_terminate"
   ],
   "note": ""
  },
  {
   "property": "C07",
   "status": "proved",
   "theorems": [
    "Verif.Mutex.C07_mutex_try_lock_exact",
    "Verif.Mutex.C07_mutex_try_lock_never_sleeps"
   ],
   "note": ""
  },
  {
   "property": "C08",
   "status": "partial",
   "theorems": [
    "Verif.Mutex.C08_relock_breaks_exclusion",
    "Verif.Mutex.C08_relock_loses_the_mutex",
    "Verif.Mutex.C08_only_relock_breaks_partial"
   ],
   "note": "the property as stated is false: two witness executions; proved instead that a re-lock is the only way to break the lock"
  },
  {
   "property": "C09",
   "status": "proved",
   "theorems": [
    "Verif.RecMutex.C09_recursive_mutex_correct",
    "Verif.RecMutex.C09_recursive_mutex_excludes",
    "Verif.RecMutex.C09_recursive_mutex_count_exact",
    "Verif.RecMutex.C09_depth_is_observable",
    "Verif.RecMutex.C09_holder_relock_never_blocks"
   ],
   "note": "unrestricted clients, all nesting depths below the 2^64 wrap of the counter"
  },
  {
   "property": "C10",
   "status": "proved",
   "theorems": [
    "Verif.RecMutex.C10_recursive_mutex_handover",
    "Verif.RecMutex.C10_recursive_mutex_fifo",
    "Verif.RecMutex.C10_recursive_mutex_bad_unlock_changes_nothing",
    "Verif.RecMutex.C10_recursive_mutex_progress"
   ],
   "note": ""
  },
  {
   "property": "C100",
   "status": "partial",
   "theorems": [
    "Verif.Io.Fd.C100_nonblocking_partial",
    "Verif.Io.Fd.C100_argument_ignored",
    "Verif.Io.Fd.C100_becomes_blocking"
   ],
   "note": "holds without fcntl(F_SETFL); fcntl passes the va_list instead of its argument, so the flags come from a stack address (universal negation)"
  },
  {
   "property": "C101",
   "status": "partial",
   "theorems": [
    "Verif.Compose.C101_agree",
    "Verif.Compose.C101_waiting_not_run",
    "Verif.Compose.C101_idle",
    "Verif.Compose.C101_mutex",
    "Verif.Compose.C101_recursive_mutex",
    "Verif.Compose.C101_shared_mutex_partial",
    "Verif.Compose.C101_shared_mutex_stranded",
    "Verif.Compose.C101_monitor",
    "Verif.Compose.C101_semaphore",
    "Verif.Compose.C101_latch",
    "Verif.Compose.C101_wait_group",
    "Verif.Compose.C101_barrier",
    "Verif.Compose.C101_channel"
   ],
   "note": "holds for every object but co_shared_mutex; there a mixed wake-up leaves a reader registered though nobody holds the mutex, and the thread goes idle with it (witness). One object per env at a time"
  },
  {
   "property": "C102",
   "status": "proved",
   "theorems": [
    "Verif.Compose.C102_program_idle",
    "Verif.Compose.C102_pipeline_idle",
    "Verif.Compose.C102_fork_idle",
    "Verif.Compose.C102_any_pipeline_idle",
    "Verif.Compose.C102_pipeline_finite"
   ],
   "note": "all coroutines on one thread; source channel not of size fixed 0 (C40), group sizes and fork counts positive; finiteness once the time to spin for a mutex is over"
  },
  {
   "property": "C103",
   "status": "proved",
   "theorems": [
    "Verif.Compose.Many.C103_one_thread",
    "Verif.Compose.Many.C103_waiting_not_run",
    "Verif.Compose.Many.C103_idle",
    "Verif.Compose.Many.C103_mutex",
    "Verif.Compose.Many.C103_recursive_mutex",
    "Verif.Compose.Many.C103_monitor",
    "Verif.Compose.Many.C103_semaphore",
    "Verif.Compose.Many.C103_latch",
    "Verif.Compose.Many.C103_wait_group",
    "Verif.Compose.Many.C103_barrier",
    "Verif.Compose.Many.C103_channel",
    "Verif.Compose.Many.C103_program_idle",
    "Verif.Compose.Many.C103_pipeline_idle",
    "Verif.Compose.Many.C103_fork_idle",
    "Verif.Compose.Many.C103_any_pipeline_idle",
    "Verif.Compose.Many.C103_pipeline_finite"
   ],
   "note": "co_shared_mutex is left out (C101 has its witness); source channel not of size fixed 0 (C40), group sizes and fork counts positive; finiteness once the time to spin for a mutex is over; a coroutine on its way between two threads is assumed to arrive"
  },
  {
   "property": "C104",
   "status": "proved",
   "theorems": [
    "Verif.Compose.Many.C104_comes_to_rest",
    "Verif.Compose.Many.C104_mutex",
    "Verif.Compose.Many.C104_semaphore",
    "Verif.Compose.Many.C104_latch",
    "Verif.Compose.Many.C104_wait_group",
    "Verif.Compose.Many.C104_barrier",
    "Verif.Compose.Many.C104_channel",
    "Verif.Compose.Many.C104_pipeline",
    "Verif.Compose.Many.C104_fork"
   ],
   "note": "fairness is a hypothesis (Fair: crew, turn, use); from some point on the 10 ms of spinning are over; source channel not of size fixed 0 (C40); co_shared_mutex is left out (C101)"
  },
  {
   "property": "C105",
   "status": "proved",
   "theorems": [
    "Verif.Monitor.C105_wait_group",
    "Verif.Monitor.C105_latch",
    "Verif.Monitor.C105_semaphore",
    "Verif.Monitor.C105_barrier_returned_is_not_enough",
    "Verif.Mutex.C105_mutex"
   ],
   "note": "the protocol of the clients is a hypothesis (Careful); a barrier is not covered by the property, its participants may be still inside (witness)"
  },
  {
   "property": "C106",
   "status": "partial",
   "theorems": [
    "Verif.WakeFree.C106_protected_wakes_are_safe",
    "Verif.WakeFree.C106_unprotected_wake_goes_wrong",
    "Verif.WakeFree.C106_sleep_witness",
    "Verif.WakeFree.C106_preempted_witness",
    "Verif.Mutex.C106_mutex_wakes_under_spinlock",
    "Verif.Cv.C106_notify_under_mutex",
    "Verif.Cv.C106_notify_without_mutex",
    "Verif.RecMutex.C106_wakes_under_spinlock",
    "Verif.SharedMutex.C106_wakes_under_spinlock",
    "Verif.Monitor.C106_objects"
   ],
   "note": "holds when the waker has the lock the woken coroutine takes first (proved of all mutexes and of all objects of the library) or preemption is disabled and the coroutine is of the waker's thread; false of the code for sleep, wait()/join() and notifications without the mutex"
  },
  {
   "property": "C107",
   "status": "partial",
   "theorems": [
    "Verif.Races.C107_guarded_race_free_partial",
    "Verif.Races.C107_races_exactly",
    "Verif.Mutex.C107_mutex_orders_memory",
    "Verif.Publish.C107_result_published"
   ],
   "note": "true of all data that has a lock, of data under a co_mutex and of results; nine members that have no lock race: timeout__, timer_duration__, base_env_count, max_env_count, default_shared_stack_size__, clean_up__, exception__, schedule_thread_tid__, env__ (and priority__ with the functions that print)"
  },
  {
   "property": "C108",
   "status": "partial",
   "theorems": [
    "Verif.LibLocks.C108_no_deadlock_partial",
    "Verif.LibLocks.C108_deadlocks",
    "Verif.LibLocks.C108_sub_pub_apart",
    "Verif.LockOrder.no_deadlock",
    "Verif.LockOrder.deadlock_step"
   ],
   "note": "true of programs without timers and timed waits in which coroutines change only their own priorities; eight pairs of functions that deadlock otherwise, among them notify_one and unlock against wait_until"
  },
  {
   "property": "C109",
   "status": "partial",
   "theorems": [
    "Verif.Pipe.C109_owned",
    "Verif.Pipe.C109_lent_partial",
    "Verif.Pipe.C109_source_first",
    "Verif.Pipe.C109_take_reads_dead",
    "Verif.Pipe.C109_kept_reads_dead"
   ],
   "note": "true of collections, functions and ranges, which are copied; of iterators, arrays and initializer lists only if the data lives until the consumer has found the end and no stage is take; otherwise false (two universal negative theorems)"
  },
  {
   "property": "C11",
   "status": "partial",
   "theorems": [
    "Verif.SharedMutex.C11_rw_exclusion_fails",
    "Verif.SharedMutex.C11_rw_exclusion_partial",
    "Verif.SharedMutex.C11_rw_exclusion_states_partial",
    "Verif.SharedMutex.C11_only_readers_block_partial",
    "Verif.SharedMutex.C11_only_writers_block_partial"
   ],
   "note": "false of the code (witness); proved for every execution without a wake-up that sees a mixed queue, which is the only cause"
  },
  {
   "property": "C110",
   "status": "partial",
   "theorems": [
    "Verif.Create.C110_created",
    "Verif.Create.C110_nothing_scheduled",
    "Verif.Create.C110_leaks_iff_partial",
    "Verif.Create.C110_stopped_env_leaks",
    "Verif.Create.C110_timers_stop"
   ],
   "note": "an exception always has a cause and leaves the lists of the envs alone; but everything allocated is released if and only if one of the first two calls fails (exact), later failures leak the coroutine, n attempts on a stopped env leak n of them (universal), and a failure in the timer thread ends all timers (universal)"
  },
  {
   "property": "C111",
   "status": "partial",
   "theorems": [
    "Verif.Crash.C111_report_partial",
    "Verif.Crash.C111_one_signal_ends",
    "Verif.Crash.C111_second_ends",
    "Verif.Crash.C111_status",
    "Verif.Crash.C111_no_deadlock_partial",
    "Verif.Crash.C111_background_waits_for_itself",
    "Verif.Crash.C111_cut_short",
    "Verif.Crash.C111_twice",
    "Verif.Crash.C111_deadlocks"
   ],
   "note": "one signal, in a thread that has no lock of the library and is no background thread, ends the process with a whole report; a background thread waits for itself for ever (universal negation); with a lock held the handler can deadlock, two signals cut the report short or call exit twice (witnesses)"
  },
  {
   "property": "C112",
   "status": "partial",
   "theorems": [
    "Verif.ChanThrow.C112_channel_stays_correct",
    "Verif.ChanThrow.C112_outcome",
    "Verif.ChanThrow.C112_nobody_stranded_partial",
    "Verif.ChanThrow.C112_receiver_stranded",
    "Verif.ChanThrow.C112_sender_stranded",
    "Verif.ChanThrow.C112_value_lost"
   ],
   "note": "a call that throws has no effect and everything comes to rest, for all channels; nobody is stranded if only one coroutine receives (sends) or no copy out (in) throws; with two receivers or two senders a woken coroutine whose copy throws swallows the notification (witnesses); a value is lost if the assignment after pop throws (witness); unbuffered channels: see C38"
  },
  {
   "property": "C113",
   "status": "partial",
   "theorems": [
    "Verif.TimedLock.C113_timed_is_locking",
    "Verif.TimedLock.C113_outcome",
    "Verif.TimedLock.C113_true_at_once",
    "Verif.TimedLock.C113_returns_after_deadline",
    "Verif.TimedLock.C113_timed_mutex",
    "Verif.TimedLock.C113_no_overtaking",
    "Verif.TimedLock.C113_recursive_timed_mutex",
    "Verif.TimedLock.C113_shared_timed_mutex_partial",
    "Verif.TimedLock.C113_semaphore",
    "Verif.TimedLock.C113_timed_mutex_returns",
    "Verif.TimedLock.C113_recursive_timed_mutex_returns",
    "Verif.TimedLock.C113_shared_timed_mutex_returns",
    "Verif.TimedLock.C113_may_miss"
   ],
   "note": "outcome, exclusion, ownership, no overtaking and the return after the deadline are proved for all objects, interleavings and clocks; the shared mutex excludes only if no writer calls the blocking lock() (see C11); a lock that becomes free before the deadline may be missed, any number of times (witness for every number)"
  },
  {
   "property": "C114",
   "status": "partial",
   "theorems": [
    "Verif.Io.Errno.C114_own_outcome_partial",
    "Verif.Io.Errno.C114_cooperative",
    "Verif.Io.Errno.C114_success",
    "Verif.Io.Errno.C114_would_block_reported",
    "Verif.Io.Errno.C114_error_retried"
   ],
   "note": "proved for all schedules in which no preemption falls between a failed system call and the look at errno, in particular without preemption; success is reported truthfully under any preemption; otherwise false: a would-block is reported as any error, any error is retried any number of times (witnesses)"
  },
  {
   "property": "C115",
   "status": "partial",
   "theorems": [
    "Verif.Starve.C115_mutex",
    "Verif.Starve.C115_recursive_mutex",
    "Verif.Starve.C115_semaphore_starved",
    "Verif.Starve.C115_receiver_starved",
    "Verif.Starve.C115_sender_starved",
    "Verif.Starve.C115_writer_starved"
   ],
   "note": "proved for co_mutex and co_recursive_mutex once the coroutine is queued; false for the semaphore, for receivers and senders of channels and for writers of a shared mutex: for every k an execution in which the waiting coroutine is passed by k times (for channels of any capacity but 0)"
  },
  {
   "property": "C116",
   "status": "partial",
   "theorems": [
    "Verif.Static.C116_once",
    "Verif.Static.C116_construction_ends",
    "Verif.Static.C116_alive_partial",
    "Verif.Static.C116_older_serves_coroutines",
    "Verif.Static.C116_older_uses_dead",
    "Verif.Static.C116_unused_library",
    "Verif.Static.C116_younger_used_when_gone",
    "Verif.Static.C116_other_thread"
   ],
   "note": "construction, first use and signals proved in full; the end of the program proved for static objects that use the library in the constructor if they use it in the destructor (handles) and for objects older than the manager that coroutines use; false for objects older than the manager whose destructor uses the library (a global co_wait_group, a global container of handles): their destructor always gets a destroyed manager; false for younger objects that coroutines use"
  },
  {
   "property": "C117",
   "status": "partial",
   "theorems": [
    "Verif.Mmap.C117_disjoint",
    "Verif.Mmap.C117_untouched_partial",
    "Verif.Mmap.C117_within",
    "Verif.Mmap.C117_shrink_keeps",
    "Verif.Mmap.C117_pages_returned",
    "Verif.Mmap.C117_overflow_harms",
    "Verif.Mmap.C117_guard"
   ],
   "note": "separation, shrinking and freeing proved in full; that others leave a stack alone is proved as long as nobody overflows; the last part is false of the code, which has no guard page: for all sizes the kernel may place one stack right below another, and the first byte beyond the upper stack is then written into the lower one without a fault; with guard pages it is proved"
  },
  {
   "property": "C118",
   "status": "partial",
   "theorems": [
    "Verif.Alloc.C118_guarded_partial",
    "Verif.Alloc.C118_thread_lost",
    "Verif.Alloc.C118_cache_broken",
    "Verif.Alloc.C118_still_broken"
   ],
   "note": "proved for programs that enter the allocator only under a preemption guard; false otherwise: the signal handler moves a list node, so it frees and allocates, and in every reachable state in which the interrupted coroutine is inside the allocator the thread is lost for good or the thread's cache is entered twice; a handler that does not allocate would not be enough"
  },
  {
   "property": "C119",
   "status": "partial",
   "theorems": [
    "Verif.FdSet.C119_small_partial",
    "Verif.FdSet.C119_large_overwrites",
    "Verif.FdSet.C119_large_fails",
    "Verif.FdSet.C119_large_spins"
   ],
   "note": "proved for descriptors below 1024 (FD_SETSIZE); false for all others: a bit outside the set is set in every case, the memory behind the set is replaced by the kernel's answer, and depending on what was there the function fails or keeps the thread busy"
  },
  {
   "property": "C12",
   "status": "partial",
   "theorems": [
    "Verif.SharedMutex.C12_wake_right_iff",
    "Verif.SharedMutex.C12_mixed_wake_outcome"
   ],
   "note": "false for exactly the queues with a reader first and a writer somewhere; proved for all other queues"
  },
  {
   "property": "C120",
   "status": "partial",
   "theorems": [
    "Verif.AtExit.C120_wakes",
    "Verif.AtExit.C120_only_then",
    "Verif.AtExit.C120_ends",
    "Verif.AtExit.C120_thread_never",
    "Verif.AtExit.C120_safe_partial",
    "Verif.AtExit.C120_joined_uses_freed",
    "Verif.AtExit.C120_woken_uses_freed"
   ],
   "note": "waking, not before, and not stuck proved in full for coroutines; false for threads (universal) and for the destruction of the condition variable after a join or after the wake-ups (universal, from every such state); safe if the coroutine has left the event, which a program cannot find out"
  },
  {
   "property": "C121",
   "status": "partial",
   "theorems": [
    "Verif.Report.C121_dump_complete",
    "Verif.Report.C121_dump_within",
    "Verif.Report.C121_shared_not_dumped",
    "Verif.Report.C121_maps_complete_partial",
    "Verif.Report.C121_exe_unknown",
    "Verif.Report.C121_exe_overflow",
    "Verif.Report.C121_ids_lost",
    "Verif.Report.C121_trace_partial",
    "Verif.Report.C121_trace_cut"
   ],
   "note": "stacks of ordinary coroutines and the memory map proved; false for suspended coroutines on a shared stack (never dumped), for the path of the program (never named; undefined behaviour exactly if it cannot be found or has 1024 characters or more), for the ids if the map cannot be opened, and for more than 100 frames"
  },
  {
   "property": "C122",
   "status": "partial",
   "theorems": [
    "Verif.Given.C122_once",
    "Verif.Given.C122_runs_on_own",
    "Verif.Given.C122_constructed",
    "Verif.Given.C122_call_gone",
    "Verif.Given.C122_freed_all",
    "Verif.Given.C122_not_early",
    "Verif.Given.C122_released_partial",
    "Verif.Given.C122_kept"
   ],
   "note": "existence while running, exactly-once destruction, and release by a complete scheduling step proved; false in general: an env that sleeps keeps what its ended coroutines were given, joined and detached ones included"
  },
  {
   "property": "C123",
   "status": "partial",
   "theorems": [
    "Verif.Chan.C123_operators",
    "Verif.Chan.C123_nothing_received_lost",
    "Verif.Chan.C123_lt_tells_partial",
    "Verif.Chan.C123_chain_prefix",
    "Verif.Chan.C123_shl_silent",
    "Verif.Chan.C123_end_test",
    "Verif.Chan.C123_same_channel"
   ],
   "note": "what every expression does and shows is proved exactly, nothing received is lost, a prefix of a chain enters; false: << does not tell what was lost, iterators of one channel always compare equal"
  },
  {
   "property": "C124",
   "status": "proved",
   "theorems": [
    "Verif.Ordered.C124_no_deadlock",
    "Verif.Ordered.C124_unlock_never_throws",
    "Verif.Ordered.C124_terminates",
    "Verif.Ordered.C124_opposite_deadlocks",
    "Verif.Ordered.C124_kept_blocks",
    "Verif.Compose.Many.C124_idle"
   ],
   "note": "for any number of mutexes, coroutines and threads; two schedules show that neither condition can be dropped"
  },
  {
   "property": "C125",
   "status": "proved",
   "theorems": [
    "Verif.Monitor.C125_sections_order",
    "Verif.Monitor.C125_channel_publishes",
    "Verif.Monitor.C125_capacity_publishes",
    "Verif.Monitor.C125_semaphore_publishes",
    "Verif.Monitor.C125_latch_publishes",
    "Verif.Monitor.C125_wait_group_publishes",
    "Verif.Monitor.C125_barrier_publishes",
    "Verif.Monitor.C125_after_send_races"
   ],
   "note": "what is done after sending is not ordered: a data race shows the limit"
  },
  {
   "property": "C126",
   "status": "proved",
   "theorems": [
    "Verif.StartHb.C126_creation_publishes",
    "Verif.StartHb.C126_timer_publishes",
    "Verif.StartHb.C126_after_creation_unordered"
   ],
   "note": "what the creator does after the creation is not ordered: shown by an execution"
  },
  {
   "property": "C127",
   "status": "proved",
   "theorems": [
    "Verif.Monitor.C127_at_most",
    "Verif.Monitor.C127_one_permit_protects",
    "Verif.Monitor.C127_two_permits_race",
    "Verif.Monitor.C127_stranger_race"
   ],
   "note": "the conditions are needed: with two permits, or if somebody puts back what they have not taken, there are races"
  },
  {
   "property": "C128",
   "status": "partial",
   "theorems": [
    "Verif.RecMutex.C128_recursive_mutex_orders_memory",
    "Verif.SharedMutex.C128_shared_mutex_orders_memory_partial",
    "Verif.SharedMutex.C128_one_kind_blocks_partial",
    "Verif.SharedMutex.C128_shared_mutex_race"
   ],
   "note": "proved for the recursive mutex; false of the shared mutex (race by witness, the wake-up of C11); proved for every execution without a wake-up that sees a mixed queue"
  },
  {
   "property": "C129",
   "status": "proved",
   "theorems": [
    "Verif.Talk.C129_stream",
    "Verif.Talk.C129_messages",
    "Verif.Talk.C129_finishes",
    "Verif.Talk.C129_both_write"
   ],
   "note": "prefix and message invariants over all runs; a measure that goes down in every round of a conversation that is not over; with both sides writing first more than fits neither call ever returns"
  },
  {
   "property": "C13",
   "status": "partial",
   "theorems": [
    "Verif.SharedMutex.C13_reader_stranded",
    "Verif.SharedMutex.C13_never_strands_partial",
    "Verif.SharedMutex.C13_stuck_only_behind_holder_partial",
    "Verif.SharedMutex.C13_calls_terminate_partial"
   ],
   "note": "false of the code (a reader sleeps for ever); proved for executions without a mixed wake-up"
  },
  {
   "property": "C130",
   "status": "partial",
   "theorems": [
    "Verif.Shutdown.C130_ended_threads_leave_envs",
    "Verif.Shutdown.C130_unbounded",
    "Verif.Shutdown.C130_never_freed",
    "Verif.Shutdown.C130_freed_with_manager_partial"
   ],
   "note": "false: in every execution each ended thread leaves its env until the manager is destroyed, without bound; one schedule in which even the manager leaves it; proved that otherwise the manager's destruction frees them"
  },
  {
   "property": "C131",
   "status": "proved",
   "theorems": [
    "Verif.JoinHb.C131_waited_sees",
    "Verif.JoinHb.C131_wait_learns",
    "Verif.JoinHb.C131_join_no_race",
    "Verif.JoinHb.C131_timeout_orders_nothing"
   ],
   "note": "all data and any number of coroutines that wait for each other; a wait that timed out is shown to order nothing"
  },
  {
   "property": "C132",
   "status": "partial",
   "theorems": [
    "Verif.Wait.C132_no_deadlock_partial",
    "Verif.Wait.C132_bounded",
    "Verif.Wait.C132_finishes_partial",
    "Verif.Wait.C132_circle_forever",
    "Verif.Wait.C132_preempted_stuck"
   ],
   "note": "holds without the preemption window between unlock_schedule and unlock_finished_state (co_env.cpp:174-175); with it C132_preempted_stuck shows a run that stops; waits with time-out are only in C132_circle_forever (C50 has their deadlock)"
  },
  {
   "property": "C133",
   "status": "partial",
   "theorems": [
    "Verif.RwOrdered.C133_no_deadlock_partial",
    "Verif.RwOrdered.C133_unlock_never_throws_partial",
    "Verif.RwOrdered.C133_terminates_partial",
    "Verif.RwOrdered.C133_one_mode",
    "Verif.RwOrdered.C133_ordered_deadlocks",
    "Verif.RwOrdered.C133_opposite_deadlocks"
   ],
   "note": "holds as long as no wake-up finds a reader at the head of a queue with a writer in it (co_shared_mutex.cpp:209-217, C13); C133_ordered_deadlocks: without that condition one mutex and three coroutines are enough to block for ever; C133_one_mode: programs that wait for each mutex in one mode only never get there"
  },
  {
   "property": "C134",
   "status": "proved",
   "theorems": [
    "Verif.RecOrdered.C134_no_deadlock",
    "Verif.RecOrdered.C134_unlock_never_throws",
    "Verif.RecOrdered.C134_terminates",
    "Verif.RecOrdered.C134_opposite_deadlocks",
    "Verif.RecOrdered.C134_kept_blocks"
   ],
   "note": "the count does not wrap in the model (2^64 nested locks)"
  },
  {
   "property": "C135",
   "status": "proved",
   "theorems": [
    "Verif.EnvLife.C135_own_env_accepts",
    "Verif.EnvLife.C135_runs_only_there",
    "Verif.EnvLife.C135_accepted_runs",
    "Verif.EnvLife.C135_other_env_refuses",
    "Verif.EnvLife.C135_thread_env_refuses"
   ],
   "note": "the end of the program stops every env; it counts as a stop by somebody"
  },
  {
   "property": "C136",
   "status": "proved",
   "theorems": [
    "Verif.Options.C136_last_wins",
    "Verif.Options.C136_default",
    "Verif.Options.C136_made",
    "Verif.Options.C136_answers",
    "Verif.Options.C136_ids",
    "Verif.Options.C136_owned_ids_differ",
    "Verif.Options.C136_small_stack",
    "Verif.Options.C136_id_reused"
   ],
   "note": "priorities changed after the creation are C47 and C52; where a bound coroutine runs is C135; that the lock flag keeps the coroutine alive against the scheduler's own steps is C53, C54 and C88"
  },
  {
   "property": "C137",
   "status": "partial",
   "theorems": [
    "Verif.Io.ClientErr.C137_error_iff_failed",
    "Verif.Io.ClientErr.C137_text_partial",
    "Verif.Io.ClientErr.C137_wrong_text",
    "Verif.Io.ClientErr.C137_log_text"
   ],
   "note": "the text is right only without a preemption between the failed call and the return, and if the logging leaves errno alone; the rest is false (C137_wrong_text, C137_log_text)"
  },
  {
   "property": "C138",
   "status": "partial",
   "theorems": [
    "Verif.Defer.C138_nested",
    "Verif.Defer.C138_exactly_once",
    "Verif.Defer.C138_variables_exist",
    "Verif.Defer.C138_careful_not_terminated",
    "Verif.Defer.C138_destroyed_never_runs",
    "Verif.Defer.C138_comes_to_end",
    "Verif.Defer.C138_throwing_action"
   ],
   "note": "proved of all coroutines that are not destroyed and all actions that let no exception out; an exception that leaves an action ends the program (C138_throwing_action), and a coroutine that is destroyed unfinished never runs its actions (C138_destroyed_never_runs)"
  },
  {
   "property": "C14",
   "status": "partial",
   "theorems": [
    "Verif.SharedMutex.C14_unlock_checked",
    "Verif.SharedMutex.C14_unlock_exact_partial",
    "Verif.SharedMutex.C14_holder_unlock_throws"
   ],
   "note": "a holder's unlock can throw after a mixed wake-up (witness); the rest is proved"
  },
  {
   "property": "C15",
   "status": "proved",
   "theorems": [
    "Verif.TimedTry.C15_true_iff_acquired",
    "Verif.TimedTry.C15_false_iff_deadline",
    "Verif.TimedTry.C15_terminates",
    "Verif.TimedTry.C15_for_waits_long_enough",
    "Verif.TimedTry.C15_timed_call"
   ],
   "note": "attempts and clock are arbitrary functions of the iteration"
  },
  {
   "property": "C16",
   "status": "proved",
   "theorems": [
    "Verif.Cv.C16_sleepers_are_the_unnotified",
    "Verif.Cv.C16_notify_all_not_lost",
    "Verif.Cv.C17_cv_correct"
   ],
   "note": "the user's mutex is abstract (any correct lock)"
  },
  {
   "property": "C17",
   "status": "proved",
   "theorems": [
    "Verif.Cv.C17_cv_correct",
    "Verif.Cv.C17_notify_one_in_order",
    "Verif.Cv.C17_cv_lock_released",
    "Verif.Cv.C17_no_deadlock"
   ],
   "note": ""
  },
  {
   "property": "C18",
   "status": "proved",
   "theorems": [
    "Verif.Cv.C18_wait_holds_mutex",
    "Verif.Cv.C18_returns_with_mutex"
   ],
   "note": ""
  },
  {
   "property": "C19",
   "status": "partial",
   "theorems": [
    "Verif.Cv.C19_returns_only_if_true_partial",
    "Verif.Cv.C19_timed_true_only_if_pred_partial",
    "Verif.Cv.C19_waits_even_if_true_negation"
   ],
   "note": "returns only with the predicate true: proved; false of the code that it does not wait if the predicate is already true (proved negation)"
  },
  {
   "property": "C20",
   "status": "partial",
   "theorems": [
    "Verif.Cv.C20_own_timeout_returns_false_partial",
    "Verif.Cv.C20_no_timeout_returns_true_partial",
    "Verif.Cv.C20_sticky_timeout_negation",
    "Verif.Cv.C20_sticky_timeout_pred_negation"
   ],
   "note": "false of the code: the flag timeout__ is never reset; proved for the first time-out and for executions without time-outs"
  },
  {
   "property": "C21",
   "status": "partial",
   "theorems": [
    "Verif.Cv.C21_fire_wakes_partial",
    "Verif.Cv.C21_sleeping_timed_waiter_partial",
    "Verif.Cv.C21_early_fire_lost_negation"
   ],
   "note": "false of the code if the timer fires before registration; proved otherwise"
  },
  {
   "property": "C22",
   "status": "proved",
   "theorems": [
    "Verif.Monitor.C22_critical_sections_atomic",
    "Verif.Monitor.C22_stuck_only_parked",
    "Verif.Monitor.C22_terminates",
    "Verif.Monitor.C22_real_mutex",
    "Verif.Monitor.C22_wakes_its_own",
    "Verif.Monitor.C22_real_mutex_stuck",
    "Verif.Monitor.C22_real_mutex_terminates",
    "Verif.Monitor.C22_programs",
    "Verif.Monitor.C22_programs_stuck",
    "Verif.Monitor.C22_programs_terminate"
   ],
   "note": "for every object of the shape, first with an ideal mutex, then with every step of co_mutex in the model; then for programs of any number of coroutines that use any number of objects"
  },
  {
   "property": "C23",
   "status": "proved",
   "theorems": [
    "Verif.Semaphore.C23_semaphore_correct",
    "Verif.Semaphore.C23_permits_conserved",
    "Verif.Monitor.C24_semaphore_real_mutex"
   ],
   "note": ""
  },
  {
   "property": "C24",
   "status": "proved",
   "theorems": [
    "Verif.Semaphore.C24_no_stranded_permit",
    "Verif.Semaphore.C24_terminates",
    "Verif.Monitor.C24_semaphore_real_mutex"
   ],
   "note": ""
  },
  {
   "property": "C25",
   "status": "proved",
   "theorems": [
    "Verif.Semaphore.C25_try_never_parks",
    "Verif.Semaphore.C25_try_exact",
    "Verif.Semaphore.C23_semaphore_correct"
   ],
   "note": ""
  },
  {
   "property": "C26",
   "status": "proved",
   "theorems": [
    "Verif.Latch.C26_latch_correct",
    "Verif.Latch.C26_passes_only_at_zero",
    "Verif.Latch.C26_stays_open",
    "Verif.Latch.C26_releases_everybody",
    "Verif.Latch.C26_terminates",
    "Verif.Monitor.C26_latch_real_mutex"
   ],
   "note": ""
  },
  {
   "property": "C27",
   "status": "proved",
   "theorems": [
    "Verif.WaitGroup.C27_waits_for_all",
    "Verif.WaitGroup.C27_abort_iff_too_many",
    "Verif.WaitGroup.C27_releases_everybody",
    "Verif.WaitGroup.C27_terminates",
    "Verif.Monitor.C27_wait_group_real_mutex"
   ],
   "note": ""
  },
  {
   "property": "C28",
   "status": "proved",
   "theorems": [
    "Verif.Barrier.C28_barrier_correct",
    "Verif.Barrier.C28_no_early_release",
    "Verif.Barrier.C28_phases_counted",
    "Verif.Monitor.C29_barrier_real_mutex"
   ],
   "note": ""
  },
  {
   "property": "C29",
   "status": "proved",
   "theorems": [
    "Verif.Barrier.C29_blocked_only_in_open_phase",
    "Verif.Barrier.C29_terminates",
    "Verif.Barrier.C29_exact_participants_never_throw",
    "Verif.Barrier.C29_exact_participants_never_all_blocked",
    "Verif.Monitor.C29_barrier_real_mutex"
   ],
   "note": ""
  },
  {
   "property": "C30",
   "status": "partial",
   "theorems": [
    "Verif.Barrier.C30_drop_does_not_wait_partial",
    "Verif.Barrier.C30_drop_blocks_barrier_negation"
   ],
   "note": "false of the code: a drop blocks the barrier for ever (proved for every size and execution); proved only that the call itself does not wait"
  },
  {
   "property": "C31",
   "status": "proved",
   "theorems": [
    "Verif.CallOnce.C31_at_most_once",
    "Verif.CallOnce.C31_exactly_once"
   ],
   "note": ""
  },
  {
   "property": "C32",
   "status": "partial",
   "theorems": [
    "Verif.CallOnce.C32_winner_waits_partial",
    "Verif.CallOnce.C32_returns_before_completion_negation",
    "Verif.CallOnce.C32_never_retried_negation"
   ],
   "note": "false of the code for callers that lose the race and after an exception; proved for the caller that runs the callable"
  },
  {
   "property": "C33",
   "status": "proved",
   "theorems": [
    "Verif.Chan.C33_fifo_exactly_once",
    "Verif.Monitor.C37_channel_real_mutex"
   ],
   "note": ""
  },
  {
   "property": "C34",
   "status": "proved",
   "theorems": [
    "Verif.Chan.C34_capacity",
    "Verif.Chan.C34_unlimited_push_never_waits",
    "Verif.Monitor.C37_channel_real_mutex"
   ],
   "note": ""
  },
  {
   "property": "C35",
   "status": "proved",
   "theorems": [
    "Verif.Chan.C35_nothing_enters_after_close",
    "Verif.Chan.C35_push_after_close_false",
    "Verif.Chan.C35_rest_delivered",
    "Verif.Chan.C35_drained_only_when_closed_and_empty",
    "Verif.Chan.C35_pop_result"
   ],
   "note": ""
  },
  {
   "property": "C36",
   "status": "proved",
   "theorems": [
    "Verif.Chan.C36_push_result_truthful"
   ],
   "note": ""
  },
  {
   "property": "C37",
   "status": "proved",
   "theorems": [
    "Verif.Chan.C37_no_stranded_waiter",
    "Verif.Chan.C37_terminates",
    "Verif.Monitor.C37_channel_real_mutex"
   ],
   "note": ""
  },
  {
   "property": "C38",
   "status": "partial",
   "theorems": [
    "Verif.Chan.C38_returns_after_received",
    "Verif.Chan.C38_single_producer_partial",
    "Verif.Chan.C38_two_producers_negation",
    "Verif.Chan.C38_waiting_producer_never_enters_negation"
   ],
   "note": "second half is false of the code for two producers (two negations proved); proved for a single producer"
  },
  {
   "property": "C39",
   "status": "proved",
   "theorems": [
    "Verif.Chan.C39_loop_step",
    "Verif.Chan.C39_never_null",
    "Verif.Chan.C39_loop_sees_everything"
   ],
   "note": ""
  },
  {
   "property": "C40",
   "status": "proved",
   "theorems": [
    "Verif.Pipe.C40_any_source",
    "Verif.Pipe.C40_delivers",
    "Verif.Pipe.C40_complete_before_close_any",
    "Verif.Pipe.C40_complete_before_close",
    "Verif.Pipe.C40_terminates",
    "Verif.Pipe.C40_delivered_in_the_end"
   ],
   "note": "Groups of positive size (a group of size 0 has no list function; the code then pushes func({}) for ever). reduce over an empty source delivers the initial value; group drops an incomplete last group (both part of the list function)."
  },
  {
   "property": "C41",
   "status": "proved",
   "theorems": [
    "Verif.Pipe.C41_each_item_once",
    "Verif.Pipe.C41_closes_afterwards",
    "Verif.Pipe.C41_delivered_in_the_end"
   ],
   "note": ""
  },
  {
   "property": "C42",
   "status": "partial",
   "theorems": [
    "Verif.Pipe.C42_finite_source_partial",
    "Verif.Pipe.C42_next_to_source_partial",
    "Verif.Pipe.C42_source_never_stops",
    "Verif.Pipe.C42_filter_never_stops",
    "Verif.Pipe.C42_bounded_source_parked"
   ],
   "note": "True for finite sources with unlimited channels and for a take next to an endless source; false with a stage in between (three universal negative theorems)."
  },
  {
   "property": "C43",
   "status": "partial",
   "theorems": [
    "Verif.Sched.C43_best_priority_partial",
    "Verif.Sched.C43_window"
   ],
   "note": "proved outside the wake-up window (a waker between clearing the wait flag and updating the minimum priority); inside the window false of the code (witness)"
  },
  {
   "property": "C44",
   "status": "proved",
   "theorems": [
    "Verif.Sched.C44_round_robin"
   ],
   "note": ""
  },
  {
   "property": "C45",
   "status": "proved",
   "theorems": [
    "Verif.Sched.C45_only_runnable"
   ],
   "note": ""
  },
  {
   "property": "C46",
   "status": "partial",
   "theorems": [
    "Verif.Sched.C46_bookkeeping_partial",
    "Verif.Sched.C46_preempted_priority_change_loses_coroutine",
    "Verif.Sched.C46_witness"
   ],
   "note": "proved when set_priority is not preempted in the middle; false of the code otherwise (universal negation and witness)"
  },
  {
   "property": "C47",
   "status": "partial",
   "theorems": [
    "Verif.Priority.C47_set_priority",
    "Verif.Priority.C47_option_partial",
    "Verif.Priority.C47_range",
    "Verif.Priority.C47_option_wraps",
    "Verif.Priority.C47_option_zero"
   ],
   "note": "proved for set_priority and for options below 2^31; larger options are truncated to int (exact characterisation, negation)"
  },
  {
   "property": "C48",
   "status": "proved",
   "theorems": [
    "Verif.StateManager.C48_final_stays",
    "Verif.StateManager.C48_seen_final"
   ],
   "note": ""
  },
  {
   "property": "C49",
   "status": "partial",
   "theorems": [
    "Verif.Wait.C49_returns_result",
    "Verif.Wait.C49_rethrows",
    "Verif.Wait.C49_rethrown_once_partial",
    "Verif.Wait.C49_rethrown_twice"
   ],
   "note": "proved, except that the exception is rethrown to the first waiter only if no two waits read exception__ at the same time; otherwise false of the code (witness)"
  },
  {
   "property": "C50",
   "status": "partial",
   "theorems": [
    "Verif.Wait.C50_woken",
    "Verif.Wait.C50_end_is_published_partial",
    "Verif.Wait.C50_preempted_waiter_deadlock",
    "Verif.Wait.C50_preempted_waiter_witness",
    "Verif.Wait.C50_timed_wait_deadlock"
   ],
   "note": "proved when the preemption signal misses the window before unlock_finished_state and no timer of a timed wait fired; false of the code otherwise (two permanent deadlocks)"
  },
  {
   "property": "C51",
   "status": "partial",
   "theorems": [
    "Verif.Wait.C51_nullopt",
    "Verif.Wait.C51_no_stray_wakeup",
    "Verif.Wait.C51_timeout_wakes",
    "Verif.Wait.C49_returns_result",
    "Verif.Wait.C50_timed_wait_deadlock"
   ],
   "note": "results and wake-up proved; false of the code when finish and time-out coincide (permanent deadlock)"
  },
  {
   "property": "C52",
   "status": "proved",
   "theorems": [
    "Verif.Priority.C52_priority_restored",
    "Verif.Priority.C52_moved"
   ],
   "note": "coroutines do not change env (C56: the code that moves them is dead); C52_moved: false if they did"
  },
  {
   "property": "C53",
   "status": "partial",
   "theorems": [
    "Verif.Life.C53_destroyed_once",
    "Verif.Life.C53_destroyed_rightly_partial",
    "Verif.Life.C53_stop_destroys"
   ],
   "note": "at most once always; finished, unlocked and not running as long as the env is not stopped; remove_all_ctx__ destroys unfinished coroutines with handles"
  },
  {
   "property": "C54",
   "status": "partial",
   "theorems": [
    "Verif.Life.C54_only_cause",
    "Verif.Life.C54_no_shared_partial",
    "Verif.Life.C54_shared_stack_used_after_free"
   ],
   "note": "holds without shared-stack coroutines; false with them: a finished coroutine without a handle is destroyed by remove_detached_ctx__ in the detour over the idle coroutine and then accessed by switch_shared_stack_ctx__"
  },
  {
   "property": "C55",
   "status": "proved",
   "theorems": [
    "Verif.Sched.C55_only_movable_taken",
    "Verif.Sched.C55_rest_untouched",
    "Verif.Sched.C55_no_loss_no_duplicate"
   ],
   "note": ""
  },
  {
   "property": "C56",
   "status": "partial",
   "theorems": [
    "Verif.LockCount.C56_never_moved"
   ],
   "note": "The code violates the property: proved that the monitor never moves a coroutine, in no execution (its own try_lock makes the counter nonzero)."
  },
  {
   "property": "C57",
   "status": "partial",
   "theorems": [
    "Verif.LockCount.C57_disabled_inside",
    "Verif.LockCount.C57_enabled_outside_partial",
    "Verif.LockCount.C57_never_enabled_again"
   ],
   "note": "Disabled inside a section is proved; enabled outside holds only until the first coroutine of the thread finishes (real_entry leaks its guard), proved both ways."
  },
  {
   "property": "C58",
   "status": "partial",
   "theorems": [
    "Verif.LockCount.C58_preempted_partial",
    "Verif.LockCount.C58_not_after_finish",
    "Verif.LockCount.C58_not_while_parked"
   ],
   "note": "Preempted if no coroutine has finished on the thread and none is blocked inside a guarded section; proved that otherwise no coroutine is ever preempted."
  },
  {
   "property": "C59",
   "status": "proved",
   "theorems": [
    "Verif.Manager.C59_placement",
    "Verif.Manager.C59_seen_schedulable",
    "Verif.EnvLife.C59_reachable",
    "Verif.EnvLife.C59_starting_env_chosen"
   ],
   "note": "Exact for envs that do not change while they are read; with changes, each chosen env was schedulable when read."
  },
  {
   "property": "C60",
   "status": "partial",
   "theorems": [
    "Verif.Manager.C60_busy_exclusive_partial",
    "Verif.Manager.C60_idle_exclusive_chosen",
    "Verif.Manager.C60_witness",
    "Verif.EnvLife.C60_reachable"
   ],
   "note": "The code violates the property: an idle exclusive env is chosen; exclusive envs that are not idle are never chosen."
  },
  {
   "property": "C61",
   "status": "partial",
   "theorems": [
    "Verif.Manager.C61_surplus",
    "Verif.Manager.C61_enough_stopped",
    "Verif.EnvLife.C61_owned",
    "Verif.EnvLife.C61_busy_env_stopped"
   ],
   "note": "Holds if the envs do not change between the monitor's test and its stop; otherwise an env with a coroutine can be stopped (witness)."
  },
  {
   "property": "C62",
   "status": "proved",
   "theorems": [
    "Verif.EnvLife.C62_only_stuck",
    "Verif.EnvLife.C62_stuck_signalled",
    "Verif.EnvLife.C62_every_env_visited"
   ],
   "note": ""
  },
  {
   "property": "C63",
   "status": "partial",
   "theorems": [
    "Verif.Manager.C63_limits_partial",
    "Verif.Manager.C63_limit_wraps",
    "Verif.Manager.C63_tick"
   ],
   "note": "The limit is kept in 32 bits: max(n,1) only for n < 2^32, zero for positive multiples of 2^32."
  },
  {
   "property": "C64",
   "status": "partial",
   "theorems": [
    "Verif.EnvLife.C64_accepted_runs_partial",
    "Verif.EnvLife.C64_never_picked",
    "Verif.EnvLife.C64_destroyed_unrun",
    "Verif.EnvLife.C64_stopped_env_accepts",
    "Verif.EnvLife.C64_assertion_fails",
    "Verif.EnvLife.C64_deleted_env_used",
    "Verif.EnvLife.C64_stopped_env_rejects_partial"
   ],
   "note": "The check and the insertion are not atomic with the stop; proved for envs nobody stops, and four witnesses of the race."
  },
  {
   "property": "C65",
   "status": "proved",
   "theorems": [
    "Verif.Timer.C65_not_early",
    "Verif.Timer.C65_order",
    "Verif.Timer.C65_callback_once",
    "Verif.Timer.C65_callback_not_early"
   ],
   "note": ""
  },
  {
   "property": "C66",
   "status": "partial",
   "theorems": [
    "Verif.Timer.C66_thread_enabled_partial",
    "Verif.Timer.C66_fires_partial",
    "Verif.Timer.C66_equal_expiry_never_fires",
    "Verif.Timer.C66_witness"
   ],
   "note": "proved when no two armed timers have equal expiry times; otherwise false of the code (universal negation): the second timer is silently dropped"
  },
  {
   "property": "C67",
   "status": "partial",
   "theorems": [
    "Verif.Timer.C67_idempotent",
    "Verif.Timer.C67_stop_exact_partial",
    "Verif.Timer.C67_stop_removes_other",
    "Verif.Timer.C67_witness"
   ],
   "note": "idempotence proved; exact removal proved for distinct expiry times, false otherwise (negation)"
  },
  {
   "property": "C68",
   "status": "partial",
   "theorems": [
    "Verif.Timer.C68_stopped_partial",
    "Verif.Timer.C68_callback_after_stop",
    "Verif.Timer.C68_witness"
   ],
   "note": "false of the code: a callback whose timer fired before stop may start after it (negation); proved for timers not yet fired"
  },
  {
   "property": "C69",
   "status": "partial",
   "theorems": [
    "Verif.Timer.C69_empty_queue_read",
    "Verif.Timer.C69_spurious_wakeup",
    "Verif.Timer.C69_no_stop_safe_partial"
   ],
   "note": "false of the code (witness executions); proved when nobody calls stop and no wake-up is spurious"
  },
  {
   "property": "C70",
   "status": "partial",
   "theorems": [
    "Verif.Timer.Locks.C70_unlock_by_owner",
    "Verif.Timer.Locks.C70_deadlock_permanent",
    "Verif.Timer.Locks.C70_deadlock_stop",
    "Verif.Timer.Locks.C70_deadlock_callback",
    "Verif.Timer.Locks.C70_deadlock_two_users",
    "Verif.Timer.Locks.C70_no_deadlock_partial"
   ],
   "note": "false of the code in three ways (witnesses; a deadlock is proved permanent); deadlock freedom proved for clients that start each timer at most once, never stop, and do not use timers in callbacks"
  },
  {
   "property": "C71",
   "status": "partial",
   "theorems": [
    "Verif.Timer.Sleep.C71_not_early",
    "Verif.Timer.Sleep.C71_woken_partial",
    "Verif.Timer.Sleep.C71_same_deadline_never_wakes",
    "Verif.Timer.Sleep.C71_witness"
   ],
   "note": "first half proved; second half proved for distinct deadlines, false for equal deadlines (universal negation)"
  },
  {
   "property": "C72",
   "status": "proved",
   "theorems": [
    "Verif.Machine.C72_switch_roundtrip",
    "Verif.Machine.C72_switch_self"
   ],
   "note": ""
  },
  {
   "property": "C73",
   "status": "partial",
   "theorems": [
    "Verif.Machine.C73_first_switch",
    "Verif.Machine.C73_alignment",
    "Verif.Machine.C73_misaligned_witness",
    "Verif.Machine.C73_tiny_stack"
   ],
   "note": "false for stack sizes below 16 or not a multiple of 16, which nothing rejects (shown); proved for all others"
  },
  {
   "property": "C74",
   "status": "proved",
   "theorems": [
    "Verif.Machine.Shared.C74_shared_stack_roundtrip",
    "Verif.Machine.Shared.C74_first_entry",
    "Verif.Machine.Shared.C74_copies_disjoint"
   ],
   "note": ""
  },
  {
   "property": "C75",
   "status": "proved",
   "theorems": [
    "Verif.Machine.Shared.C75_shrink_safe",
    "Verif.Machine.Shared.C75_stays_inside",
    "Verif.Machine.Shared.C75_shrink_effective",
    "Verif.Machine.Shared.C75_shrinks_every_1024th"
   ],
   "note": ""
  },
  {
   "property": "C76",
   "status": "partial",
   "theorems": [
    "Verif.Machine.C76_resume_by_signal_partial",
    "Verif.Machine.C76_resume_by_switch_partial",
    "Verif.Machine.C76_red_zone_overwritten",
    "Verif.Machine.C76_vector_registers_lost",
    "Verif.Machine.C76_witness",
    "Verif.Machine.Window.C76_contexts_intact_partial",
    "Verif.Machine.Window.C76_window_witness"
   ],
   "note": "false of the code: red zone and vector registers are lost when a preempted coroutine is continued by switch_to, and a signal between unlock_schedule and switch_to destroys another coroutine's context; general purpose registers proved intact otherwise"
  },
  {
   "property": "C77",
   "status": "partial",
   "theorems": [
    "Verif.Event.C77_handles_unique",
    "Verif.Event.C77_publish_partial",
    "Verif.Event.C77_unsub_exact",
    "Verif.Event.C77_publish_reentrant_partial",
    "Verif.Event.C77_self_unsub_ub",
    "Verif.Event.C77_order_wraps",
    "Verif.Event.C77_subscription_replaced"
   ],
   "note": "false of the code after 2^31 subscriptions (order) and 2^32 (a subscription is lost), and for a callback that unsubscribes itself (undefined behaviour); proved below these limits"
  },
  {
   "property": "C78",
   "status": "proved",
   "theorems": [
    "Verif.Any.C78_get_type_safe",
    "Verif.Any.C78_never_stuck"
   ],
   "note": ""
  },
  {
   "property": "C79",
   "status": "partial",
   "theorems": [
    "Verif.Any.C79_store_independent_partial",
    "Verif.Any.C79_copies_alias",
    "Verif.Any.C79_witness"
   ],
   "note": "false of the code: copies share the object, so writing through get changes the original (universal negation); assigning a new value is proved independent"
  },
  {
   "property": "C80",
   "status": "partial",
   "theorems": [
    "Verif.Local.C80_same_object_partial",
    "Verif.Local.C80_contents_partial",
    "Verif.Local.C80_defined_partial",
    "Verif.Local.C80_two_types_ub"
   ],
   "note": "proved if each coroutine uses each name with one type; otherwise undefined behaviour (shown)"
  },
  {
   "property": "C81",
   "status": "proved",
   "theorems": [
    "Verif.Io.WriteN.C81_write_n_success",
    "Verif.Io.WriteN.C81_write_n_prefix",
    "Verif.Io.WriteN.C81_write_n_inside",
    "Verif.Io.WriteN.ret_iff"
   ],
   "note": ""
  },
  {
   "property": "C82",
   "status": "partial",
   "theorems": [
    "Verif.Io.ReadN.C82_read_n_success_partial",
    "Verif.Io.ReadN.C82_read_n_safe",
    "Verif.Io.ReadN.C82_eof_never_returns",
    "Verif.Io.ReadN.ret_iff"
   ],
   "note": "first half proved; second half false of the code: read_n never returns after the peer closed (universal negation)"
  },
  {
   "property": "C83",
   "status": "partial",
   "theorems": [
    "Verif.Io.Connect.C83_connect_partial",
    "Verif.Io.Connect.C83_minus_one_cause",
    "Verif.Io.Connect.C83_immediate_success_is_error",
    "Verif.Io.Connect.C83_refused_is_success",
    "Verif.Io.Connect.C83_interrupted_is_error"
   ],
   "note": "false of the code in three ways (negations); exact causes of both results proved"
  },
  {
   "property": "C84",
   "status": "partial",
   "theorems": [
    "Verif.Io.C84_first_outcome_partial",
    "Verif.Io.C84_never_stuck",
    "Verif.Io.C84_read_interrupted",
    "Verif.Io.C84_sendto_would_block",
    "Verif.Io.Accept.C84_accept_partial",
    "Verif.Io.Accept.C84_accept_loses_connection"
   ],
   "note": "proved for read, write, send, recv, recvfrom, sendmsg, recvmsg; false for accept if fcntl fails, for read and write on sockets if interrupted"
  },
  {
   "property": "C85",
   "status": "partial",
   "theorems": [
    "Verif.Timer.C85_lost_notification",
    "Verif.Timer.C85_exits_partial"
   ],
   "note": "false of the code: the notification is lost between the check and the wait (negation); proved when the thread waits as the request arrives"
  },
  {
   "property": "C86",
   "status": "partial",
   "theorems": [
    "Verif.Sched.Idle.C86_no_lost_wakeup",
    "Verif.Sched.Idle.C86_wakes_up_partial",
    "Verif.Sched.Idle.C86_asleep_with_lock_forever",
    "Verif.Sched.Idle.C86_timed_wait_deadlock"
   ],
   "note": "no notification is lost, for all executions; that it arrives is proved when no coroutine switches while it holds the schedule lock. A timed wait of a condition variable does (co_condition_variable.h:111-113): then the thread sleeps with the lock and nobody can notify it (negations)"
  },
  {
   "property": "C87",
   "status": "partial",
   "theorems": [
    "Verif.Stacks.C87_freed_at_most_once",
    "Verif.Stacks.C87_stack_is_its_own",
    "Verif.Stacks.C87_freed_with_coroutine_partial",
    "Verif.Stacks.C87_shared_stack_leaks",
    "Verif.Stacks.C87_suspended_shared_stack_leaks"
   ],
   "note": "never freed twice or while in use; freed with the coroutine unless it runs on the shared stack. The copy of a shared-stack coroutine's frames is never freed once the coroutine has finished or the env stops (universal negations)"
  },
  {
   "property": "C88",
   "status": "partial",
   "theorems": [
    "Verif.Handle.C88_one_owner",
    "Verif.Handle.C88_released_once",
    "Verif.Handle.C88_owner_keeps_partial",
    "Verif.Handle.C88_stop_uaf"
   ],
   "note": "one owner and one release for all executions; no access to a destroyed object unless the env is stopped: then the objects are destroyed under their handles (negation)"
  },
  {
   "property": "C89",
   "status": "partial",
   "theorems": [
    "Verif.Handle.C89_waits",
    "Verif.Handle.C89_returns",
    "Verif.Handle.C89_terminates_only_partial",
    "Verif.Handle.C89_undelivered_terminates",
    "Verif.Handle.C89_self_terminates"
   ],
   "note": "the wait is proved for all executions. The program is terminated exactly when the coroutine threw and nobody has received the exception, or when it ends its own handle (universal negations)"
  },
  {
   "property": "C90",
   "status": "partial",
   "theorems": [
    "Verif.Handle.C90_null_only_partial",
    "Verif.Handle.C90_empty_harmless",
    "Verif.Handle.C90_empty_dereferenced"
   ],
   "note": "harmless: wait<void>, join, detach, name, destruction; a plain thread gets an exception from the other waits. A coroutine that calls wait<T> or wait_for, and every forwarded member, dereferences null (negation)"
  },
  {
   "property": "C91",
   "status": "partial",
   "theorems": [
    "Verif.Shutdown.C91_freed_once",
    "Verif.Shutdown.C91_worker_joined",
    "Verif.Shutdown.C91_before_partial",
    "Verif.Shutdown.C91_exit_uses_freed",
    "Verif.Shutdown.C91_plain_exit",
    "Verif.Shutdown.C91_running_thread",
    "Verif.Shutdown.C91_schedule_here"
   ],
   "note": "freed at most once, and scheduling threads of their own are joined first, for all executions; no use of a freed env before the destructor of the manager unless schedule_in_this_thread is used. Every ordinary exit after main has used the library frees the clean-up thread's env and then uses it (universal negation)"
  },
  {
   "property": "C92",
   "status": "partial",
   "theorems": [
    "Verif.Shutdown.C92_complete_partial",
    "Verif.Shutdown.C92_manager_partial",
    "Verif.Shutdown.C92_dropped_leaks",
    "Verif.Shutdown.C92_manager_used"
   ],
   "note": "complete when no env is still in the set as the clean-up thread empties it; such an env is never freed and its thread calls into the destroyed manager (negations)"
  },
  {
   "property": "C93",
   "status": "proved",
   "theorems": [
    "Verif.Shutdown.C93_progress",
    "Verif.Shutdown.C93_bounded"
   ],
   "note": "the timer thread the destructor waits for as well is C85"
  },
  {
   "property": "C94",
   "status": "partial",
   "theorems": [
    "Verif.Sections.C94_atomic_partial",
    "Verif.Sections.C94_guard_suffices",
    "Verif.Sections.C94_flags_partial",
    "Verif.Sections.C94_update_lost",
    "Verif.Sections.C94_wakeup_lost"
   ],
   "note": "holds unless a coroutine is preempted inside the section, which a preemption guard prevents; without guard the update of another coroutine of the thread is lost (universal negation), e.g. a wake-up"
  },
  {
   "property": "C95",
   "status": "partial",
   "theorems": [
    "Verif.Duration.C95_sleep",
    "Verif.Duration.C95_wait_partial",
    "Verif.Duration.C95_got",
    "Verif.Duration.C95_no_overflow",
    "Verif.Duration.C95_wait_early",
    "Verif.Duration.C95_forever"
   ],
   "note": "sleeps last; waits are cut to whole milliseconds, so less than a millisecond early (negation for every other duration); no overflow below 146 years, undefined behaviour for nanoseconds::max() (universal negation)"
  },
  {
   "property": "C96",
   "status": "partial",
   "theorems": [
    "Verif.Pipe.Throw.C96_prefix_partial",
    "Verif.Pipe.Throw.C96_never_ends",
    "Verif.Pipe.Throw.C96_comes_to_rest",
    "Verif.Pipe.Throw.C96_terminates_program"
   ],
   "note": "what arrives is right; but the stage that threw never closes its channel: unless a take comes behind it the consumer waits for ever (universal negation), and two exceptions in a fork terminate the program (witness)"
  },
  {
   "property": "C97",
   "status": "proved",
   "theorems": [
    "Verif.Real.C97_any_source",
    "Verif.Real.C97_delivers",
    "Verif.Real.C97_no_null",
    "Verif.Real.C97_progress",
    "Verif.Real.C97_delivered_in_the_end",
    "Verif.Real.C97_fork_delivered_in_the_end",
    "Verif.Real.C97_terminates"
   ],
   "note": "one consumer that reads the last channel; groups and forks of positive size; functions that do not throw (C96 else)"
  },
  {
   "property": "C98",
   "status": "partial",
   "theorems": [
    "Verif.Inversion.C98_holder_runs_partial",
    "Verif.Inversion.C98_holder_starved",
    "Verif.Inversion.C98_spins_for_ever"
   ],
   "note": "holds for a holder whose priority is at least as good as the waiter's; a holder of worse priority in the same thread never runs again, and the lock is never released (universal negation)"
  },
  {
   "property": "C99",
   "status": "partial",
   "theorems": [
    "Verif.Io.Fd.C99_reaches_partial",
    "Verif.Io.Fd.C99_no_leak_partial",
    "Verif.Io.Fd.C99_closed_copy_lost",
    "Verif.Io.Fd.C99_wrong_file",
    "Verif.Io.Fd.C99_close_error_repeated",
    "Verif.Io.Fd.C99_dropped_stays_open",
    "Verif.Io.Fd.C99_failed_init"
   ],
   "note": "holds when an object is closed only once no copy is left and the kernel reports no error; closing one copy takes the file away from the others (universal negation), which then reach the file that got the number next (witness); objects that end without close and failed fcntl calls leak the descriptor (universal negations)"
  }
 ]
}