{"id": "C01", "title": "Spinlock excludes", "statement": "Between a co_spinlock lock() (or successful try_lock()) of one coroutine and its unlock(), no other coroutine's lock() or try_lock() succeeds, as long as only the coroutine that took the lock calls unlock().", "quantifier": "all numbers of coroutines, all schedules, all sequences of lock/try_lock/unlock calls in which unlock is only called by the holder", "why_tests_cant": "a test run exercises one interleaving; the claim is about every interleaving of any number of coroutines", "anchors": ["source/cocpp/sync/co_spinlock.cpp: co_spinlock::lock, try_lock, unlock"]}
{"id": "C02", "title": "Mutex mutual exclusion", "statement": "At any time at most one coroutine is between a returned co_mutex lock()/true try_lock() and its unlock(): the trace of acquisitions and releases alternates and every release is by the last acquirer.", "quantifier": "all numbers of coroutines, all schedules at the granularity of single spinlock/queue operations, all client programs that never re-lock a mutex they hold", "why_tests_cant": "a test run exercises one interleaving; the claim is about every interleaving of any number of coroutines", "anchors": ["source/cocpp/sync/co_mutex.cpp: co_mutex::lock, try_lock, unlock"]}
{"id": "C03", "title": "Mutex unlock is checked", "statement": "co_mutex::unlock() by a coroutine that does not hold the mutex throws and changes nothing; by the holder it never throws.", "quantifier": "all reachable lock states, all callers, all schedules", "why_tests_cant": "a test run exercises one interleaving; the claim is about every interleaving of any number of coroutines", "anchors": ["source/cocpp/sync/co_mutex.cpp: co_mutex::unlock"]}
{"id": "C04", "title": "Mutex hands over in arrival order", "statement": "Once a coroutine is queued on a co_mutex nobody who queued later, and nobody who did not queue, acquires it earlier: with k coroutines queued ahead it holds the mutex after exactly k+1 releases.", "quantifier": "all queue lengths and positions, all schedules, all other coroutines' behaviour", "why_tests_cant": "needs every interleaving of late arrivals, try_lock barging and releases with a queue of any length", "anchors": ["source/cocpp/sync/co_mutex.cpp: wait_deque__, co_mutex::unlock"]}
{"id": "C05", "title": "Mutex never loses a wake-up", "statement": "A coroutine put to sleep by co_mutex::lock() is always still queued and somebody else owns the mutex; when it is handed the mutex its sleep flag is cleared. A free mutex has no sleeping or queued coroutine.", "quantifier": "all reachable states of all schedules", "why_tests_cant": "lost wake-ups need a precise interleaving of the sleep flag, the queue and the release", "anchors": ["source/cocpp/sync/co_mutex.cpp: co_mutex::lock 55-69, unlock 96-107", "source/cocpp/core/co_ctx.cpp: enter_wait_resource_state, leave_wait_resource_state"]}
{"id": "C06", "title": "Mutex cannot deadlock by itself", "statement": "In every reachable state in which some coroutine is inside lock()/try_lock()/unlock() and nobody holds the mutex between calls, some coroutine inside such a call can take a step, and the number of steps without an acquisition, time-out spin or return is bounded: the pending calls complete.", "quantifier": "all reachable states, all schedules", "why_tests_cant": "absence of deadlock is a statement about all reachable states", "anchors": ["source/cocpp/sync/co_mutex.cpp"]}
{"id": "C07", "title": "try_lock is exact and non-blocking", "statement": "co_mutex::try_lock() returns true exactly when the mutex is unowned at the moment it inspects it, and then the caller holds it; false leaves the mutex unchanged; it never sleeps.", "quantifier": "all reachable states, all schedules", "why_tests_cant": "a test run exercises one interleaving; the claim is about every interleaving of any number of coroutines", "anchors": ["source/cocpp/sync/co_mutex.cpp: co_mutex::try_lock"]}
{"id": "C08", "title": "Re-locking a held mutex does not break others", "statement": "A coroutine that calls lock() on a co_mutex it already holds must not make two coroutines hold the mutex at once (either it blocks or it throws).", "quantifier": "all histories containing a re-lock", "why_tests_cant": "a violation needs a waiter queued before the re-lock and then an unlock: a history, not an input", "anchors": ["source/cocpp/sync/co_mutex.cpp: co_mutex::lock 54-69"]}
{"id": "C09", "title": "Recursive mutex counts exactly", "statement": "A co_recursive_mutex is held by at most one coroutine; the holder may lock again without blocking and the mutex becomes available to others exactly when its number of unlock() calls equals its number of successful lock()/try_lock() calls.", "quantifier": "all nesting depths, all numbers of coroutines, all schedules", "why_tests_cant": "a test run exercises one interleaving; the claim is about every interleaving of any number of coroutines, and about every nesting depth", "anchors": ["source/cocpp/sync/co_recursive_mutex.cpp: lock, try_lock, unlock"]}
{"id": "C10", "title": "Recursive mutex hand-over", "statement": "A queued coroutine that is handed a co_recursive_mutex holds it at depth one, is awake, and coroutines are served in arrival order; unlock() by a non-holder throws and changes nothing.", "quantifier": "all queue contents, all schedules", "why_tests_cant": "a test run exercises one interleaving; the claim is about every interleaving of any number of coroutines", "anchors": ["source/cocpp/sync/co_recursive_mutex.cpp: lock 53-62, unlock 79-107"]}
{"id": "C11", "title": "Readers and writers exclude each other", "statement": "At any time a co_shared_mutex is held by one writer and nobody else, or only by readers.", "quantifier": "all numbers of readers and writers, all schedules", "why_tests_cant": "a test run exercises one interleaving; the claim is about every interleaving of any number of coroutines", "anchors": ["source/cocpp/sync/co_shared_mutex.cpp: lock, lock_shared, wake_up_waiters__"]}
{"id": "C12", "title": "Shared mutex wakes exactly the right waiters", "statement": "When a co_shared_mutex becomes free and a reader is first in the queue, exactly the queued readers acquire it (in shared mode) and exactly the queued writers stay queued in order; if a writer is first, exactly that writer acquires it.", "quantifier": "all queue contents of any length and mix", "why_tests_cant": "the number of queue contents is unbounded; tests use homogeneous queues", "anchors": ["source/cocpp/sync/co_shared_mutex.cpp: wake_up_waiters__ 185-218"]}
{"id": "C13", "title": "Shared mutex never strands a waiter", "statement": "No coroutine that is blocked in lock() or lock_shared() is ever forgotten: in every reachable state every sleeping coroutine is in the queue, and a free mutex has an empty queue.", "quantifier": "all reachable states of all schedules", "why_tests_cant": "a test run exercises one interleaving; the claim is about every interleaving of any number of coroutines", "anchors": ["source/cocpp/sync/co_shared_mutex.cpp"]}
{"id": "C14", "title": "Shared mutex unlock is checked", "statement": "unlock() succeeds only for the exclusive holder and unlock_shared() only for a shared holder; otherwise they throw and change nothing; a holder's matching unlock never throws.", "quantifier": "all reachable states, all callers", "why_tests_cant": "a test run exercises one interleaving; the claim is about every interleaving of any number of coroutines", "anchors": ["source/cocpp/sync/co_shared_mutex.cpp: unlock, unlock_shared"]}
{"id": "C15", "title": "Timed try-lock honours its deadline", "statement": "try_lock_until(t) (also try_lock_shared_until and try_acquire_until) returns true exactly if one of its attempts acquired, makes at least one attempt even if t is past, and returns false exactly if every attempt failed and the clock was seen to have reached t after the last one; it returns as soon as either happens.", "quantifier": "all clock behaviours, all outcomes of the individual attempts, all deadlines", "why_tests_cant": "the clock and the lock state at each attempt are environment inputs of unbounded length", "anchors": ["include/cocpp/sync/co_timed_addition.h: try_lock_until", "include/cocpp/sync/co_shared_timed_mutex.h: try_lock_shared_until", "include/cocpp/sync/co_counting_semaphore.h: try_acquire_until", "source/cocpp/utils/co_utils.cpp: co_timed_call"]}
{"id": "C16", "title": "Condition variable wait is atomic", "statement": "A notify issued after a coroutine's wait() released the mutex always finds that coroutine registered: no notification falls between releasing the mutex and going to sleep.", "quantifier": "all schedules of waiters, notifiers and mutex users at the granularity of single lock operations", "why_tests_cant": "a test run exercises one interleaving; the claim is about every interleaving of any number of coroutines", "anchors": ["include/cocpp/sync/co_condition_variable.h: wait", "source/cocpp/sync/co_condition_variable.cpp: notify_one, notify_all"]}
{"id": "C17", "title": "notify wakes the right waiters", "statement": "notify_one wakes exactly the longest waiting coroutine if there is one, notify_all wakes all of them, nobody wakes otherwise (no spurious wake-ups), and each wait() returns once.", "quantifier": "all waiter list contents, all schedules", "why_tests_cant": "a test run exercises one interleaving; the claim is about every interleaving of any number of coroutines", "anchors": ["source/cocpp/sync/co_condition_variable.cpp: notify_one 29-40, notify_all 18-27"]}
{"id": "C18", "title": "wait returns holding the mutex", "statement": "When co_condition_variable::wait returns, the caller holds the mutex it passed in; between release and re-acquisition it does not.", "quantifier": "all schedules", "why_tests_cant": "a test run exercises one interleaving; the claim is about every interleaving of any number of coroutines", "anchors": ["include/cocpp/sync/co_condition_variable.h: wait"]}
{"id": "C19", "title": "Predicate wait", "statement": "wait(lock, pred) returns only when pred is true with the mutex held, and if pred is already true it returns without waiting (as std::condition_variable::wait does).", "quantifier": "all predicates, all schedules", "why_tests_cant": "needs every history of predicate changes and notifications", "anchors": ["include/cocpp/sync/co_condition_variable.h: wait(lock, pred) 69-88"]}
{"id": "C20", "title": "Timed wait reports its own outcome", "statement": "wait_for/wait_until return false exactly when this call timed out; a time-out of one wait does not affect the result of another.", "quantifier": "all histories of waits, notifications and time-outs on one condition variable", "why_tests_cant": "the fault is in the history: an earlier time-out of another wait", "anchors": ["include/cocpp/sync/co_condition_variable.h: timeout__, wait_until"]}
{"id": "C21", "title": "Timed wait cannot outlive its time-out", "statement": "A coroutine in wait_until is awake again once its timer has fired, whatever the order of the timer firing and the registration.", "quantifier": "all interleavings of the waiting coroutine and its timer callback", "why_tests_cant": "the race window is a few instructions wide", "anchors": ["include/cocpp/sync/co_condition_variable.h: wait_until 90-117"]}
{"id": "C22", "title": "Monitor abstraction", "statement": "Objects built from one co_mutex and co_condition_variables (channel, semaphore, latch, wait group, barrier) behave as if each critical section up to its next wait() or return were executed atomically.", "quantifier": "all client objects of this shape, all schedules of the mutex and condition variable internals", "why_tests_cant": "a statement about all interleavings inside three layers of locks", "anchors": ["source/cocpp/sync/co_mutex.cpp", "include/cocpp/sync/co_condition_variable.h", "source/cocpp/sync/co_condition_variable.cpp"]}
{"id": "C23", "title": "Semaphore conserves permits", "statement": "The number of permits of a co_counting_semaphore is always initial + completed releases - completed acquisitions, never negative and never above its maximum.", "quantifier": "all initial values in range, all maxima, all numbers of coroutines, all schedules", "why_tests_cant": "a test run exercises one interleaving; the claim is about every interleaving of any number of coroutines", "anchors": ["include/cocpp/sync/co_counting_semaphore.h: acquire, release_one__, try_acquire"]}
{"id": "C24", "title": "Semaphore never strands a permit", "statement": "If no coroutine can make progress, then coroutines blocked in acquire() see zero permits and coroutines blocked in release() see the maximum; and a state where no coroutine can progress is reached after finitely many steps once no new calls are made.", "quantifier": "all reachable states, all schedules", "why_tests_cant": "a test run exercises one interleaving; the claim is about every interleaving of any number of coroutines", "anchors": ["include/cocpp/sync/co_counting_semaphore.h"]}
{"id": "C25", "title": "try_acquire is exact", "statement": "try_acquire() returns true exactly when a permit is available and then takes exactly one; otherwise it changes nothing and does not block.", "quantifier": "all reachable states", "why_tests_cant": "a test run exercises one interleaving; the claim is about every interleaving of any number of coroutines", "anchors": ["include/cocpp/sync/co_counting_semaphore.h: try_acquire"]}
{"id": "C26", "title": "Latch opens exactly at zero and stays open", "statement": "co_latch::wait() returns only after count_down calls have removed the full expected count; a count_down beyond the remaining count throws and changes nothing; once open it never closes; after it opens every waiter is released.", "quantifier": "all expected counts, all sequences of count_down with non-negative arguments, all schedules", "why_tests_cant": "a test run exercises one interleaving; the claim is about every interleaving of any number of coroutines", "anchors": ["source/cocpp/sync/co_latch.cpp"]}
{"id": "C27", "title": "Wait group", "statement": "co_wait_group::wait() returns exactly when done() was called at least count times, and the last done() releases all waiters.", "quantifier": "all counts, all schedules", "why_tests_cant": "a test run exercises one interleaving; the claim is about every interleaving of any number of coroutines", "anchors": ["source/cocpp/sync/co_wait_group.cpp"]}
{"id": "C28", "title": "Barrier phases do not leak", "statement": "No arrive_and_wait() on a co_barrier returns before the participants of its phase have all arrived (their counts sum to the barrier's size); the number of phases completed equals the waited count divided by the size.", "quantifier": "all sizes, all numbers of participants and phases, all schedules", "why_tests_cant": "a test run exercises one interleaving; the claim is about every interleaving of any number of coroutines", "anchors": ["source/cocpp/sync/co_barrier.cpp: arrive, wait"]}
{"id": "C29", "title": "Barrier releases everybody and is reusable", "statement": "When a phase completes every participant blocked in it is released, the barrier is ready for the next phase, and with exactly `expected` participants calling arrive_and_wait() repeatedly no call throws and none stays blocked in a completed phase.", "quantifier": "all sizes, all phases, all schedules", "why_tests_cant": "a test run exercises one interleaving; the claim is about every interleaving of any number of coroutines", "anchors": ["source/cocpp/sync/co_barrier.cpp"]}
{"id": "C30", "title": "arrive_and_drop reduces the barrier", "statement": "After a participant calls arrive_and_drop() the phase completes when the remaining participants have arrived, and later phases need one participant less.", "quantifier": "all sizes, all schedules", "why_tests_cant": "the effect shows only over several phases and arrival orders", "anchors": ["source/cocpp/sync/co_barrier.cpp: arrive_and_drop 58-61"]}
{"id": "C31", "title": "call_once runs once", "statement": "For one co_once_flag the callable is invoked at most once over all callers, and exactly once if anybody calls.", "quantifier": "all numbers of callers, all schedules", "why_tests_cant": "a test run exercises one interleaving; the claim is about every interleaving of any number of coroutines", "anchors": ["include/cocpp/sync/co_call_once.h: co_call_once"]}
{"id": "C32", "title": "call_once waits for completion", "statement": "When co_call_once returns to any caller, the callable has completed; if the callable throws, the exception reaches the caller and a later call runs it again (the std::call_once contract).", "quantifier": "all numbers of callers, all schedules, all outcomes of the callable", "why_tests_cant": "a test run exercises one interleaving; the claim is about every interleaving of any number of coroutines", "anchors": ["include/cocpp/sync/co_call_once.h: co_call_once"]}
{"id": "C33", "title": "Channel is FIFO and exactly-once", "statement": "The values popped from a co_chan are, in order, a prefix of the values accepted by push, in order; the rest is still in the channel: nothing is lost, duplicated or reordered.", "quantifier": "all channel kinds and capacities, all numbers of producers and consumers, all values, all schedules", "why_tests_cant": "a test run exercises one interleaving; the claim is about every interleaving of any number of coroutines", "anchors": ["include/cocpp/event/co_chan.h: push, pop"]}
{"id": "C34", "title": "Channel capacity", "statement": "A co_chan(n) with n>0 never holds more than n values, an unbuffered one never more than one; push on an unlimited one never blocks.", "quantifier": "all capacities, all schedules", "why_tests_cant": "a test run exercises one interleaving; the claim is about every interleaving of any number of coroutines", "anchors": ["include/cocpp/event/co_chan.h: fixed_chan::push, sync_chan::push, unlimited_chan::push"]}
{"id": "C35", "title": "Channel close", "statement": "After close() returns, every push returns false and adds nothing, closed() stays true, the values still in the channel are delivered in order, and then every pop returns nullopt; pop returns nullopt only on a closed, drained channel.", "quantifier": "all channel kinds, all schedules, all contents at close", "why_tests_cant": "a test run exercises one interleaving; the claim is about every interleaving of any number of coroutines", "anchors": ["include/cocpp/event/co_chan.h: close, push, pop"]}
{"id": "C36", "title": "Channel push result is truthful", "statement": "push returned true iff its value entered the channel (exactly once); a push that returned false left no value.", "quantifier": "all channel kinds, all schedules", "why_tests_cant": "a test run exercises one interleaving; the claim is about every interleaving of any number of coroutines", "anchors": ["include/cocpp/event/co_chan.h: push"]}
{"id": "C37", "title": "Buffered channel never strands anybody", "statement": "In a buffered or unlimited channel, when no coroutine can make progress, every coroutine blocked in pop sees an empty open channel and every coroutine blocked in push sees a full open channel; and such a state is reached in finitely many steps once no new calls are made.", "quantifier": "all capacities, all numbers of producers and consumers, all schedules", "why_tests_cant": "a test run exercises one interleaving; the claim is about every interleaving of any number of coroutines", "anchors": ["include/cocpp/event/co_chan.h: fixed_chan::push, pop, close"]}
{"id": "C38", "title": "Unbuffered channel is a rendezvous", "statement": "push on an unbuffered channel returns true only after its value has been received or the channel was closed; with any number of producers every push whose value was received returns.", "quantifier": "all numbers of producers and consumers, all schedules", "why_tests_cant": "the lost wake-up needs two producers and a particular order of arrivals", "anchors": ["include/cocpp/event/co_chan.h: sync_chan::push 201-230"]}
{"id": "C39", "title": "Range-for over a channel", "statement": "for (v : ch) yields exactly the values pop returns, in order, never dereferences an empty value, and ends exactly when pop reports a closed and drained channel.", "quantifier": "all contents, all concurrent closes and consumers", "why_tests_cant": "the end test re-reads the channel concurrently with other consumers", "anchors": ["include/cocpp/event/co_chan.h: iterator 336-408"]}
{"id": "C40", "title": "Pipeline stages compute the sequential function", "statement": "For every schedule of its coroutines, source | map f | filter p | take n | skip n | reduce | group n delivers exactly the corresponding list function of the source, and delivers it completely before closing.", "quantifier": "all source lists, functions, parameters and schedules", "why_tests_cant": "a test run exercises one interleaving; the claim is about every interleaving of any number of coroutines", "anchors": ["include/cocpp/pipeline/co_pipeline.h"]}
{"id": "C41", "title": "Fork stage processes each item once", "statement": "source | fork(n, f) with n>0 delivers f of every source item exactly once (in some order) and closes only afterwards.", "quantifier": "all source lists, worker counts, schedules", "why_tests_cant": "a test run exercises one interleaving; the claim is about every interleaving of any number of coroutines", "anchors": ["include/cocpp/pipeline/co_pipeline.h: fork 264-295"]}
{"id": "C42", "title": "A satisfied downstream stops its source", "statement": "When a downstream take(n) has delivered its n items, every stage upstream of it eventually stops, also when other stages lie between it and the source.", "quantifier": "all pipelines, all schedules", "why_tests_cant": "non-termination cannot be observed by a finite test", "anchors": ["include/cocpp/pipeline/co_pipeline.h: take 411-435, filter 346-366, map 250-262"]}
{"id": "C43", "title": "Strict priority", "statement": "When a scheduling thread picks the next coroutine it picks one of the best (numerically smallest) priority among its coroutines that are neither finished nor waiting; the idle coroutine runs only if there is none.", "quantifier": "all sets of coroutines and priorities, all histories of additions, sleeps, wake-ups, priority changes and completions", "why_tests_cant": "the cached minimum-priority hint must be right after every history of operations", "anchors": ["source/cocpp/core/co_env.cpp: choose_ctx_from_normal_list__, update_min_priority__, next_ctx__"]}
{"id": "C44", "title": "Round robin within a priority", "statement": "Coroutines of equal priority that stay runnable, with nothing of better priority runnable, are run in rotation: between two runs of one of them every other one runs once.", "quantifier": "all numbers of coroutines, all histories", "why_tests_cant": "fairness is a property of unbounded runs", "anchors": ["source/cocpp/core/co_env.cpp: choose_ctx_from_normal_list__ 527-548"]}
{"id": "C45", "title": "Sleeping and finished coroutines never run", "statement": "The scheduler never picks a coroutine that is finished or has any outstanding wait; a coroutine with several outstanding waits becomes runnable only after all of them ended.", "quantifier": "all histories of waits, wake-ups and completions", "why_tests_cant": "needs every order of overlapping waits", "anchors": ["source/cocpp/core/co_ctx.cpp: can_schedule, enter_wait_resource_state, leave_wait_resource_state"]}
{"id": "C46", "title": "Scheduler bookkeeping", "statement": "In a scheduling thread every coroutine is in exactly one priority list, that of its priority, and ctx_count() is the number of coroutines, after every history of additions, priority changes, picks, removals and migrations.", "quantifier": "all histories of operations", "why_tests_cant": "invariant over unbounded histories", "anchors": ["source/cocpp/core/co_env.cpp: move_ctx_to_here, handle_priority_changed, remove_ctx, take_all_movable_ctx, take_one_movable_ctx"]}
{"id": "C47", "title": "Priority is clamped", "statement": "A coroutine's effective priority is the requested one limited to 0..99, for construction options and set_priority alike.", "quantifier": "all requested values of the option type", "why_tests_cant": "the option type has 2^64 values", "anchors": ["source/cocpp/core/co_ctx.cpp: set_priority 91-119", "include/cocpp/core/co_ctx_config.h"]}
{"id": "C48", "title": "Finished is final", "statement": "Once a coroutine's state is finished (an env's state is destroying) no operation changes it again.", "quantifier": "all sequences of state changes", "why_tests_cant": "all histories", "anchors": ["include/cocpp/utils/co_state_manager.h: set_state"]}
{"id": "C49", "title": "wait returns the result, after completion", "statement": "co::wait<T>()/join() return only after the coroutine finished, and deliver the value its function returned (or rethrow its exception to the first waiter).", "quantifier": "all schedules of the coroutine and any number of waiters, all return values", "why_tests_cant": "a test run exercises one interleaving; the claim is about every interleaving of any number of coroutines", "anchors": ["source/cocpp/core/co_env.cpp: wait_ctx 154-187", "source/cocpp/core/co_ctx.cpp: real_entry, check_and_rethrow_exception"]}
{"id": "C50", "title": "wait never misses completion", "statement": "A coroutine blocked in wait()/join() on another is woken when that one finishes, however the finish and the start of the wait interleave.", "quantifier": "all interleavings of waiters with the finishing coroutine", "why_tests_cant": "a test run exercises one interleaving; the claim is about every interleaving of any number of coroutines", "anchors": ["source/cocpp/core/co_env.cpp: wait_ctx", "source/cocpp/core/co_ctx.cpp: real_entry 75-82"]}
{"id": "C51", "title": "Timed wait on a coroutine", "statement": "wait_for/wait_until return a value only if the coroutine finished and nullopt only if it had not finished when the wait ended; they return after at most the time-out (the waiting coroutine is woken by whichever of finish and timer comes first, and a second event is harmless).", "quantifier": "all interleavings of finish, timer and waiter", "why_tests_cant": "a test run exercises one interleaving; the claim is about every interleaving of any number of coroutines", "anchors": ["source/cocpp/core/co_env.cpp: wait_ctx 99-152"]}
{"id": "C52", "title": "Waiting restores priority", "statement": "Waiting on a coroutine leaves the waiter's own priority as it was before the wait, also when the wait rethrows.", "quantifier": "all priorities, all outcomes", "why_tests_cant": "all inputs and exits", "anchors": ["source/cocpp/core/co_env.cpp: wait_ctx 107-109, 161-164"]}
{"id": "C53", "title": "Live coroutines are not destroyed", "statement": "A coroutine object is destroyed at most once, only after it finished, only when no handle is attached, and never while it is the running one.", "quantifier": "all histories of detach, join, completion and scheduling", "why_tests_cant": "use after free needs a particular history", "anchors": ["source/cocpp/core/co_env.cpp: remove_detached_ctx__", "source/cocpp/co/co.cpp: detach, join"]}
{"id": "C54", "title": "No use of a destroyed coroutine by the scheduler", "statement": "The scheduler never dereferences a coroutine object after destroying it.", "quantifier": "all histories including shared-stack and detached coroutines", "why_tests_cant": "memory errors need a particular history", "anchors": ["source/cocpp/core/co_env.cpp: schedule_switch 311-329, switch_shared_stack_ctx__, remove_detached_ctx__"]}
{"id": "C55", "title": "Bound and shared-stack coroutines stay put", "statement": "A coroutine bound to an env, on a shared stack, running or finished is never offered for migration, and migration loses or duplicates no coroutine.", "quantifier": "all sets of coroutines, all histories", "why_tests_cant": "all histories", "anchors": ["source/cocpp/core/co_ctx.cpp: can_move", "source/cocpp/core/co_env.cpp: take_all_movable_ctx, take_one_movable_ctx"]}
{"id": "C56", "title": "Blocked threads lose their work to others", "statement": "When a scheduling thread is blocked in one coroutine, its other movable coroutines are moved to other threads; idle threads steal coroutines from loaded ones (README).", "quantifier": "all states of all envs", "why_tests_cant": "the guard that decides it reads a counter the caller has just incremented; a test can only fail to observe migration", "anchors": ["source/cocpp/core/co_manager.cpp: redistribute_ctx__, steal_ctx_routine__", "source/cocpp/core/co_env.cpp: can_force_schedule, co_recursive_mutex_with_count::try_lock"]}
{"id": "C57", "title": "Preemption guard balance", "statement": "Preemption of a thread is disabled exactly while some code on it is inside a library critical section; after all of them are left it is enabled again.", "quantifier": "all nestings and interleavings of guarded sections", "why_tests_cant": "all nestings", "anchors": ["source/cocpp/core/co_env.cpp: co_recursive_mutex_with_count", "include/cocpp/core/co_define.h: CoPreemptGuard, CoEnablePreempt"]}
{"id": "C58", "title": "A spinning coroutine is preempted", "statement": "A coroutine that never yields is preempted when other coroutines are on its thread, whatever those others are blocked on.", "quantifier": "all sets of blocked coroutines on the thread", "why_tests_cant": "needs a history in which a coroutine sleeps in a condition variable of the same thread", "anchors": ["source/cocpp/core/co_vos_gcc_x86_64.cpp: switch_from_outside", "source/cocpp/core/co_manager.cpp: force_schedule__", "include/cocpp/sync/co_condition_variable.h: wait"]}
{"id": "C59", "title": "Placement of new coroutines", "statement": "A new coroutine is placed on an idle env if there is one, else on a least loaded schedulable one, unless fewer than the base number of schedulable envs exist, in which case a new env is made; never on a destroying or blocked env or one without a thread.", "quantifier": "all sets of envs, states, flags and workloads", "why_tests_cant": "all configurations", "anchors": ["source/cocpp/core/co_manager.cpp: get_best_env__"]}
{"id": "C60", "title": "Exclusive envs stay exclusive", "statement": "A coroutine not bound to an exclusive env is never placed on it.", "quantifier": "all sets of envs, states and flags", "why_tests_cant": "all configurations", "anchors": ["source/cocpp/core/co_manager.cpp: get_best_env__ 36-48"]}
{"id": "C61", "title": "Surplus envs are removed safely", "statement": "The monitor only ever stops envs that are idle, empty, owned by the library and surplus: afterwards at least the configured maximum of schedulable envs remain.", "quantifier": "all sets of envs and limits", "why_tests_cant": "all configurations", "anchors": ["source/cocpp/core/co_manager.cpp: destroy_redundant_env__"]}
{"id": "C62", "title": "Forced scheduling hits only stuck threads", "statement": "The monitor signals an env only if it did not schedule since the previous tick, is busy and has more than one coroutine; an env that keeps scheduling between ticks is never signalled; a stuck one is signalled at the latest on the second tick.", "quantifier": "all histories of ticks and switches", "why_tests_cant": "all histories", "anchors": ["source/cocpp/core/co_manager.cpp: force_schedule__", "source/cocpp/core/co_env.cpp: is_blocked"]}
{"id": "C63", "title": "Limits are at least one", "statement": "set_base/max_schedule_thread_count(n) make the limit max(n,1); set_timer_tick_duration never goes below 10 ms.", "quantifier": "all argument values", "why_tests_cant": "2^64 inputs", "anchors": ["source/cocpp/core/co_manager.cpp: set_base_schedule_thread_count, set_max_schedule_thread_count, set_timer_tick_duration"]}
{"id": "C64", "title": "A created coroutine runs", "statement": "A coroutine handed to an env that accepted it is eventually picked or explicitly destroyed by its owner; an env being stopped never accepts one.", "quantifier": "all interleavings of creation with the monitor stopping an env", "why_tests_cant": "a race of two threads of a few instructions", "anchors": ["source/cocpp/core/co_manager.cpp: create_and_schedule_ctx, destroy_redundant_env__", "source/cocpp/core/co_env.cpp: add_ctx, stop_schedule, start_schedule_routine__"]}
{"id": "C65", "title": "Timers fire in order and not early", "statement": "A timer's callback is started only when its expiry time is reached, and expired timers are started in order of expiry time.", "quantifier": "all sets of timers, all clock behaviours", "why_tests_cant": "all histories", "anchors": ["source/cocpp/core/co_manager.cpp: timer_routine__", "source/cocpp/core/co_timer.cpp"]}
{"id": "C66", "title": "Every started timer fires", "statement": "A started timer that is not stopped fires once its time is reached, whatever other timers exist.", "quantifier": "all sets of timers, including equal expiry times", "why_tests_cant": "needs two timers with the same expiry instant", "anchors": ["source/cocpp/core/co_timer.cpp: operator<", "source/cocpp/core/co_manager.cpp: timer_queue__, insert_timer_to_queue__"]}
{"id": "C67", "title": "Stopping a timer affects only that timer", "statement": "timer->stop() removes that timer and no other; start and stop are idempotent.", "quantifier": "all sets of timers, all histories", "why_tests_cant": "needs equal expiry instants", "anchors": ["source/cocpp/core/co_timer.cpp: start, stop", "source/cocpp/core/co_manager.cpp: remove_timer_from_queue__"]}
{"id": "C68", "title": "A stopped timer does not fire", "statement": "After stop() returned, the callback does not start.", "quantifier": "all interleavings of stop and expiry", "why_tests_cant": "race of user thread, timer thread and callback coroutine", "anchors": ["source/cocpp/core/co_manager.cpp: timer_routine__ 363-379", "source/cocpp/core/co_timer.cpp: stop, run"]}
{"id": "C69", "title": "Timer thread is memory safe", "statement": "The timer thread never reads the first element of an empty queue.", "quantifier": "all interleavings of start/stop with the timer thread's wake-up", "why_tests_cant": "race of a few instructions", "anchors": ["source/cocpp/core/co_manager.cpp: timer_routine__ 355-363"]}
{"id": "C70", "title": "Timer operations do not deadlock", "statement": "Concurrent start/stop calls, the timer thread and running callbacks never deadlock.", "quantifier": "all interleavings of lock acquisitions", "why_tests_cant": "needs a particular interleaving of two lock orders", "anchors": ["source/cocpp/core/co_timer.cpp: start, stop, is_expired, run", "source/cocpp/core/co_manager.cpp: timer_routine__, insert_timer_to_queue__, remove_timer_from_queue__"]}
{"id": "C71", "title": "Sleep lasts", "statement": "sleep_until(t) returns not before t, and a sleeping coroutine is woken by its timer however the timer firing interleaves with going to sleep.", "quantifier": "all interleavings of sleeper and timer", "why_tests_cant": "a test run exercises one interleaving; the claim is about every interleaving of any number of coroutines", "anchors": ["include/cocpp/co/co_co.h: sleep_until 175-189"]}
{"id": "C72", "title": "Context switch preserves registers", "statement": "Switching away from a coroutine and later back restores every general purpose register, the flags, the stack pointer and the return address, for any values and any number of switches in between that do not write its save area or its stack.", "quantifier": "all register contents, memory contents and save areas", "why_tests_cant": "2^64 values per register; compiler-generated tests never control all of them", "anchors": ["source/cocpp/core/co_vos_gcc_x86_64.cpp: switch_to 42-96"]}
{"id": "C73", "title": "First switch enters the coroutine", "statement": "The first switch to a new coroutine starts its entry function with the coroutine as argument, the ABI stack alignment, and a return address below it, inside its stack.", "quantifier": "all stack addresses and sizes", "why_tests_cant": "all sizes and addresses", "anchors": ["source/cocpp/core/co_vos_gcc_x86_64.cpp: init_ctx 98-107"]}
{"id": "C74", "title": "Shared stack save and restore", "statement": "A shared-stack coroutine that is switched out and in again finds the bytes from its stack pointer to the stack top unchanged, whatever ran on the shared stack in between.", "quantifier": "all stack contents, depths and interleavings of shared-stack coroutines", "why_tests_cant": "all memory contents and histories", "anchors": ["source/cocpp/core/co_env.cpp: save_shared_stack__, restore_shared_stack__, switch_shared_stack_ctx__"]}
{"id": "C75", "title": "Stack shrinking keeps live data", "statement": "Giving stack pages back to the system never discards a byte at or above the stack pointer nor outside the stack's pages.", "quantifier": "all addresses", "why_tests_cant": "2^64 addresses", "anchors": ["source/cocpp/core/co_vos_gcc_x86_64.cpp: shrink_mem_to_top", "source/cocpp/core/co_ctx.cpp: shrink_stack"]}
{"id": "C76", "title": "Preempted code is resumed unharmed", "statement": "A coroutine preempted between two arbitrary instructions resumes with its registers and the 128 bytes below its stack pointer (ABI red zone) intact.", "quantifier": "all preemption points and memory contents", "why_tests_cant": "depends on the instruction at which the signal arrives", "anchors": ["source/cocpp/core/co_vos_gcc_x86_64.cpp: switch_from_outside, switch_to 71-95"]}
{"id": "C77", "title": "Event subscriptions", "statement": "publish calls exactly the currently subscribed callbacks, once each, in subscription order; unsub(h) removes exactly the subscription that returned h; handles are unique.", "quantifier": "all histories of sub/unsub/pub", "why_tests_cant": "handle truncation shows after 2^31 subscriptions", "anchors": ["include/cocpp/event/co_event.h"]}
{"id": "C78", "title": "co_any is type safe", "statement": "get<T>() returns the value last stored if it was stored as T and throws otherwise (also when empty).", "quantifier": "all types, values and histories", "why_tests_cant": "all histories and types", "anchors": ["include/cocpp/utils/co_any.h"]}
{"id": "C79", "title": "co_any copies are independent", "statement": "Changing a copy of a co_any does not change the original.", "quantifier": "all values and histories", "why_tests_cant": "aliasing shows only through mutation after copying", "anchors": ["include/cocpp/utils/co_any.h: co_any(const co_any &) = default"]}
{"id": "C80", "title": "Coroutine-local storage", "statement": "CoLocal(name, T) returns the same object for the same name within a coroutine, a value-initialised one on first use, and never another coroutine's.", "quantifier": "all names, coroutines and histories", "why_tests_cant": "all histories", "anchors": ["include/cocpp/core/co_ctx.h: local_storage"]}
{"id": "C81", "title": "write_n sends everything in order", "statement": "co_client::write_n returns success only after exactly the buffer's bytes were accepted by the kernel in order, whatever partial writes and EAGAINs occur.", "quantifier": "all buffers, all sequences of kernel outcomes", "why_tests_cant": "the sequence of partial writes is chosen by the kernel", "anchors": ["source/cocpp/io/co_client.cpp: write_n", "source/cocpp/io/co_io.cpp: write"]}
{"id": "C82", "title": "read_n fills the buffer", "statement": "co_client::read_n returns success only if the buffer was filled with the next bytes of the stream in order; it returns an error when the peer closes early.", "quantifier": "all streams, all sequences of kernel outcomes including end of file", "why_tests_cant": "end of file inside a message is a history", "anchors": ["source/cocpp/io/co_client.cpp: read_n", "source/cocpp/io/co_io.cpp: read"]}
{"id": "C83", "title": "connect reports the truth", "statement": "co_net::connect returns 0 iff the connection was established.", "quantifier": "all kernel outcomes of connect/select and SO_ERROR, all stale errno values", "why_tests_cant": "stale errno and asynchronous failure depend on the environment", "anchors": ["source/cocpp/io/co_net.cpp: connect 58-102"]}
{"id": "C84", "title": "I/O wrappers retry only when they must", "statement": "co_io/co_net read, write, send, recv, accept return the first kernel outcome that is not a would-block (or, for sockets, an interrupt), unchanged.", "quantifier": "all sequences of kernel outcomes", "why_tests_cant": "the sequence of outcomes is chosen by the kernel", "anchors": ["source/cocpp/io/co_io.cpp: read, write", "source/cocpp/io/co_net.cpp: accept, send, recv, recvfrom, sendmsg, recvmsg"]}
{"id": "C85", "title": "Destroying the manager ends the timer thread", "statement": "Once clean-up of the manager has been requested, the timer thread terminates by itself, whatever instant of its loop the request meets.", "quantifier": "all interleavings of set_clean_up__ with the timer thread", "why_tests_cant": "the lost notification needs the request between the check of the flag and the wait", "anchors": ["source/cocpp/core/co_manager.cpp: set_clean_up__, timer_routine__"]}
{"id": "C86", "title": "A sleeping scheduling thread is woken", "statement": "A thread that sleeps because its env has nothing to run does not stay asleep when a coroutine of the env becomes runnable, when a coroutine is moved to it, or when the env is told to stop: a notification is on its way and reaches it.", "quantifier": "all interleavings of the env's thread, of the threads that wake coroutines, change priorities, add, move and remove coroutines, and of stop_schedule", "why_tests_cant": "a lost wake-up needs the announcement to fall between the test of the lists and the wait", "anchors": ["source/cocpp/core/co_env.cpp: sleep_if_need__, need_sleep__, wake_up, ctx_leave_wait_state, move_ctx_to_here, stop_schedule, start_schedule_routine__, prepare_to_switch", "source/cocpp/core/co_ctx.cpp: leave_wait_resource_state"]}
{"id": "C87", "title": "Stacks are freed exactly once and never in use", "statement": "Every stack allocated for a coroutine is freed exactly once, when its coroutine is destroyed or its frames are back on the shared stack; until then no other coroutine has it.", "quantifier": "all schedules of an env with ordinary and shared-stack coroutines", "why_tests_cant": "a leak of a shared-stack coroutine's copy does not change any result", "anchors": ["source/cocpp/core/co_ctx_factory.cpp: create_ctx, destroy_ctx", "source/cocpp/core/co_env.cpp: save_shared_stack__, restore_shared_stack__, switch_shared_stack_ctx__, remove_detached_ctx__, remove_all_ctx__"]}
{"id": "C88", "title": "A coroutine has at most one owner, and its object lives as long as the owner", "statement": "However handles are created, moved, assigned, joined, detached and destroyed, a coroutine is owned by at most one handle; its destruction lock is released exactly once, when the last handle lets go of it; and no operation on a handle touches a coroutine object that has been destroyed.", "quantifier": "all programs of any number of threads and coroutines using any number of handles, all schedules of the env", "why_tests_cant": "a double release or an access to a freed object needs a particular interleaving and usually changes no result", "anchors": ["source/cocpp/co/co.cpp: detach, join, ~co, co(co &&), operator=", "source/cocpp/core/co_manager.cpp: create_and_schedule_ctx", "source/cocpp/core/co_ctx.cpp: lock_destroy, unlock_destroy", "source/cocpp/core/co_env.cpp: remove_detached_ctx__, remove_all_ctx__"]}
{"id": "C89", "title": "Ending a handle waits for its coroutine and does not bring the program down", "statement": "Destroying a handle or assigning to it lets go of the coroutine only when the coroutine's function has ended, and the program goes on afterwards.", "quantifier": "all programs using handles, all schedules, functions that return and functions that throw", "why_tests_cant": "the outcome depends on whether anybody has already received the exception, and on who runs the destructor", "anchors": ["source/cocpp/co/co.cpp: ~co, join, operator=", "source/cocpp/core/co_env.cpp: wait_ctx", "source/cocpp/core/co_ctx.cpp: real_entry, check_and_rethrow_exception"]}
{"id": "C90", "title": "Operations on an empty handle are defined", "statement": "A handle that was moved from, joined or detached can be used: no operation on it dereferences the null pointer it holds.", "quantifier": "all programs using handles, all schedules, callers that are coroutines and callers that are not", "why_tests_cant": "which operations test the pointer differs from one to the next, and with the caller", "anchors": ["include/cocpp/co/co_co.h: wait, wait_for, wait_until, ctx_ members", "source/cocpp/co/co.cpp: detach, join, name", "source/cocpp/core/co_env.cpp: wait_ctx"]}
{"id": "C91", "title": "Envs are freed exactly once and never while in use", "statement": "No env is freed twice, and no thread accesses an env that was freed: not the thread that schedules in it, not the thread it was made from, and not the library's own threads.", "quantifier": "all numbers of envs and threads, all schedules, from the construction of the manager to after its destruction", "why_tests_cant": "which thread still holds which env when the manager frees it depends on the schedule, and a use of freed memory mostly goes unnoticed", "anchors": ["source/cocpp/core/co_manager.cpp: clean_env_routine__, set_clean_up__, remove_env__, ~co_manager, current_env, remove_current_env", "source/cocpp/core/co_env_factory.cpp: destroy_env", "include/cocpp/core/co_env.h: worker__, task_finished__"]}
{"id": "C92", "title": "Destroying the manager is complete", "statement": "When the destructor of the manager has returned, every env with a scheduling thread has been freed, its thread has ended, and no thread uses the manager any more.", "quantifier": "all numbers of envs, all schedules", "why_tests_cant": "it needs a scheduling thread that is slow at the very moment the clean-up thread looks", "anchors": ["source/cocpp/core/co_manager.cpp: clean_env_routine__, ~co_manager, remove_env__", "source/cocpp/core/co_env.cpp: stop_schedule, start_schedule_routine__"]}
{"id": "C93", "title": "The clean-up thread of the manager ends", "statement": "Once the destructor of the manager has asked for it, the clean-up thread needs boundedly many steps of its own and waits only for scheduling threads that have left their loop already.", "quantifier": "all numbers of envs, all schedules of all threads", "why_tests_cant": "a hang shows only in particular schedules", "anchors": ["source/cocpp/core/co_manager.cpp: clean_env_routine__, set_clean_up__, wait_background_task__", "source/cocpp/core/co_env_factory.cpp: destroy_env"]}
{"id": "C94", "title": "Data under the library's locks is updated atomically", "statement": "Every completed update of data the library protects by a mutex of its own (setting or clearing a flag of a coroutine, inserting into or removing from a list of an env, an event or the timer queue) has its effect: the data is always the result of all updates so far, one after the other, whichever coroutines of whichever threads made them; in particular a flag is what the last operation on that flag made of it.", "quantifier": "all data and update functions, any number of threads and coroutines, all schedules including preemption at any point", "why_tests_cant": "the window is a few instructions wide and opens only if the switch signal arrives in it", "anchors": ["include/cocpp/utils/co_flag_manager.h: set_flag, unset_flag 18-27", "source/cocpp/core/co_vos_gcc_x86_64.cpp: switch_from_outside 142-165", "source/cocpp/core/co_env.cpp: can_force_schedule 687-690", "include/cocpp/core/co_define.h: CO_CTX_FLAG_WAITING 19"]}
{"id": "C95", "title": "Timed operations last as long as they were told", "statement": "sleep_for(d) does not return before d has passed since the call; wait_for(d) and wait_until(t) give up only when d has passed, or t is reached, and the coroutine has not finished; any representable duration is allowed.", "quantifier": "all durations in all units, all clock readings, all interleavings of any number of callers", "why_tests_cant": "tests use a few durations in milliseconds; rounding and overflow depend on the values", "anchors": ["source/cocpp/core/co_env.cpp: wait_ctx 118-120", "source/cocpp/core/co_timer.cpp: update_timeout_time__ 87-93", "include/cocpp/co/co_co.h: wait_for, wait_until, sleep_for 156-173"]}
{"id": "C96", "title": "An exception in a pipeline ends it", "statement": "If a function given to a pipeline (of the source or of a stage) throws, the consumer's loop over the results still ends or rethrows the exception; what it got before is a beginning of the right result, and it is told that the result is complete only if it is.", "quantifier": "all pipelines, all items, all calls that may throw, all schedules", "why_tests_cant": "which call throws and how far the other stages are is unbounded", "anchors": ["include/cocpp/pipeline/co_pipeline.h: all stages, detach", "source/cocpp/core/co_ctx.cpp: real_entry 65-86", "source/cocpp/co/co.cpp: join, ~co 31-62"]}
{"id": "C97", "title": "A pipeline is correct down to the mutexes of its channels", "statement": "However the coroutines of a pipeline interleave at the level of single steps of the mutexes and condition variables of its channels, what the consumer collects is always a beginning of the value of the list functions, every pipeline over a list comes to an end, and then the consumer's loop has ended with exactly that value; no coroutine reads an iterator without value.", "quantifier": "all sources, lists, stages, channel sizes, numbers of fork workers, all interleavings of all steps of all mutexes and condition variables", "why_tests_cant": "the number of interleavings of the steps inside push, pop and close of all channels is unbounded", "anchors": ["include/cocpp/pipeline/co_pipeline.h: all", "include/cocpp/event/co_chan.h: push, pop, close, begin, operator++", "source/cocpp/sync/co_condition_variable.cpp: wait, notify_one, notify_all", "source/cocpp/sync/co_mutex.cpp: lock, unlock"]}
{"id": "C98", "title": "Waiting for a spinlock lets the holder run", "statement": "A coroutine that waits for a co_spinlock yields in every turn of its loop; a holder in the same thread that is able to run therefore gets turns as long as the waiter keeps trying, and so can release the lock, whatever the priorities of the two are.", "quantifier": "all programs, coroutines, priorities, schedules, preemptions, all lengths of waiting", "why_tests_cant": "that a loop never ends is not observable in finite time, and whether it does depends on the schedule and on all priorities", "anchors": ["source/cocpp/sync/co_spinlock.cpp: lock, unlock", "source/cocpp/core/co_env.cpp: schedule_switch, next_ctx__, choose_ctx_from_normal_list__, update_min_priority__", "include/cocpp/core/co_define.h: CoYield"]}
{"id": "C99", "title": "An I/O object stands for one file", "statement": "Every operation of an I/O object, and of its copies, reaches the file the object was opened for until that object is closed, and fails afterwards; it never reaches the file of another object; and when all objects for a file are closed or have ended, its descriptor is closed.", "quantifier": "all programs with any number of objects, copies, descriptors opened elsewhere, all kernel results, all histories", "why_tests_cant": "whether a stale number has been given to another file depends on what the rest of the program opened in between", "anchors": ["include/cocpp/io/co_io.h: co_io", "source/cocpp/io/co_io.cpp: init_fd, close, read, write", "source/cocpp/io/co_file.cpp: open", "source/cocpp/io/co_net.cpp: socket, accept", "source/cocpp/io/co_client.cpp: get_endpoint", "source/cocpp/io/co_server.cpp: get_endpoint"]}
{"id": "C100", "title": "I/O through the library does not block the thread", "statement": "Every file reached by an operation of an I/O object is in non-blocking mode, unless the program switched that off with fcntl; fcntl(F_SETFL, flags) sets the flags it was given.", "quantifier": "all programs, objects, kernel results, histories, all addresses of the argument list", "why_tests_cant": "the flags set by fcntl depend on a stack address, which differs from run to run", "anchors": ["source/cocpp/io/co_io.cpp: init_fd, fcntl, ioctl", "source/cocpp/io/co_file.cpp: open"]}
{"id": "C101", "title": "A scheduling thread goes idle only when nobody in a call can go on", "statement": "When the scheduler of a thread finds nothing to run, every coroutine of that thread that is inside a call of a mutex, recursive mutex, shared mutex, semaphore, latch, wait group, barrier or channel waits for something that really is not there: the lock is held by somebody who is in no call of it and either belongs to another thread, has ended or waits for something else; no permit is left, the counter is not zero, the phase is not complete, the channel is empty (or full) and open. A coroutine is registered as waiting in its thread exactly while the object has put it to sleep, and is not run meanwhile.", "quantifier": "all numbers of coroutines and threads using the object, all priorities and priority changes, all interleavings of the calls with scheduling, waking, adding, migrating in and removing of coroutines", "why_tests_cant": "a lost wake-up shows up only in the interleavings in which the notification falls between the registration, the yield and the scheduler's scan of its lists", "anchors": ["source/cocpp/core/co_env.cpp: choose_ctx_from_normal_list__, add_ctx, handle_priority_changed", "source/cocpp/core/co_ctx.cpp: enter_wait_resource_state, leave_wait_resource_state, can_schedule", "source/cocpp/core/co_manager.cpp: ctx leave wait callback", "source/cocpp/sync/co_mutex.cpp: lock, unlock", "source/cocpp/sync/co_recursive_mutex.cpp: lock, unlock", "source/cocpp/sync/co_shared_mutex.cpp: lock, unlock, wake_up_waiters__", "include/cocpp/sync/co_condition_variable.h: wait", "source/cocpp/sync/co_condition_variable.cpp: notify_one, notify_all"]}
{"id": "C102", "title": "A thread that runs a pipeline stops only when everything is delivered", "statement": "When the scheduling thread that runs the coroutines of a pipeline goes idle, the consumer has received exactly the results of the list functions for the source's items (for a fork: in some order), and the coroutines make only finitely many steps until then. More generally, when the thread that runs the coroutines of any program over mutexes, condition variables and the objects built from them goes idle, no coroutine can go on, nobody is left inside lock or unlock, and everybody has ended, waits in the queue of a condition variable or waits for the end of a coroutine that has not ended.", "quantifier": "all programs, pipelines, channel sizes and contents, all priorities, all interleavings of switches, wake-ups, additions and the steps of every mutex and condition variable", "why_tests_cant": "the number of interleavings of several coroutines inside several channels with the scheduler's own steps", "anchors": ["include/cocpp/pipeline/co_pipeline.h: co_pipeline", "include/cocpp/event/co_chan.h: push, pop, close", "source/cocpp/core/co_env.cpp: choose_ctx_from_normal_list__, wait_ctx", "source/cocpp/core/co_ctx.cpp: enter_wait_resource_state, leave_wait_resource_state", "source/cocpp/sync/co_mutex.cpp: lock, unlock"]}
{"id": "C103", "title": "When all threads are idle the work is done", "statement": "However many scheduling threads there are and however the coroutines are spread over them and moved between them: a coroutine belongs to at most one thread, no thread gives processor time to a coroutine that an object makes wait, and when no thread finds anybody to run, everybody inside a call of a mutex, semaphore, latch, wait group, barrier or channel has a reason to wait, no step of any program over such objects is left, and the consumer of a pipeline has received all results; a pipeline makes only finitely many steps.", "quantifier": "all numbers of threads, all distributions and migrations of coroutines, all programs and pipelines, all interleavings of the threads' switches, wake-ups, additions and removals with the steps of every mutex and condition variable", "why_tests_cant": "a wake-up lost between two threads, or to a coroutine in migration, needs one interleaving out of an unbounded number; a test sees a hang only by chance", "anchors": ["source/cocpp/core/co_env.cpp: take_all_movable_ctx, take_one_movable_ctx, move_ctx_to_here, choose_ctx_from_normal_list__", "source/cocpp/core/co_manager.cpp: redistribute_ctx__, steal_ctx_routine__", "source/cocpp/core/co_ctx.cpp: enter_wait_resource_state, leave_wait_resource_state", "include/cocpp/pipeline/co_pipeline.h: co_pipeline"]}
{"id": "C104", "title": "With fair scheduling everything that can happen happens", "statement": "However many scheduling threads there are: if the threads keep looking for somebody to run, wake-ups and migrations are completed and processor time is used, then in every infinite execution with finitely many calls there is a moment after which every call of a mutex, semaphore, latch, wait group, barrier or channel has returned or has a reason to wait for ever, and the consumer of every pipeline has received exactly its results.", "quantifier": "all numbers of threads, all distributions and migrations of coroutines, all pipelines, all infinite fair executions", "why_tests_cant": "a statement about infinite executions: no finite run can refute it, and a lost wake-up shows up as a hang only under one interleaving", "anchors": ["source/cocpp/core/co_env.cpp: choose_ctx_from_normal_list__, schedule_switch, start_schedule_routine__", "source/cocpp/core/co_ctx.cpp: leave_wait_resource_state", "source/cocpp/sync/co_mutex.cpp: lock, unlock", "include/cocpp/pipeline/co_pipeline.h: co_pipeline"]}
{"id": "C105", "title": "An object may be destroyed when its last call has returned", "statement": "A coroutine that waits on a co_wait_group, co_latch or co_counting_semaphore and learns from the return of its call that all expected done(), count_down() or release() calls have happened may destroy the object at once, although it cannot know whether those calls have returned: none of them accesses the object any more. Likewise the last user of a co_mutex may destroy it when its unlock() has returned: no earlier unlock() accesses it any more.", "quantifier": "all counts, all numbers of coroutines, all interleavings at the level of single steps of the mutex and the condition variables, all clients that keep to the stated protocol", "why_tests_cant": "a use after destruction needs the destroyer to overtake the tail of another coroutine's call in a window of a few instructions, and even then usually goes unnoticed", "anchors": ["source/cocpp/sync/co_wait_group.cpp: ~co_wait_group, done, wait", "source/cocpp/sync/co_latch.cpp: count_down, wait, try_wait, arrive_and_wait", "include/cocpp/sync/co_counting_semaphore.h: acquire, release, try_acquire", "source/cocpp/sync/co_mutex.cpp: lock, unlock"]}
{"id": "C106", "title": "Waking a coroutine does not touch it after it was freed", "statement": "Whoever wakes a coroutine (unlock(), a notification, a timer, the end of a coroutine somebody waits for) does not access its object after the woken coroutine has run to its end and, being detached, has been freed.", "quantifier": "all numbers of coroutines, threads and locks, all interleavings of the single accesses of the waker with the woken coroutine, its thread and migrations", "why_tests_cant": "the woken coroutine has to end and be freed within a few instructions of the waker, and the stray access usually goes unnoticed", "anchors": ["source/cocpp/core/co_ctx.cpp: leave_wait_resource_state 192-207", "source/cocpp/core/co_env.cpp: remove_detached_ctx__ 198-212, ctx_leave_wait_state 558-565, wait_ctx", "include/cocpp/co/co_co.h: sleep_until 176-190", "source/cocpp/sync/co_condition_variable.cpp: notify_one, notify_all", "source/cocpp/sync/co_mutex.cpp: unlock"]}
{"id": "C107", "title": "No data races in the library, and none in programs that lock", "statement": "Whatever the coroutines and threads of a program do with the library, no two of them access the same non-atomic data of the library, one of them writing, without a happens-before order between the accesses. Data that programs access only while they hold a co_mutex is free of races too, and the result of a coroutine is visible to everybody who waited for it.", "quantifier": "all programs, numbers of threads and coroutines, lengths of the library's lists and interleavings", "why_tests_cant": "a data race shows only with the right compiler, processor and timing; race detectors see only the executed schedules and do not follow the library's stack switches", "anchors": ["source/cocpp/core/co_env.cpp", "source/cocpp/core/co_manager.cpp", "source/cocpp/core/co_ctx.cpp", "source/cocpp/core/co_timer.cpp", "source/cocpp/sync/co_mutex.cpp", "source/cocpp/sync/co_spinlock.cpp", "include/cocpp/event/co_event.h", "include/cocpp/utils/co_flag_manager.h", "include/cocpp/utils/co_state_manager.h", "include/cocpp/sync/co_condition_variable.h"]}
{"id": "C108", "title": "The library's internal locks never deadlock", "statement": "Whatever the coroutines of a program and the threads of the library do, there are never coroutines or threads that wait in a circle for internal locks of the library that others of them hold, or for a thread that one of them blocks. A program whose own locking is free of deadlocks is not brought to a standstill by the library.", "quantifier": "all programs, numbers of threads, envs and coroutines, placements of coroutines on threads, lengths of the library's lists and interleavings", "why_tests_cant": "a circle of locks closes only if two or more threads are between two particular lock operations at the same time; the library has some twenty kinds of locks, one set of them for each coroutine, env, timer and event", "anchors": ["source/cocpp/core/co_env.cpp", "source/cocpp/core/co_manager.cpp", "source/cocpp/core/co_ctx.cpp", "source/cocpp/core/co_timer.cpp", "source/cocpp/sync/co_mutex.cpp", "source/cocpp/sync/co_spinlock.cpp", "source/cocpp/sync/co_condition_variable.cpp", "include/cocpp/sync/co_condition_variable.h", "include/cocpp/event/co_event.h"]}
{"id": "C109", "title": "A pipeline reads only data that exists", "statement": "The coroutines of a pipeline never read source data after the program has destroyed it: neither after the expression that uses the pipeline has ended, nor after the statement that declared it.", "quantifier": "all sources, stages, capacities and schedules, all moments at which the program destroys the source data", "why_tests_cant": "the source runs in a detached coroutine; whether it reads before or after the end of the data depends on the schedule, and a late read usually returns the old bytes", "anchors": ["include/cocpp/pipeline/co_pipeline.h"]}
{"id": "C110", "title": "A failed creation of a coroutine has no consequences", "statement": "If a coroutine cannot be created (no memory, no stack, no thread, the env is stopped), the caller gets an exception, everything that was allocated for it is released, and nothing else changes: no env has a half-created coroutine, the other coroutines and the timers go on.", "quantifier": "all configurations, states of the envs and numbers of coroutines, whichever of the calls that allocate fails", "why_tests_cant": "some ten calls can fail, each only when memory, mappings or threads are exhausted; what was leaked is not visible", "anchors": ["source/cocpp/core/co_manager.cpp", "source/cocpp/core/co_ctx_factory.cpp", "source/cocpp/core/co_stack_factory.cpp", "source/cocpp/core/co_env_factory.cpp", "source/cocpp/core/co_env.cpp", "include/cocpp/co/co_co.h"]}
{"id": "C111", "title": "A fatal signal ends the process with a report", "statement": "After a signal that would kill the process, in whichever thread and at whatever moment, the whole report is printed and then the process ends, with a status that tells the signal; SIGPIPE is ignored.", "quantifier": "all threads and signals, all numbers of signals and background threads, all interleavings of the handlers with each other and of their locks with the library's code", "why_tests_cant": "the moment of a crash, what the crashed thread holds then and what other threads do meanwhile cannot be chosen in a test", "anchors": ["source/cocpp/exception/co_exception.cpp", "source/cocpp/core/co_manager.cpp"]}
{"id": "C112", "title": "An exception while copying a value leaves a channel working", "statement": "If copying a value throws inside push or pop, the caller gets the exception, the channel is as if the call had not been made, and nobody else is affected: no value is lost and nobody waits for a value or for room that is there.", "quantifier": "all kinds and capacities of channels, all numbers of coroutines, all choices of copies that throw, all interleavings, real mutex and condition variables", "why_tests_cant": "which copies throw and how they interleave with waiting coroutines cannot be enumerated", "anchors": ["include/cocpp/event/co_chan.h"]}
{"id": "C113", "title": "Timed locking is locking with a deadline", "statement": "A timed lock operation behaves as lock when it returns true (exclusion, ownership, no overtaking of waiting coroutines) and as nothing when it returns false; it returns false only when the deadline has passed, returns within a bounded number of its own steps after it, and obtains a lock that becomes free before the deadline.", "quantifier": "timed, recursive timed and shared timed mutexes and semaphores, all numbers of coroutines, all mixes of timed and untimed calls, all deadlines, durations and clocks, all interleavings", "why_tests_cant": "the clock, the moment of each release and the interleaving of the polling attempts cannot be enumerated", "anchors": ["include/cocpp/sync/co_timed_addition.h", "include/cocpp/sync/co_shared_timed_mutex.h", "include/cocpp/sync/co_counting_semaphore.h"]}
{"id": "C114", "title": "An I/O call judges by its own error code", "statement": "Whether a read, write, send or receive of the library tries again or returns, and what it returns, depends only on the outcomes of its own system calls, however the coroutines are scheduled, preempted and moved between threads.", "quantifier": "all numbers of coroutines and threads, all outcomes of system calls, all values left in errno by other code, all schedules with preemption and migration", "why_tests_cant": "the preemption must fall between one system call and the next instruction that reads errno", "anchors": ["source/cocpp/io/co_io.cpp", "source/cocpp/io/co_net.cpp", "source/cocpp/core/co_vos_gcc_x86_64.cpp"]}
{"id": "C115", "title": "Who waits is overtaken only so often", "statement": "While a coroutine waits in lock, acquire, push or pop, the number of times others that come later are served before it is bounded by the number of those that were waiting already.", "quantifier": "all numbers of coroutines, all lengths of the queue, all schedules, all numbers of rounds", "why_tests_cant": "a test sees some rounds of one schedule; starvation is a statement about any number of rounds", "anchors": ["source/cocpp/sync/co_mutex.cpp", "source/cocpp/sync/co_recursive_mutex.cpp", "source/cocpp/sync/co_shared_mutex.cpp", "include/cocpp/sync/co_counting_semaphore.h", "include/cocpp/event/co_chan.h", "include/cocpp/sync/co_condition_variable.h"]}
{"id": "C116", "title": "The manager is there when it is needed", "statement": "The manager of the library is constructed once, by the first use, and nobody is given it before its construction is complete; no switch signal is sent before the signal handlers are installed; and from the first to the last use by static objects of the program and by coroutines, whatever is used has not been destroyed.", "quantifier": "all numbers and orders of static objects, all combinations of uses in their constructors and destructors, all threads that use the library for the first time at once, all schedules up to the exit of the program", "why_tests_cant": "the order of construction of static objects of different files is not fixed, and tests end before the destructors of static objects run", "anchors": ["include/cocpp/utils/co_singleton.h", "source/cocpp/core/co_manager.cpp", "include/cocpp/core/co_manager.h", "source/cocpp/sync/co_wait_group.cpp", "source/cocpp/co/co.cpp", "include/cocpp/co/co_co.h"]}
{"id": "C117", "title": "A coroutine that runs out of stack harms nobody else", "statement": "The stacks of live coroutines never overlap; what a coroutine does with its own stack, and what is created, freed, shrunk or mapped elsewhere, changes no byte of another stack; shrinking keeps all frames in use; freeing returns exactly the pages of the stack; and a coroutine that calls more deeply than its stack allows is stopped before it writes into the memory of another.", "quantifier": "all stack sizes, all numbers of coroutines, all places the kernel may choose, all contents of memory, all sequences of creation, destruction, writes and shrinking", "why_tests_cant": "the place of a stack is chosen by the kernel, tests do not exhaust a stack, and damage to another stack shows much later in another coroutine", "anchors": ["source/cocpp/core/co_stack_factory.cpp", "source/cocpp/core/co_vos_gcc_x86_64.cpp", "source/cocpp/core/co_stack.cpp", "source/cocpp/core/co_ctx.cpp", "include/cocpp/core/co_define.h"]}
{"id": "C118", "title": "Preemption inside the memory allocator is harmless", "statement": "A coroutine may be preempted at any point of its own code, also inside malloc or free, and the allocator keeps working for everybody: it is not entered again in the middle of a change, no thread waits for a lock that is held on the same thread, and whoever waits for the allocator gets it.", "quantifier": "all numbers of threads and coroutines, all ways threads share arenas, all moments of the signal, all migrations, all schedules", "why_tests_cant": "the window inside the allocator is a few instructions long and the signal comes only after a coroutine ran for two ticks; the damage depends on the state of the thread's cache", "anchors": ["source/cocpp/core/co_vos_gcc_x86_64.cpp", "source/cocpp/core/co_env.cpp", "source/cocpp/exception/co_exception.cpp", "source/cocpp/core/co_manager.cpp", "include/cocpp/core/co_define.h"]}
{"id": "C119", "title": "connect works for every descriptor", "statement": "While co_net::connect waits for the connection it changes no memory but its own, asks the kernel about its own socket only, and gives the thread away when nothing is ready, whichever number the descriptor has.", "quantifier": "all descriptors, all contents of memory, all behaviours of the kernel in every round, all numbers of rounds", "why_tests_cant": "tests have a handful of descriptors; the numbers grow past 1023 only in a server under load, and what is overwritten then depends on the compiler's layout of the stack", "anchors": ["source/cocpp/io/co_net.cpp", "include/cocpp/io/co_net.h", "source/cocpp/io/co_client.cpp"]}
{"id": "C120", "title": "notify_all_at_co_exit notifies at the end", "statement": "When a coroutine that has called notify_all_at_co_exit(cond) has ended, everybody who was waiting on cond meanwhile has been woken, and nobody is woken on its account before the coroutine has finished; the notification cannot get stuck; the same holds for a thread that calls it; and when the waiters have been woken, or the coroutine has been joined, cond may be destroyed.", "quantifier": "all numbers of coroutines, threads, registrations and waiters, all schedules, all further notifications", "why_tests_cant": "the project's own test accesses the destroyed condition variable in some schedules without any visible effect", "anchors": ["source/cocpp/sync/co_condition_variable.cpp", "include/cocpp/sync/co_condition_variable.h", "source/cocpp/core/co_ctx.cpp", "include/cocpp/event/co_event.h"]}
{"id": "C121", "title": "The report of a fatal signal is complete and correct", "statement": "The report names the program, contains the whole memory map, all frames of the backtrace and every byte of the stack of every coroutine with its address, and making it reads and writes only memory that belongs to what is reported.", "quantifier": "all contents of memory, all stack sizes and stack pointers, all paths, all map files, all depths", "why_tests_cant": "nobody compares a report with the memory it describes, and the failing cases need long paths, deep calls or odd stack sizes", "anchors": ["source/cocpp/exception/co_exception.cpp", "source/cocpp/core/co_ctx.cpp", "source/cocpp/core/co_stack.cpp"]}
{"id": "C122", "title": "What a coroutine was given is released when it is over", "statement": "The function and the arguments given to a coroutine exist as long as it runs, every copy of them is destroyed exactly once, and when the coroutine has ended and has been joined or detached nothing of them is left.", "quantifier": "any number of coroutines on an env, any order of creation, scheduling, waiting, ending, joining and detaching", "why_tests_cant": "tests check what a coroutine computes; that a captured lock, file or reference count is released only when the env happens to run again, or never, is not visible in the result", "anchors": ["include/cocpp/co/co_co.h", "source/cocpp/core/co_ctx.cpp", "source/cocpp/core/co_env.cpp", "source/cocpp/co/co.cpp"]}
{"id": "C123", "title": "The operators of a channel lose nothing unnoticed", "statement": "A program that uses <, >, << and >> on a channel gets exactly the values it took out, in order and also when an exception is thrown, and can tell which of its values entered; iterators of a channel are equal exactly if both are at the end or hold the same element.", "quantifier": "all kinds of channels, all sequences of expressions, all interleavings with other threads, all values", "why_tests_cant": "a value lost in a chain shows only if the channel is closed between two links of the chain", "anchors": ["include/cocpp/event/co_chan.h"]}
{"id": "C124", "title": "Locking in a fixed order cannot deadlock", "statement": "If all coroutines lock mutexes only in one fixed order (try_lock excepted), unlock only what they have and end without a mutex, then whatever the schedule no unlock() is refused, the number of steps is bounded, and when nobody can make a step - or all scheduling threads are idle - everybody has finished and no mutex is owned.", "quantifier": "all numbers of coroutines, mutexes and threads, all programs that keep the discipline, all interleavings", "why_tests_cant": "a deadlock needs one schedule out of very many, and its absence is a statement about all of them", "anchors": ["source/cocpp/sync/co_mutex.cpp", "include/cocpp/sync/co_mutex.h"]}
{"id": "C125", "title": "Sending a message publishes what was done before it", "statement": "What a coroutine did before it sent a value through a channel, released a semaphore, counted down a latch, called done() of a wait group or waited at a barrier is visible to (happens before whatever is done by) those who have received that value, taken a permit that needed that release, or passed that latch, wait group or phase of the barrier; the value received is the one sent; in a channel with a capacity also what a receiver did before it made room is visible to the sender that needed the room.", "quantifier": "all programs around the objects and all data they access, all numbers of coroutines, channel kinds and capacities, initial counts, all interleavings, also inside lock() and unlock()", "why_tests_cant": "missing visibility shows only with the right compiler, processor and timing, and a test checks one schedule", "anchors": ["include/cocpp/event/co_chan.h", "include/cocpp/sync/co_counting_semaphore.h", "source/cocpp/sync/co_latch.cpp", "source/cocpp/sync/co_wait_group.cpp", "source/cocpp/sync/co_barrier.cpp", "source/cocpp/sync/co_mutex.cpp"]}
{"id": "C126", "title": "A new coroutine sees what was done before its creation", "statement": "Everything a thread did before it created a coroutine happens before everything the coroutine does, on whichever thread that runs; everything done before a timer was started happens before everything its callback does.", "quantifier": "all programs, numbers of threads, coroutines and timers, all data, all interleavings of the operations of the locks", "why_tests_cant": "missing visibility shows only with the right compiler, processor and timing; on x86 tests see it hardly ever", "anchors": ["source/cocpp/core/co_env.cpp", "source/cocpp/core/co_manager.cpp", "source/cocpp/core/co_timer.cpp"]}
{"id": "C127", "title": "A semaphore of n permits lets at most n in, and one permit protects data", "statement": "If coroutines put back only permits they have taken, then at every time at most as many of them are between acquire() and release() as there were permits at first; data accessed only in between has no race if there is one permit.", "quantifier": "all programs around the semaphore, numbers of coroutines, initial and maximal numbers of permits, data, interleavings, also inside lock() and unlock()", "why_tests_cant": "one coroutine too many or a missing order shows in rare interleavings only, and a race needs the right compiler and processor as well", "anchors": ["include/cocpp/sync/co_counting_semaphore.h", "source/cocpp/sync/co_mutex.cpp", "include/cocpp/sync/co_condition_variable.h"]}
{"id": "C128", "title": "Recursive and shared mutexes order the accesses of their users", "statement": "Data accessed only between lock() and the matching unlock() of a co_recursive_mutex, or read only by holders and written only by exclusive holders of a co_shared_mutex, has no data race.", "quantifier": "all clients (also ones that nest locks, unlock wrongly or access other data), numbers of coroutines, interleavings of single accesses inside the calls, data", "why_tests_cant": "a missing order shows only in rare interleavings, with the right compiler and processor, and not in the outcome of most runs", "anchors": ["source/cocpp/sync/co_recursive_mutex.cpp", "source/cocpp/sync/co_shared_mutex.cpp", "source/cocpp/sync/co_spinlock.cpp"]}
{"id": "C129", "title": "Two clients that talk to each other get exactly what was written, and finish", "statement": "If two co_clients at the ends of a connection follow a protocol in which one side's write_n always meets a read_n of the same size on the other side, then every read_n returns exactly the message written, in order, and both finish, however small the kernel's buffers are and in whatever pieces it moves the bytes; what a client has read is always a prefix of what the other was told to write, for any programs.", "quantifier": "all programs of write_n and read_n calls, message contents and sizes, buffer capacities, schedules, sizes of the pieces the kernel moves", "why_tests_cant": "on loopback with small messages every call moves everything at once; partial transfers and full buffers in the middle of a message need other sizes and timing", "anchors": ["source/cocpp/io/co_client.cpp", "source/cocpp/io/co_io.cpp", "include/cocpp/io/co_client.h"]}
{"id": "C130", "title": "A thread that used the library leaves nothing behind", "statement": "What the library allocates for a thread of the program that uses it is freed when the thread ends, or at the latest when the manager is destroyed.", "quantifier": "all numbers of threads, all schedules of threads, clean-up thread and destructor", "why_tests_cant": "a leak is not visible in results, and a program must start very many threads before it is noticed", "anchors": ["source/cocpp/core/co_manager.cpp: current_env, create_env_from_this_thread__, set_clean_up__, clean_env_routine__", "source/cocpp/core/co_env.cpp: current_env__", "source/cocpp/core/co_env_factory.cpp: create_env_from_this_thread, destroy_env"]}
{"id": "C131", "title": "Who has waited for a coroutine sees everything it did", "statement": "When a wait for a coroutine has returned and not timed out, everything the coroutine ever did, and everything done by those it had itself waited for, happens before everything the waiter does from then on; so data handed over by ending and waiting needs no lock.", "quantifier": "all programs of coroutines and threads that wait for each other, with and without time-outs, all data, all interleavings of the operations of the locks", "why_tests_cant": "missing visibility shows only with the right compiler, processor and timing; on x86 tests see it hardly ever", "anchors": ["source/cocpp/core/co_env.cpp: wait_ctx", "source/cocpp/core/co_ctx.cpp: real_entry, leave_wait_resource_state", "include/cocpp/utils/co_state_manager.h", "include/cocpp/utils/co_flag_manager.h"]}
{"id": "C132", "title": "Coroutines that wait for each other without a circle all finish", "statement": "If coroutines wait for each other without time-out and there is no circle among who waits for whom, then whatever the interleaving the waits cannot block each other: as long as one is not over somebody can go on, the whole takes a bounded number of steps, and at the end every call has come back and every coroutine has ended. In a circle none of the waits ever comes back.", "quantifier": "all finite sets of coroutines, all lists of coroutines each waits for, all assignments to threads, all interleavings; for the circle also all programs of the other coroutines and all timers", "why_tests_cant": "the number of wait graphs and interleavings is unbounded, and a test that hangs does not say why", "anchors": ["source/cocpp/core/co_env.cpp: wait_ctx", "source/cocpp/core/co_ctx.cpp: real_entry, enter_wait_resource_state, leave_wait_resource_state", "include/cocpp/event/co_event.h: pub"]}
{"id": "C133", "title": "Shared mutexes locked in a fixed order do not deadlock", "statement": "If coroutines lock several shared mutexes, for reading or for writing, only in a fixed order (trying is free), unlock what they have as they have it, and end with none, then whatever the interleaving they cannot block each other, no unlock throws, and the whole takes a bounded number of steps.", "quantifier": "all numbers of coroutines and shared mutexes, all programs of lock, lock_shared, try_lock, try_lock_shared, unlock and unlock_shared calls that keep the order, all interleavings of the steps inside the calls, all readings of the clock", "why_tests_cant": "a deadlock needs a particular interleaving of several coroutines and mutexes, and there are unboundedly many programs and interleavings", "anchors": ["source/cocpp/sync/co_shared_mutex.cpp: lock, lock_shared, try_lock, try_lock_shared, unlock, unlock_shared, wake_up_waiters__", "include/cocpp/sync/co_shared_mutex.h: co_shared_mutex"]}
{"id": "C134", "title": "Recursive mutexes locked in a fixed order do not deadlock", "statement": "If coroutines lock several recursive mutexes only in a fixed order (locking again what they have, and trying, are free), unlock each as often as they locked it, and end with none, then whatever the interleaving they cannot block each other, no unlock throws, the whole takes a bounded number of steps, and at the end no mutex is owned. Without the order, or with one unlock too few, they can sleep for ever.", "quantifier": "all numbers of coroutines and recursive mutexes, all depths of nesting, all programs of lock, try_lock and unlock calls that keep the order, all interleavings of the steps inside the calls, all readings of the clock", "why_tests_cant": "a deadlock needs a particular interleaving of several coroutines and mutexes, and there are unboundedly many programs, depths and interleavings", "anchors": ["source/cocpp/sync/co_recursive_mutex.cpp: lock, try_lock, unlock", "include/cocpp/sync/co_recursive_mutex.h: co_recursive_mutex"]}
{"id": "C135", "title": "A coroutine bound to an env of one's own is accepted and runs there", "statement": "Let an env be made by create_env(true) and let nobody call stop on it. Whatever the monitor, the limits and the other envs do, the library does not stop it, no coroutine bound to it is refused, lost or handed to a deleted env, and each coroutine it accepted has run on it or can be picked by it now. A coroutine never runs on another env than the one it was bound to. An env made by create_env(false) can refuse a bound coroutine or be deleted before it is used, and the env of a thread that does not schedule refuses every one.", "quantifier": "all numbers of envs, threads and coroutines, all times at which envs are made, all interleavings of creators, envs and monitor", "why_tests_cant": "the monitor acts once a second or less and only on surplus envs; the failures need it between two instructions of a creator", "anchors": ["source/cocpp/core/co_manager.cpp: create_and_schedule_ctx, create_env, destroy_redundant_env__", "source/cocpp/core/co_env.cpp: add_ctx, move_ctx_to_here, can_auto_destroy", "include/cocpp/core/co_ctx_config.h: with_bind_env"]}
{"id": "C136", "title": "A coroutine is what its options say, and its id tells it apart", "statement": "The last option of each kind counts whatever the order of the others, a field without an option has its default, and name, configuration, priority, binding and stack of the coroutine are what the options say. All answers for the id of a coroutine agree, from inside (this_co) and from the handle, also after the handle was moved; none is the id of an empty handle; the ids of coroutines whose handles did not let them go differ. An id can come back when its coroutine is gone, and a stack of less than 8 bytes is not refused but written outside of.", "quantifier": "all lists of options, including functions of the user's that throw, all numbers of coroutines, handles and threads, all choices of addresses by the allocator, all interleavings", "why_tests_cant": "which address a new coroutine gets is up to the allocator; lists of options are unbounded", "anchors": ["include/cocpp/core/co_ctx_config.h: with_name, with_priority, with_stack_size, with_bind_env, with_shared_stack", "include/cocpp/co/co_co.h: co::co", "source/cocpp/co/co.cpp: id, name, this_co::id, this_co::name", "source/cocpp/core/co_ctx_factory.cpp: create_ctx", "source/cocpp/core/co_vos_gcc_x86_64.cpp: init_ctx"]}
{"id": "C137", "title": "The errors of a client are its own", "statement": "An operation of a co_client (read, write, read_n, write_n, close) returns an error exactly if the last system call it made failed, with the code of that operation; without error it returns the number of bytes moved, which for read_n and write_n is the whole buffer. The text of the error is that of this system call's failure, and it is not \"would block\".", "quantifier": "all numbers of coroutines and threads, all operations and sizes, all outcomes of the system calls, all schedules with preemptions and moves between threads", "why_tests_cant": "errno belongs to the thread; to be wrong, another coroutine has to fail between two instructions", "anchors": ["source/cocpp/io/co_client.cpp: read, write, read_n, write_n, close", "include/cocpp/core/co_error.h: co_error", "source/cocpp/io/co_io.cpp: read, write, close"]}
{"id": "C138", "title": "A deferred action runs exactly once, when its block is left", "statement": "An action given to CoDefer runs exactly once, when the block that declares it is left, in whatever way: at its end, by return or by an exception. Actions run in the reverse order of their declarations, each before anything declared earlier is gone, so that it may use every variable that exists where it is declared.", "quantifier": "all numbers of coroutines, all programs (blocks, handlers, variables, actions nested in actions, exceptions), all interleavings", "why_tests_cant": "the ways to leave nested blocks, with exceptions inside and outside of actions, are unbounded in number", "anchors": ["include/cocpp/utils/co_defer.h: co_defer, CoDefer", "source/cocpp/utils/co_defer.cpp: co_defer, ~co_defer", "source/cocpp/core/co_ctx.cpp: real_entry", "source/cocpp/core/co_env.cpp: remove_all_ctx__"]}
