# Formal model of cocpp in Lean 4

The plan per property was written before the proofs and is kept; the sections "What is
proved", "Findings", "What is modelled" and "Trusted base" describe the result.

## Method

The code is modelled as executable transition systems: a state, an action type and
`step : State → Action → Option State` (`none` = the action is not possible in that
state). An execution is any list of actions; theorems quantify over all of them, so over
every schedule, every number of coroutines (`Tid := Nat`) and every client behaviour.
Observable behaviour is a trace of events (calls, returns, acquisitions, values) that the
step function emits; properties are stated on traces by small specifications that do not
mention the model, or on the state where no event exists.

Memory is sequentially consistent: one action = one access to data protected by the lock
that the code holds at that point. Locks themselves (the spinlock inside co_mutex, the
mutex inside channels, ...) are modelled as explicit steps in the lock modules, and the
monitor abstraction used for channels and friends is justified by a refinement proof (C22).

Layers:

| layer | Lean directory | code |
|---|---|---|
| locks | Verif/Sync | co_spinlock, co_mutex, co_recursive_mutex, co_shared_mutex, co_timed_addition |
| condition variable | Verif/Sync | co_condition_variable (on top of the mutex model) |
| monitor objects | Verif/Monitor, Verif/Sync, Verif/Chan | generic monitor machine; semaphore, latch, wait group, barrier, call_once, channel |
| pipeline | Verif/Pipe | co_pipeline stages over channels |
| scheduler | Verif/Sched | co_ctx, co_env, co_manager |
| timer | Verif/Timer | co_timer, timer_routine__ |
| machine | Verif/Machine | switch_to, init_ctx, shared stack, shrink |
| utilities, I/O | Verif/Util, Verif/Io | co_event, co_any, co_local, co_client, co_net |

Undefined behaviour and failed `assert`s are distinct outcomes (`ub`, `abort`), never a
default value.

When the code violates the intended property the negation is proved with a concrete
execution (`decide`/`rfl` on the executable model), the intended statement is kept in the
file, and the part that does hold is proved under the exact extra hypothesis with the
suffix `_partial`.

## Plan per property

| id | model | proof |
|---|---|---|
| C01 | flag + program counters | invariant, trace accepted by lock spec |
| C02 C03 C04 C05 C06 C07 | co_mutex with explicit spinlock, queue, sleep flags, pcs | inductive invariant; trace accepted by lock spec; queue position measure; progress |
| C08 | same model without the no-relock discipline | negation by a witness schedule |
| C09 C10 | co_recursive_mutex, same granularity | inductive invariant, counting spec |
| C11 C12 C13 C14 | co_shared_mutex incl. std::remove_if tail behaviour | negation by witness; exact characterisation of when wake-up is right; partial exclusion |
| C15 | loop over clock and attempt oracles | induction on the oracle |
| C16 C17 C18 | cv + mutex, explicit cv spinlock | invariant |
| C19 C20 C21 | cv timed/predicate versions | invariant, negations by witness |
| C22 | generic low-level monitor machine, with an ideal mutex (Low) and with co_mutex itself (Full) | forward simulation Full → Low → atomic monitor machine; progress and termination carried over; the same for programs over several objects (Sys) |
| C23 C24 C25 | semaphore as monitor object | invariant, counting spec on traces, quiescence |
| C26 C27 | latch, wait group as monitor objects | invariant, quiescence |
| C28 C29 C30 | barrier as monitor object | invariant, negation for drop |
| C31 C32 | call_once steps | invariant, negation by witness |
| C33 – C38 | three channel kinds as monitor objects | trace invariant against a queue spec, quiescence, negation for unbuffered |
| C39 | iterator over any pop oracle consistent with C35 | induction |
| C40 C41 C42 | stages as processes over abstract channels | Kahn style prefix invariant, completeness at termination, negation for filter |
| C43 – C48 C52 C55 | env with 100 lists, min-priority hint, ctx records | invariant over all operation histories |
| C49 C50 C51 | finish/wait protocol with event subscription | interleaving invariant |
| C53 C54 | env with object lifetimes, pre_ctx and shared stack switch info | invariant; negations by witness |
| C56 C57 C58 | schedule lock with count | invariant; theorem that migration is unreachable |
| C59 C60 C61 C62 C63 C64 | manager decision functions and races | function specs, negations |
| C65 – C71 | timer queue as ordered set keyed by expiry | invariant; negations for equal keys, empty deref, lock order |
| C72 C73 C76 | small x86-64 machine running the instruction list | symbolic execution, round trip |
| C74 C75 | byte memory | round trip, arithmetic |
| C77 – C80 | functional models | induction over histories |
| C86 | the env's lists with its thread's sleep, notifications and the schedule lock | invariant against the history; termination measure; negations |
| C87 | C53's env with allocated stacks | invariant and allocation ledger; universal negation for shared stacks |
| C88 – C90 | handles in any number of threads over C53's env | invariant against the history of creations and releases; negations |
| C91 – C93 | the manager's sets of envs, the clean-up thread, the destructor and any number of scheduling and user threads | invariants against the history; termination measure; negations |
| C95 | timed calls with 64 bit durations, overflow an outcome | invariant against the history of calls; universal negations |
| C96 | C40's machine with functions that may throw | simulation by C40's machine; invariant; universal negation |
| C97 | coroutines of a pipeline as a program over the channel objects with real mutexes | refinement by C40's machine in two steps (C22 for programs; simulation of atomic sections by single channel operations), deadlock freedom carried down, lexicographic measure for termination |
| C98 | C43's env with coroutines that use one spinlock | counting by C44's rotation; invariant for the universal negation |
| C94 | any data under a thread-owned recursive mutex, any number of threads, coroutines and preemptions | invariant against the history; universal negation |
| C99, C100 | any number of copyable I/O objects over the kernel's table of descriptors | invariant against the history of opens, copies and closes; universal negations |
| C101 | a blocking object (its machine of C01 – C39) and C43's env, step by step together | generic: laws an object must obey, invariant linking its sleep flags to the env's waits; instances for all locks and monitors |
| C102 | programs over monitors (C22, C97) as one object of C101's joint machine | instance of C101's laws; C97's progress and termination carried over |
| C103 | C101's joint machine with any number of envs, coroutines moving between them | every env's view of a run is a run of C101's machine (a coroutine is in one env only); C101, C102 applied to each |
| C104 | infinite executions of C103's machine, fairness as a predicate on them | finitely many steps in the object (termination measures of C24 – C37, C97); then either somebody is picked again and again and makes a step, or some thread is idle, where C101 applies |
| C105 | the objects over the real mutex with a destruction step; a use after it is the outcome `ub` | weights of the calls balance with what has happened and what coroutines still owe; when a call returns its caller has the mutex, so nobody else is behind their section |
| C106 | the accesses of `leave_wait_resource_state` one by one, against ending, freeing and migration of the woken coroutine; access to a freed object is the outcome `ub` | invariant of executions in which every wake-up is protected; from every unprotected wake-up a continuation to `ub`; the protection shown in the models of the three mutexes, of co_condition_variable under its mutex and of all monitor objects |
| C107 | happens-before of the C++ memory model for locks; every function of the core as the sequence of its lock operations and accesses, run by any number of coroutines on any number of threads; co_mutex with its spinlock operations visible; the end of a coroutine and its waiters | lock discipline by induction over executions, happens-before along the chain of lock holders; a racing execution for every member without a lock, so that the set of racing members is characterised exactly |
| C108 | every function of the core as the sequence of its lock operations, with `try_lock`s and switches, run by any number of coroutines placed on any number of threads; recursive mutexes block the thread, spinlocks let it run others | a general theorem on lock orders with gates (locks that make an exception from the order harmless), a rank for every kind of lock, each function checked against it; for the violations, executions that end in a deadlock, and a proof that a deadlock lasts |
| C109 | the pipeline of C40 with the life of the data of its source | invariant: without `take` nobody closes a channel for reading and a stage ends only after its input was closed, hence the source has finished when the consumer finds the end; for the violations, executions for every array and every list |
| C110 | `create_and_schedule_ctx` and the factories as code with exceptions over a ledger of what is allocated and whose it is, any of the calls may fail | specification of each function by what it allocates, composed; induction over the attempts; for the timers, the model of C65 with a failing creation |
| C111 | the handler as frames on the stacks of any number of threads, nested and interleaved, with signal masks; its lock operations as code of C108 that replaces the rest of the interrupted code | invariant against the output; a measure for the end; the lock order of C108 |
| C112 | the channel of C36 – C38 where each copy may throw, as chosen by the caller | refinement of a channel in which a throwing call does nothing; promise invariants (C22) for both condition variables, that survive a swallowed notification if nobody else waits |
| C113 | the polling loop of co_timed_addition over the steps of the mutex, recursive mutex, shared mutex and semaphore models, with a clock that may move at any time | the loop projects onto runs of the object below, so the object's theorems carry over; trace specification of a timed call; rank of a call past its deadline |
| C114 | coroutines on threads, each thread with its errno; system call and look at errno are separate steps; preemption and migration anywhere | trace specification of one coroutine's calls, invariant that a failed call's error code stays in the errno of its thread |
| C115 | the machines of the mutexes (C04, C10, C12), the semaphore (C23) and the channels (C33) unchanged | from the order theorems of the mutexes; for the negations, schedules by induction on the number of rounds, from lemmas about whole calls |
| C116 | static objects with the C++ rules of construction and destruction; construction of the manager in steps; any number of threads | trace specification with simulation; invariants on the order of the constructed objects |
| C117 | the address space as pages with owners, with the contracts of mmap, munmap and madvise; stacks, other mappings, writes at any depth | invariant: a stack has exactly its pages; frame theorem by induction over runs; witness for all sizes |
| C118 | threads, coroutines, preemption guards, the switch signal and its handler, an allocator with a cache per thread and locked arenas | invariant for guarded programs; invariant for all programs and universal negations |
| C119 | the memory from the fd_set upwards as bits, `FD_ZERO`, `FD_SET`, `select` with the kernel's contract, the loop of connect | induction over the rounds; universal negations for descriptors from 1024 on |
| C120 | one condition variable, `notify_all` waiter by waiter under its lock, the callbacks of `finished`, any number of coroutines and threads | induction over the run after a tracked waiter; invariants; a library-only schedule for progress; universal negations |
| C121 | `dump_memory`, the stack part of `ctx_info`, `exe_path`, `maps_info`, `backtrace` as functions from memory, files and outcomes of the C library to text or undefined behaviour | induction over the loops; a reader for the dump; equality of reports for different inputs as negation |
| C122 | the six copies of the `std::function`, the constructor of the handle step by step, one env with its scheduling step in single steps | invariant; simulation by an automaton for each copy; invariant of the sweep; universal negation for a sleeping env |
| C123 | expressions as sequences of calls in the executions of C33 – C39, with what the program sees of the results; iterators as pairs of channel and value | the history of a thread matched with its events along the refinement path; induction over the program; two executions that look alike as negation |
| C124 | programs of calls over any number of mutexes, each the machine of C01 – C06; the whole as one object of coroutines on scheduling threads as in C103 | invariant that ties each program to the call it is in and to what it has; a chain of waiting coroutines goes up in the order and there are finitely many used mutexes; measure; stuck executions as negations |
| C125 | the monitor objects over the real mutex, with the operations of its spinlock, the critical sections and the accesses of the clients in one trace; happens-before as in C107 | the trace is one of co_mutex with guarded and unguarded data, so any two sections are ordered (C107); which section comes first follows from the properties of the objects (C23, C26, C27, C29, C33) at every beginning of the trace; a racing execution as limit |
| C126 | threads with the list of coroutines of each env and the timer queue, the two locks with separate steps for locking, accessing and unlocking, and accesses of the program in between; happens-before as in C107 | invariants: who has which lock, every access to a list is made by who has its lock; every coroutine is added once and resumed only after that by the thread it was added to; every started timer is put into the queue once and fires after that; two accesses under one lock are ordered (C107) |
| C127 | the traces of C125 for the semaphore: critical sections over the real mutex and the accesses of the clients | all permits that are out are with somebody (sum over the coroutines), and at most the initial number is out (C23 at every beginning of the trace); who loses the only permit and who gets it do so in sections, which are ordered (C125); racing executions for two permits and for a release by a stranger |
| C128 | the models of the two mutexes with the lock operations of their spinlock in a trace, and clients that access data | a lemma about all locks built on a spinlock (`Verif/Base/LockHb.lean`): of every past access, its coroutine owns the lock still or has taken the spinlock since, before everybody who got a conflicting hold; the two mutexes meet its conditions step by step; a race for the mixed queue |
| C129 | two clients with programs of `write_n`/`read_n` (the loops of C81/C82, one system call at a time) and a kernel with a bounded queue of bytes per direction | invariants over all runs: bytes read, in the buffer of the call, queued and still to be written make up what the program writes; the programs' rests correspond; if both are stuck, both are finished; a measure for the rounds |
| C130 | the model of C91-C93 (`Verif/Sched/Shutdown.lean`), whose `threadEnd` is the end of a thread of the program | an env without a thread stays so in every step, and each end of a thread makes one more; an invariant about one such env from the destructor on; a run in which the clean-up thread comes too late, and all its continuations |
| C131 | for each coroutine an instance of the model of C107's published results (`Verif/Sched/Publish.lean`); data accesses of the program; wait calls of any coroutine for any other | an invariant about the trace: who knows that somebody ended has taken a lock the latter released after everything it did; happens-before follows along chains of waits |
| C132 | the model of C50 and C51 (`Verif/Sched/Wait.lean`) driven by programs: each coroutine waits for the coroutines of a list, then its function is over | invariant (who sleeps is woken by a target that is not yet done), so a stuck state is a chain of waits of falling rank, by induction empty; a potential that every step lowers; for the circle an invariant over all continuations |
| C133 | programs of calls of many shared mutexes, each the machine of C11 to C14 (`Verif/Sync/SharedMutex.lean`) | invariant over all mutexes and programs; in a stuck state each sleeper leads to one at a higher mutex, by strong induction nobody; a potential that every step lowers; negation by a concrete run |
| C134 | programs of calls of many recursive mutexes, each the machine of C09 and C10 (`Verif/Sync/RecMutex.lean`) | as C133, with the depth of each mutex; who sleeps does not have the mutex, so the order applies |
| C135 | the machine of C59-C64 (`Verif/Sched/EnvLife.lean`) | an env marked as kept is never among the monitor's candidates, so nothing but a stop by the user ends it; where coroutines are agrees with where they were sent; negations by schedules and, for the env of a thread, for all executions |
| C136 | lists of options, coroutines at addresses the allocator chooses, handles, current coroutines (`Verif/Sched/Options.lean`) | induction on the list of options; an invariant that ties answers to the coroutine they are about |
| C137 | operations of clients on many threads, each system call and each look at `errno` a step (`Verif/Io/ClientErr.lean`) | simulation by a specification of one coroutine's events, once for all schedules, once with the text for calm ones; negations by schedules with arbitrary error numbers |
| C138 | blocks of many coroutines with their local objects, each destruction a step (`Verif/Util/Defer.lean`) | simulation by a stack of open things, counting over accepted traces, induction over what is left to destroy |
| C81 – C84 | loops over kernel oracles | induction over outcome sequences |

## What is proved

Status `partial` almost always means: the property as stated is **false of the code**.
Then the negation is proved (a witness execution, or better a theorem about every
execution with the triggering condition), and beside it the part that does hold, under
the exact extra hypothesis.

<!-- table -->
| id | property | status | theorems | remark |
|---|---|---|---|---|
| C01 | Spinlock excludes | proved | `Spinlock.C01_spinlock_excludes`, `Spinlock.C01_spinlock_free_can_be_taken`, `Spinlock.C01_unlock_by_stranger_breaks_exclusion` | all schedules; the last theorem shows that the precondition (only holders unlock) is needed |
| C02 | Mutex mutual exclusion | proved | `Mutex.C02_mutex_excludes`, `Mutex.C02_mutex_one_holder` | spinlock, owner, queue and sleep flags are separate steps; clients that never re-lock |
| C03 | Mutex unlock is checked | proved | `Mutex.C03_mutex_unlock_checked`, `Mutex.C03_mutex_bad_unlock_changes_nothing` |  |
| C04 | Mutex hands over in arrival order | proved | `Mutex.C04_mutex_fifo`, `Mutex.C04_mutex_release_count` | order of acquisitions is the queue order; exactly k+1 releases |
| C05 | Mutex never loses a wake-up | proved | `Mutex.C05_mutex_no_lost_wakeup` |  |
| C06 | Mutex cannot deadlock by itself | proved | `Mutex.C06_mutex_stuck_only_behind_holder`, `Mutex.C06_mutex_no_deadlock`, `Mutex.C06_mutex_calls_terminate` |  |
| C07 | try_lock is exact and non-blocking | proved | `Mutex.C07_mutex_try_lock_exact`, `Mutex.C07_mutex_try_lock_never_sleeps` |  |
| C08 | Re-locking a held mutex does not break others | partial | `Mutex.C08_relock_breaks_exclusion`, `Mutex.C08_relock_loses_the_mutex`, `Mutex.C08_only_relock_breaks_partial` | the property as stated is false: two witness executions; proved instead that a re-lock is the only way to break the lock |
| C09 | Recursive mutex counts exactly | proved | `RecMutex.C09_recursive_mutex_correct`, `RecMutex.C09_recursive_mutex_excludes`, `RecMutex.C09_recursive_mutex_count_exact`, `RecMutex.C09_depth_is_observable`, `RecMutex.C09_holder_relock_never_blocks` | unrestricted clients, all nesting depths below the 2^64 wrap of the counter |
| C10 | Recursive mutex hand-over | proved | `RecMutex.C10_recursive_mutex_handover`, `RecMutex.C10_recursive_mutex_fifo`, `RecMutex.C10_recursive_mutex_bad_unlock_changes_nothing`, `RecMutex.C10_recursive_mutex_progress` |  |
| C100 | I/O through the library does not block the thread | partial | `Io.Fd.C100_nonblocking_partial`, `Io.Fd.C100_argument_ignored`, `Io.Fd.C100_becomes_blocking` | holds without fcntl(F_SETFL); fcntl passes the va_list instead of its argument, so the flags come from a stack address (universal negation) |
| C101 | A scheduling thread goes idle only when nobody in a call can go on | partial | `Compose.C101_agree`, `Compose.C101_waiting_not_run`, `Compose.C101_idle`, `Compose.C101_mutex`, `Compose.C101_recursive_mutex`, `Compose.C101_shared_mutex_partial`, `Compose.C101_shared_mutex_stranded`, `Compose.C101_monitor`, `Compose.C101_semaphore`, `Compose.C101_latch`, `Compose.C101_wait_group`, `Compose.C101_barrier`, `Compose.C101_channel` | holds for every object but co_shared_mutex; there a mixed wake-up leaves a reader registered though nobody holds the mutex, and the thread goes idle with it (witness). One object per env at a time |
| C102 | A thread that runs a pipeline stops only when everything is delivered | proved | `Compose.C102_program_idle`, `Compose.C102_pipeline_idle`, `Compose.C102_fork_idle`, `Compose.C102_any_pipeline_idle`, `Compose.C102_pipeline_finite` | all coroutines on one thread; source channel not of size fixed 0 (C40), group sizes and fork counts positive; finiteness once the time to spin for a mutex is over |
| C103 | When all threads are idle the work is done | proved | `Compose.Many.C103_one_thread`, `Compose.Many.C103_waiting_not_run`, `Compose.Many.C103_idle`, `Compose.Many.C103_mutex`, `Compose.Many.C103_recursive_mutex`, `Compose.Many.C103_monitor`, `Compose.Many.C103_semaphore`, `Compose.Many.C103_latch`, `Compose.Many.C103_wait_group`, `Compose.Many.C103_barrier`, `Compose.Many.C103_channel`, `Compose.Many.C103_program_idle`, `Compose.Many.C103_pipeline_idle`, `Compose.Many.C103_fork_idle`, `Compose.Many.C103_any_pipeline_idle`, `Compose.Many.C103_pipeline_finite` | co_shared_mutex is left out (C101 has its witness); source channel not of size fixed 0 (C40), group sizes and fork counts positive; finiteness once the time to spin for a mutex is over; a coroutine on its way between two threads is assumed to arrive |
| C104 | With fair scheduling everything that can happen happens | proved | `Compose.Many.C104_comes_to_rest`, `Compose.Many.C104_mutex`, `Compose.Many.C104_semaphore`, `Compose.Many.C104_latch`, `Compose.Many.C104_wait_group`, `Compose.Many.C104_barrier`, `Compose.Many.C104_channel`, `Compose.Many.C104_pipeline`, `Compose.Many.C104_fork` | fairness is a hypothesis (Fair: crew, turn, use); from some point on the 10 ms of spinning are over; source channel not of size fixed 0 (C40); co_shared_mutex is left out (C101) |
| C105 | An object may be destroyed when its last call has returned | proved | `Monitor.C105_wait_group`, `Monitor.C105_latch`, `Monitor.C105_semaphore`, `Monitor.C105_barrier_returned_is_not_enough`, `Mutex.C105_mutex` | the protocol of the clients is a hypothesis (Careful); a barrier is not covered by the property, its participants may be still inside (witness) |
| C106 | Waking a coroutine does not touch it after it was freed | partial | `WakeFree.C106_protected_wakes_are_safe`, `WakeFree.C106_unprotected_wake_goes_wrong`, `WakeFree.C106_sleep_witness`, `WakeFree.C106_preempted_witness`, `Mutex.C106_mutex_wakes_under_spinlock`, `Cv.C106_notify_under_mutex`, `Cv.C106_notify_without_mutex`, `RecMutex.C106_wakes_under_spinlock`, `SharedMutex.C106_wakes_under_spinlock`, `Monitor.C106_objects` | holds when the waker has the lock the woken coroutine takes first (proved of all mutexes and of all objects of the library) or preemption is disabled and the coroutine is of the waker's thread; false of the code for sleep, wait()/join() and notifications without the mutex |
| C107 | No data races in the library, and none in programs that lock | partial | `Races.C107_guarded_race_free_partial`, `Races.C107_races_exactly`, `Mutex.C107_mutex_orders_memory`, `Publish.C107_result_published` | true of all data that has a lock, of data under a co_mutex and of results; nine members that have no lock race: timeout__, timer_duration__, base_env_count, max_env_count, default_shared_stack_size__, clean_up__, exception__, schedule_thread_tid__, env__ (and priority__ with the functions that print) |
| C108 | The library's internal locks never deadlock | partial | `LibLocks.C108_no_deadlock_partial`, `LibLocks.C108_deadlocks`, `LibLocks.C108_sub_pub_apart`, `LockOrder.no_deadlock`, `LockOrder.deadlock_step` | true of programs without timers and timed waits in which coroutines change only their own priorities; eight pairs of functions that deadlock otherwise, among them notify_one and unlock against wait_until |
| C109 | A pipeline reads only data that exists | partial | `Pipe.C109_owned`, `Pipe.C109_lent_partial`, `Pipe.C109_source_first`, `Pipe.C109_take_reads_dead`, `Pipe.C109_kept_reads_dead` | true of collections, functions and ranges, which are copied; of iterators, arrays and initializer lists only if the data lives until the consumer has found the end and no stage is take; otherwise false (two universal negative theorems) |
| C11 | Readers and writers exclude each other | partial | `SharedMutex.C11_rw_exclusion_fails`, `SharedMutex.C11_rw_exclusion_partial`, `SharedMutex.C11_rw_exclusion_states_partial`, `SharedMutex.C11_only_readers_block_partial`, `SharedMutex.C11_only_writers_block_partial` | false of the code (witness); proved for every execution without a wake-up that sees a mixed queue, which is the only cause |
| C110 | A failed creation of a coroutine has no consequences | partial | `Create.C110_created`, `Create.C110_nothing_scheduled`, `Create.C110_leaks_iff_partial`, `Create.C110_stopped_env_leaks`, `Create.C110_timers_stop` | an exception always has a cause and leaves the lists of the envs alone; but everything allocated is released if and only if one of the first two calls fails (exact), later failures leak the coroutine, n attempts on a stopped env leak n of them (universal), and a failure in the timer thread ends all timers (universal) |
| C111 | A fatal signal ends the process with a report | partial | `Crash.C111_report_partial`, `Crash.C111_one_signal_ends`, `Crash.C111_second_ends`, `Crash.C111_status`, `Crash.C111_no_deadlock_partial`, `Crash.C111_background_waits_for_itself`, `Crash.C111_cut_short`, `Crash.C111_twice`, `Crash.C111_deadlocks` | one signal, in a thread that has no lock of the library and is no background thread, ends the process with a whole report; a background thread waits for itself for ever (universal negation); with a lock held the handler can deadlock, two signals cut the report short or call exit twice (witnesses) |
| C112 | An exception while copying a value leaves a channel working | partial | `ChanThrow.C112_channel_stays_correct`, `ChanThrow.C112_outcome`, `ChanThrow.C112_nobody_stranded_partial`, `ChanThrow.C112_receiver_stranded`, `ChanThrow.C112_sender_stranded`, `ChanThrow.C112_value_lost` | a call that throws has no effect and everything comes to rest, for all channels; nobody is stranded if only one coroutine receives (sends) or no copy out (in) throws; with two receivers or two senders a woken coroutine whose copy throws swallows the notification (witnesses); a value is lost if the assignment after pop throws (witness); unbuffered channels: see C38 |
| C113 | Timed locking is locking with a deadline | partial | `TimedLock.C113_timed_is_locking`, `TimedLock.C113_outcome`, `TimedLock.C113_true_at_once`, `TimedLock.C113_returns_after_deadline`, `TimedLock.C113_timed_mutex`, `TimedLock.C113_no_overtaking`, `TimedLock.C113_recursive_timed_mutex`, `TimedLock.C113_shared_timed_mutex_partial`, `TimedLock.C113_semaphore`, `TimedLock.C113_timed_mutex_returns`, `TimedLock.C113_recursive_timed_mutex_returns`, `TimedLock.C113_shared_timed_mutex_returns`, `TimedLock.C113_may_miss` | outcome, exclusion, ownership, no overtaking and the return after the deadline are proved for all objects, interleavings and clocks; the shared mutex excludes only if no writer calls the blocking lock() (see C11); a lock that becomes free before the deadline may be missed, any number of times (witness for every number) |
| C114 | An I/O call judges by its own error code | partial | `Io.Errno.C114_own_outcome_partial`, `Io.Errno.C114_cooperative`, `Io.Errno.C114_success`, `Io.Errno.C114_would_block_reported`, `Io.Errno.C114_error_retried` | proved for all schedules in which no preemption falls between a failed system call and the look at errno, in particular without preemption; success is reported truthfully under any preemption; otherwise false: a would-block is reported as any error, any error is retried any number of times (witnesses) |
| C115 | Who waits is overtaken only so often | partial | `Starve.C115_mutex`, `Starve.C115_recursive_mutex`, `Starve.C115_semaphore_starved`, `Starve.C115_receiver_starved`, `Starve.C115_sender_starved`, `Starve.C115_writer_starved` | proved for co_mutex and co_recursive_mutex once the coroutine is queued; false for the semaphore, for receivers and senders of channels and for writers of a shared mutex: for every k an execution in which the waiting coroutine is passed by k times (for channels of any capacity but 0) |
| C116 | The manager is there when it is needed | partial | `Static.C116_once`, `Static.C116_construction_ends`, `Static.C116_alive_partial`, `Static.C116_older_serves_coroutines`, `Static.C116_older_uses_dead`, `Static.C116_unused_library`, `Static.C116_younger_used_when_gone`, `Static.C116_other_thread` | construction, first use and signals proved in full; the end of the program proved for static objects that use the library in the constructor if they use it in the destructor (handles) and for objects older than the manager that coroutines use; false for objects older than the manager whose destructor uses the library (a global co_wait_group, a global container of handles): their destructor always gets a destroyed manager; false for younger objects that coroutines use |
| C117 | A coroutine that runs out of stack harms nobody else | partial | `Mmap.C117_disjoint`, `Mmap.C117_untouched_partial`, `Mmap.C117_within`, `Mmap.C117_shrink_keeps`, `Mmap.C117_pages_returned`, `Mmap.C117_overflow_harms`, `Mmap.C117_guard` | separation, shrinking and freeing proved in full; that others leave a stack alone is proved as long as nobody overflows; the last part is false of the code, which has no guard page: for all sizes the kernel may place one stack right below another, and the first byte beyond the upper stack is then written into the lower one without a fault; with guard pages it is proved |
| C118 | Preemption inside the memory allocator is harmless | partial | `Alloc.C118_guarded_partial`, `Alloc.C118_thread_lost`, `Alloc.C118_cache_broken`, `Alloc.C118_still_broken` | proved for programs that enter the allocator only under a preemption guard; false otherwise: the signal handler moves a list node, so it frees and allocates, and in every reachable state in which the interrupted coroutine is inside the allocator the thread is lost for good or the thread's cache is entered twice; a handler that does not allocate would not be enough |
| C119 | connect works for every descriptor | partial | `FdSet.C119_small_partial`, `FdSet.C119_large_overwrites`, `FdSet.C119_large_fails`, `FdSet.C119_large_spins` | proved for descriptors below 1024 (FD_SETSIZE); false for all others: a bit outside the set is set in every case, the memory behind the set is replaced by the kernel's answer, and depending on what was there the function fails or keeps the thread busy |
| C12 | Shared mutex wakes exactly the right waiters | partial | `SharedMutex.C12_wake_right_iff`, `SharedMutex.C12_mixed_wake_outcome` | false for exactly the queues with a reader first and a writer somewhere; proved for all other queues |
| C120 | notify_all_at_co_exit notifies at the end | partial | `AtExit.C120_wakes`, `AtExit.C120_only_then`, `AtExit.C120_ends`, `AtExit.C120_thread_never`, `AtExit.C120_safe_partial`, `AtExit.C120_joined_uses_freed`, `AtExit.C120_woken_uses_freed` | waking, not before, and not stuck proved in full for coroutines; false for threads (universal) and for the destruction of the condition variable after a join or after the wake-ups (universal, from every such state); safe if the coroutine has left the event, which a program cannot find out |
| C121 | The report of a fatal signal is complete and correct | partial | `Report.C121_dump_complete`, `Report.C121_dump_within`, `Report.C121_shared_not_dumped`, `Report.C121_maps_complete_partial`, `Report.C121_exe_unknown`, `Report.C121_exe_overflow`, `Report.C121_ids_lost`, `Report.C121_trace_partial`, `Report.C121_trace_cut` | stacks of ordinary coroutines and the memory map proved; false for suspended coroutines on a shared stack (never dumped), for the path of the program (never named; undefined behaviour exactly if it cannot be found or has 1024 characters or more), for the ids if the map cannot be opened, and for more than 100 frames |
| C122 | What a coroutine was given is released when it is over | partial | `Given.C122_once`, `Given.C122_runs_on_own`, `Given.C122_constructed`, `Given.C122_call_gone`, `Given.C122_freed_all`, `Given.C122_not_early`, `Given.C122_released_partial`, `Given.C122_kept` | existence while running, exactly-once destruction, and release by a complete scheduling step proved; false in general: an env that sleeps keeps what its ended coroutines were given, joined and detached ones included |
| C123 | The operators of a channel lose nothing unnoticed | partial | `Chan.C123_operators`, `Chan.C123_nothing_received_lost`, `Chan.C123_lt_tells_partial`, `Chan.C123_chain_prefix`, `Chan.C123_shl_silent`, `Chan.C123_end_test`, `Chan.C123_same_channel` | what every expression does and shows is proved exactly, nothing received is lost, a prefix of a chain enters; false: << does not tell what was lost, iterators of one channel always compare equal |
| C124 | Locking in a fixed order cannot deadlock | proved | `Ordered.C124_no_deadlock`, `Ordered.C124_unlock_never_throws`, `Ordered.C124_terminates`, `Ordered.C124_opposite_deadlocks`, `Ordered.C124_kept_blocks`, `Compose.Many.C124_idle` | for any number of mutexes, coroutines and threads; two schedules show that neither condition can be dropped |
| C125 | Sending a message publishes what was done before it | proved | `Monitor.C125_sections_order`, `Monitor.C125_channel_publishes`, `Monitor.C125_capacity_publishes`, `Monitor.C125_semaphore_publishes`, `Monitor.C125_latch_publishes`, `Monitor.C125_wait_group_publishes`, `Monitor.C125_barrier_publishes`, `Monitor.C125_after_send_races` | what is done after sending is not ordered: a data race shows the limit |
| C126 | A new coroutine sees what was done before its creation | proved | `StartHb.C126_creation_publishes`, `StartHb.C126_timer_publishes`, `StartHb.C126_after_creation_unordered` | what the creator does after the creation is not ordered: shown by an execution |
| C127 | A semaphore of n permits lets at most n in, and one permit protects data | proved | `Monitor.C127_at_most`, `Monitor.C127_one_permit_protects`, `Monitor.C127_two_permits_race`, `Monitor.C127_stranger_race` | the conditions are needed: with two permits, or if somebody puts back what they have not taken, there are races |
| C128 | Recursive and shared mutexes order the accesses of their users | partial | `RecMutex.C128_recursive_mutex_orders_memory`, `SharedMutex.C128_shared_mutex_orders_memory_partial`, `SharedMutex.C128_one_kind_blocks_partial`, `SharedMutex.C128_shared_mutex_race` | proved for the recursive mutex; false of the shared mutex (race by witness, the wake-up of C11); proved for every execution without a wake-up that sees a mixed queue |
| C129 | Two clients that talk to each other get exactly what was written, and finish | proved | `Talk.C129_stream`, `Talk.C129_messages`, `Talk.C129_finishes`, `Talk.C129_both_write` | prefix and message invariants over all runs; a measure that goes down in every round of a conversation that is not over; with both sides writing first more than fits neither call ever returns |
| C13 | Shared mutex never strands a waiter | partial | `SharedMutex.C13_reader_stranded`, `SharedMutex.C13_never_strands_partial`, `SharedMutex.C13_stuck_only_behind_holder_partial`, `SharedMutex.C13_calls_terminate_partial` | false of the code (a reader sleeps for ever); proved for executions without a mixed wake-up |
| C130 | A thread that used the library leaves nothing behind | partial | `Shutdown.C130_ended_threads_leave_envs`, `Shutdown.C130_unbounded`, `Shutdown.C130_never_freed`, `Shutdown.C130_freed_with_manager_partial` | false: in every execution each ended thread leaves its env until the manager is destroyed, without bound; one schedule in which even the manager leaves it; proved that otherwise the manager's destruction frees them |
| C131 | Who has waited for a coroutine sees everything it did | proved | `JoinHb.C131_waited_sees`, `JoinHb.C131_wait_learns`, `JoinHb.C131_join_no_race`, `JoinHb.C131_timeout_orders_nothing` | all data and any number of coroutines that wait for each other; a wait that timed out is shown to order nothing |
| C132 | Coroutines that wait for each other without a circle all finish | partial | `Wait.C132_no_deadlock_partial`, `Wait.C132_bounded`, `Wait.C132_finishes_partial`, `Wait.C132_circle_forever`, `Wait.C132_preempted_stuck` | holds without the preemption window between unlock_schedule and unlock_finished_state (co_env.cpp:174-175); with it C132_preempted_stuck shows a run that stops; waits with time-out are only in C132_circle_forever (C50 has their deadlock) |
| C133 | Shared mutexes locked in a fixed order do not deadlock | partial | `RwOrdered.C133_no_deadlock_partial`, `RwOrdered.C133_unlock_never_throws_partial`, `RwOrdered.C133_terminates_partial`, `RwOrdered.C133_one_mode`, `RwOrdered.C133_ordered_deadlocks`, `RwOrdered.C133_opposite_deadlocks` | holds as long as no wake-up finds a reader at the head of a queue with a writer in it (co_shared_mutex.cpp:209-217, C13); C133_ordered_deadlocks: without that condition one mutex and three coroutines are enough to block for ever; C133_one_mode: programs that wait for each mutex in one mode only never get there |
| C134 | Recursive mutexes locked in a fixed order do not deadlock | proved | `RecOrdered.C134_no_deadlock`, `RecOrdered.C134_unlock_never_throws`, `RecOrdered.C134_terminates`, `RecOrdered.C134_opposite_deadlocks`, `RecOrdered.C134_kept_blocks` | the count does not wrap in the model (2^64 nested locks) |
| C135 | A coroutine bound to an env of one's own is accepted and runs there | proved | `EnvLife.C135_own_env_accepts`, `EnvLife.C135_runs_only_there`, `EnvLife.C135_accepted_runs`, `EnvLife.C135_other_env_refuses`, `EnvLife.C135_thread_env_refuses` | the end of the program stops every env; it counts as a stop by somebody |
| C136 | A coroutine is what its options say, and its id tells it apart | proved | `Options.C136_last_wins`, `Options.C136_default`, `Options.C136_made`, `Options.C136_answers`, `Options.C136_ids`, `Options.C136_owned_ids_differ`, `Options.C136_small_stack`, `Options.C136_id_reused` | priorities changed after the creation are C47 and C52; where a bound coroutine runs is C135; that the lock flag keeps the coroutine alive against the scheduler's own steps is C53, C54 and C88 |
| C137 | The errors of a client are its own | partial | `Io.ClientErr.C137_error_iff_failed`, `Io.ClientErr.C137_text_partial`, `Io.ClientErr.C137_wrong_text`, `Io.ClientErr.C137_log_text` | the text is right only without a preemption between the failed call and the return, and if the logging leaves errno alone; the rest is false (C137_wrong_text, C137_log_text) |
| C138 | A deferred action runs exactly once, when its block is left | partial | `Defer.C138_nested`, `Defer.C138_exactly_once`, `Defer.C138_variables_exist`, `Defer.C138_careful_not_terminated`, `Defer.C138_destroyed_never_runs`, `Defer.C138_comes_to_end`, `Defer.C138_throwing_action` | proved of all coroutines that are not destroyed and all actions that let no exception out; an exception that leaves an action ends the program (C138_throwing_action), and a coroutine that is destroyed unfinished never runs its actions (C138_destroyed_never_runs) |
| C14 | Shared mutex unlock is checked | partial | `SharedMutex.C14_unlock_checked`, `SharedMutex.C14_unlock_exact_partial`, `SharedMutex.C14_holder_unlock_throws` | a holder's unlock can throw after a mixed wake-up (witness); the rest is proved |
| C15 | Timed try-lock honours its deadline | proved | `TimedTry.C15_true_iff_acquired`, `TimedTry.C15_false_iff_deadline`, `TimedTry.C15_terminates`, `TimedTry.C15_for_waits_long_enough`, `TimedTry.C15_timed_call` | attempts and clock are arbitrary functions of the iteration |
| C16 | Condition variable wait is atomic | proved | `Cv.C16_sleepers_are_the_unnotified`, `Cv.C16_notify_all_not_lost`, `Cv.C17_cv_correct` | the user's mutex is abstract (any correct lock) |
| C17 | notify wakes the right waiters | proved | `Cv.C17_cv_correct`, `Cv.C17_notify_one_in_order`, `Cv.C17_cv_lock_released`, `Cv.C17_no_deadlock` |  |
| C18 | wait returns holding the mutex | proved | `Cv.C18_wait_holds_mutex`, `Cv.C18_returns_with_mutex` |  |
| C19 | Predicate wait | partial | `Cv.C19_returns_only_if_true_partial`, `Cv.C19_timed_true_only_if_pred_partial`, `Cv.C19_waits_even_if_true_negation` | returns only with the predicate true: proved; false of the code that it does not wait if the predicate is already true (proved negation) |
| C20 | Timed wait reports its own outcome | partial | `Cv.C20_own_timeout_returns_false_partial`, `Cv.C20_no_timeout_returns_true_partial`, `Cv.C20_sticky_timeout_negation`, `Cv.C20_sticky_timeout_pred_negation` | false of the code: the flag timeout__ is never reset; proved for the first time-out and for executions without time-outs |
| C21 | Timed wait cannot outlive its time-out | partial | `Cv.C21_fire_wakes_partial`, `Cv.C21_sleeping_timed_waiter_partial`, `Cv.C21_early_fire_lost_negation` | false of the code if the timer fires before registration; proved otherwise |
| C22 | Monitor abstraction | proved | `Monitor.C22_critical_sections_atomic`, `Monitor.C22_stuck_only_parked`, `Monitor.C22_terminates`, `Monitor.C22_real_mutex`, `Monitor.C22_wakes_its_own`, `Monitor.C22_real_mutex_stuck`, `Monitor.C22_real_mutex_terminates`, `Monitor.C22_programs`, `Monitor.C22_programs_stuck`, `Monitor.C22_programs_terminate` | for every object of the shape, first with an ideal mutex, then with every step of co_mutex in the model; then for programs of any number of coroutines that use any number of objects |
| C23 | Semaphore conserves permits | proved | `Semaphore.C23_semaphore_correct`, `Semaphore.C23_permits_conserved`, `Monitor.C24_semaphore_real_mutex` |  |
| C24 | Semaphore never strands a permit | proved | `Semaphore.C24_no_stranded_permit`, `Semaphore.C24_terminates`, `Monitor.C24_semaphore_real_mutex` |  |
| C25 | try_acquire is exact | proved | `Semaphore.C25_try_never_parks`, `Semaphore.C25_try_exact`, `Semaphore.C23_semaphore_correct` |  |
| C26 | Latch opens exactly at zero and stays open | proved | `Latch.C26_latch_correct`, `Latch.C26_passes_only_at_zero`, `Latch.C26_stays_open`, `Latch.C26_releases_everybody`, `Latch.C26_terminates`, `Monitor.C26_latch_real_mutex` |  |
| C27 | Wait group | proved | `WaitGroup.C27_waits_for_all`, `WaitGroup.C27_abort_iff_too_many`, `WaitGroup.C27_releases_everybody`, `WaitGroup.C27_terminates`, `Monitor.C27_wait_group_real_mutex` |  |
| C28 | Barrier phases do not leak | proved | `Barrier.C28_barrier_correct`, `Barrier.C28_no_early_release`, `Barrier.C28_phases_counted`, `Monitor.C29_barrier_real_mutex` |  |
| C29 | Barrier releases everybody and is reusable | proved | `Barrier.C29_blocked_only_in_open_phase`, `Barrier.C29_terminates`, `Barrier.C29_exact_participants_never_throw`, `Barrier.C29_exact_participants_never_all_blocked`, `Monitor.C29_barrier_real_mutex` |  |
| C30 | arrive_and_drop reduces the barrier | partial | `Barrier.C30_drop_does_not_wait_partial`, `Barrier.C30_drop_blocks_barrier_negation` | false of the code: a drop blocks the barrier for ever (proved for every size and execution); proved only that the call itself does not wait |
| C31 | call_once runs once | proved | `CallOnce.C31_at_most_once`, `CallOnce.C31_exactly_once` |  |
| C32 | call_once waits for completion | partial | `CallOnce.C32_winner_waits_partial`, `CallOnce.C32_returns_before_completion_negation`, `CallOnce.C32_never_retried_negation` | false of the code for callers that lose the race and after an exception; proved for the caller that runs the callable |
| C33 | Channel is FIFO and exactly-once | proved | `Chan.C33_fifo_exactly_once`, `Monitor.C37_channel_real_mutex` |  |
| C34 | Channel capacity | proved | `Chan.C34_capacity`, `Chan.C34_unlimited_push_never_waits`, `Monitor.C37_channel_real_mutex` |  |
| C35 | Channel close | proved | `Chan.C35_nothing_enters_after_close`, `Chan.C35_push_after_close_false`, `Chan.C35_rest_delivered`, `Chan.C35_drained_only_when_closed_and_empty`, `Chan.C35_pop_result` |  |
| C36 | Channel push result is truthful | proved | `Chan.C36_push_result_truthful` |  |
| C37 | Buffered channel never strands anybody | proved | `Chan.C37_no_stranded_waiter`, `Chan.C37_terminates`, `Monitor.C37_channel_real_mutex` |  |
| C38 | Unbuffered channel is a rendezvous | partial | `Chan.C38_returns_after_received`, `Chan.C38_single_producer_partial`, `Chan.C38_two_producers_negation`, `Chan.C38_waiting_producer_never_enters_negation` | second half is false of the code for two producers (two negations proved); proved for a single producer |
| C39 | Range-for over a channel | proved | `Chan.C39_loop_step`, `Chan.C39_never_null`, `Chan.C39_loop_sees_everything` |  |
| C40 | Pipeline stages compute the sequential function | proved | `Pipe.C40_any_source`, `Pipe.C40_delivers`, `Pipe.C40_complete_before_close_any`, `Pipe.C40_complete_before_close`, `Pipe.C40_terminates`, `Pipe.C40_delivered_in_the_end` | Groups of positive size (a group of size 0 has no list function; the code then pushes func({}) for ever). reduce over an empty source delivers the initial value; group drops an incomplete last group (both part of the list function). |
| C41 | Fork stage processes each item once | proved | `Pipe.C41_each_item_once`, `Pipe.C41_closes_afterwards`, `Pipe.C41_delivered_in_the_end` |  |
| C42 | A satisfied downstream stops its source | partial | `Pipe.C42_finite_source_partial`, `Pipe.C42_next_to_source_partial`, `Pipe.C42_source_never_stops`, `Pipe.C42_filter_never_stops`, `Pipe.C42_bounded_source_parked` | True for finite sources with unlimited channels and for a take next to an endless source; false with a stage in between (three universal negative theorems). |
| C43 | Strict priority | partial | `Sched.C43_best_priority_partial`, `Sched.C43_window` | proved outside the wake-up window (a waker between clearing the wait flag and updating the minimum priority); inside the window false of the code (witness) |
| C44 | Round robin within a priority | proved | `Sched.C44_round_robin` |  |
| C45 | Sleeping and finished coroutines never run | proved | `Sched.C45_only_runnable` |  |
| C46 | Scheduler bookkeeping | partial | `Sched.C46_bookkeeping_partial`, `Sched.C46_preempted_priority_change_loses_coroutine`, `Sched.C46_witness` | proved when set_priority is not preempted in the middle; false of the code otherwise (universal negation and witness) |
| C47 | Priority is clamped | partial | `Priority.C47_set_priority`, `Priority.C47_option_partial`, `Priority.C47_range`, `Priority.C47_option_wraps`, `Priority.C47_option_zero` | proved for set_priority and for options below 2^31; larger options are truncated to int (exact characterisation, negation) |
| C48 | Finished is final | proved | `StateManager.C48_final_stays`, `StateManager.C48_seen_final` |  |
| C49 | wait returns the result, after completion | partial | `Wait.C49_returns_result`, `Wait.C49_rethrows`, `Wait.C49_rethrown_once_partial`, `Wait.C49_rethrown_twice` | proved, except that the exception is rethrown to the first waiter only if no two waits read exception__ at the same time; otherwise false of the code (witness) |
| C50 | wait never misses completion | partial | `Wait.C50_woken`, `Wait.C50_end_is_published_partial`, `Wait.C50_preempted_waiter_deadlock`, `Wait.C50_preempted_waiter_witness`, `Wait.C50_timed_wait_deadlock` | proved when the preemption signal misses the window before unlock_finished_state and no timer of a timed wait fired; false of the code otherwise (two permanent deadlocks) |
| C51 | Timed wait on a coroutine | partial | `Wait.C51_nullopt`, `Wait.C51_no_stray_wakeup`, `Wait.C51_timeout_wakes`, `Wait.C49_returns_result`, `Wait.C50_timed_wait_deadlock` | results and wake-up proved; false of the code when finish and time-out coincide (permanent deadlock) |
| C52 | Waiting restores priority | proved | `Priority.C52_priority_restored`, `Priority.C52_moved` | coroutines do not change env (C56: the code that moves them is dead); C52_moved: false if they did |
| C53 | Live coroutines are not destroyed | partial | `Life.C53_destroyed_once`, `Life.C53_destroyed_rightly_partial`, `Life.C53_stop_destroys` | at most once always; finished, unlocked and not running as long as the env is not stopped; remove_all_ctx__ destroys unfinished coroutines with handles |
| C54 | No use of a destroyed coroutine by the scheduler | partial | `Life.C54_only_cause`, `Life.C54_no_shared_partial`, `Life.C54_shared_stack_used_after_free` | holds without shared-stack coroutines; false with them: a finished coroutine without a handle is destroyed by remove_detached_ctx__ in the detour over the idle coroutine and then accessed by switch_shared_stack_ctx__ |
| C55 | Bound and shared-stack coroutines stay put | proved | `Sched.C55_only_movable_taken`, `Sched.C55_rest_untouched`, `Sched.C55_no_loss_no_duplicate` |  |
| C56 | Blocked threads lose their work to others | partial | `LockCount.C56_never_moved` | The code violates the property: proved that the monitor never moves a coroutine, in no execution (its own try_lock makes the counter nonzero). |
| C57 | Preemption guard balance | partial | `LockCount.C57_disabled_inside`, `LockCount.C57_enabled_outside_partial`, `LockCount.C57_never_enabled_again` | Disabled inside a section is proved; enabled outside holds only until the first coroutine of the thread finishes (real_entry leaks its guard), proved both ways. |
| C58 | A spinning coroutine is preempted | partial | `LockCount.C58_preempted_partial`, `LockCount.C58_not_after_finish`, `LockCount.C58_not_while_parked` | Preempted if no coroutine has finished on the thread and none is blocked inside a guarded section; proved that otherwise no coroutine is ever preempted. |
| C59 | Placement of new coroutines | proved | `Manager.C59_placement`, `Manager.C59_seen_schedulable`, `EnvLife.C59_reachable`, `EnvLife.C59_starting_env_chosen` | Exact for envs that do not change while they are read; with changes, each chosen env was schedulable when read. |
| C60 | Exclusive envs stay exclusive | partial | `Manager.C60_busy_exclusive_partial`, `Manager.C60_idle_exclusive_chosen`, `Manager.C60_witness`, `EnvLife.C60_reachable` | The code violates the property: an idle exclusive env is chosen; exclusive envs that are not idle are never chosen. |
| C61 | Surplus envs are removed safely | partial | `Manager.C61_surplus`, `Manager.C61_enough_stopped`, `EnvLife.C61_owned`, `EnvLife.C61_busy_env_stopped` | Holds if the envs do not change between the monitor's test and its stop; otherwise an env with a coroutine can be stopped (witness). |
| C62 | Forced scheduling hits only stuck threads | proved | `EnvLife.C62_only_stuck`, `EnvLife.C62_stuck_signalled`, `EnvLife.C62_every_env_visited` |  |
| C63 | Limits are at least one | partial | `Manager.C63_limits_partial`, `Manager.C63_limit_wraps`, `Manager.C63_tick` | The limit is kept in 32 bits: max(n,1) only for n < 2^32, zero for positive multiples of 2^32. |
| C64 | A created coroutine runs | partial | `EnvLife.C64_accepted_runs_partial`, `EnvLife.C64_never_picked`, `EnvLife.C64_destroyed_unrun`, `EnvLife.C64_stopped_env_accepts`, `EnvLife.C64_assertion_fails`, `EnvLife.C64_deleted_env_used`, `EnvLife.C64_stopped_env_rejects_partial` | The check and the insertion are not atomic with the stop; proved for envs nobody stops, and four witnesses of the race. |
| C65 | Timers fire in order and not early | proved | `Timer.C65_not_early`, `Timer.C65_order`, `Timer.C65_callback_once`, `Timer.C65_callback_not_early` |  |
| C66 | Every started timer fires | partial | `Timer.C66_thread_enabled_partial`, `Timer.C66_fires_partial`, `Timer.C66_equal_expiry_never_fires`, `Timer.C66_witness` | proved when no two armed timers have equal expiry times; otherwise false of the code (universal negation): the second timer is silently dropped |
| C67 | Stopping a timer affects only that timer | partial | `Timer.C67_idempotent`, `Timer.C67_stop_exact_partial`, `Timer.C67_stop_removes_other`, `Timer.C67_witness` | idempotence proved; exact removal proved for distinct expiry times, false otherwise (negation) |
| C68 | A stopped timer does not fire | partial | `Timer.C68_stopped_partial`, `Timer.C68_callback_after_stop`, `Timer.C68_witness` | false of the code: a callback whose timer fired before stop may start after it (negation); proved for timers not yet fired |
| C69 | Timer thread is memory safe | partial | `Timer.C69_empty_queue_read`, `Timer.C69_spurious_wakeup`, `Timer.C69_no_stop_safe_partial` | false of the code (witness executions); proved when nobody calls stop and no wake-up is spurious |
| C70 | Timer operations do not deadlock | partial | `Timer.Locks.C70_unlock_by_owner`, `Timer.Locks.C70_deadlock_permanent`, `Timer.Locks.C70_deadlock_stop`, `Timer.Locks.C70_deadlock_callback`, `Timer.Locks.C70_deadlock_two_users`, `Timer.Locks.C70_no_deadlock_partial` | false of the code in three ways (witnesses; a deadlock is proved permanent); deadlock freedom proved for clients that start each timer at most once, never stop, and do not use timers in callbacks |
| C71 | Sleep lasts | partial | `Timer.Sleep.C71_not_early`, `Timer.Sleep.C71_woken_partial`, `Timer.Sleep.C71_same_deadline_never_wakes`, `Timer.Sleep.C71_witness` | first half proved; second half proved for distinct deadlines, false for equal deadlines (universal negation) |
| C72 | Context switch preserves registers | proved | `Machine.C72_switch_roundtrip`, `Machine.C72_switch_self` |  |
| C73 | First switch enters the coroutine | partial | `Machine.C73_first_switch`, `Machine.C73_alignment`, `Machine.C73_misaligned_witness`, `Machine.C73_tiny_stack` | false for stack sizes below 16 or not a multiple of 16, which nothing rejects (shown); proved for all others |
| C74 | Shared stack save and restore | proved | `Machine.Shared.C74_shared_stack_roundtrip`, `Machine.Shared.C74_first_entry`, `Machine.Shared.C74_copies_disjoint` |  |
| C75 | Stack shrinking keeps live data | proved | `Machine.Shared.C75_shrink_safe`, `Machine.Shared.C75_stays_inside`, `Machine.Shared.C75_shrink_effective`, `Machine.Shared.C75_shrinks_every_1024th` |  |
| C76 | Preempted code is resumed unharmed | partial | `Machine.C76_resume_by_signal_partial`, `Machine.C76_resume_by_switch_partial`, `Machine.C76_red_zone_overwritten`, `Machine.C76_vector_registers_lost`, `Machine.C76_witness`, `Machine.Window.C76_contexts_intact_partial`, `Machine.Window.C76_window_witness` | false of the code: red zone and vector registers are lost when a preempted coroutine is continued by switch_to, and a signal between unlock_schedule and switch_to destroys another coroutine's context; general purpose registers proved intact otherwise |
| C77 | Event subscriptions | partial | `Event.C77_handles_unique`, `Event.C77_publish_partial`, `Event.C77_unsub_exact`, `Event.C77_publish_reentrant_partial`, `Event.C77_self_unsub_ub`, `Event.C77_order_wraps`, `Event.C77_subscription_replaced` | false of the code after 2^31 subscriptions (order) and 2^32 (a subscription is lost), and for a callback that unsubscribes itself (undefined behaviour); proved below these limits |
| C78 | co_any is type safe | proved | `Any.C78_get_type_safe`, `Any.C78_never_stuck` |  |
| C79 | co_any copies are independent | partial | `Any.C79_store_independent_partial`, `Any.C79_copies_alias`, `Any.C79_witness` | false of the code: copies share the object, so writing through get changes the original (universal negation); assigning a new value is proved independent |
| C80 | Coroutine-local storage | partial | `Local.C80_same_object_partial`, `Local.C80_contents_partial`, `Local.C80_defined_partial`, `Local.C80_two_types_ub` | proved if each coroutine uses each name with one type; otherwise undefined behaviour (shown) |
| C81 | write_n sends everything in order | proved | `Io.WriteN.C81_write_n_success`, `Io.WriteN.C81_write_n_prefix`, `Io.WriteN.C81_write_n_inside`, `Io.WriteN.ret_iff` |  |
| C82 | read_n fills the buffer | partial | `Io.ReadN.C82_read_n_success_partial`, `Io.ReadN.C82_read_n_safe`, `Io.ReadN.C82_eof_never_returns`, `Io.ReadN.ret_iff` | first half proved; second half false of the code: read_n never returns after the peer closed (universal negation) |
| C83 | connect reports the truth | partial | `Io.Connect.C83_connect_partial`, `Io.Connect.C83_minus_one_cause`, `Io.Connect.C83_immediate_success_is_error`, `Io.Connect.C83_refused_is_success`, `Io.Connect.C83_interrupted_is_error` | false of the code in three ways (negations); exact causes of both results proved |
| C84 | I/O wrappers retry only when they must | partial | `Io.C84_first_outcome_partial`, `Io.C84_never_stuck`, `Io.C84_read_interrupted`, `Io.C84_sendto_would_block`, `Io.Accept.C84_accept_partial`, `Io.Accept.C84_accept_loses_connection` | proved for read, write, send, recv, recvfrom, sendmsg, recvmsg; false for accept if fcntl fails, for read and write on sockets if interrupted |
| C85 | Destroying the manager ends the timer thread | partial | `Timer.C85_lost_notification`, `Timer.C85_exits_partial` | false of the code: the notification is lost between the check and the wait (negation); proved when the thread waits as the request arrives |
| C86 | A sleeping scheduling thread is woken | partial | `Sched.Idle.C86_no_lost_wakeup`, `Sched.Idle.C86_wakes_up_partial`, `Sched.Idle.C86_asleep_with_lock_forever`, `Sched.Idle.C86_timed_wait_deadlock` | no notification is lost, for all executions; that it arrives is proved when no coroutine switches while it holds the schedule lock. A timed wait of a condition variable does (co_condition_variable.h:111-113): then the thread sleeps with the lock and nobody can notify it (negations) |
| C87 | Stacks are freed exactly once and never in use | partial | `Stacks.C87_freed_at_most_once`, `Stacks.C87_stack_is_its_own`, `Stacks.C87_freed_with_coroutine_partial`, `Stacks.C87_shared_stack_leaks`, `Stacks.C87_suspended_shared_stack_leaks` | never freed twice or while in use; freed with the coroutine unless it runs on the shared stack. The copy of a shared-stack coroutine's frames is never freed once the coroutine has finished or the env stops (universal negations) |
| C88 | A coroutine has at most one owner, and its object lives as long as the owner | partial | `Handle.C88_one_owner`, `Handle.C88_released_once`, `Handle.C88_owner_keeps_partial`, `Handle.C88_stop_uaf` | one owner and one release for all executions; no access to a destroyed object unless the env is stopped: then the objects are destroyed under their handles (negation) |
| C89 | Ending a handle waits for its coroutine and does not bring the program down | partial | `Handle.C89_waits`, `Handle.C89_returns`, `Handle.C89_terminates_only_partial`, `Handle.C89_undelivered_terminates`, `Handle.C89_self_terminates` | the wait is proved for all executions. The program is terminated exactly when the coroutine threw and nobody has received the exception, or when it ends its own handle (universal negations) |
| C90 | Operations on an empty handle are defined | partial | `Handle.C90_null_only_partial`, `Handle.C90_empty_harmless`, `Handle.C90_empty_dereferenced` | harmless: wait<void>, join, detach, name, destruction; a plain thread gets an exception from the other waits. A coroutine that calls wait<T> or wait_for, and every forwarded member, dereferences null (negation) |
| C91 | Envs are freed exactly once and never while in use | partial | `Shutdown.C91_freed_once`, `Shutdown.C91_worker_joined`, `Shutdown.C91_before_partial`, `Shutdown.C91_exit_uses_freed`, `Shutdown.C91_plain_exit`, `Shutdown.C91_running_thread`, `Shutdown.C91_schedule_here` | freed at most once, and scheduling threads of their own are joined first, for all executions; no use of a freed env before the destructor of the manager unless schedule_in_this_thread is used. Every ordinary exit after main has used the library frees the clean-up thread's env and then uses it (universal negation) |
| C92 | Destroying the manager is complete | partial | `Shutdown.C92_complete_partial`, `Shutdown.C92_manager_partial`, `Shutdown.C92_dropped_leaks`, `Shutdown.C92_manager_used` | complete when no env is still in the set as the clean-up thread empties it; such an env is never freed and its thread calls into the destroyed manager (negations) |
| C93 | The clean-up thread of the manager ends | proved | `Shutdown.C93_progress`, `Shutdown.C93_bounded` | the timer thread the destructor waits for as well is C85 |
| C94 | Data under the library's locks is updated atomically | partial | `Sections.C94_atomic_partial`, `Sections.C94_guard_suffices`, `Sections.C94_flags_partial`, `Sections.C94_update_lost`, `Sections.C94_wakeup_lost` | holds unless a coroutine is preempted inside the section, which a preemption guard prevents; without guard the update of another coroutine of the thread is lost (universal negation), e.g. a wake-up |
| C95 | Timed operations last as long as they were told | partial | `Duration.C95_sleep`, `Duration.C95_wait_partial`, `Duration.C95_got`, `Duration.C95_no_overflow`, `Duration.C95_wait_early`, `Duration.C95_forever` | sleeps last; waits are cut to whole milliseconds, so less than a millisecond early (negation for every other duration); no overflow below 146 years, undefined behaviour for nanoseconds::max() (universal negation) |
| C96 | An exception in a pipeline ends it | partial | `Pipe.Throw.C96_prefix_partial`, `Pipe.Throw.C96_never_ends`, `Pipe.Throw.C96_comes_to_rest`, `Pipe.Throw.C96_terminates_program` | what arrives is right; but the stage that threw never closes its channel: unless a take comes behind it the consumer waits for ever (universal negation), and two exceptions in a fork terminate the program (witness) |
| C97 | A pipeline is correct down to the mutexes of its channels | proved | `Real.C97_any_source`, `Real.C97_delivers`, `Real.C97_no_null`, `Real.C97_progress`, `Real.C97_delivered_in_the_end`, `Real.C97_fork_delivered_in_the_end`, `Real.C97_terminates` | one consumer that reads the last channel; groups and forks of positive size; functions that do not throw (C96 else) |
| C98 | Waiting for a spinlock lets the holder run | partial | `Inversion.C98_holder_runs_partial`, `Inversion.C98_holder_starved`, `Inversion.C98_spins_for_ever` | holds for a holder whose priority is at least as good as the waiter's; a holder of worse priority in the same thread never runs again, and the lock is never released (universal negation) |
| C99 | An I/O object stands for one file | partial | `Io.Fd.C99_reaches_partial`, `Io.Fd.C99_no_leak_partial`, `Io.Fd.C99_closed_copy_lost`, `Io.Fd.C99_wrong_file`, `Io.Fd.C99_close_error_repeated`, `Io.Fd.C99_dropped_stays_open`, `Io.Fd.C99_failed_init` | holds when an object is closed only once no copy is left and the kernel reports no error; closing one copy takes the file away from the others (universal negation), which then reach the file that got the number next (witness); objects that end without close and failed fcntl calls leak the descriptor (universal negations) |

138 properties, 58 proved as stated, 80 partial.
<!-- /table -->

## Findings

Where the code and the intended property disagree. Line numbers are those of /repo.

Locks
* C08: `co_mutex::lock` by the owner enqueues the owner behind itself; the next `unlock`
  hands the mutex to the sleeping owner. Two outcomes are shown: two holders, and a mutex
  nobody can take again.
* C11–C14: `co_shared_mutex` wakes readers with `std::remove_if` and then reads the
  *tail* that `remove_if` leaves unspecified (in practice: the old values). With a reader
  in front and a writer somewhere in the queue, a writer and readers are admitted
  together, a reader can be dropped from the queue and sleeps for ever, and a holder's
  unlock can throw. `C12_wake_right_iff` is the exact condition.
* C19: the predicate versions of `co_condition_variable::wait` wait once before they test
  the predicate. C20: the member `timeout__` is never reset, so after one time-out every
  later timed wait reports a time-out. C21: a timer that fires before the waiter is
  registered is lost.

Monitors
* C30: `arrive_and_drop` registers an arrival but no wait, and nothing lowers the number of
  participants: the phase of a drop never completes and its waiters stay blocked.
* C32: a `call_once` that loses the race returns before the callable has completed; after
  an exception nobody retries.
* C38: on an unbuffered channel with two producers a push whose value was received can stay
  blocked for ever; a producer that finds the channel occupied never gets its value in,
  however often the channel becomes free.

Pipelines
* C42: only `take` (always) and `group` (after a refused push) close their input. With
  `map`, `filter`, `skip`, `fork` or `reduce` behind an endless source the source never
  stops; a `filter` that lets nothing more pass never learns that its output is closed;
  a source with a bounded channel is parked for ever.
* C96: a stage whose function throws ends without closing its channel, and as it is
  detached nobody can see the exception: the consumer waits for ever (unless a `take` behind
  has had enough). If two workers of a `fork` throw, the destructor of a handle throws
  during unwinding: `std::terminate`.
* `group(0)` pushes `func({})` for ever and `fork(0)` closes at once (outside C40, C41).
* The argument of `stream` is never used (co_pipeline.h:108-118).

Scheduler
* C43: between clearing the wait flag and updating the minimum priority hint a waker
  leaves a window in which a lower priority coroutine is chosen.
* C46: `set_priority` preempted between removing and re-inserting loses the coroutine.
* C47, C63: options are narrowed to 32 bits.
* C49: two waiters can both rethrow. C50, C51: a waiter preempted while it holds the
  finished-state lock, and a timed wait whose time-out coincides with the end of the
  coroutine, deadlock permanently.
* C53: `remove_all_ctx__` at stop destroys unfinished coroutines that have handles.
  C54: a finished detached shared-stack coroutine is destroyed on the detour over the idle
  coroutine and then accessed (co_env.cpp:315, 372).
* C86: a timed wait of a condition variable switches away with the schedule lock held
  (co_condition_variable.h:111-113); if its env has nothing else to run, the thread sleeps
  holding the lock `wake_up` needs.
* C87: the stack a shared-stack coroutine's frames are copied to when it finishes
  (co_env.cpp:452-458) is never freed (co_ctx_factory.cpp:41): one leaked stack per such
  coroutine.
* C88: stopping an env destroys the objects its handles point to; whatever is done with
  such a handle afterwards, even its destructor, accesses freed memory.
* C89: the destructor of a handle rethrows the exception of its coroutine (co.cpp:31-34,
  58-61) and destructors are `noexcept`: a coroutine that throws and is not waited for
  terminates the program; so does one that destroys its own handle ("can't wait self").
* C90: a coroutine that calls `wait<T>` (T not `void`) or `wait_for` on an empty handle
  dereferences null; a plain thread gets "can't wait self", because `curr_ctx__` is null
  as well (co_env.cpp:101, 156). The `ctx_…` members always dereference null.
* C91: `destroy_ctx` and `destroy_stack` take a preemption guard, which makes an env for
  the thread it runs in (co_env.cpp:824-833). The clean-up thread thus gets an env with the
  first env it frees; at exit it frees that one too (co_manager.cpp:221-224) and the next
  guard accesses it. Envs made from threads of the user are freed as well while those
  threads run. `schedule_in_this_thread` publishes the end of its env and returns through
  it although it may be freed by then: it has no `worker__` that the destructor joins.
* C92: the clean-up thread tells the envs to stop and then empties the set without waiting
  for them (co_manager.cpp:205-218). An env whose thread is slow is never freed, and the
  thread calls `remove_env__` of the destroyed manager.
* C94: all locks of the library's own data are `std::recursive_mutex`es, owned by threads.
  They do not exclude the coroutines of one thread from each other. Sections that
  coroutines enter without a preemption guard (`co::detach` and `co::join` through
  `unlock_destroy`, timers started and stopped, subscriptions, `set_priority`) can be
  preempted between read and write; the other coroutine's update is then lost. For the
  flags of a coroutine that is a lost wake-up. (A compiler that emits one
  read-modify-write instruction for the update closes the window for that update.)
* C56: the monitor's own `try_lock` makes the counter it then tests nonzero: the code that
  moves coroutines is dead.
* C57, C58: `real_entry` never destroys its schedule guard, so after the first coroutine
  of a thread has finished preemption stays disabled there; a wait of a condition variable
  keeps it disabled while parked.
* C59: an env that is still starting can be chosen. C60: an idle exclusive env is chosen.
  C61, C64: test and action are not atomic with `stop`.

Timer
* C66, C67, C71: timers are kept in a `std::set` ordered by expiry time only: the second
  of two timers with the same expiry time is dropped silently, `stop` of one removes the
  other, a sleeper with an equal deadline never wakes.
* C68: a callback can start after `stop` returned. C69: the empty queue is dereferenced
  after `stop` or a spurious wake-up. C70: three deadlocks. C85: the request to end the
  timer thread can be lost.
* C95: `wait_for` and `wait_until` cut their time-out to whole milliseconds
  (co_env.cpp:118-120): a wait of 1.5 ms gives up after 1 ms, one of 0.9 ms at once. All
  timed operations compute `now + duration` in 64 bits: waiting or sleeping "for ever" with
  `nanoseconds::max()` overflows (in practice: returns at once).
* C98: `co_spinlock::lock` waits by yielding, and the scheduler only looks at worse
  priorities when nobody better can run: a coroutine that waits for a spinlock held by a
  preempted coroutine of worse priority in its thread spins for ever (priority inversion),
  and the thread with it. Only a priority change or a migration ends this.
* C101: the lost reader of C13 is not rescued by the scheduler: the reader's thread goes
  idle, everybody else has ended, nobody holds the mutex, and the reader waits for ever.

Machine
* C73: stack sizes below 16 or not a multiple of 16 misalign the first frame.
* C76: the preemption path loses the red zone and vector registers when the coroutine is
  continued by `switch_to`; a signal between `unlock_schedule` and `switch_to` overwrites
  the context of another coroutine.

Utilities, I/O
* C77: handles are `int`s: order breaks after 2^31, a subscription is lost after 2^32;
  unsubscribing oneself in a callback is undefined behaviour. C79: copies of `co_any`
  alias. C80: two types under one name are undefined behaviour.
* C82: `read_n` never returns after the peer closed. C83: `connect` reports immediate
  success as an error, a refused connection as success, an interrupted one as an error.
  C84: `accept` loses a connection if `fcntl` fails; `read`/`write` pass EINTR on.
* C99: copies of an I/O object (`get_endpoint` returns one) share the number, not the
  ownership: closing one leaves the others with a number that may already be another file's.
  `close` keeps the number when the kernel reports an error, though Linux has freed it.
  Destructors do not close; `open`, `socket` and `accept` ignore a failed `init_fd`.
* C100: `co_io::fcntl` and `ioctl` hand the `va_list` itself to the kernel. `F_SETFL` then
  sets flags from a stack address and may silently make the descriptor blocking.

## Trusted base

* The Lean 4.33.0 kernel.
* Axioms: only `propext`, `Classical.choice` and `Quot.sound`. AXIOMS.md lists for every
  theorem in the manifest which of them it uses (output of `#print axioms`). No axioms of
  our own, no `sorry`, no `native_decide`, no `bv_decide`.
* That the definitions say what the cited C++ lines do. Each definition carries a comment
  with file and lines and says where it simplifies.
* Sequential consistency of the modelled shared accesses, and that one modelled step is
  one access (or a group of accesses under a lock that the model shows to be held).
* What the environment does is not trusted but quantified over: schedules, clients,
  clocks, kernel results, timer expiry, spurious wake-ups and signals are arbitrary.

Layers are connected as follows. The monitor machine with explicit mutex and condition
variable steps refines the atomic monitor machine (C22), and semaphore, latch, wait group,
barrier and channels are instances of it. The mutex inside a monitor is an ideal lock in
`Verif/Monitor/Low.lean`; `Verif/Monitor/Full.lean` replaces it by the `co_mutex` machine
of `Verif/Sync/Mutex.lean` and proves that this adds no behaviour, no deadlock and no
divergence, so the object theorems hold with every step of the mutex in the model
(`Verif/Monitor/FullObjs.lean`). `Verif/Monitor/Sys.lean` lifts the refinement to
programs that use several objects. `Verif/Pipe/Pipe.lean` takes `push`, `pop` and `close` as
single steps; `Verif/Pipe/Real*.lean` prove that the pipeline over the channels of
`Verif/Chan`, with every step of their mutexes and condition variables, has no other results,
no other deadlocks and no divergence (C97).
`Verif/Sched/Compose*.lean` join an object with the scheduler of a thread: the object machines
let a coroutine go on as soon as its sleep flag is clear, the env machine decides who runs
without knowing why its coroutines wait. The joint machine lets a coroutine of the env make a
step of the object only while it is the running one, turns every registration and wake-up of
the object into `enter_wait_resource_state` and `leave_wait_resource_state` of the env, and
leaves coroutines of other threads free. Simplified: one object (with its mutex and condition
variables) is one resource; the running coroutine may be switched anywhere except between
registration and `CoYield` (the code excludes more); inside a call a coroutine does nothing
else; the preemption signal does not arrive inside `handle_priority_changed` (what happens
if it does is shown by the negations of C43 – C46).
`Verif/Sched/ComposeProg.lean` does the same with whole programs over any number of objects,
where coroutines may also wait for each other's end; `ComposePipe.lean` has pipelines. Waiting
for several ends (`fork`) is one wait that ends with the last of them, and the coroutine of a
`fork` is added when its workers exist.

### Several threads (`Verif/Sched/ComposeMany.lean`, `ComposeManyProps.lean`)

The joint machine of C101 with `n` envs. A step of the object is made by a coroutine that is the running one of some env (or that belongs
to no env), and registers and ends waits in whatever env the coroutines concerned are at that moment. A coroutine can leave an env by
`take_all_movable_ctx` or `take_one_movable_ctx` and be added to another; that it is added to one only is the guard `alone`, which is what
the manager's code does with the lists it takes (co_manager.cpp:266-306, 441-491). Seen from one env, the coroutines of the other envs are clients
"elsewhere" of C101's machine, so every fact about one env carries over (`at_runs`). "All idle" needs that every coroutine inside a call
belongs to some env at that moment: a coroutine in the hands of the manager has not arrived yet.

### Fair executions (`Verif/Sched/ComposeFair.lean`)

`Run` is an infinite execution of the machine with `n` threads, `Fair` says that (1) finitely many coroutines get processor time, (2) for a
coroutine that stays inside a call, again and again the thread it belongs to looks for somebody to run at a moment when nobody is in the
middle of adding, waking or re-prioritising it, and (3) a coroutine that is picked again and again makes steps again and again. These are
assumptions about the operating system's threads and the user's code; the library's own part, that a runnable coroutine is not overlooked,
is not assumed but is C101's. Priorities do not hurt: the theorems hold for any priorities since with finitely many calls the coroutines of
higher priority run out of steps. `fair_idle` shows that every finite execution that ends with all threads idle continues to a fair one,
which gives the concrete cases.

### Destruction (`Verif/Monitor/Life.lean`, `LifeProps.lean`)

`Life` adds the end of an object to the machine with the real mutex; any step of a coroutine inside a call, or a new call, after it is
recorded as `ub`. What clients have to do is stated on traces: how much is called in total (`called`), what has returned (`rets`), which
calls are open (`opens`). The proof needs no termination argument: a call returns with the mutex in hand, so no other coroutine is between
its section and its end; and weights show that nobody is before it. For co_mutex itself the spinlock plays the role of the mutex.

### Wake-ups and freed coroutines (`Verif/Sched/WakeFree.lean`, `WakeFreeObjs.lean`)

`leave_wait_resource_state` (co_ctx.cpp:192-207) clears the flag WAITING and then still unlocks a mutex of the coroutine object, tests a flag,
and reads `env__` and the priority. From the moment the flag is clear another thread may run the coroutine to its end and free it. The
theorem `C106_unprotected_wake_goes_wrong` says that nothing but a lock, or disabled preemption on the common thread, prevents this; `sleep_until` (co_co.h:176-190) and
`wait_ctx` (co_env.cpp:154-190) have neither. A disagreement of the code with C106; a remedy is to read `env__` and the priority before the
flag is cleared and to make clearing the flag the last access.

### Data races (`Verif/Base/Hb.lean`, `Verif/Base/Prog.lean`, `Verif/Sched/Races.lean`, `Verif/Sched/Publish.lean`, `Verif/Sync/MutexHb.lean`)

Happens-before is the transitive closure of program order and of "unlock synchronises with the next lock of the same mutex". That mutexes
exclude is an assumption about the standard library, and for co_spinlock it is C01; that `test_and_set(acq_rel)`/`clear(release)` synchronise is
the C++ standard's. Atomic members (`curr_ctx__`, the counter of co_spinlock) do not race by definition, and the model gains no order from them.
In `Races.lean` the agents are threads, because recursive mutexes belong to threads: a coroutine of the same thread that runs between another
one's lock and unlock re-enters the mutex. A coroutine may
continue on another thread wherever it holds no lock; that is written as another agent that begins there (`Lib.cut`), which gives up the order
between the two parts and so only admits more races. Constructors and destructors are left out: objects are assumed to be constructed before they are shared, and destroyed
after (C91, C105 and C106 are about that). Members that are fixed before the object is shared are left out too.

The table is an over-approximation of the control flow, so that the theorem `C107_guarded_race_free_partial` is about more executions than there
are; the racing executions of `C107_races_exactly` are of straight code, given in the docstrings with the lines that race. They are
disagreements of the code with C107. The remedies: make the nine members atomic or read them under their lock.

### Lock order (`Verif/Base/LockOrder.lean`, `Verif/Sched/LockOrder.lean`)

`no_deadlock` is about any set of pieces of code whose lock operations respect a rank; a mutex that the coroutine already has may be taken again,
`try_lock` never waits. Two exceptions from the order in the code are harmless, and are written as gates: the lock of a priority is taken after
that of a list by `move_ctx_to_here` and `remove_ctx`, and before it by `set_priority`; `finished` is subscribed to with a schedule lock, and its
callbacks take schedule locks. The gates `tok c` and `ph c` are ghosts that the code does not have. `ph` is justified by `C108_sub_pub_apart`. `tok` is
justified by `can_move` and by the life of a coroutine: a coroutine that changes its own priority is running, coroutines are moved only if they are
not (C55), and added before they run and removed after they have finished; this argument is not formalised here.

The model leaves out preemption by signals (C57, C58, C76, C106), which can stop a coroutine that has a spinlock, and the locks
of the standard library behind `std::function`, allocation and streams. The schedule lock that is taken before a switch and released after it by the next
coroutine of the same thread is written as released before the switch. Waiting for the condition variable of `sleep_if_need__` is not a lock, and is
not a deadlock of this property (C86 is about it).

Disagreement with the code: `C108_deadlocks`. `wait_until` of the condition variable takes every other lock with the schedule lock held; the
remedy is to release it before `timer->start()`, `lock.unlock()`, `lock.lock()` and `timer->stop()`. The timer thread runs callbacks and
creates coroutines with the lock of its queue; the remedy is to take the timer out of the queue first. `set_priority` should publish after it has
released the lock of the priority.

### Life of the source data (`Verif/Pipe/SrcLife.lean`)

Disagreement with the code (C109): an `initializer_list` is captured by copy (co_pipeline.h:237), which copies a pointer to its elements, not the elements;
`co_pipeline<int> p({1, 2, 3});` leaves the source with a dangling pointer at the end of the statement. Arrays and iterators are captured likewise. With `take` even
`arr | take(1) | to<…>()` can read `arr` after the expression has ended, because `take` closes its input without waiting for the stage that writes to it. The remedy is
to copy the elements into a vector. What the functions given to the stages capture is the program's own business and not modelled.

### Failing creations (`Verif/Sched/Create.lean`)

The order of the calls is that of C++17: the memory of an object is allocated before the arguments of its constructor are evaluated, and released if they or the
constructor throw. A call is modelled as failing without effect. Not modelled: failures inside `std::async` after the thread was started, and exceptions of the
monitor (it would create envs only if it moved coroutines, which it does not, C56).

Disagreement with the code (C110): `create_ctx`, `create_env` and `create_stack` test the result of `new` for `nullptr`, which it never is, and have no handlers; the
remedy is to hold the parts in `unique_ptr`s until they are handed over. `timer_routine__` should catch exceptions of `create_and_schedule_ctx`.

### Fatal signals (`Verif/Sched/Crash.lean`)

The handler is modelled in two parts: what it prints and how it ends, per thread with nested handlers and the mask of `sigaction`; and its lock operations (`manager_info`, then
`set_clean_up__` from the destructor of the manager, which `exit` runs). That the background tasks end once `clean_up__` is set is C85 and C93; here `bgEnd` is a step that is
possible unless the task's thread is in a handler. Functions that are not safe in signal handlers and overflowed stacks are not modelled.

Disagreement with the code (C111): `exit` in a signal handler destroys the manager, which waits for the background threads, also if it is one of them that runs the handler;
`manager_info` waits for locks that the interrupted thread may be keeping from the threads that hold them; `in_exception` is neither atomic nor `volatile`. The remedy is `_exit` or restoring
the default action and raising the signal again, which would also give the status that shells expect (the code gives `128 - sig`). Also, `exe_path` returns the path
only if `realpath` failed (co_exception.cpp:23-32), so the report never contains it.

### Values whose copying throws (`Verif/Chan/Throws.lean`)

Each call says which of its copies throw. `push_back` is taken to have the strong guarantee; copies of the argument made before the mutex is locked are left out, and so are
exceptions of the lock itself.

Disagreement with the code (C112): `notify_one` comes after the copy, so a coroutine that was woken and whose copy throws leaves without passing the notification on. Others then
wait although the channel holds a value (has room). The remedy is to notify again on the way out of `pop` and `push` when an exception is thrown. `operator>`, `operator>>` and
`++it` assign after the value was taken out of the channel; if the assignment throws the value is lost.

### Timed locking (`Verif/Sync/TimedLock.lean`)

The loop of `try_lock_until` is modelled once, over any object that has an attempt; each step of the object is one step of the whole. The clock is an integer that may
advance by any amount at any time (it is the steady clock; other
clocks do not compile). The yield between two attempts is a step that may take any time.

Disagreement with the code (C113): a timed call polls. A lock that is released and taken again between two attempts is missed, and that may happen any number of times
(`C113_may_miss`), while a coroutine waiting in `lock` would be next in line. The remedy is to wait in the queue of the mutex together with a timer.

### errno and preemption (`Verif/Io/Errno.lean`)

System call and look at `errno` are two steps; in between the preemption signal may take the thread away, other code of the thread may set `errno`, and another thread may go on with
the coroutine. That the compiler may keep the address of `errno` across the switch is not modelled (it would make things worse).

Disagreement with the code (C114): the functions of co_io.cpp and co_net.cpp do not keep the signal out between the system call and the look at `errno`, and the switch does not save
`errno` with the coroutine. A read that would block may return -1 with any error code; one that fails for good may go on trying. A guard around the call is no remedy for users, because the
call yields inside (C57). The remedy is a guard around system call and look at `errno` in each function, or to save `errno` in `switch_from_outside`. `connect` has the same
weakness (not modelled here; see C83).

### Overtaking (`Verif/Sync/Starve.lean`, `Verif/Monitor/Serial.lean`)

`Serial.lean` has lemmas about whole calls of a monitor object that nobody interrupts, in the machine with `co_mutex` inside; the schedules of the negations are put together from them.

Disagreement with the code (C115): a coroutine notified in `acquire`, `push` or `pop` goes to the run queue and must lock the mutex anew; what it was notified about can be taken meanwhile by
whoever calls, and the coroutine then waits again, at the end of the queue. Readers of a shared mutex are let in while it is held shared even if a writer is queued (co_shared_mutex.cpp:107).
So one coroutine may be passed by for ever. The remedy would be to hand the permit, the value or the room to the coroutine that is notified, as the mutexes do, and to queue readers behind
a waiting writer. Also `co_mutex::lock` looks for up to 10 ms before it queues, and in this phase there is no order; the theorems speak of the time after.

### Static objects and the manager (`Verif/Util/Static.lean`)

Which object uses the library in its constructor or destructor is a parameter. Not modelled: destruction of thread-local objects (the library has only a plain pointer, co_env.cpp:30),
`quick_exit` and `_exit` (no destructors), and libraries that are unloaded.

Disagreement with the code (C116): the manager is a local static object, so it is destroyed before every static object that was complete earlier. The destructor of `co_wait_group` waits
(co_wait_group.cpp:14-17), for which it asks the manager for the current coroutine; its constructor does not, so a global wait group is usually older than the manager and its destructor
then works on a destroyed manager and a freed env. The same holds for a global `vector<co>` or `optional<co>`. A static object younger than the manager is destroyed while detached coroutines still run. The remedy for
the first is a use of `co_manager::instance()` in the constructor of `co_wait_group`; for containers, or for both, a manager that is never destroyed.

### Stacks in the address space (`Verif/Machine/Mmap.lean`)

The kernel may choose any free pages. Addresses are natural numbers, bytes are natural numbers. Not modelled: failure of `mmap` (`create_stack` throws), what happens after a page fault
(the handlers are installed without an alternative stack, so a handler cannot run on an exhausted stack and the process is killed), frames larger than the guard that skip it, and the
shared stack, which is one mapping used by several coroutines (C74).

Disagreement with the code (C117): `create_stack` maps exactly the size asked for (co_stack_factory.cpp:11-33, co_vos_gcc_x86_64.cpp:172-175). There is no guard page, and Linux places
mappings downwards next to each other, so a coroutine that overflows its stack usually writes into the outermost frames of the coroutine created after it. The remedy is one more page below each stack, with
`PROT_NONE`; `C117_guard` shows its effect.

### Preemption and the allocator (`Verif/Machine/Alloc.lean`)

The allocator is modelled after glibc: caches of threads without a lock, arenas with a lock; whether a call needs the arena is left open. What holds of `malloc` holds of every function
that is not safe in signal handlers and of every lock of the thread that such functions take. Not modelled: contents of the heap, other arenas that glibc may try.

Disagreement with the code (C118): `switch_from_outside` runs inside the signal handler and calls `choose_ctx_from_normal_list__`, which removes a node from a `std::list` and appends one
(co_env.cpp:537-541), so it calls `free` and `malloc`. If the interrupted coroutine was inside the allocator, the handler waits for its own thread (it holds the scheduling lock, so nobody
can take the coroutines of the thread away) or changes the cache in the middle of a change. `list::splice` would avoid the allocation, but the coroutine that is switched to then uses the same
cache (`C118_still_broken`). The remedy is to preempt only at points where the coroutine is known to be in its own code, or a guard around all calls that are not safe in signal handlers.

### `connect` and `select` (`Verif/Io/FdSet.lean`)

The part of `connect` before the loop and what its result says about the connection are in C83. `select` is modelled after the kernel: it reads the bits below its first argument, and unless it fails it
writes whole words. Not modelled: the time-out, which Linux counts down in the variable, so that all rounds after the first only poll.

Disagreement with the code (C119): `FD_SET` on a `fd_set` of 1024 bits is undefined for descriptors from 1024 on (co_net.cpp:73-102); with `_FORTIFY_SOURCE` the program is aborted instead. The remedy is `poll`.

### `notify_all_at_co_exit` (`Verif/Sync/AtExit.lean`)

Unlike `std::notify_all_at_thread_exit` the function takes no lock, so what it promises is about waiters in the list of the condition variable only. A program that keeps its condition in a variable under a mutex
loses nothing by that; one whose condition is that the coroutine has finished can see it unfinished, then be too late for the notification, and wait for ever. The mutex is left out of the model.

Disagreement with the code (C120): (1) A thread that calls the function registers with its idle coroutine, which never finishes. (2) The callback runs after the state `finished` is set, and `join` asks for
that state only, so a joined coroutine may still be about to lock the condition variable (co_ctx.cpp:76-79). (3) `notify_all` goes on with its list after the last wake-up, so a waiter that owns the condition
variable and returns destroys it too early; the project's own test does that (test/sync.cpp:265-282). A remedy for (2) is to publish before setting the state, under the lock.

### The report (`Verif/Util/Report.lean`)

That the report is printed at all and what happens to the locks is C111. Here the texts are modelled, without number formats. Memory is a function from addresses to bytes that does not change
while it is dumped; the stacks of coroutines that run on other threads do change, what is printed for them is a mixture of moments. The remaining texts of `env_info`, `ctx_info` and `timer_info` only print fields.

Disagreement with the code (C121): `exe_path` returns the path only if there is none (`ret != nullptr` should be `== nullptr`, co_exception.cpp:27), reads an unwritten buffer then, and gives `realpath` a buffer of 1024
instead of `PATH_MAX` characters; `maps_info` returns nothing at all if the map cannot be opened (117); a suspended coroutine on a shared stack has its stack in a copy, but `ctx_info` looks for the stack pointer in it
(co_ctx.cpp:267).

### What a coroutine was given (`Verif/Sched/Given.lean`)

The `std::function` with the function and the arguments is copied five times on the way into the coroutine, and `real_entry` calls a sixth copy. Each copy has its own life in the model, so that the destructor of a captured
object runs when the last of them goes. Moves of coroutines between envs are left out; a move does not touch the copies, but changes which env has to be scheduled.

Disagreement with the code (C122): `detach` and `join` only unset a flag; the coroutine is destroyed by the next `schedule_switch` of its env. An env whose last coroutine has ended goes to sleep at once,
so a captured `shared_ptr`, lock or file of a coroutine that was joined stays until something else happens on that env (`C122_kept`).

### The operators of a channel (`Verif/Chan/Ops.lean`)

An expression is a list of calls and a function from their results to what the program sees. The theorems speak about a thread among others in the interleaved executions of the channel, through the refinement of C33 – C39.

Disagreement with the code (C123): `operator<<` ignores the result of `push`, so a chain into a channel that is closed meanwhile loses its rest without a sign; `iterator::operator!=` finds any two iterators
of one channel equal, so only the comparison with `end()` is usable.

### Programs that lock several mutexes (`Verif/Sync/Ordered.lean`, `Verif/Sched/ComposeOrdered.lean`)

A program is a tree of `lock()`, `unlock()` and `try_lock()` calls, the latter with two continuations. The discipline is a condition on programs only: it does not mention executions. Locking a mutex one already has
is not allowed by it; in the model such a call has no step. What the coroutines do between the calls is left out, so in a program with other waits (channels, joins) the theorem speaks about the mutexes only.

### Objects and the memory of their users (`Verif/Monitor/Visible.lean`, `Verif/Monitor/VisibleObjs.lean`)

A critical section is one step and one access to the data of its object. Clients access their own data between the calls. Synchronisation is only that of the spinlock inside the object's mutex; that a coroutine's
own steps are ordered even if it moves between threads is assumed (program order of coroutines); it rests on the locks of the scheduler, which are not part of these traces.

### Creating coroutines and starting timers (`Verif/Sched/StartHb.lean`)

Agents are threads; coroutines stay on the thread of their env, as nothing is ever taken from an env (C56). Priorities, waiting and the end of coroutines are left out, so more executions are covered than the library has.
Preemption inside the two sections is left out here (it is in the model of C107). The wake-up of the env (co_env.cpp:96) is not needed for the order, only for progress (C64). A timer that is started again counts as another timer.

### Semaphores that protect sections (`Verif/Monitor/SemSection.lean`)

The conditions on programs (permits are put back by who has taken them, data is accessed with a permit) are predicates on the trace; nothing is assumed about the order of calls otherwise.

### Recursive and shared mutexes and memory (`Verif/Base/LockHb.lean`, `Verif/Sync/RwHb.lean`)

What C107 proves of co_mutex. `LockHb` states the conditions on a lock: a call that acquires ends by releasing the spinlock, and ownership is given up inside the spinlock by the owner. That the trace has one entry for each operation of the spinlock is part of the model; the operations inside it are those of C01.

### Two clients (`Verif/Io/Talk.lean`)

The calls are `WriteN.step` and `ReadN.step` of `Verif/Io/Io.lean`; new is the kernel between them. It moves between one byte and all it can move, and gives EAGAIN if it can move none. Not in the model: errors other than EAGAIN and closed connections (the loops' behaviour there is C81 and C82), and bytes in flight that are neither in the sender's nor in the receiver's queue, for which the one queue per direction stands. `C129_both_write` says what the hypothesis of the protocol is for: write_n does not read while it waits, so two sides that begin with messages larger than the queues wait for each other for ever.

### Threads that come and go (`Verif/Sched/ThreadEnvs.lean`)

`current_env__` is a thread-local plain pointer, so the end of a thread frees nothing; only `set_clean_up__` and `clean_env_routine__` free envs without a scheduling thread. `C130_never_freed` needs the destructor of the manager before its clean-up thread has taken `normal_lock` for the first time, and no env with a scheduling thread; then the loop of `clean_env_routine__` is not entered (co_manager.cpp:200) and `expired_set` is not looked at. `C130_freed_with_manager_partial` is about envs made before the destructor begins; that a thread which uses the library later, or the clean-up thread itself, can get an env that stays is visible in the model of C91 to C93.

### Waiting for coroutines (`Verif/Sched/JoinHb.lean`)

The model composes instances of `Verif/Sched/Publish.lean`, one per coroutine, with the waits as agents of the program. The ghost `knows` says whose end a coroutine has learnt; `C131_wait_learns` says when a wait adds to it, `C131_waited_sees` what it is worth. `C131_timeout_orders_nothing` is not a fault of the library: it says that a program must not read the data of a coroutine after a wait that timed out.

### Who waits for whom (`Verif/Sched/WaitGraph.lean`)

`C132_no_deadlock_partial` and `C132_finishes_partial` need `cfg.pre = false`: the preemption signal does not come between `unlock_schedule` and `unlock_finished_state`. `C132_preempted_stuck` shows with two coroutines what happens otherwise; it is the deadlock of C50 in the words of C132. `C132_bounded` and `C132_circle_forever` do not need it. The programs wait without time-out; time-outs appear in the circle theorem, as waits of coroutines outside the circle. Ranks stand for the absence of circles.

### Order among shared mutexes (`Verif/Sync/RwOrdered.lean`)

The theorems with `_partial` have the hypothesis `Clean`: no wake-up of the execution finds a reader first in a queue with a writer in it. The code violates C133 without it: `C133_ordered_deadlocks` has a writer, a reader and a writer at one mutex, each locks and unlocks once; the wake-up makes the second writer an owner "for reading" and forgets the reader (`remove_if` leaves unspecified elements behind the returned position; here as libstdc++ does it), the `unlock()` of the second writer throws, and the reader sleeps for ever. `C133_one_mode` needs no hypothesis on executions: the programs wait for each mutex only for reading or only for writing. `C133_opposite_deadlocks` shows, with programs that never have such a wake-up, that the order is needed.

### Order among recursive mutexes (`Verif/Sync/RecOrdered.lean`)

C134 is C124 for `co_recursive_mutex`. The discipline allows `lock()` of a mutex one has at any time, also when one has mutexes behind it. The proof uses that who is asleep in `lock()` has depth 0 (`RecMutex.Loc`), so only the ordered case can sleep. The code agrees with the property.

### Binding to an env (`Verif/Sched/BoundEnv.lean`)

C135 says which envs are safe for `with_bind_env`. Safe: an env made by `create_env(true)`. Not safe: one made by `create_env(false)`, which the monitor stops as surplus and deletes while the user still has the pointer (`C135_other_env_refuses`: the coroutine is refused by an exception, or the deleted env is used). Never accepted: the env of a thread that has not called `schedule_in_this_thread` (`C135_thread_env_refuses`, for all executions). That coroutines are not moved between envs rests on C56 (the functions that would move them find nothing to move).

### Options, names and ids (`Verif/Sched/Options.lean`)

C136. The id of a coroutine is its address (`co_ctx::id`, co_ctx.cpp:176-179), so it identifies the coroutine only as long as it exists; `C136_id_reused` shows the new coroutine with the old id. With a handle that has not let go the coroutine exists (`C136_owned_ids_differ`). `with_stack_size(n)` with n < 8 is undefined behaviour: `create_stack(0)` has no memory and `init_ctx` writes the word below the top (`C136_small_stack`); the same holds of `set_env_shared_stack_size` for the first coroutine on the shared stack. An option may be a function of the user's; when it throws nothing has been created yet.

### The errors of clients (`Verif/Io/ClientErr.lean`)

C137 continues C114 up to the `co_error`. Whether there is an error, and its code, do not depend on `errno` being undisturbed (`C137_error_iff_failed`). The text does: `co_client` looks at `errno` once more after `co_io` has logged the error and returned, without a preemption guard. Disagreement with the code: the text can be that of another coroutine's failure (`C137_wrong_text`, for all pairs of error numbers) or whatever the logging left (`C137_log_text`). Not modelled: `co_error::data()` holds the pointer `strerror` returned, whose buffer may be used again for unknown numbers; `co_server::accept` is declared but defined nowhere.

### Deferred actions (`Verif/Util/Defer.lean`)

C138 is about `CoDefer`. The code of coroutines and of actions is arbitrary: what it does next is chosen by the schedule. The rules of C++ for local objects and exceptions are modelled, not proved: objects of a block are destroyed in reverse order, a destructor that lets an exception out calls `std::terminate`. What the library adds is the destructor of `co_defer`, the handler in `real_entry` and `remove_all_ctx__`. Disagreement with the code: nothing runs the actions of a coroutine that is destroyed unfinished (`C138_destroyed_never_runs`), and `~co_defer` is not declared `noexcept(false)`, so an action that throws ends the program, also one with an empty `std::function` (`C138_throwing_action`). A `return` out of several blocks is modelled as leaving one after the other. Not modelled: a constructor of `co_defer` that throws because copying the function fails (co_defer.cpp:9; then the action is not declared).

## What is modelled

| directory | files in /repo |
|---|---|
| Verif/Sync | sync/co_spinlock, co_mutex, co_recursive_mutex, co_shared_mutex, co_timed_addition, co_condition_variable, co_counting_semaphore (acquire, try_acquire, release), co_latch, co_wait_group, co_barrier, co_call_once |
| Verif/Monitor | the pattern mutex + condition variable + predicate loop |
| Verif/Chan | event/co_chan with its iterator |
| Verif/Pipe | pipeline/co_pipeline |
| Verif/Sched | core/co_env, core/co_ctx, core/co_manager, core/co_ctx_config, utils/co_state_manager, co/co_co.h (wait), co/co.cpp, utils/co_flag_manager, co_env_factory and co_ctx_factory (who frees what, and when) |
| Verif/Timer | core/co_timer, the timer thread and list of core/co_manager, sleeping |
| Verif/Machine | core/co_vos_gcc_x86_64 (switch_to, init_ctx, signal frames), core/co_vos.h, shared stacks and shrinking of core/co_env |
| Verif/Util | event/co_event, utils/co_any, utils/co_defer, core/co_local |
| Verif/Io | io/co_io, io/co_file, io/co_client, io/co_server (get_endpoint), io/co_net (read, write, send, recv, accept, connect, read_n, write_n) |

## How definitions cite the code

Citations of two kinds. Where a comment names lines in its own words, they were chosen for that definition. A remark "(Concerns file:lines.)" was added by a script,
with the same lines for all definitions of a Lean file that had no citation: mostly the span from the first to the last line the file cites of its main
sources, or that of a file it imports. It says which code the file is about and was not checked definition by definition. Most of these definitions are choices of the schedule, what is
seen, initial states, specifications and proof helpers, but some are parts of the model for which no closer lines are given. The definitions in Verif/Base are general and model no code.

## Not modelled

Logging, the `*_info()` strings, open flags of files, memory allocation failure outside the
creation of a coroutine (C110), weak memory effects, C++ exceptions thrown by user code inside the primitives (except in
`call_once`, coroutine entry, callbacks, channels and pipelines), destructors of objects still in use (except
handles, envs and the manager).

`co_server` beyond `get_endpoint`: its virtual function `accept` is declared (include/cocpp/io/co_server.h:19) but defined nowhere in /repo, so a program that
derives a server from it does not link; there is no behaviour to model.

## Seeded bugs

seeded/LOG.jsonl has one line per wrong program tried: the edit of the model, the claim it
breaks, the theorems that then failed to check, and theorems tightened because of it.
