# Axioms each property theorem depends on

Generated from `#print axioms` for every theorem named in MANIFEST.json (610 theorems).

## no axioms (10)

* `Mutex.C08_relock_breaks_exclusion`
* `Crash.C111_cut_short`
* `Crash.C111_twice`
* `Cv.C20_sticky_timeout_negation`
* `Cv.C20_sticky_timeout_pred_negation`
* `Priority.C52_moved`
* `Machine.C73_misaligned_witness`
* `Machine.C76_resume_by_signal_partial`
* `Event.C77_self_unsub_ub`
* `Io.Connect.C83_interrupted_is_error`

## `propext` (38)

* `Mutex.C07_mutex_try_lock_exact`
* `Mutex.C08_relock_loses_the_mutex`
* `Io.Fd.C100_argument_ignored`
* `Monitor.C105_barrier_returned_is_not_enough`
* `WakeFree.C106_preempted_witness`
* `Cv.C106_notify_without_mutex`
* `Pipe.C109_take_reads_dead`
* `Pipe.C109_kept_reads_dead`
* `AtExit.C120_joined_uses_freed`
* `AtExit.C120_woken_uses_freed`
* `Report.C121_trace_partial`
* `Report.C121_trace_cut`
* `Chan.C123_shl_silent`
* `Chan.C123_end_test`
* `Chan.C123_same_channel`
* `Options.C136_small_stack`
* `Options.C136_id_reused`
* `Cv.C20_no_timeout_returns_true_partial`
* `Wait.C49_rethrown_twice`
* `Wait.C50_preempted_waiter_witness`
* `Manager.C59_seen_schedulable`
* `Manager.C60_idle_exclusive_chosen`
* `Manager.C60_witness`
* `Manager.C63_limit_wraps`
* `Machine.C76_witness`
* `Machine.Window.C76_contexts_intact_partial`
* `Machine.Window.C76_window_witness`
* `Any.C79_witness`
* `Local.C80_two_types_ub`
* `Io.Connect.C83_immediate_success_is_error`
* `Io.Connect.C83_refused_is_success`
* `Io.C84_read_interrupted`
* `Io.C84_sendto_would_block`
* `Sections.C94_update_lost`
* `Sections.C94_wakeup_lost`
* `Pipe.Throw.C96_terminates_program`
* `Io.Fd.C99_wrong_file`
* `Io.Fd.C99_close_error_repeated`

## `Quot.sound`, `propext` (134)

* `Spinlock.C01_unlock_by_stranger_breaks_exclusion`
* `RecMutex.C09_depth_is_observable`
* `WakeFree.C106_unprotected_wake_goes_wrong`
* `WakeFree.C106_sleep_witness`
* `LibLocks.C108_deadlocks`
* `LibLocks.C108_sub_pub_apart`
* `LockOrder.deadlock_step`
* `Pipe.C109_owned`
* `SharedMutex.C11_rw_exclusion_fails`
* `Create.C110_timers_stop`
* `Crash.C111_report_partial`
* `Crash.C111_one_signal_ends`
* `Crash.C111_second_ends`
* `Crash.C111_background_waits_for_itself`
* `Crash.C111_deadlocks`
* `ChanThrow.C112_value_lost`
* `TimedLock.C113_timed_is_locking`
* `TimedLock.C113_outcome`
* `TimedLock.C113_true_at_once`
* `TimedLock.C113_returns_after_deadline`
* `Io.Errno.C114_error_retried`
* `Starve.C115_semaphore_starved`
* `Starve.C115_writer_starved`
* `Static.C116_older_serves_coroutines`
* `Static.C116_older_uses_dead`
* `Static.C116_unused_library`
* `Static.C116_younger_used_when_gone`
* `Static.C116_other_thread`
* `Mmap.C117_shrink_keeps`
* `Mmap.C117_overflow_harms`
* `Alloc.C118_guarded_partial`
* `Alloc.C118_thread_lost`
* `Alloc.C118_cache_broken`
* `Alloc.C118_still_broken`
* `FdSet.C119_small_partial`
* `FdSet.C119_large_overwrites`
* `FdSet.C119_large_fails`
* `FdSet.C119_large_spins`
* `Report.C121_dump_complete`
* `Report.C121_shared_not_dumped`
* `Ordered.C124_opposite_deadlocks`
* `Ordered.C124_kept_blocks`
* `Monitor.C125_after_send_races`
* `StartHb.C126_after_creation_unordered`
* `Monitor.C127_stranger_race`
* `SharedMutex.C128_shared_mutex_race`
* `JoinHb.C131_timeout_orders_nothing`
* `RwOrdered.C133_opposite_deadlocks`
* `RecOrdered.C134_opposite_deadlocks`
* `RecOrdered.C134_kept_blocks`
* `EnvLife.C135_other_env_refuses`
* `Io.ClientErr.C137_wrong_text`
* `Io.ClientErr.C137_log_text`
* `SharedMutex.C14_holder_unlock_throws`
* `TimedTry.C15_terminates`
* `Cv.C19_waits_even_if_true_negation`
* `Cv.C21_fire_wakes_partial`
* `Cv.C21_early_fire_lost_negation`
* `Semaphore.C25_try_exact`
* `CallOnce.C31_at_most_once`
* `CallOnce.C31_exactly_once`
* `CallOnce.C32_winner_waits_partial`
* `CallOnce.C32_returns_before_completion_negation`
* `CallOnce.C32_never_retried_negation`
* `Chan.C38_two_producers_negation`
* `Sched.C43_window`
* `Sched.C46_witness`
* `Priority.C47_set_priority`
* `Priority.C47_option_partial`
* `Priority.C47_option_zero`
* `Life.C53_stop_destroys`
* `EnvLife.C59_starting_env_chosen`
* `Manager.C60_busy_exclusive_partial`
* `EnvLife.C60_reachable`
* `Manager.C61_surplus`
* `EnvLife.C61_busy_env_stopped`
* `Manager.C63_limits_partial`
* `Manager.C63_tick`
* `EnvLife.C64_destroyed_unrun`
* `EnvLife.C64_stopped_env_accepts`
* `EnvLife.C64_assertion_fails`
* `EnvLife.C64_deleted_env_used`
* `Timer.C65_not_early`
* `Timer.C66_thread_enabled_partial`
* `Timer.C66_equal_expiry_never_fires`
* `Timer.C66_witness`
* `Timer.C67_idempotent`
* `Timer.C67_stop_exact_partial`
* `Timer.C67_stop_removes_other`
* `Timer.C67_witness`
* `Timer.C68_witness`
* `Timer.C69_empty_queue_read`
* `Timer.C69_spurious_wakeup`
* `Timer.C69_no_stop_safe_partial`
* `Timer.Locks.C70_deadlock_stop`
* `Timer.Locks.C70_deadlock_callback`
* `Timer.Locks.C70_deadlock_two_users`
* `Timer.Sleep.C71_witness`
* `Machine.C72_switch_roundtrip`
* `Machine.C72_switch_self`
* `Machine.C73_first_switch`
* `Machine.C73_tiny_stack`
* `Machine.Shared.C75_shrinks_every_1024th`
* `Machine.C76_resume_by_switch_partial`
* `Machine.C76_red_zone_overwritten`
* `Machine.C76_vector_registers_lost`
* `Event.C77_unsub_exact`
* `Event.C77_order_wraps`
* `Event.C77_subscription_replaced`
* `Any.C78_get_type_safe`
* `Any.C78_never_stuck`
* `Any.C79_store_independent_partial`
* `Any.C79_copies_alias`
* `Local.C80_same_object_partial`
* `Local.C80_contents_partial`
* `Local.C80_defined_partial`
* `Io.WriteN.ret_iff`
* `Io.ReadN.ret_iff`
* `Io.Connect.C83_connect_partial`
* `Io.C84_first_outcome_partial`
* `Io.C84_never_stuck`
* `Io.Accept.C84_accept_partial`
* `Io.Accept.C84_accept_loses_connection`
* `Timer.C85_lost_notification`
* `Timer.C85_exits_partial`
* `Handle.C88_stop_uaf`
* `Handle.C89_self_terminates`
* `Handle.C90_null_only_partial`
* `Handle.C90_empty_harmless`
* `Handle.C90_empty_dereferenced`
* `Shutdown.C91_plain_exit`
* `Shutdown.C91_running_thread`
* `Shutdown.C91_schedule_here`
* `Shutdown.C92_manager_used`

## `Classical.choice`, `Quot.sound`, `propext` (428)

* `Spinlock.C01_spinlock_excludes`
* `Spinlock.C01_spinlock_free_can_be_taken`
* `Mutex.C02_mutex_excludes`
* `Mutex.C02_mutex_one_holder`
* `Mutex.C03_mutex_unlock_checked`
* `Mutex.C03_mutex_bad_unlock_changes_nothing`
* `Mutex.C04_mutex_fifo`
* `Mutex.C04_mutex_release_count`
* `Mutex.C05_mutex_no_lost_wakeup`
* `Mutex.C06_mutex_stuck_only_behind_holder`
* `Mutex.C06_mutex_no_deadlock`
* `Mutex.C06_mutex_calls_terminate`
* `Mutex.C07_mutex_try_lock_never_sleeps`
* `Mutex.C08_only_relock_breaks_partial`
* `RecMutex.C09_recursive_mutex_correct`
* `RecMutex.C09_recursive_mutex_excludes`
* `RecMutex.C09_recursive_mutex_count_exact`
* `RecMutex.C09_holder_relock_never_blocks`
* `RecMutex.C10_recursive_mutex_handover`
* `RecMutex.C10_recursive_mutex_fifo`
* `RecMutex.C10_recursive_mutex_bad_unlock_changes_nothing`
* `RecMutex.C10_recursive_mutex_progress`
* `Io.Fd.C100_nonblocking_partial`
* `Io.Fd.C100_becomes_blocking`
* `Compose.C101_agree`
* `Compose.C101_waiting_not_run`
* `Compose.C101_idle`
* `Compose.C101_mutex`
* `Compose.C101_recursive_mutex`
* `Compose.C101_shared_mutex_partial`
* `Compose.C101_shared_mutex_stranded`
* `Compose.C101_monitor`
* `Compose.C101_semaphore`
* `Compose.C101_latch`
* `Compose.C101_wait_group`
* `Compose.C101_barrier`
* `Compose.C101_channel`
* `Compose.C102_program_idle`
* `Compose.C102_pipeline_idle`
* `Compose.C102_fork_idle`
* `Compose.C102_any_pipeline_idle`
* `Compose.C102_pipeline_finite`
* `Compose.Many.C103_one_thread`
* `Compose.Many.C103_waiting_not_run`
* `Compose.Many.C103_idle`
* `Compose.Many.C103_mutex`
* `Compose.Many.C103_recursive_mutex`
* `Compose.Many.C103_monitor`
* `Compose.Many.C103_semaphore`
* `Compose.Many.C103_latch`
* `Compose.Many.C103_wait_group`
* `Compose.Many.C103_barrier`
* `Compose.Many.C103_channel`
* `Compose.Many.C103_program_idle`
* `Compose.Many.C103_pipeline_idle`
* `Compose.Many.C103_fork_idle`
* `Compose.Many.C103_any_pipeline_idle`
* `Compose.Many.C103_pipeline_finite`
* `Compose.Many.C104_comes_to_rest`
* `Compose.Many.C104_mutex`
* `Compose.Many.C104_semaphore`
* `Compose.Many.C104_latch`
* `Compose.Many.C104_wait_group`
* `Compose.Many.C104_barrier`
* `Compose.Many.C104_channel`
* `Compose.Many.C104_pipeline`
* `Compose.Many.C104_fork`
* `Monitor.C105_wait_group`
* `Monitor.C105_latch`
* `Monitor.C105_semaphore`
* `Mutex.C105_mutex`
* `WakeFree.C106_protected_wakes_are_safe`
* `Mutex.C106_mutex_wakes_under_spinlock`
* `Cv.C106_notify_under_mutex`
* `RecMutex.C106_wakes_under_spinlock`
* `SharedMutex.C106_wakes_under_spinlock`
* `Monitor.C106_objects`
* `Races.C107_guarded_race_free_partial`
* `Races.C107_races_exactly`
* `Mutex.C107_mutex_orders_memory`
* `Publish.C107_result_published`
* `LibLocks.C108_no_deadlock_partial`
* `LockOrder.no_deadlock`
* `Pipe.C109_lent_partial`
* `Pipe.C109_source_first`
* `SharedMutex.C11_rw_exclusion_partial`
* `SharedMutex.C11_rw_exclusion_states_partial`
* `SharedMutex.C11_only_readers_block_partial`
* `SharedMutex.C11_only_writers_block_partial`
* `Create.C110_created`
* `Create.C110_nothing_scheduled`
* `Create.C110_leaks_iff_partial`
* `Create.C110_stopped_env_leaks`
* `Crash.C111_status`
* `Crash.C111_no_deadlock_partial`
* `ChanThrow.C112_channel_stays_correct`
* `ChanThrow.C112_outcome`
* `ChanThrow.C112_nobody_stranded_partial`
* `ChanThrow.C112_receiver_stranded`
* `ChanThrow.C112_sender_stranded`
* `TimedLock.C113_timed_mutex`
* `TimedLock.C113_no_overtaking`
* `TimedLock.C113_recursive_timed_mutex`
* `TimedLock.C113_shared_timed_mutex_partial`
* `TimedLock.C113_semaphore`
* `TimedLock.C113_timed_mutex_returns`
* `TimedLock.C113_recursive_timed_mutex_returns`
* `TimedLock.C113_shared_timed_mutex_returns`
* `TimedLock.C113_may_miss`
* `Io.Errno.C114_own_outcome_partial`
* `Io.Errno.C114_cooperative`
* `Io.Errno.C114_success`
* `Io.Errno.C114_would_block_reported`
* `Starve.C115_mutex`
* `Starve.C115_recursive_mutex`
* `Starve.C115_receiver_starved`
* `Starve.C115_sender_starved`
* `Static.C116_once`
* `Static.C116_construction_ends`
* `Static.C116_alive_partial`
* `Mmap.C117_disjoint`
* `Mmap.C117_untouched_partial`
* `Mmap.C117_within`
* `Mmap.C117_pages_returned`
* `Mmap.C117_guard`
* `SharedMutex.C12_wake_right_iff`
* `SharedMutex.C12_mixed_wake_outcome`
* `AtExit.C120_wakes`
* `AtExit.C120_only_then`
* `AtExit.C120_ends`
* `AtExit.C120_thread_never`
* `AtExit.C120_safe_partial`
* `Report.C121_dump_within`
* `Report.C121_maps_complete_partial`
* `Report.C121_exe_unknown`
* `Report.C121_exe_overflow`
* `Report.C121_ids_lost`
* `Given.C122_once`
* `Given.C122_runs_on_own`
* `Given.C122_constructed`
* `Given.C122_call_gone`
* `Given.C122_freed_all`
* `Given.C122_not_early`
* `Given.C122_released_partial`
* `Given.C122_kept`
* `Chan.C123_operators`
* `Chan.C123_nothing_received_lost`
* `Chan.C123_lt_tells_partial`
* `Chan.C123_chain_prefix`
* `Ordered.C124_no_deadlock`
* `Ordered.C124_unlock_never_throws`
* `Ordered.C124_terminates`
* `Compose.Many.C124_idle`
* `Monitor.C125_sections_order`
* `Monitor.C125_channel_publishes`
* `Monitor.C125_capacity_publishes`
* `Monitor.C125_semaphore_publishes`
* `Monitor.C125_latch_publishes`
* `Monitor.C125_wait_group_publishes`
* `Monitor.C125_barrier_publishes`
* `StartHb.C126_creation_publishes`
* `StartHb.C126_timer_publishes`
* `Monitor.C127_at_most`
* `Monitor.C127_one_permit_protects`
* `Monitor.C127_two_permits_race`
* `RecMutex.C128_recursive_mutex_orders_memory`
* `SharedMutex.C128_shared_mutex_orders_memory_partial`
* `SharedMutex.C128_one_kind_blocks_partial`
* `Talk.C129_stream`
* `Talk.C129_messages`
* `Talk.C129_finishes`
* `Talk.C129_both_write`
* `SharedMutex.C13_reader_stranded`
* `SharedMutex.C13_never_strands_partial`
* `SharedMutex.C13_stuck_only_behind_holder_partial`
* `SharedMutex.C13_calls_terminate_partial`
* `Shutdown.C130_ended_threads_leave_envs`
* `Shutdown.C130_unbounded`
* `Shutdown.C130_never_freed`
* `Shutdown.C130_freed_with_manager_partial`
* `JoinHb.C131_waited_sees`
* `JoinHb.C131_wait_learns`
* `JoinHb.C131_join_no_race`
* `Wait.C132_no_deadlock_partial`
* `Wait.C132_bounded`
* `Wait.C132_finishes_partial`
* `Wait.C132_circle_forever`
* `Wait.C132_preempted_stuck`
* `RwOrdered.C133_no_deadlock_partial`
* `RwOrdered.C133_unlock_never_throws_partial`
* `RwOrdered.C133_terminates_partial`
* `RwOrdered.C133_one_mode`
* `RwOrdered.C133_ordered_deadlocks`
* `RecOrdered.C134_no_deadlock`
* `RecOrdered.C134_unlock_never_throws`
* `RecOrdered.C134_terminates`
* `EnvLife.C135_own_env_accepts`
* `EnvLife.C135_runs_only_there`
* `EnvLife.C135_accepted_runs`
* `EnvLife.C135_thread_env_refuses`
* `Options.C136_last_wins`
* `Options.C136_default`
* `Options.C136_made`
* `Options.C136_answers`
* `Options.C136_ids`
* `Options.C136_owned_ids_differ`
* `Io.ClientErr.C137_error_iff_failed`
* `Io.ClientErr.C137_text_partial`
* `Defer.C138_nested`
* `Defer.C138_exactly_once`
* `Defer.C138_variables_exist`
* `Defer.C138_careful_not_terminated`
* `Defer.C138_destroyed_never_runs`
* `Defer.C138_comes_to_end`
* `Defer.C138_throwing_action`
* `SharedMutex.C14_unlock_checked`
* `SharedMutex.C14_unlock_exact_partial`
* `TimedTry.C15_true_iff_acquired`
* `TimedTry.C15_false_iff_deadline`
* `TimedTry.C15_for_waits_long_enough`
* `TimedTry.C15_timed_call`
* `Cv.C16_sleepers_are_the_unnotified`
* `Cv.C16_notify_all_not_lost`
* `Cv.C17_cv_correct`
* `Cv.C17_notify_one_in_order`
* `Cv.C17_cv_lock_released`
* `Cv.C17_no_deadlock`
* `Cv.C18_wait_holds_mutex`
* `Cv.C18_returns_with_mutex`
* `Cv.C19_returns_only_if_true_partial`
* `Cv.C19_timed_true_only_if_pred_partial`
* `Cv.C20_own_timeout_returns_false_partial`
* `Cv.C21_sleeping_timed_waiter_partial`
* `Monitor.C22_critical_sections_atomic`
* `Monitor.C22_stuck_only_parked`
* `Monitor.C22_terminates`
* `Monitor.C22_real_mutex`
* `Monitor.C22_wakes_its_own`
* `Monitor.C22_real_mutex_stuck`
* `Monitor.C22_real_mutex_terminates`
* `Monitor.C22_programs`
* `Monitor.C22_programs_stuck`
* `Monitor.C22_programs_terminate`
* `Semaphore.C23_semaphore_correct`
* `Semaphore.C23_permits_conserved`
* `Monitor.C24_semaphore_real_mutex`
* `Semaphore.C24_no_stranded_permit`
* `Semaphore.C24_terminates`
* `Semaphore.C25_try_never_parks`
* `Latch.C26_latch_correct`
* `Latch.C26_passes_only_at_zero`
* `Latch.C26_stays_open`
* `Latch.C26_releases_everybody`
* `Latch.C26_terminates`
* `Monitor.C26_latch_real_mutex`
* `WaitGroup.C27_waits_for_all`
* `WaitGroup.C27_abort_iff_too_many`
* `WaitGroup.C27_releases_everybody`
* `WaitGroup.C27_terminates`
* `Monitor.C27_wait_group_real_mutex`
* `Barrier.C28_barrier_correct`
* `Barrier.C28_no_early_release`
* `Barrier.C28_phases_counted`
* `Monitor.C29_barrier_real_mutex`
* `Barrier.C29_blocked_only_in_open_phase`
* `Barrier.C29_terminates`
* `Barrier.C29_exact_participants_never_throw`
* `Barrier.C29_exact_participants_never_all_blocked`
* `Barrier.C30_drop_does_not_wait_partial`
* `Barrier.C30_drop_blocks_barrier_negation`
* `Chan.C33_fifo_exactly_once`
* `Monitor.C37_channel_real_mutex`
* `Chan.C34_capacity`
* `Chan.C34_unlimited_push_never_waits`
* `Chan.C35_nothing_enters_after_close`
* `Chan.C35_push_after_close_false`
* `Chan.C35_rest_delivered`
* `Chan.C35_drained_only_when_closed_and_empty`
* `Chan.C35_pop_result`
* `Chan.C36_push_result_truthful`
* `Chan.C37_no_stranded_waiter`
* `Chan.C37_terminates`
* `Chan.C38_returns_after_received`
* `Chan.C38_single_producer_partial`
* `Chan.C38_waiting_producer_never_enters_negation`
* `Chan.C39_loop_step`
* `Chan.C39_never_null`
* `Chan.C39_loop_sees_everything`
* `Pipe.C40_any_source`
* `Pipe.C40_delivers`
* `Pipe.C40_complete_before_close_any`
* `Pipe.C40_complete_before_close`
* `Pipe.C40_terminates`
* `Pipe.C40_delivered_in_the_end`
* `Pipe.C41_each_item_once`
* `Pipe.C41_closes_afterwards`
* `Pipe.C41_delivered_in_the_end`
* `Pipe.C42_finite_source_partial`
* `Pipe.C42_next_to_source_partial`
* `Pipe.C42_source_never_stops`
* `Pipe.C42_filter_never_stops`
* `Pipe.C42_bounded_source_parked`
* `Sched.C43_best_priority_partial`
* `Sched.C44_round_robin`
* `Sched.C45_only_runnable`
* `Sched.C46_bookkeeping_partial`
* `Sched.C46_preempted_priority_change_loses_coroutine`
* `Priority.C47_range`
* `Priority.C47_option_wraps`
* `StateManager.C48_final_stays`
* `StateManager.C48_seen_final`
* `Wait.C49_returns_result`
* `Wait.C49_rethrows`
* `Wait.C49_rethrown_once_partial`
* `Wait.C50_woken`
* `Wait.C50_end_is_published_partial`
* `Wait.C50_preempted_waiter_deadlock`
* `Wait.C50_timed_wait_deadlock`
* `Wait.C51_nullopt`
* `Wait.C51_no_stray_wakeup`
* `Wait.C51_timeout_wakes`
* `Priority.C52_priority_restored`
* `Life.C53_destroyed_once`
* `Life.C53_destroyed_rightly_partial`
* `Life.C54_only_cause`
* `Life.C54_no_shared_partial`
* `Life.C54_shared_stack_used_after_free`
* `Sched.C55_only_movable_taken`
* `Sched.C55_rest_untouched`
* `Sched.C55_no_loss_no_duplicate`
* `LockCount.C56_never_moved`
* `LockCount.C57_disabled_inside`
* `LockCount.C57_enabled_outside_partial`
* `LockCount.C57_never_enabled_again`
* `LockCount.C58_preempted_partial`
* `LockCount.C58_not_after_finish`
* `LockCount.C58_not_while_parked`
* `Manager.C59_placement`
* `EnvLife.C59_reachable`
* `Manager.C61_enough_stopped`
* `EnvLife.C61_owned`
* `EnvLife.C62_only_stuck`
* `EnvLife.C62_stuck_signalled`
* `EnvLife.C62_every_env_visited`
* `EnvLife.C64_accepted_runs_partial`
* `EnvLife.C64_never_picked`
* `EnvLife.C64_stopped_env_rejects_partial`
* `Timer.C65_order`
* `Timer.C65_callback_once`
* `Timer.C65_callback_not_early`
* `Timer.C66_fires_partial`
* `Timer.C68_stopped_partial`
* `Timer.C68_callback_after_stop`
* `Timer.Locks.C70_unlock_by_owner`
* `Timer.Locks.C70_deadlock_permanent`
* `Timer.Locks.C70_no_deadlock_partial`
* `Timer.Sleep.C71_not_early`
* `Timer.Sleep.C71_woken_partial`
* `Timer.Sleep.C71_same_deadline_never_wakes`
* `Machine.C73_alignment`
* `Machine.Shared.C74_shared_stack_roundtrip`
* `Machine.Shared.C74_first_entry`
* `Machine.Shared.C74_copies_disjoint`
* `Machine.Shared.C75_shrink_safe`
* `Machine.Shared.C75_stays_inside`
* `Machine.Shared.C75_shrink_effective`
* `Event.C77_handles_unique`
* `Event.C77_publish_partial`
* `Event.C77_publish_reentrant_partial`
* `Io.WriteN.C81_write_n_success`
* `Io.WriteN.C81_write_n_prefix`
* `Io.WriteN.C81_write_n_inside`
* `Io.ReadN.C82_read_n_success_partial`
* `Io.ReadN.C82_read_n_safe`
* `Io.ReadN.C82_eof_never_returns`
* `Io.Connect.C83_minus_one_cause`
* `Sched.Idle.C86_no_lost_wakeup`
* `Sched.Idle.C86_wakes_up_partial`
* `Sched.Idle.C86_asleep_with_lock_forever`
* `Sched.Idle.C86_timed_wait_deadlock`
* `Stacks.C87_freed_at_most_once`
* `Stacks.C87_stack_is_its_own`
* `Stacks.C87_freed_with_coroutine_partial`
* `Stacks.C87_shared_stack_leaks`
* `Stacks.C87_suspended_shared_stack_leaks`
* `Handle.C88_one_owner`
* `Handle.C88_released_once`
* `Handle.C88_owner_keeps_partial`
* `Handle.C89_waits`
* `Handle.C89_returns`
* `Handle.C89_terminates_only_partial`
* `Handle.C89_undelivered_terminates`
* `Shutdown.C91_freed_once`
* `Shutdown.C91_worker_joined`
* `Shutdown.C91_before_partial`
* `Shutdown.C91_exit_uses_freed`
* `Shutdown.C92_complete_partial`
* `Shutdown.C92_manager_partial`
* `Shutdown.C92_dropped_leaks`
* `Shutdown.C93_progress`
* `Shutdown.C93_bounded`
* `Sections.C94_atomic_partial`
* `Sections.C94_guard_suffices`
* `Sections.C94_flags_partial`
* `Duration.C95_sleep`
* `Duration.C95_wait_partial`
* `Duration.C95_got`
* `Duration.C95_no_overflow`
* `Duration.C95_wait_early`
* `Duration.C95_forever`
* `Pipe.Throw.C96_prefix_partial`
* `Pipe.Throw.C96_never_ends`
* `Pipe.Throw.C96_comes_to_rest`
* `Real.C97_any_source`
* `Real.C97_delivers`
* `Real.C97_no_null`
* `Real.C97_progress`
* `Real.C97_delivered_in_the_end`
* `Real.C97_fork_delivered_in_the_end`
* `Real.C97_terminates`
* `Inversion.C98_holder_runs_partial`
* `Inversion.C98_holder_starved`
* `Inversion.C98_spins_for_ever`
* `Io.Fd.C99_reaches_partial`
* `Io.Fd.C99_no_leak_partial`
* `Io.Fd.C99_closed_copy_lost`
* `Io.Fd.C99_dropped_stays_open`
* `Io.Fd.C99_failed_init`
