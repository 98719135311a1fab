{
 "claims": [
  {
   "property": "C01",
   "status": "partial",
   "theorems": [
    "Verif.Arrays.array_history_inplace_partial",
    "Verif.Arrays.array_history_within_capacity_partial",
    "Verif.Arrays.array_history_moving_ub"
   ],
   "note": "Holds while realloc keeps the block in place, and in all cases while the history stays within the initial capacity. False in general: $append takes the array by value, so a moving realloc leaves a dangling handle (array_history_moving_ub)."
  },
  {
   "property": "C02",
   "status": "partial",
   "theorems": [
    "Verif.Arrays.append_after_arrays",
    "Verif.Arrays.append_after_copy_partial",
    "Verif.Arrays.append_after_rangeing_partial",
    "Verif.Arrays.append_after_range",
    "Verif.Arrays.append_after_rangeChar",
    "Verif.Arrays.append_after_empty_copy_ub",
    "Verif.Arrays.append_after_empty_rangeing_ub",
    "Verif.Arrays.append_after_copy_moving"
   ],
   "note": "Proved for arrays, range and range_char with every allocator, and for non-empty $copy and rangeing when realloc keeps the block in place. False for arrays produced empty by $copy/rangeing (capacity 0: the append writes past the block), and a moving realloc leaves a stale handle."
  },
  {
   "property": "C03",
   "status": "proved",
   "theorems": [
    "Verif.Arrays.tuple_immutable"
   ],
   "note": ""
  },
  {
   "property": "C04",
   "status": "partial",
   "theorems": [
    "Verif.Arrays.copy_equal_partial",
    "Verif.Arrays.history_independent",
    "Verif.Arrays.copy_long_moving_ub"
   ],
   "note": "Equality and independence when realloc does not move; false for long sources with a moving realloc (copy_long_moving_ub)."
  },
  {
   "property": "C05",
   "status": "partial",
   "theorems": [
    "Verif.Arrays.rangeing_contents_partial",
    "Verif.Arrays.rangeing_zero_step_diverges",
    "Verif.Arrays.range_contents",
    "Verif.Arrays.rangeChar_contents"
   ],
   "note": "rangeing with step 0 never ends (proved); positive steps proved, see theorem."
  },
  {
   "property": "C06",
   "status": "proved",
   "theorems": [
    "Verif.Str.base64_round_trip"
   ],
   "note": "For sources below 3 GiB (see C07)."
  },
  {
   "property": "C07",
   "status": "partial",
   "theorems": [
    "Verif.Str.str_encode64_exact_partial",
    "Verif.Str.str_encode64_overflow",
    "Verif.Str.str_decode64_spec"
   ],
   "note": "Decoder complete; encoder for sources below 3 GiB. False at 3*2^30-2 bytes because of the 32-bit mask ~3u (str_encode64_overflow)."
  },
  {
   "property": "C08",
   "status": "proved",
   "theorems": [
    "Verif.Str.str_decode64_spec"
   ],
   "note": ""
  },
  {
   "property": "C09",
   "status": "partial",
   "theorems": [
    "Verif.Str.mempos_first_occurrence",
    "Verif.Str.str_pos_first_occurrence",
    "Verif.Str.str_has_iff_infix",
    "Verif.Str.mempos_truncates"
   ],
   "note": "All texts below 2 GiB; beyond that the int return value truncates (mempos_truncates)."
  },
  {
   "property": "C10",
   "status": "proved",
   "theorems": [
    "Verif.Str.mem_subcount_counts",
    "Verif.Str.str_subcount_counts",
    "Verif.Str.mem_subcount_empty",
    "Verif.Str.split_exists_unique"
   ],
   "note": ""
  },
  {
   "property": "C11",
   "status": "proved",
   "theorems": [
    "Verif.Str.str_split_pieces",
    "Verif.Str.str_split_round_trip",
    "Verif.Str.mem_split_pieces"
   ],
   "note": ""
  },
  {
   "property": "C12",
   "status": "partial",
   "theorems": [
    "Verif.Str.str_explode_pieces_partial",
    "Verif.Str.str_explode_no_delim_empty"
   ],
   "note": "False when the delimiter does not occur: the result is the empty array."
  },
  {
   "property": "C13",
   "status": "proved",
   "theorems": [
    "Verif.Str.str_swap_replaces"
   ],
   "note": ""
  },
  {
   "property": "C14",
   "status": "proved",
   "theorems": [
    "Verif.Str.str_repeat_spec"
   ],
   "note": ""
  },
  {
   "property": "C15",
   "status": "proved",
   "theorems": [
    "Verif.Str.str_pad_spec",
    "Verif.Str.str_pad_short"
   ],
   "note": ""
  },
  {
   "property": "C16",
   "status": "proved",
   "theorems": [
    "Verif.Str.str_lcpy_spec",
    "Verif.Str.str_lcpy_keeps_tail"
   ],
   "note": ""
  },
  {
   "property": "C17",
   "status": "proved",
   "theorems": [
    "Verif.Str.str_case_equal_iff",
    "Verif.Str.str_is_case_iff",
    "Verif.Str.str_is_case_equivalence",
    "Verif.Str.binary_strcasecmp_zero_iff"
   ],
   "note": ""
  },
  {
   "property": "C18",
   "status": "proved",
   "theorems": [
    "Verif.Sort.memsort_permutes",
    "Verif.Sort.memsort_sorted"
   ],
   "note": ""
  },
  {
   "property": "C19",
   "status": "partial",
   "theorems": [
    "Verif.Str.str_itoa_decimal_partial",
    "Verif.Str.str_itoa_actual",
    "Verif.Str.str_itoa_negative_wrong",
    "Verif.Str.str_itoa_large_wrong",
    "Verif.Str.str_itoa_min_ub",
    "Verif.Str.ItoaBase.itoa_base",
    "Verif.Str.ItoaBase.itoa_base_unknown",
    "Verif.Str.ItoaBase.str_itoa_s390_partial",
    "Verif.Str.ItoaBase.str_itoa_s390_wide_wrong"
   ],
   "note": "On IBM Z (ItoaBase) right for every int and false for all wider numbers. Elsewhere right for 0 <= x < 2^31. False otherwise: negatives lose the sign, larger values are truncated to 32 bits, INT_MIN is undefined; every call reads at least 10 bytes past a local array."
  },
  {
   "property": "C20",
   "status": "partial",
   "theorems": [
    "Verif.Str.trim_core_partial",
    "Verif.Str.trim_blank_ub"
   ],
   "note": "Right whenever the string has a non-blank byte; on every empty or blank string trim reads before its start."
  },
  {
   "property": "C21",
   "status": "partial",
   "theorems": [
    "Verif.Uri.parse_components_partial",
    "Verif.Uri.parse_single_label_refused"
   ],
   "note": "Proved for every well-formed URI whose host has a dot or is the name of the machine; every other well-formed URI is refused (proved)."
  },
  {
   "property": "C22",
   "status": "partial",
   "theorems": [
    "Verif.Uri.port_in_range_partial",
    "Verif.Uri.port_with_junk_accepted"
   ],
   "note": "Range and origin of the port proved for all texts; the exact-number part is false, trailing text, blanks and signs are accepted."
  },
  {
   "property": "C23",
   "status": "proved",
   "theorems": [
    "Verif.Uri.components_have_no_control"
   ],
   "note": "C locale."
  },
  {
   "property": "C24",
   "status": "partial",
   "theorems": [
    "Verif.Deque.steal_exactly_once_partial",
    "Verif.Deque.steal_safe_without_growth",
    "Verif.Deque.steal_after_growth_ub",
    "Verif.Deque.steal_alone_succeeds"
   ],
   "note": "All interleavings of one producer and any number of thieves (sequentially consistent memory), as long as no thief reads a freed array; unconditional when the ring never grows. False in general: deque_resize frees the old array while a thief may be about to read it (witness for every initial size)."
  },
  {
   "property": "C25",
   "status": "partial",
   "theorems": [
    "Verif.Deque.sequential_history_partial",
    "Verif.Deque.take_last_partial",
    "Verif.Deque.take_fresh_wrong",
    "Verif.Deque.take_race_duplicates"
   ],
   "note": "Right for all sequential histories that begin with a push, and for takes that overlap steals in any way while one task is left. False on a fresh queue (index underflow) and false when a take overlaps steals with two or more tasks in the queue (a task is delivered twice)."
  },
  {
   "property": "C26",
   "status": "proved",
   "theorems": [
    "Verif.Deque.push_preserves_contents"
   ],
   "note": ""
  },
  {
   "property": "C27",
   "status": "proved",
   "theorems": [
    "Verif.Sched.run_queue_fifo"
   ],
   "note": ""
  },
  {
   "property": "C28",
   "status": "proved",
   "theorems": [
    "Verif.Sched.sleep_refines_spec",
    "Verif.Sched.wake_pass_correct",
    "Verif.Sched.deadline_from_call"
   ],
   "note": ""
  },
  {
   "property": "C29",
   "status": "partial",
   "theorems": [
    "Verif.Sched.delay_value_partial",
    "Verif.Sched.delay_value_wrong",
    "Verif.Sched.delay_long_understated"
   ],
   "note": "Right below 2^32 ns; false for every longer sleep because the difference is cut to 32 bits before the division."
  },
  {
   "property": "C30",
   "status": "partial",
   "theorems": [
    "Verif.Sched.actor_history_partial",
    "Verif.Sched.poll_calls_earliest",
    "Verif.Sched.cleared_actor_fires",
    "Verif.Sched.stuck_actor_counts",
    "Verif.Sched.again_then_clear_ub"
   ],
   "note": "Exactly-once, never-early, in-order proved for all histories. False: a pending actor that is cleared is still called; a repeating actor that does not re-arm counts as active for ever; re-arming then clearing in one call frees a listed actor."
  },
  {
   "property": "C31",
   "status": "partial",
   "theorems": [
    "Verif.Sched.actor_deadline_partial",
    "Verif.Sched.actor_deadline_overflow"
   ],
   "note": "Right for 0..2147 ms; signed overflow for every longer duration."
  },
  {
   "property": "C32",
   "status": "partial",
   "theorems": [
    "Verif.Wheel.timeout_fires_once_partial",
    "Verif.Wheel.disarmed_never_fires",
    "Verif.Wheel.wheel_refines_spec",
    "Verif.Wheel.long_timeout_fires_early",
    "Verif.Wheel.timeout_after_idle_fires_at_once",
    "Verif.Wheel.zero_max_timeout_divides_by_zero",
    "Verif.Wheel.delete_other_in_callback_aborts",
    "Verif.Wheel.rearm_other_in_callback_wrong"
   ],
   "note": "Proved for all histories in which deadlines lie within the wheel and a timeout callback touches no other registered descriptor. False outside: timeouts beyond 128 ticks fire early, timeouts set after an idle period fire at once, touching another due descriptor in a callback aborts or fires it anyway, max_timeout 0 divides by zero."
  },
  {
   "property": "C33",
   "status": "partial",
   "theorems": [
    "Verif.Wheel.wheel_consistent_partial",
    "Verif.Wheel.wheel_indices_in_bounds",
    "Verif.Wheel.rearm_other_in_callback_wrong",
    "Verif.Wheel.add_again_keeps_old_timeout"
   ],
   "note": "Invariant proved for all legal histories. False when a callback re-arms another due descriptor and when a registered descriptor is added again."
  },
  {
   "property": "C34",
   "status": "partial",
   "theorems": [
    "Verif.Fd.dispatch_refines_spec",
    "Verif.Fd.no_call_after_del",
    "Verif.Fd.del_unregisters",
    "Verif.Fd.revents_exact_partial",
    "Verif.Fd.hangup_reported_as_read_and_timeout",
    "Verif.Fd.error_only_never_delivered",
    "Verif.Fd.narrowed_interest_still_called",
    "Verif.Fd.descriptor_delete_in_handler_deletes_signal",
    "Verif.Fd.descriptor_survives_delete_in_handler"
   ],
   "note": "Proved for all histories: only the registration in force is called, and nothing after deletion. False parts: a hang-up is reported as READ and TIMEOUT, error-only events are never delivered, an interest narrowed by a callback is still served in the same batch, and in a signal handler deleting a descriptor of the same number deletes the signal instead."
  },
  {
   "property": "C35",
   "status": "partial",
   "theorems": [
    "Verif.Fd.count_registered_partial",
    "Verif.Fd.add_out_of_range",
    "Verif.Fd.del_unregistered",
    "Verif.Fd.add_twice_counts_twice"
   ],
   "note": "Exact formula for every legal history; right if no registered descriptor is added again. False when one is: the count stays too high for ever."
  },
  {
   "property": "C36",
   "status": "partial",
   "theorems": [
    "Verif.Tasks.result_ids_unique_partial",
    "Verif.Tasks.results_stable_partial",
    "Verif.Tasks.spec_result_final",
    "Verif.Tasks.plain_id_collides",
    "Verif.Tasks.concurrent_create_ub",
    "Verif.Tasks.concurrent_finish_ub"
   ],
   "note": "Proved for all histories of creations, returns and cancellations on one thread with fewer than 2^31 result tasks, for tasks that have a result. False: plain tasks take ids from another counter that collide with result ids; with several threads the table pointer is read and stored without a lock around a reallocation."
  },
  {
   "property": "C37",
   "status": "partial",
   "theorems": [
    "Verif.Tasks.Generator.values_in_order_partial",
    "Verif.Tasks.Generator.alternating_delivers",
    "Verif.Tasks.Generator.all_delivered",
    "Verif.Tasks.Generator.defined_while_alive",
    "Verif.Tasks.Generator.end_is_ub",
    "Verif.Tasks.Generator.last_value_lost",
    "Verif.Sched.requeue_drops"
   ],
   "note": "Order and no repetition proved for all interleavings while the generator is alive. False at the end: asking once more after the last value reads the freed generator, and a value yielded just before the end can be lost (both proved). The consumer queues a generator that is already queued, which can drop other tasks from the run queue (requeue_drops)."
  },
  {
   "property": "C38",
   "status": "partial",
   "theorems": [
    "Verif.Tasks.Groups.tasks_wait_collects_partial",
    "Verif.Tasks.Groups.tasks_wait_returns",
    "Verif.Tasks.Groups.tasks_wait_deletes_once",
    "Verif.Tasks.Groups.earlier_group_not_waited",
    "Verif.Sched.requeue_drops",
    "Verif.Sched.requeue_head_starves"
   ],
   "note": "Proved for every group and every finishing order, for the latest group of the calling task. False for an earlier group of the same task (returns at once) and when re-queueing a queued task drops tasks from the run queue."
  },
  {
   "property": "C39",
   "status": "partial",
   "theorems": [
    "Verif.Tasks.Groups.waitgroup_partition_partial",
    "Verif.Tasks.Groups.full_group_suffices",
    "Verif.Tasks.Groups.short_group_ub",
    "Verif.Tasks.Groups.waitgroup_reserve_dangles",
    "Verif.Tasks.Groups.pool_wait_never_returns",
    "Verif.Tasks.Groups.pool_wait_ub",
    "Verif.Tasks.Groups.pool_wait_single"
   ],
   "note": "Partition proved for every group with at least threads * share tasks. False otherwise: fewer tasks than declared dereference NULL, a declared capacity above that of a new array leaves a dangling group when realloc moves, and a pool thread with two or more jobs never completes its wait."
  },
  {
   "property": "C40",
   "status": "partial",
   "theorems": [
    "Verif.Tasks.Groups.placement_cyclic_partial",
    "Verif.Tasks.Groups.placement_fair_partial",
    "Verif.Tasks.Groups.wrap_breaks_order"
   ],
   "note": "Proved up to the wrap-around of the 64-bit counter, and across it when the number of threads divides 2^64; false across it for every other number of threads."
  },
  {
   "property": "C41",
   "status": "partial",
   "theorems": [
    "Verif.Future.Promise.getters_general_partial",
    "Verif.Future.Promise.get_own_outcome_partial",
    "Verif.Future.Promise.getters_value",
    "Verif.Future.Promise.isolated_of_injective",
    "Verif.Future.Promise.get_reports_other_exception",
    "Verif.Future.Promise.get_loses_exception",
    "Verif.Future.Promise.wait_swallows_exception",
    "Verif.Future.Promise.recovered_never_done",
    "Verif.Future.Promise.collected_never_done"
   ],
   "note": "What every getter sees is proved for all histories of a thread; values are right, and exceptions are right if no other future of the thread failed in between. False: exceptions are kept per thread, so a getter can report the exception of another future, lose its own, or never end."
  },
  {
   "property": "C42",
   "status": "partial",
   "theorems": [
    "Verif.Future.jobs_fifo_partial",
    "Verif.Future.jobs_one_producer_partial",
    "Verif.Future.jobs_all_run_partial",
    "Verif.Future.full_queue_dangles"
   ],
   "note": "Proved for every schedule of submitters and workers as long as the job array does not move when it grows. False when it moves: the worker keeps a handle to the old array and takes jobs from freed memory. Outside of the model: queue_work with no argument returns NULL and runs nothing."
  },
  {
   "property": "C43",
   "status": "proved",
   "theorems": [
    "Verif.Future.Wait.queue_wait_once",
    "Verif.Future.Wait.queue_wait_returns",
    "Verif.Future.Wait.queue_wait_waits"
   ],
   "note": ""
  },
  {
   "property": "C44",
   "status": "partial",
   "theorems": [
    "Verif.Except.exceptions_follow_spec_partial",
    "Verif.Except.nearest_handler",
    "Verif.Except.uncaught_terminates"
   ],
   "note": "Machine of records, stages and jumps proved equal to a big-step semantics for all programs within the rules of Verif.Except.Spec (no return out of a try body, catch_if only together with finally or accepting). See C45 and C46 for what fails outside of them."
  },
  {
   "property": "C45",
   "status": "partial",
   "theorems": [
    "Verif.Except.finally_once_partial",
    "Verif.Except.catch_if_twice_without_finally"
   ],
   "note": "Proved for all programs in which every try has a finally and that stay within the rules. False: a catch_if block that does not accept the exception runs twice when there is no finally."
  },
  {
   "property": "C46",
   "status": "partial",
   "theorems": [
    "Verif.Except.handlers_balanced_partial",
    "Verif.Except.return_in_try_unbalances",
    "Verif.Except.throw_after_return_jumps_to_dead_frame"
   ],
   "note": "Proved for all programs without return inside of try. False with return: the record of the left function stays current and the next throw jumps into it."
  },
  {
   "property": "C47",
   "status": "partial",
   "theorems": [
    "Verif.Except.Guard.deferred_lifo_once_partial",
    "Verif.Except.Tasks.task_defers_lifo_once_partial",
    "Verif.Except.Guard.unaccepted_panic_uses_freed_block",
    "Verif.Except.Guard.accept_with_fence_goes_on",
    "Verif.Except.Guard.try_in_fenced_guard_unwinds_early",
    "Verif.Except.Guard.caught_exception_seen_at_normal_end",
    "Verif.Except.Tasks.defer_goes_to_other_task"
   ],
   "note": "Proved for all programs within the rules of the specification, for one thread and for several tasks. False: an unaccepted panic reads a freed block, accepting in a scope with fence does not stop the panic, a try inside of a fenced guard runs the deferred functions early, a task defers into the guard section of another task."
  },
  {
   "property": "C48",
   "status": "partial",
   "theorems": [
    "Verif.Except.Protect.protected_released_partial",
    "Verif.Except.Protect.null_pointer_stops_release",
    "Verif.Except.Protect.unprotect_drops_newer",
    "Verif.Except.Protect.equal_pointers_stop_release",
    "Verif.Except.Protect.unprotect_in_inner_try_releases"
   ],
   "note": "Proved for all histories in which variables are unprotected newest first within their try and the protected objects are valid and neighbours differ. False otherwise, with a theorem for each case."
  },
  {
   "property": "C49",
   "status": "proved",
   "theorems": [
    "Verif.Io.Alloc.set_allocator_all_or_nothing",
    "Verif.Io.Alloc.errno_after_calls"
   ],
   "note": ""
  },
  {
   "property": "C50",
   "status": "partial",
   "theorems": [
    "Verif.Io.Getopt.getopt_has_iff_partial",
    "Verif.Io.Getopt.getopt_value_partial",
    "Verif.Io.Getopt.help_word_hides_flag",
    "Verif.Io.Getopt.last_flag_has_null_value",
    "Verif.Io.Getopt.value_cut_at_second_equals"
   ],
   "note": "Exact condition proved for all argument vectors. The claim is false in three cases, each with a theorem: an argument that is a substring of the help text hides later flags, a flag in last place has a NULL value, a value is cut at its own equals sign."
  },
  {
   "property": "C51",
   "status": "proved",
   "theorems": [
    "Verif.Io.Write.write_exact_prefix",
    "Verif.Io.Write.write_completes",
    "Verif.Io.Write.write_nothing",
    "Verif.Io.Write.read_first_answer"
   ],
   "note": ""
  },
  {
   "property": "C52",
   "status": "partial",
   "theorems": [
    "Verif.Io.Addr.dotted_address_partial",
    "Verif.Io.Addr.host_name_port",
    "Verif.Io.Addr.bracket_address",
    "Verif.Io.Addr.digit_first_is_port_one",
    "Verif.Io.Addr.port_wraps",
    "Verif.Io.Addr.trailing_text_ignored",
    "Verif.Io.Addr.octet_spills"
   ],
   "note": "Dotted addresses, host names and bracketed addresses proved. False: every port-only text gives port 1, as do host names beginning with a digit and addresses without port; ports wrap, octets spill, trailing text is ignored."
  },
  {
   "property": "C53",
   "status": "partial",
   "theorems": [
    "Verif.Io.Pseudo.new_index_unused",
    "Verif.Io.Pseudo.get_fd_maps",
    "Verif.Io.Pseudo.close_releases_partial",
    "Verif.Io.Pseudo.new_fails_only_when_full",
    "Verif.Io.Pseudo.table_grows",
    "Verif.Io.Pseudo.close_unassigned_leaks",
    "Verif.Io.Pseudo.free_does_not_release",
    "Verif.Io.Pseudo.real_descriptor_redirected"
   ],
   "note": "Uniqueness and lookup for all histories of calls made one after the other (C225: overlapping ones). Release holds for closing an index with a descriptor; false for an index without descriptor and for events_free_fd, which never release; a real descriptor of the same number is redirected."
  },
  {
   "property": "C54",
   "status": "proved",
   "theorems": [
    "Verif.Io.Spin.mutual_exclusion",
    "Verif.Io.Spin.free_lock_is_taken"
   ],
   "note": "Sequentially consistent memory."
  },
  {
   "property": "C55",
   "status": "partial",
   "theorems": [
    "Verif.Io.Env.addenv_appends_partial",
    "Verif.Io.Env.addenv_long_pair_ub",
    "Verif.Io.Env.addenv_2048_wrong",
    "Verif.Io.Env.addenv_block_not_terminated"
   ],
   "note": "Proved for all lists of pairs of at most 2047 bytes each. Longer pairs read out of bounds or lose the separator; the block is never NUL-terminated."
  },
  {
   "property": "C56",
   "status": "partial",
   "theorems": [
    "Verif.Sched.Loop.round_robin_partial",
    "Verif.Sched.Loop.finished_never_runs_partial",
    "Verif.Sched.Loop.yielding_is_cyclic",
    "Verif.Sched.Loop.resume_old_queues",
    "Verif.Sched.requeue_head_starves",
    "Verif.Sched.requeue_cuts_queue",
    "Verif.Sched.requeue_drops",
    "Verif.Sched.Loop.resume_new_bypasses"
   ],
   "note": "Proved for turns in which no queued task is queued again. False with the operations that re-queue a queued task (tasks_wait, waitfor, yielded) or resume one directly."
  },
  {
   "property": "C57",
   "status": "partial",
   "theorems": [
    "Verif.Tasks.cancel_only_that_id_partial",
    "Verif.Tasks.cancel_keeps_results",
    "Verif.Tasks.cancel_zero_ignored",
    "Verif.Tasks.plain_task_sees_other_cancel",
    "Verif.Tasks.plain_task_cancel_ub"
   ],
   "note": "Proved for all histories on one thread for tasks with a result and id at least 1. False: id 0 is never cancelled, and a plain task sees the flag of another task with the same number or reads an uninitialised slot."
  },
  {
   "property": "C58",
   "status": "partial",
   "theorems": [
    "Verif.Str.str_cat_concat",
    "Verif.Str.str_cat_argv_first_call_partial",
    "Verif.Str.str_cat_argv_later_call",
    "Verif.Str.str_cat_argv_none_ub",
    "Verif.Str.str_cat_argv_overflow"
   ],
   "note": "str_cat_ex proved. str_cat_argv right only on the first call; later calls see the stale static buffer."
  },
  {
   "property": "C59",
   "status": "partial",
   "theorems": [
    "Verif.Io.Ip.parseip_quad_partial",
    "Verif.Io.Ip.parseip_quad_port_partial",
    "Verif.Io.Ip.parseip_scheme_partial",
    "Verif.Io.Ip.parseip_rejects_large",
    "Verif.Io.Ip.parseip_ignores_rest",
    "Verif.Io.Ip.parseip_accepts_others",
    "Verif.Io.Ip.parseip_stores_garbage",
    "Verif.Io.Ip.parseip_empty_ub"
   ],
   "note": "Every dotted quad is accepted with its value, with or without port and scheme, and quads with numbers above 255 (below 2^32) are rejected. Not exactly: many other texts are accepted, some with indeterminate bytes."
  },
  {
   "property": "C60",
   "status": "partial",
   "theorems": [
    "Verif.Str.scheme_type_spec",
    "Verif.Str.scheme_type_known_partial",
    "Verif.Str.scheme_type_accepts_unknown"
   ],
   "note": "Exact behaviour characterised for all strings; the listed schemes are right; unlisted fragments are accepted, so the claim as stated is false."
  },
  {
   "property": "C61",
   "status": "partial",
   "theorems": [
    "Verif.Deque.two_producers_lose_task",
    "Verif.Deque.steal_exactly_once_partial"
   ],
   "note": "False: two concurrent pushes can lose a task (witness). The single-producer case is C24."
  },
  {
   "property": "C62",
   "status": "partial",
   "theorems": [
    "Verif.Fd.addSig_registers",
    "Verif.Fd.signal_calls",
    "Verif.Fd.signal_self_delete_partial",
    "Verif.Fd.signal_delete_outside_handler_aborts",
    "Verif.Fd.signal_breaks_descriptor",
    "Verif.Fd.descriptor_survives_delete_in_handler",
    "Verif.Fd.signal_replaced_counts_twice"
   ],
   "note": "Registration, delivery and self-removal proved for all states. False: removal outside of the handler aborts, signal and descriptor of equal number share one entry, a signal whose callback is replaced counts twice."
  },
  {
   "property": "C63",
   "status": "partial",
   "theorems": [
    "Verif.Except.Tasks.exception_stays_in_task_partial",
    "Verif.Except.Tasks.exception_crosses_tasks",
    "Verif.Except.Tasks.overlapping_tries_leave_dead_handler"
   ],
   "note": "False: the handler chain belongs to the thread. Proved for the histories in which no two tasks are inside of a try at the same time."
  },
  {
   "property": "C64",
   "status": "partial",
   "theorems": [
    "Verif.Kq.kernel_follows_interest_partial",
    "Verif.Kq.read_write_never_watched_for_writing",
    "Verif.Kq.deleted_stays_watched",
    "Verif.Kq.add_again_loses_others",
    "Verif.Kq.directory_never_watched"
   ],
   "note": "Proved for every history that keeps the rules (a descriptor is closed before it is registered again), any batching of changes and any callbacks. False: READ together with WRITE is watched for reading only; a descriptor deleted but not closed stays watched; adding a descriptor again while its change is pending loses the changes queued before it; directories are never watched at all."
  },
  {
   "property": "C65",
   "status": "partial",
   "theorems": [
    "Verif.Kq.kq_dispatch_refines_spec_partial",
    "Verif.Kq.called_for_interest_partial",
    "Verif.Kq.eof_not_reported"
   ],
   "note": "Proved for every history and kernel report without end-of-file. False with end-of-file: WRITE is reported as no event, READ looks like input."
  },
  {
   "property": "C66",
   "status": "partial",
   "theorems": [
    "Verif.Fs.copy_keeps_rest",
    "Verif.Fs.copy_exact_partial",
    "Verif.Fs.copy_large_loses_bytes",
    "Verif.Fs.copy_short_loses_bytes",
    "Verif.Fs.copy_onto_itself_empties"
   ],
   "note": "Proved when one sendfile call moves the whole file. False otherwise: the offset is advanced twice (by sendfile and by the loop), so files above 0x7ffff000 bytes and short transfers lose bytes while 0 is returned; copying a file onto itself empties it."
  },
  {
   "property": "C67",
   "status": "proved",
   "theorems": [
    "Verif.Fs.os_copy_terminates",
    "Verif.Fs.os_copy_exact",
    "Verif.Fs.os_copy_failed",
    "Verif.Fs.os_copy_succeeds"
   ],
   "note": ""
  },
  {
   "property": "C68",
   "status": "partial",
   "theorems": [
    "Verif.Fs.writefile_result",
    "Verif.Fs.writefile_exact_partial",
    "Verif.Fs.writefile_keeps_tail",
    "Verif.Fs.writefile_large_ub",
    "Verif.Fs.failed_touch_is_true",
    "Verif.Fs.touch_keeps_contents"
   ],
   "note": "Proved for new files and files not longer than the text. False: a longer file keeps its tail (no O_TRUNC), a text above 512 MiB makes the pool thread read wild memory, and a failure to open gives 0, so fs_touch answers true though there is no file."
  },
  {
   "property": "C69",
   "status": "partial",
   "theorems": [
    "Verif.Fs.readfile_terminated",
    "Verif.Fs.readfile_exact_partial",
    "Verif.Fs.readfile_large_cut",
    "Verif.Fs.readfile_large_ub",
    "Verif.Fs.readfile_short_cut",
    "Verif.Fs.write_then_read_partial"
   ],
   "note": "The result is always a terminated beginning of the file; it is the whole file up to 0x20000000 bytes when read is not short. False otherwise: one read, result ignored, and a longer read makes the pool thread read wild memory (C108)."
  },
  {
   "property": "C70",
   "status": "partial",
   "theorems": [
    "Verif.Fs.close_closes_partial",
    "Verif.Fs.second_close_refused",
    "Verif.Fs.close_refused"
   ],
   "note": "Proved for one worker thread. False for every larger number of workers: open, close, open, close can leave the second descriptor open."
  },
  {
   "property": "C71",
   "status": "proved",
   "theorems": [
    "Verif.Watch.handler_reports",
    "Verif.Watch.self_change_unreported"
   ],
   "note": "The changes of a watched directory itself (deleted, moved) carry no name and are never reported, though the watch asks the kernel for them."
  },
  {
   "property": "C72",
   "status": "partial",
   "theorems": [
    "Verif.Watch.watch_reports_partial",
    "Verif.Watch.own_descriptor_collides",
    "Verif.Watch.second_monitor_misreports"
   ],
   "note": "Proved when the table entries of the numbers the kernel gives are free. False otherwise: the handler looks the directory up under the number of the kernel, but the entry was allocated elsewhere; with monitor descriptor r every tree of more than r directories reports wrong directories (or prints a null pointer), and so does a second monitor."
  },
  {
   "property": "C73",
   "status": "partial",
   "theorems": [
    "Verif.Watch.tree_fits_partial",
    "Verif.Watch.large_tree_ub"
   ],
   "note": "Proved when the table has a free entry for each directory. False for every larger tree: index -1 is used."
  },
  {
   "property": "C74",
   "status": "partial",
   "theorems": [
    "Verif.Watch.close_releases_all_partial",
    "Verif.Watch.close_releases_every_second",
    "Verif.Watch.rm_watch_exact"
   ],
   "note": "Removing one watch proved exact. Closing proved for monitors with at most one watch; with more, every second entry stays in use for ever."
  },
  {
   "property": "C75",
   "status": "partial",
   "theorems": [
    "Verif.Watch.next_single_partial",
    "Verif.Watch.next_always_ends",
    "Verif.Watch.next_never_following"
   ],
   "note": "Right for a single record. False otherwise: inotify_next always answers that there is no further record, and where it would find the buffer it would step 16 times too far."
  },
  {
   "property": "C76",
   "status": "partial",
   "theorems": [
    "Verif.Watch.Deliver.delivered_when_readable_partial",
    "Verif.Watch.Deliver.records_never_delivered",
    "Verif.Watch.Deliver.registration_not_passed_on"
   ],
   "note": "False with the epoll backend: EVENTS_PATHWATCH has no READ bit, so events_update_internal returns before epoll_ctl and the poll loop skips the descriptor. Proved: records are handed over if the user sets READ on the monitor by hand."
  },
  {
   "property": "C77",
   "status": "partial",
   "theorems": [
    "Verif.Watch.Tasks.cancel_ends_partial",
    "Verif.Watch.Tasks.cancel_ends_all",
    "Verif.Watch.Tasks.directory_removal_keeps_running",
    "Verif.Watch.Tasks.failed_watch_ub"
   ],
   "note": "Proved: the cancelled monitor ends and other loops are not touched. False: every other monitor of the same loop ends with it, removal of the directory does not end a monitor, and a directory that cannot be watched makes the task read before the table."
  },
  {
   "property": "C78",
   "status": "partial",
   "theorems": [
    "Verif.Proc.arguments_exact_partial",
    "Verif.Proc.no_argument_with_comma",
    "Verif.Proc.null_arguments_get_one"
   ],
   "note": "Proved for arguments without commas. False: no argument can contain a comma, and with NULL the program is given one empty argument."
  },
  {
   "property": "C79",
   "status": "partial",
   "theorems": [
    "Verif.Proc.environment_exact_partial",
    "Verif.Proc.null_environment_is_empty",
    "Verif.Proc.single_assignment_dropped"
   ],
   "note": "Proved for two or more assignments. False: NULL gives an empty environment instead of the parent's, and a single assignment without a semicolon is dropped."
  },
  {
   "property": "C80",
   "status": "partial",
   "theorems": [
    "Verif.Proc.streams_connected_partial",
    "Verif.Proc.closed_stream_ends_child",
    "Verif.Proc.descriptor_zero_ignored",
    "Verif.Proc.exchanged_streams_collapse",
    "Verif.Proc.spawned_streams_partial",
    "Verif.Proc.spawned_keeps_other_pipes"
   ],
   "note": "Proved except for descriptor 0 as output or error (ignored), descriptor 1 as error with redirected output (gets the new output), and pipes on standard descriptors. A spawned program also holds the pipes of other children."
  },
  {
   "property": "C81",
   "status": "partial",
   "theorems": [
    "Verif.Proc.wait_reports_end",
    "Verif.Proc.wait_zero_polls",
    "Verif.Proc.exit_code_unambiguous",
    "Verif.Proc.wait_ignores_timeout",
    "Verif.Proc.detached_wait_returns_at_once"
   ],
   "note": "Exit codes, interruption and timeout 0 proved. False: every other timeout is ignored, and a wait for a detached process returns success at once."
  },
  {
   "property": "C82",
   "status": "partial",
   "theorems": [
    "Verif.Proc.wait_closes_own_partial",
    "Verif.Proc.wait_closes_descriptor_numbered_as_process"
   ],
   "note": "Proved if the process number is not an open descriptor; otherwise that descriptor is closed."
  },
  {
   "property": "C83",
   "status": "partial",
   "theorems": [
    "Verif.Proc.handle_is_fresh",
    "Verif.Proc.start_safe_partial",
    "Verif.Proc.many_processes_ub",
    "Verif.Proc.no_event_descriptor_ub"
   ],
   "note": "Freshness proved. Safe while fewer than 255 processes are unfinished; the 256th, or a failed eventfd, accesses memory before the table."
  },
  {
   "property": "C84",
   "status": "partial",
   "theorems": [
    "Verif.Proc.failed_start_reported_as_success",
    "Verif.Proc.failed_start_never_released"
   ],
   "note": "False: a failed vfork is returned as a started process; its handle is never released. What holds: a wait for it fails with EINVAL."
  },
  {
   "property": "C85",
   "status": "partial",
   "theorems": [
    "Verif.Proc.Spawn.output_is_prefix",
    "Verif.Proc.Spawn.output_complete_partial",
    "Verif.Proc.Spawn.output_lost_at_exit",
    "Verif.Proc.Spawn.full_pipe_stalls"
   ],
   "note": "Order and absence of repetition proved. Completeness is false: output still in the pipe when the task finds the process ended is thrown away, and a full pipe is never read again."
  },
  {
   "property": "C86",
   "status": "partial",
   "theorems": [
    "Verif.Proc.Spawn.exit_at_most_once",
    "Verif.Proc.Spawn.exit_status_reported",
    "Verif.Proc.Spawn.term_signal_is_status",
    "Verif.Proc.Spawn.failed_launch_exits_zero",
    "Verif.Proc.Spawn.unregistered_exit_never_reported"
   ],
   "note": "Proved for processes that were made and registered. False: the second argument is a copy of the first, a failed vfork is reported as exit with status 0, and with a failed registration nothing is reported."
  },
  {
   "property": "C87",
   "status": "partial",
   "theorems": [
    "Verif.Proc.Finish.finished_stays_partial",
    "Verif.Proc.Finish.finished_is_revived"
   ],
   "note": "Proved until the handle is given out again, which the next spawn normally does."
  },
  {
   "property": "C88",
   "status": "partial",
   "theorems": [
    "Verif.Proc.Time.deadline_exact",
    "Verif.Proc.Time.join_ended_thread",
    "Verif.Proc.Time.join_keeps_timeout",
    "Verif.Proc.Time.join_forever",
    "Verif.Proc.Time.sleep_exact_partial",
    "Verif.Proc.Time.sleep_cut_short"
   ],
   "note": "Joins proved. Sleeping is proved if no signal is handled meanwhile; a signal cuts it short."
  },
  {
   "property": "C89",
   "status": "partial",
   "theorems": [
    "Verif.Str.pathinfo_parts_partial",
    "Verif.Str.pathinfo_root",
    "Verif.Str.pathinfo_plain_name",
    "Verif.Str.pathinfo_no_name",
    "Verif.Str.pathinfo_cuts_argument"
   ],
   "note": "Every form of path characterised. Right when a slash precedes the last name. False otherwise: the directory of a plain name is the name itself, and of the empty path the empty string; a trailing slash is cut off the caller's string. dirname and basename are transcribed from glibc."
  },
  {
   "property": "C90",
   "status": "partial",
   "theorems": [
    "Verif.Str.str_trim_at_exact",
    "Verif.Str.str_dup_exact",
    "Verif.Str.str_trim_beyond_ub",
    "Verif.Str.str_cpy_unterminated",
    "Verif.Str.str_cpy_bytes_partial"
   ],
   "note": "str_dup, str_trim and str_trim_at proved for pieces within the string. False: a longer length reads past the object, and str_cpy writes no terminator."
  },
  {
   "property": "C91",
   "status": "proved",
   "theorems": [
    "Verif.Str.str_case_exact",
    "Verif.Str.str_case_laws"
   ],
   "note": "C locale."
  },
  {
   "property": "C92",
   "status": "partial",
   "theorems": [
    "Verif.Arrays.typed_items_read_back_partial",
    "Verif.Arrays.wide_item_exact",
    "Verif.Arrays.narrow_item_keeps_old_bits",
    "Verif.Arrays.typed_append_to_tuple"
   ],
   "note": "Proved for reading through the type of the append, realloc in place (C01 gives the moving case). False: the upper bytes of a char, bool or short element are left over from earlier elements."
  },
  {
   "property": "C93",
   "status": "partial",
   "theorems": [
    "Verif.Str.has_either_actual",
    "Verif.Str.has_either_complete_partial",
    "Verif.Str.has_either_mixes",
    "Verif.Str.has_either_misses_second",
    "Verif.Str.has_either_short_second_ub"
   ],
   "note": "Exact behaviour proved. False: mixtures of the two patterns are accepted, a second pattern in a text shorter than the first is missed, and a shorter second pattern is read past its end."
  },
  {
   "property": "C94",
   "status": "partial",
   "theorems": [
    "Verif.Udp.deferred_memory_freed_partial",
    "Verif.Udp.deferred_memory_can_call",
    "Verif.Udp.deferred_short_memory_ub"
   ],
   "note": "False in general: deferred_unwind tells plain memory from its own objects by the first bytes of the block, so for every function and argument there are 40 bytes of contents that make the end of the task call it; blocks of less than four bytes are read beyond their end. Proved for memory that does not start with one of the four type numbers."
  },
  {
   "property": "C95",
   "status": "partial",
   "theorems": [
    "Verif.Udp.udp_received_exact",
    "Verif.Udp.udp_received_whole_partial",
    "Verif.Udp.udp_empty_is_failure",
    "Verif.Udp.udp_long_is_cut"
   ],
   "note": "Exact description for all executions; holds for datagrams of 1 to 49152 bytes. False for empty datagrams (reported as a failure) and longer ones (cut without notice)."
  },
  {
   "property": "C96",
   "status": "partial",
   "theorems": [
    "Verif.Udp.udp_reply_to_sender_partial",
    "Verif.Udp.udp_reply_goes_astray",
    "Verif.Udp.udp_ip_of_another"
   ],
   "note": "False once another receive has happened on the socket: the reply goes to the sender of the latest datagram, and udp_ip names that sender. Proved up to the next receive."
  },
  {
   "property": "C97",
   "status": "partial",
   "theorems": [
    "Verif.Udp.udp_safe_while_tasks_live_partial",
    "Verif.Udp.udp_message_freed_once",
    "Verif.Udp.udp_handled_packet_freed_partial",
    "Verif.Udp.udp_receive_after_handler_ub",
    "Verif.Udp.udp_waiting_receive_ub",
    "Verif.Udp.udp_late_message_ub",
    "Verif.Udp.udp_unread_message_leaks",
    "Verif.Udp.udp_datagram_calls_function"
   ],
   "note": "False: the socket keeps pointing to the packet received last, which its handler frees, so the next receive uses freed memory; asking for a message late frees part of the descriptor table; a crafted datagram makes the end of its handler call any function. Proved while no task ends, for one packet handled completely, and that no message is freed twice."
  },
  {
   "property": "C98",
   "status": "partial",
   "theorems": [
    "Verif.Udp.udp_sendto_destination_partial",
    "Verif.Udp.udp_sendto_v6_fails",
    "Verif.Udp.udp_sendto_after_receive",
    "Verif.Udp.udp_sendto_without_destination"
   ],
   "note": "False for IPv6 destinations (always refused) and after a receive (the destination is overwritten by the sender). Proved for IPv4 until the next receive."
  },
  {
   "property": "C99",
   "status": "partial",
   "theorems": [
    "Verif.Wait.exclusive_wait_woken_partial",
    "Verif.Wait.woken_in_direction",
    "Verif.Wait.second_waiter_strands_first",
    "Verif.Wait.wait_out_of_range_strands",
    "Verif.Wait.error_does_not_wake"
   ],
   "note": "False when two tasks wait for one descriptor: the second registration replaces the first and the first task is never woken (so a socket cannot be read by one task while another waits to write it). Also never woken: waits for descriptors beyond the limit, and error conditions alone. Proved for all histories in which waits for a descriptor do not overlap."
  },
  {
   "property": "C100",
   "status": "partial",
   "theorems": [
    "Verif.Io.Host.host_with_port_partial",
    "Verif.Io.Host.host_plain_partial",
    "Verif.Io.Host.host_scheme_partial",
    "Verif.Io.Host.host_numeric_wild",
    "Verif.Io.Host.host_not_autofree_ub",
    "Verif.Io.Host.host_not_autofree_null",
    "Verif.Io.Host.host_short_keeps_port",
    "Verif.Io.Host.host_brackets"
   ],
   "note": "False: an IPv4 address with a scheme and no port gives a wild pointer; with the memory mode of udp_to every host:port text is read after it was freed, and a plain host gives null; hosts of up to 6 bytes keep their port; a bracketed address is cut off in the caller's text. The remaining forms are proved."
  },
  {
   "property": "C101",
   "status": "partial",
   "theorems": [
    "Verif.Io.Host.uds_path_partial",
    "Verif.Io.Host.uds_scheme_partial",
    "Verif.Io.Host.uds_long_path_differs",
    "Verif.Io.Host.uds_colon_path_cut",
    "Verif.Io.Host.uds_double_slash_cut"
   ],
   "note": "Right for paths of up to 106 bytes without colons and double slashes. False for longer ones: bind, connect and unlink use different names."
  },
  {
   "property": "C102",
   "status": "partial",
   "theorems": [
    "Verif.Tls.tls_reader_outcome_partial",
    "Verif.Tls.tls_reader_sound",
    "Verif.Tls.tls_reader_no_abort",
    "Verif.Tls.tls_reader_failure_reported",
    "Verif.Tls.tls_reader_hangup_fails"
   ],
   "note": "False when a wait ends with a hang-up reported: the reader fails although the library might still deliver data. Proved for all other wake-ups, and soundness of every result for all scripts."
  },
  {
   "property": "C103",
   "status": "partial",
   "theorems": [
    "Verif.Tls.tls_writer_exact_partial",
    "Verif.Tls.tls_writer_zero_sends_string",
    "Verif.Tls.tls_writer_zero_reads_beyond",
    "Verif.Tls.tls_writer_short"
   ],
   "note": "What is reported is exactly what was accepted. False: a length of 0 sends everything up to a NUL, and short results of the library are not completed."
  },
  {
   "property": "C104",
   "status": "partial",
   "theorems": [
    "Verif.Tls.tls_accept_outcome_partial",
    "Verif.Tls.tls_accept_failed_ub",
    "Verif.Tls.tls_dial_outcome_partial",
    "Verif.Tls.tls_dial_failure_ub",
    "Verif.Tls.handshake_failure"
   ],
   "note": "False: a failed accept is used as an index before the descriptor table, and a failed handshake of tls_dial asks a null pointer for its error text. The remaining outcomes are proved."
  },
  {
   "property": "C105",
   "status": "partial",
   "theorems": [
    "Verif.Tasks.Pool.pool_tasks_exactly_once_partial",
    "Verif.Tasks.Pool.pool_take_drains_partial"
   ],
   "note": "For one starting thread, over the queue as a list (C24-C26 relate it to the array); with several starting threads a task can be lost (C61). That the pool thread keeps calling task_take: C182."
  },
  {
   "property": "C106",
   "status": "partial",
   "theorems": [
    "Verif.Tasks.Start.init_pool_roles_partial",
    "Verif.Tasks.Start.init_pool_twice_ub",
    "Verif.Tasks.Start.need_pool_no_processor_ub"
   ],
   "note": "Proved if the system grants everything. False: a second events_init_pool, or accepting a connection where no processor is left for a pool thread, reads beyond the table."
  },
  {
   "property": "C107",
   "status": "partial",
   "theorems": [
    "Verif.Tasks.Start.create_pool_reports_partial",
    "Verif.Tasks.Start.create_future_result",
    "Verif.Tasks.Start.create_pool_retry_false_success",
    "Verif.Tasks.Start.create_loop_failure_dangling",
    "Verif.Tasks.Start.shutdown_all_partial",
    "Verif.Tasks.Start.shutdown_extra_loop_ub"
   ],
   "note": "False: after a failed thread creation the next call reports success; a failed events_create leaves the released loop in use; shutdown with an extra loop reads beyond the table."
  },
  {
   "property": "C108",
   "status": "partial",
   "theorems": [
    "Verif.Future.Value.int_result_exact_partial",
    "Verif.Future.Value.large_result_ub",
    "Verif.Future.Value.large_result_wrong",
    "Verif.Future.Value.pointer_result_partial",
    "Verif.Future.Value.pointer_result_ub"
   ],
   "note": "False for numbers above 0x20000000: they are taken for pointers (a read of more than 512 MiB crashes). For pointers the memory in front of them decides."
  },
  {
   "property": "C109",
   "status": "partial",
   "theorems": [
    "Verif.Future.Value.fwrite_count_partial",
    "Verif.Future.Value.fwrite_flush_failure_hidden",
    "Verif.Future.Value.fwrite_large_wrong"
   ],
   "note": "The count of the library is returned up to 0x20000000 items. False: failures of fflush and fclose are not seen, and from 2^31 items on the count is wrong."
  },
  {
   "property": "C110",
   "status": "partial",
   "theorems": [
    "Verif.Sock.bind_all_or_nothing_partial",
    "Verif.Sock.bind_listen_failure_hidden",
    "Verif.Sock.bind_v6_never",
    "Verif.Sock.bind_reuse_garbage",
    "Verif.Sock.socket_all_or_nothing_partial",
    "Verif.Sock.socket_listen_leak",
    "Verif.Sock.socket_v6_address_cut"
   ],
   "note": "Failures release everything, except async_socket on a UNIX socket that cannot listen. False: async_bind returns sockets that do not listen, can never bind IPv6, sets SO_REUSEADDR depending on an unset variable; async_socket remembers 16 of 28 bytes of an IPv6 address."
  },
  {
   "property": "C111",
   "status": "partial",
   "theorems": [
    "Verif.Sock.connect_all_or_nothing",
    "Verif.Sock.connect_errno_lost"
   ],
   "note": "The first half is proved. False: errno after a connection that fails while waiting is always ENOTCONN."
  },
  {
   "property": "C112",
   "status": "partial",
   "theorems": [
    "Verif.Sock.Kind.uds_known_partial",
    "Verif.Sock.Kind.uds_stale",
    "Verif.Sock.Kind.uds_freed_ub"
   ],
   "note": "Proved while numbers of UNIX sockets are not reused by files or accepted connections and the tasks that made UNIX sockets run. False otherwise: a stale or freed record is looked at."
  },
  {
   "property": "C113",
   "status": "partial",
   "theorems": [
    "Verif.Sock.tcp_timeout_exact_partial",
    "Verif.Sock.tcp_timeout_negative",
    "Verif.Sock.tcp_timeout_long_ub"
   ],
   "note": "Exact up to 2147483 ms. False: an int overflows for every longer timeout."
  },
  {
   "property": "C114",
   "status": "proved",
   "theorems": [
    "Verif.Sock.inet_pton_last"
   ],
   "note": "getaddrinfo is an oracle."
  },
  {
   "property": "C115",
   "status": "partial",
   "theorems": [
    "Verif.Sock.accept_v4_partial",
    "Verif.Sock.accept_v6_empty"
   ],
   "note": "Proved for IPv4. False for IPv6: 16 bytes are passed, so longer texts are lost."
  },
  {
   "property": "C116",
   "status": "proved",
   "theorems": [
    "Verif.Sock.memalign_inside"
   ],
   "note": "For sizes whose sum with the padding fits in size_t (the callers stay far below)."
  },
  {
   "property": "C117",
   "status": "proved",
   "theorems": [
    "Verif.Except.Signals.signal_right_exception"
   ],
   "note": "Programs that use the public functions (ex_signal itself is not declared in a header)."
  },
  {
   "property": "C118",
   "status": "partial",
   "theorems": [
    "Verif.Except.Signals.signal_caught_partial",
    "Verif.Except.Signals.signal_lost_after_events"
   ],
   "note": "False for a signal that the event loop listened to and released: it keeps the default action."
  },
  {
   "property": "C119",
   "status": "partial",
   "theorems": [
    "Verif.Except.Signals.default_restores_partial",
    "Verif.Except.Signals.default_keeps_sigpipe",
    "Verif.Except.Signals.default_undone"
   ],
   "note": "False for SIGPIPE, which is missing in the list; and the next try, guard or task undoes it."
  },
  {
   "property": "C120",
   "status": "partial",
   "theorems": [
    "Verif.Except.Signals.events_signal_kept_partial",
    "Verif.Except.Signals.events_signal_stolen"
   ],
   "note": "False for SIGINT, SIGTERM and the other signals that become exceptions, if the first try, guard or task comes later: it installs its own handlers."
  },
  {
   "property": "C121",
   "status": "partial",
   "theorems": [
    "Verif.Future.Reuse.queue_get_memory_partial",
    "Verif.Future.Reuse.queue_get_early_ub"
   ],
   "note": "Proved if the scope of the caller ends after the worker and the task of the handler are through. False otherwise: the result is reported before the worker is through with the promise."
  },
  {
   "property": "C122",
   "status": "partial",
   "theorems": [
    "Verif.Future.Reuse.promise_single_use_partial",
    "Verif.Future.Reuse.promise_second_use_ub",
    "Verif.Future.Reuse.promise_reuse_ub"
   ],
   "note": "Proved for one operation. False for every second one and for the cleaning up: the worker has deleted the arguments that the promise still points to."
  },
  {
   "property": "C123",
   "status": "partial",
   "theorems": [
    "Verif.Life.init_ready_partial",
    "Verif.Life.init_after_failure"
   ],
   "note": "Proved if no call before failed. False after one that failed: the next call returns 0 without a descriptor table and queues."
  },
  {
   "property": "C124",
   "status": "partial",
   "theorems": [
    "Verif.Life.deinit_clean_partial",
    "Verif.Life.init_no_table_ub",
    "Verif.Life.init_no_port_ub"
   ],
   "note": "Proved if the table of pseudo descriptors and the event descriptor can be had. False otherwise: the tables are gone through without being there or cleared."
  },
  {
   "property": "C125",
   "status": "partial",
   "theorems": [
    "Verif.Except.Trying.trying_value_partial",
    "Verif.Except.Trying.trying_guard_misuse"
   ],
   "note": "Proved outside of guard sections and tasks. False in them: the value is freed as soon as tryFunc throws, and the result of catchFunc is written into it afterwards."
  },
  {
   "property": "C126",
   "status": "proved",
   "theorems": [
    "Verif.Rp.size_class_fits"
   ],
   "note": "For the table as computed at the start, 126 classes merged as the code merges them."
  },
  {
   "property": "C127",
   "status": "partial",
   "theorems": [
    "Verif.Rp.malloc_enough_partial",
    "Verif.Rp.malloc_wraps"
   ],
   "note": "Proved for requests up to 2^64 - 65536 - 128 - one page. False above: the sums wrap around and the block ends beyond the memory mapped for it."
  },
  {
   "property": "C128",
   "status": "partial",
   "theorems": [
    "Verif.Rp.calloc_exact_partial",
    "Verif.Rp.calloc_wraps"
   ],
   "note": "Proved if the product is not close to 2^64 or above. False otherwise: the product wraps around and a small block is returned."
  },
  {
   "property": "C129",
   "status": "partial",
   "theorems": [
    "Verif.Rp.map_unmap_exact",
    "Verif.Rp.huge_free_exact_partial",
    "Verif.Rp.huge_free_leaks"
   ],
   "note": "Proved for blocks of less than 2^32 pages. False above: the number of pages is kept in 32 bits."
  },
  {
   "property": "C130",
   "status": "proved",
   "theorems": [
    "Verif.Rp.usable_exact",
    "Verif.Rp.free_whole_block"
   ],
   "note": "For blocks of size classes, large and huge blocks."
  },
  {
   "property": "C131",
   "status": "proved",
   "theorems": [
    "Verif.Rp.realloc_preserves",
    "Verif.Rp.realloc_reads"
   ],
   "note": "New blocks are assumed large enough and disjoint from the old one, which is C127 and C132."
  },
  {
   "property": "C132",
   "status": "proved",
   "theorems": [
    "Verif.Rp.held_blocks_disjoint",
    "Verif.Rp.malloc_hands_out_new"
   ],
   "note": "For small and medium blocks, operations atomic. Spans in use are assumed to be at distinct multiples of the span size, which is what mapping provides (C129)."
  },
  {
   "property": "C133",
   "status": "partial",
   "theorems": [
    "Verif.Rp.aligned_fine_partial",
    "Verif.Rp.aligned_wraps",
    "Verif.Rp.aligned_not_power"
   ],
   "note": "Proved for powers of two below the span size and sizes below 2^61 bytes and 2^30 pages. False above (sizes near 2^64 are served like a request for nothing) and for alignments which are no power of two (neither refused nor met)."
  },
  {
   "property": "C134",
   "status": "proved",
   "theorems": [
    "Verif.Rp.counters_never_broken"
   ],
   "note": "For small and medium blocks, operations atomic, heaps not finalised meanwhile."
  },
  {
   "property": "C135",
   "status": "partial",
   "theorems": [
    "Verif.Rp.new_span_only_if_used_up",
    "Verif.Rp.span_given_back",
    "Verif.Rp.deferred_span_collected",
    "Verif.Rp.deferred_block_not_reused"
   ],
   "note": "Proved as stated. Not true without the exception: blocks freed by other threads are not reused while another block of a fully used span is live and the owner frees none of them."
  },
  {
   "property": "C136",
   "status": "proved",
   "theorems": [
    "Verif.Rp.Spans.spans_disjoint"
   ],
   "note": "Page sizes up to 64 KiB, operations atomic; what the kernel maps is assumed not to overlap what is mapped already."
  },
  {
   "property": "C137",
   "status": "proved",
   "theorems": [
    "Verif.Rp.Spans.range_unmapped_once"
   ],
   "note": "Page sizes up to 64 KiB, operations atomic."
  },
  {
   "property": "C138",
   "status": "proved",
   "theorems": [
    "Verif.Rp.Cache.caches_never_overflow",
    "Verif.Rp.Cache.span_in_one_place",
    "Verif.Rp.Cache.span_handed_out_once",
    "Verif.Rp.Cache.cached_span_reused",
    "Verif.Rp.Cache.finished_heap_is_empty"
   ],
   "note": "Operations atomic, except that kept spans may be put into the common cache at any later time; heaps not finalised meanwhile; pages no larger than spans."
  },
  {
   "property": "C139",
   "status": "proved",
   "theorems": [
    "Verif.Rp.Threads.heap_one_thread",
    "Verif.Rp.Threads.direct_free_own_heap",
    "Verif.Rp.Threads.heap_not_lost",
    "Verif.Rp.Threads.main_thread_shares_heap"
   ],
   "note": "For programs in which every thread takes the lock; main_thread_shares_heap shows that a program calling rpmalloc_set_main_thread (declared in no header and called by nothing in the library) could share a heap. Memory is sequentially consistent; new heaps are made in one step under the lock."
  },
  {
   "property": "C140",
   "status": "proved",
   "theorems": [
    "Verif.Rp.Deferred.deferred_never_ub",
    "Verif.Rp.Deferred.live_block_in_no_list",
    "Verif.Rp.Deferred.gone_means_unused",
    "Verif.Rp.Deferred.handed_over_once"
   ],
   "note": "One span from its initialisation to its release; memory is sequentially consistent."
  },
  {
   "property": "C141",
   "status": "proved",
   "theorems": [
    "Verif.Rp.Stack.collected_not_in_use",
    "Verif.Rp.Stack.collected_once",
    "Verif.Rp.Stack.nothing_lost"
   ],
   "note": "Memory is sequentially consistent."
  },
  {
   "property": "C142",
   "status": "proved",
   "theorems": [
    "Verif.Tls.Names.names_belong_together",
    "Verif.Tls.Names.endings_differ"
   ],
   "note": "For host names shorter than MAXHOSTNAMELEN."
  },
  {
   "property": "C143",
   "status": "partial",
   "theorems": [
    "Verif.Tls.Names.use_certificate_first_partial",
    "Verif.Tls.Names.use_certificate_again_ignored",
    "Verif.Tls.Names.cert_path_detaches"
   ],
   "note": "False of the code: the directory is taken only from the first call (use_certificate_again_ignored), and default_cert_path before use_certificate makes the file names lose their directory (cert_path_detaches). use_certificate_first_partial is the case that holds."
  },
  {
   "property": "C144",
   "status": "partial",
   "theorems": [
    "Verif.Tls.Names.self_signed_made_partial",
    "Verif.Tls.Names.existing_files_kept_partial",
    "Verif.Tls.Names.marker_without_certificate",
    "Verif.Tls.Names.own_key_overwritten"
   ],
   "note": "False of the code: use_secure_client after use_certificate(path) overwrites the private key of the user (own_key_overwritten), and the marker left by a client stops use_certificate(NULL) from making its certificate (marker_without_certificate). The two partial theorems are the cases that hold."
  },
  {
   "property": "C145",
   "status": "proved",
   "theorems": [
    "Verif.Wepoll.Tree.tree_is_a_table",
    "Verif.Wepoll.Tree.table_unique",
    "Verif.Wepoll.Tree.tree_root_spec"
   ],
   "note": "Pointer-level model of the red-black tree; the keys are natural numbers (uintptr_t compared only)."
  },
  {
   "property": "C146",
   "status": "proved",
   "theorems": [
    "Verif.Wepoll.Tree.tree_search_cost"
   ],
   "note": ""
  },
  {
   "property": "C147",
   "status": "proved",
   "theorems": [
    "Verif.Wepoll.Queue.queues_are_lists",
    "Verif.Wepoll.Queue.queue_walk"
   ],
   "note": "Pointer-level model."
  },
  {
   "property": "C148",
   "status": "partial",
   "theorems": [
    "Verif.Wepoll.Ep.blocks_live_partial",
    "Verif.Wepoll.Ep.close_frees_everything",
    "Verif.Wepoll.Ep.close_frees_blocks_of_requests"
   ],
   "note": "False of the code for closing: epoll_close frees the blocks of outstanding requests, into which the system still writes its results (close_frees_blocks_of_requests). Proved for every other operation: no use of a freed block, no failing assertion, no lost block; closing frees everything."
  },
  {
   "property": "C149",
   "status": "proved",
   "theorems": [
    "Verif.Wepoll.Ep.registrations_exact",
    "Verif.Wepoll.Ep.only_requested_events",
    "Verif.Wepoll.Ep.requested_events_reported",
    "Verif.Wepoll.Ep.failed_request_reported",
    "Verif.Wepoll.Ep.oneshot_at_most_once"
   ],
   "note": "The system (answers to requests, packets) is arbitrary; each critical section is one step."
  },
  {
   "property": "C150",
   "status": "partial",
   "theorems": [
    "Verif.Wepoll.Ep.watched_while_waiting_partial",
    "Verif.Wepoll.Ep.one_refused_socket_blocks_all"
   ],
   "note": "False of the code if the system refuses a request with an error other than an invalid handle: the socket stays first in the queue and every epoll_wait fails, so no other socket is watched any more (one_refused_socket_blocks_all). Proved if no request and no cancellation is refused."
  },
  {
   "property": "C151",
   "status": "proved",
   "theorems": [
    "Verif.Wepoll.Ep.asked_iff_wanted",
    "Verif.Wepoll.Ep.told_iff_meant",
    "Verif.Wepoll.Ep.answer_not_in_vain",
    "Verif.Wepoll.Ep.message_never_reported"
   ],
   "note": "EPOLLMSG is accepted but has no driver event, so it is never reported (message_never_reported)."
  },
  {
   "property": "C152",
   "status": "proved",
   "theorems": [
    "Verif.Wepoll.Ep.handle_serves_32",
    "Verif.Wepoll.Ep.few_handles"
   ],
   "note": ""
  },
  {
   "property": "C153",
   "status": "partial",
   "theorems": [
    "Verif.Wepoll.Handles.close_is_safe_partial",
    "Verif.Wepoll.Handles.freed_is_unreachable",
    "Verif.Wepoll.Handles.closing_is_unreachable",
    "Verif.Wepoll.Handles.one_closer",
    "Verif.Wepoll.Handles.signal_has_sleeper",
    "Verif.Wepoll.Handles.sleeper_will_wake",
    "Verif.Wepoll.Handles.close_can_finish",
    "Verif.Wepoll.Handles.add_while_closing_asserts"
   ],
   "note": "False of the code in one place: an epoll_ctl that found the handle before another thread closed it, and that needs a new driver handle, fails the assertion that the completion port is open (add_while_closing_asserts says exactly when). Everything else is proved for all schedules."
  },
  {
   "property": "C154",
   "status": "partial",
   "theorems": [
    "Verif.Wepoll.Timeout.null_waits_forever",
    "Verif.Wepoll.Timeout.pwait2_right_iff_partial",
    "Verif.Wepoll.Timeout.whole_milliseconds_wrong",
    "Verif.Wepoll.Timeout.one_more_is_too_early",
    "Verif.Wepoll.Timeout.long_times_overflow"
   ],
   "note": "False of the code, which takes a remainder where it should divide: every whole number of milliseconds, zero included, becomes 999999 ms (whole_milliseconds_wrong), other times end too early (one_more_is_too_early), long ones overflow. pwait2_right_iff_partial says exactly for which times the wait is right."
  },
  {
   "property": "C155",
   "status": "partial",
   "theorems": [
    "Verif.Wepoll.Timeout.limits_add_up",
    "Verif.Wepoll.Timeout.never_late",
    "Verif.Wepoll.Timeout.never_early",
    "Verif.Wepoll.Timeout.zero_polls_once",
    "Verif.Wepoll.Timeout.negative_waits_forever",
    "Verif.Wepoll.Timeout.result_is_events",
    "Verif.Wepoll.Timeout.packets_fit",
    "Verif.Wepoll.Timeout.timeout_is_zero_partial",
    "Verif.Wepoll.Timeout.timeout_reported_as_error"
   ],
   "note": "False of the code in one place: a refused poll request found on behalf of another waiting thread overwrites the last error, so that a time-out is reported as -1 (timeout_reported_as_error). The rest is proved."
  },
  {
   "property": "C156",
   "status": "proved",
   "theorems": [
    "Verif.Switch.task_goes_on_sysv",
    "Verif.Switch.switch_writes_registers_only_sysv",
    "Verif.Switch.switch_to_itself_sysv"
   ],
   "note": "The bytes of the code are decoded and executed by a model of the instructions used."
  },
  {
   "property": "C157",
   "status": "partial",
   "theorems": [
    "Verif.Switch.control_bits_of_the_other",
    "Verif.Switch.control_bits_leak",
    "Verif.Switch.control_bits_partial"
   ],
   "note": "False of the code: MXCSR and the x87 control word are not saved (control_bits_leak). They are kept if no task changes them (control_bits_partial)."
  },
  {
   "property": "C158",
   "status": "proved",
   "theorems": [
    "Verif.Switch.task_goes_on_i386",
    "Verif.Switch.switch_writes_registers_only_i386",
    "Verif.Switch.switch_to_itself_i386"
   ],
   "note": "As for C156, with the 32 bit code."
  },
  {
   "property": "C159",
   "status": "proved",
   "theorems": [
    "Verif.Switch.task_goes_on_win64",
    "Verif.Switch.switch_writes_registers_only_win64",
    "Verif.Switch.misaligned_handle_faults"
   ],
   "note": "The handles must be divisible by 16, otherwise the switch faults (misaligned_handle_faults)."
  },
  {
   "property": "C160",
   "status": "proved",
   "theorems": [
    "Verif.Switch.A64.task_goes_on_a64",
    "Verif.Switch.A64.switch_writes_registers_only_a64"
   ],
   "note": "The words of the code are decoded and executed by a model of the instructions used."
  },
  {
   "property": "C161",
   "status": "partial",
   "theorems": [
    "Verif.Switch.A64.task_goes_on_a64_windows_partial",
    "Verif.Switch.A64.windows_overwrites_task",
    "Verif.Switch.A64.windows_task_unrecognised",
    "Verif.Switch.A64.windows_wrong_bounds"
   ],
   "note": "False of the code: 192 bytes are used where the handle has 176 (windows_overwrites_task, windows_task_unrecognised, windows_wrong_bounds). It holds if the 16 bytes after the registers are not used for anything else."
  },
  {
   "property": "C162",
   "status": "proved",
   "theorems": [
    "Verif.Switch.first_switch_sysv",
    "Verif.Switch.first_switch_i386",
    "Verif.Switch.first_switch_win64",
    "Verif.Switch.first_switch_a64",
    "Verif.Switch.stack_room"
   ],
   "note": "The function that starts the task must leave its return address alone; what it does is modelled elsewhere (C28, C33)."
  },
  {
   "property": "C163",
   "status": "partial",
   "theorems": [
    "Verif.Switch.task_done_misaligned",
    "Verif.Switch.task_done_partial"
   ],
   "note": "False of the code on x86: task_done is entered with a stack pointer 8 (12) bytes off (task_done_misaligned). It is entered, with room above (task_done_partial)."
  },
  {
   "property": "C164",
   "status": "proved",
   "theorems": [
    "Verif.Win.basename_last",
    "Verif.Win.basename_unique"
   ],
   "note": "In the \"C\" locale."
  },
  {
   "property": "C165",
   "status": "proved",
   "theorems": [
    "Verif.Win.memmem_first",
    "Verif.Win.memmem_same"
   ],
   "note": "memchr and memcmp as in the standard."
  },
  {
   "property": "C166",
   "status": "partial",
   "theorems": [
    "Verif.Win.dirname_partial",
    "Verif.Win.dirname_drops_drive",
    "Verif.Win.dirname_root_ub"
   ],
   "note": "False of the code: the drive is dropped (dirname_drops_drive) and it reads in front of the buffer (dirname_root_ub). The buffer holds drive and directory (dirname_partial)."
  },
  {
   "property": "C167",
   "status": "partial",
   "theorems": [
    "Verif.Win.pread_partial",
    "Verif.Win.pwrite_partial",
    "Verif.Win.pread_failure_moves",
    "Verif.Win.pread_not_atomic"
   ],
   "note": "False of the code when the transfer fails (pread_failure_moves) and with other users of the descriptor (pread_not_atomic)."
  },
  {
   "property": "C168",
   "status": "partial",
   "theorems": [
    "Verif.Win.sendfile_partial",
    "Verif.Win.sendfile_count",
    "Verif.Win.sendfile_offset_stays",
    "Verif.Win.sendfile_short_write_loses",
    "Verif.Win.sendfile_null"
   ],
   "note": "False of the code: sendfile_offset_stays, sendfile_short_write_loses, sendfile_null. Right bytes if every write is complete (sendfile_partial)."
  },
  {
   "property": "C169",
   "status": "partial",
   "theorems": [
    "Verif.Win.async_open_partial",
    "Verif.Win.async_open_cannot_read",
    "Verif.Win.async_open_rdonly_opens",
    "Verif.Win.async_open_erases",
    "Verif.Win.async_open_trunc_fails",
    "Verif.Win.async_open_excl_truncates"
   ],
   "note": "False of the code for most flags; async_open_partial has the combinations that are right."
  },
  {
   "property": "C170",
   "status": "partial",
   "theorems": [
    "Verif.Win.route_partial",
    "Verif.Win.new_fd_free",
    "Verif.Win.route_outside",
    "Verif.Win.route_write_noloop",
    "Verif.Win.new_fd_stdout"
   ],
   "note": "False of the code: route_outside, route_write_noloop, new_fd_stdout. Numbers inside the table are right (route_partial)."
  },
  {
   "property": "C171",
   "status": "partial",
   "theorems": [
    "Verif.Win.close_partial",
    "Verif.Win.close_socket_leaks",
    "Verif.Win.close_pipe_stays",
    "Verif.Win.close_aborts"
   ],
   "note": "False of the code: close_socket_leaks, close_pipe_stays, close_aborts. Other entries are closed (close_partial)."
  },
  {
   "property": "C172",
   "status": "partial",
   "theorems": [
    "Verif.Win.one_change_partial",
    "Verif.Win.changes_lost",
    "Verif.Win.inotify_next_wrong"
   ],
   "note": "False of the code as soon as a report has two records (changes_lost, inotify_next_wrong)."
  },
  {
   "property": "C173",
   "status": "partial",
   "theorems": [
    "Verif.Win.pump_lengths",
    "Verif.Win.pump_partial",
    "Verif.Win.pump_overwrites"
   ],
   "note": "False of the code when a chunk is read before the last is fetched (pump_overwrites)."
  },
  {
   "property": "C174",
   "status": "partial",
   "theorems": [
    "Verif.Win.child_partial",
    "Verif.Win.second_child_fails"
   ],
   "note": "False of the code: second_child_fails. One child at a time works (child_partial)."
  },
  {
   "property": "C175",
   "status": "proved",
   "theorems": [
    "Verif.Win.socketpair_connected",
    "Verif.Win.socketpair_stranger"
   ],
   "note": "A socket that was connected has a port."
  },
  {
   "property": "C176",
   "status": "partial",
   "theorems": [
    "Verif.Win.socketpair_closes_partial",
    "Verif.Win.socketpair_closes_twice"
   ],
   "note": "False of the code behind the accept (socketpair_closes_twice)."
  },
  {
   "property": "C177",
   "status": "partial",
   "theorems": [
    "Verif.Win.os_pipe_partial",
    "Verif.Win.os_pipe_overruns",
    "Verif.Win.pipe2_wrong_second"
   ],
   "note": "False of the code on 64 bit Windows (os_pipe_overruns, pipe2_wrong_second)."
  },
  {
   "property": "C178",
   "status": "partial",
   "theorems": [
    "Verif.Kq.Update.modified_partial",
    "Verif.Kq.Update.other_is_modified"
   ],
   "note": "Proved for a directory listed in the order in which the files are known. Events of other kinds (a link) are reported as modifications too (other_is_modified)."
  },
  {
   "property": "C179",
   "status": "partial",
   "theorems": [
    "Verif.Kq.Update.removed_partial",
    "Verif.Kq.Update.removed_last_fresh_partial",
    "Verif.Kq.Update.removed_last_missed"
   ],
   "note": "Proved if the files listed before it are unchanged and it is not the last one, or no removal went before. False otherwise (removed_last_missed)."
  },
  {
   "property": "C180",
   "status": "partial",
   "theorems": [
    "Verif.Kq.Update.added_dangling",
    "Verif.Kq.Update.added_last_missed",
    "Verif.Kq.Update.added_then_twice"
   ],
   "note": "False of the code in every case: the name is read after closedir (added_dangling); files listed last are missed (added_last_missed); the next event takes a known file for new (added_then_twice)."
  },
  {
   "property": "C181",
   "status": "partial",
   "theorems": [
    "Verif.Tasks.Count.run_ends_partial",
    "Verif.Tasks.Count.bare_wait_never_right",
    "Verif.Tasks.Count.main_not_resumed"
   ],
   "note": "Proved for programs in which every wait for a group meets a sleeping member. False after any other wait (bare_wait_never_right, main_not_resumed). Operations that queue a queued task again are left out (C56)."
  },
  {
   "property": "C182",
   "status": "partial",
   "theorems": [
    "Verif.Tasks.Count.pool_serves_partial",
    "Verif.Tasks.Count.group_ends_thread",
    "Verif.Tasks.Count.stop_drops"
   ],
   "note": "Proved while no group is posted to the thread. False otherwise: the end of a group lowers the number of tasks once too often and the thread stops (group_ends_thread). A wait with two or more jobs does not end at all (C39)."
  },
  {
   "property": "C183",
   "status": "proved",
   "theorems": [
    "Verif.Pth.Barrier.barrier_groups",
    "Verif.Pth.Barrier.barrier_members",
    "Verif.Pth.Barrier.barrier_one_serial"
   ],
   "note": "The critical section is taken to exclude others; each stay in it is one step."
  },
  {
   "property": "C184",
   "status": "proved",
   "theorems": [
    "Verif.Pth.Barrier.barrier_no_lost_wakeup",
    "Verif.Pth.Barrier.barrier_member_returns",
    "Verif.Pth.Barrier.barrier_destroy_waits"
   ],
   "note": ""
  },
  {
   "property": "C185",
   "status": "partial",
   "theorems": [
    "Verif.Pth.Once.once_exactly",
    "Verif.Pth.Once.once_no_restart",
    "Verif.Pth.Once.once_retries_partial",
    "Verif.Pth.Once.once_exit_hangs"
   ],
   "note": "At most once, and a return only afterwards: proved for all interleavings. That a caller always gets through is false if the routine calls pthread_exit (once_exit_hangs); proved otherwise."
  },
  {
   "property": "C186",
   "status": "partial",
   "theorems": [
    "Verif.Pth.Cancel.cancel_once_partial",
    "Verif.Pth.Cancel.cancel_repeats",
    "Verif.Pth.Cancel.cancel_two_threads",
    "Verif.Pth.Cancel.exit_skips_handlers"
   ],
   "note": "Proved with one cancellation pending. False with more (cancel_repeats, cancel_two_threads) and for pthread_exit (exit_skips_handlers)."
  },
  {
   "property": "C187",
   "status": "partial",
   "theorems": [
    "Verif.Pth.Cancel.disabled_safe_partial",
    "Verif.Pth.Cancel.not_cancelled_lives",
    "Verif.Pth.Cancel.disabled_async_dies"
   ],
   "note": "Proved for the deferred type. False for the asynchronous type (disabled_async_dies)."
  },
  {
   "property": "C188",
   "status": "partial",
   "theorems": [
    "Verif.Pth.Keys.key_fresh",
    "Verif.Pth.Keys.key_create_works_partial",
    "Verif.Pth.Keys.key_delete_works",
    "Verif.Pth.Keys.create_after_failure_faults",
    "Verif.Pth.Keys.delete_past_end"
   ],
   "note": "Keys are distinct in all histories. False: create_after_failure_faults, delete_past_end."
  },
  {
   "property": "C189",
   "status": "partial",
   "theorems": [
    "Verif.Pth.Keys.get_last_set",
    "Verif.Pth.Keys.new_key_null_partial",
    "Verif.Pth.Keys.new_key_stale"
   ],
   "note": "A read gives the last value set under the number, proved for all histories. False for a reused number (new_key_stale)."
  },
  {
   "property": "C190",
   "status": "partial",
   "theorems": [
    "Verif.Pth.Keys.destructors_end",
    "Verif.Pth.Keys.destructors_once",
    "Verif.Pth.Keys.destructor_locks_hangs",
    "Verif.Pth.Keys.destructor_stale"
   ],
   "note": "Proved for destructors that set values of keys in use. False for destructors that make or delete keys (destructor_locks_hangs) and after a number is reused (destructor_stale)."
  },
  {
   "property": "C191",
   "status": "partial",
   "theorems": [
    "Verif.Pth.Life.life_safe_partial",
    "Verif.Pth.Life.join_returns",
    "Verif.Pth.Life.self_detach_early"
   ],
   "note": "Proved for all interleavings in which the thread does not detach itself before its creation has returned. False otherwise (self_detach_early)."
  },
  {
   "property": "C192",
   "status": "partial",
   "theorems": [
    "Verif.Pth.Life.detached_freed_partial",
    "Verif.Pth.Life.leak_stays",
    "Verif.Pth.Life.detach_after_end_leaks",
    "Verif.Pth.Life.detached_race_leaks",
    "Verif.Pth.Life.create_failure_leaks"
   ],
   "note": "Proved if the detaching was complete while the function of the thread was running. False otherwise: detach_after_end_leaks, detached_race_leaks, create_failure_leaks."
  },
  {
   "property": "C193",
   "status": "proved",
   "theorems": [
    "Verif.Pth.Attr.set_ok_iff",
    "Verif.Pth.Attr.attr_reads_last",
    "Verif.Pth.Attr.cancel_settings"
   ],
   "note": ""
  },
  {
   "property": "C194",
   "status": "partial",
   "theorems": [
    "Verif.Pth.Attr.mutexattr_partial",
    "Verif.Pth.Attr.protocols_refused",
    "Verif.Pth.Attr.protocol_spoils",
    "Verif.Pth.Attr.ceiling_negative"
   ],
   "note": "Types, sharings, ceilings below 2^27 proved. False for protocols (protocols_refused, protocol_spoils) and negative ceilings."
  },
  {
   "property": "C195",
   "status": "partial",
   "theorems": [
    "Verif.Pth.Timed.cond_timed_partial",
    "Verif.Pth.Timed.cond_early",
    "Verif.Pth.Timed.cond_forever",
    "Verif.Pth.Timed.cond_before_1970",
    "Verif.Pth.Timed.mutex_timed",
    "Verif.Pth.Timed.rw_timed"
   ],
   "note": "Locks proved. Conditions proved for waits shorter than 2^32-1 ms; false for longer ones (cond_early, cond_forever) and for limits before 1970."
  },
  {
   "property": "C196",
   "status": "proved",
   "theorems": [
    "Verif.Win.Dirent.stream",
    "Verif.Win.Dirent.expect_reads"
   ],
   "note": ""
  },
  {
   "property": "C197",
   "status": "partial",
   "theorems": [
    "Verif.Win.Dirent.pattern_partial",
    "Verif.Win.Dirent.pattern_grown"
   ],
   "note": "Proved if the path still fits at the second call. False otherwise (pattern_grown)."
  },
  {
   "property": "C198",
   "status": "partial",
   "theorems": [
    "Verif.Watch.Walk.watches_all_below_partial",
    "Verif.Watch.Walk.full_path_never_ends"
   ],
   "note": "Proved for trees whose paths are shorter than the buffer. False otherwise (full_path_never_ends)."
  },
  {
   "property": "C199",
   "status": "proved",
   "theorems": [
    "Verif.Rp.aligned_realloc",
    "Verif.Rp.aligned_realloc_reads"
   ],
   "note": ""
  },
  {
   "property": "C200",
   "status": "proved",
   "theorems": [
    "Verif.Rp.Links.lists_refine"
   ],
   "note": ""
  },
  {
   "property": "C201",
   "status": "partial",
   "theorems": [
    "Verif.Rp.Finalize.heaps_given_back_partial",
    "Verif.Rp.Finalize.late_after_restart"
   ],
   "note": "Proved if the allocator is not started again before the later frees. False otherwise (late_after_restart)."
  },
  {
   "property": "C202",
   "status": "partial",
   "theorems": [
    "Verif.Io.Clock.now_forward_partial",
    "Verif.Io.Clock.now_mixes",
    "Verif.Io.Clock.now_windows_partial",
    "Verif.Io.Clock.now_windows_overflows"
   ],
   "note": "Proved on Linux while the monotonic clock works. False on Windows from 2^63/10^9 counts on (now_windows_overflows)."
  },
  {
   "property": "C203",
   "status": "partial",
   "theorems": [
    "Verif.Io.Clock.nsec_exact",
    "Verif.Io.Clock.nsec_windows_partial",
    "Verif.Io.Clock.nsec_windows_2038"
   ],
   "note": "Proved on Linux; on Windows until 2038, false afterwards (nsec_windows_2038)."
  },
  {
   "property": "C204",
   "status": "partial",
   "theorems": [
    "Verif.Sched.Once.actor_in_time_partial",
    "Verif.Sched.Once.no_wait_with_tasks",
    "Verif.Sched.Once.actors_one_per_wait",
    "Verif.Sched.Once.negative_wait_stalls"
   ],
   "note": "Proved: lateness is bounded by the number of actors before it times the length of a round. False as stated: the wait does not look at the actors (actors_one_per_wait, negative_wait_stalls)."
  },
  {
   "property": "C205",
   "status": "proved",
   "theorems": [
    "Verif.Sched.Once.loop_calls_all"
   ],
   "note": "For actors whose callbacks set no further ones; the clock goes on."
  },
  {
   "property": "C206",
   "status": "partial",
   "theorems": [
    "Verif.Sched.Once.running_iff_partial",
    "Verif.Sched.Once.signals_not_counted",
    "Verif.Sched.Once.destroy_stops_others"
   ],
   "note": "Proved while no loop of the thread has been destroyed. False for the result with signals (signals_not_counted) and after destroying another loop (destroy_stops_others)."
  },
  {
   "property": "C207",
   "status": "partial",
   "theorems": [
    "Verif.Win.Waitpid.status_right_partial",
    "Verif.Win.Waitpid.ended_is_reported",
    "Verif.Win.Waitpid.never_the_pid",
    "Verif.Win.Waitpid.child_gives_own_id",
    "Verif.Win.Waitpid.strangers_are_waited_for"
   ],
   "note": "Proved for the status. False for the value returned (never_the_pid, child_gives_own_id) and for processes that are no children (strangers_are_waited_for)."
  },
  {
   "property": "C208",
   "status": "partial",
   "theorems": [
    "Verif.Win.Waitpid.handles_kept_partial",
    "Verif.Win.Waitpid.polling_leaks"
   ],
   "note": "Proved for calls that report or fail. False while the process runs (polling_leaks)."
  },
  {
   "property": "C209",
   "status": "partial",
   "theorems": [
    "Verif.Win.Waitpid.wait_returns_partial",
    "Verif.Win.Waitpid.wait_first_child_only"
   ],
   "note": "Proved for ECHILD and when all children end. False with several children (wait_first_child_only)."
  },
  {
   "property": "C210",
   "status": "partial",
   "theorems": [
    "Verif.Win.Monitor.watching_one_closes_partial",
    "Verif.Win.Monitor.watching_uses_up_table",
    "Verif.Win.Monitor.watching_leaves_handles"
   ],
   "note": "Proved for the handle of a single directory. False for the descriptors (watching_uses_up_table) and for the handles of several directories (watching_leaves_handles)."
  },
  {
   "property": "C211",
   "status": "partial",
   "theorems": [
    "Verif.Win.Monitor.close_keeps_others_partial",
    "Verif.Win.Monitor.idle_close_closes_port"
   ],
   "note": "Proved for monitors to which a directory was added. False for the others (idle_close_closes_port)."
  },
  {
   "property": "C212",
   "status": "partial",
   "theorems": [
    "Verif.Win.Monitor.open_close_leaves_event_partial",
    "Verif.Win.Monitor.open_close_goes_on"
   ],
   "note": "Proved for the table and the handle. False for the event objects (same theorem: one more after each round)."
  },
  {
   "property": "C213",
   "status": "partial",
   "theorems": [
    "Verif.Win.TlsKeys.destructors_partial",
    "Verif.Win.TlsKeys.freed_key_destroys_twice",
    "Verif.Win.TlsKeys.library_destroys_nothing"
   ],
   "note": "Proved for the allocator's copy of the code while no key is freed. False when keys are freed (freed_key_destroys_twice) and for the library's own copy (library_destroys_nothing)."
  },
  {
   "property": "C214",
   "status": "partial",
   "theorems": [
    "Verif.Win.TlsKeys.plain_keys_partial",
    "Verif.Win.TlsKeys.keys_run_out"
   ],
   "note": "Proved for keys without a destructor. False for keys with one (keys_run_out)."
  },
  {
   "property": "C215",
   "status": "partial",
   "theorems": [
    "Verif.Switch.Stack.stack_in_block_partial",
    "Verif.Switch.Stack.ucontext_overlaps",
    "Verif.Switch.Stack.sjlj_overlaps"
   ],
   "note": "Proved: the stack is inside the block, and a task that uses correspondingly less leaves its record alone. False as stated, for every size (ucontext_overlaps, sjlj_overlaps)."
  },
  {
   "property": "C216",
   "status": "partial",
   "theorems": [
    "Verif.Switch.Stack.check_right_partial",
    "Verif.Switch.Stack.check_overflows",
    "Verif.Switch.Stack.check_negative"
   ],
   "note": "Proved for n from 0 to 2^31 - 257. False above (check_overflows); check_negative shows what negative numbers do."
  },
  {
   "property": "C217",
   "status": "partial",
   "theorems": [
    "Verif.Switch.Frames.udp_recv_fits_partial",
    "Verif.Switch.Frames.udp_recv_destroys"
   ],
   "note": "Proved for tasks with a stack large enough, the main task among them. False for the tasks of all other kinds (udp_recv_destroys)."
  },
  {
   "property": "C218",
   "status": "partial",
   "theorems": [
    "Verif.Switch.SigTasks.one_at_a_time_partial",
    "Verif.Switch.SigTasks.one_thread_partial",
    "Verif.Switch.SigTasks.two_threads_end_program",
    "Verif.Switch.SigTasks.two_threads_lose_context",
    "Verif.Switch.SigTasks.two_threads_lose_handler"
   ],
   "note": "Proved when no two threads make tasks at once. False otherwise, in three ways (the two_threads theorems), for all pairs of threads."
  },
  {
   "property": "C219",
   "status": "partial",
   "theorems": [
    "Verif.Rp.own_block_freed_partial",
    "Verif.Rp.windows_frees_nothing",
    "Verif.Rp.windows_memory_grows"
   ],
   "note": "Proved where long is as wide as a pointer. False on 64 bit Windows (windows_frees_nothing, windows_memory_grows)."
  },
  {
   "property": "C220",
   "status": "partial",
   "theorems": [
    "Verif.Rp.printf_returns_partial",
    "Verif.Rp.printf_empty",
    "Verif.Rp.printf_foreign"
   ],
   "note": "Proved: non-empty text is returned. False: empty text (printf_empty), and freeing (printf_foreign), for every address and memory."
  },
  {
   "property": "C221",
   "status": "partial",
   "theorems": [
    "Verif.Tls.Bind.name_kept_partial",
    "Verif.Tls.Bind.name_replaced",
    "Verif.Tls.Bind.address_replaced_iff"
   ],
   "note": "Proved for hosts which are not a piece of the list. False for those that are (name_replaced); address_replaced_iff says exactly which addresses."
  },
  {
   "property": "C222",
   "status": "partial",
   "theorems": [
    "Verif.Tls.Bind.bind_ok_partial",
    "Verif.Tls.Bind.dial_ok_partial",
    "Verif.Tls.Bind.bind_leaves_open",
    "Verif.Tls.Bind.dial_leaves_open",
    "Verif.Tls.Bind.no_configuration_ub"
   ],
   "note": "Proved for success and the other failures. False if certificates cannot be read (bind_leaves_open, dial_leaves_open) or memory runs out (no_configuration_ub)."
  },
  {
   "property": "C223",
   "status": "partial",
   "theorems": [
    "Verif.Tasks.Place.good_places_partial",
    "Verif.Tasks.Place.usable_32",
    "Verif.Tasks.Place.usable_64",
    "Verif.Tasks.Place.upper_half_32",
    "Verif.Tasks.Place.lowest_part"
   ],
   "note": "Proved for addresses between 2^29 and half of the address space. False elsewhere (upper_half_32, lowest_part)."
  },
  {
   "property": "C224",
   "status": "partial",
   "theorems": [
    "Verif.Uri.parseEx_parseUri",
    "Verif.Uri.known_scheme_freed_partial",
    "Verif.Uri.unknown_scheme_leaks",
    "Verif.Uri.rejected_leaks"
   ],
   "note": "Proved for known schemes. False for others (unknown_scheme_leaks) and for rejected texts (rejected_leaks)."
  },
  {
   "property": "C225",
   "status": "partial",
   "theorems": [
    "Verif.Io.PseudoRace.entries_distinct_partial",
    "Verif.Io.PseudoRace.own_numbers_distinct_partial",
    "Verif.Io.PseudoRace.own_numbers_kept",
    "Verif.Io.PseudoRace.old_name_gone_partial",
    "Verif.Io.PseudoRace.threads_get_same_entry",
    "Verif.Io.PseudoRace.lock_waits_for_no_thread",
    "Verif.Io.PseudoRace.fifo_name_lost"
   ],
   "note": "False of the code: record locks belong to the process, so acquire_lock keeps no thread out; for every state and two calls that would get the same entry alone there is a schedule in which both get it.  Proved: entries are distinct while no two threads are between choosing and marking, and under every schedule if every call is made for a number of its own within the table."
  },
  {
   "property": "C226",
   "status": "partial",
   "theorems": [
    "Verif.Win.EnvBlock.environment_exact_partial",
    "Verif.Win.EnvBlock.separated_even_exact",
    "Verif.Win.EnvBlock.separated_odd_reads_on",
    "Verif.Win.EnvBlock.empty_assignment_ends",
    "Verif.Win.EnvBlock.single_assignment_dropped"
   ],
   "note": "False of the code for the documented form without a semicolon at the end: with an odd number of bytes the block has no terminating empty string and is read past its end.  Exact with a semicolon after every assignment, or with an even number of bytes."
  },
  {
   "property": "C227",
   "status": "partial",
   "theorems": [
    "Verif.Win.CmdLine.arguments_are_words",
    "Verif.Win.CmdLine.arguments_exact_partial",
    "Verif.Win.CmdLine.null_arguments",
    "Verif.Win.CmdLine.argument_with_space_split",
    "Verif.Win.CmdLine.empty_argument_lost",
    "Verif.Win.CmdLine.name_with_space_shifts",
    "Verif.Win.CmdLine.name_with_exe_inside",
    "Verif.Win.CmdLine.long_name_cut"
   ],
   "note": "False of the code for names and arguments that are not single words.  Proved for all arguments without quotation marks: each arrives cut into its words behind the words of the name."
  },
  {
   "property": "C228",
   "status": "partial",
   "theorems": [
    "Verif.Win.ExecWait.wait_reports_end_partial",
    "Verif.Win.ExecWait.wait_keeps_others_partial",
    "Verif.Win.ExecWait.second_wait_fails",
    "Verif.Win.ExecWait.second_wait_takes_other",
    "Verif.Win.ExecWait.wait_releases_no_entry",
    "Verif.Win.ExecWait.process_256_ub",
    "Verif.Win.ExecWait.start_safe_partial"
   ],
   "note": "False of the code: a second wait uses the closed handle and may take another process; table entries are never given back, so that the 256th process is undefined behaviour.  Proved while no end is waited for twice."
  },
  {
   "property": "C229",
   "status": "partial",
   "theorems": [
    "Verif.Win.Fifo.pipes_by_name_partial",
    "Verif.Win.Fifo.mkfifo_open_partial",
    "Verif.Win.Fifo.second_open_closes_first",
    "Verif.Win.Fifo.reopen_closes_other"
   ],
   "note": "False of the code: a second open of a pipe fails and closes the handle of the first (second_open_closes_first); after closing, open of the name closes whatever has the handle number now (reopen_closes_other). Proved for histories without these."
  },
  {
   "property": "C230",
   "status": "partial",
   "theorems": [
    "Verif.Future.Defer.pool_defers_never_run",
    "Verif.Future.Defer.pool_fences_run_partial",
    "Verif.Future.Defer.pool_runs_iff"
   ],
   "note": "False of the code: defer in a job goes to the list of the record for no task, which nothing empties (pool_defers_never_run); the exact condition under which a pool thread comes through is pool_runs_iff."
  },
  {
   "property": "C231",
   "status": "partial",
   "theorems": [
    "Verif.Future.Defer.exit_runs_partial",
    "Verif.Future.Defer.exit_runs_all_partial",
    "Verif.Future.Defer.exit_forgets_defers",
    "Verif.Future.Defer.after_exit_scope_ub",
    "Verif.Future.Defer.exit_elsewhere",
    "Verif.Future.Defer.exit_by_other"
   ],
   "note": "Proved for programs that do not use the event library and do not call exit_scope; for others exactly what is called is given. False otherwise (exit_forgets_defers, after_exit_scope_ub, exit_elsewhere, exit_by_other)."
  },
  {
   "property": "C232",
   "status": "partial",
   "theorems": [
    "Verif.Io.SigRace.delivered_once_partial",
    "Verif.Io.SigRace.one_by_one_partial",
    "Verif.Io.SigRace.two_signals_end_the_process",
    "Verif.Io.SigRace.adding_mixes_masks",
    "Verif.Io.SigRace.lost_while_adding",
    "Verif.Io.SigRace.not_interrupted_partial",
    "Verif.Io.SigRace.own_signal_waits_partial",
    "Verif.Io.SigRace.after_the_callback_ends_the_process"
   ],
   "note": "False of the code: a signal that arrives in another thread between installing the handler and storing the callback is lost (lost_while_adding); a second signal during a handler ends the process (two_signals_end_the_process, for all threads, signals and masks), and adding signals in two threads at once mixes their masks (adding_mixes_masks). Proved: in every schedule no arrival is delivered twice or as another signal, and all are delivered if the handlers return; signals one after the other are all delivered in order and leave the masks alone."
  },
  {
   "property": "C233",
   "status": "partial",
   "theorems": [
    "Verif.Sched.Callback.quiet_callbacks_partial",
    "Verif.Sched.Callback.callback_yield_breaks",
    "Verif.Sched.Callback.callback_wait_breaks",
    "Verif.Sched.Callback.callback_yield_resumes_last",
    "Verif.Sched.Callback.callback_yield_after_end"
   ],
   "note": "False of the code for callbacks that use functions for tasks: yield, delay and async_wait in a callback always break the scheduler (callback_yield_breaks, callback_wait_breaks: for every good state, every task and every continuation). Proved for all other callbacks."
  },
  {
   "property": "C234",
   "status": "partial",
   "theorems": [
    "Verif.Sched.Callback.task_defers_partial",
    "Verif.Sched.Callback.callback_defer_waits"
   ],
   "note": "False of the code: what a callback defers is called when the task run next ends (callback_defer_waits, for every history). Proved: all that was deferred in the rounds of a task is called when it ends, the last first."
  },
  {
   "property": "C235",
   "status": "partial",
   "theorems": [
    "Verif.Win.Atomics.right_size_partial",
    "Verif.Win.Atomics.cells_independent_partial",
    "Verif.Win.Atomics.four_byte_store_overwrites",
    "Verif.Win.Atomics.four_byte_add_carries",
    "Verif.Win.Atomics.four_byte_sub_borrows",
    "Verif.Win.Atomics.four_byte_load",
    "Verif.Win.Atomics.four_byte_cas_fails"
   ],
   "note": "True for objects of the size the operation was written for; false of the code for smaller objects, shown for every address and every memory. The library itself only uses the plain operations on size_t objects (src/events_internal.h 152, 166, 277-286)."
  },
  {
   "property": "C236",
   "status": "partial",
   "theorems": [
    "Verif.Tls.Keys.pkey_write_says",
    "Verif.Tls.Keys.export_makes_pair",
    "Verif.Tls.Keys.failed_export_partial",
    "Verif.Tls.Keys.failed_export_breaks_pair",
    "Verif.Tls.Keys.export_ignores_given"
   ],
   "note": "What true means is proved; that a failed export leaves the files alone, and that the given key is used, are false of the code and refuted for all states."
  },
  {
   "property": "C237",
   "status": "partial",
   "theorems": [
    "Verif.Tls.Keys.export_frees_once_partial",
    "Verif.Tls.Keys.rsa_pkey_owns_partial",
    "Verif.Tls.Keys.keygen_failure_frees_twice",
    "Verif.Tls.Keys.lost_key_stays"
   ],
   "note": "False of the code in the two cases that are shown; the behaviour of EVP_PKEY_keygen on failure is a parameter of the model."
  },
  {
   "property": "C238",
   "status": "partial",
   "theorems": [
    "Verif.Tls.Errors.silent_without_error",
    "Verif.Tls.Errors.two_errors_partial",
    "Verif.Tls.Errors.one_error_prints_zero",
    "Verif.Tls.Errors.cause_not_printed",
    "Verif.Tls.Errors.stale_error_printed",
    "Verif.Tls.Errors.printed_in_order"
   ],
   "note": "False of the code: the second error in the queue is printed, not the first."
  },
  {
   "property": "C239",
   "status": "partial",
   "theorems": [
    "Verif.Except.Terminate.terminate_once",
    "Verif.Except.Terminate.ctrl_once_partial",
    "Verif.Except.Terminate.old_ctrl_c_counts",
    "Verif.Except.Terminate.ctrl_twice"
   ],
   "note": "The half about the end of the program is proved in full; the half about Ctrl-C is false of the code (got_ctrl_c is not cleared when the exception is caught): old_ctrl_c_counts and ctrl_twice are the negations, ctrl_once_partial is what holds."
  },
  {
   "property": "C240",
   "status": "partial",
   "theorems": [
    "Verif.Except.Terminate.run_total",
    "Verif.Except.Terminate.normal_exit_partial",
    "Verif.Except.Terminate.caught_signal_loses_output",
    "Verif.Except.Terminate.names_exception_partial",
    "Verif.Except.Terminate.unwinding_unnamed"
   ],
   "note": "False of the code: got_signal is never cleared (ex_flags_reset has no caller), and ex_throw during unwinding ends the program before the exception is written down.  The partial theorems exclude just these cases."
  },
  {
   "property": "C241",
   "status": "partial",
   "theorems": [
    "Verif.Win.WsaErr.same_errno_partial",
    "Verif.Win.WsaErr.other_errno",
    "Verif.Win.WsaErr.again_iff",
    "Verif.Win.WsaErr.busy_then_result_partial",
    "Verif.Win.WsaErr.first_result",
    "Verif.Win.WsaErr.limit_never_reported",
    "Verif.Win.WsaErr.reported_at_once"
   ],
   "note": "False of the code for the limits and three other codes (limit_never_reported, other_errno); proved for all other codes."
  },
  {
   "property": "C242",
   "status": "partial",
   "theorems": [
    "Verif.Tls.Text.text_exact_partial",
    "Verif.Tls.Text.garbage_follows",
    "Verif.Tls.Text.reads_beyond",
    "Verif.Tls.Text.no_text"
   ],
   "note": "False of the code: str_dup needs a NUL that the memory BIO does not have (garbage_follows, reads_beyond); exact if the next byte happens to be zero."
  },
  {
   "property": "C243",
   "status": "partial",
   "theorems": [
    "Verif.Io.Fifo.others_left_alone_partial",
    "Verif.Io.Fifo.made_then_opened_partial",
    "Verif.Io.Fifo.failed_mkfifo_hides",
    "Verif.Io.Fifo.full_table_opens_other",
    "Verif.Io.Fifo.long_names_clash",
    "Verif.Io.Fifo.absolute_not_honoured"
   ],
   "note": "False of the code after a failed mkfifo, with a full table and for long names (failed_mkfifo_hides, full_table_opens_other, long_names_clash); proved for any number of short names with room in the table."
  },
  {
   "property": "C244",
   "status": "partial",
   "theorems": [
    "Verif.Tls.CloseRace.own_object_partial",
    "Verif.Tls.CloseRace.single_thread",
    "Verif.Tls.CloseRace.continues_in_clear_text",
    "Verif.Tls.CloseRace.clear_takes_away",
    "Verif.Tls.CloseRace.freed_twice",
    "Verif.Tls.CloseRace.dropped_object_used"
   ],
   "note": "False of the code with several threads: the field is emptied after the descriptor was closed, so a connection accepted under the number in between goes on in clear text or through a freed object (continues_in_clear_text, freed_twice); proved for every program in one thread and for every interleaving without such a reuse."
  },
  {
   "property": "C245",
   "status": "partial",
   "theorems": [
    "Verif.Io.Handlers.own_connection_partial",
    "Verif.Io.Handlers.closes_itself_partial",
    "Verif.Io.Handlers.closes_other",
    "Verif.Io.Handlers.writes_to_other",
    "Verif.Io.Handlers.zero_stays_open"
   ],
   "note": "False of the code for handler functions that close the connection themselves and go on (closes_other, writes_to_other) and for descriptor 0 (zero_stays_open); proved for all schedules of functions that do not close."
  },
  {
   "property": "C246",
   "status": "partial",
   "theorems": [
    "Verif.Kq.Monitor.poll_works_partial",
    "Verif.Kq.Monitor.stop_ends_the_loop",
    "Verif.Kq.Monitor.last_removed_ends_the_loop",
    "Verif.Kq.Monitor.destroy_closes_file",
    "Verif.Kq.Monitor.stop_closes_every_second"
   ],
   "note": "False of the code: the monitor has the descriptor of the loop itself, which is closed with it (stop_ends_the_loop, last_removed_ends_the_loop, destroy_closes_file), and only every second directory is closed (stop_closes_every_second); proved while some directory is watched."
  },
  {
   "property": "C247",
   "status": "partial",
   "theorems": [
    "Verif.Kq.SyncRead.large_buffer_partial",
    "Verif.Kq.SyncRead.single_change_partial",
    "Verif.Kq.SyncRead.returns_records",
    "Verif.Kq.SyncRead.any_buffer_overrun",
    "Verif.Kq.SyncRead.others_lost"
   ],
   "note": "False of the code: the read ignores the length of the buffer, so for every length there is a set of directories whose changes overrun it, and of several changes only the first is seen. Proved: nothing is overrun or lost by the read when the buffer has room for all watched directories, and a single change is reported."
  },
  {
   "property": "C248",
   "status": "partial",
   "theorems": [
    "Verif.Win.Signals.called_once_partial",
    "Verif.Win.Signals.callbacks_exclude",
    "Verif.Win.Signals.one_by_one_partial",
    "Verif.Win.Signals.again_too_early",
    "Verif.Win.Signals.again_later",
    "Verif.Win.Signals.second_during_callback"
   ],
   "note": "False of the code: in every schedule a signal that arrives again before its handler has installed itself again ends the process, and a signal that arrives during a callback ends it with exit(1) or is delivered, depending on which thread goes on first. Proved for all schedules: no arrival is delivered twice, handlers that ended have delivered, callbacks exclude each other; signals one after the other are all delivered."
  },
  {
   "property": "C249",
   "status": "partial",
   "theorems": [
    "Verif.Except.Seh.follows_spec_partial",
    "Verif.Except.Seh.throw_in_catch_block",
    "Verif.Except.Seh.pointer_to_ended_statement",
    "Verif.Except.Seh.hardware_not_caught",
    "Verif.Except.Seh.hardware_any_partial",
    "Verif.Except.Seh.other_codes_misnamed"
   ],
   "note": "False of the code: an exception thrown in a catch block is lost (it is stored in the record of the inner statement), catch(E) never catches an exception of the processor or the system, and codes that are not in the table are named as access violations. Proved: all programs in which no catch block is left by an exception and only throw throws do what is usual; catch_any catches the codes of the table under their names."
  },
  {
   "property": "C250",
   "status": "partial",
   "theorems": [
    "Verif.Io.FdType.unix_kind_partial",
    "Verif.Io.FdType.unix_not_open",
    "Verif.Io.FdType.windows_always_unknown",
    "Verif.Io.FdType.tests_right_partial",
    "Verif.Io.FdType.other_attributes_unknown"
   ],
   "note": "Proved on unix for all modes. False on Windows: the address of the parameter is used as handle, so every descriptor is of unknown kind; and with the right handle files with other attributes than the three tested would be unknown too."
  },
  {
   "property": "C251",
   "status": "partial",
   "theorems": [
    "Verif.Future.Affinity.windows_bound_partial",
    "Verif.Future.Affinity.far_processors",
    "Verif.Future.Affinity.mac_only_first_partial",
    "Verif.Future.Affinity.mac_sets_confused",
    "Verif.Future.Affinity.mac_empty_mask"
   ],
   "note": "Windows: exact for processors below 64. False beyond, and on macOS, where only the smallest processor counts and failures are hidden. Linux and BSD use the C library."
  },
  {
   "property": "C252",
   "status": "partial",
   "theorems": [
    "Verif.Win.Watches.next_call",
    "Verif.Win.Watches.calm_records_partial",
    "Verif.Win.Watches.single_directory_partial",
    "Verif.Win.Watches.two_directories_mixed",
    "Verif.Win.Watches.wrong_directory_told"
   ],
   "note": "False of the code with two directories: one buffer and one name for all. Holds with one directory; the records hold when every change is handled before the next."
  },
  {
   "property": "C253",
   "status": "partial",
   "theorems": [
    "Verif.Win.Grow.no_growth_partial",
    "Verif.Win.Grow.growth_idle_partial",
    "Verif.Win.Grow.growth_pending",
    "Verif.Win.Grow.growth_fails"
   ],
   "note": "False of the code when the table grows during an operation, or when there is no memory. Holds without growth; growth is harmless when no operation goes on."
  },
  {
   "property": "C254",
   "status": "partial",
   "theorems": [
    "Verif.Win.Dispatch.nothing_lost_partial",
    "Verif.Win.Dispatch.arrived_passed_partial",
    "Verif.Win.Dispatch.signal_loses",
    "Verif.Win.Dispatch.flag_stays",
    "Verif.Win.Dispatch.wait_unbounded",
    "Verif.Win.Dispatch.no_wait_partial",
    "Verif.Win.Dispatch.wait_thousandth"
   ],
   "note": "False of the code: a signal costs the next end of an operation; the wait has no bound; seconds are taken for milliseconds."
  },
  {
   "property": "C255",
   "status": "partial",
   "theorems": [
    "Verif.Future.ThreadLocal.first_call_alone_partial",
    "Verif.Future.ThreadLocal.two_keys",
    "Verif.Future.ThreadLocal.other_variable",
    "Verif.Future.ThreadLocal.null_pointer"
   ],
   "note": "False of the code when two threads make the first call at the same time; holds for all schedules after a first call that was alone."
  },
  {
   "property": "C256",
   "status": "partial",
   "theorems": [
    "Verif.Win.Shutdown.no_directories_partial",
    "Verif.Win.Shutdown.closes_addresses",
    "Verif.Win.Shutdown.addresses_confused",
    "Verif.Win.Shutdown.close_outside",
    "Verif.Win.Shutdown.close_others_partial"
   ],
   "note": "False of the code: addresses are taken for descriptors, and the table is read before it is made and after it is freed. Proved: which numbers are closed, and the cases that are right."
  },
  {
   "property": "C257",
   "status": "partial",
   "theorems": [
    "Verif.Io.Fprintf.stored_partial",
    "Verif.Io.Fprintf.counted_but_lost",
    "Verif.Io.Fprintf.failure_not_told",
    "Verif.Io.Fprintf.append_keeps"
   ],
   "note": "False of the code when the disk is full or the file does not open; holds otherwise."
  },
  {
   "property": "C258",
   "status": "partial",
   "theorems": [
    "Verif.Io.HostByName.own_address_partial",
    "Verif.Io.HostByName.other_host",
    "Verif.Io.HostByName.other_text",
    "Verif.Io.HostByName.not_found"
   ],
   "note": "False of the code when lookups of several tasks overlap, and for unknown hosts; holds for all schedules without the named overlaps."
  },
  {
   "property": "C259",
   "status": "partial",
   "theorems": [
    "Verif.Win.Loops.passed_once_partial",
    "Verif.Win.Loops.one_loop_partial",
    "Verif.Win.Loops.other_thread",
    "Verif.Win.Loops.after_removal",
    "Verif.Win.Loops.not_after_removal_partial",
    "Verif.Win.Loops.removed_twice",
    "Verif.Win.Loops.never_added_partial"
   ],
   "note": "False of the code with two loops, after removal, and for a second removal; proved for one loop, and that nothing is passed on twice in any schedule."
  },
  {
   "property": "C260",
   "status": "partial",
   "theorems": [
    "Verif.Win.StdHandles.std_given_partial",
    "Verif.Win.StdHandles.detached_ignores",
    "Verif.Win.StdHandles.holds_iff",
    "Verif.Win.StdHandles.holds_of_others",
    "Verif.Win.StdHandles.holds_own_partial"
   ],
   "note": "Standard handles proved for programs that are not detached; exactly which handles a program holds is given for every history (holds_iff). False of the code: detached programs (detached_ignores) and handles given to earlier programs (holds_of_others)."
  },
  {
   "property": "C261",
   "status": "partial",
   "theorems": [
    "Verif.Win.ExecRace.own_program_partial",
    "Verif.Win.ExecRace.other_program",
    "Verif.Win.ExecRace.other_program_own_arguments",
    "Verif.Win.ExecRace.named_program"
   ],
   "note": "Proved if no two threads are inside exec at the same time; false otherwise, for every state and every two programs (other_program, other_program_own_arguments): the name is in one static buffer."
  },
  {
   "property": "C262",
   "status": "partial",
   "theorems": [
    "Verif.Except.Scratch.text_kept_partial",
    "Verif.Except.Scratch.itoa_ok_iff",
    "Verif.Except.Scratch.no_fault_partial",
    "Verif.Except.Scratch.other_task_overwrites",
    "Verif.Except.Scratch.one_buffer",
    "Verif.Except.Scratch.gone_after_guard",
    "Verif.Except.Scratch.gone_after_guard_of_other",
    "Verif.Except.Scratch.strerror_into_freed"
   ],
   "note": "Proved: the text stays while no task asks for another and no guard section is left; no undefined behaviour if one task only uses guard sections and a scope was made. False otherwise (other_task_overwrites, one_buffer, gone_after_guard, gone_after_guard_of_other, strerror_into_freed; itoa_ok_iff says when str_itoa is defined)."
  },
  {
   "property": "C263",
   "status": "partial",
   "theorems": [
    "Verif.Tls.Machine.names_partial",
    "Verif.Tls.Machine.fits_linux",
    "Verif.Tls.Machine.long_host",
    "Verif.Tls.Machine.long_uname",
    "Verif.Tls.Machine.renamed",
    "Verif.Tls.Machine.failed_uname",
    "Verif.Tls.Machine.sysname_empty",
    "Verif.Tls.Machine.beginning_seen",
    "Verif.Tls.Machine.whole_seen_partial",
    "Verif.Tls.Machine.part_seen"
   ],
   "note": "False of the code for long names (long_host, long_uname), changed names (renamed) and several threads (part_seen, sysname_empty). names_partial, fits_linux, beginning_seen and whole_seen_partial state what holds."
  },
  {
   "property": "C264",
   "status": "partial",
   "theorems": [
    "Verif.Wepoll.BaseSocket.found_iff",
    "Verif.Wepoll.BaseSocket.error_iff",
    "Verif.Wepoll.BaseSocket.returns_partial",
    "Verif.Wepoll.BaseSocket.never"
   ],
   "note": "found_iff and error_iff say exactly what is returned. Returning always is false of the code (never); returns_partial states when it holds."
  },
  {
   "property": "C265",
   "status": "partial",
   "theorems": [
    "Verif.Tls.Eof.answer_partial",
    "Verif.Tls.Eof.plain_keeps",
    "Verif.Tls.Eof.waits_iff",
    "Verif.Tls.Eof.empty_message",
    "Verif.Tls.Eof.old_error_hides",
    "Verif.Tls.Eof.old_error_tells",
    "Verif.Tls.Eof.told_after"
   ],
   "note": "False of the code (empty_message, waits_iff, old_error_hides, old_error_tells); answer_partial states when the answer is right. What tls_read of no bytes answers is left open."
  },
  {
   "property": "C266",
   "status": "partial",
   "theorems": [
    "Verif.Win.Uname.ends_iff",
    "Verif.Win.Uname.written_partial",
    "Verif.Win.Uname.version_left",
    "Verif.Win.Uname.description_given",
    "Verif.Win.Uname.intel_name",
    "Verif.Win.Uname.machine_tells"
   ],
   "note": "False of the code (version_left, ends_iff, intel_name); written_partial and description_given state what holds."
  },
  {
   "property": "C267",
   "status": "partial",
   "theorems": [
    "Verif.Future.Spread.even_partial",
    "Verif.Future.Spread.turn",
    "Verif.Future.Spread.one_worker",
    "Verif.Future.Spread.not_even",
    "Verif.Future.Spread.all_given"
   ],
   "note": "False of the code for calls of several threads at the same time (one_worker, not_even). even_partial and turn: calls one after the other. The counter is a natural number; all workers are running."
  },
  {
   "property": "C268",
   "status": "partial",
   "theorems": [
    "Verif.Fd.UserData.attached_partial",
    "Verif.Fd.UserData.other_thread",
    "Verif.Fd.UserData.old_data",
    "Verif.Fd.UserData.behind_iff"
   ],
   "note": "False of the code (other_thread, old_data, behind_iff); attached_partial states when it holds."
  },
  {
   "property": "C269",
   "status": "proved",
   "theorems": [
    "Verif.Wepoll.Init.ready",
    "Verif.Wepoll.Init.at_most",
    "Verif.Wepoll.Init.again",
    "Verif.Wepoll.Init.retried",
    "Verif.Wepoll.Init.fails_own"
   ],
   "note": "InitOnceExecuteOnce is taken to let one thread in at a time and the next one in after a failure. again: Winsock is started once for every failed attempt."
  },
  {
   "property": "C270",
   "status": "partial",
   "theorems": [
    "Verif.Wepoll.Errors.errno_iff",
    "Verif.Wepoll.Errors.ctl_partial",
    "Verif.Wepoll.Errors.succeeds_iff",
    "Verif.Wepoll.Errors.closed_succeeds",
    "Verif.Wepoll.Errors.not_socket",
    "Verif.Wepoll.Errors.wait_errors",
    "Verif.Wepoll.Errors.create_refused"
   ],
   "note": "False of the code (closed_succeeds, not_socket, create_refused for flags). ctl_partial: the code is right whenever epoll_ctl fails; succeeds_iff with open handles."
  },
  {
   "property": "C271",
   "status": "partial",
   "theorems": [
    "Verif.Tls.Trust.files_first",
    "Verif.Tls.Trust.one_file",
    "Verif.Tls.Trust.chosen_partial",
    "Verif.Tls.Trust.default_partial",
    "Verif.Tls.Trust.late_choice",
    "Verif.Tls.Trust.second_choice",
    "Verif.Tls.Trust.empty_choice",
    "Verif.Tls.Trust.long_choice"
   ],
   "note": "False of the code (late_choice, second_choice, empty_choice, long_choice). files_first says exactly which file is trusted; chosen_partial and default_partial state when it is the one meant."
  },
  {
   "property": "C272",
   "status": "partial",
   "theorems": [
    "Verif.Rp.posix_partial",
    "Verif.Rp.posix_result",
    "Verif.Rp.posix_small",
    "Verif.Rp.posix_large",
    "Verif.Rp.posix_wraps",
    "Verif.Rp.calloc_aligned_partial",
    "Verif.Rp.calloc_aligned_wraps",
    "Verif.Rp.calloc_overrun"
   ],
   "note": "False of the code (posix_small, posix_large, posix_wraps, calloc_aligned_wraps, calloc_overrun); posix_partial and calloc_aligned_partial state what holds."
  },
  {
   "property": "C273",
   "status": "partial",
   "theorems": [
    "Verif.Fd.Blocking.nonblocking_only",
    "Verif.Fd.Blocking.blocking_only",
    "Verif.Fd.Blocking.not_open",
    "Verif.Fd.Blocking.others_partial",
    "Verif.Fd.Blocking.restore_iff",
    "Verif.Fd.Blocking.shared",
    "Verif.Fd.Blocking.lost"
   ],
   "note": "False of the code for descriptors sharing an open file (shared) and for flags changed meanwhile (lost); the other theorems state what holds. The Windows branch is not modelled."
  },
  {
   "property": "C274",
   "status": "partial",
   "theorems": [
    "Verif.Proc.SpawnPipes.child_nonblocking",
    "Verif.Proc.SpawnPipes.child_told_again",
    "Verif.Proc.SpawnPipes.errors_inherited",
    "Verif.Proc.SpawnPipes.failed_leaves",
    "Verif.Proc.SpawnPipes.fails_iff_partial"
   ],
   "note": "False of the code (child_nonblocking, child_told_again, errors_inherited, failed_leaves); fails_iff_partial states what holds."
  },
  {
   "property": "C275",
   "status": "partial",
   "theorems": [
    "Verif.Proc.InputEnd.eof_iff",
    "Verif.Proc.InputEnd.eof_partial",
    "Verif.Proc.InputEnd.no_eof",
    "Verif.Proc.InputEnd.waits_for_other",
    "Verif.Proc.InputEnd.errs_left"
   ],
   "note": "eof_iff says exactly when the end is found. False of the code with overlapping programs (no_eof, waits_for_other) and for pipes of errors (errs_left); eof_partial states what holds."
  }
 ]
}