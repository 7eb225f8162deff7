{
 "claims": [
  {
   "property": "C01",
   "status": "proved",
   "theorems": [
    "Spine.C01_ring_is_bounded_fifo",
    "Spine.C01_ring_order",
    "Spine.C01_capacity_zero"
   ],
   "note": "Refinement of RingBuffer to a bounded queue for all histories without drops (with drops: C04). capacity 0 is undefined behaviour in release and a failed assertion in debug."
  },
  {
   "property": "C02",
   "status": "proved",
   "theorems": [
    "Spine.C02_ring_space",
    "Spine.C02_ring_readable"
   ],
   "note": "All reachable states, drops included."
  },
  {
   "property": "C03",
   "status": "proved",
   "theorems": [
    "Spine.C03_ring_rollover_keeps_newest",
    "Spine.C03_ring_rollover_keeps_newest_single",
    "Spine.C03_ring_no_rollover_keeps_all"
   ],
   "note": "Rollover pushes keep the newest elements; pushes without rollover keep all."
  },
  {
   "property": "C04",
   "status": "partial",
   "theorems": [
    "Spine.C04_drop_last_partial",
    "Spine.C04_drop_first_partial",
    "Spine.C04_ring_history_with_drops_partial",
    "Spine.C04_drop_zero_on_full_counterexample",
    "Spine.C04_drop_last_counterexample",
    "Spine.C04_drop_default_drops_nothing"
   ],
   "note": "False as stated: drop_last/drop_first clear the full flag even when nothing is dropped, so dropping 0 (also the documented default 'all') on a full buffer makes it read as empty. Proved for drops of at least one element or on a non-full buffer; counterexamples proved."
  },
  {
   "property": "C05",
   "status": "partial",
   "theorems": [
    "Spine.C05_capacity_one_counterexample",
    "Spine.C05_drop_last_counterexample",
    "Spine.C05_drop_last_exact",
    "Spine.C05_histories",
    "Spine.C05_overrun_partial",
    "Spine.C05_overrun_capacity_one_counterexample",
    "Spine.C05_overrun_drop_counterexample"
   ],
   "note": "overrun_space is exact for capacity >= 2 and histories of pushes and pops. False for capacity 1, where it is 0 after every such history (C05_capacity_one_counterexample), and after drop_last, whose number is subtracted modulo the number of values of size_t (C05_drop_last_exact, C05_drop_last_counterexample). What it is after any history, with drops and clears: C05_histories."
  },
  {
   "property": "C06",
   "status": "proved",
   "theorems": [
    "Spine.C06_bulk_pop_enough",
    "Spine.C06_bulk_pop_short",
    "Spine.C06_bulk_push"
   ],
   "note": ""
  },
  {
   "property": "C07",
   "status": "proved",
   "theorems": [
    "Spine.C07_length_of_next_line",
    "Spine.C07_length_zero_iff"
   ],
   "note": ""
  },
  {
   "property": "C08",
   "status": "proved",
   "theorems": [
    "Spine.C08_get_next_line",
    "Spine.C08_get_next_line_refused",
    "Spine.C08_get_next_line_memory"
   ],
   "note": ""
  },
  {
   "property": "C09",
   "status": "proved",
   "theorems": [
    "Spine.C09_lines_lose_nothing"
   ],
   "note": ""
  },
  {
   "property": "C10",
   "status": "partial",
   "theorems": [
    "Spine.C10_small_partial",
    "Spine.C10_capacity_counterexample",
    "Spine.C10_line_view_partial",
    "Spine.C10_no_line_no_view",
    "Spine.C10_line_view_counterexample"
   ],
   "note": "The view is right exactly when the line does not wrap around the end of the storage, so always for capacities up to 2. For every capacity from 3 on there is a history after which it reads outside the buffer (C10_capacity_counterexample)."
  },
  {
   "property": "C11",
   "status": "proved",
   "theorems": [
    "Spine.C11_drop_next_line",
    "Spine.C11_drop_next_line_none"
   ],
   "note": ""
  },
  {
   "property": "C12",
   "status": "proved",
   "theorems": [
    "Spine.C12_pull_in_data",
    "Spine.C12_mock_stream",
    "Spine.C12_nul_delimiter_stuck"
   ],
   "note": "For every well-behaved underlying stream; with the NUL byte as delimiter the loop may stop making progress (C12_nul_delimiter_stuck)."
  },
  {
   "property": "C13",
   "status": "partial",
   "theorems": [
    "Spine.C13_pull_keeps_line_ends_partial",
    "Spine.C13_polling_loop_keeps_lines_partial",
    "Spine.C13_pull_twice_counterexample"
   ],
   "note": "A single pull keeps the line end within the buffer, and a polling loop that handles lines between pulls keeps lines; two pulls in a row without handling lose the line end (counterexample)."
  },
  {
   "property": "C14",
   "status": "proved",
   "theorems": [
    "Spine.C14_push_out_data",
    "Spine.C14_failed_write_loses_byte"
   ],
   "note": "A write refused by the device loses one byte (C14_failed_write_loses_byte)."
  },
  {
   "property": "C15",
   "status": "proved",
   "theorems": [
    "Spine.C15_output_order",
    "Spine.C15_input_order",
    "Spine.C15_input_exact"
   ],
   "note": "End-to-end through buffered stream and mock device."
  },
  {
   "property": "C16",
   "status": "proved",
   "theorems": [
    "Spine.C16_commit",
    "Spine.C16_no_line_no_transaction"
   ],
   "note": ""
  },
  {
   "property": "C17",
   "status": "partial",
   "theorems": [
    "Spine.C17_abort_exact",
    "Spine.C17_abort_partial",
    "Spine.C17_abort_full_output_counterexample"
   ],
   "note": "Abort removes exactly the queued reply iff there was room in the output buffer when the transaction began (C17_abort_exact); with a full output buffer abort removes the output of other messages (counterexample)."
  },
  {
   "property": "C18",
   "status": "partial",
   "theorems": [
    "Spine.C18_finalize_once_release",
    "Spine.C18_finalize_once_debug",
    "Spine.C18_move_partial",
    "Spine.C18_move_assign_counterexample"
   ],
   "note": "Proved for all sequences of commit, abort and destruction, and for the object left behind by a move. Debug builds assert on the second finalize. False for a transaction that is overwritten by move assignment: its line is never consumed (counterexample)."
  },
  {
   "property": "C19",
   "status": "proved",
   "theorems": [
    "Spine.C19_vector_is_bounded_sequence"
   ],
   "note": "All public operations except pop_back, remove and front, which have their own properties because the code deviates."
  },
  {
   "property": "C20",
   "status": "partial",
   "theorems": [
    "Spine.C20_pop_back_partial",
    "Spine.C20_back_history_partial",
    "Spine.C20_pop_back_counterexample",
    "Spine.C20_single_exact"
   ],
   "note": "False for a single element whose window does not start at slot 0 (counterexample: pop_back returns an element that was already popped); C20_single_exact says what it returns for every vector with one element. Proved for every other state, and for whole histories that never take from the front."
  },
  {
   "property": "C21",
   "status": "partial",
   "theorems": [
    "Spine.C21_remove_partial",
    "Spine.C21_remove_full_counterexample",
    "Spine.C21_remove_after_pop_counterexample",
    "Spine.C21_remove_twice_counterexample",
    "Spine.C21_slot_exact",
    "Spine.C21_outside_counterexample"
   ],
   "note": "False on full vectors (read past the end of the storage) and on windows not starting at slot 0, because the index is taken as that of a slot; C21_slot_exact and C21_outside_counterexample say what happens for every vector. Proved for windows at slot 0 with a free slot."
  },
  {
   "property": "C22",
   "status": "proved",
   "theorems": [
    "Spine.C22_forward_iteration",
    "Spine.C22_reverse_iteration"
   ],
   "note": "Forward and reverse, every reachable vector, including the empty one."
  },
  {
   "property": "C23",
   "status": "partial",
   "theorems": [
    "Spine.C23_memory_safe_partial",
    "Spine.C23_remove_exact",
    "Spine.C23_history_counterexample"
   ],
   "note": "False for remove: C23_history_counterexample is a history within the preconditions that reads outside the storage, and C23_remove_exact says for every reachable vector and every element index exactly when remove does so. Every other operation within its precondition is free of undefined behaviour and failing assertions and keeps the vector reachable; remove at slot 0 with a free slot, too."
  },
  {
   "property": "C24",
   "status": "partial",
   "theorems": [
    "Spine.C24_shared_counts_partial",
    "Spine.C24_shared_counts_back_partial",
    "Spine.C24_pop_back_counterexample",
    "Spine.C24_clear_counterexample"
   ],
   "note": "Exact counts for queue use and for back use; false for pop_back after pop_front and for clear (counterexamples)."
  },
  {
   "property": "C25",
   "status": "partial",
   "theorems": [
    "Spine.C25_back",
    "Spine.C25_front_partial",
    "Spine.C25_front_counterexample"
   ],
   "note": "back() and peek_front() always; front() only if the window starts at slot 0 (counterexample after pop_front)."
  },
  {
   "property": "C26",
   "status": "proved",
   "theorems": [
    "Spine.C26_no_double_free",
    "Spine.C26_histories",
    "Spine.C26_swap_counterexample",
    "Spine.C26_swap_copy_counterexample"
   ],
   "note": "For every reachable state and legal operation, and for whole histories. swap is covered between arrays that both own or both do not own their memory; two counterexamples show what swap does otherwise."
  },
  {
   "property": "C27",
   "status": "partial",
   "theorems": [
    "Spine.C27_reverse_iteration_partial",
    "Spine.C27_const_reverse_counterexample"
   ],
   "note": "Non-const reverse and forward iteration proved for all sizes; false for const arrays, where rbegin() == rend() always."
  },
  {
   "property": "C28",
   "status": "proved",
   "theorems": [
    "Spine.C28_acquire",
    "Spine.C28_exclusive"
   ],
   "note": "For all histories of a pool of distinct objects, with at most 65535 objects; exclusivity holds for any size."
  },
  {
   "property": "C29",
   "status": "partial",
   "theorems": [
    "Spine.C29_acquire_terminates_partial",
    "Spine.C29_acquire_diverges_counterexample"
   ],
   "note": "Partial: terminates for up to 65535 objects; diverges when 65536 or more are all in use, because the index is 16 bits."
  },
  {
   "property": "C30",
   "status": "partial",
   "theorems": [
    "Spine.C30_destroy_partial",
    "Spine.C30_destroy_asserts_counterexample",
    "Spine.C30_destroy_leaks_counterexample"
   ],
   "note": "Partial: true for at most one object; otherwise the loop bound shrinks as objects are removed, so the assertion fails in debug builds and half the references leak in release builds."
  },
  {
   "property": "C31",
   "status": "partial",
   "theorems": [
    "Spine.C31_exact_partial",
    "Spine.C31_error_partial",
    "Spine.C31_scalar",
    "Spine.C31_counterexample",
    "Spine.C31_overflow_counterexample"
   ],
   "note": "Partial: exact if the right operand is at most 2^24, with an error bound for all sizes; false above, because from_other() sends every right operand through a float even if the units are equal."
  },
  {
   "property": "C32",
   "status": "partial",
   "theorems": [
    "Spine.C32_nearest_partial",
    "Spine.C32_error_partial",
    "Spine.C32_counterexample",
    "Spine.C32_tie_counterexample"
   ],
   "note": "Partial: nearest integer up to 3,000,000, with an error bound for all sizes; false above (1 day = 86399992 ms) and in the direction of ties."
  },
  {
   "property": "C33",
   "status": "partial",
   "theorems": [
    "Spine.C33_alarm_partial",
    "Spine.C33_error_partial",
    "Spine.C33_early_counterexample",
    "Spine.C33_late_counterexample"
   ],
   "note": "Partial: exact up to 2^24 ms of uptime, monotone and with an error bound at any time; false later (alarms fire early or late)."
  },
  {
   "property": "C34",
   "status": "partial",
   "theorems": [
    "Spine.C34_catch_up_partial",
    "Spine.C34_rate_partial",
    "Spine.C34_separation_partial",
    "Spine.C34_error_partial",
    "Spine.C34_early_counterexample"
   ],
   "note": "Partial: exact up to 2^24 ms of uptime, with an error bound for one query at any time; false later."
  },
  {
   "property": "C35",
   "status": "partial",
   "theorems": [
    "Spine.C35_pipeline_partial",
    "Spine.C35_later_partial",
    "Spine.C35_long_delay_counterexample",
    "Spine.C35_tick_counterexample",
    "Spine.C35_ticks_partial",
    "Spine.C35_ticks_late_partial",
    "Spine.C35_ticks_push_partial",
    "Spine.C35_ticks_order_counterexample"
   ],
   "note": "Partial: a pipeline behaves like a stable priority queue for delays up to 2^23 ms and a clock that stands still during a call. With a clock that ticks by up to d ms between the two readings of a comparison, no future is queued behind one due more than d ms later, and none is served d ms late (C35_ticks theorems), provided the new future's reading is made first or the tick is of 1 ms; counterexamples for delays above 2^24 ms, for ticks during push, and for unbounded disorder with the other order of the readings."
  },
  {
   "property": "C36",
   "status": "partial",
   "theorems": [
    "Spine.C36_exactly_once",
    "Spine.C36_schedule_partial",
    "Spine.C36_on_time_partial",
    "Spine.C36_order_partial",
    "Spine.C36_delivers_partial",
    "Spine.C36_early_counterexample"
   ],
   "note": "Exactly-once holds for all delays, handlers and clocks, including handlers that attach handlers and call loop() again. On time, in order and nothing-left-behind hold up to 2^24 ms of uptime, with an error bound up to 2^40 ms; false later (an event fires 1 ms early)."
  },
  {
   "property": "C37",
   "status": "proved",
   "theorems": [
    "Spine.C37_capacity",
    "Spine.C37_exclusive"
   ],
   "note": "Proved for all histories of a system with up to 65535 events (the pool limit, C29), with the objects obtained counted one by one."
  },
  {
   "property": "C38",
   "status": "partial",
   "theorems": [
    "Spine.C38_schedule_counterexample",
    "Spine.C38_trigger_counterexample",
    "Spine.C38_handler_counterexample",
    "Spine.C38_event_partial"
   ],
   "note": "False: in every exhausted state schedule() and trigger() follow a null pointer (release) or fail an assertion (debug); also from a handler in a system of capacity 1. Partial: event() itself reports exhaustion."
  },
  {
   "property": "C39",
   "status": "proved",
   "theorems": [
    "Spine.C39_trigger",
    "Spine.C39_loop",
    "Spine.C39_attach",
    "Spine.C39_beyond_capacity",
    "Spine.C39_completes"
   ],
   "note": "Proved for completed triggers, at every nesting depth, and for the events delivered by loop(), with handlers that may attach handlers and call loop(); C39_attach says what attach does, C39_completes gives completion for handlers that do nothing. Beyond the capacity (outside the quantifier) release builds drop the handler silently (C39_beyond_capacity)."
  },
  {
   "property": "C40",
   "status": "partial",
   "theorems": [
    "Spine.C40_deadline_partial",
    "Spine.C40_max_partial",
    "Spine.C40_max_counterexample",
    "Spine.C40_idle",
    "Spine.C40_idle_default"
   ],
   "note": "Wakes no later than the next deadline up to 2^24 ms of uptime (error bound later). False for the configured maximum: a count of microseconds is compared with a count of milliseconds; the bound that does hold is 1000 times larger."
  },
  {
   "property": "C41",
   "status": "partial",
   "theorems": [
    "Spine.C41_minimal_partial",
    "Spine.C41_rounding_counterexample"
   ],
   "note": "Partial: the minimal times hold up to the rounding of the times through binary32 (exact up to 2^24 ms of uptime); a counterexample shows an early switch above that."
  },
  {
   "property": "C42",
   "status": "partial",
   "theorems": [
    "Spine.C42_maximal_partial",
    "Spine.C42_off_partial",
    "Spine.C42_forever_counterexample"
   ],
   "note": "False as stated: readings above the high threshold restart the timer, so a latch that is fed often enough stays on for ever. Partial: the maximal time holds counted from the last reading that set the latch."
  },
  {
   "property": "C43",
   "status": "partial",
   "theorems": [
    "Spine.C43_band",
    "Spine.C43_band_within_partial",
    "Spine.C43_rise_partial",
    "Spine.C43_first_partial",
    "Spine.C43_fall_partial",
    "Spine.C43_stays",
    "Spine.C43_low_counterexample"
   ],
   "note": "Band and direction theorems hold when the minimal times allow; false for a low reading while off, which restarts the off time and so delays the forced switching on."
  },
  {
   "property": "C44",
   "status": "proved",
   "theorems": [
    "Spine.C44_controller",
    "Spine.C44_pid",
    "Spine.C44_ieee",
    "Spine.C44_order_counterexample"
   ],
   "note": "Proved for any lawful arithmetic and for IEEE single precision, from initialize() on with limits in order. Limits that are not in order are silently ignored (counterexample)."
  },
  {
   "property": "C45",
   "status": "partial",
   "theorems": [
    "Spine.C45_unchanged",
    "Spine.C45_sampling_partial",
    "Spine.C45_rounding_counterexample"
   ],
   "note": "No change between computations; computations at least a sampling period apart up to the rounding of times (counterexample above 2^24 ms)."
  },
  {
   "property": "C46",
   "status": "partial",
   "theorems": [
    "Spine.C46_multiple_partial",
    "Spine.C46_only_multiples",
    "Spine.C46_shorter_counterexample"
   ],
   "note": "False: the ratio of sampling times is computed with integer division, so gains change for every new time that is not a multiple of the old one; a shorter interval gives gains 0 and infinity. Partial: multiples."
  },
  {
   "property": "C47",
   "status": "partial",
   "theorems": [
    "Spine.C47_outputs",
    "Spine.C47_cycles",
    "Spine.C47_loop_partial",
    "Spine.C47_zero_counterexample",
    "Spine.C47_average_partial",
    "Spine.C47_average_counterexample",
    "Spine.C47_single_counterexample"
   ],
   "note": "Outputs and the number of cycles are proved for tuner and loop. False: autotune ends by setting 0 even outside the range; the sum over cycles-2 cycles is divided by cycles-1 (0/0 for one cycle). Partial: the value actually reported."
  },
  {
   "property": "C48",
   "status": "partial",
   "theorems": [
    "Spine.C48_range_partial",
    "Spine.C48_one_counterexample",
    "Spine.C48_short_counterexample",
    "Spine.C48_overflow_counterexample"
   ],
   "note": "Proved in single precision for frames longer than 1 and samples up to half the largest float. False for frames of length at most 1 and for samples whose difference overflows."
  },
  {
   "property": "C49",
   "status": "partial",
   "theorems": [
    "Spine.C49_accept",
    "Spine.C49_limit",
    "Spine.C49_reject_partial",
    "Spine.C49_forced_counterexample",
    "Spine.C49_absolute_counterexample",
    "Spine.C49_sentinel_counterexample",
    "Spine.C49_nan_counterexample",
    "Spine.C49_overflow_counterexample"
   ],
   "note": "False after a forced acceptance, for a first sample outside an absolute band, at the sentinel value, after a first NaN, and the rejection counter overflows (undefined) if the filter throws. Partial: rejection after a sample in the band."
  },
  {
   "property": "C50",
   "status": "proved",
   "theorems": [
    "Spine.C50_linear",
    "Spine.C50_limits",
    "Spine.C50_range",
    "Spine.C50_monotone",
    "Spine.C50_throws",
    "Spine.C50_ieee",
    "Spine.C50_ieee_counterexample",
    "Spine.C50_nan_counterexample"
   ],
   "note": "Exact arithmetic in full; in single precision monotonicity, the lower limit and the lower bound. False in single precision: the upper limit is only met up to rounding."
  },
  {
   "property": "C51",
   "status": "partial",
   "theorems": [
    "Spine.C51_invert",
    "Spine.C51_invert_counterexample",
    "Spine.C51_assert_counterexample",
    "Spine.C51_composition",
    "Spine.C51_attach",
    "Spine.C51_keeps",
    "Spine.C51_value_partial",
    "Spine.C51_empty_counterexample",
    "Spine.C51_null_release",
    "Spine.C51_null_debug",
    "Spine.C51_null_counterexample"
   ],
   "note": "Composition for all stateful filters. False: inverting twice in single precision, value() of an empty stack. Partial: value() for last filters that keep what they return, as those of the library do."
  },
  {
   "property": "C52",
   "status": "partial",
   "theorems": [
    "Spine.C52_value_at_partial",
    "Spine.C52_disjoint",
    "Spine.C52_start_counterexample"
   ],
   "note": "Proved for block lists the constructor accepts, with starts on the day. False if a block starts after the day: the constructor does not check this."
  },
  {
   "property": "C53",
   "status": "partial",
   "theorems": [
    "Spine.C53_exact",
    "Spine.C53_next_partial",
    "Spine.C53_some_start",
    "Spine.C53_order_counterexample"
   ],
   "note": "Proved for blocks listed in the order of their starts; in any order the result is some start after t. False for other orders: the first listed later start is returned, not the earliest. For blocks with different starts it is right at all times iff they are listed in order (C53_exact)."
  },
  {
   "property": "C54",
   "status": "partial",
   "theorems": [
    "Spine.C54_continues",
    "Spine.C54_stops_partial",
    "Spine.C54_throws",
    "Spine.C54_final_partial",
    "Spine.C54_empty_counterexample",
    "Spine.C54_copy_counterexample"
   ],
   "note": "False for a Result without a value and for types for which a copy is not a copy (C54_empty_counterexample, C54_copy_counterexample)."
  },
  {
   "property": "C55",
   "status": "partial",
   "theorems": [
    "Spine.C55_map",
    "Spine.C55_then",
    "Spine.C55_functor",
    "Spine.C55_monad",
    "Spine.C55_match_partial",
    "Spine.C55_match_counterexample"
   ],
   "note": "match is false for a Result without a value (C55_match_counterexample); everything else is proved for all types, states and functions."
  },
  {
   "property": "C56",
   "status": "partial",
   "theorems": [
    "Spine.C56_exact",
    "Spine.C56_lstrip_partial",
    "Spine.C56_blank_counterexample",
    "Spine.C56_rstrip_counterexample",
    "Spine.C56_rstrip_partial"
   ],
   "note": "lstrip is right iff the text has a character that is no delimiter, rstrip iff its last character is none (C56_exact). Otherwise lstrip reads past the end, and rstrip removes characters from the front."
  },
  {
   "property": "C57",
   "status": "partial",
   "theorems": [
    "Spine.C57_starts",
    "Spine.C57_ends_partial",
    "Spine.C57_long_counterexample"
   ],
   "note": "starts_with proved for all texts; ends_with for needles not longer than the text. False for longer needles: it throws."
  },
  {
   "property": "C58",
   "status": "partial",
   "theorems": [
    "Spine.C58_accepts_partial",
    "Spine.C58_sound",
    "Spine.C58_throws",
    "Spine.C58_throw_counterexample"
   ],
   "note": "Proved that it accepts and reads exactly the texts that denote at most INT_MAX units. False for a unit without a number and for larger numbers: it throws instead of giving nothing; which texts make it throw is characterised."
  },
  {
   "property": "C59",
   "status": "partial",
   "theorems": [
    "Spine.C59_print_partial",
    "Spine.C59_debug_counterexample",
    "Spine.C59_error_partial",
    "Spine.C59_error_counterexample",
    "Spine.C59_level"
   ],
   "note": "False for level DEBUG: once header and message exceed the buffer, the location is written outside of it (C59_debug_counterexample); also if vsnprintf reports an error and there is no header, as -1 is added to a size_t (C59_error_counterexample; with a header see C59_error_partial). Proved for all other cases."
  },
  {
   "property": "C60",
   "status": "proved",
   "theorems": [
    "Spine.C60_leap",
    "Spine.C60_year_day",
    "Spine.C60_unique",
    "Spine.C60_bcd"
   ],
   "note": "Proved for all valid dates and all years."
  },
  {
   "property": "C61",
   "status": "partial",
   "theorems": [
    "Spine.C61_exact",
    "Spine.C61_float_partial",
    "Spine.C61_exact_partial",
    "Spine.C61_range",
    "Spine.C61_end_counterexample",
    "Spine.C61_float_counterexample",
    "Spine.C61_endless_counterexample",
    "Spine.C61_zero_counterexample",
    "Spine.C61_object"
   ],
   "note": "False: with the default increment 0.1 and float, fading from 0 to 0.5 ends at 0.6 (C61_float_counterexample); from 0 to 0.25 it ends at 0.3 in exact arithmetic, too; small increments never end, increment 0 drives nothing. Proved: all values within [0,1] for float; within half an increment in exact arithmetic; in single precision, for increments from 1/512 on, fading ends, within one and a half increments and 2^-11 (C61_float_partial). C61_exact says for which distances fading ends at the setpoint in exact arithmetic."
  },
  {
   "property": "C62",
   "status": "proved",
   "theorems": [
    "Spine.C62_raw",
    "Spine.C62_arith",
    "Spine.C62_scale",
    "Spine.C62_undefined",
    "Spine.C62_float_zero"
   ],
   "note": "Exact arithmetic for quantities; division by zero is proved for float, too."
  },
  {
   "property": "C63",
   "status": "partial",
   "theorems": [
    "Spine.C63_concat_partial",
    "Spine.C63_array_counterexample",
    "Spine.C63_unique",
    "Spine.C63_unique_id"
   ],
   "note": "False for std::array arguments that do not end with a NUL (C63_array_counterexample); proved for any number of literals."
  },
  {
   "property": "C64",
   "status": "proved",
   "theorems": [
    "Spine.C64_stack_lifo"
   ],
   "note": "stack.hpp itself cannot be instantiated (its base has no default constructor); the theorem is about its member functions as written, over the Vector model."
  },
  {
   "property": "C65",
   "status": "partial",
   "theorems": [
    "Spine.C65_loop_partial",
    "Spine.C65_diverges_counterexample"
   ],
   "note": "Partial: up to 2^24 ms of uptime, with handlers that do not call loop() themselves, the loop ends after the events due when it began; false later, when the clock is read as 1 ms ahead the loop never ends."
  },
  {
   "property": "C66",
   "status": "partial",
   "theorems": [
    "Spine.C66_destroy_empty_partial",
    "Spine.C66_destroy_leaks_counterexample"
   ],
   "note": "False: ~Array frees the memory without destroying the elements. The counterexample theorem shows it for every history; the partial theorem covers vectors emptied first."
  },
  {
   "property": "C67",
   "status": "partial",
   "theorems": [
    "Spine.C67_all_freed_partial",
    "Spine.C67_move_assign_counterexample",
    "Spine.C67_copy_assign_counterexample",
    "Spine.C67_exact",
    "Spine.C67_histories"
   ],
   "note": "False for copy and move assignment onto an owning array (counterexamples), and only then: memory is left over iff that ever happened (C67_exact, over all histories)."
  },
  {
   "property": "C68",
   "status": "partial",
   "theorems": [
    "Spine.C68_copy_partial",
    "Spine.C68_alias_counterexample",
    "Spine.C68_dangling_counterexample",
    "Spine.C68_shared",
    "Spine.C68_dangling"
   ],
   "note": "Equal contents proved; independence is false for every array with elements: a write to either shows in both (C68_shared), and a copy of an owner dangles when the owner is destroyed (C68_dangling)."
  },
  {
   "property": "C69",
   "status": "partial",
   "theorems": [
    "Spine.C69_swap_partial",
    "Spine.C69_swap_counterexample",
    "Spine.C69_exact"
   ],
   "note": "The contents are exchanged iff the sizes are equal (C69_exact): sizes are not exchanged."
  },
  {
   "property": "C70",
   "status": "partial",
   "theorems": [
    "Spine.C70_move_partial",
    "Spine.C70_moved_from_counterexample",
    "Spine.C70_exact"
   ],
   "note": "Target proved; the source keeps its size over a null pointer (counterexample), so it is left empty iff it was empty (C70_exact)."
  },
  {
   "property": "C71",
   "status": "partial",
   "theorems": [
    "Spine.C71_increment_partial",
    "Spine.C71_postfix_counterexample",
    "Spine.C71_reverse_partial",
    "Spine.C71_reverse_counterexample"
   ],
   "note": "Positions proved; the value of it++ is the position after the increment (counterexample for every iterator)."
  },
  {
   "property": "C72",
   "status": "proved",
   "theorems": [
    "Spine.C72_set",
    "Spine.C72_front_back",
    "Spine.C72_construct",
    "Spine.C72_fill",
    "Spine.C72_list_assign",
    "Spine.C72_set_other"
   ],
   "note": "Construction, write, fill, list assignment, ends, and frame."
  },
  {
   "property": "C73",
   "status": "partial",
   "theorems": [
    "Spine.C73_references_partial",
    "Spine.C73_pop_keeps_reference_counterexample"
   ],
   "note": "Partial: the references owned are exactly those of the slots; false as stated, since pop leaves the pointer in its slot until it is overwritten."
  },
  {
   "property": "C74",
   "status": "partial",
   "theorems": [
    "Spine.C74_future_partial",
    "Spine.C74_future_counterexample"
   ],
   "note": "Partial: false at the moment future() itself names, because expired() compares strictly."
  },
  {
   "property": "C75",
   "status": "partial",
   "theorems": [
    "Spine.C75_timer_partial",
    "Spine.C75_timer_counterexample"
   ],
   "note": "Partial: ticks between the two readings of the clock in one call are lost."
  },
  {
   "property": "C76",
   "status": "partial",
   "theorems": [
    "Spine.C76_forever_counterexample",
    "Spine.C76_skipped_partial"
   ],
   "note": "False: a NaN reading makes the output NaN for ever, also after initialize(). Partial: a NaN reading between two computations has no effect."
  },
  {
   "property": "C77",
   "status": "partial",
   "theorems": [
    "Spine.C77_tunings_counterexample",
    "Spine.C77_scaled_partial"
   ],
   "note": "False: tunings() returns gains scaled to the sampling time and signed. Partial: what it does return."
  },
  {
   "property": "C78",
   "status": "partial",
   "theorems": [
    "Spine.C78_ignored_counterexample",
    "Spine.C78_tunings_partial"
   ],
   "note": "False: the constructor always chooses proportional on measurement. Partial: set_tunings does choose it."
  },
  {
   "property": "C79",
   "status": "proved",
   "theorems": [
    "Spine.C79_law",
    "Spine.C79_start",
    "Spine.C79_saturation"
   ],
   "note": "Proved in exact arithmetic, as the quantifier says; C79_saturation covers the limits."
  },
  {
   "property": "C80",
   "status": "proved",
   "theorems": [
    "Spine.C80_order",
    "Spine.C80_sign",
    "Spine.C80_history",
    "Spine.C80_ieee"
   ],
   "note": "Proved for all orders of the calls."
  },
  {
   "property": "C81",
   "status": "partial",
   "theorems": [
    "Spine.C81_gains_partial",
    "Spine.C81_start",
    "Spine.C81_peak_counterexample",
    "Spine.C81_exact",
    "Spine.C81_single",
    "Spine.C81_single_start"
   ],
   "note": "Exact arithmetic, times up to 2^24 ms. The reading that switches the output off is not counted for the amplitude, so the gains are right iff it is not the only highest of its cycle, and too large otherwise (C81_exact). C81_single: the same in single precision, each gain up to a millionth."
  },
  {
   "property": "C82",
   "status": "proved",
   "theorems": [
    "Spine.C82_mean",
    "Spine.C82_weight"
   ],
   "note": "Proved in exact arithmetic."
  },
  {
   "property": "C83",
   "status": "partial",
   "theorems": [
    "Spine.C83_fields_partial",
    "Spine.C83_dst_counterexample",
    "Spine.C83_octal_counterexample",
    "Spine.C83_second_counterexample",
    "Spine.C83_numbers"
   ],
   "note": "Proved for the fields up to the call of mktime, when hour, minute and second are not 08 or 09. False: %i reads 08 and 09 as octal, and tm_isdst is never set, so that mktime reads an uninitialised value for every input."
  },
  {
   "property": "C84",
   "status": "partial",
   "theorems": [
    "Spine.C84_after_2000_partial",
    "Spine.C84_release",
    "Spine.C84_narrow_partial",
    "Spine.C84_epoch_counterexample",
    "Spine.C84_2068_counterexample",
    "Spine.C84_exact",
    "Spine.C84_time32_partial",
    "Spine.C84_time32_counterexample"
   ],
   "note": "Proved from 2000 on with a 64-bit long, before 2068 with a 32-bit long, and in release builds. False otherwise: an assertion compares with an unsigned wrap-around."
  },
  {
   "property": "C85",
   "status": "partial",
   "theorems": [
    "Spine.C85_found",
    "Spine.C85_npos",
    "Spine.C85_to_float_partial",
    "Spine.C85_view_counterexample",
    "Spine.C85_literal_counterexample"
   ],
   "note": "find_first_of proved for all texts; to_float for a text followed by a NUL, for any strtof. False for a view into a longer text."
  },
  {
   "property": "C86",
   "status": "partial",
   "theorems": [
    "Spine.C86_negative",
    "Spine.C86_read_iff",
    "Spine.C86_repr_partial",
    "Spine.C86_exact",
    "Spine.C86_hours_counterexample",
    "Spine.C86_negative_counterexample"
   ],
   "note": "Proved for times from 0 to 2^61 us, up to the float rounding error; exact for whole numbers of the unit below 2^21. Every negative time is written in microseconds and cannot be read back (C86_negative, C86_read_iff); hours are never used although documented."
  },
  {
   "property": "C87",
   "status": "partial",
   "theorems": [
    "Spine.C87_exact",
    "Spine.C87_states",
    "Spine.C87_copy_partial",
    "Spine.C87_value_partial",
    "Spine.C87_copy_counterexample",
    "Spine.C87_value_counterexample"
   ],
   "note": "False if T or bool converts to E (C87_copy_counterexample, C87_value_counterexample). Exactly then (C87_exact)."
  },
  {
   "property": "C88",
   "status": "partial",
   "theorems": [
    "Spine.C88_or",
    "Spine.C88_access",
    "Spine.C88_unwrap_partial",
    "Spine.C88_unwrap_counterexample",
    "Spine.C88_release_counterexample"
   ],
   "note": "False for unwrap of an intermediary result with I other than T, and in release builds if types coincide."
  },
  {
   "property": "C89",
   "status": "partial",
   "theorems": [
    "Spine.C89_order_partial",
    "Spine.C89_magnitude_counterexample",
    "Spine.C89_exact",
    "Spine.C89_equal_partial"
   ],
   "note": "False for operands of different magnitudes: they are ignored (C89_magnitude_counterexample). Right for all values iff the ratios of the magnitudes are equal (C89_exact)."
  },
  {
   "property": "C90",
   "status": "partial",
   "theorems": [
    "Spine.C90_simplify_partial",
    "Spine.C90_terms_counterexample",
    "Spine.C90_negative_counterexample",
    "Spine.C90_int_partial",
    "Spine.C90_int_counterexample",
    "Spine.C90_int_negative_exact"
   ],
   "note": "False: the greatest common divisor is taken of the scaled numbers; negative numbers are undefined; small ones divide by zero (counterexamples). unsigned long is taken as 64-bit."
  },
  {
   "property": "C91",
   "status": "partial",
   "theorems": [
    "Spine.C91_exact",
    "Spine.C91_ceil_partial",
    "Spine.C91_back_partial",
    "Spine.C91_range_counterexample"
   ],
   "note": "False beyond the range: more than 2^24 units do not round-trip, and times of 2^63 units, infinite ones and NaN are undefined. C91_exact says what to_kernel_time gives for every float."
  },
  {
   "property": "C92",
   "status": "partial",
   "theorems": [
    "Spine.C92_equality_partial",
    "Spine.C92_close",
    "Spine.C92_order_counterexample",
    "Spine.C92_infinite_counterexample",
    "Spine.C92_magnitude_counterexample"
   ],
   "note": "False: equality is not transitive, overlaps with <, does not hold for an infinite value and itself, and is not symmetric for different magnitudes (3 days == 259200000 ms, but not the other way round)."
  },
  {
   "property": "C93",
   "status": "proved",
   "theorems": [
    "Spine.C93_exact",
    "Spine.C93_ieee",
    "Spine.C93_exact_counterexample"
   ],
   "note": "Exact arithmetic and an error bound for float."
  },
  {
   "property": "C94",
   "status": "proved",
   "theorems": [
    "Spine.C94_level",
    "Spine.C94_state"
   ],
   "note": "Proved for the Arduino implementation; digitalWrite is the effect."
  },
  {
   "property": "C95",
   "status": "partial",
   "theorems": [
    "Spine.C95_value_partial",
    "Spine.C95_hidden_counterexample",
    "Spine.C95_fade_counterexample",
    "Spine.C95_number_partial",
    "Spine.C95_scale_counterexample"
   ],
   "note": "False: set_value of the implementation hides that of the base, so value() is not updated (C95_hidden_counterexample), and full on writes 2^resolution, one more than the scale (C95_scale_counterexample)."
  },
  {
   "property": "C96",
   "status": "partial",
   "theorems": [
    "Spine.C96_partial",
    "Spine.C96_mixed_counterexample"
   ],
   "note": "False: the factor 1000 is applied twice (C96_mixed_counterexample). Proved if the clock is read in the unit of all delays, up to 2^24."
  },
  {
   "property": "C97",
   "status": "partial",
   "theorems": [
    "Spine.C97_reset_partial",
    "Spine.C97_interval_counterexample",
    "Spine.C97_alarm_counterexample"
   ],
   "note": "False for interval timers and alarms (general counterexamples over all polls). Proved after a reset."
  },
  {
   "property": "C98",
   "status": "partial",
   "theorems": [
    "Spine.C98_exact",
    "Spine.C98_partial",
    "Spine.C98_counterexample"
   ],
   "note": "False: the rest below a ms is dropped, large ms are cut to 32 bits, negative us wait for more than an hour. C98_exact says for which numbers it holds."
  },
  {
   "property": "C99",
   "status": "partial",
   "theorems": [
    "Spine.C99_partial",
    "Spine.C99_off_counterexample"
   ],
   "note": "False for OFF, whose case lacks a break."
  },
  {
   "property": "C100",
   "status": "partial",
   "theorems": [
    "Spine.C100_partial",
    "Spine.C100_empty_counterexample"
   ],
   "note": "False if nothing was received."
  },
  {
   "property": "C101",
   "status": "proved",
   "theorems": [
    "Spine.C101_printf"
   ],
   "note": "What vsnprintf makes of the format is not modelled."
  },
  {
   "property": "C102",
   "status": "proved",
   "theorems": [
    "Spine.StaticString.C102_size",
    "Spine.StaticString.C102_write",
    "Spine.StaticString.C102_capacity"
   ],
   "note": "The capacity chosen by the library for a length is arbitrary."
  },
  {
   "property": "C103",
   "status": "partial",
   "theorems": [
    "Spine.StaticString.C103_strip_partial",
    "Spine.StaticString.C103_blank_counterexample",
    "Spine.StaticString.C103_ends_partial",
    "Spine.StaticString.C103_ends_counterexample"
   ],
   "note": "False for strings of delimiters alone (undefined) and for needles longer than the string (exception)."
  },
  {
   "property": "C104",
   "status": "proved",
   "theorems": [
    "Spine.C104_convert",
    "Spine.C104_back"
   ],
   "note": "Within a relative error of 5/2^24 one way and 11/2^24 there and back, for values whose results are normal floats."
  },
  {
   "property": "C105",
   "status": "partial",
   "theorems": [
    "Spine.C105_order_partial",
    "Spine.C105_order_counterexample"
   ],
   "note": "Proved for quantities that differ by more than 5/2^24. False for equal quantities: time_ms(1000) > time_s(1) (counterexample)."
  },
  {
   "property": "C106",
   "status": "partial",
   "theorems": [
    "Spine.C106_guard_partial",
    "Spine.C106_native",
    "Spine.C106_divide_partial",
    "Spine.C106_guard_counterexample"
   ],
   "note": "Proved for Arduino and Zephyr, and for native with a handler that throws or stops. On native without a handler, Mock::halt is empty, so failed assertions are passed and the checked division divides by zero (counterexample)."
  },
  {
   "property": "C107",
   "status": "proved",
   "theorems": [
    "Spine.C107_handlers"
   ],
   "note": "Proved for all histories."
  },
  {
   "property": "C108",
   "status": "partial",
   "theorems": [
    "Spine.C108_attach_partial",
    "Spine.C108_again",
    "Spine.C108_attach_counterexample",
    "Spine.C108_default_counterexample"
   ],
   "note": "Proved for boards whose lines are looked up and pins that have one. On ATmega8/168/328P the pin's number is passed as that of a line, so pin 2 of an Uno sets nothing; without a callback the line calls a null pointer, and without a trigger it fires while the pin is low (counterexamples)."
  },
  {
   "property": "C109",
   "status": "partial",
   "theorems": [
    "Spine.C109_exact",
    "Spine.C109_detach_partial",
    "Spine.C109_detach_counterexample"
   ],
   "note": "detach_interrupt passes the pin instead of its line: right iff the number of the pin is that of its line (C109_exact). On a Mega, detaching pin 2 leaves it attached and removes the interrupt of pin 21 (counterexample)."
  },
  {
   "property": "C110",
   "status": "partial",
   "theorems": [
    "Spine.C110_same",
    "Spine.C110_type",
    "Spine.C110_empty_partial",
    "Spine.C110_empty_counterexample",
    "Spine.C110_other"
   ],
   "note": "Proved except for empty data in release builds, which reads as zero (counterexample)."
  },
  {
   "property": "C111",
   "status": "partial",
   "theorems": [
    "Spine.C111_geometric",
    "Spine.C111_settles_partial",
    "Spine.C111_overflow_counterexample",
    "Spine.C111_stalls_counterexample"
   ],
   "note": "Exact: geometric convergence. In single precision the value settles within min(k, 2^24) units in the last place of the sample after any history, for all frames above 1 (infinite and NaN ones included) and samples up to half the largest float. It need not reach the sample: with a frame of 100 it stays at 1 for samples of 1+2^-20 (counterexample); with samples of -FLT_MAX and FLT_MAX it becomes NaN for good (counterexample)."
  },
  {
   "property": "C112",
   "status": "partial",
   "theorems": [
    "Spine.PID.C112_float_partial",
    "Spine.PID.C112_float_lower_partial",
    "Spine.C112_ramp",
    "Spine.C112_limit_partial",
    "Spine.C112_lower_partial",
    "Spine.C112_stalls_counterexample"
   ],
   "note": "Proved in exact arithmetic for both limits and both ways of the proportional part. In single precision it is false for small errors: the default controller at an output of 102 never reacts to a setpoint 2^-16 above all readings (C112_stalls_counterexample). Where the integral step is at least 2^-22 of the limits, C112_float_partial proves it in single precision, and C112_float_lower_partial for the lower limit: each computation gains at least half the step."
  },
  {
   "property": "C113",
   "status": "partial",
   "theorems": [
    "Spine.C113_unwinds_partial",
    "Spine.C113_bounded",
    "Spine.C113_setpoint_counterexample",
    "Spine.C113_float_partial",
    "Spine.C113_rounding_counterexample"
   ],
   "note": "C113_unwinds_partial: at both limits, for direct and reversed controllers, in exact arithmetic; C113_float_partial: in single precision up to the rounding errors of one computation (C138). False otherwise: a tiny integral part is lost in rounding (C113_rounding_counterexample); the setpoint lowered below a falling reading leaves the output at its limit (C113_setpoint_counterexample)."
  },
  {
   "property": "C114",
   "status": "proved",
   "theorems": [
    "Spine.C114_arduino",
    "Spine.C114_mock_uart",
    "Spine.C114_history",
    "Spine.C114_lines"
   ],
   "note": "Proved for any port that satisfies Port.Lossless; ArduinoUART (on a model of the hardware's two queues) and MockStream do, MockUART does if its stream does."
  },
  {
   "property": "C115",
   "status": "proved",
   "theorems": [
    "Spine.C115_whole_replies"
   ],
   "note": "Proved."
  },
  {
   "property": "C116",
   "status": "partial",
   "theorems": [
    "Spine.C116_xyz_partial",
    "Spine.C116_xy_partial",
    "Spine.C116_int_counterexample",
    "Spine.C116_origin_counterexample",
    "Spine.C116_rounded_partial",
    "Spine.C116_rounded_xy_partial"
   ],
   "note": "Proved in exact arithmetic for points other than the origin, and with any rounding of relative error u (2^-24 in single precision) that does not overflow: coordinates within 5u, length within 9u of 1. False for integer coordinates, where (3, 4) becomes (0, 0), and for the origin."
  },
  {
   "property": "C117",
   "status": "partial",
   "theorems": [
    "Spine.C117_sum_partial",
    "Spine.C117_dot_counterexample"
   ],
   "note": "False: dot returns the products of the coordinates as a point, like operator*; only their sum is the inner product (C117_sum_partial)."
  },
  {
   "property": "C118",
   "status": "proved",
   "theorems": [
    "Spine.C118_list"
   ],
   "note": "Proved."
  },
  {
   "property": "C119",
   "status": "partial",
   "theorems": [
    "Spine.C119_copy_partial",
    "Spine.C119_alias_counterexample",
    "Spine.C119_moved_from_counterexample",
    "Spine.C119_swap_counterexample",
    "Spine.C119_shares",
    "Spine.C119_moved_from",
    "Spine.C119_swap_partial"
   ],
   "note": "Proved that copies and moved vectors show the elements, and that swap exchanges vectors with as many elements and as many removed from the front. False, and proved for any vector: copies share the storage (all assignments to either show in both), a vector moved from keeps its size with a null pointer. False by example: swap leaves the sizes behind."
  },
  {
   "property": "C120",
   "status": "partial",
   "theorems": [
    "Spine.C120_debug_partial",
    "Spine.C120_emplace_front_counterexample",
    "Spine.C120_ends_counterexample"
   ],
   "note": "Proved for all calls except emplace_front (writes outside the storage), back and front of an empty vector, and remove (counterexamples)."
  },
  {
   "property": "C121",
   "status": "partial",
   "theorems": [
    "Spine.C121_full_partial",
    "Spine.C121_overflow_counterexample",
    "Spine.C121_underflow_counterexample"
   ],
   "note": "Proved for push_back, emplace_back and insert behind the last element. The other insertions write outside the storage of every full vector, and pop_front of an empty vector leaves one that claims the largest size_t as its size (counterexamples)."
  },
  {
   "property": "C122",
   "status": "partial",
   "theorems": [
    "Spine.ES.C122_destroy_partial",
    "Spine.ES.C122_asserts_counterexample",
    "Spine.ES.C122_leak_counterexample"
   ],
   "note": "Partial: capacity at most one (at most three in release builds) with nothing pending. False otherwise: debug builds fail the assertion of the destructor for every capacity of two or more; release builds leak one reference per pending event and the last quarter of the pool."
  },
  {
   "property": "C123",
   "status": "partial",
   "theorems": [
    "Spine.Pipe.C123_exact",
    "Spine.Pipe.C123_text_partial",
    "Spine.Pipe.C123_comma_counterexample",
    "Spine.Pipe.C123_capacity_counterexample",
    "Spine.Pipe.C123_tick_counterexample"
   ],
   "note": "C123_exact characterises the result for every history, readings and library. False: a comma follows the last time; debug builds fail an assertion on libraries whose strings have room for more than asked (short-string optimisation), or when the clock ticks from 1000 ms to 999 ms between the passes."
  },
  {
   "property": "C124",
   "status": "partial",
   "theorems": [
    "Spine.C124_sum_partial",
    "Spine.C124_compare_partial",
    "Spine.C124_finer",
    "Spine.C124_order_partial",
    "Spine.C124_error_partial",
    "Spine.C124_coarse_counterexample"
   ],
   "note": "Sums and differences are within half a unit, order is right unless the quantities are within half a unit of each other, and all comparisons are exact if the right operand is a whole number of units of the left one (always with the finer unit on the left, C124_finer). Right operands above 3,000,000 are rounded to float: C124_error_partial bounds the error for all sizes. False with the coarser unit on the left (counterexample for all seconds within 2900)."
  },
  {
   "property": "C125",
   "status": "partial",
   "theorems": [
    "Spine.C125_quotient_partial",
    "Spine.C125_short_counterexample",
    "Spine.C125_rounded_counterexample",
    "Spine.C125_overflow_counterexample"
   ],
   "note": "Partial: divisors that are a whole number of units of the dividend. False otherwise: seconds divided by 1 to 499 ms report a division by zero, 9 s / 1.5 s is 4, and the smallest value divided by -1 overflows."
  },
  {
   "property": "C126",
   "status": "partial",
   "theorems": [
    "Spine.C126_scaled_partial",
    "Spine.C126_order",
    "Spine.C126_large_counterexample",
    "Spine.C126_truncated_counterexample",
    "Spine.C126_special_counterexample"
   ],
   "note": "Proved for every floating point type of p bits with order-preserving rounding: times and results up to 2^p are less than one unit off and exact if whole; order is kept for all values. False: the result is truncated, not rounded (every odd time halved), times that are no float are changed by *= 1.0f, NaN and infinities are undefined behaviour."
  },
  {
   "property": "C127",
   "status": "partial",
   "theorems": [
    "Spine.C127_exact",
    "Spine.C127_count_partial",
    "Spine.C127_negative_counterexample",
    "Spine.C127_wrap_counterexample"
   ],
   "note": "The product is right iff it fits, the quotient iff the time is not negative, the count is 1, or the count exceeds the time taken modulo 2^64 (C127_exact). So a negative time divided by a count from 2 to 2^63 becomes positive, and products that do not fit wrap silently."
  },
  {
   "property": "C128",
   "status": "partial",
   "theorems": [
    "Spine.C128_copies_partial",
    "Spine.C128_exclusive_partial",
    "Spine.C128_one_owner",
    "Spine.C128_destroyed_copy_counterexample",
    "Spine.C128_debug_counterexample",
    "Spine.C128_dangling_counterexample"
   ],
   "note": "Proved while no pool is destroyed: every copy hands out each object at most once. Destroying a copy empties half of the slots of the original (release) or fails an assertion (debug); destroying the original leaves the copies dangling."
  },
  {
   "property": "C129",
   "status": "partial",
   "theorems": [
    "Spine.C129_difference_partial",
    "Spine.C129_rollover_counterexample",
    "Spine.C129_rounding_counterexample",
    "Spine.C129_zephyr_partial",
    "Spine.C129_zephyr_counterexample"
   ],
   "note": "Proved within 255 us when the clock does not roll around in between, and exactly for the first 16.7 s. Rollover and rounding counterexamples are general."
  },
  {
   "property": "C130",
   "status": "partial",
   "theorems": [
    "Spine.C130_paced_partial",
    "Spine.C130_punctual_partial",
    "Spine.C130_drift",
    "Spine.C130_drift_counterexample",
    "Spine.C130_capacity_counterexample",
    "Spine.C130_late_partial"
   ],
   "note": "Refinement to a specification of periodic tasks, for uptimes up to 2^24 ms and fewer tasks than the capacity: gaps between calls are in [T, T+L]. For uptimes N up to 2^40 ms and periods longer than N / 2^24 ms, the same up to N / 2^24 ms (C130_late_partial). False of the time since the start: the delays add up (general in T, L and the number of calls), and fails with as many tasks as the capacity."
  },
  {
   "property": "C131",
   "status": "partial",
   "theorems": [
    "Spine.C131_sum",
    "Spine.C131_difference",
    "Spine.C131_equal_partial",
    "Spine.C131_equal_counterexample",
    "Spine.C131_ratio",
    "Spine.C131_underflow_counterexample"
   ],
   "note": "Sums, differences and ratios are proved. Equality is proved in one direction (equal means close); the other is false: 30 mm do not equal 3 cm (C131_equal_counterexample). A tiny divisor may convert to zero and be reported as a division by zero (C131_underflow_counterexample)."
  },
  {
   "property": "C132",
   "status": "partial",
   "theorems": [
    "Spine.C132_getters_partial",
    "Spine.C132_numbers",
    "Spine.C132_round_trip",
    "Spine.C132_avr_numbers",
    "Spine.C132_avr_counterexample"
   ],
   "note": "Proved for a 64-bit time_t (timestamps before 2000 in release builds only, see C84), for every library that meets Clib.Utc; such a library exists (utc_exists). False on AVR, whose library counts from 2000: every date made from a timestamp is 10957 days late (C132_avr_counterexample); from numbers the timestamps are right there too."
  },
  {
   "property": "C133",
   "status": "partial",
   "theorems": [
    "Spine.C133_own_partial",
    "Spine.C133_front_counterexample",
    "Spine.C133_insert_counterexample",
    "Spine.C133_back_counterexample",
    "Spine.C133_moved_counterexample"
   ],
   "note": "Proved when nothing has to be moved, or only elements behind the referenced one. False otherwise, with the value inserted stated for every reachable vector: push_front on a window at slot 0 inserts the element before, or zero; insert at or before the element likewise; push_back and insert on a window at the end of the storage insert an element further on, or zero (C133_back_counterexample, C133_moved_counterexample)."
  },
  {
   "property": "C134",
   "status": "partial",
   "theorems": [
    "Spine.C134_line_stays_partial",
    "Spine.C134_overwritten_counterexample",
    "Spine.C134_wrong_line_counterexample"
   ],
   "note": "Holds if nothing in the input buffer had been overwritten when the transaction was opened (`overrun_space() == 0`). Otherwise the buffer is full and the next received byte replaces the first character shown, because `pull_in_data` stops before a complete line only when the overrun count is zero (`C134_overwritten_counterexample`, for every such state); `C134_wrong_line_counterexample` is a history in which the committed transaction drops a line that was never shown."
  },
  {
   "property": "C135",
   "status": "proved",
   "theorems": [
    "Spine.C135_mapped_range",
    "Spine.C135_invert",
    "Spine.C135_mean"
   ],
   "note": "The exact values are those of C50, C51 and C82. halfMax in the theorem is (2^24 - 1) * 2^103, half of the largest float."
  },
  {
   "property": "C136",
   "status": "partial",
   "theorems": [
    "Spine.Ring.C136_uninterrupted",
    "Spine.Ring.C136_pop_partial",
    "Spine.Ring.C136_pop_counterexample",
    "Spine.Ring.C136_pop_full_counterexample",
    "Spine.Ring.C136_push_partial",
    "Spine.Ring.C136_push_counterexample",
    "Spine.Ring.C136_handler_counterexample"
   ],
   "note": "False in general. pop loses everything if the handler fills the buffer between the writes of m_tail and m_is_full, and returns false on a full buffer if the handler fills it between the two reads of empty(); push marks the buffer as full if the handler pops everything between the write of m_head and the comparison; and a handler that interrupts the push of the last element finds the buffer empty. C136_pop_partial and C136_push_partial hold for all other interleavings; C136_uninterrupted relates the interruptible functions to push and pop. The model is the best case: C++ gives no guarantee at all for members that are not atomic."
  },
  {
   "property": "C137",
   "status": "partial",
   "theorems": [
    "Spine.C137_exact",
    "Spine.LineBuf.C137_read_partial",
    "Spine.LineBuf.C137_guarded_partial",
    "Spine.LineBuf.C137_crlf_counterexample",
    "Spine.LineBuf.C137_long_counterexample",
    "Spine.LineBuf.C137_stuck_counterexample"
   ],
   "note": "False in general: get_next_line returns 0 for an empty line, and with the default delimiters every line that ends with CR LF is followed by an empty one, so the first loop ends after one line (C137_crlf_counterexample). A line that does not fit the caller's array is never removed: the first loop ends, the second one runs for ever (C137_long_counterexample, C137_stuck_counterexample). C137_read_partial says exactly which lines the first loop processes; C137_guarded_partial covers the second loop for lines that fit. C137_exact: these conditions are necessary, too."
  },
  {
   "property": "C138",
   "status": "proved",
   "theorems": [
    "Spine.C138_drift",
    "Spine.C138_linear"
   ],
   "note": "Proved with an explicit bound that grows with the number of computations; C138_linear shows that it has to grow. Hypotheses: sizes of at most 2^120, so that nothing overflows."
  },
  {
   "property": "C139",
   "status": "proved",
   "theorems": [
    "Spine.C139_fields",
    "Spine.C139_undefined"
   ],
   "note": "Proved in full up to the call of mktime (C83 covers that one): an equivalence with a specification of the formats of sscanf that is independent of the model."
  },
  {
   "property": "C140",
   "status": "partial",
   "theorems": [
    "Spine.C140_inherited_partial",
    "Spine.C140_at_exact",
    "Spine.C140_const_loop_exact",
    "Spine.C140_at_counterexample",
    "Spine.C140_const_reverse_counterexample"
   ],
   "note": "Proved for vectors whose window starts at slot 0 (at, data) and for full ones (cbegin..cend). The code violates it otherwise: C140_at_counterexample, C140_const_reverse_counterexample. C140_at_exact and C140_const_loop_exact say what happens in all cases."
  },
  {
   "property": "C141",
   "status": "partial",
   "theorems": [
    "Spine.C141_debug",
    "Spine.C141_release_partial",
    "Spine.C141_abort_counterexample",
    "Spine.C141_outgoing_counterexample",
    "Spine.C141_moved_counterexample"
   ],
   "note": "Debug builds: proved. Release builds: proved for incoming, commit, destruction, and abort with an output buffer that is not full. The code violates it for outgoing, for abort with a full output buffer (everything waiting is lost) and for objects that were moved from."
  },
  {
   "property": "C142",
   "status": "proved",
   "theorems": [
    "Spine.C142_settles",
    "Spine.C142_first",
    "Spine.C142_swings"
   ],
   "note": "Exact arithmetic; the part on single precision is C138. The bound and the factor are given by the gains alone. C142_swings: with a gain just beyond the limits of stability the error keeps the same size for ever, so the condition on the gains cannot be left out."
  },
  {
   "property": "C143",
   "status": "partial",
   "theorems": [
    "Spine.C143_ignored_counterexample",
    "Spine.C143_acts_partial"
   ],
   "note": "False without an integral part: PID always works on measurement (C78), where only the integral part sees the setpoint. With Ki = 0 the output is the same whatever the setpoints were (C143_ignored_counterexample). C143_acts_partial: off the limits, a change of the setpoint changes the output by that change times Ki (plus Kp on error)."
  },
  {
   "property": "C144",
   "status": "partial",
   "theorems": [
    "Spine.C144_xyz_partial",
    "Spine.C144_xy_partial",
    "Spine.C144_distance_partial",
    "Spine.C144_rounded_partial",
    "Spine.C144_rounded_xy_partial",
    "Spine.C144_triangle_counterexample",
    "Spine.C144_overflow",
    "Spine.C144_division",
    "Spine.C144_division_xy"
   ],
   "note": "True in exact arithmetic, in terms of Mathlib's Euclidean space (C144_xyz_partial, C144_xy_partial), and with relative errors of the size of one rounding for sums and multiples, three for distances (C144_rounded_partial, C144_rounded_xy_partial). False for int coordinates: the length is cut off, so that a side of a triangle can be longer than the other two together (C144_triangle_counterexample). Sums of int points are undefined exactly if a coordinate overflows (C144_overflow); division and remainder fit together (C144_division, C144_division_xy)."
  },
  {
   "property": "C145",
   "status": "partial",
   "theorems": [
    "Spine.C145_exact_partial",
    "Spine.C145_drift_partial",
    "Spine.C145_undo",
    "Spine.C145_stalls_counterexample"
   ],
   "note": "Exact within one unit for times up to 2^24 (C145_exact_partial); off by at most half a unit for each time added between different units (C145_drift_partial), and -= always takes back what += added (C145_undo). False in general: a variable in seconds does not grow, however many times of up to 499 ms are added to it (C145_stalls_counterexample)."
  },
  {
   "property": "C146",
   "status": "partial",
   "theorems": [
    "Spine.C146_debug_partial",
    "Spine.C146_detach_counterexample"
   ],
   "note": "False: detach is not implemented. In debug builds it fails an assertion (C146_debug_partial); in release builds it does nothing, and every later event calls the handler, through a dangling pointer if it was destroyed (C146_detach_counterexample)."
  },
  {
   "property": "C147",
   "status": "partial",
   "theorems": [
    "Spine.C147_band_partial",
    "Spine.C147_first",
    "Spine.C147_factor",
    "Spine.C147_stuck_counterexample"
   ],
   "note": "The quantity stays in a band around the setpoint, however long the loop runs: the errors at first shrink by a factor with each computation, and what is left is bounded by the size of the disturbances, of the error of the sensor and of the rounding errors (C147_band_partial). There is such a factor for all gains of C142 (C147_factor), and the first computation leads from any state into the hypotheses (C147_first). False as it stands: a loop with a perfect sensor and no disturbances can stay away from the setpoint for ever, since the integral no longer changes (C147_stuck_counterexample). Missing: derivative part, more than one step of the process per computation."
  },
  {
   "property": "C148",
   "status": "proved",
   "theorems": [
    "Spine.C148_band",
    "Spine.C148_maximal_counterexample"
   ],
   "note": "Readings as rationals (the latch only compares them, and comparisons of finite floats are exact). The process is any list of readings that keeps the rates, given the responses the latch actually gave. The bound holds without low <= high. The counterexample shows that it needs maximal_on_time = 0."
  },
  {
   "property": "C149",
   "status": "partial",
   "theorems": [
    "Spine.C149_pid_partial",
    "Spine.C149_timer_counterexample",
    "Spine.C149_late_partial",
    "Spine.C149_late_counterexample"
   ],
   "note": "Composes C130 (times of the calls of a periodic event) with the models of the PID and of the interval timer. The PID compares with >=, the interval timer with >; so the first works at every call, and the second misses every other punctual call (general in the period and the number of calls). C149_late_partial extends it to uptimes of 34 years for sampling times that are shorter than the period by twice the precision of a float at the uptime; C149_late_counterexample shows that a sampling time equal to the period does not do then."
  },
  {
   "property": "C150",
   "status": "partial",
   "theorems": [
    "Spine.C150_text",
    "Spine.C150_length",
    "Spine.C150_distinct",
    "Spine.C150_read_back_partial",
    "Spine.C150_octal_counterexample"
   ],
   "note": "strftime is modelled for the conversions used, in the C locale; gmtime_r as in C132. Writing and identification are proved. Reading back is proved up to the call of mktime (C83) if no hour, minute or second is 8 or 9; it is false otherwise: 08 and 09 are written and then read as octal numbers (C150_octal_counterexample)."
  },
  {
   "property": "C151",
   "status": "partial",
   "theorems": [
    "Spine.C151_reading_partial",
    "Spine.C151_push_counterexample",
    "Spine.C151_rollover_counterexample",
    "Spine.C151_dangling_counterexample",
    "Spine.C151_moved_counterexample"
   ],
   "note": "Copies share the slots of the original. Proved for programs that only take out and look: any number of copies, of copies of copies, with calls in any order, behave as separate queues as long as the original lives (C151_reading_partial). False otherwise: elements pushed into both take the same slot (C151_push_counterexample), a push with rollover into the copy of a full ring buffer replaces the oldest element of the original (C151_rollover_counterexample), a copy whose original was destroyed, or a ring buffer that was moved from, reports its elements but reading them is undefined behaviour (C151_dangling_counterexample, C151_moved_counterexample). Each counterexample holds for every ring buffer, not only for one."
  },
  {
   "property": "C152",
   "status": "partial",
   "theorems": [
    "Spine.Pids.C152_in_place_partial",
    "Spine.Pids.C152_deaf_counterexample",
    "Spine.Pids.C152_dangling_counterexample",
    "Spine.Pids.C152_assigned_counterexample",
    "Spine.Pids.C152_meddles_counterexample"
   ],
   "note": "Holds for every program in which initialize() and new_reading() are called only on objects constructed where they are: then all objects, copies included, are as if each was a controller of its own, faults included (C152_in_place_partial). Does not hold otherwise: the compiler's copy operations copy the pointers of the backend, which point to the variables of the original. A copy never changes its response (C152_deaf_counterexample); its readings change the response of the original, whatever their value (C152_meddles_counterexample); after the original is gone, using it is undefined behaviour (C152_dangling_counterexample), and so is initialize() after pid = PID(cfg) (C152_assigned_counterexample)."
  },
  {
   "property": "C153",
   "status": "partial",
   "theorems": [
    "Spine.Plant.C153_preheat_partial",
    "Spine.Plant.C153_none",
    "Spine.Plant.C153_rollover_counterexample",
    "Spine.Plant.C153_simulated_counterexample"
   ],
   "note": "For processes as state machines of any type, in any arithmetic, with a journal of all calls: the turns of heating and the end, at most 1800 turns if the clock keeps time (2^24 ms after start-up at the latest). The half hour is measured with HAL::millis(), not with the clock given to autotune: with the clock of an Arduino rolling around, or with a simulated process on the mock platform, heating a process that does not reach the startpoint never ends."
  },
  {
   "property": "C154",
   "status": "partial",
   "theorems": [
    "Spine.Plant.C154_autotune_partial",
    "Spine.Plant.C154_punctual_partial",
    "Spine.Plant.C154_early_counterexample"
   ],
   "note": "For processes as state machines of any type: the complete journal of a run that ends, related to the tuner (C47, C81). The time between readings can be short by one part in 2^24 of the uptime, see the counterexample; waiting is punctual up to the length of one loop and sleep."
  },
  {
   "property": "C155",
   "status": "partial",
   "theorems": [
    "Spine.C155_uses_partial",
    "Spine.C155_moved_state",
    "Spine.C155_copy_counterexample"
   ],
   "note": "The unwrap functions move a Wrapper, whose conversion gives an lvalue: the value is copied, and stays. Missing: types for which a copy is not a copy (C155_copy_counterexample, C87)."
  },
  {
   "property": "C156",
   "status": "partial",
   "theorems": [
    "Spine.C156_noise_partial",
    "Spine.C156_spikes_partial",
    "Spine.C156_dropouts_partial",
    "Spine.C156_first_counterexample",
    "Spine.C156_spikes_float_partial",
    "Spine.C156_dropouts_float_partial"
   ],
   "note": "Noise, spikes and drop-outs are proved in single precision, with one rounding error per spike, and the number of other samples does not matter (C156_noise_partial, C156_spikes_float_partial, C156_dropouts_float_partial); without rounding errors in exact arithmetic (C156_spikes_partial, C156_dropouts_partial). False before the frame is full: the first sample is the average (C156_first_counterexample). Latches with a maximal off (or on) time are excluded, as they switch without a reason (C42)."
  },
  {
   "property": "C157",
   "status": "partial",
   "theorems": [
    "Spine.C157_until_next_partial",
    "Spine.C157_day_partial",
    "Spine.C157_gap_counterexample",
    "Spine.C157_order_counterexample",
    "Spine.C157_overlap_counterexample"
   ],
   "note": "True for plans in the order of starts without gaps and overlaps; between blocks the sleeping program keeps showing the value of a block that has ended, and counterexamples show the other orders and overlaps."
  },
  {
   "property": "C158",
   "status": "partial",
   "theorems": [
    "Spine.C158_forgets_partial",
    "Spine.C158_value",
    "Spine.C158_ewma",
    "Spine.C158_band_partial",
    "Spine.C158_band_counterexample",
    "Spine.C158_scale_counterexample"
   ],
   "note": "Proved for stacks of EWMA, MappedRange, Invert and Passthrough; BandPass keeps its count of rejections over a reset (proved for a band that has just accepted a reading), and a stack resets filters behind a MappedRange to an unmapped number."
  },
  {
   "property": "C159",
   "status": "partial",
   "theorems": [
    "Spine.C159_server_partial",
    "Spine.C159_server",
    "Spine.C159_fixed",
    "Spine.C159_answered",
    "Spine.C159_straddles_counterexample"
   ],
   "note": "Any requests: C159_server_partial (the replies received and on their way are those to the requests served, whatever was lost; the only possible failure is reading a request that runs over the end of the storage through Transaction::incoming()). Requests shorter than the input buffer, copied with get_next_line or never running over a multiple of the buffer's size: C159_server (no failure, nothing lost, requests served are exactly the first ones sent), C159_fixed (requests of one length k with k + 1 dividing the size), C159_answered (all requests answered and delivered after (M + 2)(n + a) + m rounds). C159_straddles_counterexample: a transaction's view of a request that runs over the end is undefined behaviour, and it happens with two requests of 4 bytes in a buffer of 8."
  },
  {
   "property": "C160",
   "status": "partial",
   "theorems": [
    "Spine.C160_served",
    "Spine.C160_reschedule",
    "Spine.C160_again",
    "Spine.C160_order_partial",
    "Spine.C160_front_partial",
    "Spine.C160_covered_partial",
    "Spine.C160_later_counterexample",
    "Spine.C160_earlier_counterexample",
    "Spine.C160_twice"
   ],
   "note": "The documented claim is false. C160_served says exactly what comes out of a pipeline in any state a user can reach with push, reschedule, waiting and serving: the longest stretch from the front all of which is due, in queue order. C160_reschedule says what rescheduling does to the queue: the place stays, the deadline changes. Together they give what is left of the claim: the order of service never changes (C160_order_partial), the futures queued before are not affected (C160_front_partial), and nothing is affected while a future queued before it is due at or after both deadlines (C160_covered_partial); and how it fails, for every pipeline and not just one: a future moved to later holds up all behind it (C160_later_counterexample), and one moved to earlier comes out earlier (C160_earlier_counterexample). C160_again and C160_twice: pushing a pending future. Times are below 2^24 ms, where k_time is exact."
  },
  {
   "property": "C161",
   "status": "proved",
   "theorems": [
    "Spine.C161_exchange",
    "Spine.C161_completes",
    "Spine.C161_serial"
   ],
   "note": "C161_exchange (after any history of steps, no failure and the client's and the server's view agree), C161_completes (after any such history, (number of requests)(L + M + 4) + 1 rounds of both loops finish the dialogue), C161_serial (both for two serial ports, with send buffers of any size). Conditions: requests and replies contain no delimiters and fit, with theirs, into the buffers and the ports; requests that are read in place have one length which with the delimiter divides the input buffer. Examples show that without the conditions requests are cut, reading is undefined behaviour, or the client waits forever."
  },
  {
   "property": "C162",
   "status": "partial",
   "theorems": [
    "Spine.C162_own",
    "Spine.C162_requeue_partial",
    "Spine.C162_straddles_counterexample"
   ],
   "note": "C162_own: any run of elements that is contiguous in the storage, both modes. C162_requeue_partial: moving a line to the end, for lines that do not run over the end of the storage. C162_straddles_counterexample: for the other ones the view that get_next_line_view gives out leaves the storage, and pushing it is undefined behaviour."
  },
  {
   "property": "C163",
   "status": "partial",
   "theorems": [
    "Spine.Narrow.C163_operations",
    "Spine.Narrow.C163_alarm_partial",
    "Spine.Narrow.C163_end_counterexample",
    "Spine.Narrow.C163_set_counterexample",
    "Spine.Narrow.C163_stuck_counterexample",
    "Spine.Narrow.C163_interval_partial",
    "Spine.Narrow.C163_interval_counterexample",
    "Spine.Narrow.C163_text_counterexample",
    "Spine.Narrow.C163_text_partial"
   ],
   "note": "False. With 32 bits an operation gives the same result exactly if the converted operand and the result fit (C163_operations), so alarms set and asked within the first 24 days, but for the last 64 ms, give the same answers, with the same accuracy (C163_alarm_partial), and so do interval timers (C163_interval_partial). But an alarm due at 2^31 ms or later is undefined when set, asking any pending alarm in the 64 ms before is undefined, since the reading is rounded to 2^31 in float, and after that a pending alarm or an interval timer does not fire for another 24 days. Times of 36 minutes and more cannot be converted to us, so repr of them is undefined; up to 2147 s the text is the same (C163_text_partial)."
  },
  {
   "property": "C164",
   "status": "partial",
   "theorems": [
    "Spine.Compound.C164_float_partial",
    "Spine.Compound.C164_long_counterexample",
    "Spine.Compound.C164_int_partial",
    "Spine.Compound.C164_gcd_counterexample"
   ],
   "note": "False. In float a quantity whose numerator is zero or not below the precision and whose denominator is not below it is kept up to one part in 2^22, for every width, if the scaled numbers fit (C164_float_partial). With a 32-bit unsigned long they do not fit for numerators from 4295 on with the default precision, which is undefined (C164_long_counterexample). Integers are reduced to lowest terms there, even negative ones, which is not so with 64 bits (C90), if the greatest common divisor is below 2^32 (C164_int_partial); larger ones are cut (C164_gcd_counterexample). Negative floats are undefined for both (C90)."
  },
  {
   "property": "C165",
   "status": "partial",
   "theorems": [
    "Spine.Sleep.C165_alarm_partial",
    "Spine.Sleep.C165_overdue_counterexample",
    "Spine.Sleep.C165_periodic_partial",
    "Spine.Sleep.C165_catch_up_partial",
    "Spine.Sleep.C165_never_counterexample",
    "Spine.Sleep.C165_hang_counterexample",
    "Spine.Sleep.C165_back_counterexample"
   ],
   "note": "Holds on all platforms for alarms that are not overdue, and for interval timers if at least 1 ms passes between the end of the sleep and expired() and the program is never late (C165_alarm_partial, C165_periodic_partial, C165_catch_up_partial), up to 2^24 ms. False otherwise: a negative time makes Arduino sleep for 49 days and turns back the mock clock, and expired() is false in the ms in which the sleep ends."
  },
  {
   "property": "C166",
   "status": "partial",
   "theorems": [
    "Spine.C166_push_partial",
    "Spine.C166_push_ends",
    "Spine.C166_pull",
    "Spine.C166_history_partial",
    "Spine.C166_refused_counterexample",
    "Spine.C166_read_only",
    "Spine.C166_write_only",
    "Spine.C166_bare"
   ],
   "note": "False for the output: push_out_data() takes a byte from its buffer before the port accepts it, so a refused byte is lost (C166_refused_counterexample). True on every port: order is kept, nothing is duplicated, at most one byte is lost per call of push_out_data(), the number returned is the number accepted, and nothing the port delivered is lost on the input side. A class that does not override write(uint8_t) destroys one byte per call in a release build and fails an assertion in a debug build."
  },
  {
   "property": "C167",
   "status": "partial",
   "theorems": [
    "Spine.C167_valid",
    "Spine.C167_width",
    "Spine.C167_unique",
    "Spine.C167_documented_partial",
    "Spine.C167_mantissa_counterexample",
    "Spine.C167_broad",
    "Spine.C167_logarithmic_counterexample",
    "Spine.C167_normalised"
   ],
   "note": "The code computes (mantissa*10)^(decades+1) instead of the documented mantissa*10^(decades+1): they agree if and only if the mantissa is 1 (the default) or decades is 0. The distance is a plain difference, not a logarithmic one: the default filter has a band of about 10.23 to both sides at any magnitude, so it never rejects anything of a quantity between 0 and 1. std::pow is taken as exact."
  },
  {
   "property": "C168",
   "status": "partial",
   "theorems": [
    "Spine.LineBuf.C168_kept_partial",
    "Spine.LineBuf.C168_any",
    "Spine.LineBuf.C168_rollover_counterexample",
    "Spine.LineBuf.C168_zero_counterexample"
   ],
   "note": "Proved for pushes without rollover and for calls that only look (C168_kept_partial), and what any other length does (C168_any: never undefined behaviour). False if a push with rollover came in between (C168_rollover_counterexample) and for a length of 0 (C168_zero_counterexample)."
  },
  {
   "property": "C169",
   "status": "partial",
   "theorems": [
    "Spine.C169_read",
    "Spine.C169_dimmer_partial",
    "Spine.C169_low_counterexample",
    "Spine.C169_wide_counterexample",
    "Spine.C169_percentage"
   ],
   "note": "Proved for converters of up to 10 bits (exact, no rounding); percentage and permillage are exact for every converter, but stop at the end of a range of 10 bits. False for wider converters, as read() always divides by 1024: what is read exceeds 1 and is refused or written out of range (C169_wide_counterexample); with an output active on low a reading of 0 writes 2^resolution (C169_low_counterexample)."
  },
  {
   "property": "C170",
   "status": "partial",
   "theorems": [
    "Spine.C170_value_partial",
    "Spine.C170_memoryless_partial",
    "Spine.C170_band_partial",
    "Spine.C170_first_counterexample",
    "Spine.C170_average_counterexample"
   ],
   "note": "value() is unchanged (C170_value_partial); if filters without a memory come first (MappedRange, Invert, Passthrough) and one of them refuses, or a BandPass comes first and refuses, all later readings give what they would have given (C170_memoryless_partial, C170_band_partial; the latter up to 2^31 refusals in a row). False otherwise: an EWMA in front has taken the refused reading, so that good readings after it are refused as well (C170_average_counterexample), and a BandPass that refuses its first reading takes it for its value (C170_first_counterexample)."
  },
  {
   "property": "C171",
   "status": "proved",
   "theorems": [
    "Spine.C171_settles",
    "Spine.C171_near",
    "Spine.C171_first_order",
    "Spine.C171_late"
   ],
   "note": "Proved, with a factor and a bound that are the same for all runs (C171_settles), and that runs starting near rest stay off the limits (C171_near). The inequalities for processes of first order, with any number of steps per computation and derivative part, and for one with a dead time are proved to imply the root condition (C171_first_order, C171_late). Runs are finite, since the clock is (Runs for endless runs would be vacuous)."
  },
  {
   "property": "C172",
   "status": "partial",
   "theorems": [
    "Spine.FilterSlots.C172_occupied_partial",
    "Spine.FilterSlots.C172_memory_partial",
    "Spine.FilterSlots.C172_slots_counterexample",
    "Spine.FilterSlots.C172_beyond_counterexample"
   ],
   "note": "False as stated: filter_slots() is max_size() of std::vector, never the number asked for (C172_slots_counterexample), and a filter beyond the last slot is attached (C172_beyond_counterexample). What holds: occupied slots are the attached filters in order; up to the number asked for nothing is allocated."
  },
  {
   "property": "C173",
   "status": "partial",
   "theorems": [
    "Spine.HandlerLink.C173_one_partial",
    "Spine.HandlerLink.C173_stops",
    "Spine.HandlerLink.C173_release_partial",
    "Spine.HandlerLink.C173_release_counterexample"
   ],
   "note": "Debug builds: proved, including that each misuse is stopped (C173_stops). Release builds: a second attachment moves the handler silently, attaching to a null pointer makes every use undefined (C173_release_counterexample)."
  },
  {
   "property": "C174",
   "status": "proved",
   "theorems": [
    "Spine.Ring.C174_pointer",
    "Spine.Ring.C174_write",
    "Spine.Ring.C174_left"
   ],
   "note": "Proved; also that the place is reused once the element has been popped (C174_left). drop_first(0) and drop_last(0) on a full buffer are excluded, see C04."
  },
  {
   "property": "C175",
   "status": "partial",
   "theorems": [
    "Spine.C175_stack",
    "Spine.C175_passthrough",
    "Spine.C175_mapped",
    "Spine.C175_invert",
    "Spine.C175_average_partial",
    "Spine.C175_mapped_exact",
    "Spine.C175_invert_exact",
    "Spine.C175_average_counterexample",
    "Spine.C175_band_counterexample"
   ],
   "note": "Single precision: proved for stacks of MappedRange (limits up to 2^125), Invert and Passthrough, also for infinite samples. EWMA: proved in exact arithmetic for frames of at least one sample; in single precision false, the average of smaller samples can be larger (C175_average_counterexample). BandPass: false, a larger sample can be refused (C175_band_counterexample)."
  },
  {
   "property": "C176",
   "status": "partial",
   "theorems": [
    "Spine.C176_steps",
    "Spine.C176_exact_partial",
    "Spine.C176_float_partial",
    "Spine.C176_float_counterexample"
   ],
   "note": "The times are proved for any arithmetic (C176_steps); the number of steps exactly in exact arithmetic, and up to one and a half increments in single precision, where it can be one too many: fading from 0 to 0.5 with the defaults takes 1500 instead of 1250 ms (C176_float_counterexample)."
  },
  {
   "property": "C177",
   "status": "partial",
   "theorems": [
    "Spine.C177_push_back_exact",
    "Spine.C177_push_front_exact",
    "Spine.C177_pop_keeps",
    "Spine.C177_stack_partial",
    "Spine.C177_moved_counterexample",
    "Spine.C177_front_counterexample"
   ],
   "note": "False as stated: push_back moves every element to the start of the storage when the window has reached its end after removals at the front, and push_front shifts every element when the window starts at slot 0 (counterexamples). Proved instead: exactly when push_back and push_front move the elements (iff), that pop_front and pop_back never move the others, and that references stay valid while the vector is used as a stack."
  },
  {
   "property": "C178",
   "status": "proved",
   "theorems": [
    "Spine.C178_exactly_once",
    "Spine.C178_capacity",
    "Spine.C178_handlers",
    "Spine.C178_reaches",
    "Spine.C178_delivers",
    "Spine.C178_no_exception"
   ],
   "note": "Proved over a model in which every handler is an arbitrary program that may throw, catch and pass on exceptions. Exceptions thrown by the library itself or by the standard library are not part of it: they end the run."
  },
  {
   "property": "C179",
   "status": "partial",
   "theorems": [
    "Spine.C179_unchanged_partial",
    "Spine.C179_current",
    "Spine.C179_changed_counterexample",
    "Spine.C179_destroyed_counterexample"
   ],
   "note": "False as stated: a LineBuffer keeps a std::string_view, so that changing the caller's text changes the delimiters, and looking for a line after the text has ended is undefined behaviour (counterexamples). Proved instead: exactly which delimiters are in force, and that a line buffer behaves as one which remembers them while the texts exist and keep their characters."
  },
  {
   "property": "C180",
   "status": "proved",
   "theorems": [
    "Spine.C180_off",
    "Spine.C180_limits",
    "Spine.C180_controller",
    "Spine.C180_drift",
    "Spine.C180_mapped",
    "Spine.C180_differs"
   ],
   "note": "Every subset of the contractible places. C180_off: with none contracted the model is the one of C44, C50, C135, C138. C180_differs shows that the numbers do depend on it. Contraction in units is not modelled."
  },
  {
   "property": "C181",
   "status": "partial",
   "theorems": [
    "Spine.C181_product",
    "Spine.C181_order_partial",
    "Spine.C181_convert_partial",
    "Spine.C181_order_counterexample",
    "Spine.C181_kernel_partial"
   ],
   "note": "The raw value is right, in squares of the left unit (C181_product; kernel times within the range of C124). False that the operands can be exchanged or converted first: the result has the type of a length, 2 km * 3 m is 0.006 km and 3 m * 2 km is 6000 m. The source marks the operator as unstable for this reason. The partial theorems say for exactly which operands it makes no difference."
  },
  {
   "property": "C182",
   "status": "partial",
   "theorems": [
    "Spine.C182_off_partial",
    "Spine.C182_initialize",
    "Spine.C182_set_first",
    "Spine.C182_counterexample",
    "Spine.C182_follows"
   ],
   "note": "False for an output that is active on a low level after a reset: pinMode(OUTPUT) comes before the first digitalWrite, and the latch is low. C182_initialize gives the levels exactly; setting the state to off before initialize() avoids it (C182_set_first). Assumes that digitalWrite on an input sets the output latch, as on AVR, SAMD and STM32."
  },
  {
   "property": "C183",
   "status": "proved",
   "theorems": [
    "Spine.C183_paced",
    "Spine.C183_utilisation",
    "Spine.C183_overload"
   ],
   "note": "Refinement to a specification of periodic tasks with costs (C183_paced). The bounded time is any B with sum of cost * (B / (cost + period) + 1) <= B, and there is one whenever the sum of cost / (cost + period) is below 1 (C183_utilisation). At 1 loop() need not return (C183_overload)."
  },
  {
   "property": "C184",
   "status": "partial",
   "theorems": [
    "Spine.C184_scale",
    "Spine.C184_backend",
    "Spine.C184_on_error_partial",
    "Spine.C184_first_reading_counterexample"
   ],
   "note": "Exact arithmetic. Proved from construction on for every change of scale, and for every change of scale and offset if the proportional part acts on the error and there is no derivative part, or if a PIDController is initialised with a reading in its input variable. False otherwise: the first reading of a PID counts as a change from 0, so a first reading at the setpoint gives a response that depends on the offset (proved for all controllers with limits on both sides of 0)."
  },
  {
   "property": "C185",
   "status": "partial",
   "theorems": [
    "Spine.C185_stack",
    "Spine.C185_latch",
    "Spine.C185_band_partial",
    "Spine.C185_band_counterexample"
   ],
   "note": "Exact arithmetic. Proved for stacks of averages, mapped ranges, inverters and pass-through filters and for latches. A band-pass filter knows that it has no value by a value of -789.123456789, so a sample of that value counts as none; proved for samples that are different from it in both units."
  },
  {
   "property": "C186",
   "status": "partial",
   "theorems": [
    "Spine.C186_stack_partial",
    "Spine.C186_rate",
    "Spine.C186_short_counterexample",
    "Spine.C186_band_partial",
    "Spine.C186_band_counterexample",
    "Spine.C186_throws_counterexample"
   ],
   "note": "Exact arithmetic. Proved for stacks of averages (frames over 1/2, which is exact), mapped ranges, inverters and pass-through filters as long as neither stack throws, with the rate for an average. False for band-pass filters, of which each may reject for ever what the other accepts (proved: from the first sample that both accept on they do the same), and for stacks with a range that throws, of which one may throw at every sample and the other at none."
  },
  {
   "property": "C187",
   "status": "partial",
   "theorems": [
    "Spine.C187_no_drift_partial",
    "Spine.C187_meet",
    "Spine.C187_out_of_step_counterexample"
   ],
   "note": "Exact arithmetic. Proved from the first reading on that both controllers compute with; if their states are equal then, they do the same for ever. False before: controllers whose last computations were at different times compute with different readings, and can end at opposite limits."
  },
  {
   "property": "C188",
   "status": "partial",
   "theorems": [
    "Spine.C188_reading",
    "Spine.C188_setpoint",
    "Spine.C188_series_partial",
    "Spine.C188_derivative_counterexample"
   ],
   "note": "Single precision; the only exception is a response that is not a number. One reading: for all gains of one sign. Series: proved for controllers without derivative part and with the proportional part on the error; false with a derivative part, which answers a fall from a larger earlier reading."
  },
  {
   "property": "C189",
   "status": "partial",
   "theorems": [
    "Spine.C189_stack_partial",
    "Spine.C189_band",
    "Spine.C189_mapped",
    "Spine.C189_invert",
    "Spine.C189_passthrough",
    "Spine.C189_answers",
    "Spine.C189_band_reset",
    "Spine.C189_average_counterexample",
    "Spine.C189_band_counterexample",
    "Spine.C189_latch"
   ],
   "note": "Proved for latches and for stacks of BandPass, MappedRange, Invert and Passthrough, with the exact number of invalid answers for a BandPass. False for an EWMA, whose value is never a number again (until reset_to), and for a BandPass that is relative and throws, which never accepts a sample if the first one was invalid."
  },
  {
   "property": "C190",
   "status": "partial",
   "theorems": [
    "Spine.C190_timer_partial",
    "Spine.C190_alarm_partial",
    "Spine.C190_interval_partial",
    "Spine.C190_latch_partial",
    "Spine.C190_pid_partial",
    "Spine.C190_pipeline_partial",
    "Spine.C190_alarm_counterexample",
    "Spine.C190_latch_counterexample"
   ],
   "note": "Missing: times beyond 2^24 ms, where the code violates the claim (C190_alarm_counterexample, C190_latch_counterexample: `Unit` converts through single precision). Each theorem compares the run from construction with the one d ms later. Pipelines are limited further as in C35_pipeline_partial (delays of at most 2^23 ms, a clock that does not go back)."
  },
  {
   "property": "C191",
   "status": "proved",
   "theorems": [
    "Spine.C191_latch",
    "Spine.C191_exact",
    "Spine.C191_filtered",
    "Spine.C191_minimal_counterexample",
    "Spine.C191_maximal_counterexample"
   ],
   "note": "C191_latch in single precision, C191_exact exact, C191_filtered behind an exact EWMA with a frame of at least 1. The counterexamples show that the restriction to latches without minimal and maximal times is needed."
  },
  {
   "property": "C192",
   "status": "proved",
   "theorems": [
    "Spine.C192_vector",
    "Spine.C192_vector_own",
    "Spine.C192_stack",
    "Spine.C192_pool",
    "Spine.C192_alarm",
    "Spine.C192_pipeline",
    "Spine.C192_events",
    "Spine.C192_events_throw",
    "Spine.C192_event_data",
    "Spine.C192_pid",
    "Spine.C192_pid_copies",
    "Spine.C192_autotune",
    "Spine.C192_buffers",
    "Spine.C192_transaction",
    "Spine.C192_server",
    "Spine.C192_exchange",
    "Spine.C192_result",
    "Spine.C192_combinators",
    "Spine.C192_output",
    "Spine.C192_values",
    "Spine.C192_filters",
    "Spine.C192_interrupt",
    "Spine.C192_tuning",
    "Spine.C192_bandpass",
    "Spine.C192_answer",
    "Spine.C192_narrow_alarm",
    "Spine.C192_ports",
    "Spine.C192_half_ports"
   ],
   "note": "One theorem per class, each for all histories that return in a debug build; the proof goes through both builds in step. C192_pipeline covers the assertion with a side effect (pipeline.cpp:64): expired() a second time finds what the first call left. Examples show that the converse fails. Both builds are whole builds; a program whose parts are compiled with different settings is not modelled."
  },
  {
   "property": "C193",
   "status": "partial",
   "theorems": [
    "Spine.Ring.C193_sizes_partial",
    "Spine.Ring.C193_newest_partial",
    "Spine.Ring.C193_bulk_pop_counterexample",
    "Spine.Ring.C193_drop_zero_counterexample"
   ],
   "note": "C193_sizes_partial and C193_newest_partial leave out bulk pops and drops of zero elements; C193_bulk_pop_counterexample and C193_drop_zero_counterexample show concrete histories in which the smaller buffer accepts what the larger one refuses."
  },
  {
   "property": "C194",
   "status": "partial",
   "theorems": [
    "Spine.C194_order_partial",
    "Spine.C194_equal",
    "Spine.C194_long_delay_counterexample"
   ],
   "note": "C194_order_partial leaves out delays above 2^23 ms, for which C194_long_delay_counterexample shows that the order of the pushes decides, and a clock that advances between the readings within a push (C35_tick_counterexample). C194_equal shows why the delays must differ."
  },
  {
   "property": "C195",
   "status": "partial",
   "theorems": [
    "Spine.C195_vector_partial",
    "Spine.C195_remove_counterexample",
    "Spine.C195_pop_back_counterexample",
    "Spine.C195_pipeline_partial"
   ],
   "note": "C195_vector_partial leaves out pop_back and remove, for which C195_pop_back_counterexample and C195_remove_counterexample show that a change of capacity changes the answers, and front (see C25). C195_pipeline_partial has the range of C35_later_partial. fill, full and max_size depend on the capacity by their meaning."
  },
  {
   "property": "C196",
   "status": "partial",
   "theorems": [
    "Spine.C196_ring_partial",
    "Spine.C196_drop_zero_counterexample",
    "Spine.C196_alarm",
    "Spine.C196_interval",
    "Spine.C196_pid",
    "Spine.C196_pid_later",
    "Spine.C196_initialize_counterexample",
    "Spine.C196_latch",
    "Spine.C196_latch_counterexample",
    "Spine.C196_pull",
    "Spine.C196_mock",
    "Spine.C196_pipeline_partial"
   ],
   "note": "C196_ring_partial leaves out drop_last(0) and drop_first(0) (C196_drop_zero_counterexample); C196_pipeline_partial has the range of C35_later_partial. C196_latch_counterexample and C196_initialize_counterexample show the calls that look idle and are not. A failed push_out_data is not among the idle calls: it loses the byte that was refused (C166)."
  },
  {
   "property": "C197",
   "status": "partial",
   "theorems": [
    "Spine.C197_arduino_exact",
    "Spine.C197_negative",
    "Spine.C197_units_partial",
    "Spine.C197_whole",
    "Spine.C197_wrap_counterexample",
    "Spine.C197_units_counterexample"
   ],
   "note": "C197_arduino_exact says for which times the delay lasts long enough; C197_units_partial leaves out delays of more than 3000000 ms in other units (C197_units_counterexample). What ::delay and ::delayMicroseconds of the Arduino core do is assumed: they pass the time that is their argument."
  },
  {
   "property": "C198",
   "status": "proved",
   "theorems": [
    "Spine.C198_average",
    "Spine.C198_step",
    "Spine.C198_controller",
    "Spine.C198_fresh",
    "Spine.C198_limit_counterexample"
   ],
   "note": "Exact arithmetic; with floats the responses differ by rounding errors, whose bounds are those of C135 and C138. That the controllers stay off their limits is a hypothesis (FreeThroughout), with a counterexample at a limit; limits are those of the output and of the accumulated integral."
  },
  {
   "property": "C199",
   "status": "partial",
   "theorems": [
    "Spine.C199_tunings",
    "Spine.C199_direction",
    "Spine.C199_limits",
    "Spine.C199_sampling",
    "Spine.C199_initialize",
    "Spine.C199_float",
    "Spine.C199_lstrip",
    "Spine.C199_rstrip_counterexample",
    "Spine.C199_static_string",
    "Spine.C199_simplify_partial",
    "Spine.C199_simplify_counterexample",
    "Spine.C199_simplify",
    "Spine.C199_output",
    "Spine.C199_interrupt",
    "Spine.C199_filters",
    "Spine.C199_stack"
   ],
   "note": "Proved for all listed calls but two: rstrip of a text and simplify of negative integer fractions are counterexamples of the code. simplify of fractions that are not integers is proved in exact arithmetic."
  },
  {
   "property": "C200",
   "status": "partial",
   "theorems": [
    "Spine.C200_ring_partial",
    "Spine.C200_ring_single",
    "Spine.C200_ring_counterexample",
    "Spine.C200_vector_front",
    "Spine.C200_vector_back",
    "Spine.C200_vector_insert_partial",
    "Spine.C200_insert_counterexample",
    "Spine.C200_flip",
    "Spine.C200_invert",
    "Spine.C200_map",
    "Spine.C200_direction",
    "Spine.C200_sampling_counterexample",
    "Spine.C200_limits_counterexample"
   ],
   "note": "Proved for the ring buffer when the push had room, for push_front/pop_front and push_back/pop_back on every reachable vector, for flip, invert, mapping and direction. Counterexamples of the code: a push refused by a full buffer, insert/remove after a pop_front, the sampling time, the limits."
  },
  {
   "property": "C201",
   "status": "partial",
   "theorems": [
    "Spine.Pid.C201_any_order",
    "Spine.Pid.C201_any_order_exact",
    "Spine.Pid.C201_sampling_partial",
    "Spine.Pid.C201_sampling_counterexample",
    "Spine.Interrupt.C201_interrupts"
   ],
   "note": "Proved for all permutations of settings of different things, in exact arithmetic and with floats; for the gains together with the sampling time only when the new time is a multiple of the former one, and the counterexample shows that it fails for every other time."
  },
  {
   "property": "C202",
   "status": "partial",
   "theorems": [
    "Spine.C202_push",
    "Spine.C202_pop_partial",
    "Spine.C202_pop_counterexample",
    "Spine.C202_drop_partial",
    "Spine.C202_single",
    "Spine.C202_streams"
   ],
   "note": "C202_push, C202_single and C202_streams hold in every state. C202_pop_partial leaves out pops of more elements than there are (C202_pop_counterexample), C202_drop_partial pieces of no elements (C04_drop_zero_on_full_counterexample)."
  },
  {
   "property": "C203",
   "status": "proved",
   "theorems": [
    "Spine.Pid.C203_rest",
    "Spine.PID.C203_comes_to_rest",
    "Spine.PID.C203_bump",
    "Spine.PID.C203_float"
   ],
   "note": "Exact arithmetic for all operations of the backend; C203_float for all operations of PID with floats, where the number shown by the output is kept (a zero may change its sign) while the gains in use are finite. C203_bump bounds the change of the next output away from rest."
  },
  {
   "property": "C204",
   "status": "proved",
   "theorems": [
    "Spine.PID.C204_pid",
    "Spine.PID.C204_created",
    "Spine.PID.C204_responses",
    "Spine.Ewma.C204_average",
    "Spine.Latch.C204_latch",
    "Spine.Latch.C204_latch_run"
   ],
   "note": "IEEE single precision in full. For the latch: where both calls return (a latch may fail to convert a time that its mirror image does not look at); with thresholds out of order it is false, see the example."
  },
  {
   "property": "C205",
   "status": "proved",
   "theorems": [
    "Spine.PID.C205_timeless",
    "Spine.PID.C205_jitter",
    "Spine.PID.C205_late"
   ],
   "note": "Histories after initialize, which itself takes over the last reading, used or not (see the example). C205_late: times up to 2^24 ms, where the comparison of times in the code is exact."
  },
  {
   "property": "C206",
   "status": "proved",
   "theorems": [
    "Spine.PID.C206_pid",
    "Spine.Latch.C206_latch",
    "Spine.Filter.C206_value",
    "Spine.Filter.C206_ewma",
    "Spine.Filter.C206_mapped",
    "Spine.Filter.C206_inverter",
    "Spine.Filter.C206_passthrough",
    "Spine.Filter.C206_band",
    "Spine.FilterStack.C206_stack"
   ],
   "note": "IEEE single precision; the signs of zeros may differ in readings, setpoints, gains, samples and resets. The configurations (limits, ranges, frame lengths) are the same for both."
  },
  {
   "property": "C207",
   "status": "proved",
   "theorems": [
    "Spine.Ewma.C207_count",
    "Spine.Ewma.C207_from_start",
    "Spine.Ewma.C207_weight",
    "Spine.Ewma.C207_longest"
   ],
   "note": "IEEE single precision, all floats as samples and frame lengths including infinities and NaN."
  },
  {
   "property": "C208",
   "status": "proved",
   "theorems": [
    "Spine.PID.C208_setpoint",
    "Spine.PID.C208_float"
   ],
   "note": ""
  },
  {
   "property": "C209",
   "status": "proved",
   "theorems": [
    "Spine.C209_wear",
    "Spine.C209_count"
   ],
   "note": ""
  },
  {
   "property": "C210",
   "status": "proved",
   "theorems": [
    "Spine.Band.C210_fresh",
    "Spine.Band.C210_measured"
   ],
   "note": ""
  },
  {
   "property": "C211",
   "status": "proved",
   "theorems": [
    "Spine.Ewma.C211_average",
    "Spine.Ewma.C211_average_float",
    "Spine.Ewma.C211_frame_counterexample",
    "Spine.PID.C211_controller",
    "Spine.PID.C211_limit_counterexample"
   ],
   "note": "The controller in exact arithmetic and the average in exact arithmetic and single precision. C211_frame_counterexample and C211_limit_counterexample show that the restrictions of the statement are needed."
  },
  {
   "property": "C212",
   "status": "proved",
   "theorems": [
    "Spine.C212_no_loss",
    "Spine.C212_used",
    "Spine.C212_delay",
    "Spine.C212_size_needed",
    "Spine.C212_size_needed_rollover"
   ],
   "note": "Rounds run one after the other: an interrupt between producer and consumer is the subject of C136. C212_size_needed shows that the capacity cannot be smaller."
  },
  {
   "property": "C213",
   "status": "proved",
   "theorems": [
    "Spine.C213_chain",
    "Spine.C213_chain_used",
    "Spine.C213_transfer",
    "Spine.C213_hasty_counterexample"
   ],
   "note": "C213_hasty_counterexample is about the careless user program, not about the library: it shows that the condition of the statement is needed."
  },
  {
   "property": "C214",
   "status": "proved",
   "theorems": [
    "Spine.C214_nothing_lost",
    "Spine.C214_arrives",
    "Spine.C214_used"
   ],
   "note": "The rounds run one after the other; C136 is about an interrupt handler."
  }
 ]
}
