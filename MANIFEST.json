{
 "claims": [
  {
   "property": "C01",
   "status": "proved",
   "theorems": [
    "Verif.Ring.c01_ring_is_bounded_deque",
    "Verif.Ring.c01_ring_never_exceeds_capacity"
   ],
   "note": ""
  },
  {
   "property": "C02",
   "status": "proved",
   "theorems": [
    "Verif.Ring.c02_reserve_keeps_newest"
   ],
   "note": ""
  },
  {
   "property": "C03",
   "status": "partial",
   "theorems": [
    "Verif.Ring.c03_at_partial",
    "Verif.Ring.c03_at_size_behaviour",
    "Verif.Ring.c03_at_accepts_size_violated",
    "Verif.Ring.c03_at_reads_raw_memory_violated"
   ],
   "note": "The code's bound check is index > size(): at(size()) does not throw (violation theorems). Everything else is proved."
  },
  {
   "property": "C04",
   "status": "proved",
   "theorems": [
    "Verif.Ring.c04_copy",
    "Verif.Ring.c04_equality",
    "Verif.Ring.c01_ring_is_bounded_deque"
   ],
   "note": ""
  },
  {
   "property": "C05",
   "status": "proved",
   "theorems": [
    "Verif.VectorSet.c05_vector_set_is_sorted_set",
    "Verif.VectorSet.c05_membership"
   ],
   "note": "The whole public history: insert/emplace, erase by key and by iterator, clear, find, contains, bounds, size."
  },
  {
   "property": "C06",
   "status": "proved",
   "theorems": [
    "Verif.VectorSet.c06_index_access",
    "Verif.VectorSet.c06_index_of_iterator",
    "Verif.VectorSet.c06_index_of_key"
   ],
   "note": ""
  },
  {
   "property": "C07",
   "status": "proved",
   "theorems": [
    "Verif.VectorSet.c07_iteration"
   ],
   "note": ""
  },
  {
   "property": "C08",
   "status": "proved",
   "theorems": [
    "Verif.VectorSet.c08_insertions_keep_balance"
   ],
   "note": "Bound stated as 2^steps <= (size+1)^2."
  },
  {
   "property": "C09",
   "status": "partial",
   "theorems": [
    "Verif.VectorSet.c09_lookup_linear_partial",
    "Verif.VectorSet.c09_lookup_degenerates_violated",
    "Verif.VectorSet.c09_logarithmic_bound_violated"
   ],
   "note": "The code does not rebalance when a black leaf is removed: for every N a history leaves a set of at least N elements whose tree is a path. Only the linear bound holds."
  },
  {
   "property": "C10",
   "status": "proved",
   "theorems": [
    "Verif.VectorSet.c10_never_null"
   ],
   "note": ""
  },
  {
   "property": "C11",
   "status": "partial",
   "theorems": [
    "Verif.Ring.c11_ring_assignment",
    "Verif.VectorSet.c11_vector_set_assignment_partial",
    "Verif.VectorSet.c11_vector_set_self_assignment_violated"
   ],
   "note": "Ring assignment incl. self-assignment is right; vector_set self-assignment (copy and move) empties the set."
  },
  {
   "property": "C12",
   "status": "proved",
   "theorems": [
    "Verif.QuickList.c12_lists_are_sequences",
    "Verif.QuickList.c12_other_lists_undisturbed"
   ],
   "note": "Link-level heap; all list operations incl. splice, move, destruction."
  },
  {
   "property": "C13",
   "status": "proved",
   "theorems": [
    "Verif.QuickList.c13_exclude",
    "Verif.QuickList.c13_safe_exclude_noop"
   ],
   "note": ""
  },
  {
   "property": "C14",
   "status": "partial",
   "theorems": [
    "Verif.QuickList.c14_move_assign_partial",
    "Verif.QuickList.c14_move_assign_unlinked",
    "Verif.QuickList.c14_move_construct",
    "Verif.QuickList.c14_self_move_violated"
   ],
   "note": "Proved for different source and target in every constellation; self-move-assignment drops the element out of its list (violation theorem)."
  },
  {
   "property": "C15",
   "status": "proved",
   "theorems": [
    "Verif.QuickList.c15_splice",
    "Verif.QuickList.c15_move_list"
   ],
   "note": ""
  },
  {
   "property": "C16",
   "status": "proved",
   "theorems": [
    "Verif.Observable.c16_notify_each_once",
    "Verif.Observable.c16_notify_while_true"
   ],
   "note": ""
  },
  {
   "property": "C17",
   "status": "partial",
   "theorems": [
    "Verif.Observable.c17_notify_polite_partial",
    "Verif.Observable.c17_notify_any_callback_violated"
   ],
   "note": "Violated when a callback removes or destroys the next observer; proved for all other callback behaviours."
  },
  {
   "property": "C18",
   "status": "proved",
   "theorems": [
    "Verif.Observable.c18_no_dangling_links"
   ],
   "note": ""
  },
  {
   "property": "C19",
   "status": "proved",
   "theorems": [
    "Verif.ObservableSet.c19_events_exact",
    "Verif.ObservableSet.c70_subscriber_knows_contents"
   ],
   "note": "Observers whose callbacks only watch; other callbacks are C16, C17."
  },
  {
   "property": "C20",
   "status": "proved",
   "theorems": [
    "Verif.ObservableSet.c20_mirror_follows_source",
    "Verif.ObservableSet.c20_mirror_chain",
    "Verif.ObservableSet.c20_mirror_collision_throws"
   ],
   "note": "One source per mirror (a mirror is an observer with one link). Also chains of mirrors, and that a collision makes the handler throw."
  },
  {
   "property": "C21",
   "status": "proved",
   "theorems": [
    "Verif.ForeignSet.c21_groups_by_foreign_key",
    "Verif.ForeignSet.c21_group_events",
    "Verif.ForeignSet.c21_equal_primary_keys_drop"
   ],
   "note": "Under the code's own precondition (asserted): elements the source distinguishes have different primary keys; keys of an element do not change. c21_equal_primary_keys_drop shows what happens otherwise."
  },
  {
   "property": "C22",
   "status": "proved",
   "theorems": [
    "Verif.UpdateQueue.c22_applied_in_push_order",
    "Verif.UpdateQueue.c22_all_applied",
    "Verif.UpdateQueue.c22_program_order",
    "Verif.UpdateQueue.c22_never_undefined",
    "Verif.UpdateQueue.c22_no_data_race",
    "Verif.UpdateQueue.c22_no_deadlock"
   ],
   "note": "Interleavings at the granularity of mutex operations and list operations; recursive mutex modelled; one consumer thread that does not re-enter ApplyUpdates. Liveness: no deadlock, and every batch ends (C23)."
  },
  {
   "property": "C23",
   "status": "proved",
   "theorems": [
    "Verif.UpdateQueue.c23_batch_is_what_waited",
    "Verif.UpdateQueue.c23_pushed_while_applying",
    "Verif.UpdateQueue.c23_batch_terminates"
   ],
   "note": ""
  },
  {
   "property": "C24",
   "status": "proved",
   "theorems": [
    "Verif.UpdateQueue.c24_failed_batch",
    "Verif.UpdateQueue.c24_queue_usable",
    "Verif.UpdateQueue.c23_pushed_while_applying"
   ],
   "note": ""
  },
  {
   "property": "C25",
   "status": "partial",
   "theorems": [
    "Verif.Decimal.c25_add_partial",
    "Verif.Decimal.c25_sub_partial",
    "Verif.Decimal.c25_add_violated",
    "Verif.Decimal.c25_sub_violated"
   ],
   "note": "Types whose powers of ten fit. Exact characterisation of when the sum/difference is right, refused or wrong; violated for every type when the sum of two representable numbers is not representable (it wraps silently)."
  },
  {
   "property": "C26",
   "status": "partial",
   "theorems": [
    "Verif.Decimal.c26_numeric_order_partial",
    "Verif.Decimal.c26_equality",
    "Verif.Decimal.c26_negative_zero_violated",
    "Verif.Decimal.c26_every_zero_violated",
    "Verif.Decimal.c26_wrapped_powers_violated"
   ],
   "note": "Proved for all pairs except zeros of different sign, for types whose powers of ten fit (64/4, 128/5). Violated by -0 and by types with wrapped powers of ten (64/5)."
  },
  {
   "property": "C27",
   "status": "proved",
   "theorems": [
    "Verif.Decimal.c27_printed_text",
    "Verif.Decimal.c27_text_round_trip"
   ],
   "note": "Types with 3 to 8 bits of digit count whose powers of ten fit."
  },
  {
   "property": "C28",
   "status": "partial",
   "theorems": [
    "Verif.Decimal.c28_parse_partial",
    "Verif.Decimal.c28_empty_text_violated",
    "Verif.Decimal.c28_no_digit_violated",
    "Verif.Decimal.c28_long_text_violated",
    "Verif.Decimal.c28_zeros_lost_violated"
   ],
   "note": "Proved for non-empty texts with at most 255 digits behind the point, where a literal may have no digits at all; violated: empty text is undefined, '.' and '-' are accepted, more than 255 digits are misread."
  },
  {
   "property": "C29",
   "status": "partial",
   "theorems": [
    "Verif.Decimal.c29_extend",
    "Verif.Decimal.c29_normalize",
    "Verif.Decimal.c29_truncate",
    "Verif.Decimal.c29_rescale",
    "Verif.Decimal.c29_floor_partial",
    "Verif.Decimal.c29_ceil_partial",
    "Verif.Decimal.c29_floor_ceil_violated"
   ],
   "note": "floor and ceil round toward/away from zero: right for non-negative decimals, violated for every negative decimal that has to be rounded."
  },
  {
   "property": "C30",
   "status": "proved",
   "theorems": [
    "Verif.Decimal.c30_bits_round_trip",
    "Verif.Decimal.c30_every_pattern",
    "Verif.Decimal.c30_injective",
    "Verif.Decimal.c30_in_range"
   ],
   "note": "Bit-field layout of GCC/Clang on little-endian machines (trusted)."
  },
  {
   "property": "C31",
   "status": "proved",
   "theorems": [
    "Verif.Serialize.c31_round_trip",
    "Verif.Serialize.c31_new_object",
    "Verif.Serialize.c31_unambiguous"
   ],
   "note": "Every type of a universe that covers all Read/Write overloads; little-endian machine with 8-byte size_t; hash containers iterate in insertion order."
  },
  {
   "property": "C32",
   "status": "proved",
   "theorems": [
    "Verif.Serialize.c32_truncated"
   ],
   "note": ""
  },
  {
   "property": "C33",
   "status": "partial",
   "theorems": [
    "Verif.Serialize.c33_replaces_partial",
    "Verif.Serialize.c33_optional_violated",
    "Verif.Serialize.c33_collection_violated",
    "Verif.Serialize.c33_map_violated"
   ],
   "note": "Violated by optionals, pointers, deques, sets, maps (not cleared by Read); proved for every type without them."
  },
  {
   "property": "C34",
   "status": "proved",
   "theorems": [
    "Verif.IntArray.c34_byte_order",
    "Verif.IntArray.c34_unsigned_round_trip",
    "Verif.IntArray.c34_signed_round_trip",
    "Verif.IntArray.c34_bytes_round_trip"
   ],
   "note": "Signed and unsigned, every width."
  },
  {
   "property": "C35",
   "status": "proved",
   "theorems": [
    "Verif.Vts.c35_round_trip",
    "Verif.Vts.c35_injective"
   ],
   "note": "For all tables that describe the types (that those derived from the types do is C105); recursion depth of skipping is unbounded."
  },
  {
   "property": "C36",
   "status": "partial",
   "theorems": [
    "Verif.Vts.c36_read_converts_partial",
    "Verif.Vts.c36_fields_partial",
    "Verif.Vts.c36_same_field",
    "Verif.Vts.c36_truncated",
    "Verif.Vts.c36_empty_structure_violated",
    "Verif.Vts.c36_every_empty_violated"
   ],
   "note": "Proved for all pairs of versions related by Evolves, any nesting; violated when the written structure has no fields and the new one has some (an empty map is taken for a trivial one), and when a removed field has the type name of another type (c143_removed_violated)."
  },
  {
   "property": "C37",
   "status": "partial",
   "theorems": [
    "Verif.Vts.c37_mismatch_reported_partial",
    "Verif.Vts.c37_first_read",
    "Verif.Vts.c37_inconsistent_structure",
    "Verif.Vts.c37_second_read_sequential_violated",
    "Verif.Vts.c37_second_read_violated",
    "Verif.Vts.c37_equal_names_violated"
   ],
   "note": "With a new Reader every mismatch of type names is reported (as IoError). Violated: the same Reader after a failed attempt reads the fields without checks; types with equal names but different layout (vector<bool>, vector<int8_t>) are not told apart."
  },
  {
   "property": "C38",
   "status": "proved",
   "theorems": [
    "Verif.HashStream.c38_transparent",
    "Verif.HashStream.c38_all_received"
   ],
   "note": "Underlying input stream returns what is asked for until its end (see C85)."
  },
  {
   "property": "C39",
   "status": "proved",
   "theorems": [
    "Verif.HashStream.c39_truncated",
    "Verif.HashStream.c39_received_prefix"
   ],
   "note": ""
  },
  {
   "property": "C40",
   "status": "proved",
   "theorems": [
    "Verif.HashStream.c40_modified",
    "Verif.HashStream.c40_original_or_reported",
    "Verif.HashStream.c40_crc_burst",
    "Verif.HashStream.c40_crc_bit_burst",
    "Verif.HashStream.c40_crc_reported"
   ],
   "note": "Any hash; CRC-64 bursts at byte level for the stream and at bit level for the hash."
  },
  {
   "property": "C41",
   "status": "proved",
   "theorems": [
    "Verif.Crc64.c41_bitwise",
    "Verif.Crc64.c41_remainder",
    "Verif.Crc64.c41_concatenation",
    "Verif.Crc64.c41_elements"
   ],
   "note": "Also as the remainder of polynomial division over the field with two elements."
  },
  {
   "property": "C42",
   "status": "proved",
   "theorems": [
    "Verif.HashStream.c42_buffered_input",
    "Verif.HashStream.c42_buffered_output",
    "Verif.HashStream.c42_vector_fifo",
    "Verif.HashStream.c42_measure"
   ],
   "note": "Also for underlying streams that return less than asked for."
  },
  {
   "property": "C43",
   "status": "proved",
   "theorems": [
    "Verif.Storage.c43_save_atomic",
    "Verif.Storage.c43_old_or_new",
    "Verif.Storage.c43_durable",
    "Verif.StorageFmt.c43_plain",
    "Verif.StorageFmt.c43_settings"
   ],
   "note": "For every format that rejects proper prefixes and every crash model in which a completed flush is durable and a damaged file is detected; in particular for writes that reach the disk in order. The formats of the library (plain, version tolerant, headered, hashed) satisfy the assumption. That the directory entries of new files are durable is assumed."
  },
  {
   "property": "C44",
   "status": "proved",
   "theorems": [
    "Verif.Storage.c44_recovery_idempotent",
    "Verif.Storage.c44_old_or_new",
    "Verif.Storage.c44_completed"
   ],
   "note": "For every contents of the two files, not only those left by Save."
  },
  {
   "property": "C45",
   "status": "partial",
   "theorems": [
    "Verif.Storage.c45_retry_partial",
    "Verif.Storage.c45_one_failure_partial",
    "Verif.Storage.c45_failed_saves_violated",
    "Verif.Storage.c45_all_lost_violated",
    "Verif.StorageFmt.c45_crc_violated"
   ],
   "note": "Violated: two failed saves of different values can lose everything (shown for every format whose mixtures do not parse, and for CRC-64 files). Retries of one value and a single failure are harmless."
  },
  {
   "property": "C46",
   "status": "partial",
   "theorems": [
    "Verif.Guard.c46_ideal_exactly_once",
    "Verif.Guard.c46_refines_partial",
    "Verif.Guard.c46_exactly_once_partial",
    "Verif.Guard.c46_move_released_violated",
    "Verif.Guard.c46_move_assign_violated",
    "Verif.Guard.c46_moved_twice_violated",
    "Verif.Guard.c46_every_guard_violated"
   ],
   "note": "Violated: moving a released guard runs its action; every move assignment from an engaged guard loses an action; virtual_guard moved twice terminates. Proved for histories without these."
  },
  {
   "property": "C47",
   "status": "proved",
   "theorems": [
    "Verif.Compare.c47_composite",
    "Verif.Compare.c47_lexicographic",
    "Verif.Compare.c47_equivalent",
    "Verif.Compare.c47_reverse",
    "Verif.Compare.c47_key",
    "Verif.Compare.c47_reverse_order",
    "Verif.Compare.c47_reverse_twice",
    "Verif.Compare.c47_pointers",
    "Verif.Compare.c47_pointers_undefined"
   ],
   "note": ""
  },
  {
   "property": "C48",
   "status": "proved",
   "theorems": [
    "Verif.Compare.c48_key",
    "Verif.Compare.c48_reverse",
    "Verif.Compare.c48_composite",
    "Verif.Compare.c48_elements",
    "Verif.Compare.c48_range",
    "Verif.Compare.c48_unique",
    "Verif.Compare.c48_by_element",
    "Verif.Compare.c48_by_element_composite"
   ],
   "note": ""
  },
  {
   "property": "C49",
   "status": "proved",
   "theorems": [
    "Verif.Compare.c49_position_changed"
   ],
   "note": ""
  },
  {
   "property": "C50",
   "status": "partial",
   "theorems": [
    "Verif.Text.c50_member_list_partial",
    "Verif.Text.c50_round_trip",
    "Verif.Text.c50_other_text",
    "Verif.Text.c50_not_an_element",
    "Verif.Text.c50_index",
    "Verif.Text.c50_no_space_violated"
   ],
   "note": "Violated when the names are written without a space after the comma: they are parsed as one name. Proved for names separated by a comma and white space."
  },
  {
   "property": "C51",
   "status": "partial",
   "theorems": [
    "Verif.IntervalMap.c51_function_partial",
    "Verif.IntervalMap.c51_distinct_values_partial",
    "Verif.IntervalMap.c51_step",
    "Verif.IntervalMap.c51_gap_violated",
    "Verif.IntervalMap.c51_top_violated",
    "Verif.IntervalMap.c51_throw_removes_violated"
   ],
   "note": "Violated: intervals with the same value are merged across a gap; assigning the greatest key over an interval that begins at or behind the left end throws (or is undefined), and has removed keys by then. c51_step says exactly what a call does in every map that can arise."
  },
  {
   "property": "C52",
   "status": "partial",
   "theorems": [
    "Verif.BitMap.c52_step",
    "Verif.BitMap.c52_history",
    "Verif.BitMap.c52_queries",
    "Verif.BitMap.c52_any_all",
    "Verif.BitMap.c52_count",
    "Verif.BitMap.c52_not_an_element",
    "Verif.BitMap.c52_init_partial",
    "Verif.BitMap.c52_init_violated",
    "Verif.BitMap.c52_init_not_an_element_violated"
   ],
   "note": "Violated for the constructor from an initializer list when the enumeration has more than 64 elements (undefined shift), or for a value that is no element. Everything else is proved for every size."
  },
  {
   "property": "C53",
   "status": "partial",
   "theorems": [
    "Verif.ObjectPool.c53_valid_partial",
    "Verif.ObjectPool.c53_exclusive",
    "Verif.ObjectPool.c53_returned",
    "Verif.ObjectPool.c53_no_leak_partial",
    "Verif.ObjectPool.c53_pool_first_violated"
   ],
   "note": "Violated when the pool is destroyed while objects are in use (undefined). Proved when the pool outlives the pointers. One thread."
  },
  {
   "property": "C54",
   "status": "partial",
   "theorems": [
    "Verif.Aggregator.c54_not_called",
    "Verif.Aggregator.c54_called",
    "Verif.Aggregator.c54_once_partial",
    "Verif.Aggregator.c54_cancelled",
    "Verif.Aggregator.c54_again_violated"
   ],
   "note": "Violated: setting a value again after completion calls the handler again, with the other values moved from. Proved up to then."
  },
  {
   "property": "C55",
   "status": "partial",
   "theorems": [
    "Verif.TimeQueue.c55_not_early_partial",
    "Verif.TimeQueue.c55_exactly_once",
    "Verif.TimeQueue.c55_progress",
    "Verif.TimeQueue.c55_await",
    "Verif.TimeQueue.c55_order_violated",
    "Verif.TimeQueue.c55_delay_violated"
   ],
   "note": "Violated: the queue gives out the latest deadline first, so a timer waits for all later ones. Proved: no timer early, each resumed once."
  },
  {
   "property": "C56",
   "status": "proved",
   "theorems": [
    "Verif.Stop.c56_no_ub",
    "Verif.Stop.c56_one_winner",
    "Verif.Stop.c56_exactly_one",
    "Verif.Stop.c56_stop_stays",
    "Verif.Stop.c56_once",
    "Verif.Stop.c56_registered",
    "Verif.Stop.c56_all_called",
    "Verif.Stop.c56_all_ran",
    "Verif.Stop.c56_unlinked",
    "Verif.Stop.c56_destroyed",
    "Verif.Stop.c56_destroyed_quiet",
    "Verif.Stop.c56_wait",
    "Verif.Stop.c56_lock",
    "Verif.Stop.c56_late"
   ],
   "note": "For sequentially consistent memory; the reference count of the state is C94. A request_stop in progress keeps its source alive and a callback object is destroyed once and after its constructor, as the standard demands."
  },
  {
   "property": "C57",
   "status": "partial",
   "theorems": [
    "Verif.Sleep.c57_no_ub",
    "Verif.Sleep.c57_not_early",
    "Verif.Sleep.c57_stop_before",
    "Verif.Sleep.c57_wakes_partial",
    "Verif.Sleep.c57_returns",
    "Verif.Sleep.c57_timeout",
    "Verif.Sleep.c57_lost_violated"
   ],
   "note": "Violated: a stop requested between the test of the flag and the beginning of the wait is lost (the callback notifies without the mutex) and the whole duration is slept. Proved: not early, not blocked by an earlier request, woken by a request outside of that window, returns at once then. One stopping thread; stop_callback as C56 specifies it."
  },
  {
   "property": "C58",
   "status": "partial",
   "theorems": [
    "Verif.Coro.c58_no_ub",
    "Verif.Coro.c58_destroyed_once",
    "Verif.Coro.c58_resumed",
    "Verif.Coro.c58_finishes",
    "Verif.Coro.c58_await",
    "Verif.Coro.c58_waits",
    "Verif.Coro.c58_got",
    "Verif.Coro.c58_result",
    "Verif.Coro.c58_once",
    "Verif.Coro.c58_no_leak_partial",
    "Verif.Coro.c58_all_destroyed_partial",
    "Verif.Coro.c58_late_release_violated",
    "Verif.Coro.c58_lost_violated",
    "Verif.Coro.c58_dangling_violated",
    "Verif.Coro.c58_second_await_violated"
   ],
   "note": "Proved for structured programs (a coroutine awaits tasks of its own, variables are used in scope). Violated: a task released after it finished is never destroyed; awaiting somebody else's task uses a destroyed frame or waits for ever; a second await gets a moved-from value or ends the program."
  },
  {
   "property": "C59",
   "status": "partial",
   "theorems": [
    "Verif.Testing.c59_parsed_partial",
    "Verif.Testing.c59_repeated",
    "Verif.Testing.c59_rejected",
    "Verif.Testing.c59_found",
    "Verif.Testing.c59_unused",
    "Verif.Testing.c59_one_letter_violated"
   ],
   "note": "Violated for names of one letter, which are not recognised. Proved for names of two characters and more, with values that do not read as such an option."
  },
  {
   "property": "C60",
   "status": "partial",
   "theorems": [
    "Verif.Testing.c60_exit_code_violated",
    "Verif.Testing.c60_bad_command_line_violated",
    "Verif.Testing.c60_one_iff_passed_partial",
    "Verif.Testing.c60_unknown_name_partial",
    "Verif.Testing.c60_duplicate_test"
   ],
   "note": "Violated: the exit code is 1 if all selected tests pass and 0 if one fails; a malformed command line gives 0."
  },
  {
   "property": "C61",
   "status": "partial",
   "theorems": [
    "Verif.Ring.c61_push_own_element_partial",
    "Verif.Ring.c61_push_own_element_violated",
    "Verif.Ring.c61_full_ring_violated"
   ],
   "note": "Undefined behaviour exactly when the ring is full and the argument is the element being overwritten."
  },
  {
   "property": "C62",
   "status": "partial",
   "theorems": [
    "Verif.Ring.c62_moved_from_ring_partial",
    "Verif.Ring.c62_moved_from_assign_partial",
    "Verif.Ring.c62_moved_from_ring_violated",
    "Verif.Ring.c62_every_ring_violated"
   ],
   "note": "A moved-from ring keeps its old size; only destroying it, reserve and assignment are safe."
  },
  {
   "property": "C63",
   "status": "proved",
   "theorems": [
    "Verif.VectorSet.c63_iterators_stay_valid"
   ],
   "note": ""
  },
  {
   "property": "C64",
   "status": "partial",
   "theorems": [
    "Verif.VectorSet.c64_heterogeneous_bounds_partial",
    "Verif.VectorSet.c64_any_equivalent_partial",
    "Verif.VectorSet.c64_heterogeneous_bounds_violated"
   ],
   "note": "Violated when several elements are equivalent to the key: the bounds are then one of them and its successor (proved), not the first and the end; proved as stated when at most one is."
  },
  {
   "property": "C65",
   "status": "proved",
   "theorems": [
    "Verif.VectorSet.c65_vector_set_equality"
   ],
   "note": ""
  },
  {
   "property": "C66",
   "status": "partial",
   "theorems": [
    "Verif.QuickList.c66_cleared_elements_violated",
    "Verif.QuickList.c66_every_element_violated",
    "Verif.QuickList.c66_reinsert_partial"
   ],
   "note": "Violated: cleared elements still report included() and excluding one removes another element. Only re-insertion is safe."
  },
  {
   "property": "C67",
   "status": "partial",
   "theorems": [
    "Verif.QuickList.c67_self_splice_violated",
    "Verif.QuickList.c67_self_splice_partial"
   ],
   "note": "Violated for every non-empty list: all elements are lost and still report included(); holds for the empty list."
  },
  {
   "property": "C68",
   "status": "partial",
   "theorems": [
    "Verif.Observable.c68_self_move_observable_violated",
    "Verif.Observable.c68_self_move_observable_partial"
   ],
   "note": "Violated for every observable with observers."
  },
  {
   "property": "C69",
   "status": "proved",
   "theorems": [
    "Verif.Ring.c69_elements_destroyed_once",
    "Verif.Ring.c04_copy",
    "Verif.Ring.c11_ring_assignment"
   ],
   "note": "Construction over a live element, double destruction and deallocation of a live element are ub in the model. Assignment: c04_copy, c11_ring_assignment."
  },
  {
   "property": "C70",
   "status": "partial",
   "theorems": [
    "Verif.ObservableSet.c70_subscriber_knows_contents",
    "Verif.ObservableSet.c70_single_subscription",
    "Verif.ObservableSet.c70_only_changes_partial",
    "Verif.ObservableSet.c70_migrate_spurious_violated",
    "Verif.ObservableSet.c70_migrate_empty_violated"
   ],
   "note": "Proved except for 'only when contents change': migrate from an empty set sends OnClearing."
  },
  {
   "property": "C71",
   "status": "partial",
   "theorems": [
    "Verif.UpdateQueue.c71_blocks_owned_partial",
    "Verif.UpdateQueue.c71_blocks_owned_violated",
    "Verif.UpdateQueue.c71_every_block_violated"
   ],
   "note": "Proved when no Push throws; violated when the copy into the block throws (the block leaks)."
  },
  {
   "property": "C72",
   "status": "partial",
   "theorems": [
    "Verif.UpdateQueue.c72_functions_released_partial",
    "Verif.UpdateQueue.c72_functions_released_violated",
    "Verif.UpdateQueue.c72_every_clear_violated"
   ],
   "note": "Proved without ClearPending; violated by ClearPending, which keeps the functions of dropped updates alive."
  },
  {
   "property": "C73",
   "status": "partial",
   "theorems": [
    "Verif.Decimal.c73_multiply_partial",
    "Verif.Decimal.c73_multiply_violated"
   ],
   "note": "Exact if mantissa product and digit count fit; otherwise violated: it never throws, wraps or is undefined."
  },
  {
   "property": "C74",
   "status": "partial",
   "theorems": [
    "Verif.Decimal.c74_nanoseconds_partial",
    "Verif.Decimal.c74_narrow_mantissa",
    "Verif.Decimal.c74_nanoseconds_violated",
    "Verif.Decimal.c74_overflow_violated",
    "Verif.Decimal.c74_more_digits_violated",
    "Verif.Decimal.c74_returned_partial"
   ],
   "note": "Exact or refused for at most nine digits and mantissas below 64 bits; violated for more digits, and for wider decimals by an overflow."
  },
  {
   "property": "C75",
   "status": "proved",
   "theorems": [
    "Verif.Decimal.c75_limits"
   ],
   "note": ""
  },
  {
   "property": "C76",
   "status": "proved",
   "theorems": [
    "Verif.Decimal.c76_unary_minus",
    "Verif.Decimal.c76_sub_self"
   ],
   "note": ""
  },
  {
   "property": "C77",
   "status": "proved",
   "theorems": [
    "Verif.Decimal.c77_set_mantissa"
   ],
   "note": "m in the range of the signed type (its minimum excluded)."
  },
  {
   "property": "C78",
   "status": "partial",
   "theorems": [
    "Verif.Serialize.c78_limit_on_read",
    "Verif.Serialize.c78_limit_on_write",
    "Verif.Serialize.c78_refused_partial",
    "Verif.Serialize.c78_wraparound_violated",
    "Verif.Serialize.c78_wrapped_violated",
    "Verif.Serialize.c78_lengths"
   ],
   "note": "The limit holds for whatever is read; but the byte length of a wide string wraps around, so a huge length field passes the check and is refused only by the allocation."
  },
  {
   "property": "C79",
   "status": "partial",
   "theorems": [
    "Verif.Serialize.c79_arbitrary_bytes_partial",
    "Verif.Serialize.c79_time",
    "Verif.Serialize.c79_variant_violated",
    "Verif.Serialize.c79_time_violated",
    "Verif.Serialize.c79_ring_violated"
   ],
   "note": "Proved for all types without variants, time points with ticks finer than a nanosecond and rings without limit. Violated by each of the three: a variant's index is not checked, the conversion of a time point may overflow (exactly when is proved), an element is pushed into a ring without places."
  },
  {
   "property": "C80",
   "status": "partial",
   "theorems": [
    "Verif.Serialize.c80_time_point_partial",
    "Verif.Serialize.c80_exact_partial",
    "Verif.Serialize.c80_time_point_violated"
   ],
   "note": "Exact for ticks that are multiples of a nanosecond; for every tick of p/q nanoseconds, a time point is read back as it was if and only if it is a whole number of nanoseconds, and otherwise one nearer to zero is (c80_exact_partial). Finer ticks are truncated (violated)."
  },
  {
   "property": "C81",
   "status": "partial",
   "theorems": [
    "Verif.Vts.c81_movable_unchanged",
    "Verif.Vts.c81_restored_partial",
    "Verif.Vts.c81_set_violated",
    "Verif.Vts.c81_other_exception_violated"
   ],
   "note": "Holds for movable types. For types that cannot be moved: violated by sets, maps, optionals (restored by reading into the half-read object) and by exceptions that are not IoException."
  },
  {
   "property": "C82",
   "status": "partial",
   "theorems": [
    "Verif.HashStream.c82_stored_partial",
    "Verif.HashStream.c82_write_error_violated"
   ],
   "note": "Violated: the destructor tries to write again, throws and the program is terminated. What is stored is a prefix."
  },
  {
   "property": "C83",
   "status": "partial",
   "theorems": [
    "Verif.HashStream.c83_any_bytes_partial",
    "Verif.HashStream.c83_after_exception_violated"
   ],
   "note": "Safe up to the first exception; afterwards an invalidated iterator is used (violated)."
  },
  {
   "property": "C84",
   "status": "partial",
   "theorems": [
    "Verif.HashStream.c84_burst_partial",
    "Verif.HashStream.c84_burst_across_boundary_violated"
   ],
   "note": "Violated across the end of the payload because the reflected CRC is stored most significant byte first."
  },
  {
   "property": "C85",
   "status": "partial",
   "theorems": [
    "Verif.HashStream.c85_long_reads_partial",
    "Verif.HashStream.c85_short_read_violated"
   ],
   "note": "Violated: a short read is reported as corruption."
  },
  {
   "property": "C86",
   "status": "partial",
   "theorems": [
    "Verif.Storage.c86_unchanged_partial",
    "Verif.Storage.c86_failed_load_violated",
    "Verif.StorageFmt.c86_trailing_violated"
   ],
   "note": "Violated when a file holds a value followed by something: the value is taken over although Load fails."
  },
  {
   "property": "C87",
   "status": "proved",
   "theorems": [
    "Verif.StorageFmt.c87_header",
    "Verif.StorageFmt.c87_long_name"
   ],
   "note": "ReadOldVersion as it is in the class (throws)."
  },
  {
   "property": "C88",
   "status": "proved",
   "theorems": [
    "Verif.StorageFmt.c88_snapshot"
   ],
   "note": ""
  },
  {
   "property": "C89",
   "status": "partial",
   "theorems": [
    "Verif.StorageFmt.c89_no_trailing_partial",
    "Verif.StorageFmt.c89_trailing_violated",
    "Verif.StorageFmt.c89_hashed"
   ],
   "note": "Holds for values written to the file itself; violated for hashed files: data are not noticed if and only if the last block of the value has room for them (c89_hashed)."
  },
  {
   "property": "C90",
   "status": "partial",
   "theorems": [
    "Verif.Guard.c90_ideal_exactly_once",
    "Verif.Guard.c90_refines_partial",
    "Verif.Guard.c90_exactly_once_partial",
    "Verif.Guard.c90_self_move_violated",
    "Verif.Guard.c90_every_self_move_violated"
   ],
   "note": "Violated by self-move assignment, which deletes the object and leaves the pointer null. Proved otherwise."
  },
  {
   "property": "C91",
   "status": "partial",
   "theorems": [
    "Verif.Text.c91_lexicographic_partial",
    "Verif.Text.c91_strict_weak_partial",
    "Verif.Text.c91_equal",
    "Verif.Text.c91_enum_name",
    "Verif.Text.c91_not_ascii_violated"
   ],
   "note": "Violated for characters outside ASCII: tolower of a negative char is undefined. Proved for ASCII."
  },
  {
   "property": "C92",
   "status": "proved",
   "theorems": [
    "Verif.Text.c92_separated"
   ],
   "note": ""
  },
  {
   "property": "C93",
   "status": "partial",
   "theorems": [
    "Verif.Testing.c93_scalar_partial",
    "Verif.Testing.c93_words",
    "Verif.Testing.c93_refused_partial",
    "Verif.Testing.c93_no_number",
    "Verif.Testing.c93_blanks",
    "Verif.Testing.c93_plus",
    "Verif.Testing.c93_unsigned_violated",
    "Verif.Testing.c93_negative_violated",
    "Verif.Testing.c93_flag_violated",
    "Verif.Testing.c93_trailing_violated"
   ],
   "note": "Violated for unsigned int above the range of int (default used silently), for negative texts given for unsigned types, for flags and for text behind a number. Floating point is not modelled."
  },
  {
   "property": "C94",
   "status": "partial",
   "theorems": [
    "Verif.Stop.Count.c94_source_keeps",
    "Verif.Stop.Count.c94_no_leak",
    "Verif.Stop.Count.c94_word",
    "Verif.Stop.Count.c94_no_ub_partial",
    "Verif.Stop.Count.c94_violated",
    "Verif.Stop.Count.c94_callback_violated",
    "Verif.Stop.Count.c94_token_deletes_violated"
   ],
   "note": "Violated: without a source the destruction of any token, or of a called callback, deletes the state that other tokens still use. Proved: no deletion while a source exists, no leak, and safety of histories without such a destruction."
  },
  {
   "property": "C95",
   "status": "proved",
   "theorems": [
    "Verif.CondVar.c95_no_ub",
    "Verif.CondVar.c95_stop_not_lost",
    "Verif.CondVar.c95_notify_not_lost",
    "Verif.CondVar.c95_result",
    "Verif.CondVar.c95_predicate_locked",
    "Verif.CondVar.c95_notify_one",
    "Verif.CondVar.c95_ends",
    "Verif.CondVar.c95_no_deadlock"
   ],
   "note": "For sequentially consistent memory; std::mutex, std::condition_variable and stop_callback (C56) as specifications; one stop state, one condition variable, one lock, predicates that read a variable changed under the lock."
  },
  {
   "property": "C96",
   "status": "partial",
   "theorems": [
    "Verif.Generator.c96_sequence",
    "Verif.Generator.c96_iterator",
    "Verif.Generator.c96_increment",
    "Verif.Generator.c96_owner",
    "Verif.Generator.c96_no_ub",
    "Verif.Generator.c96_self_assign",
    "Verif.Generator.c96_begin_partial",
    "Verif.Generator.c96_begin_empty",
    "Verif.Generator.c96_for",
    "Verif.Generator.c96_for_only",
    "Verif.Generator.c96_fmap",
    "Verif.Generator.c96_begin_twice_violated",
    "Verif.Generator.c96_begin_again_violated",
    "Verif.Generator.c96_begin_ended_violated"
   ],
   "note": "Violated: a second begin() skips a value, and begin() of a generator that has ended is undefined. Proved for everything else; one thread, bodies reach their next suspension."
  },
  {
   "property": "C97",
   "status": "partial",
   "theorems": [
    "Verif.AsyncGen.c97_sequence",
    "Verif.AsyncGen.c97_once_partial",
    "Verif.AsyncGen.c97_waiting",
    "Verif.AsyncGen.c97_result",
    "Verif.AsyncGen.c97_usable",
    "Verif.AsyncGen.c97_owner",
    "Verif.AsyncGen.c97_no_ub",
    "Verif.AsyncGen.c97_begin_empty",
    "Verif.AsyncGen.c97_begin_ended_violated",
    "Verif.AsyncGen.c97_begin_twice_violated",
    "Verif.AsyncGen.c97_begin_again_violated",
    "Verif.AsyncGen.c97_destroyed_violated",
    "Verif.AsyncGen.c97_second_violated"
   ],
   "note": "Violated as C96: a second begin() skips a value, begin() of a generator that has ended is undefined; a consumer whose generator is destroyed is never resumed, and a second consumer that awaits is undefined. Proved for everything else."
  },
  {
   "property": "C98",
   "status": "partial",
   "theorems": [
    "Verif.File.c98_write",
    "Verif.File.c98_write_nothing",
    "Verif.File.c98_read_back",
    "Verif.File.c98_read",
    "Verif.File.c98_write_throws",
    "Verif.File.c98_large_violated",
    "Verif.File.c98_short_violated",
    "Verif.File.c98_part_violated",
    "Verif.File.c98_end_partial",
    "Verif.File.c98_end_violated",
    "Verif.File.c98_read_all",
    "Verif.File.c98_seek",
    "Verif.File.c98_move",
    "Verif.File.c98_truncate"
   ],
   "note": "Violated: a write of more bytes than one call of write(2) takes throws after writing a part; a short write leaves a part in the file; End is false behind the end. Proved for positions up to the end and everything else; POSIX, system calls as a specification."
  },
  {
   "property": "C99",
   "status": "partial",
   "theorems": [
    "Verif.File.c99_owner",
    "Verif.File.c99_no_leak",
    "Verif.File.c99_assign_partial",
    "Verif.File.c99_self_violated"
   ],
   "note": "Violated: move assignment of a handle to itself closes the file. Proved for all histories otherwise."
  },
  {
   "property": "C100",
   "status": "partial",
   "theorems": [
    "Verif.Settings.c100_open",
    "Verif.Settings.c100_save",
    "Verif.Settings.c100_saved",
    "Verif.Settings.c100_open_same",
    "Verif.Settings.c100_load_partial",
    "Verif.Settings.c100_load_violated"
   ],
   "note": "Violated: Load after an Open that failed throws. Proved: Open and Save never throw, Load of an open storage throws only if the file system fails during the call; the same results as C43 to C45."
  },
  {
   "property": "C101",
   "status": "partial",
   "theorems": [
    "Verif.Settings.c101_no_ub_partial",
    "Verif.Settings.c101_load_partial",
    "Verif.Settings.c101_save_partial",
    "Verif.Settings.c101_move_violated",
    "Verif.Settings.c101_wrong_value_violated",
    "Verif.Settings.c101_moved_violated"
   ],
   "note": "Violated for a moved object: it still loads and saves the value of the object it was moved from, which is undefined if that is gone. Proved for histories without moves; failures of the file system: C141."
  },
  {
   "property": "C102",
   "status": "partial",
   "theorems": [
    "Verif.JThread.c102_owned",
    "Verif.JThread.c102_all_joined",
    "Verif.JThread.c102_stop",
    "Verif.JThread.c102_stop_before_join",
    "Verif.JThread.c102_no_terminate_partial",
    "Verif.JThread.c102_stop_asked",
    "Verif.JThread.c102_callable",
    "Verif.JThread.c102_returns",
    "Verif.JThread.c102_move",
    "Verif.JThread.c102_swap",
    "Verif.JThread.c102_self_violated"
   ],
   "note": "Violated: assignment of an object to itself stops and joins its thread. Proved for everything else; std::thread as a specification, the stop state is C56."
  },
  {
   "property": "C103",
   "status": "partial",
   "theorems": [
    "Verif.WatchDog.c103_quick_partial",
    "Verif.WatchDog.c103_slow_violated",
    "Verif.WatchDog.c103_user_stop",
    "Verif.WatchDog.c103_only",
    "Verif.WatchDog.c103_timeout",
    "Verif.WatchDog.c103_log",
    "Verif.WatchDog.c103_ends",
    "Verif.WatchDog.c103_no_ub_partial",
    "Verif.WatchDog.c103_ctor_violated",
    "Verif.WatchDog.c103_dtor_violated"
   ],
   "note": "Violated: the log function is called before it is constructed or after it is destroyed if the timeout is over in these windows; and destruction takes the whole timeout if it begins between the thread's test of the flag and its wait (C57). Proved for everything else; stop tokens as specifications (C56), sleep as a specification but in c103_quick_partial and c103_slow_violated."
  },
  {
   "property": "C104",
   "status": "partial",
   "theorems": [
    "Verif.Singleton.c104_one_partial",
    "Verif.Singleton.c104_shared",
    "Verif.Singleton.c104_one_alive_partial",
    "Verif.Singleton.c104_demand",
    "Verif.Singleton.c104_holders",
    "Verif.Singleton.c104_race_violated",
    "Verif.Singleton.c104_any_number_violated"
   ],
   "note": "Violated for overlapping calls of two threads, which make two instances. Proved for calls that do not overlap."
  },
  {
   "property": "C105",
   "status": "partial",
   "theorems": [
    "Verif.Mp.c105_variant",
    "Verif.Mp.c105_members",
    "Verif.Mp.c105_compiles_partial",
    "Verif.Mp.c105_described",
    "Verif.Mp.c105_described_user",
    "Verif.Mp.c105_values",
    "Verif.Mp.c105_round_trip",
    "Verif.Mp.c105_pair_field_violated",
    "Verif.Mp.c105_only_structures_violated",
    "Verif.Mp.c105_extra_violated"
   ],
   "note": "Violated: no tables (the program does not compile) for a structure with a field that is a pair, for structures that contain only structures or nothing, and for additional types that are structures. For all other types the variant, the tables and the round trip are proved."
  },
  {
   "property": "C106",
   "status": "partial",
   "theorems": [
    "Verif.Mp.c106_names_partial",
    "Verif.Mp.c106_number_names",
    "Verif.Mp.c106_table",
    "Verif.Mp.c106_changed_field",
    "Verif.Mp.c106_same_name_violated"
   ],
   "note": "Proved: equal names exactly for equal shapes, the names in the tables, and that a field of a changed shape is reported. Violated as identification: bool and int8_t, string and vector<bool>, all structures share names."
  },
  {
   "property": "C107",
   "status": "proved",
   "theorems": [
    "Verif.Memberwise.c107_equal",
    "Verif.Memberwise.c107_less",
    "Verif.Memberwise.c107_operators",
    "Verif.Memberwise.c107_order",
    "Verif.Memberwise.c107_equivalence",
    "Verif.Memberwise.c107_hash",
    "Verif.Memberwise.c107_last",
    "Verif.Memberwise.c107_vector",
    "Verif.Memberwise.c107_vector_equal",
    "Verif.Memberwise.c107_vector_hash"
   ],
   "note": "All classes, with the strict weak order of each member's < as hypothesis (so no floating point members with NaN). size_t has 64 bits."
  },
  {
   "property": "C108",
   "status": "partial",
   "theorems": [
    "Verif.SharedHandle.c108_owned",
    "Verif.SharedHandle.c108_all_closed",
    "Verif.SharedHandle.c108_copy_partial",
    "Verif.SharedHandle.c108_move",
    "Verif.SharedHandle.c108_assign_partial",
    "Verif.SharedHandle.c108_no_ub_partial",
    "Verif.SharedHandle.c108_copy_empty_violated",
    "Verif.SharedHandle.c108_self_assign_violated",
    "Verif.SharedHandle.c108_self_move_violated",
    "Verif.SharedHandle.c108_failed_copy_violated"
   ],
   "note": "Proved for all histories: each open handle is held by exactly one variable, so none leaks and none is closed twice; copies of non-empty handles and moves; no undefined behaviour when duplications succeed. Violated: a copy of an empty handle is a handle of the current process, assigning a variable to itself closes the file (and leaves a handle of the process), and a copy that fails leaves a variable that was never written."
  },
  {
   "property": "C109",
   "status": "partial",
   "theorems": [
    "Verif.SingleList.c109_contents",
    "Verif.SingleList.c109_tests",
    "Verif.SingleList.c109_pop",
    "Verif.SingleList.c109_included_partial",
    "Verif.SingleList.c109_clear_violated",
    "Verif.SingleList.c109_destroyed_element_violated",
    "Verif.SingleList.c109_empty_ub"
   ],
   "note": "Refinement to stacks for all histories. Violated: the elements of a list that is cleared (or ends) still say they are included; an element that ends in a list makes the loop undefined."
  },
  {
   "property": "C110",
   "status": "partial",
   "theorems": [
    "Verif.StaticChain.c110_create",
    "Verif.StaticChain.c110_find",
    "Verif.StaticChain.c110_registered_partial",
    "Verif.StaticChain.c110_inexact_violated",
    "Verif.StaticChain.c110_duplicate_violated",
    "Verif.StaticChain.c110_unlinked_violated",
    "Verif.StaticChain.c110_zero_violated"
   ],
   "note": "For all sets of registrations, create calls the function registered last with the name and the type deduced from the arguments. Violated: a function that accepts the arguments but not with exactly the deduced types (a variable for a parameter that is a value, a temporary object for const T&) is not found; a second registration of a name hides the first silently; an ended link stays in the chain; a std::string with a zero character is cut."
  },
  {
   "property": "C111",
   "status": "partial",
   "theorems": [
    "Verif.Multiprec.c111_round_trip_partial",
    "Verif.Multiprec.c111_types",
    "Verif.Multiprec.c111_truncated",
    "Verif.Multiprec.c111_length",
    "Verif.Multiprec.c111_large_violated",
    "Verif.Multiprec.c111_same_name_violated"
   ],
   "note": "For all values of the types with 128, 256 and 512 bits, and for magnitudes below 2^1016. Violated: with 1024 bits the magnitudes from 2^1016 on cannot be written (CorruptionException); all the types have the same name, and a negative value read as unsigned becomes a positive one."
  },
  {
   "property": "C112",
   "status": "partial",
   "theorems": [
    "Verif.Multiprec.c112_get",
    "Verif.Multiprec.c112_fields",
    "Verif.Multiprec.c112_set_positive",
    "Verif.Multiprec.c112_set_man",
    "Verif.Multiprec.c112_set_exp_partial",
    "Verif.Multiprec.c112_make_partial",
    "Verif.Multiprec.c112_large_exp_violated",
    "Verif.Multiprec.c112_set_any_exp",
    "Verif.Multiprec.c112_every_exp_violated",
    "Verif.Multiprec.c112_make_any"
   ],
   "note": "For all values whose exponent fits its bits. Violated: set_exp does not check, a larger exponent changes the mantissa."
  },
  {
   "property": "C113",
   "status": "partial",
   "theorems": [
    "Verif.Math.c113_round_partial",
    "Verif.Math.c113_round_range",
    "Verif.Math.c113_round_violated",
    "Verif.Math.c113_round_negative_violated",
    "Verif.Math.c113_clamp",
    "Verif.Math.c113_sign"
   ],
   "note": "clamp and sign for all strict weak orders; round for numbers that are not negative, with exact arithmetic. Violated: every negative integer is rounded to the next one, and below -1/2 no number that is not halfway between two integers is rounded to the nearest."
  },
  {
   "property": "C114",
   "status": "partial",
   "theorems": [
    "Verif.TypeIndex.c114_count",
    "Verif.TypeIndex.c114_index_partial",
    "Verif.TypeIndex.c114_bound",
    "Verif.TypeIndex.c114_struct_violated",
    "Verif.TypeIndex.c114_empty_violated"
   ],
   "note": "For all types without empty structures, and for the index of primitive types. Violated: a field that is itself a structure has no index; a type with an empty structure inside does not compile."
  },
  {
   "property": "C115",
   "status": "partial",
   "theorems": [
    "Verif.StdStream.c115_read_partial",
    "Verif.StdStream.c115_read_raw",
    "Verif.StdStream.c115_failed_violated",
    "Verif.StdStream.c115_write_partial",
    "Verif.StdStream.c115_unbuffered",
    "Verif.StdStream.c115_write_failed",
    "Verif.StdStream.c115_write_stays_failed",
    "Verif.StdStream.c115_lost_violated"
   ],
   "note": "Reading without failures of the device; writing when the device has room. Violated: a failed input stream gives no data and never End; bytes that stay in the buffer are lost without an exception, nothing flushes."
  },
  {
   "property": "C116",
   "status": "partial",
   "theorems": [
    "Verif.Assert.c116_condition",
    "Verif.Assert.c116_throws_partial",
    "Verif.Assert.c116_base_violated",
    "Verif.Assert.c116_equal_passes",
    "Verif.Assert.c116_equal_partial",
    "Verif.Assert.c116_sign_violated"
   ],
   "note": "Throws for exceptions that are no bases of TestException; AreEqual unless the usual conversions change a value. Violated: Throws of TestException or a base of it (std::exception) never fails when nothing is thrown; AreEqual(-1, 4294967295u) passes."
  },
  {
   "property": "C117",
   "status": "partial",
   "theorems": [
    "Verif.Testing.c117_output_partial",
    "Verif.Testing.c117_passed",
    "Verif.Testing.c117_other_violated",
    "Verif.Testing.c117_again_violated",
    "Verif.Testing.c117_shutdown"
   ],
   "note": "For tests that fail with a TestException, in a new map. Violated: a test that fails with another exception shows none of its output; a map used again after a failure shows the output of both tests."
  },
  {
   "property": "C118",
   "status": "proved",
   "theorems": [
    "Verif.FixedStr.c118_literal",
    "Verif.FixedStr.c118_array_violated",
    "Verif.FixedStr.c118_text",
    "Verif.FixedStr.c118_index",
    "Verif.FixedStr.c118_plus",
    "Verif.FixedStr.c118_equal",
    "Verif.FixedStr.c118_ascii"
   ],
   "note": "Beyond the statement: an array whose last character is no zero loses it."
  },
  {
   "property": "C119",
   "status": "partial",
   "theorems": [
    "Verif.FixedStr.c119_same",
    "Verif.FixedStr.c119_switch_partial",
    "Verif.FixedStr.c119_same_length",
    "Verif.FixedStr.c119_collision_violated",
    "Verif.FixedStr.c119_zero_violated",
    "Verif.FixedStr.c119_array_violated"
   ],
   "note": "Same hash in all forms; different texts of at most eight characters have different hashes (of any lengths with the default seed unless they begin with a zero, of the same length with every seed). Violated: every text of nine characters and more has another of its length with the same hash; a zero at the beginning is not seen; an array larger than its text has the hash of the text with zeros."
  },
  {
   "property": "C120",
   "status": "partial",
   "theorems": [
    "Verif.Vts.c120_arbitrary_bytes_partial",
    "Verif.Vts.c120_tests_cost_nothing",
    "Verif.Vts.c120_tables",
    "Verif.Vts.c120_index_violated",
    "Verif.Vts.c120_depth_violated"
   ],
   "note": "For all types as in C79: every stream throws, or gives a legal value, or has a structure index outside its own tables. Violated: that index is only asserted, so it is undefined behaviour; a reader that tests it differs nowhere else. Violated: a stream may declare a structure with a field of its own type; skipping it needs a stack as deep as the stream is long."
  },
  {
   "property": "C121",
   "status": "partial",
   "theorems": [
    "Verif.Vts.c121_round_trip",
    "Verif.Vts.c121_truncated",
    "Verif.Vts.c121_sequence",
    "Verif.Vts.c121_after_tables",
    "Verif.Vts.c121_arbitrary_bytes_partial",
    "Verif.Vts.c121_versions_violated",
    "Verif.Vts.c121_every_version_violated"
   ],
   "note": "All values of all types with equal versions, sequences, truncations; arbitrary bytes for checked types as in C79 (no variants, rings without limit, time points that need multiplication). Beyond the statement: an object of another version is silently misread, as the header documents."
  },
  {
   "property": "C122",
   "status": "partial",
   "theorems": [
    "Verif.StopWatch.c122_has_elapsed_partial",
    "Verif.StopWatch.c122_within_nanosecond",
    "Verif.StopWatch.c122_stays",
    "Verif.StopWatch.c122_elapsed_partial",
    "Verif.StopWatch.c122_count_partial",
    "Verif.StopWatch.c122_fine_violated",
    "Verif.StopWatch.c122_long_violated",
    "Verif.StopWatch.c122_min_violated",
    "Verif.StopWatch.c122_wrapped_violated",
    "Verif.StopWatch.c122_too_many_violated"
   ],
   "note": "Exact for units that are whole nanoseconds; within one nanosecond for all units. Violated: intervals finer than a nanosecond elapse at once, intervals of more than 292 years and a start at the smallest time are undefined behaviour, and a 32 bit count of milliseconds is negative after 25 days. Durations with floating point are left out."
  },
  {
   "property": "C123",
   "status": "partial",
   "theorems": [
    "Verif.Time.c123_text_partial",
    "Verif.Time.c123_unambiguous",
    "Verif.Time.c123_watch_partial",
    "Verif.Time.c123_clang_partial",
    "Verif.Time.c123_parts_violated",
    "Verif.Time.c123_min_violated",
    "Verif.Time.c123_clang_violated"
   ],
   "note": "For all decimal units and all counts but the smallest; with Clang the number of nanoseconds. Violated: the number of parts is ignored, the smallest duration is undefined behaviour, and with Clang so are long durations of coarse units."
  },
  {
   "property": "C124",
   "status": "partial",
   "theorems": [
    "Verif.Time.c124_local",
    "Verif.Time.c124_local_before",
    "Verif.Time.c124_local_fraction",
    "Verif.Time.c124_constant_zone",
    "Verif.Time.c124_failure_violated",
    "Verif.Time.c124_after_epoch_partial",
    "Verif.Time.c124_before_epoch_partial",
    "Verif.Time.c124_months",
    "Verif.Time.c124_fraction",
    "Verif.Time.c124_late_violated",
    "Verif.Time.c124_early_violated",
    "Verif.Time.c124_month_shifted"
   ],
   "note": "Proved for every time zone, given that std::mktime inverts the local clock; the month is counted from 0. Violated: with a clock of nanoseconds years from 2263 and before 1677 are undefined behaviour, also if the result is in seconds; if std::mktime fails, the result is the last second of 1969 and nothing is thrown."
  },
  {
   "property": "C125",
   "status": "partial",
   "theorems": [
    "Verif.Double.c125_cast",
    "Verif.Double.c125_order",
    "Verif.Double.c125_round_trip_partial",
    "Verif.Double.c125_distinct_partial",
    "Verif.Double.c125_assign_violated",
    "Verif.Double.c125_digits_violated"
   ],
   "note": "Nearest double and order for mantissas up to 2^53 and 22 digits; the way back with make_rounded for mantissas below 2^51 (15 significant digits). Violated: the assignment, make_decimal and make_truncated make 0.28 of 0.29; above 2^53 different decimals are the same double."
  },
  {
   "property": "C126",
   "status": "partial",
   "theorems": [
    "Verif.Double.c126_exact_partial",
    "Verif.Double.c126_same",
    "Verif.Double.c126_error_partial",
    "Verif.Double.c126_rounded_partial",
    "Verif.Double.c126_enclosed_partial",
    "Verif.Double.c126_larger_violated",
    "Verif.Double.c126_smaller_violated",
    "Verif.Double.c126_large_violated"
   ],
   "note": "As stated if the product with the power of ten is a double; for every double with an additional error of 2^-53 of the number. Violated: 0.15 truncated and floored is greater than the double, 0.01 rounded up is less, 2^59 is stored as 0 and 2^63 is undefined behaviour."
  },
  {
   "property": "C127",
   "status": "partial",
   "theorems": [
    "Verif.Double.c127_add_exact",
    "Verif.Double.c127_add_partial",
    "Verif.Double.c127_sub_exact",
    "Verif.Double.c127_sub_partial",
    "Verif.Double.c127_mul_partial",
    "Verif.Double.c127_div_partial",
    "Verif.Double.c127_neutral_violated"
   ],
   "note": "Sums and differences with doubles that have the digits of the decimal are exact; otherwise off by less than one unit and 2^-53 (products and quotients 2^-51) of the number. Violated: 0.00 + 0.29 is 0.28, and 0.29 times or divided by one is 0.28."
  },
  {
   "property": "C128",
   "status": "partial",
   "theorems": [
    "Verif.Convert.c128_wide_round_trip_partial",
    "Verif.Convert.c128_narrow_round_trip_partial",
    "Verif.Convert.c128_reported",
    "Verif.Convert.c128_defined",
    "Verif.Convert.c128_utf8",
    "Verif.Convert.c128_start_locale",
    "Verif.Convert.c128_zero_violated"
   ],
   "note": "For all texts without zeros and all encodings that tell characters apart; UTF-8 and ASCII are proved to be such encodings. Violated: what follows a zero is lost. In the locale that a program starts with every character outside of ASCII throws, as std::length_error."
  },
  {
   "property": "C129",
   "status": "partial",
   "theorems": [
    "Verif.Convert.c129_text_partial",
    "Verif.Convert.c129_distinct",
    "Verif.Convert.c129_signed_partial",
    "Verif.Convert.c129_long_violated",
    "Verif.Convert.c129_signed_violated"
   ],
   "note": "Unsigned numbers that are not longer than a width of two or more; signed numbers without a width. Violated: a longer number is preceded by fill characters, one fewer than it has digits; a width throws for every signed number; the smallest signed number is undefined behaviour."
  },
  {
   "property": "C130",
   "status": "partial",
   "theorems": [
    "Verif.IntervalMap.c130_unsigned",
    "Verif.IntervalMap.c130_iteration_partial",
    "Verif.IntervalMap.c130_narrow_violated",
    "Verif.IntervalMap.c130_wide_violated",
    "Verif.IntervalMap.c130_reverse_violated"
   ],
   "note": "Full for unsigned keys. Violated: for signed keys narrower than int the loop throws after as many keys as the type has non-negative values; for wider signed keys a difference overflows (undefined behaviour); the reverse iterators are not implemented."
  },
  {
   "property": "C131",
   "status": "partial",
   "theorems": [
    "Verif.VectorSet.Mem.c131_no_double_free_partial",
    "Verif.VectorSet.Mem.c131_no_leak_partial",
    "Verif.VectorSet.Mem.c131_allocator_partial",
    "Verif.VectorSet.Mem.c131_get_allocator",
    "Verif.VectorSet.Mem.c131_throw_partial",
    "Verif.VectorSet.Mem.c131_throw_violated",
    "Verif.VectorSet.Mem.c131_init_list_violated",
    "Verif.VectorSet.Mem.c131_emplace_violated",
    "Verif.VectorSet.Mem.c131_construct_violated"
   ],
   "note": "Full for histories without exceptions of element constructors, without emplace of an existing key in a set with another than the standard allocator, and without a constructor from a list that gets another than the default allocator. Each of the three restrictions is necessary."
  },
  {
   "property": "C132",
   "status": "partial",
   "theorems": [
    "Verif.Double.c132_make_partial",
    "Verif.Double.c132_make_small_partial",
    "Verif.Double.c132_cast_partial",
    "Verif.Double.c132_round_trip_partial",
    "Verif.Double.c132_compare_partial",
    "Verif.Double.c132_make_violated",
    "Verif.Double.c132_cast_violated",
    "Verif.Double.c132_round_up_violated"
   ],
   "note": "Exact if the integer and its product with the power of ten are numbers that a double and a mantissa can hold; the cast if the mantissa is below 2^53 and the integer type can hold the mantissa; comparisons if the mantissa is below 2^53 and the integer not above. Violated: larger integers are rounded or lose their upper bits without an exception; cast<int>() of 30.00000000 is -12; cast<int64_t>() of 99.999999999999999 is 100."
  },
  {
   "property": "C133",
   "status": "proved",
   "theorems": [
    "Verif.CondVar.Plain.c133_lifetime",
    "Verif.CondVar.Plain.c133_released",
    "Verif.CondVar.Plain.c133_result",
    "Verif.CondVar.Plain.c133_locked",
    "Verif.CondVar.Plain.c133_notify",
    "Verif.CondVar.Plain.c133_notify_not_lost",
    "Verif.CondVar.Plain.c133_ends",
    "Verif.CondVar.Plain.c133_no_deadlock"
   ],
   "note": "The object is destroyed when no thread is in a notify function or at the very beginning of a wait, and not used afterwards (Legal)."
  },
  {
   "property": "C134",
   "status": "partial",
   "theorems": [
    "Verif.Fp.c134_round_partial",
    "Verif.Fp.c134_range_partial",
    "Verif.Fp.c134_large_partial",
    "Verif.Fp.c134_even_partial",
    "Verif.Fp.c134_odd_violated",
    "Verif.Fp.c134_half_violated",
    "Verif.Fp.c134_negative_violated"
   ],
   "note": "Violated in floating point by the number just below one half (gives 1), by the odd integers from 2^p to 2^(p+1) (give the next integer, double from 2^52, float from 2^23) and by all negative integers (give the next integer). Proved for all other numbers that are not negative. Complements C113, where the sum is exact."
  },
  {
   "property": "C135",
   "status": "proved",
   "theorems": [
    "Verif.Fp.c135_radians",
    "Verif.Fp.c135_degrees",
    "Verif.Fp.c135_round_trip",
    "Verif.Fp.c135_order",
    "Verif.Fp.c135_constants"
   ],
   "note": "Rounding to nearest; no limits of the exponent."
  },
  {
   "property": "C136",
   "status": "partial",
   "theorems": [
    "Verif.Fp.c136_count",
    "Verif.Fp.c136_order",
    "Verif.Fp.c136_seconds",
    "Verif.Fp.c136_whole",
    "Verif.Fp.c136_elapsed_partial",
    "Verif.Fp.c136_elapsed_whole",
    "Verif.Fp.c136_defined",
    "Verif.Fp.c136_stays",
    "Verif.Fp.c136_round_trip",
    "Verif.Fp.c136_early_violated"
   ],
   "note": "HasElapsed may be true up to one nanosecond early, because the interval is truncated to whole nanoseconds (c136_early_violated); c136_elapsed_partial proves it with that allowance. Complements C122, where the durations are integers."
  },
  {
   "property": "C137",
   "status": "partial",
   "theorems": [
    "Verif.File.Win.c137_write_partial",
    "Verif.File.Win.c137_write_throws",
    "Verif.File.Win.c137_write_violated",
    "Verif.File.Win.c137_write_nothing_violated",
    "Verif.File.Win.c137_read_partial",
    "Verif.File.Win.c137_read_violated",
    "Verif.File.Win.c137_read_back",
    "Verif.File.Win.c137_seek_partial",
    "Verif.File.Win.c137_move_partial",
    "Verif.File.Win.c137_move_violated",
    "Verif.File.Win.c137_seek_violated",
    "Verif.File.Win.c137_misplaced_violated",
    "Verif.File.Win.c137_closed_violated",
    "Verif.File.Win.c137_closed_partial",
    "Verif.File.Win.c137_end",
    "Verif.File.Win.c137_truncate",
    "Verif.File.Win.c137_name",
    "Verif.File.Win.c137_same_write",
    "Verif.File.Win.c137_same_read",
    "Verif.File.Win.c137_same_move",
    "Verif.File.Win.c137_same_seek"
   ],
   "note": "Violated: of 2^32 bytes and more only the rest of the division by 2^32 is written and Write returns (nothing of exactly 4 GB); a Read of 2^32 bytes gives none; Seek and Move before the beginning return and stay, because the BOOL of SetFilePointerEx is compared with INVALID_SET_FILE_POINTER; without a file Seek, Move and GetPosition return, GetFileName reads memory that is not initialised. Proved for everything else; system calls as a specification."
  },
  {
   "property": "C138",
   "status": "partial",
   "theorems": [
    "Verif.File.Open.c138_owner",
    "Verif.File.Open.c138_state",
    "Verif.File.Open.c138_fail",
    "Verif.File.Open.c138_keeps",
    "Verif.File.Open.c138_result_partial",
    "Verif.File.Open.c138_new_is_empty",
    "Verif.File.Open.c138_exclusive",
    "Verif.File.Open.c138_race_violated",
    "Verif.File.Open.c138_shared_violated",
    "Verif.File.Open.c138_contents_violated",
    "Verif.File.Open.c138_failed_violated",
    "Verif.File.Open.c138_same_name_violated",
    "Verif.File.Open.c138_reopen_violated"
   ],
   "note": "Violated on POSIX: two threads that open the same new files are both told that they are new, another process that makes a file between access and open is not seen, and storages share files. Violated on both: an Open that throws leaves the master file it made, so that the next Open answers that a file was there; the same name for both files; on Windows opening an open storage again throws. Proved: the answer if nobody else touches the two names during the call, the contents of files, descriptors, the states after success and failure for all interleavings; on Windows also that new storages are empty and files are not shared."
  },
  {
   "property": "C139",
   "status": "partial",
   "theorems": [
    "Verif.ObjectPool.Fin.c139_places",
    "Verif.ObjectPool.Fin.c139_turns",
    "Verif.ObjectPool.Fin.c139_make",
    "Verif.ObjectPool.Fin.c139_make_fails",
    "Verif.ObjectPool.Fin.c139_drop",
    "Verif.ObjectPool.Fin.c139_clear",
    "Verif.ObjectPool.Fin.c139_all_destroyed",
    "Verif.ObjectPool.Fin.c139_finalize_partial",
    "Verif.ObjectPool.Fin.c139_taken_violated",
    "Verif.ObjectPool.Fin.c139_destroyed_violated",
    "Verif.ObjectPool.Fin.c139_nested_violated"
   ],
   "note": "Violated: the deleter puts the object to the free list before it calls Finalize, so a Finalize that makes an object gets the object itself, one that clears the pool destroys it while it runs, and Finalize runs inside itself. Proved for all histories: places, turns of make and Finalize, make, failed make, drop, clear; the last sentence if no Finalize makes objects or clears."
  },
  {
   "property": "C140",
   "status": "partial",
   "theorems": [
    "Verif.ObservableSet.Throw.c140_subset",
    "Verif.ObservableSet.Throw.c140_clear",
    "Verif.ObservableSet.Throw.c140_insert_throws",
    "Verif.ObservableSet.Throw.c140_erase_throws",
    "Verif.ObservableSet.Throw.c140_agree_partial",
    "Verif.ObservableSet.Throw.c140_stuck_violated",
    "Verif.ObservableSet.Throw.c140_wrong_removed_violated"
   ],
   "note": "Proved for all histories: no undefined behaviour, mirrors are subsets, clear restores, what insert and erase that throw have done; the mirrors agree if nothing was thrown. Violated: an insert that throws stays in the source and is unknown to later observers; after an erase that throws behind a mirror every further erase of the element throws; a refused element makes its mirror drop another one."
  },
  {
   "property": "C141",
   "status": "partial",
   "theorems": [
    "Verif.Settings.Disk.c141_names",
    "Verif.Settings.Disk.c141_open",
    "Verif.Settings.Disk.c141_stays_open",
    "Verif.Settings.Disk.c141_isolated",
    "Verif.Settings.Disk.c141_together",
    "Verif.Settings.Disk.c141_saved",
    "Verif.Settings.Disk.c141_failed_save_partial",
    "Verif.Settings.Disk.c141_removed",
    "Verif.Settings.Disk.c141_no_ub",
    "Verif.Settings.Disk.c141_read_error_violated",
    "Verif.Settings.Disk.c141_orphan_violated",
    "Verif.Settings.Disk.c141_half_removed_violated"
   ],
   "note": "Proved for all histories: what was saved is found whatever fails meanwhile, one failed save leaves the old or the new value, other settings are not touched, removed settings are gone, no undefined behaviour. Violated: if reading the backup fails once after a failed save, Load clears the backup and everything is lost; an object whose settings were removed saves without an error into files nobody can open; a remove that fails half way lets another object take the backup away. Two failed saves: C45."
  },
  {
   "property": "C142",
   "status": "partial",
   "theorems": [
    "Verif.Stop.Handle.c142_values",
    "Verif.Stop.Handle.c142_program",
    "Verif.Stop.Handle.c142_counts",
    "Verif.Stop.Handle.c142_callbacks",
    "Verif.Stop.Handle.c142_request",
    "Verif.Stop.Handle.c142_no_ub_partial",
    "Verif.Stop.Handle.c142_copies_violated",
    "Verif.Stop.Handle.c142_every_copy_violated",
    "Verif.Stop.Handle.c142_assign_violated"
   ],
   "note": "Proved for all programs: the meaning of every call as that of plain values, exact counts, life of the stop state, callbacks called once, no undefined behaviour under the stated care. Violated (same defect as C94): destroying or overwriting one of two tokens without a source makes the other one unusable. Calls do not overlap here (C56, C94)."
  },
  {
   "property": "C143",
   "status": "partial",
   "theorems": [
    "Verif.Mp.c143_tables",
    "Verif.Mp.c143_structures",
    "Verif.Mp.c143_reads_partial",
    "Verif.Mp.c143_value_partial",
    "Verif.Mp.c143_fields_partial",
    "Verif.Mp.c143_removed_violated"
   ],
   "note": "Proved with derived tables for the writer and any tables with all structures for the reader; a removed field must be readable as the first type of its name in the reader's tables. Violated without this: removing a vector of one structure while a vector of another one stays makes old files unreadable."
  },
  {
   "property": "C144",
   "status": "partial",
   "theorems": [
    "Verif.Upgrade.c144_old_or_new",
    "Verif.Upgrade.c144_harmless",
    "Verif.Upgrade.c144_settings_partial",
    "Verif.Upgrade.c144_downgrade_violated"
   ],
   "note": "Proved for the changes of C143 and an unchanged header, and that a program with any other format does no harm while the last Save has completed. Violated otherwise: after a crash in Save, a Load by a program with an older version in the header clears the backup file, and all settings are lost."
  },
  {
   "property": "C145",
   "status": "proved",
   "theorems": [
    "Verif.VectorSet.Heap.c145_memory_is_sorted_set",
    "Verif.VectorSet.Heap.c145_index_and_iterators",
    "Verif.VectorSet.Heap.c145_pointers_stay_valid",
    "Verif.VectorSet.Heap.c145_clear_frees_every_node"
   ],
   "note": "The functions are modelled statement by statement on memory with parent pointers and links. Element constructors, the comparison and the allocator do not throw, a new node gets an address that has not been used before, and counters are unbounded."
  },
  {
   "property": "C146",
   "status": "partial",
   "theorems": [
    "Verif.VectorSet.Heap.c146_exceptions_leave_the_set_partial",
    "Verif.VectorSet.Heap.c146_exception_touches_nothing",
    "Verif.VectorSet.Heap.c146_only_the_user_throws",
    "Verif.VectorSet.Heap.c146_existing_value_loses_nothing",
    "Verif.VectorSet.Heap.c146_block_lost_violated",
    "Verif.VectorSet.Heap.c146_node_lost_violated"
   ],
   "note": "The set is always what it was. Memory is lost, which is proved: if the constructor throws, the block that CreateNode has taken is not freed, and if the comparison in InsertNode throws, the new node belongs to nobody; at most one block for every exception."
  },
  {
   "property": "C147",
   "status": "partial",
   "theorems": [
    "Verif.Ring.c147_exceptions_partial",
    "Verif.Ring.c147_as_if_not_called_partial",
    "Verif.Ring.c147_push_violated",
    "Verif.Ring.c147_reserve_violated",
    "Verif.Ring.c147_copy_constructor_partial",
    "Verif.Ring.c147_copy_constructor_violated",
    "Verif.Ring.c147_copy_assignment_partial"
   ],
   "note": "Programs in which reserve throws are proved to leave a ring that can be used and destroyed, with copied elements exactly as if the call had not been made. Proved to be false: a push whose constructor throws counts an element that does not exist, so that the destructor is undefined behaviour; a reserve or a copy constructor whose element throws loses the new buffer and the elements in it; a copy assignment loses the old elements, and if an element throws the target cannot be destroyed."
  },
  {
   "property": "C148",
   "status": "partial",
   "theorems": [
    "Verif.ForeignSet.Throw.c148_exceptions_partial",
    "Verif.ForeignSet.Throw.c148_no_exception",
    "Verif.ForeignSet.Throw.c148_recovers",
    "Verif.ForeignSet.Throw.c148_unknown_violated"
   ],
   "note": "Proved: while nothing throws, every foreign_set shows exactly the source; after exceptions it shows exactly the elements it was told about, and everything stays defined as long as no element is erased that it does not know; clear and a new foreign_set agree with the source again. Proved to be false in general: the removal of an element that a foreign_set does not know is undefined, or makes it forget another element."
  },
  {
   "property": "C149",
   "status": "proved",
   "theorems": [
    "Verif.ForeignSet.Watch.c149_defined",
    "Verif.ForeignSet.Watch.c149_undefined",
    "Verif.ForeignSet.Watch.c149_told",
    "Verif.ForeignSet.Watch.c149_knows",
    "Verif.ForeignSet.Watch.c149_mirror",
    "Verif.ForeignSet.Watch.c149_end",
    "Verif.ForeignSet.Watch.c149_source"
   ],
   "note": "The specification gives each observer the key it watches; the events due, what is seen during the call, who is subscribed at the end and which programs are undefined are proved for all histories. The observers only watch."
  },
  {
   "property": "C150",
   "status": "partial",
   "theorems": [
    "Verif.IntervalMap.c150_thrown_partial",
    "Verif.IntervalMap.c150_returned",
    "Verif.IntervalMap.c150_consistent",
    "Verif.IntervalMap.c150_never_wrong",
    "Verif.IntervalMap.c150_defined",
    "Verif.IntervalMap.c150_no_faults",
    "Verif.IntervalMap.c150_strong_violated"
   ],
   "note": "For all histories with any faults: a call that throws has lost values at most as stated or is complete, no key has a wrong value, look-ups stay consistent, later calls do what they should. That the map is as before is violated: c150_strong_violated, an allocation that fails loses the whole interval of a."
  },
  {
   "property": "C151",
   "status": "partial",
   "theorems": [
    "Verif.IntervalMap.c151_own_value_partial",
    "Verif.IntervalMap.c151_own_value_violated",
    "Verif.IntervalMap.c151_no_value"
   ],
   "note": "Proved for the values whose node outlives the call; in exactly the other cases the call is undefined, c151_own_value_violated."
  },
  {
   "property": "C152",
   "status": "proved",
   "theorems": [
    "Verif.Mp.c152_back",
    "Verif.Mp.c152_copy",
    "Verif.Mp.c152_copy_back"
   ],
   "note": "For the tables that the library derives from the two types, with extra types that are not structures; the two directions are C143 and composed, the loss of nothing is an induction over how one type is contained in the other. CopyV is modelled with the memory it reserves."
  },
  {
   "property": "C153",
   "status": "proved",
   "theorems": [
    "Verif.Coro.c153_ready",
    "Verif.Coro.c153_ready_stays",
    "Verif.Coro.c153_get",
    "Verif.Coro.c153_get_after_ready",
    "Verif.Coro.c153_get_only",
    "Verif.Coro.c153_one_reader",
    "Verif.Coro.c153_no_ub",
    "Verif.Coro.c153_empty"
   ],
   "note": "Over the model of C58, to which is_ready and get are added; the invariants of C58 are kept by get."
  },
  {
   "property": "C154",
   "status": "partial",
   "theorems": [
    "Verif.Show.c154_duration",
    "Verif.Show.c154_zero",
    "Verif.Show.c154_hash_partial",
    "Verif.Show.c154_hash_injective",
    "Verif.Show.c154_stream_left_violated"
   ],
   "note": "Everything but the last sentence is proved for every duration and hash value; printing a hash value leaves the stream decimal and filling with zeros (c154_stream_left_violated)."
  },
  {
   "property": "C155",
   "status": "partial",
   "theorems": [
    "Verif.Testing.c155_numbers",
    "Verif.Testing.c155_numbers_given",
    "Verif.Testing.c155_characters_partial",
    "Verif.Testing.c155_characters_violated",
    "Verif.Testing.c155_garbage_violated",
    "Verif.Testing.c155_range_violated",
    "Verif.Testing.c155_negative_violated"
   ],
   "note": "Proved for numbers of every width. Characters that are white space are lost, bytes among them (c155_characters_violated; c155_characters_partial says what is read). A word that is no number, or a number out of range, silently ends the collection (c155_garbage_violated, c155_range_violated), and a negative number given for an unsigned type is another number (c155_negative_violated)."
  },
  {
   "property": "C156",
   "status": "proved",
   "theorems": [
    "Verif.Storage.Conc.c156_call",
    "Verif.Storage.Conc.c156_saved",
    "Verif.Storage.Conc.c156_crash",
    "Verif.Storage.Conc.c156_held",
    "Verif.Storage.Conc.c156_gives_back",
    "Verif.Storage.Conc.c156_exception"
   ],
   "note": "The serialized value is read a byte of memory at a time, in an order that may depend on what was read; crashes as in C43, whose theorem is used. That a file written from a snapshot is the one written directly is C88."
  },
  {
   "property": "C157",
   "status": "proved",
   "theorems": [
    "Verif.Mp.c157_steps",
    "Verif.Mp.c157_dropped_field",
    "Verif.Mp.c157_other_defaults"
   ],
   "note": "Elements of sets and keys of maps are of the same type in the three versions; the other conditions are those of C143. New objects inside containers have zeros and empty containers (no member initializers there); at the top level the agreement of new objects is a hypothesis about what the third version reads. Two examples show that the conditions on the second version and on the new objects are needed."
  },
  {
   "property": "C158",
   "status": "proved",
   "theorems": [
    "Verif.Decimal.c158_exact",
    "Verif.Decimal.c158_order",
    "Verif.Decimal.c158_back",
    "Verif.Decimal.c158_refused",
    "Verif.Decimal.c158_stops",
    "Verif.Decimal.c158_monotone",
    "Verif.Decimal.c158_too_large"
   ],
   "note": "Over the model of C25 and C26, by induction over the entries; c158_too_large shows that the condition is needed (it is the defect of C25: a sum that does not fit is silently wrong)."
  },
  {
   "property": "C159",
   "status": "partial",
   "theorems": [
    "Verif.Log.c159_read_back_partial",
    "Verif.Log.c159_refused",
    "Verif.Log.c159_clang_violated",
    "Verif.Log.c159_clang_partial",
    "Verif.Log.c159_clang_time_violated",
    "Verif.Log.c159_line_feed_violated",
    "Verif.Log.c159_zero_violated",
    "Verif.Log.c159_full_violated",
    "Verif.Log.c159_half_line_violated",
    "Verif.Log.c159_threads_violated"
   ],
   "note": "Proved for compilers other than Clang, one thread, messages without line feeds and zeros; the log is then what the device takes of one text that can be read. With Clang a record is two lines (the time is printed with ctime, which ends with a line feed), so no line is a record (c159_clang_violated); read by two lines it is right (c159_clang_partial). A message with a line feed can forge records (c159_line_feed_violated), a zero cuts the message (c159_zero_violated), a full device (c159_full_violated) or a time that ctime cannot show (c159_clang_time_violated) loses messages and the calls return normally, a value that is no level leaves half a line (c159_half_line_violated), and two threads may write into each other's lines (c159_threads_violated)."
  },
  {
   "property": "C160",
   "status": "proved",
   "theorems": [
    "Verif.Decimal.c160_text_to_text",
    "Verif.Decimal.c160_compare",
    "Verif.Decimal.c160_unique",
    "Verif.Decimal.c160_distributive"
   ],
   "note": "The condition that everything fits is part of the statement (where it does not, C25 and C73 have the violations); texts have at most 255 digits behind the point. Formulas whose value is zero may compare different because of minus zero (C26)."
  },
  {
   "property": "C161",
   "status": "partial",
   "theorems": [
    "Verif.FixedMem.c161_memory_partial",
    "Verif.FixedMem.c161_same_bytes_partial",
    "Verif.FixedMem.c161_read_back",
    "Verif.FixedMem.c161_overrun_violated",
    "Verif.FixedMem.c161_misaligned_violated",
    "Verif.FixedMem.c161_more_than_written_violated",
    "Verif.FixedMem.c161_truncated_violated",
    "Verif.FixedMem.c161_copy_violated"
   ],
   "note": "Proved for programs that keep to the size and have their numbers at multiples of their length; then every call gives what a memory with a value at every place gives, and all three streams leave the same bytes. Too much data is written outside of the memory, by SwitchMemoryOutputStream even with assertions (c161_overrun_violated); a number after a single byte is a misaligned store (c161_misaligned_violated); after Reset more can be read than was written (c161_more_than_written_violated); a number in truncated data is read outside of the memory (c161_truncated_violated); the memory of a copied stream is deleted twice (c161_copy_violated)."
  },
  {
   "property": "C162",
   "status": "partial",
   "theorems": [
    "Verif.FixedMem.c162_blocks_partial",
    "Verif.FixedMem.c162_aligned_partial",
    "Verif.FixedMem.c162_misaligned_violated",
    "Verif.FixedMem.c162_exhausted_violated",
    "Verif.FixedMem.c162_overflow_violated",
    "Verif.FixedMem.c162_delete_violated",
    "Verif.FixedMem.c162_reset_violated"
   ],
   "note": "Proved for programs that ask for no more than there is and use their blocks until Reset; alignment if all lengths of objects are multiples of it. A number after a byte is not aligned (c162_misaligned_violated); too large a request moves the pointer out of the memory (c162_exhausted_violated); the length is calculated modulo 2^64, so that 2^61+1 objects of eight bytes get eight bytes (c162_overflow_violated); every space ends with delete of memory from new[] (c162_delete_violated); after Reset a new block is an old one (c162_reset_violated)."
  },
  {
   "property": "C163",
   "status": "partial",
   "theorems": [
    "Verif.Vts.c163_as_new",
    "Verif.Vts.c163_session_partial",
    "Verif.Vts.c163_same_program",
    "Verif.Vts.c163_among_others_partial",
    "Verif.Vts.c163_not_cleared_violated",
    "Verif.Vts.c163_initialize_violated"
   ],
   "note": "Proved: as new after ClearPrototypes, the objects one after another (for the versions of C36, which leaves out structures without fields that have got fields), the same program without tables. Without ClearPrototypes the tables of the next stream are accepted but the maps of the stream before are used, and the members are mixed up without an exception unless assertions are checked (c163_not_cleared_violated); Initialize after a stream with tables has no effect (c163_initialize_violated)."
  },
  {
   "property": "C164",
   "status": "partial",
   "theorems": [
    "Verif.Text.c164_names_partial",
    "Verif.Text.c164_not_more",
    "Verif.Text.c164_find",
    "Verif.Text.c164_find_cstr",
    "Verif.Text.c164_store",
    "Verif.Text.c164_round_trip",
    "Verif.Text.c164_other",
    "Verif.Text.c164_fields",
    "Verif.Text.c164_blank_violated",
    "Verif.Text.c164_no_table_violated",
    "Verif.Text.c164_reformatted_violated"
   ],
   "note": "The names are right if and only if there is white space behind every comma and none before it (c164_names_partial); the rest is proved for these lists. A comma at the beginning of a line gives the name before it a blank at its end, so it is not found (c164_blank_violated), and reformatting the source makes a program lose the field in its own files (c164_reformatted_violated); without white space behind a comma a member has no name: undefined behaviour or a failed assertion (c164_no_table_violated)."
  },
  {
   "property": "C165",
   "status": "partial",
   "theorems": [
    "Verif.Combinator.c165_recursion_partial",
    "Verif.Combinator.c165_depth",
    "Verif.Combinator.c165_state_violated"
   ],
   "note": "Proved for functors that do not write to their own members (c165_recursion_partial), and independence of the depth for all. Violated otherwise: every nested call uses a new copy of the functor, so a counter or a cache in a member is not shared (c165_state_violated)."
  },
  {
   "property": "C166",
   "status": "partial",
   "theorems": [
    "Verif.IntRange.c166_range_partial",
    "Verif.IntRange.c166_count_partial",
    "Verif.IntRange.c166_exactly",
    "Verif.IntRange.c166_cut_violated",
    "Verif.IntRange.c166_backwards_violated",
    "Verif.IntRange.c166_negative_violated",
    "Verif.IntRange.c166_large_violated"
   ],
   "note": "Proved for b <= e, all types. Violated for e < b: std::views::iota is undefined, not empty; so is a negative count and a count cast from a large size; a count that does not fit the type is cut."
  },
  {
   "property": "C167",
   "status": "partial",
   "theorems": [
    "Verif.Traits.c167_object_address_partial",
    "Verif.Traits.c167_traits_partial",
    "Verif.Traits.c167_remove_plain",
    "Verif.Traits.c167_group_pointer",
    "Verif.Traits.c167_qualified_violated",
    "Verif.Traits.c167_array_violated"
   ],
   "note": "object_address: all types but arrays. The traits: types without qualifiers; violated for qualified ones (A* const and const smart pointers are no pointers for is_pointer_v) and for arrays."
  },
  {
   "property": "C168",
   "status": "partial",
   "theorems": [
    "Verif.Ring.c168_not_wrapped_partial",
    "Verif.Ring.c168_wrapped_violated"
   ],
   "note": "Rings to which no more is pushed, at the end, than they have room for. Violated for every ring that wraps: m_data + pos is formed before the capacity is subtracted."
  },
  {
   "property": "C169",
   "status": "proved",
   "theorems": [
    "Verif.VectorSet.c169_elements_may_be_changed",
    "Verif.VectorSet.c169_unasked_violated"
   ],
   "note": "Also: what goes wrong if position_changed is not asked."
  },
  {
   "property": "C170",
   "status": "partial",
   "theorems": [
    "Verif.Graph.c170_read_back_partial",
    "Verif.Graph.c170_written",
    "Verif.Graph.c170_sharing_violated",
    "Verif.Graph.c170_cycle_violated",
    "Verif.Graph.c170_size_violated",
    "Verif.Graph.c170_deep_violated"
   ],
   "note": "Structures without cycles that are no deeper than the stack allows: every path leads to the same. Violated: what was shared is read as separate objects (of n + 1 objects more than 2^n bytes are written), cycles overflow the stack, and so does data that is nested deeply."
  },
  {
   "property": "C171",
   "status": "partial",
   "theorems": [
    "Verif.ObservableSet.c171_change_when_added_partial",
    "Verif.ObservableSet.c171_nobody",
    "Verif.ObservableSet.c171_added_violated",
    "Verif.ObservableSet.c171_removing_violated",
    "Verif.ObservableSet.c171_clearing_violated"
   ],
   "note": "Changes when something was added, for every observer that is called no later than the first one that makes changes; nothing is undefined if only the last one does. Violated for the observers after one that erases what was added (dangling reference), for one that erases what is being removed (erased twice), and for insertions while the set is being cleared (lost, though told)."
  },
  {
   "property": "C172",
   "status": "partial",
   "theorems": [
    "Verif.ObservableSet.c172_mirrors_follow_partial",
    "Verif.ObservableSet.c172_sets_unhindered_partial",
    "Verif.ObservableSet.c172_attach_partial",
    "Verif.ObservableSet.c172_moved_partial",
    "Verif.ObservableSet.c172_attached_twice",
    "Verif.ObservableSet.c172_unsubscribed_violated",
    "Verif.ObservableSet.c172_every_unsubscribed_violated"
   ],
   "note": "Proved for all programs in which no mirror is unsubscribed by hand. A mirror that is unsubscribed by hand keeps what it had: attached again, it has more than its set, or throws."
  },
  {
   "property": "C173",
   "status": "partial",
   "theorems": [
    "Verif.VectorSet.Comp.c173_orders_kept_partial",
    "Verif.VectorSet.Comp.c173_all_comparators_partial",
    "Verif.VectorSet.Comp.c173_moved_from_violated",
    "Verif.VectorSet.Comp.c173_every_moved_from_violated"
   ],
   "note": "Proved for all comparators that moving leaves usable, and for all comparators in programs that only clear, assign and destroy sets that were moved from. Violated for comparators like std::function: the second insertion into a set that was moved from throws. Assigning a set to itself is the subject of C11."
  },
  {
   "property": "C174",
   "status": "partial",
   "theorems": [
    "Verif.ForeignSet.c174_follow_partial",
    "Verif.ForeignSet.c174_sets_unhindered_partial",
    "Verif.ForeignSet.c174_construct_partial",
    "Verif.ForeignSet.c174_moved_partial",
    "Verif.ForeignSet.c174_movable",
    "Verif.ForeignSet.c174_unsubscribed_violated",
    "Verif.ForeignSet.c174_subscribed_late_violated",
    "Verif.ForeignSet.c174_getters_lost_violated",
    "Verif.ForeignSet.c174_every_unsubscribed_violated",
    "Verif.ForeignSet.c174_every_late_violated"
   ],
   "note": "Proved for programs that do not unsubscribe a foreign_set by hand and subscribe one by hand only to an empty set and with getters in place. Violated otherwise: unsubscribed by hand it keeps pointers to elements that may be gone, subscribed by hand to a set with elements it lacks them and removing one is undefined, and after a move that takes the getters away the first insertion throws."
  },
  {
   "property": "C175",
   "status": "proved",
   "theorems": [
    "Verif.QuickList.c175_steps",
    "Verif.QuickList.c175_stay",
    "Verif.QuickList.c175_walk",
    "Verif.QuickList.c175_remove_while_walking",
    "Verif.QuickList.c175_late_increment_undefined",
    "Verif.QuickList.c175_next_removed_undefined"
   ],
   "note": "The condition that the body leaves the next element in the list is needed (c175_next_removed_undefined), and a loop that advances after the body is undefined whenever it excludes an element (c175_late_increment_undefined)."
  },
  {
   "property": "C176",
   "status": "partial",
   "theorems": [
    "Verif.QueueMem.c176_defined_partial",
    "Verif.QueueMem.c176_all_freed_partial",
    "Verif.QueueMem.c176_owned_partial",
    "Verif.QueueMem.c176_copy_violated",
    "Verif.QueueMem.c176_every_copy_violated",
    "Verif.QueueMem.c176_nested_violated"
   ],
   "note": "The code violates the full statement: if the assignment in Push throws, its block is in no list and is never deleted (c176_copy_violated); if an update calls ApplyUpdates, the messages being applied drop out of their list and are never deleted (c176_nested_violated, release builds; a debug build fails an assertion). Proved for all other histories."
  },
  {
   "property": "C177",
   "status": "partial",
   "theorems": [
    "Verif.Tuples.c177_for_each",
    "Verif.Tuples.c177_for_each_index",
    "Verif.Tuples.c177_array",
    "Verif.Tuples.c177_transform",
    "Verif.Tuples.c177_transform_partial",
    "Verif.Tuples.c177_order_violated",
    "Verif.Tuples.c177_every_order_violated",
    "Verif.Tuples.c177_find",
    "Verif.Tuples.c177_map_types"
   ],
   "note": "The code violates the full statement: transform_tuple passes the calls as arguments of make_tuple, whose order is unspecified; a function that counts its calls gives different tuples with different compilers (c177_order_violated). Proved for functions whose result depends on the element only; for_each, for_each_index, tuple_to_array and map_types are proved in full."
  },
  {
   "property": "C178",
   "status": "proved",
   "theorems": [
    "Verif.Convert.Win.c178_encode",
    "Verif.Convert.Win.c178_decode",
    "Verif.Convert.Win.c178_round_trip",
    "Verif.Convert.Win.c178_same_text",
    "Verif.Convert.Win.c178_zero"
   ],
   "note": "The functions wcsrtombs_s and mbsrtowcs_s are specified from the documentation."
  },
  {
   "property": "C179",
   "status": "partial",
   "theorems": [
    "Verif.MpDec.c179_same_partial",
    "Verif.MpDec.c179_defined",
    "Verif.MpDec.c179_limits_partial",
    "Verif.MpDec.c179_sum_partial",
    "Verif.MpDec.c179_product_violated",
    "Verif.MpDec.c179_wide_violated",
    "Verif.MpDec.c179_limits_violated"
   ],
   "note": "Violated by types whose sizeof is not the number of their bytes: the number of bits of the mantissa is computed from sizeof, so texts of larger numbers are refused and numeric_limits bounds nothing; violated by products that do not fit: they are wrong without an exception. Conversion through double is not modelled."
  },
  {
   "property": "C180",
   "status": "partial",
   "theorems": [
    "Verif.StorageMove.c180_files_move_partial",
    "Verif.StorageMove.c180_owner",
    "Verif.StorageMove.c180_no_leak",
    "Verif.StorageMove.c180_defined",
    "Verif.StorageMove.c180_self",
    "Verif.StorageMove.c180_self_violated"
   ],
   "note": "Violated by assignment of a storage to itself: it closes the files, as Close does. Files are read and written at once here, their operations are those of C43-C45 and C98."
  },
  {
   "property": "C181",
   "status": "partial",
   "theorems": [
    "Verif.TypeMap.c181_as_if",
    "Verif.TypeMap.c181_evolved_partial",
    "Verif.TypeMap.c181_read_back_partial",
    "Verif.TypeMap.c181_new_data",
    "Verif.TypeMap.c181_missing",
    "Verif.TypeMap.c181_inside_violated"
   ],
   "note": "Violated for containers of a renamed type: a map with QString does not help with std::vector<QString>, whose name sequence<QString> has to be listed as well; the partial theorems ask for every name that has changed."
  },
  {
   "property": "C182",
   "status": "partial",
   "theorems": [
    "Verif.IoMsg.c182_same_functions",
    "Verif.IoMsg.c182_end_of_data",
    "Verif.IoMsg.c182_tells",
    "Verif.IoMsg.c182_unknown_type_partial",
    "Verif.IoMsg.c182_logged",
    "Verif.IoMsg.c182_removed",
    "Verif.IoMsg.c182_removed_reported",
    "Verif.IoMsg.c182_changed_violated",
    "Verif.IoMsg.c182_never_thrown_violated"
   ],
   "note": "Violated for a field whose type has changed to another type of the program: MapPrototypes throws an IoError with a fixed text before the check in ReadV that would name the field and its types can fail, and a storage logs a general I/O exception. The number of the expected type in the text about an unknown type is always size_t(-1)."
  },
  {
   "property": "C183",
   "status": "partial",
   "theorems": [
    "Verif.Single.c183_as_double_partial",
    "Verif.Single.c183_exact_partial",
    "Verif.Single.c183_close",
    "Verif.Single.c183_order",
    "Verif.Single.c183_order_partial",
    "Verif.Single.c183_round_trip_partial",
    "Verif.Single.c183_nearest_violated",
    "Verif.Single.c183_round_trip_violated",
    "Verif.Single.c183_order_violated"
   ],
   "note": "Proved: the relative error, for all mantissas; the order, for decimals with the same number of digits; everything for mantissas that a float holds (up to 2^24), the round trip for mantissas below 2^22. Violated for greater mantissas, because the mantissa is rounded to a float before the division: 167772.17 becomes 167772.15625 and comes back as 167772.16, though 167772.171875 is a float, and 167772.19 becomes greater than 167772.195."
  },
  {
   "property": "C184",
   "status": "partial",
   "theorems": [
    "Verif.Destructible.c184_events_partial",
    "Verif.Destructible.c184_once_partial",
    "Verif.Destructible.c184_use_partial",
    "Verif.Destructible.c184_guard_partial",
    "Verif.Destructible.c184_kept_partial",
    "Verif.Destructible.c184_thrown",
    "Verif.Destructible.c184_copy_violated"
   ],
   "note": "Proved for programs that do not copy variables. Violated for copies: the implicit copy constructor (for constants) and assignment copy the bytes without running a constructor, so that using or destroying the copy is undefined, and for a trivially copyable type one object is destroyed twice."
  },
  {
   "property": "C185",
   "status": "partial",
   "theorems": [
    "Verif.StorageFmt.c185_truncated",
    "Verif.StorageFmt.c185_changed_partial",
    "Verif.StorageFmt.c185_crc",
    "Verif.StorageFmt.c185_exchanged_violated",
    "Verif.StorageFmt.c185_mixed_violated"
   ],
   "note": "Proved for files that are cut off, for changes unless a changed block is a payload followed by its own hash, and outright for CRC-64 and short changes. Violated by blocks that are exchanged: a hash does not cover the place of its block, so for every hash a file with two full blocks exchanged is loaded as another value and Load returns true; likewise a mixture of the blocks of two saves."
  },
  {
   "property": "C186",
   "status": "partial",
   "theorems": [
    "Verif.StorageFmt.c186_good_backup",
    "Verif.StorageFmt.c186_good_master_partial",
    "Verif.StorageFmt.c186_master_kept",
    "Verif.StorageFmt.c186_plain_partial",
    "Verif.StorageFmt.c186_hashed",
    "Verif.StorageFmt.c186_stuck_violated",
    "Verif.StorageFmt.c186_limit_violated"
   ],
   "note": "Proved if the backup holds a value; for a good master if reading the backup throws IoExceptions only, which is proved for all bytes for types without vectors and variants and with limited strings of bytes, and for hashed files of every type. Violated by vectors, and by wide strings even with a limit: the length read first makes resize throw std::length_error or std::bad_alloc, Load does not catch it and does not clear the backup, so that the settings cannot be loaded any more though the master is good."
  },
  {
   "property": "C187",
   "status": "partial",
   "theorems": [
    "Verif.Sleep.Many.c187_no_ub",
    "Verif.Sleep.Many.c187_one",
    "Verif.Sleep.Many.c187_some",
    "Verif.Sleep.Many.c187_not_early",
    "Verif.Sleep.Many.c187_all_wake_partial",
    "Verif.Sleep.Many.c187_returns",
    "Verif.Sleep.Many.c187_request_ends",
    "Verif.Sleep.Many.c187_lost_violated"
   ],
   "note": "Violated by a thread that is, at the moment of the request, between its test of the flag and the beginning of its wait: it sleeps for its whole duration although the request has returned true and has woken the others. Proved for all other threads by simulation: each of the calls makes the steps of the single one of C57."
  },
  {
   "property": "C188",
   "status": "partial",
   "theorems": [
    "Verif.Convert.c188_strings",
    "Verif.Convert.c188_unsigned",
    "Verif.Convert.c188_signed",
    "Verif.Convert.c188_numbers_differ",
    "Verif.Convert.c188_strings_differ_partial",
    "Verif.Convert.c188_word_violated",
    "Verif.Convert.c188_nested_violated"
   ],
   "note": "Violated: the string empty and no string have the same text, and so have, for every type, an empty optional and an optional that contains an empty one. Proved for strings other than that word and for 128 bit numbers (C129) without a width."
  },
  {
   "property": "C189",
   "status": "partial",
   "theorems": [
    "Verif.Text.EnumMsg.c189_refused",
    "Verif.Text.EnumMsg.c189_tells",
    "Verif.Text.EnumMsg.c189_wide",
    "Verif.Text.EnumMsg.c189_name_tells",
    "Verif.Text.EnumMsg.c189_same",
    "Verif.Text.EnumMsg.c189_number_violated",
    "Verif.Text.EnumMsg.c189_other_number_violated",
    "Verif.Text.EnumMsg.c189_blank_violated"
   ],
   "note": "Violated: the underlying type is uint8_t, so narrow streams show the character with this code and never the number, and 53 is shown as 5; the message about a text has no blank behind the name of the enumeration. Proved: what is refused, different messages for different inputs (texts without zeros), and the number in wide programs for enumerators that are read or written."
  }
 ]
}