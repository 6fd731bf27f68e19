#!/usr/bin/env python3
"""Writes /verif/MANIFEST.json."""
import json, os
C = []
def c(prop, status, note, *thms): C.append(dict(property=prop, status=status, theorems=list(thms), note=note))
R="Verif.Ring."
c("C01","proved","",R+"c01_ring_is_bounded_deque",R+"c01_ring_never_exceeds_capacity")
c("C02","proved","",R+"c02_reserve_keeps_newest")
c("C03","partial","The code's bound check is index > size(): at(size()) does not throw (violation theorems). Everything else is proved.",
  R+"c03_at_partial",R+"c03_at_size_behaviour",R+"c03_at_accepts_size_violated",R+"c03_at_reads_raw_memory_violated")
c("C04","proved","",R+"c04_copy",R+"c04_equality",R+"c01_ring_is_bounded_deque")
c("C61","partial","Undefined behaviour exactly when the ring is full and the argument is the element being overwritten.",
  R+"c61_push_own_element_partial",R+"c61_push_own_element_violated",R+"c61_full_ring_violated")
c("C62","partial","A moved-from ring keeps its old size; only destroying it, reserve and assignment are safe.",
  R+"c62_moved_from_ring_partial",R+"c62_moved_from_assign_partial",R+"c62_moved_from_ring_violated",R+"c62_every_ring_violated")
V="Verif.VectorSet."
c("C05","proved","The whole public history: insert/emplace, erase by key and by iterator, clear, find, contains, bounds, size.",V+"c05_vector_set_is_sorted_set",V+"c05_membership")
c("C06","proved","",V+"c06_index_access",V+"c06_index_of_iterator",V+"c06_index_of_key")
c("C07","proved","",V+"c07_iteration")
c("C08","proved","Bound stated as 2^steps <= (size+1)^2.",V+"c08_insertions_keep_balance")
c("C09","partial","The code does not rebalance when a black leaf is removed: for every N a history leaves a set of at least N elements whose tree is a path. Only the linear bound holds.",
  V+"c09_lookup_linear_partial",V+"c09_lookup_degenerates_violated",V+"c09_logarithmic_bound_violated")
c("C10","proved","",V+"c10_never_null")
c("C11","partial","Ring assignment incl. self-assignment is right; vector_set self-assignment (copy and move) empties the set.",
  R+"c11_ring_assignment",V+"c11_vector_set_assignment_partial",V+"c11_vector_set_self_assignment_violated")
c("C63","proved","",V+"c63_iterators_stay_valid")
c("C64","partial","Violated when several elements are equivalent to the key: the bounds are then one of them and its successor (proved), not the first and the end; proved as stated when at most one is.",
  V+"c64_heterogeneous_bounds_partial",V+"c64_any_equivalent_partial",V+"c64_heterogeneous_bounds_violated")
c("C65","proved","",V+"c65_vector_set_equality")
Q="Verif.QuickList."
c("C12","proved","Link-level heap; all list operations incl. splice, move, destruction.",Q+"c12_lists_are_sequences",Q+"c12_other_lists_undisturbed")
c("C13","proved","",Q+"c13_exclude",Q+"c13_safe_exclude_noop")
c("C14","partial","Proved for different source and target in every constellation; self-move-assignment drops the element out of its list (violation theorem).",
  Q+"c14_move_assign_partial",Q+"c14_move_assign_unlinked",Q+"c14_move_construct",Q+"c14_self_move_violated")
c("C15","proved","",Q+"c15_splice",Q+"c15_move_list")
c("C66","partial","Violated: cleared elements still report included() and excluding one removes another element. Only re-insertion is safe.",
  Q+"c66_cleared_elements_violated",Q+"c66_every_element_violated",Q+"c66_reinsert_partial")
c("C67","partial","Violated for every non-empty list: all elements are lost and still report included(); holds for the empty list.",
  Q+"c67_self_splice_violated",Q+"c67_self_splice_partial")
O="Verif.Observable."
c("C16","proved","",O+"c16_notify_each_once",O+"c16_notify_while_true")
c("C17","partial","Violated when a callback removes or destroys the next observer; proved for all other callback behaviours.",
  O+"c17_notify_polite_partial",O+"c17_notify_any_callback_violated")
c("C18","proved","",O+"c18_no_dangling_links")
c("C68","partial","Violated for every observable with observers.",O+"c68_self_move_observable_violated",O+"c68_self_move_observable_partial")
c("C69","proved","Construction over a live element, double destruction and deallocation of a live element are ub in the model. Assignment: c04_copy, c11_ring_assignment.",R+"c69_elements_destroyed_once",R+"c04_copy",R+"c11_ring_assignment")
S="Verif.ObservableSet."
c("C19","proved","Observers whose callbacks only watch; other callbacks are C16, C17.",S+"c19_events_exact",S+"c70_subscriber_knows_contents")
c("C20","proved","One source per mirror (a mirror is an observer with one link). Also chains of mirrors, and that a collision makes the handler throw.",S+"c20_mirror_follows_source",S+"c20_mirror_chain",S+"c20_mirror_collision_throws")
c("C70","partial","Proved except for 'only when contents change': migrate from an empty set sends OnClearing.",S+"c70_subscriber_knows_contents",S+"c70_single_subscription",S+"c70_only_changes_partial",S+"c70_migrate_spurious_violated",S+"c70_migrate_empty_violated")
F="Verif.ForeignSet."
c("C21","proved","Under the code's own precondition (asserted): elements the source distinguishes have different primary keys; keys of an element do not change. c21_equal_primary_keys_drop shows what happens otherwise.",F+"c21_groups_by_foreign_key",F+"c21_group_events",F+"c21_equal_primary_keys_drop")
U="Verif.UpdateQueue."
c("C22","proved","Interleavings at the granularity of mutex operations and list operations; recursive mutex modelled; one consumer thread that does not re-enter ApplyUpdates. Liveness: no deadlock, and every batch ends (C23).",
  U+"c22_applied_in_push_order",U+"c22_all_applied",U+"c22_program_order",U+"c22_never_undefined",U+"c22_no_data_race",U+"c22_no_deadlock")
c("C23","proved","",U+"c23_batch_is_what_waited",U+"c23_pushed_while_applying",U+"c23_batch_terminates")
c("C24","proved","",U+"c24_failed_batch",U+"c24_queue_usable",U+"c23_pushed_while_applying")
c("C71","partial","Proved when no Push throws; violated when the copy into the block throws (the block leaks).",U+"c71_blocks_owned_partial",U+"c71_blocks_owned_violated",U+"c71_every_block_violated")
c("C72","partial","Proved without ClearPending; violated by ClearPending, which keeps the functions of dropped updates alive.",U+"c72_functions_released_partial",U+"c72_functions_released_violated",U+"c72_every_clear_violated")
D="Verif.Decimal."
c("C25","partial","Types whose powers of ten fit. Exact characterisation of when the sum/difference is right, refused or wrong; violated for every type when the sum of two representable numbers is not representable (it wraps silently).",
  D+"c25_add_partial",D+"c25_sub_partial",D+"c25_add_violated",D+"c25_sub_violated")
c("C26","partial","Proved for all pairs except zeros of different sign, for types whose powers of ten fit (64/4, 128/5). Violated by -0 and by types with wrapped powers of ten (64/5).",
  D+"c26_numeric_order_partial",D+"c26_equality",D+"c26_negative_zero_violated",D+"c26_every_zero_violated",D+"c26_wrapped_powers_violated")
c("C27","proved","Types with 3 to 8 bits of digit count whose powers of ten fit.",D+"c27_printed_text",D+"c27_text_round_trip")
c("C28","partial","Proved for non-empty texts with at most 255 digits behind the point, where a literal may have no digits at all; violated: empty text is undefined, '.' and '-' are accepted, more than 255 digits are misread.",
  D+"c28_parse_partial",D+"c28_empty_text_violated",D+"c28_no_digit_violated",D+"c28_long_text_violated",D+"c28_zeros_lost_violated")
c("C29","partial","floor and ceil round toward/away from zero: right for non-negative decimals, violated for every negative decimal that has to be rounded.",
  D+"c29_extend",D+"c29_normalize",D+"c29_truncate",D+"c29_rescale",D+"c29_floor_partial",D+"c29_ceil_partial",D+"c29_floor_ceil_violated")
c("C30","proved","Bit-field layout of GCC/Clang on little-endian machines (trusted).",D+"c30_bits_round_trip",D+"c30_every_pattern",D+"c30_injective",D+"c30_in_range")
c("C73","partial","Exact if mantissa product and digit count fit; otherwise violated: it never throws, wraps or is undefined.",D+"c73_multiply_partial",D+"c73_multiply_violated")
c("C74","partial","Exact or refused for at most nine digits and mantissas below 64 bits; violated for more digits, and for wider decimals by an overflow.",D+"c74_nanoseconds_partial",D+"c74_narrow_mantissa",D+"c74_nanoseconds_violated",D+"c74_overflow_violated",D+"c74_more_digits_violated",D+"c74_returned_partial")
c("C75","proved","",D+"c75_limits")
c("C76","proved","",D+"c76_unary_minus",D+"c76_sub_self")
c("C77","proved","m in the range of the signed type (its minimum excluded).",D+"c77_set_mantissa")
Z="Verif.Serialize."
c("C31","proved","Every type of a universe that covers all Read/Write overloads; little-endian machine with 8-byte size_t; hash containers iterate in insertion order.",Z+"c31_round_trip",Z+"c31_new_object",Z+"c31_unambiguous")
c("C32","proved","",Z+"c32_truncated")
c("C33","partial","Violated by optionals, pointers, deques, sets, maps (not cleared by Read); proved for every type without them.",
  Z+"c33_replaces_partial",Z+"c33_optional_violated",Z+"c33_collection_violated",Z+"c33_map_violated")
c("C34","proved","Signed and unsigned, every width.","Verif.IntArray.c34_byte_order","Verif.IntArray.c34_unsigned_round_trip","Verif.IntArray.c34_signed_round_trip","Verif.IntArray.c34_bytes_round_trip")
c("C78","partial","The limit holds for whatever is read; but the byte length of a wide string wraps around, so a huge length field passes the check and is refused only by the allocation.",
  Z+"c78_limit_on_read",Z+"c78_limit_on_write",Z+"c78_refused_partial",Z+"c78_wraparound_violated",Z+"c78_wrapped_violated",Z+"c78_lengths")
c("C79","partial","Proved for all types without variants, time points with ticks finer than a nanosecond and rings without limit. Violated by each of the three: a variant's index is not checked, the conversion of a time point may overflow (exactly when is proved), an element is pushed into a ring without places.",
  Z+"c79_arbitrary_bytes_partial",Z+"c79_time",Z+"c79_variant_violated",Z+"c79_time_violated",Z+"c79_ring_violated")
c("C80","partial","Exact for ticks that are multiples of a nanosecond; for every tick of p/q nanoseconds, a time point is read back as it was if and only if it is a whole number of nanoseconds, and otherwise one nearer to zero is (c80_exact_partial). Finer ticks are truncated (violated).",Z+"c80_time_point_partial",Z+"c80_exact_partial",Z+"c80_time_point_violated")
T="Verif.Vts."
c("C35","proved","For all tables that describe the types (that those derived from the types do is C105); recursion depth of skipping is unbounded.",T+"c35_round_trip",T+"c35_injective")
c("C36","partial","Proved for all pairs of versions related by Evolves, any nesting; violated when the written structure has no fields and the new one has some (an empty map is taken for a trivial one), and when a removed field has the type name of another type (c143_removed_violated).",
  T+"c36_read_converts_partial",T+"c36_fields_partial",T+"c36_same_field",T+"c36_truncated",T+"c36_empty_structure_violated",T+"c36_every_empty_violated")
c("C37","partial","With a new Reader every mismatch of type names is reported (as IoError). Violated: the same Reader after a failed attempt reads the fields without checks; types with equal names but different layout (vector<bool>, vector<int8_t>) are not told apart.",
  T+"c37_mismatch_reported_partial",T+"c37_first_read",T+"c37_inconsistent_structure",T+"c37_second_read_sequential_violated",T+"c37_second_read_violated",T+"c37_equal_names_violated")
c("C81","partial","Holds for movable types. For types that cannot be moved: violated by sets, maps, optionals (restored by reading into the half-read object) and by exceptions that are not IoException.",
  T+"c81_movable_unchanged",T+"c81_restored_partial",T+"c81_set_violated",T+"c81_other_exception_violated")
H="Verif.HashStream."
c("C38","proved","Underlying input stream returns what is asked for until its end (see C85).",H+"c38_transparent",H+"c38_all_received")
c("C39","proved","",H+"c39_truncated",H+"c39_received_prefix")
c("C40","proved","Any hash; CRC-64 bursts at byte level for the stream and at bit level for the hash.",H+"c40_modified",H+"c40_original_or_reported",H+"c40_crc_burst",H+"c40_crc_bit_burst",H+"c40_crc_reported")
c("C41","proved","Also as the remainder of polynomial division over the field with two elements.","Verif.Crc64.c41_bitwise","Verif.Crc64.c41_remainder","Verif.Crc64.c41_concatenation","Verif.Crc64.c41_elements")
c("C42","proved","Also for underlying streams that return less than asked for.",H+"c42_buffered_input",H+"c42_buffered_output",H+"c42_vector_fifo",H+"c42_measure")
c("C82","partial","Violated: the destructor tries to write again, throws and the program is terminated. What is stored is a prefix.",H+"c82_stored_partial",H+"c82_write_error_violated")
c("C83","partial","Safe up to the first exception; afterwards an invalidated iterator is used (violated).",H+"c83_any_bytes_partial",H+"c83_after_exception_violated")
c("C84","partial","Violated across the end of the payload because the reflected CRC is stored most significant byte first.",H+"c84_burst_partial",H+"c84_burst_across_boundary_violated")
c("C85","partial","Violated: a short read is reported as corruption.",H+"c85_long_reads_partial",H+"c85_short_read_violated")
A="Verif.Storage."
G="Verif.StorageFmt."
c("C43","proved","For every format that rejects proper prefixes and every crash model in which a completed flush is durable and a damaged file is detected; in particular for writes that reach the disk in order. The formats of the library (plain, version tolerant, headered, hashed) satisfy the assumption. That the directory entries of new files are durable is assumed.",A+"c43_save_atomic",A+"c43_old_or_new",A+"c43_durable",G+"c43_plain",G+"c43_settings")
c("C44","proved","For every contents of the two files, not only those left by Save.",A+"c44_recovery_idempotent",A+"c44_old_or_new",A+"c44_completed")
c("C45","partial","Violated: two failed saves of different values can lose everything (shown for every format whose mixtures do not parse, and for CRC-64 files). Retries of one value and a single failure are harmless.",A+"c45_retry_partial",A+"c45_one_failure_partial",A+"c45_failed_saves_violated",A+"c45_all_lost_violated",G+"c45_crc_violated")
c("C86","partial","Violated when a file holds a value followed by something: the value is taken over although Load fails.",A+"c86_unchanged_partial",A+"c86_failed_load_violated",G+"c86_trailing_violated")
c("C87","proved","ReadOldVersion as it is in the class (throws).",G+"c87_header",G+"c87_long_name")
c("C88","proved","",G+"c88_snapshot")
c("C89","partial","Holds for values written to the file itself; violated for hashed files: data are not noticed if and only if the last block of the value has room for them (c89_hashed).",G+"c89_no_trailing_partial",G+"c89_trailing_violated",G+"c89_hashed")
def n(ns, *xs): return [ "Verif."+ns+"."+x for x in xs ]
c("C46","partial","Violated: moving a released guard runs its action; every move assignment from an engaged guard loses an action; virtual_guard moved twice terminates. Proved for histories without these.",*n("Guard","c46_ideal_exactly_once","c46_refines_partial","c46_exactly_once_partial","c46_move_released_violated","c46_move_assign_violated","c46_moved_twice_violated","c46_every_guard_violated"))
c("C90","partial","Violated by self-move assignment, which deletes the object and leaves the pointer null. Proved otherwise.",*n("Guard","c90_ideal_exactly_once","c90_refines_partial","c90_exactly_once_partial","c90_self_move_violated","c90_every_self_move_violated"))
c("C47","proved","",*n("Compare","c47_composite","c47_lexicographic","c47_equivalent","c47_reverse","c47_key","c47_reverse_order","c47_reverse_twice","c47_pointers","c47_pointers_undefined"))
c("C48","proved","",*n("Compare","c48_key","c48_reverse","c48_composite","c48_elements","c48_range","c48_unique","c48_by_element","c48_by_element_composite"))
c("C49","proved","",*n("Compare","c49_position_changed"))
c("C50","partial","Violated when the names are written without a space after the comma: they are parsed as one name. Proved for names separated by a comma and white space.",*n("Text","c50_member_list_partial","c50_round_trip","c50_other_text","c50_not_an_element","c50_index","c50_no_space_violated"))
c("C51","partial","Violated: intervals with the same value are merged across a gap; assigning the greatest key over an interval that begins at or behind the left end throws (or is undefined), and has removed keys by then. c51_step says exactly what a call does in every map that can arise.",*n("IntervalMap","c51_function_partial","c51_distinct_values_partial","c51_step","c51_gap_violated","c51_top_violated","c51_throw_removes_violated"))
c("C52","partial","Violated for the constructor from an initializer list when the enumeration has more than 64 elements (undefined shift), or for a value that is no element. Everything else is proved for every size.",*n("BitMap","c52_step","c52_history","c52_queries","c52_any_all","c52_count","c52_not_an_element","c52_init_partial","c52_init_violated","c52_init_not_an_element_violated"))
c("C53","partial","Violated when the pool is destroyed while objects are in use (undefined). Proved when the pool outlives the pointers. One thread.",*n("ObjectPool","c53_valid_partial","c53_exclusive","c53_returned","c53_no_leak_partial","c53_pool_first_violated"))
c("C54","partial","Violated: setting a value again after completion calls the handler again, with the other values moved from. Proved up to then.",*n("Aggregator","c54_not_called","c54_called","c54_once_partial","c54_cancelled","c54_again_violated"))
c("C91","partial","Violated for characters outside ASCII: tolower of a negative char is undefined. Proved for ASCII.",*n("Text","c91_lexicographic_partial","c91_strict_weak_partial","c91_equal","c91_enum_name","c91_not_ascii_violated"))
c("C92","proved","",*n("Text","c92_separated"))
c("C55","partial","Violated: the queue gives out the latest deadline first, so a timer waits for all later ones. Proved: no timer early, each resumed once.",*n("TimeQueue","c55_not_early_partial","c55_exactly_once","c55_progress","c55_await","c55_order_violated","c55_delay_violated"))
c("C59","partial","Violated for names of one letter, which are not recognised. Proved for names of two characters and more, with values that do not read as such an option.",*n("Testing","c59_parsed_partial","c59_repeated","c59_rejected","c59_found","c59_unused","c59_one_letter_violated"))
c("C60","partial","Violated: the exit code is 1 if all selected tests pass and 0 if one fails; a malformed command line gives 0.",*n("Testing","c60_exit_code_violated","c60_bad_command_line_violated","c60_one_iff_passed_partial","c60_unknown_name_partial","c60_duplicate_test"))
c("C93","partial","Violated for unsigned int above the range of int (default used silently), for negative texts given for unsigned types, for flags and for text behind a number. Floating point is not modelled.",*n("Testing","c93_scalar_partial","c93_words","c93_refused_partial","c93_no_number","c93_blanks","c93_plus","c93_unsigned_violated","c93_negative_violated","c93_flag_violated","c93_trailing_violated"))
c("C58","partial","Proved for structured programs (a coroutine awaits tasks of its own, variables are used in scope). Violated: a task released after it finished is never destroyed; awaiting somebody else's task uses a destroyed frame or waits for ever; a second await gets a moved-from value or ends the program.",*n("Coro","c58_no_ub","c58_destroyed_once","c58_resumed","c58_finishes","c58_await","c58_waits","c58_got","c58_result","c58_once","c58_no_leak_partial","c58_all_destroyed_partial","c58_late_release_violated","c58_lost_violated","c58_dangling_violated","c58_second_await_violated"))
c("C56","proved","For sequentially consistent memory; the reference count of the state is C94. A request_stop in progress keeps its source alive and a callback object is destroyed once and after its constructor, as the standard demands.",*n("Stop","c56_no_ub","c56_one_winner","c56_exactly_one","c56_stop_stays","c56_once","c56_registered","c56_all_called","c56_all_ran","c56_unlinked","c56_destroyed","c56_destroyed_quiet","c56_wait","c56_lock","c56_late"))
c("C94","partial","Violated: without a source the destruction of any token, or of a called callback, deletes the state that other tokens still use. Proved: no deletion while a source exists, no leak, and safety of histories without such a destruction.",*n("Stop.Count","c94_source_keeps","c94_no_leak","c94_word","c94_no_ub_partial","c94_violated","c94_callback_violated","c94_token_deletes_violated"))
c("C57","partial","Violated: a stop requested between the test of the flag and the beginning of the wait is lost (the callback notifies without the mutex) and the whole duration is slept. Proved: not early, not blocked by an earlier request, woken by a request outside of that window, returns at once then. One stopping thread; stop_callback as C56 specifies it.",*n("Sleep","c57_no_ub","c57_not_early","c57_stop_before","c57_wakes_partial","c57_returns","c57_timeout","c57_lost_violated"))
c("C95","proved","For sequentially consistent memory; std::mutex, std::condition_variable and stop_callback (C56) as specifications; one stop state, one condition variable, one lock, predicates that read a variable changed under the lock.",*n("CondVar","c95_no_ub","c95_stop_not_lost","c95_notify_not_lost","c95_result","c95_predicate_locked","c95_notify_one","c95_ends","c95_no_deadlock"))
c("C96","partial","Violated: a second begin() skips a value, and begin() of a generator that has ended is undefined. Proved for everything else; one thread, bodies reach their next suspension.",*n("Generator","c96_sequence","c96_iterator","c96_increment","c96_owner","c96_no_ub","c96_self_assign","c96_begin_partial","c96_begin_empty","c96_for","c96_for_only","c96_fmap","c96_begin_twice_violated","c96_begin_again_violated","c96_begin_ended_violated"))
c("C97","partial","Violated as C96: a second begin() skips a value, begin() of a generator that has ended is undefined; a consumer whose generator is destroyed is never resumed, and a second consumer that awaits is undefined. Proved for everything else.",*n("AsyncGen","c97_sequence","c97_once_partial","c97_waiting","c97_result","c97_usable","c97_owner","c97_no_ub","c97_begin_empty","c97_begin_ended_violated","c97_begin_twice_violated","c97_begin_again_violated","c97_destroyed_violated","c97_second_violated"))
c("C98","partial","Violated: a write of more bytes than one call of write(2) takes throws after writing a part; a short write leaves a part in the file; End is false behind the end. Proved for positions up to the end and everything else; POSIX, system calls as a specification.",*n("File","c98_write","c98_write_nothing","c98_read_back","c98_read","c98_write_throws","c98_large_violated","c98_short_violated","c98_part_violated","c98_end_partial","c98_end_violated","c98_read_all","c98_seek","c98_move","c98_truncate"))
c("C99","partial","Violated: move assignment of a handle to itself closes the file. Proved for all histories otherwise.",*n("File","c99_owner","c99_no_leak","c99_assign_partial","c99_self_violated"))
c("C100","partial","Violated: Load after an Open that failed throws. Proved: Open and Save never throw, Load of an open storage throws only if the file system fails during the call; the same results as C43 to C45.",*n("Settings","c100_open","c100_save","c100_saved","c100_open_same","c100_load_partial","c100_load_violated"))
c("C101","partial","Violated for a moved object: it still loads and saves the value of the object it was moved from, which is undefined if that is gone. Proved for histories without moves; failures of the file system: C141.",*n("Settings","c101_no_ub_partial","c101_load_partial","c101_save_partial","c101_move_violated","c101_wrong_value_violated", "c101_moved_violated"))
c("C102","partial","Violated: assignment of an object to itself stops and joins its thread. Proved for everything else; std::thread as a specification, the stop state is C56.",*n("JThread","c102_owned","c102_all_joined","c102_stop","c102_stop_before_join","c102_no_terminate_partial","c102_stop_asked","c102_callable","c102_returns","c102_move","c102_swap","c102_self_violated"))
c("C103","partial","Violated: the log function is called before it is constructed or after it is destroyed if the timeout is over in these windows; and destruction takes the whole timeout if it begins between the thread's test of the flag and its wait (C57). Proved for everything else; stop tokens as specifications (C56), sleep as a specification but in c103_quick_partial and c103_slow_violated.",*n("WatchDog","c103_quick_partial","c103_slow_violated","c103_user_stop","c103_only","c103_timeout","c103_log","c103_ends","c103_no_ub_partial","c103_ctor_violated","c103_dtor_violated"))
c("C104","partial","Violated for overlapping calls of two threads, which make two instances. Proved for calls that do not overlap.",*n("Singleton","c104_one_partial","c104_shared","c104_one_alive_partial","c104_demand","c104_holders","c104_race_violated","c104_any_number_violated"))
c("C105","partial","Violated: no tables (the program does not compile) for a structure with a field that is a pair, for structures that contain only structures or nothing, and for additional types that are structures. For all other types the variant, the tables and the round trip are proved.",*n("Mp","c105_variant","c105_members","c105_compiles_partial","c105_described","c105_described_user","c105_values","c105_round_trip","c105_pair_field_violated","c105_only_structures_violated","c105_extra_violated"))
c("C106","partial","Proved: equal names exactly for equal shapes, the names in the tables, and that a field of a changed shape is reported. Violated as identification: bool and int8_t, string and vector<bool>, all structures share names.",*n("Mp","c106_names_partial","c106_number_names","c106_table","c106_changed_field","c106_same_name_violated"))
c("C107","proved","All classes, with the strict weak order of each member's < as hypothesis (so no floating point members with NaN). size_t has 64 bits.",*n("Memberwise","c107_equal","c107_less","c107_operators","c107_order","c107_equivalence","c107_hash","c107_last","c107_vector","c107_vector_equal","c107_vector_hash"))
c("C108","partial","Proved for all histories: each open handle is held by exactly one variable, so none leaks and none is closed twice; copies of non-empty handles and moves; no undefined behaviour when duplications succeed. Violated: a copy of an empty handle is a handle of the current process, assigning a variable to itself closes the file (and leaves a handle of the process), and a copy that fails leaves a variable that was never written.",*n("SharedHandle","c108_owned","c108_all_closed","c108_copy_partial","c108_move","c108_assign_partial","c108_no_ub_partial","c108_copy_empty_violated","c108_self_assign_violated","c108_self_move_violated","c108_failed_copy_violated"))
c("C109","partial","Refinement to stacks for all histories. Violated: the elements of a list that is cleared (or ends) still say they are included; an element that ends in a list makes the loop undefined.",*n("SingleList","c109_contents","c109_tests","c109_pop","c109_included_partial","c109_clear_violated","c109_destroyed_element_violated","c109_empty_ub"))
c("C110","partial","For all sets of registrations, create calls the function registered last with the name and the type deduced from the arguments. Violated: a function that accepts the arguments but not with exactly the deduced types (a variable for a parameter that is a value, a temporary object for const T&) is not found; a second registration of a name hides the first silently; an ended link stays in the chain; a std::string with a zero character is cut.",*n("StaticChain","c110_create","c110_find","c110_registered_partial","c110_inexact_violated","c110_duplicate_violated","c110_unlinked_violated","c110_zero_violated"))
c("C111","partial","For all values of the types with 128, 256 and 512 bits, and for magnitudes below 2^1016. Violated: with 1024 bits the magnitudes from 2^1016 on cannot be written (CorruptionException); all the types have the same name, and a negative value read as unsigned becomes a positive one.",*n("Multiprec","c111_round_trip_partial","c111_types","c111_truncated","c111_length","c111_large_violated","c111_same_name_violated"))
c("C112","partial","For all values whose exponent fits its bits. Violated: set_exp does not check, a larger exponent changes the mantissa.",*n("Multiprec","c112_get","c112_fields","c112_set_positive","c112_set_man","c112_set_exp_partial","c112_make_partial","c112_large_exp_violated","c112_set_any_exp","c112_every_exp_violated","c112_make_any"))
c("C113","partial","clamp and sign for all strict weak orders; round for numbers that are not negative, with exact arithmetic. Violated: every negative integer is rounded to the next one, and below -1/2 no number that is not halfway between two integers is rounded to the nearest.",*n("Math","c113_round_partial","c113_round_range","c113_round_violated","c113_round_negative_violated","c113_clamp","c113_sign"))
c("C114","partial","For all types without empty structures, and for the index of primitive types. Violated: a field that is itself a structure has no index; a type with an empty structure inside does not compile.",*n("TypeIndex","c114_count","c114_index_partial","c114_bound","c114_struct_violated","c114_empty_violated"))
c("C115","partial","Reading without failures of the device; writing when the device has room. Violated: a failed input stream gives no data and never End; bytes that stay in the buffer are lost without an exception, nothing flushes.",*n("StdStream","c115_read_partial","c115_read_raw","c115_failed_violated","c115_write_partial","c115_unbuffered","c115_write_failed","c115_write_stays_failed","c115_lost_violated"))
c("C116","partial","Throws for exceptions that are no bases of TestException; AreEqual unless the usual conversions change a value. Violated: Throws of TestException or a base of it (std::exception) never fails when nothing is thrown; AreEqual(-1, 4294967295u) passes.",*n("Assert","c116_condition","c116_throws_partial","c116_base_violated","c116_equal_passes","c116_equal_partial","c116_sign_violated"))
c("C117","partial","For tests that fail with a TestException, in a new map. Violated: a test that fails with another exception shows none of its output; a map used again after a failure shows the output of both tests.",*n("Testing","c117_output_partial","c117_passed","c117_other_violated","c117_again_violated","c117_shutdown"))
c("C118","proved","Beyond the statement: an array whose last character is no zero loses it.",*n("FixedStr","c118_literal","c118_array_violated","c118_text","c118_index","c118_plus","c118_equal","c118_ascii"))
c("C119","partial","Same hash in all forms; different texts of at most eight characters have different hashes (of any lengths with the default seed unless they begin with a zero, of the same length with every seed). Violated: every text of nine characters and more has another of its length with the same hash; a zero at the beginning is not seen; an array larger than its text has the hash of the text with zeros.",*n("FixedStr","c119_same","c119_switch_partial","c119_same_length","c119_collision_violated","c119_zero_violated","c119_array_violated"))
c("C120","partial","For all types as in C79: every stream throws, or gives a legal value, or has a structure index outside its own tables. Violated: that index is only asserted, so it is undefined behaviour; a reader that tests it differs nowhere else. Violated: a stream may declare a structure with a field of its own type; skipping it needs a stack as deep as the stream is long.",*n("Vts","c120_arbitrary_bytes_partial","c120_tests_cost_nothing","c120_tables","c120_index_violated","c120_depth_violated"))
c("C121","partial","All values of all types with equal versions, sequences, truncations; arbitrary bytes for checked types as in C79 (no variants, rings without limit, time points that need multiplication). Beyond the statement: an object of another version is silently misread, as the header documents.",*n("Vts","c121_round_trip","c121_truncated","c121_sequence","c121_after_tables","c121_arbitrary_bytes_partial","c121_versions_violated","c121_every_version_violated"))
c("C122","partial","Exact for units that are whole nanoseconds; within one nanosecond for all units. Violated: intervals finer than a nanosecond elapse at once, intervals of more than 292 years and a start at the smallest time are undefined behaviour, and a 32 bit count of milliseconds is negative after 25 days. Durations with floating point are left out.",*n("StopWatch","c122_has_elapsed_partial","c122_within_nanosecond","c122_stays","c122_elapsed_partial","c122_count_partial","c122_fine_violated","c122_long_violated","c122_min_violated","c122_wrapped_violated","c122_too_many_violated"))
c("C123","partial","For all decimal units and all counts but the smallest; with Clang the number of nanoseconds. Violated: the number of parts is ignored, the smallest duration is undefined behaviour, and with Clang so are long durations of coarse units.",*n("Time","c123_text_partial","c123_unambiguous","c123_watch_partial","c123_clang_partial","c123_parts_violated","c123_min_violated","c123_clang_violated"))
c("C124","partial","Proved for every time zone, given that std::mktime inverts the local clock; the month is counted from 0. Violated: with a clock of nanoseconds years from 2263 and before 1677 are undefined behaviour, also if the result is in seconds; if std::mktime fails, the result is the last second of 1969 and nothing is thrown.",*n("Time","c124_local","c124_local_before","c124_local_fraction","c124_constant_zone","c124_failure_violated","c124_after_epoch_partial","c124_before_epoch_partial","c124_months","c124_fraction","c124_late_violated","c124_early_violated","c124_month_shifted"))
c("C125","partial","Nearest double and order for mantissas up to 2^53 and 22 digits; the way back with make_rounded for mantissas below 2^51 (15 significant digits). Violated: the assignment, make_decimal and make_truncated make 0.28 of 0.29; above 2^53 different decimals are the same double.",*n("Double","c125_cast","c125_order","c125_round_trip_partial","c125_distinct_partial","c125_assign_violated","c125_digits_violated"))
c("C126","partial","As stated if the product with the power of ten is a double; for every double with an additional error of 2^-53 of the number. Violated: 0.15 truncated and floored is greater than the double, 0.01 rounded up is less, 2^59 is stored as 0 and 2^63 is undefined behaviour.",*n("Double","c126_exact_partial","c126_same","c126_error_partial","c126_rounded_partial","c126_enclosed_partial","c126_larger_violated","c126_smaller_violated","c126_large_violated"))
c("C127","partial","Sums and differences with doubles that have the digits of the decimal are exact; otherwise off by less than one unit and 2^-53 (products and quotients 2^-51) of the number. Violated: 0.00 + 0.29 is 0.28, and 0.29 times or divided by one is 0.28.",*n("Double","c127_add_exact","c127_add_partial","c127_sub_exact","c127_sub_partial","c127_mul_partial","c127_div_partial","c127_neutral_violated"))
c("C128","partial","For all texts without zeros and all encodings that tell characters apart; UTF-8 and ASCII are proved to be such encodings. Violated: what follows a zero is lost. In the locale that a program starts with every character outside of ASCII throws, as std::length_error.",*n("Convert","c128_wide_round_trip_partial","c128_narrow_round_trip_partial","c128_reported","c128_defined","c128_utf8","c128_start_locale","c128_zero_violated"))
c("C129","partial","Unsigned numbers that are not longer than a width of two or more; signed numbers without a width. Violated: a longer number is preceded by fill characters, one fewer than it has digits; a width throws for every signed number; the smallest signed number is undefined behaviour.",*n("Convert","c129_text_partial","c129_distinct","c129_signed_partial","c129_long_violated","c129_signed_violated"))
c("C130","partial","Full for unsigned keys. Violated: for signed keys narrower than int the loop throws after as many keys as the type has non-negative values; for wider signed keys a difference overflows (undefined behaviour); the reverse iterators are not implemented.",*n("IntervalMap","c130_unsigned","c130_iteration_partial","c130_narrow_violated","c130_wide_violated","c130_reverse_violated"))
c("C131","partial","Full for histories without exceptions of element constructors, without emplace of an existing key in a set with another than the standard allocator, and without a constructor from a list that gets another than the default allocator. Each of the three restrictions is necessary.",*n("VectorSet.Mem","c131_no_double_free_partial","c131_no_leak_partial","c131_allocator_partial","c131_get_allocator","c131_throw_partial","c131_throw_violated","c131_init_list_violated","c131_emplace_violated","c131_construct_violated"))
c("C132","partial","Exact if the integer and its product with the power of ten are numbers that a double and a mantissa can hold; the cast if the mantissa is below 2^53 and the integer type can hold the mantissa; comparisons if the mantissa is below 2^53 and the integer not above. Violated: larger integers are rounded or lose their upper bits without an exception; cast<int>() of 30.00000000 is -12; cast<int64_t>() of 99.999999999999999 is 100.",*n("Double","c132_make_partial","c132_make_small_partial","c132_cast_partial","c132_round_trip_partial","c132_compare_partial","c132_make_violated","c132_cast_violated","c132_round_up_violated"))
c("C133","proved","The object is destroyed when no thread is in a notify function or at the very beginning of a wait, and not used afterwards (Legal).",*n("CondVar.Plain","c133_lifetime","c133_released","c133_result","c133_locked","c133_notify","c133_notify_not_lost","c133_ends","c133_no_deadlock"))
c("C134","partial","Violated in floating point by the number just below one half (gives 1), by the odd integers from 2^p to 2^(p+1) (give the next integer, double from 2^52, float from 2^23) and by all negative integers (give the next integer). Proved for all other numbers that are not negative. Complements C113, where the sum is exact.",*n("Fp","c134_round_partial","c134_range_partial","c134_large_partial","c134_even_partial","c134_odd_violated","c134_half_violated","c134_negative_violated"))
c("C135","proved","Rounding to nearest; no limits of the exponent.",*n("Fp","c135_radians","c135_degrees","c135_round_trip","c135_order","c135_constants"))
c("C136","partial","HasElapsed may be true up to one nanosecond early, because the interval is truncated to whole nanoseconds (c136_early_violated); c136_elapsed_partial proves it with that allowance. Complements C122, where the durations are integers.",*n("Fp","c136_count","c136_order","c136_seconds","c136_whole","c136_elapsed_partial","c136_elapsed_whole","c136_defined","c136_stays","c136_round_trip","c136_early_violated"))
c("C137","partial","Violated: of 2^32 bytes and more only the rest of the division by 2^32 is written and Write returns (nothing of exactly 4 GB); a Read of 2^32 bytes gives none; Seek and Move before the beginning return and stay, because the BOOL of SetFilePointerEx is compared with INVALID_SET_FILE_POINTER; without a file Seek, Move and GetPosition return, GetFileName reads memory that is not initialised. Proved for everything else; system calls as a specification.",*n("File.Win","c137_write_partial","c137_write_throws","c137_write_violated","c137_write_nothing_violated","c137_read_partial","c137_read_violated","c137_read_back","c137_seek_partial","c137_move_partial","c137_move_violated","c137_seek_violated","c137_misplaced_violated","c137_closed_violated","c137_closed_partial","c137_end","c137_truncate","c137_name","c137_same_write","c137_same_read","c137_same_move","c137_same_seek"))
c("C138","partial","Violated on POSIX: two threads that open the same new files are both told that they are new, another process that makes a file between access and open is not seen, and storages share files. Violated on both: an Open that throws leaves the master file it made, so that the next Open answers that a file was there; the same name for both files; on Windows opening an open storage again throws. Proved: the answer if nobody else touches the two names during the call, the contents of files, descriptors, the states after success and failure for all interleavings; on Windows also that new storages are empty and files are not shared.",*n("File.Open","c138_owner","c138_state","c138_fail","c138_keeps","c138_result_partial","c138_new_is_empty","c138_exclusive","c138_race_violated","c138_shared_violated","c138_contents_violated","c138_failed_violated","c138_same_name_violated","c138_reopen_violated"))
c("C139","partial","Violated: the deleter puts the object to the free list before it calls Finalize, so a Finalize that makes an object gets the object itself, one that clears the pool destroys it while it runs, and Finalize runs inside itself. Proved for all histories: places, turns of make and Finalize, make, failed make, drop, clear; the last sentence if no Finalize makes objects or clears.",*n("ObjectPool.Fin","c139_places","c139_turns","c139_make","c139_make_fails","c139_drop","c139_clear","c139_all_destroyed","c139_finalize_partial","c139_taken_violated","c139_destroyed_violated","c139_nested_violated"))
c("C140","partial","Proved for all histories: no undefined behaviour, mirrors are subsets, clear restores, what insert and erase that throw have done; the mirrors agree if nothing was thrown. Violated: an insert that throws stays in the source and is unknown to later observers; after an erase that throws behind a mirror every further erase of the element throws; a refused element makes its mirror drop another one.",*n("ObservableSet.Throw","c140_subset","c140_clear","c140_insert_throws","c140_erase_throws","c140_agree_partial","c140_stuck_violated","c140_wrong_removed_violated"))
c("C141","partial","Proved for all histories: what was saved is found whatever fails meanwhile, one failed save leaves the old or the new value, other settings are not touched, removed settings are gone, no undefined behaviour. Violated: if reading the backup fails once after a failed save, Load clears the backup and everything is lost; an object whose settings were removed saves without an error into files nobody can open; a remove that fails half way lets another object take the backup away. Two failed saves: C45.",*n("Settings.Disk","c141_names","c141_open","c141_stays_open","c141_isolated","c141_together","c141_saved","c141_failed_save_partial","c141_removed","c141_no_ub","c141_read_error_violated","c141_orphan_violated","c141_half_removed_violated"))
c("C142","partial","Proved for all programs: the meaning of every call as that of plain values, exact counts, life of the stop state, callbacks called once, no undefined behaviour under the stated care. Violated (same defect as C94): destroying or overwriting one of two tokens without a source makes the other one unusable. Calls do not overlap here (C56, C94).",*n("Stop.Handle","c142_values","c142_program","c142_counts","c142_callbacks","c142_request","c142_no_ub_partial","c142_copies_violated","c142_every_copy_violated","c142_assign_violated"))
c("C143","partial","Proved with derived tables for the writer and any tables with all structures for the reader; a removed field must be readable as the first type of its name in the reader's tables. Violated without this: removing a vector of one structure while a vector of another one stays makes old files unreadable.",*n("Mp","c143_tables","c143_structures","c143_reads_partial","c143_value_partial","c143_fields_partial","c143_removed_violated"))
c("C144","partial","Proved for the changes of C143 and an unchanged header, and that a program with any other format does no harm while the last Save has completed. Violated otherwise: after a crash in Save, a Load by a program with an older version in the header clears the backup file, and all settings are lost.",*n("Upgrade","c144_old_or_new","c144_harmless","c144_settings_partial","c144_downgrade_violated"))
c("C145","proved","The functions are modelled statement by statement on memory with parent pointers and links. Element constructors, the comparison and the allocator do not throw, a new node gets an address that has not been used before, and counters are unbounded.",*n("VectorSet.Heap","c145_memory_is_sorted_set","c145_index_and_iterators","c145_pointers_stay_valid","c145_clear_frees_every_node"))
c("C146","partial","The set is always what it was. Memory is lost, which is proved: if the constructor throws, the block that CreateNode has taken is not freed, and if the comparison in InsertNode throws, the new node belongs to nobody; at most one block for every exception.",*n("VectorSet.Heap","c146_exceptions_leave_the_set_partial","c146_exception_touches_nothing","c146_only_the_user_throws","c146_existing_value_loses_nothing","c146_block_lost_violated","c146_node_lost_violated"))
c("C147","partial","Programs in which reserve throws are proved to leave a ring that can be used and destroyed, with copied elements exactly as if the call had not been made. Proved to be false: a push whose constructor throws counts an element that does not exist, so that the destructor is undefined behaviour; a reserve or a copy constructor whose element throws loses the new buffer and the elements in it; a copy assignment loses the old elements, and if an element throws the target cannot be destroyed.",*n("Ring","c147_exceptions_partial","c147_as_if_not_called_partial","c147_push_violated","c147_reserve_violated","c147_copy_constructor_partial","c147_copy_constructor_violated","c147_copy_assignment_partial"))
c("C148","partial","Proved: while nothing throws, every foreign_set shows exactly the source; after exceptions it shows exactly the elements it was told about, and everything stays defined as long as no element is erased that it does not know; clear and a new foreign_set agree with the source again. Proved to be false in general: the removal of an element that a foreign_set does not know is undefined, or makes it forget another element.",*n("ForeignSet.Throw","c148_exceptions_partial","c148_no_exception","c148_recovers","c148_unknown_violated"))
c("C149","proved","The specification gives each observer the key it watches; the events due, what is seen during the call, who is subscribed at the end and which programs are undefined are proved for all histories. The observers only watch.",*n("ForeignSet.Watch","c149_defined","c149_undefined","c149_told","c149_knows","c149_mirror","c149_end","c149_source"))
c("C150","partial","For all histories with any faults: a call that throws has lost values at most as stated or is complete, no key has a wrong value, look-ups stay consistent, later calls do what they should. That the map is as before is violated: c150_strong_violated, an allocation that fails loses the whole interval of a.",*n("IntervalMap","c150_thrown_partial","c150_returned","c150_consistent","c150_never_wrong","c150_defined","c150_no_faults","c150_strong_violated"))
c("C151","partial","Proved for the values whose node outlives the call; in exactly the other cases the call is undefined, c151_own_value_violated.",*n("IntervalMap","c151_own_value_partial","c151_own_value_violated","c151_no_value"))
c("C152","proved","For the tables that the library derives from the two types, with extra types that are not structures; the two directions are C143 and composed, the loss of nothing is an induction over how one type is contained in the other. CopyV is modelled with the memory it reserves.",*n("Mp","c152_back","c152_copy","c152_copy_back"))
c("C153","proved","Over the model of C58, to which is_ready and get are added; the invariants of C58 are kept by get.",*n("Coro","c153_ready","c153_ready_stays","c153_get","c153_get_after_ready","c153_get_only","c153_one_reader","c153_no_ub","c153_empty"))

c("C154","partial","Everything but the last sentence is proved for every duration and hash value; printing a hash value leaves the stream decimal and filling with zeros (c154_stream_left_violated).",*n("Show","c154_duration","c154_zero","c154_hash_partial","c154_hash_injective","c154_stream_left_violated"))
c("C155","partial","Proved for numbers of every width. Characters that are white space are lost, bytes among them (c155_characters_violated; c155_characters_partial says what is read). A word that is no number, or a number out of range, silently ends the collection (c155_garbage_violated, c155_range_violated), and a negative number given for an unsigned type is another number (c155_negative_violated).",*n("Testing","c155_numbers","c155_numbers_given","c155_characters_partial","c155_characters_violated","c155_garbage_violated","c155_range_violated","c155_negative_violated"))
c("C156","proved","The serialized value is read a byte of memory at a time, in an order that may depend on what was read; crashes as in C43, whose theorem is used. That a file written from a snapshot is the one written directly is C88.",*n("Storage.Conc","c156_call","c156_saved","c156_crash","c156_held","c156_gives_back","c156_exception"))
c("C157","proved","Elements of sets and keys of maps are of the same type in the three versions; the other conditions are those of C143. New objects inside containers have zeros and empty containers (no member initializers there); at the top level the agreement of new objects is a hypothesis about what the third version reads. Two examples show that the conditions on the second version and on the new objects are needed.",*n("Mp","c157_steps","c157_dropped_field","c157_other_defaults"))
c("C158","proved","Over the model of C25 and C26, by induction over the entries; c158_too_large shows that the condition is needed (it is the defect of C25: a sum that does not fit is silently wrong).",*n("Decimal","c158_exact","c158_order","c158_back","c158_refused","c158_stops","c158_monotone","c158_too_large"))
c("C159","partial","Proved for compilers other than Clang, one thread, messages without line feeds and zeros; the log is then what the device takes of one text that can be read. With Clang a record is two lines (the time is printed with ctime, which ends with a line feed), so no line is a record (c159_clang_violated); read by two lines it is right (c159_clang_partial). A message with a line feed can forge records (c159_line_feed_violated), a zero cuts the message (c159_zero_violated), a full device (c159_full_violated) or a time that ctime cannot show (c159_clang_time_violated) loses messages and the calls return normally, a value that is no level leaves half a line (c159_half_line_violated), and two threads may write into each other's lines (c159_threads_violated).",*n("Log","c159_read_back_partial","c159_refused","c159_clang_violated","c159_clang_partial","c159_clang_time_violated","c159_line_feed_violated","c159_zero_violated","c159_full_violated","c159_half_line_violated","c159_threads_violated"))
c("C160","proved","The condition that everything fits is part of the statement (where it does not, C25 and C73 have the violations); texts have at most 255 digits behind the point. Formulas whose value is zero may compare different because of minus zero (C26).",*n("Decimal","c160_text_to_text","c160_compare","c160_unique","c160_distributive"))
c("C161","partial","Proved for programs that keep to the size and have their numbers at multiples of their length; then every call gives what a memory with a value at every place gives, and all three streams leave the same bytes. Too much data is written outside of the memory, by SwitchMemoryOutputStream even with assertions (c161_overrun_violated); a number after a single byte is a misaligned store (c161_misaligned_violated); after Reset more can be read than was written (c161_more_than_written_violated); a number in truncated data is read outside of the memory (c161_truncated_violated); the memory of a copied stream is deleted twice (c161_copy_violated).",*n("FixedMem","c161_memory_partial","c161_same_bytes_partial","c161_read_back","c161_overrun_violated","c161_misaligned_violated","c161_more_than_written_violated","c161_truncated_violated","c161_copy_violated"))
c("C162","partial","Proved for programs that ask for no more than there is and use their blocks until Reset; alignment if all lengths of objects are multiples of it. A number after a byte is not aligned (c162_misaligned_violated); too large a request moves the pointer out of the memory (c162_exhausted_violated); the length is calculated modulo 2^64, so that 2^61+1 objects of eight bytes get eight bytes (c162_overflow_violated); every space ends with delete of memory from new[] (c162_delete_violated); after Reset a new block is an old one (c162_reset_violated).",*n("FixedMem","c162_blocks_partial","c162_aligned_partial","c162_misaligned_violated","c162_exhausted_violated","c162_overflow_violated","c162_delete_violated","c162_reset_violated"))
c("C163","partial","Proved: as new after ClearPrototypes, the objects one after another (for the versions of C36, which leaves out structures without fields that have got fields), the same program without tables. Without ClearPrototypes the tables of the next stream are accepted but the maps of the stream before are used, and the members are mixed up without an exception unless assertions are checked (c163_not_cleared_violated); Initialize after a stream with tables has no effect (c163_initialize_violated).",*n("Vts","c163_as_new","c163_session_partial","c163_same_program","c163_among_others_partial","c163_not_cleared_violated","c163_initialize_violated"))
c("C164","partial","The names are right if and only if there is white space behind every comma and none before it (c164_names_partial); the rest is proved for these lists. A comma at the beginning of a line gives the name before it a blank at its end, so it is not found (c164_blank_violated), and reformatting the source makes a program lose the field in its own files (c164_reformatted_violated); without white space behind a comma a member has no name: undefined behaviour or a failed assertion (c164_no_table_violated).",*n("Text","c164_names_partial","c164_not_more","c164_find","c164_find_cstr","c164_store","c164_round_trip","c164_other","c164_fields","c164_blank_violated","c164_no_table_violated","c164_reformatted_violated"))
c("C165","partial","Proved for functors that do not write to their own members (c165_recursion_partial), and independence of the depth for all. Violated otherwise: every nested call uses a new copy of the functor, so a counter or a cache in a member is not shared (c165_state_violated).",*n("Combinator","c165_recursion_partial","c165_depth","c165_state_violated"))
c("C166","partial","Proved for b <= e, all types. Violated for e < b: std::views::iota is undefined, not empty; so is a negative count and a count cast from a large size; a count that does not fit the type is cut.",*n("IntRange","c166_range_partial","c166_count_partial","c166_exactly","c166_cut_violated","c166_backwards_violated","c166_negative_violated","c166_large_violated"))
c("C167","partial","object_address: all types but arrays. The traits: types without qualifiers; violated for qualified ones (A* const and const smart pointers are no pointers for is_pointer_v) and for arrays.",*n("Traits","c167_object_address_partial","c167_traits_partial","c167_remove_plain","c167_group_pointer","c167_qualified_violated","c167_array_violated"))
c("C168","partial","Rings to which no more is pushed, at the end, than they have room for. Violated for every ring that wraps: m_data + pos is formed before the capacity is subtracted.",*n("Ring","c168_not_wrapped_partial","c168_wrapped_violated"))
c("C169","proved","Also: what goes wrong if position_changed is not asked.",*n("VectorSet","c169_elements_may_be_changed","c169_unasked_violated"))
c("C170","partial","Structures without cycles that are no deeper than the stack allows: every path leads to the same. Violated: what was shared is read as separate objects (of n + 1 objects more than 2^n bytes are written), cycles overflow the stack, and so does data that is nested deeply.",*n("Graph","c170_read_back_partial","c170_written","c170_sharing_violated","c170_cycle_violated","c170_size_violated","c170_deep_violated"))
c("C171","partial","Changes when something was added, for every observer that is called no later than the first one that makes changes; nothing is undefined if only the last one does. Violated for the observers after one that erases what was added (dangling reference), for one that erases what is being removed (erased twice), and for insertions while the set is being cleared (lost, though told).",*n("ObservableSet","c171_change_when_added_partial","c171_nobody","c171_added_violated","c171_removing_violated","c171_clearing_violated"))
c("C172","partial","Proved for all programs in which no mirror is unsubscribed by hand. A mirror that is unsubscribed by hand keeps what it had: attached again, it has more than its set, or throws.",*n("ObservableSet","c172_mirrors_follow_partial","c172_sets_unhindered_partial","c172_attach_partial","c172_moved_partial","c172_attached_twice","c172_unsubscribed_violated","c172_every_unsubscribed_violated"))
c("C173","partial","Proved for all comparators that moving leaves usable, and for all comparators in programs that only clear, assign and destroy sets that were moved from. Violated for comparators like std::function: the second insertion into a set that was moved from throws. Assigning a set to itself is the subject of C11.",*n("VectorSet.Comp","c173_orders_kept_partial","c173_all_comparators_partial","c173_moved_from_violated","c173_every_moved_from_violated"))
c("C174","partial","Proved for programs that do not unsubscribe a foreign_set by hand and subscribe one by hand only to an empty set and with getters in place. Violated otherwise: unsubscribed by hand it keeps pointers to elements that may be gone, subscribed by hand to a set with elements it lacks them and removing one is undefined, and after a move that takes the getters away the first insertion throws.",*n("ForeignSet","c174_follow_partial","c174_sets_unhindered_partial","c174_construct_partial","c174_moved_partial","c174_movable","c174_unsubscribed_violated","c174_subscribed_late_violated","c174_getters_lost_violated","c174_every_unsubscribed_violated","c174_every_late_violated"))
c("C175","proved","The condition that the body leaves the next element in the list is needed (c175_next_removed_undefined), and a loop that advances after the body is undefined whenever it excludes an element (c175_late_increment_undefined).",*n("QuickList","c175_steps","c175_stay","c175_walk","c175_remove_while_walking","c175_late_increment_undefined","c175_next_removed_undefined"))
c("C176","partial","The code violates the full statement: if the assignment in Push throws, its block is in no list and is never deleted (c176_copy_violated); if an update calls ApplyUpdates, the messages being applied drop out of their list and are never deleted (c176_nested_violated, release builds; a debug build fails an assertion). Proved for all other histories.",*n("QueueMem","c176_defined_partial","c176_all_freed_partial","c176_owned_partial","c176_copy_violated","c176_every_copy_violated","c176_nested_violated"))
c("C177","partial","The code violates the full statement: transform_tuple passes the calls as arguments of make_tuple, whose order is unspecified; a function that counts its calls gives different tuples with different compilers (c177_order_violated). Proved for functions whose result depends on the element only; for_each, for_each_index, tuple_to_array and map_types are proved in full.",*n("Tuples","c177_for_each","c177_for_each_index","c177_array","c177_transform","c177_transform_partial","c177_order_violated","c177_every_order_violated","c177_find","c177_map_types"))
c("C178","proved","The functions wcsrtombs_s and mbsrtowcs_s are specified from the documentation.",*n("Convert.Win","c178_encode","c178_decode","c178_round_trip","c178_same_text","c178_zero"))
c("C179","partial","Violated by types whose sizeof is not the number of their bytes: the number of bits of the mantissa is computed from sizeof, so texts of larger numbers are refused and numeric_limits bounds nothing; violated by products that do not fit: they are wrong without an exception. Conversion through double is not modelled.",*n("MpDec","c179_same_partial","c179_defined","c179_limits_partial","c179_sum_partial","c179_product_violated","c179_wide_violated","c179_limits_violated"))
c("C180","partial","Violated by assignment of a storage to itself: it closes the files, as Close does. Files are read and written at once here, their operations are those of C43-C45 and C98.",*n("StorageMove","c180_files_move_partial","c180_owner","c180_no_leak","c180_defined","c180_self","c180_self_violated"))
c("C181","partial","Violated for containers of a renamed type: a map with QString does not help with std::vector<QString>, whose name sequence<QString> has to be listed as well; the partial theorems ask for every name that has changed.",*n("TypeMap","c181_as_if","c181_evolved_partial","c181_read_back_partial","c181_new_data","c181_missing","c181_inside_violated"))
c("C182","partial","Violated for a field whose type has changed to another type of the program: MapPrototypes throws an IoError with a fixed text before the check in ReadV that would name the field and its types can fail, and a storage logs a general I/O exception. The number of the expected type in the text about an unknown type is always size_t(-1).",*n("IoMsg","c182_same_functions","c182_end_of_data","c182_tells","c182_unknown_type_partial","c182_logged","c182_removed","c182_removed_reported","c182_changed_violated","c182_never_thrown_violated"))
c("C183","partial","Proved: the relative error, for all mantissas; the order, for decimals with the same number of digits; everything for mantissas that a float holds (up to 2^24), the round trip for mantissas below 2^22. Violated for greater mantissas, because the mantissa is rounded to a float before the division: 167772.17 becomes 167772.15625 and comes back as 167772.16, though 167772.171875 is a float, and 167772.19 becomes greater than 167772.195.",*n("Single","c183_as_double_partial","c183_exact_partial","c183_close","c183_order","c183_order_partial","c183_round_trip_partial","c183_nearest_violated","c183_round_trip_violated","c183_order_violated"))
c("C184","partial","Proved for programs that do not copy variables. Violated for copies: the implicit copy constructor (for constants) and assignment copy the bytes without running a constructor, so that using or destroying the copy is undefined, and for a trivially copyable type one object is destroyed twice.",*n("Destructible","c184_events_partial","c184_once_partial","c184_use_partial","c184_guard_partial","c184_kept_partial","c184_thrown","c184_copy_violated"))
c("C185","partial","Proved for files that are cut off, for changes unless a changed block is a payload followed by its own hash, and outright for CRC-64 and short changes. Violated by blocks that are exchanged: a hash does not cover the place of its block, so for every hash a file with two full blocks exchanged is loaded as another value and Load returns true; likewise a mixture of the blocks of two saves.",*n("StorageFmt","c185_truncated","c185_changed_partial","c185_crc","c185_exchanged_violated","c185_mixed_violated"))
c("C186","partial","Proved if the backup holds a value; for a good master if reading the backup throws IoExceptions only, which is proved for all bytes for types without vectors and variants and with limited strings of bytes, and for hashed files of every type. Violated by vectors, and by wide strings even with a limit: the length read first makes resize throw std::length_error or std::bad_alloc, Load does not catch it and does not clear the backup, so that the settings cannot be loaded any more though the master is good.",*n("StorageFmt","c186_good_backup","c186_good_master_partial","c186_master_kept","c186_plain_partial","c186_hashed","c186_stuck_violated","c186_limit_violated"))
c("C187","partial","Violated by a thread that is, at the moment of the request, between its test of the flag and the beginning of its wait: it sleeps for its whole duration although the request has returned true and has woken the others. Proved for all other threads by simulation: each of the calls makes the steps of the single one of C57.",*n("Sleep.Many","c187_no_ub","c187_one","c187_some","c187_not_early","c187_all_wake_partial","c187_returns","c187_request_ends","c187_lost_violated"))
c("C188","partial","Violated: the string empty and no string have the same text, and so have, for every type, an empty optional and an optional that contains an empty one. Proved for strings other than that word and for 128 bit numbers (C129) without a width.",*n("Convert","c188_strings","c188_unsigned","c188_signed","c188_numbers_differ","c188_strings_differ_partial","c188_word_violated","c188_nested_violated"))
c("C189","partial","Violated: the underlying type is uint8_t, so narrow streams show the character with this code and never the number, and 53 is shown as 5; the message about a text has no blank behind the name of the enumeration. Proved: what is refused, different messages for different inputs (texts without zeros), and the number in wide programs for enumerators that are read or written.",*n("Text.EnumMsg","c189_refused","c189_tells","c189_wide","c189_name_tells","c189_same","c189_number_violated","c189_other_number_violated","c189_blank_violated"))
# NEXT
order = lambda x: int(x["property"][1:])
C.sort(key=order)
json.dump(dict(claims=C), open(os.path.join(os.path.dirname(__file__),"..","MANIFEST.json"),"w"), indent=1)
print(len(C))
