{
 "claims": [
  {
   "property": "C01",
   "status": "proved",
   "theorems": [
    "CE.ToText.C01_to_text_integer_exact"
   ],
   "note": "All ten integer types through their size and signedness; to_text of a bool is in C03."
  },
  {
   "property": "C02",
   "status": "proved",
   "theorems": [
    "CE.ToText.C02_to_text_integer_in_measure",
    "CE.ToText.C02_measure_tight"
   ],
   "note": "Every cell outside the text keeps its content; measure is also tight."
  },
  {
   "property": "C03",
   "status": "proved",
   "theorems": [
    "CE.ToText.C03_as_string_concat_in_bounds",
    "CE.ToText.C03_as_string_outside_untouched",
    "CE.ToText.C03_as_string_size_tight",
    "CE.ToText.C03_null_cstr_is_undefined",
    "CE.ToText.C03_unterminated_array_is_undefined"
   ],
   "note": "Preconditions Arg.OkM; null char const* and unterminated short arrays are shown to be undefined. Floating point arguments are in C105, vectors in C95."
  },
  {
   "property": "C04",
   "status": "proved",
   "theorems": [
    "CE.ToText.C04_to_text_reads_back",
    "CE.ToText.C04_to_text_injective"
   ],
   "note": ""
  },
  {
   "property": "C05",
   "status": "proved",
   "theorems": [
    "CE.ToText.C05_nested_false",
    "CE.ToText.C05_to_text_array"
   ],
   "note": "Elements that are arrays or vectors themselves are shown as addresses (C05_nested_false)."
  },
  {
   "property": "C06",
   "status": "proved",
   "theorems": [
    "CE.Crc.C06_crc32_bytes_is_serial",
    "CE.Crc.C06_crc32c_is_castagnoli"
   ],
   "note": ""
  },
  {
   "property": "C07",
   "status": "proved",
   "theorems": [
    "CE.Crc.C07_crc32_words_is_bytes",
    "CE.Crc.C07_crc32_longs_is_bytes"
   ],
   "note": ""
  },
  {
   "property": "C08",
   "status": "proved",
   "theorems": [
    "CE.Crc.C08_crc32_incremental",
    "CE.Crc.C08_crc32_mixed_incremental",
    "CE.Crc.C08_crc32c_literal"
   ],
   "note": ""
  },
  {
   "property": "C09",
   "status": "proved",
   "theorems": [
    "CE.Crc.C09_burst_error_detected",
    "CE.Crc.C09_equal_crc_iff_divides",
    "CE.Crc.C09_initial_value_injective",
    "CE.Crc.C09_difference_depends_on_xor"
   ],
   "note": "Burst errors up to 32 bits, and the exact criterion (generator polynomial divides the difference) for all others."
  },
  {
   "property": "C10",
   "status": "proved",
   "theorems": [
    "CE.Fnv.C10_fnv1a_is_byte_fold",
    "CE.Fnv.C10_fnv1a_incremental",
    "CE.Fnv.C10_fnv1a_text"
   ],
   "note": ""
  },
  {
   "property": "C11",
   "status": "proved",
   "theorems": [
    "CE.Fnv.C11_single_byte_change_detected",
    "CE.Fnv.C11_basis_injective"
   ],
   "note": ""
  },
  {
   "property": "C12",
   "status": "proved",
   "theorems": [
    "CE.Base64.C12_decode_inverts_encode",
    "CE.Base64.C12_encode_injective"
   ],
   "note": "Strings below 2^62 bytes."
  },
  {
   "property": "C13",
   "status": "proved",
   "theorems": [
    "CE.Base64.C13_size_exact",
    "CE.Base64.C13_decode_in_bounds"
   ],
   "note": ""
  },
  {
   "property": "C14",
   "status": "proved",
   "theorems": [
    "CE.Random.C14_is_xoroshiro64ss",
    "CE.Random.C14_step_bijective",
    "CE.Random.C14_zero_trap",
    "CE.Random.C14_exact_period",
    "CE.Random.C14_visits_every_state"
   ],
   "note": ""
  },
  {
   "property": "C15",
   "status": "proved",
   "theorems": [
    "CE.Random.C15_is_xoroshiro128pp",
    "CE.Random.C15_step_bijective",
    "CE.Random.C15_exact_period",
    "CE.Random.C15_visits_every_state"
   ],
   "note": ""
  },
  {
   "property": "C16",
   "status": "proved",
   "theorems": [
    "CE.Random.C16_exact_period",
    "CE.Random.C16_visits_every_state",
    "CE.Random.C16_seed_injective"
   ],
   "note": ""
  },
  {
   "property": "C17",
   "status": "proved",
   "theorems": [
    "CE.Random.C17_read_is_rotation",
    "CE.Random.C17_defined_unless_rotation_zero",
    "CE.Random.C17_undefined_reachable"
   ],
   "note": "The over-long shift is a parameter of the model; both results the comment in the source names are covered."
  },
  {
   "property": "C18",
   "status": "proved",
   "theorems": [
    "CE.Random.C18_next_ranged_exact",
    "CE.Random.C18_next_ranged_monotone",
    "CE.Random.C18_next_ranged_onto"
   ],
   "note": ""
  },
  {
   "property": "C19",
   "status": "partial",
   "theorems": [
    "CE.Random.C19_unbiased_never_rejects",
    "CE.Random.C19_unbiased_uniform_iff",
    "CE.Random.C19_next_unbiased_is_uniform_false",
    "CE.Random.C19_next_unbiased_nearly_uniform_partial"
   ],
   "note": "The property is false of the code (threshold is 0 - n % n = 0, so nothing is rejected): proved uniform iff n divides 2^32, witness n = 3, and that the error is at most one draw in 2^32."
  },
  {
   "property": "C20",
   "status": "partial",
   "theorems": [
    "CE.Random.C20_seed64ss_never_stuck_false",
    "CE.Random.C20_seed64ss_nonempty_stuck_false",
    "CE.Random.C20_seed64ss_stuck_iff_partial",
    "CE.Random.C20_seed128pp_never_stuck"
   ],
   "note": "False for xoroshiro64ss (witnesses: the empty seed and an 8 byte seed; exact criterion proved). Holds for xoroshiro128pp; pcg has no stuck state (C16)."
  },
  {
   "property": "C21",
   "status": "proved",
   "theorems": [
    "CE.Sorting.C21_insertion_sort"
   ],
   "note": ""
  },
  {
   "property": "C22",
   "status": "proved",
   "theorems": [
    "CE.Sorting.C22_intro_sort",
    "CE.Sorting.C22_cutoff_zero_undefined"
   ],
   "note": "Cut-off at least 1; with cut-off 0 the partition reads outside (C22_cutoff_zero_undefined)."
  },
  {
   "property": "C23",
   "status": "partial",
   "theorems": [
    "CE.Sorting.C23_equal_elements_linear_depth",
    "CE.Sorting.C23_depth_logarithmic_false",
    "CE.Sorting.C23_depth_linear_partial"
   ],
   "note": "The logarithmic bound is false of the code: equal elements (and others) recurse linearly deep. Proved: that negation, and the linear bound that does hold."
  },
  {
   "property": "C24",
   "status": "proved",
   "theorems": [
    "CE.Sorting.C24_lower_bound_in_bounds",
    "CE.Sorting.C24_lower_bound",
    "CE.Sorting.C24_upper_bound"
   ],
   "note": ""
  },
  {
   "property": "C25",
   "status": "proved",
   "theorems": [
    "CE.Heap.C25_history_refines",
    "CE.Heap.C25_head_is_minimal",
    "CE.Heap.C25_dequeue_empty_undefined",
    "CE.Heap.C25_sorts"
   ],
   "note": "dequeue() on an empty queue is shown to be undefined (C25_dequeue_empty_undefined) and excluded."
  },
  {
   "property": "C26",
   "status": "proved",
   "theorems": [
    "CE.Bitset.C26_step",
    "CE.Bitset.C26_history",
    "CE.Bitset.C26_index_undefined"
   ],
   "note": ""
  },
  {
   "property": "C27",
   "status": "proved",
   "theorems": [
    "CE.Bulk.C27_history_refines",
    "CE.Bulk.C27_trivial_growth_is_stale"
   ],
   "note": "Growth of trivially constructible T shows the previous slot contents (C27_trivial_growth_is_stale); the refinement accounts for it."
  },
  {
   "property": "C28",
   "status": "proved",
   "theorems": [
    "CE.Bulk.C28_lifetimes"
   ],
   "note": "For default constructible T; the other case is C29."
  },
  {
   "property": "C29",
   "status": "partial",
   "theorems": [
    "CE.Bulk.C29_copy_constructs_first_false",
    "CE.Bulk.C29_assign_constructs_first_false",
    "CE.Bulk.C29_copy_partial"
   ],
   "note": "False of the code for types without a default constructor: construct_copy assigns to raw memory (witnesses). Proved for default constructible types."
  },
  {
   "property": "C30",
   "status": "proved",
   "theorems": [
    "CE.Pool.C30_history_refines",
    "CE.Pool.C30_pool_reset_breaks"
   ],
   "note": "Up to the first call that breaks a stated precondition (double free etc.)."
  },
  {
   "property": "C31",
   "status": "proved",
   "theorems": [
    "CE.Pool.C31_used_is_count",
    "CE.Pool.C31_alloc_exact",
    "CE.Pool.C31_queue_reset_loses",
    "CE.Pool.C31_double_free_breaks"
   ],
   "note": ""
  },
  {
   "property": "C32",
   "status": "partial",
   "theorems": [
    "CE.Dictionary.C32_history_refines_partial",
    "CE.Dictionary.C32_absent_undefined",
    "CE.Dictionary.C32_name_zero_false",
    "CE.Dictionary.C32_history_exact"
   ],
   "note": "False for the name held by names[0] (zero): never found, each bind takes a new entry. Proved for all other names, N >= 2; C32_history_exact says what happens with all names."
  },
  {
   "property": "C33",
   "status": "partial",
   "theorems": [
    "CE.Dictionary.C33_capacity_one_undefined",
    "CE.Dictionary.C33_handles_stable_partial"
   ],
   "note": "Same exclusion as C32; N = 1 is shown to write outside the arrays."
  },
  {
   "property": "C34",
   "status": "proved",
   "theorems": [
    "CE.Dictionary.C34_heap_scan",
    "CE.Dictionary.C34_usual_layout_fails"
   ],
   "note": "For the orientation the scan uses; the usual orientation is shown to fail (C34_usual_layout_fails)."
  },
  {
   "property": "C35",
   "status": "proved",
   "theorems": [
    "CE.Lziii.C35_decode_expands",
    "CE.Lziii.C35_encodable",
    "CE.Lziii.C35_round_trip"
   ],
   "note": ""
  },
  {
   "property": "C36",
   "status": "proved",
   "theorems": [
    "CE.Lziii.C36_size_exact"
   ],
   "note": ""
  },
  {
   "property": "C37",
   "status": "partial",
   "theorems": [
    "CE.Lziii.C37_bad_offset_false",
    "CE.Lziii.C37_truncated_false",
    "CE.Lziii.C37_safe_iff_well_formed_partial"
   ],
   "note": "False of the code: a bad offset or truncated stream reads outside the buffers (witnesses). Proved: size + decode is safe exactly on the well formed streams (length < 2^59)."
  },
  {
   "property": "C38",
   "status": "partial",
   "theorems": [
    "CE.Names.C38_keys_exact",
    "CE.Names.C38_keys_partial",
    "CE.Names.C38_in_bounds",
    "CE.Names.C38_non_ascii_false"
   ],
   "note": "False for bytes >= 0x80, which a signed char compares as blanks (C38_non_ascii_false). Proved for ASCII text, and memory safety for all text; C38_keys_exact gives the keys for all text."
  },
  {
   "property": "C39",
   "status": "partial",
   "theorems": [
    "CE.Names.C39_member_names_partial",
    "CE.Names.C39_blank_before_comma_false",
    "CE.Names.C39_exact",
    "CE.Names.C39_in_bounds"
   ],
   "note": "False when a blank precedes a comma, and for non-ASCII text (C39_blank_before_comma_false). Proved for lists without either; memory safety for all text; C39_exact gives the names for all text."
  },
  {
   "property": "C40",
   "status": "proved",
   "theorems": [
    "CE.Clock.C40_no_drift",
    "CE.Clock.C40_current"
   ],
   "note": ""
  },
  {
   "property": "C41",
   "status": "proved",
   "theorems": [
    "CE.Clock.C41_no_overflow",
    "CE.Clock.C41_zero_frequency_undefined",
    "CE.Clock.C41_overflow_beyond_bound"
   ],
   "note": "frequency * Fd * (Fn + 1) <= 2^64 and a total tick count below 2^64; frequency 0 is shown to divide by zero."
  },
  {
   "property": "C42",
   "status": "proved",
   "theorems": [
    "CE.Vec.C42_ab_less_cd",
    "CE.Vec.C42_ab_less_cd_msvc"
   ],
   "note": ""
  },
  {
   "property": "C43",
   "status": "proved",
   "theorems": [
    "CE.Vec.C43_defined",
    "CE.Vec.C43_irreflexive",
    "CE.Vec.C43_antisymmetric",
    "CE.Vec.C43_simulation_of_simplicity"
   ],
   "note": ""
  },
  {
   "property": "C44",
   "status": "proved",
   "theorems": [
    "CE.Vec.C44_displaced_interior",
    "CE.Vec.C44_at_most_one",
    "CE.Vec.C44_exactly_one",
    "CE.Vec.C44_count_is_winding",
    "CE.Vec.C44_winds_once"
   ],
   "note": "The winding number is that of the boundary around the displaced point; C44_exactly_one is the form in the source comment."
  },
  {
   "property": "C45",
   "status": "proved",
   "theorems": [
    "CE.Vec.C45_in_range",
    "CE.Vec.C45_line",
    "CE.Vec.C45_ray",
    "CE.Vec.C45_segment",
    "CE.Vec.C45_defined",
    "CE.Vec.C45_ball_hits_ray"
   ],
   "note": "The radius squared must not be negative for the definedness part; ranges without overflow in C45_defined."
  },
  {
   "property": "C46",
   "status": "partial",
   "theorems": [
    "CE.Vec.C46_edge_false",
    "CE.Vec.C46_edge_partial",
    "CE.Vec.C46_edge_exact",
    "CE.Vec.C46_ball_hits_edge_partial"
   ],
   "note": "False of the code: beyond the far end of the edge, points in range of the near end are reported (C46_edge_false). Proved otherwise; C46_edge_exact is what the code decides for all points."
  },
  {
   "property": "C47",
   "status": "proved",
   "theorems": [
    "CE.Vec.C47_scalar",
    "CE.Vec.C47_dot2",
    "CE.Vec.C47_sqr2",
    "CE.Vec.C47_cross2",
    "CE.Vec.C47_cross3",
    "CE.Vec.C47_dot3",
    "CE.Vec.C47_dot3_small"
   ],
   "note": ""
  },
  {
   "property": "C48",
   "status": "partial",
   "theorems": [
    "CE.Vec.C48_bin2",
    "CE.Vec.C48_scale2",
    "CE.Vec.C48_bin3",
    "CE.Vec.C48_scale3",
    "CE.Vec.C48_assign",
    "CE.Vec.C48_assign_scale_partial",
    "CE.Vec.C48_alias_false",
    "CE.Vec.C48_equality",
    "CE.Vec.C48_add_sub",
    "CE.Vec.C48_alias_mul",
    "CE.Vec.C48_alias_div",
    "CE.Vec.C48_alias_iff",
    "CE.Vec.C48_alias_mul3",
    "CE.Vec.C48_alias_div3"
   ],
   "note": "False of the code for a *= a.x and a /= a.x, where the scalar is a component of the assigned vector (C48_alias_false); C48_alias_mul, C48_alias_div and the vec3 forms say what is left then, C48_alias_iff in exactly which cases it is right. Everything else proved."
  },
  {
   "property": "C49",
   "status": "partial",
   "theorems": [
    "CE.Vec.C49_parallel",
    "CE.Vec.C49_small_false",
    "CE.Vec.C49_small",
    "CE.Vec.C49_negative_shift_undefined",
    "CE.Vec.C49_intersect_partial"
   ],
   "note": "False of the code for determinants 0 < d < 65536, where p1 is returned (C49_small_false, and C49_small for all of them). Parallel case exact; otherwise an explicit error bound is proved."
  },
  {
   "property": "C50",
   "status": "proved",
   "theorems": [
    "CE.Vec.C50_winding_number",
    "CE.Vec.C50_defined",
    "CE.Vec.C50_rotate",
    "CE.Vec.C50_reverse",
    "CE.Vec.C50_cut",
    "CE.Vec.C50_triangle",
    "CE.Vec.C50_overflow_beyond_bound"
   ],
   "note": "For points off the edges the count is the winding number by angles; rotation, reversal and cutting hold for all points."
  },
  {
   "property": "C51",
   "status": "proved",
   "theorems": [
    "CE.Vec.C51_degrees",
    "CE.Vec.C51_multiples",
    "CE.Vec.C51_odd_monotone",
    "CE.Vec.C51_total"
   ],
   "note": ""
  },
  {
   "property": "C52",
   "status": "proved",
   "theorems": [
    "CE.Cordic.C52_rotate_accurate",
    "CE.Cordic.C52_to_cartesian",
    "CE.Cordic.C52_quarter_turn",
    "CE.Cordic.C52_full_turn",
    "CE.Cordic.C52_int_min_undefined"
   ],
   "note": "For every vector of length at most 2^31-1 and every angle. INT_MIN as radius is undefined at half a turn (C52_int_min_undefined). The compile-time table is evaluated in a model of IEEE double arithmetic."
  },
  {
   "property": "C53",
   "status": "proved",
   "theorems": [
    "CE.Isqrt.C53_perfect_square",
    "CE.Isqrt.C53_error_below_one",
    "CE.Isqrt.C53_nearest",
    "CE.Isqrt.C53_hypot_pythagorean",
    "CE.Isqrt.C53_not_nearest_beyond",
    "CE.Isqrt.C53_int_min",
    "CE.Isqrt.C53_platforms_differ",
    "CE.Isqrt.C53_generic_pythagorean_false",
    "CE.Isqrt.C53_generic_floor",
    "CE.Isqrt.C53_generic_range_undefined"
   ],
   "note": "Also: nearest integer below 2^50 (sharp), error below one everywhere, Pythagorean triples exact on x86 and not on other processors, where the root is rounded down for sums of squares below 2^52 and out of range results are undefined."
  },
  {
   "property": "C54",
   "status": "proved",
   "theorems": [
    "CE.Zorder.C54_encode",
    "CE.Zorder.C54_injective",
    "CE.Zorder.C54_monotone",
    "CE.Zorder.C54_inside"
   ],
   "note": ""
  },
  {
   "property": "C55",
   "status": "partial",
   "theorems": [
    "CE.Zorder.C55_query_partial",
    "CE.Zorder.C55_below_last",
    "CE.Zorder.C55_reads",
    "CE.Zorder.C55_misses_last_false"
   ],
   "note": "proved for walks within the span stack, except elements whose low 16 bits are all ones in the last cell, which the code misses (C55_misses_last_false, and C55_below_last for all of them)"
  },
  {
   "property": "C56",
   "status": "partial",
   "theorems": [
    "CE.Zorder.C56_range_partial",
    "CE.Zorder.C56_square",
    "CE.Zorder.C56_outside_false"
   ],
   "note": "false as stated: C56_outside_false; proved for aligned squares and, in general, that reported elements lie in the z-range of a sub-rectangle"
  },
  {
   "property": "C57",
   "status": "partial",
   "theorems": [
    "CE.Zorder.C57_stack_partial",
    "CE.Zorder.C57_overflow_false",
    "CE.Zorder.C57_sharp_false"
   ],
   "note": "false as stated: C57_overflow_false; proved for queries of up to 2^kx by 2^ky cells with kx + ky at most 32, anywhere, which is sharp (C57_sharp_false)"
  },
  {
   "property": "C58",
   "status": "proved",
   "theorems": [
    "CE.Zorder.C58_split",
    "CE.Zorder.C58_strips",
    "CE.Zorder.C58_single"
   ],
   "note": ""
  },
  {
   "property": "C59",
   "status": "proved",
   "theorems": [
    "CE.FetchAdd.C59_linearizable",
    "CE.FetchAdd.C59_sum",
    "CE.FetchAdd.C59_sub_as_add",
    "CE.FetchAdd.C59_solo"
   ],
   "note": "Loads and failed exchanges may see any value at all."
  },
  {
   "property": "C60",
   "status": "proved",
   "theorems": [
    "CE.SpinLock.C60_exclusion",
    "CE.SpinLock.C60_release",
    "CE.SpinLock.C60_linearizable",
    "CE.SpinSlots.C60_slots_exclusion",
    "CE.SpinSlots.C60_slots_release",
    "CE.SpinSlots.C60_slots_linearizable",
    "CE.SpinSlots.C60_slots_holder",
    "CE.SpinSlots.C60_index"
   ],
   "note": "On x86-TSO, with store buffers; operations under the lock are shown linearizable, for one slot and (C60_slots_...) for all slots and objects together, with one store buffer per thread; the holder of a slot can always get on."
  },
  {
   "property": "C61",
   "status": "partial",
   "theorems": [
    "CE.SpinLock.C61_locked_partial",
    "CE.SpinLock.C61_torn_false"
   ],
   "note": "False of the code: atomic_load of a small struct takes the spin lock, atomic_store does not (C61_torn_false). Proved for sizes where every operation takes the lock."
  },
  {
   "property": "C62",
   "status": "proved",
   "theorems": [
    "CE.Mutex.C62_mutex",
    "CE.Mutex.C62_shared",
    "CE.Mutex.C62_available"
   ],
   "note": "Relative to the documented behaviour of std::mutex, std::shared_mutex and SRWLOCK."
  },
  {
   "property": "C63",
   "status": "proved",
   "theorems": [
    "CE.Nameof.C63_nameof",
    "CE.Nameof.C63_unnamed",
    "CE.Nameof.C63_round_trip",
    "CE.Nameof.C63_unknown",
    "CE.Nameof.C63_sound",
    "CE.Nameof.C63_unqualified_false",
    "CE.Nameof.C63_anonymous_false",
    "CE.Nameof.C63_type_false",
    "CE.Nameof.C63_type"
   ],
   "note": "For any compiler that writes enumerators qualified and other values as casts. Only the outermost qualifier is removed (C63_unqualified_false), names written with a parenthesis first are lost (C63_anonymous_false), nameof<unsigned int>() is int (C63_type_false)."
  },
  {
   "property": "C64",
   "status": "proved",
   "theorems": [
    "CE.Io.C64_bracketed",
    "CE.Io.C64_lossless",
    "CE.Io.C64_read_back",
    "CE.Io.C64_capacity_false"
   ],
   "note": "Also that a reader restores what was written; no handler gets the capacity of a list (C64_capacity_false)."
  },
  {
   "property": "C65",
   "status": "proved",
   "theorems": [
    "CE.Log.C65_record",
    "CE.Log.C65_letter",
    "CE.Log.C65_one_line",
    "CE.Log.C65_lossless",
    "CE.Log.C65_escape_false",
    "CE.Log.C65_levels"
   ],
   "note": "Quotes are not escaped (C65_escape_false)."
  },
  {
   "property": "C66",
   "status": "proved",
   "theorems": [
    "CE.Log.C66_info",
    "CE.Log.C66_level",
    "CE.Log.C66_report",
    "CE.Log.C66_verify",
    "CE.Log.C66_reject",
    "CE.Log.C66_off"
   ],
   "note": "The hook's level is always 0, so the default hook always asks for a break."
  },
  {
   "property": "C67",
   "status": "proved",
   "theorems": [
    "CE.Utf16.C67_valid",
    "CE.Utf16.C67_size",
    "CE.Utf16.C67_lossless",
    "CE.Utf16.C67_reads_iff",
    "CE.Utf16.C67_truncated_false",
    "CE.Utf16.C67_terminated_false"
   ],
   "note": "Truncated text is read past its end (C67_truncated_false)."
  },
  {
   "property": "C68",
   "status": "proved",
   "theorems": [
    "CE.TypeList.C68_numbers",
    "CE.TypeList.C68_depth"
   ],
   "note": ""
  },
  {
   "property": "C69",
   "status": "proved",
   "theorems": [
    "CE.TypeList.C69_select",
    "CE.TypeList.C69_cond",
    "CE.TypeList.C69_same",
    "CE.TypeList.C69_has",
    "CE.TypeList.C69_leading"
   ],
   "note": ""
  },
  {
   "property": "C70",
   "status": "proved",
   "theorems": [
    "CE.TypeList.C70_skip",
    "CE.TypeList.C70_trim",
    "CE.TypeList.C70_inside",
    "CE.TypeList.C70_compose"
   ],
   "note": ""
  },
  {
   "property": "C71",
   "status": "proved",
   "theorems": [
    "CE.Cdt.C71_linked",
    "CE.Cdt.C71_outline",
    "CE.Cdt.C71_vertices"
   ],
   "note": "For every history of reset, insert_point, insert_edge, constrain_edge, flip, try_flip and fill that comes to an end."
  },
  {
   "property": "C72",
   "status": "proved",
   "theorems": [
    "CE.Cdt.C72_clockwise",
    "CE.Cdt.C72_validate",
    "CE.Cdt.C72_distinct_twins_false"
   ],
   "note": "All assertions of validate_face hold except e0 != e1 and its rotations, which fail for a face with two edges on the outline (C72_distinct_twins_false)."
  },
  {
   "property": "C73",
   "status": "proved",
   "theorems": [
    "CE.Cdt.C73_flip_ends",
    "CE.Cdt.C73_insert_ends",
    "CE.Cdt.C73_constrain_ends"
   ],
   "note": "flip, constrain_edge and insert_point_at_node; also that no assertion in them fails. The walk that finds the face is not part of this property."
  },
  {
   "property": "C74",
   "status": "partial",
   "theorems": [
    "CE.Cdt.C74_no_overflow_false",
    "CE.Cdt.C74_wrapped_partial",
    "CE.Cdt.C74_small_partial"
   ],
   "note": "False of the code: the products overflow (C74_no_overflow_false), already for the first point of a mesh. In two's complement the result is exact for all 16-bit coordinates, and nothing overflows in a square of side 35210."
  },
  {
   "property": "C75",
   "status": "proved",
   "theorems": [
    "CE.Cdt.C75_locate",
    "CE.Cdt.C75_one_face",
    "CE.Cdt.C75_fits",
    "CE.Cdt.C75_in_square",
    "CE.Cdt.C75_unique"
   ],
   "note": "Also that a face is found exactly for the points of the half-open square. The uniqueness is for scales up to 2^15, above which the 32-bit differences overflow."
  },
  {
   "property": "C76",
   "status": "proved",
   "theorems": [
    "CE.Cdt.C76_fill",
    "CE.Cdt.C76_again"
   ],
   "note": ""
  },
  {
   "property": "C77",
   "status": "proved",
   "theorems": [
    "CE.Cordic.C77_to_polar",
    "CE.Cordic.C77_zero",
    "CE.Cordic.C77_overflow"
   ],
   "note": "For every nonzero vector of length at most 2^31-1; beyond it overflows (C77_overflow), and the zero vector gets an arbitrary angle (C77_zero)."
  },
  {
   "property": "C78",
   "status": "proved",
   "theorems": [
    "CE.Cdt.C78_insert"
   ],
   "note": "For calls that return. A point on the outline that is not a vertex is refused."
  },
  {
   "property": "C79",
   "status": "partial",
   "theorems": [
    "CE.Cdt.C79_locally_delaunay_partial",
    "CE.Cdt.C79_delaunay",
    "CE.Cdt.C79_insert_edge_false"
   ],
   "note": "False with insert_edge, which leaves edges that are not locally Delaunay (C79_insert_edge_false). Proved for all histories of reset, insert_point, flip and fill (Delaunay) and with constrain_edge (locally Delaunay). The in-circle test is taken in two's complement, see C74."
  },
  {
   "property": "C80",
   "status": "partial",
   "theorems": [
    "CE.Cdt.C80_walk_ends_partial",
    "CE.Cdt.C80_insert_ends_partial",
    "CE.Cdt.C80_locate_ends_partial",
    "CE.Cdt.C80_constraints_false",
    "CE.Cdt.C80_flat",
    "CE.Cdt.C80_upward_walk_partial",
    "CE.Cdt.C80_upward_insert_partial",
    "CE.Cdt.C80_upward_locate_partial"
   ],
   "note": "False with constraints: the walk can go around in circles for ever (C80_constraints_false). Proved, with at most 6 size steps, for all meshes without constraints, and with constraints whenever some assignment of heights makes the surface over the mesh bend upwards across every edge (regular triangulations; flat where Delaunay, so that every Delaunay mesh is included, C80_flat). The mesh of C80_constraints_false has no such heights."
  },
  {
   "property": "C81",
   "status": "proved",
   "theorems": [
    "CE.Cdt.C81_tiling"
   ],
   "note": ""
  },
  {
   "property": "C82",
   "status": "proved",
   "theorems": [
    "CE.Cdt.C82_constrain",
    "CE.Cdt.C82_persist"
   ],
   "note": "For calls that return."
  },
  {
   "property": "C83",
   "status": "partial",
   "theorems": [
    "CE.Cdt.C83_route_partial",
    "CE.Cdt.C83_chain",
    "CE.Cdt.C83_straight_false",
    "CE.Cdt.C83_crossing_false"
   ],
   "note": "False of the code: a way with a bend at a rounded crossing is reported as success even in a mesh without constraints (C83_straight_false), and two crossing segments are enough to make it fail (C83_crossing_false). Proved: when it returns true there is a chain of constrained edges from end to end whose bends are each less than one unit off the segment they divide, and it stays for ever."
  },
  {
   "property": "C84",
   "status": "proved",
   "theorems": [
    "CE.Cdt.C84_edges",
    "CE.Cdt.C84_faces",
    "CE.Cdt.C84_empty",
    "CE.Cdt.C84_edge_value",
    "CE.Cdt.C84_face_value",
    "CE.Cdt.C84_scale_false",
    "CE.Cdt.C84_primary",
    "CE.Cdt.C84_count"
   ],
   "note": "With a scale of 2^17 or more the corners of the square overflow (C84_scale_false)."
  },
  {
   "property": "C85",
   "status": "proved",
   "theorems": [
    "CE.Cdt.C85_size",
    "CE.Cdt.C85_write",
    "CE.Cdt.C85_fits",
    "CE.Cdt.C85_small_false"
   ],
   "note": "For N of at least 4; with less already reset writes outside (C85_small_false). The order of bit-fields in a word is assumed to be the usual one."
  },
  {
   "property": "C86",
   "status": "proved",
   "theorems": [
    "CE.Cdt.C86_point",
    "CE.Cdt.C86_products",
    "CE.Cdt.C86_edge"
   ],
   "note": "For calls that return. The way of insert_edge is that of C83, with bends. The side tests of the walk fit 64 bits for all 32-bit coordinates (C86_products). Points of the lowest column and row of the grid are refused although they are in the square."
  },
  {
   "property": "C87",
   "status": "partial",
   "theorems": [
    "CE.Os.C87_posix_partial",
    "CE.Os.C87_signal_false",
    "CE.Os.C87_windows_partial",
    "CE.Os.C87_short_false",
    "CE.Os.C87_forever_false",
    "CE.Os.C87_timestamp",
    "CE.Os.C87_timestamp_range"
   ],
   "note": "False of the code: a signal ends the wait (C87_signal_false); on Windows the time is rounded down to milliseconds (C87_short_false) and from 49.7 days on it never returns (C87_forever_false). Proved: exact and well-formed on POSIX without signals, within one millisecond on Windows; the timestamps on POSIX."
  },
  {
   "property": "C88",
   "status": "proved",
   "theorems": [
    "CE.Os.C88_handles",
    "CE.Os.C88_contents",
    "CE.Os.C88_unmap",
    "CE.Os.C88_unmap_twice",
    "CE.Os.C88_fresh",
    "CE.Os.C88_success",
    "CE.Os.C88_file",
    "CE.Os.C88_elements",
    "CE.Os.C88_posix_false",
    "CE.Os.C88_empty_false",
    "CE.Os.C88_large_false"
   ],
   "note": "On Windows, where the size of the file fits SIZE_T; on 32-bit systems only the beginning of a file of 4 GB or more is shown (C88_large_false). An empty file is reported like a missing one (C88_empty_false). On POSIX the functions are not implemented and return false (C88_posix_false)."
  },
  {
   "property": "C89",
   "status": "partial",
   "theorems": [
    "CE.Atomic.C89_coherent",
    "CE.Atomic.C89_compare_exchange",
    "CE.Atomic.C89_instruction",
    "CE.Atomic.C89_native",
    "CE.Atomic.C89_class_false",
    "CE.Atomic.C89_convertible_false",
    "CE.Atomic.C89_add",
    "CE.Atomic.C89_sub_partial",
    "CE.Atomic.C89_sub_false",
    "CE.Atomic.C89_pointer",
    "CE.Atomic.C89_member_false"
   ],
   "note": "Holds for native types. Fails for classes of 1, 2, 4, 8 bytes with an operator- of their own (vec2<int32_t>): loads take the lock, stores do not; for larger classes that convert to a number: loads do not take the lock; compare-exchange lacks a return for sizes other than 1, 2, 4, 8, 16; classes whose operators are members are added as integers; subtracting INT_MIN overflows. That 8- and 16-bit fetch_add narrows inside braces (a matter of compiler warnings and errors) is not modelled."
  },
  {
   "property": "C90",
   "status": "proved",
   "theorems": [
    "CE.Atomic.C90_linearizable",
    "CE.Atomic.C90_publish"
   ],
   "note": "The compiler is taken to keep the program order, which is what _ReadWriteBarrier and the intrinsics ask of it."
  },
  {
   "property": "C91",
   "status": "proved",
   "theorems": [
    "CE.Atomic.C91_lock_free",
    "CE.Atomic.C91_from",
    "CE.Atomic.C91_wait_free_false"
   ],
   "note": "The loop of atomic_std.h uses compare_exchange_weak, which may fail for no reason; there the bound holds for the other failures. The loops are not wait-free (shown)."
  },
  {
   "property": "C92",
   "status": "proved",
   "theorems": [
    "CE.SpinLock.C92_progress",
    "CE.SpinLock.C92_returns",
    "CE.SpinLock.C92_starvation_false",
    "CE.SpinSlots.C92_slots_progress",
    "CE.SpinSlots.C92_slots_returns"
   ],
   "note": "C92_progress and C92_returns hold for all weakly fair infinite executions. The same for all slots together (C92_slots_progress, C92_slots_returns), slot by slot: calls for ever at one slot do not keep those at another waiting. C92_starvation_false shows that no single call is guaranteed to return: in a fair execution one thread waits while another completes call after call (the lock has no queue)."
  },
  {
   "property": "C93",
   "status": "proved",
   "theorems": [
    "CE.Path.C93_path",
    "CE.Path.C93_distinct",
    "CE.Path.C93_fits",
    "CE.Path.C93_bytes",
    "CE.Path.C93_truncated_false",
    "CE.Path.C93_overlong_false"
   ],
   "note": "For valid UTF-8 proved (C93_path, C93_distinct), the buffer is never overrun whatever the bytes (C93_fits), and any path of whole characters gives a name that depends on nothing else (C93_bytes). Outside of that: a path that ends inside a character loses its terminator (C93_truncated_false), and the overlong form C0 80 ends the name early (C93_overlong_false)."
  },
  {
   "property": "C94",
   "status": "proved",
   "theorems": [
    "CE.Traits.C94_const",
    "CE.Traits.C94_volatile",
    "CE.Traits.C94_cv",
    "CE.Traits.C94_unique",
    "CE.Traits.C94_ref",
    "CE.Traits.C94_pointer",
    "CE.Traits.C94_is_ptr"
   ],
   "note": ""
  },
  {
   "property": "C95",
   "status": "partial",
   "theorems": [
    "CE.ToText.C95_concat_in_bounds_partial",
    "CE.ToText.C95_concat_exact",
    "CE.ToText.C95_short",
    "CE.ToText.C95_overflow_false",
    "CE.ToText.C95_matrix_false"
   ],
   "note": "C95_concat_in_bounds_partial requires components with texts of at most 254 characters; C95_short shows that only C strings can have longer ones. For those the property fails: a vec of one C string of 1023 or more characters is written behind the array (C95_overflow_false); C95_concat_exact says what is written for texts of any length and when a vec fits. A matrix is shown as the addresses of its rows, because to_text_n does not see the overload for vec (C95_matrix_false)."
  },
  {
   "property": "C96",
   "status": "proved",
   "theorems": [
    "CE.Cdt.C96_point",
    "CE.Cdt.C96_point_undefined",
    "CE.Cdt.C96_edge",
    "CE.Cdt.C96_user",
    "CE.Cdt.C96_user_defined"
   ],
   "note": "The determinant of incircle is excluded: it does overflow (C74). The bound for int64_t coordinates is exact (C96_point_undefined). The assertion a != 0 && b != 0 && c != 0 of line 622 never fails."
  },
  {
   "property": "C97",
   "status": "proved",
   "theorems": [
    "CE.Crc.C97_odd",
    "CE.Crc.C97_two",
    "CE.Crc.C97_three",
    "CE.Crc.C97_bound_is_tight"
   ],
   "note": "The two-bit bound is exact; C97_bound_is_tight gives two messages of 2^28 bytes that differ in two bits and collide."
  },
  {
   "property": "C98",
   "status": "proved",
   "theorems": [
    "CE.Random.C98_xoroshiro64ss",
    "CE.Random.C98_next64",
    "CE.Random.C98_xoroshiro128pp",
    "CE.Random.C98_pcg",
    "CE.Random.C98_ranged"
   ],
   "note": "For pcg32_64 the shift by 32 that C++ leaves undefined is taken to give 0 or the operand (C17)."
  },
  {
   "property": "C99",
   "status": "partial",
   "theorems": [
    "CE.Cost.C99_searches",
    "CE.Cost.C99_insertion_sort",
    "CE.Cost.C99_intro_sort",
    "CE.Cost.C99_nlogn_false",
    "CE.Cost.C99_priority_queue"
   ],
   "note": "The bound n log n is false of intro_sort: with equal elements the number of comparisons is quadratic for every cutoff. Proved: that negation, the quadratic bound n(n+5)/2 that does hold, and all the other bounds."
  },
  {
   "property": "C100",
   "status": "partial",
   "theorems": [
    "CE.Zorder.C100_query_partial",
    "CE.Zorder.C100_returns",
    "CE.Zorder.C100_world_false",
    "CE.Zorder.C100_unfiltered_false"
   ],
   "note": "False when the far corner is in the last cell: C100_world_false, a query of the whole plane finds nothing. Proved for all other corners; the stack bound is C57's."
  },
  {
   "property": "C101",
   "status": "proved",
   "theorems": [
    "CE.Cdt.C101_refine",
    "CE.Cdt.C101_weights",
    "CE.Cdt.C101_far_undefined",
    "CE.Cdt.C101_collinear"
   ],
   "note": "Nothing in the header calls these functions. Far points overflow (C101_far_undefined)."
  },
  {
   "property": "C102",
   "status": "partial",
   "theorems": [
    "CE.Helpers.C102_rotl_partial",
    "CE.Helpers.C102_zero_undefined"
   ],
   "note": "False for multiples of 32: the right shift is by 32, which is undefined (C102_zero_undefined). Proved for all other amounts; the library itself uses 5, 13, 26."
  },
  {
   "property": "C103",
   "status": "partial",
   "theorems": [
    "CE.Helpers.C103_get_false",
    "CE.Helpers.C103_pick",
    "CE.Helpers.C103_arity",
    "CE.Helpers.C103_named_partial"
   ],
   "note": "False of the code: with structured bindings (the project builds as C++17) the name get inside crack finds crack::get, so every use is ill-formed (C103_get_false). Proved: without structured bindings it returns the member; the helper it means to call returns the member; the number of members is counted correctly. The rules of name lookup used are part of the model."
  },
  {
   "property": "C104",
   "status": "partial",
   "theorems": [
    "CE.Preproc.C104_get",
    "CE.Preproc.C104_map",
    "CE.Preproc.C104_unique",
    "CE.Preproc.C104_checks_partial",
    "CE.Preproc.C104_error",
    "CE.Preproc.C104_log",
    "CE.Preproc.C104_msg",
    "CE.Preproc.C104_other",
    "CE.Preproc.C104_text_false",
    "CE.Preproc.C104_comma_false"
   ],
   "note": "The claim about the text of the test is false (C104_text_false, C104_comma_false); everything else is proved. The user's tokens are assumed not to be macros, and the level name LVL is left out."
  },
  {
   "property": "C105",
   "status": "proved",
   "theorems": [
    "CE.FloatText.C105_exists",
    "CE.FloatText.C105_length",
    "CE.FloatText.C105_injective",
    "CE.FloatText.C105_to_text",
    "CE.FloatText.C105_reads_back",
    "CE.FloatText.C105_room_undefined",
    "CE.FloatText.C105_as_string"
   ],
   "note": "std::to_chars itself is not modelled but taken by its contract (shortest text that reads back, nearest of these), which C105_exists shows can be met. The array must have room for 32 characters at the place of the text even though 24 suffice (C105_room_undefined)."
  },
  {
   "property": "C106",
   "status": "partial",
   "theorems": [
    "CE.Stderr.C106_pieces",
    "CE.Stderr.C106_pieces_in_order",
    "CE.Stderr.C106_whole_lines_partial",
    "CE.Stderr.C106_mixed_lines_false",
    "CE.Stderr.C106_short_write_false"
   ],
   "note": "Not true of the code: a line is written in many pieces without a lock (C106_mixed_lines_false) and the rest of a short write is dropped (C106_short_write_false). Proved: with complete writes nothing is lost or cut within a piece and each thread's pieces stay in order; if the caller logs under a lock the stream consists of whole lines."
  },
  {
   "property": "C107",
   "status": "partial",
   "theorems": [
    "CE.Normal.C107_rounding",
    "CE.Normal.C107_commutes",
    "CE.Normal.C107_unit_partial",
    "CE.Normal.C107_unit_generic_partial",
    "CE.Normal.C107_long_false",
    "CE.Normal.C107_short_false",
    "CE.Normal.C107_short_generic_false",
    "CE.Normal.C107_nan",
    "CE.Normal.C107_infinite_false"
   ],
   "note": "Not true of all vectors: with a component of 2^64 or more the result is the null vector (C107_long_false), with no component above 2^-64 it has infinities and NaN (C107_short_false, C107_short_generic_false). With an infinite component the result is NaN there and zero elsewhere (C107_infinite_false); with a NaN it is NaN throughout (C107_nan, not for x86, where the manual's promise as modelled does not cover NaN). Proved for components of at most 2^63, one of them at least 2^-62. The instruction rsqrtss is taken by the promise of its manual; the sign of zero is not kept."
  },
  {
   "property": "C108",
   "status": "proved",
   "theorems": [
    "CE.Random.C108_xoroshiro64ss_one_byte",
    "CE.Random.C108_xoroshiro64ss_short",
    "CE.Random.C108_xoroshiro64ss_onto",
    "CE.Random.C108_xoroshiro128pp_one_byte",
    "CE.Random.C108_pcg_one_byte",
    "CE.Random.C108_pcg_number",
    "CE.Random.C108_xoroshiro64ss_stretch",
    "CE.Random.C108_xoroshiro128pp_stretch",
    "CE.Random.C108_pcg_stretch",
    "CE.Random.C108_pcg_seven_false"
   ],
   "note": "C108_pcg_seven_false is the witness that six bytes are the most."
  },
  {
   "property": "C109",
   "status": "proved",
   "theorems": [
    "CE.Cdt.C109_same_circle",
    "CE.Cdt.C109_unique",
    "CE.Cdt.C109_order",
    "CE.Cdt.C109_condition_needed"
   ],
   "note": ""
  },
  {
   "property": "C110",
   "status": "proved",
   "theorems": [
    "CE.Cdt.C110_count",
    "CE.Cdt.C110_linear",
    "CE.Cdt.C110_insert_ends",
    "CE.Cdt.C110_fan",
    "CE.Cdt.C110_fan_le",
    "CE.Cdt.C110_tight"
   ],
   "note": "Copies of flip and insert_point_at_node that also count the flips; that without the count they are the functions of the model is C110_count.  Needs a triangulation without constraints: with constraints the walk may not end (C80)."
  },
  {
   "property": "C111",
   "status": "partial",
   "theorems": [
    "CE.Cdt.C111_local",
    "CE.Cdt.C111_constrained_delaunay_partial",
    "CE.Cdt.C111_insert_edge_false",
    "CE.Cdt.C111_same_circle",
    "CE.Cdt.C111_unique",
    "CE.Cdt.C111_hidden"
   ],
   "note": "False with insert_edge (C111_insert_edge_false), for the reason given at C79. Proved for all histories without it; for every mesh, the property is equivalent to the local one (C111_local)."
  },
  {
   "property": "C112",
   "status": "partial",
   "theorems": [
    "CE.Cdt.C112_same",
    "CE.Cdt.C112_search",
    "CE.Cdt.C112_only_walks_partial",
    "CE.Cdt.C112_bound",
    "CE.Cdt.C112_walk_false",
    "CE.Cdt.C112_corner_false"
   ],
   "note": "The code does not have the property: walks among constraints may not end (C112_walk_false), and from a corner of the square the mesh is left (C112_corner_false). Proved for every other start: it ends with the exhaustive search (C112_search), with the walk unless a walk does not end (C112_only_walks_partial), and the number of added vertices is bounded (C112_bound)."
  },
  {
   "property": "C113",
   "status": "proved",
   "theorems": [
    "CE.Cordic.C113_length",
    "CE.Cordic.C113_rotate_twice",
    "CE.Cordic.C113_rotate_back",
    "CE.Cordic.C113_polar_back",
    "CE.Cordic.C113_cartesian_back"
   ],
   "note": ""
  },
  {
   "property": "C114",
   "status": "proved",
   "theorems": [
    "CE.Cdt.C114_same",
    "CE.Cdt.C114_fill",
    "CE.Cdt.C114_outside",
    "CE.Cdt.C114_sides",
    "CE.Cdt.C114_separated",
    "CE.Cdt.C114_fences"
   ],
   "note": "The claim is about the faces that are painted; that all faces of the region are painted is C76."
  },
  {
   "property": "C115",
   "status": "proved",
   "theorems": [
    "CE.Cdt.C115_region",
    "CE.Cdt.C115_two_sides",
    "CE.Cdt.C115_fill",
    "CE.Cdt.C115_in_polygon"
   ],
   "note": "The side conditions are those of a drawing of one polygon; where several polygons or crossing sides are drawn the claim that remains is C114."
  },
  {
   "property": "C116",
   "status": "proved",
   "theorems": [
    "CE.Zorder.C116_search"
   ],
   "note": "The limits on the rectangle are those of C57 and C100, where counterexamples beyond them are proved."
  },
  {
   "property": "C117",
   "status": "proved",
   "theorems": [
    "CE.Cdt.C117_region",
    "CE.Cdt.C117_fill",
    "CE.Cdt.C117_surrounded"
   ],
   "note": ""
  },
  {
   "property": "C118",
   "status": "proved",
   "theorems": [
    "CE.Cordic.C118_cos_sin",
    "CE.Cordic.C118_quarter",
    "CE.Cordic.C118_pythagoras",
    "CE.Cordic.C118_degrees",
    "CE.Cordic.C118_atan2",
    "CE.Cordic.C118_angle_back"
   ],
   "note": "The negative x axis is excluded for atan2_2pi, where the angle may be given as plus or minus half a turn."
  },
  {
   "property": "C119",
   "status": "proved",
   "theorems": [
    "CE.Vec.C119_muldiv",
    "CE.Vec.C119_part",
    "CE.Vec.C119_edge_cases"
   ],
   "note": ""
  },
  {
   "property": "C120",
   "status": "proved",
   "theorems": [
    "CE.Random.C120_pcg_published",
    "CE.Random.C120_pcg_bytes",
    "CE.Random.C120_xoroshiro128pp_bytes"
   ],
   "note": "For the over-long shift see C17."
  },
  {
   "property": "C121",
   "status": "proved",
   "theorems": [
    "CE.Crc.C121_residue",
    "CE.Crc.C121_residue_crc32c",
    "CE.Crc.C121_check",
    "CE.Crc.C121_forge"
   ],
   "note": ""
  },
  {
   "property": "C122",
   "status": "proved",
   "theorems": [
    "CE.Cdt.C122_circle",
    "CE.Cdt.C122_only",
    "CE.Cdt.C122_diameter",
    "CE.Cdt.C122_cut",
    "CE.Cdt.C122_nearest",
    "CE.Cdt.C122_path",
    "CE.Cdt.C122_greedy"
   ],
   "note": ""
  },
  {
   "property": "C123",
   "status": "proved",
   "theorems": [
    "CE.Cdt.C123_exists",
    "CE.Cdt.C123_least",
    "CE.Cdt.C123_error",
    "CE.Cdt.C123_sharp"
   ],
   "note": ""
  },
  {
   "property": "C124",
   "status": "proved",
   "theorems": [
    "CE.Cdt.C124_flip"
   ],
   "note": ""
  },
  {
   "property": "C125",
   "status": "proved",
   "theorems": [
    "CE.Cdt.C125_edge",
    "CE.Cdt.C125_hint",
    "CE.Cdt.C125_points",
    "CE.Cdt.C125_lines",
    "CE.Cdt.C125_can",
    "CE.Cdt.C125_polygon",
    "CE.Cdt.C125_paint"
   ],
   "note": ""
  },
  {
   "property": "C126",
   "status": "proved",
   "theorems": [
    "CE.Cdt.C126_meshes",
    "CE.Cdt.C126_walls",
    "CE.Cdt.C126_smallest_angle",
    "CE.Cdt.C126_constrained",
    "CE.Cdt.C126_insert_edge_false"
   ],
   "note": "The angles are real numbers (arccos). After insert_edge the mesh need not be locally Delaunay (C79)."
  },
  {
   "property": "C127",
   "status": "proved",
   "theorems": [
    "CE.Cdt.C127_largest_circle",
    "CE.Cdt.C127_constrained",
    "CE.Cdt.C127_insert_edge_false"
   ],
   "note": ""
  },
  {
   "property": "C128",
   "status": "proved",
   "theorems": [
    "CE.Base64.C128_bits",
    "CE.Base64.C128_same",
    "CE.Base64.C128_surplus",
    "CE.Base64.C128_not_injective"
   ],
   "note": "Texts of letters only; lengths up to 2^62 as in C12 and C13."
  },
  {
   "property": "C129",
   "status": "proved",
   "theorems": [
    "CE.Lziii.C129_overwrites",
    "CE.Lziii.C129_data",
    "CE.Lziii.C129_compiles_iff"
   ],
   "note": ""
  },
  {
   "property": "C130",
   "status": "proved",
   "theorems": [
    "CE.Cdt.C130_sheet",
    "CE.Cdt.C130_plane",
    "CE.Cdt.C130_least",
    "CE.Cdt.C130_best_iff",
    "CE.Cdt.C130_constrained",
    "CE.Cdt.C130_constrained_iff",
    "CE.Cdt.C130_marked",
    "CE.Cdt.C130_local_iff",
    "CE.Cdt.C130_insert_edge_false",
    "CE.Cdt.C130_flip"
   ],
   "note": "The other triangulation is any mesh that is linked, clockwise, has the square as its outline, 16-bit coordinates and every vertex in use once (Sheet); every mesh of every history is one (C130_sheet). The slopes are tied to the plane through the corners by C130_plane. C130_insert_edge_false shows that the hypothesis LocallyDelaunay of the constrained version does not come for free."
  },
  {
   "property": "C131",
   "status": "partial",
   "theorems": [
    "CE.SpinNest.C131_free",
    "CE.SpinNest.C131_ordered_partial",
    "CE.SpinNest.C131_ends_partial",
    "CE.SpinNest.C131_self_false",
    "CE.SpinNest.C131_cross_false"
   ],
   "note": "False of the code: an operator that uses an atomic whose address differs by a multiple of 2048 waits for its own thread (C131_self_false), and two threads can wait for each other (C131_cross_false). Proved: the slots are given back by those who have them and are free in the end (C131_free); with slots taken in ascending order no deadlock (C131_ordered_partial) and every run ends with all threads done and all slots free (C131_ends_partial). Without nesting see C60_slots_holder."
  },
  {
   "property": "C132",
   "status": "proved",
   "theorems": [
    "CE.Vec.C132_product",
    "CE.Vec.C132_muldiv",
    "CE.Vec.C132_back",
    "CE.Vec.C132_part",
    "CE.Vec.C132_part_undefined"
   ],
   "note": "The instructions behind _mul128 and _div128 are taken as their manual describes them. Nothing in the library calls these functions (the one use is disabled)."
  },
  {
   "property": "C133",
   "status": "partial",
   "theorems": [
    "CE.Bits.C133_linearizable",
    "CE.Bits.C133_exact_partial",
    "CE.Bits.C133_rounds",
    "CE.Bits.C133_alone",
    "CE.Bits.C133_goes",
    "CE.Bits.C133_equal_partial",
    "CE.Bits.C133_zero_false",
    "CE.Bits.C133_nan_false",
    "CE.Bits.C133_float",
    "CE.Bits.C133_padding_false",
    "CE.Bits.C133_retry_partial",
    "CE.Bits.C133_retry_false"
   ],
   "note": "C133_linearizable, C133_rounds, C133_alone and C133_goes hold without exception. False as stated for 0 against -0, NaNs and padding (C133_zero_false, C133_nan_false, C133_padding_false); C133_exact_partial assumes one representation for each value, C133_equal_partial that == is equality of bits, C133_retry_partial that copies keep all bits (C133_retry_false)."
  },
  {
   "property": "C134",
   "status": "proved",
   "theorems": [
    "CE.AnyOrder.C134_insertion_sort",
    "CE.AnyOrder.C134_intro_sort",
    "CE.AnyOrder.C134_searches",
    "CE.AnyOrder.C134_queue",
    "CE.AnyOrder.C134_insertion_sort_on",
    "CE.AnyOrder.C134_intro_sort_on",
    "CE.AnyOrder.C134_searches_on",
    "CE.AnyOrder.C134_queue_on",
    "CE.AnyOrder.C134_nan_sort_false",
    "CE.AnyOrder.C134_nan_queue_false"
   ],
   "note": "The comparison is a function of its two arguments. With a NaN among the elements the others need not be sorted (C134_nan_sort_false) and dequeue may give a number that is not the least (C134_nan_queue_false)."
  },
  {
   "property": "C135",
   "status": "proved",
   "theorems": [
    "CE.AnyOrder.C135_equal_range",
    "CE.AnyOrder.C135_found"
   ],
   "note": ""
  },
  {
   "property": "C136",
   "status": "proved",
   "theorems": [
    "CE.Isqrt.C136_isqrt_mono",
    "CE.Isqrt.C136_hypot_mono",
    "CE.Isqrt.C136_hypot_symm",
    "CE.Isqrt.C136_hypot_bounds",
    "CE.Isqrt.C136_triangle",
    "CE.Isqrt.C136_triangle_near",
    "CE.Isqrt.C136_triangle_exact_false",
    "CE.Isqrt.C136_isqrt_mono_range_false",
    "CE.Isqrt.C136_generic_mono",
    "CE.Isqrt.C136_generic_bounds",
    "CE.Isqrt.C136_axis"
   ],
   "note": "the exact triangle inequality and the order beyond the 32-bit range are refuted (C136_triangle_exact_false, C136_isqrt_mono_range_false)"
  },
  {
   "property": "C137",
   "status": "proved",
   "theorems": [
    "CE.InPlace.C137_intersect_first",
    "CE.InPlace.C137_intersect_end",
    "CE.InPlace.C137_intersect_other",
    "CE.InPlace.C137_intersect_alias_false",
    "CE.InPlace.C137_query_in_place",
    "CE.InPlace.C137_query_behind_false",
    "CE.InPlace.C137_decode_in_place",
    "CE.InPlace.C137_decode_behind_false"
   ],
   "note": "output that begins one element behind the input fails for both (C137_query_behind_false, C137_decode_behind_false); wrong results of intersect with each of the other three objects in C137_intersect_alias_false"
  },
  {
   "property": "C138",
   "status": "proved",
   "theorems": [
    "CE.Vec.C138_triangle",
    "CE.Vec.C138_opposite_ties",
    "CE.Vec.C138_parts",
    "CE.Vec.C138_exactly_one",
    "CE.Vec.C138_same_triangle_false"
   ],
   "note": "The cut is stated on the level of directed edges: those of the parts are those of the whole and inner edges in pairs. C138_same_triangle_false is the finding that in_polygon and inside break ties in opposite ways."
  },
  {
   "property": "C139",
   "status": "proved",
   "theorems": [
    "CE.Vec.C139_chain",
    "CE.Vec.C139_mono",
    "CE.Vec.C139_reverse",
    "CE.Vec.C139_segment_rays",
    "CE.Vec.C139_segment_edge",
    "CE.Vec.C139_hypot",
    "CE.Vec.C139_hypot_generic",
    "CE.Vec.C139_hypot_strict_false",
    "CE.Vec.C139_edge_reverse_false"
   ],
   "note": "On x86 the strict form fails since the length is rounded to nearest (C139_hypot_strict_false); in_range_rr_edge depends on the order of the ends (C139_edge_reverse_false). The statements about the edge exclude the edge of length zero."
  },
  {
   "property": "C140",
   "status": "proved",
   "theorems": [
    "CE.LziiiMem.C140_in_place",
    "CE.LziiiMem.C140_fits",
    "CE.LziiiMem.C140_buffer",
    "CE.LziiiMem.C140_less_false"
   ],
   "note": "C140_less_false is a stream of nine literals for which one byte less gives wrong data."
  },
  {
   "property": "C141",
   "status": "proved",
   "theorems": [
    "CE.Cdt.C141_one_face",
    "CE.Cdt.C141_locate",
    "CE.Cdt.C141_locate_edges_false"
   ],
   "note": "C141_locate_edges_false shows that the two differ on edges and sides."
  },
  {
   "property": "C142",
   "status": "proved",
   "theorems": [
    "CE.Cdt.C142_search",
    "CE.Cdt.C142_reaches",
    "CE.Cdt.C142_locate",
    "CE.Cdt.C142_corners_false"
   ],
   "note": "C142_corners_false is the witness for the last sentence."
  },
  {
   "property": "C143",
   "status": "proved",
   "theorems": [
    "CE.Fnv.C143_stretch",
    "CE.Fnv.C143_longer_false",
    "CE.Fnv.C143_names",
    "CE.Fnv.C143_names_false",
    "CE.Dictionary.C143_dictionary"
   ],
   "note": "C143_longer_false and C143_names_false are the witnesses that the lengths are the largest possible."
  },
  {
   "property": "C144",
   "status": "proved",
   "theorems": [
    "CE.CrcZeros.C144_zeros",
    "CE.CrcZeros.C144_front",
    "CE.CrcZeros.C144_end",
    "CE.CrcZeros.C144_end_false"
   ],
   "note": "C144_end_false gives four bytes whose CRC-32C no number of zero bytes changes. C144_zeros is the exact condition; C144_front the unconditional form in front, C144_end the form at the end."
  },
  {
   "property": "C145",
   "status": "proved",
   "theorems": [
    "CE.ZorderCost.C145_same",
    "CE.ZorderCost.C145_runs",
    "CE.ZorderCost.C145_runs_bound",
    "CE.ZorderCost.C145_query",
    "CE.ZorderCost.C145_block",
    "CE.ZorderCost.C145_block_only_false"
   ],
   "note": "C145_query is the bound between points, C145_runs the bound by runs, C145_runs_bound counts runs, C145_block the aligned square; C145_block_only_false shows the block bound is not one for all rectangles. z_split calls are not counted; there are at most 64 for a code read, by the rounds of `look`."
  },
  {
   "property": "C146",
   "status": "proved",
   "theorems": [
    "CE.LziiiLimits.C146_every",
    "CE.LziiiLimits.C146_expansion",
    "CE.LziiiLimits.C146_sharp",
    "CE.LziiiLimits.C146_behind",
    "CE.LziiiLimits.C146_beginning",
    "CE.LziiiLimits.C146_within_false"
   ],
   "note": "C146_within_false shows the last sentence of the statement: a destination of 2 for a stream of 4 bytes is overrun."
  },
  {
   "property": "C147",
   "status": "proved",
   "theorems": [
    "CE.Crc.C147_near",
    "CE.Crc.C147_five",
    "CE.Crc.C147_frame",
    "CE.Crc.C147_bound_is_tight"
   ],
   "note": "The bound is the best possible (C147_bound_is_tight)."
  },
  {
   "property": "C148",
   "status": "proved",
   "theorems": [
    "CE.Random.C148_twins",
    "CE.Random.C148_determined",
    "CE.Random.C148_predict"
   ],
   "note": "Read with C108: different seeds give different generators, but these are not independent."
  },
  {
   "property": "C149",
   "status": "proved",
   "theorems": [
    "CE.FetchAdd.C149_tickets",
    "CE.FetchAdd.C149_no_gaps",
    "CE.FetchAdd.C149_last_once",
    "CE.FetchAdd.C149_last_exists",
    "CE.FetchAdd.C149_wraps"
   ],
   "note": "C149_tickets, C149_no_gaps: numbers; C149_last_once, C149_last_exists: reference counts; C149_wraps: why the number of clones is limited. Memory ordering of other data is not part of the model."
  },
  {
   "property": "C150",
   "status": "proved",
   "theorems": [
    "CE.Layout.C150_rules",
    "CE.Layout.C150_as_array",
    "CE.Layout.C150_rgba",
    "CE.Layout.C150_vec",
    "CE.Layout.C150_sizes",
    "CE.Layout.C150_union",
    "CE.Layout.C150_store",
    "CE.Layout.C150_mutex",
    "CE.Layout.C150_mutex_alignment_false"
   ],
   "note": "C150_rules: the layout rules place members in order, aligned, without overlap; C150_as_array, C150_rgba, C150_vec; C150_sizes, C150_union, C150_store; C150_mutex; C150_mutex_alignment_false: nothing asserts the alignment of the mutex. Aliasing rules of C++ (that the casts are allowed at all) are not modelled."
  },
  {
   "property": "C151",
   "status": "proved",
   "theorems": [
    "CE.Atomic.C151_once",
    "CE.Atomic.C151_flag",
    "CE.Atomic.C151_published"
   ],
   "note": "C151_once, C151_flag, C151_published. The memory model is that of x86 (store buffers) as in C90; effects are the results returned (C90_linearizable)."
  },
  {
   "property": "C152",
   "status": "proved",
   "theorems": [
    "CE.ToText.C152_array_reads_back",
    "CE.ToText.C152_array_injective",
    "CE.ToText.C152_array_of_texts_false",
    "CE.ToText.C152_message_injective",
    "CE.ToText.C152_message_adjacent_false"
   ],
   "note": "arrays: an independent reader gives back what was written; messages: injectivity for a fixed pattern; the two _false theorems are the witnesses for the conditions the statement names"
  },
  {
   "property": "C153",
   "status": "proved",
   "theorems": [
    "CE.Mutex.C153_defined",
    "CE.Mutex.C153_no_deadlock",
    "CE.Mutex.C153_finishes",
    "CE.Mutex.C153_order_needed_false",
    "CE.Mutex.C153_twice_undefined"
   ],
   "note": "the locks of the platform are trusted to behave as documented (Model/Mutex.lean); the _false theorem is the witness that the order is needed"
  },
  {
   "property": "C154",
   "status": "proved",
   "theorems": [
    "CE.Random.C154_permutes",
    "CE.Random.C154_nearly_uniform",
    "CE.Random.C154_uniform_false",
    "CE.Random.C154_some_never"
   ],
   "note": "the shuffle is code a user writes, modelled as stated; the _false theorem shows that exact uniformity fails, as next_unbiased does not reject (C19)"
  },
  {
   "property": "C155",
   "status": "proved",
   "theorems": [
    "CE.Heap.C155_in_order",
    "CE.Heap.C155_numbered_fifo",
    "CE.Heap.C155_fifo_false"
   ],
   "note": "the loop is code a user writes, modelled as stated; the _false theorem is the witness that equal events are not in order by themselves"
  },
  {
   "property": "C156",
   "status": "proved",
   "theorems": [
    "CE.Base64.C156_fewer",
    "CE.Base64.C156_pieces",
    "CE.Base64.C156_joined",
    "CE.Base64.C156_joined_false",
    "CE.Base64.C156_cut_false"
   ],
   "note": "the two _false theorems are the witnesses that the multiples of four and three are needed"
  },
  {
   "property": "C157",
   "status": "proved",
   "theorems": [
    "CE.Crc.C157_five_in_text",
    "CE.Crc.C157_six_in_text",
    "CE.Crc.C157_names",
    "CE.Crc.C157_six_false",
    "CE.Crc.C157_small_false"
   ],
   "note": "Tight: witnesses with six characters, with six small letters against two, and with seven small letters."
  }
 ]
}