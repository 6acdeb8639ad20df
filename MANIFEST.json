{"claims": [
 {"property": "C01", "status": "proved", "theorems": ["CRoaring.Props.C01_create", "CRoaring.Props.C01_add", "CRoaring.Props.C01_remove"], "note": "all valid bitmaps, all 32-bit values"},
 {"property": "C02", "status": "proved", "theorems": ["CRoaring.Props.C02_add_checked", "CRoaring.Props.C02_remove_checked"], "note": "all valid bitmaps, all 32-bit values"},
 {"property": "C03", "status": "proved", "theorems": ["CRoaring.Props.C03_always_valid", "CRoaring.Props.C03_what_valid_means"], "note": "Every history of the modelled public operations, including lazy ones and repair, leads to valid bitmaps (value level; deserialized bitmaps enter once validated)."},
 {"property": "C04", "status": "proved", "theorems": ["CRoaring.Props.C04_or"], "note": "value-level model; operands are immutable values there"},
 {"property": "C05", "status": "proved", "theorems": ["CRoaring.Props.C05_and"], "note": ""},
 {"property": "C06", "status": "proved", "theorems": ["CRoaring.Props.C06_andnot"], "note": ""},
 {"property": "C07", "status": "proved", "theorems": ["CRoaring.Props.C07_xor"], "note": ""},
 {"property": "C08", "status": "proved", "theorems": ["CRoaring.Props.C08_or_inplace", "CRoaring.Props.C08_and_inplace", "CRoaring.Props.C08_andnot_inplace", "CRoaring.Props.C08_xor_inplace"], "note": "for every sharing pattern and array capacity; xor/andnot in place on two distinct objects, as the code documents"},
 {"property": "C09", "status": "proved", "theorems": ["CRoaring.Props.C09_cardinality", "CRoaring.Props.C09_is_empty"], "note": ""},
 {"property": "C10", "status": "proved", "theorems": ["CRoaring.Props.C10_and_cardinality", "CRoaring.Props.C10_or_cardinality", "CRoaring.Props.C10_andnot_cardinality", "CRoaring.Props.C10_xor_cardinality", "CRoaring.Props.C10_agree", "CRoaring.Props.C10_intersect", "CRoaring.Props.C10_jaccard"], "note": "jaccard: the two integers that are divided"},
 {"property": "C11", "status": "proved", "theorems": ["CRoaring.Props.C11_equals"], "note": ""},
 {"property": "C12", "status": "proved", "theorems": ["CRoaring.Props.C12_is_subset", "CRoaring.Props.C12_is_strict_subset"], "note": ""},
 {"property": "C13", "status": "proved", "theorems": ["CRoaring.Props.C13_add_range_closed", "CRoaring.Props.C13_remove_range_closed"], "note": "all 32-bit bounds"},
 {"property": "C14", "status": "partial", "theorems": ["CRoaring.Props.C14_add_range_partial", "CRoaring.Props.C14_remove_range_partial", "CRoaring.Props.C14_contains_range_partial", "CRoaring.Props.C14_range_cardinality_partial", "CRoaring.Props.C14_flip_partial", "CRoaring.Props.C14_false"], "note": "proved for every range the code handles (end at most 2^32, or empty, or starting above 2^32); the remaining case lo <= 2^32 < hi is false, with witnesses (C14_false)"},
 {"property": "C15", "status": "proved", "theorems": ["CRoaring.Props.C15_contains_range_closed"], "note": ""},
 {"property": "C16", "status": "proved", "theorems": ["CRoaring.Props.C16_range_cardinality_closed"], "note": ""},
 {"property": "C17", "status": "proved", "theorems": ["CRoaring.Props.C17_flip_closed", "CRoaring.Props.C17_flip_inplace_closed", "CRoaring.Props.C17_flip_twice"], "note": ""},
 {"property": "C18", "status": "proved", "theorems": ["CRoaring.Props.C18_rank", "CRoaring.Props.C18_get_index"], "note": ""},
 {"property": "C19", "status": "partial", "theorems": ["CRoaring.Props.C19_select_partial", "CRoaring.Props.C19_false"], "note": "Proved unless the bitmap contains all 2^32 values and k >= 2^32-65536; C19_false shows that select fails there when the last container is a bitset (32-bit wrap of the start rank)."},
 {"property": "C20", "status": "partial", "theorems": ["CRoaring.Props.C20_rank_many_partial", "CRoaring.Props.C20_unwritten", "CRoaring.Props.C20_false"], "note": "Proved for queries whose high half does not exceed that of the maximum; C20_unwritten says exactly which answers are written, C20_false shows the full claim fails."},
 {"property": "C21", "status": "proved", "theorems": ["CRoaring.Props.C21_minimum", "CRoaring.Props.C21_maximum"], "note": ""},
 {"property": "C22", "status": "proved", "theorems": ["CRoaring.Props.C22_to_uint32_array"], "note": ""},
 {"property": "C23", "status": "proved", "theorems": ["CRoaring.Props.C23_range_uint32_array", "CRoaring.Props.C23_page"], "note": "For offset + limit < 2^64; cells of the page behind the end of the enumeration are zero-filled."},
 {"property": "C24", "status": "proved", "theorems": ["CRoaring.Props.C24_iterate"], "note": ""},
 {"property": "C25", "status": "proved", "theorems": ["CRoaring.Props.C25_iterator"], "note": "Any sequence of calls, from init and init_last, against a cursor on the sorted list of values."},
 {"property": "C26", "status": "proved", "theorems": ["CRoaring.Props.C26_read"], "note": "Reads from every reachable position, and the read-until-short loop."},
 {"property": "C27", "status": "proved", "theorems": ["CRoaring.Props.C27_run_optimize", "CRoaring.Props.C27_remove_run_compression"], "note": "shrink_to_fit changes capacities only, which the model does not have; it is the identity on modelled values."},
 {"property": "C28", "status": "proved", "theorems": ["CRoaring.Props.C28_portable_round_trip", "CRoaring.Props.C28_truncated"], "note": "Exact bytes written, exact size, round trip with any trailing bytes, rejection of truncated data."},
 {"property": "C29", "status": "proved", "theorems": ["CRoaring.Props.C29_portable_in_bounds", "CRoaring.Props.C29_native_in_bounds"], "note": "No access outside the first n bytes for arbitrary bytes; both functions agree on success and size. Allocation is assumed to succeed."},
 {"property": "C30", "status": "proved", "theorems": ["CRoaring.Props.C30_validated_input", "CRoaring.Props.C30_validate_exact", "CRoaring.Props.C30_contains"], "note": "Validation accepts exactly the well-formed structures, in particular for everything the deserializers return."},
 {"property": "C31", "status": "proved", "theorems": ["CRoaring.Props.C31_native_round_trip"], "note": "Both deserializers invert serialize; exact size."},
 {"property": "C32", "status": "proved", "theorems": ["CRoaring.Props.C32_frozen_round_trip"], "note": "Frozen bytes follow the documented layout, the exact size is announced, and viewing them (at an aligned address) gives the same bitmap."},
 {"property": "C33", "status": "proved", "theorems": ["CRoaring.Props.C33_lazy_or", "CRoaring.Props.C33_lazy_xor"], "note": "every expression of lazy calls with every flag; the second operand of lazy_xor_inplace is a valid (not a lazy) bitmap"},
 {"property": "C34", "status": "proved", "theorems": ["CRoaring.Props.C34_or_many", "CRoaring.Props.C34_or_many_heap", "CRoaring.Props.C34_xor_many", "CRoaring.Props.C34_none"], "note": "or_many_heap for every size function used by the queue"},
 {"property": "C35", "status": "proved", "theorems": ["CRoaring.Props.C35_add_many", "CRoaring.Props.C35_of", "CRoaring.Props.C35_remove_many", "CRoaring.Props.C35_bulk_context"], "note": "every list of values, every interleaving of bulk operations through one context"},
 {"property": "C36", "status": "partial", "theorems": ["CRoaring.Props.C36_from_range_partial", "CRoaring.Props.C36_null", "CRoaring.Props.C36_diverges", "CRoaring.Props.C36_wrong_value"], "note": "proved when the internal 32-bit loop counter does not wrap; false otherwise, with two witnesses (a call that never returns and a call that adds a value outside the range)"},
 {"property": "C37", "status": "proved", "theorems": ["CRoaring.Props.C37_add_offset"], "note": "every integer offset"},
 {"property": "C38", "status": "partial", "theorems": ["CRoaring.Props.C38_history_partial", "CRoaring.Props.C38_isolation_partial", "CRoaring.Props.C38_false", "CRoaring.Props.C38_false_remove_many_new", "CRoaring.Props.C38_false_range_array", "CRoaring.Props.C38_false_bulk_context", "CRoaring.Props.C38_mixed_flags"], "note": "Proved for all histories of 26 calls over any number of bitmaps, with and without copy-on-write. Under copy-on-write remove_many, range_uint32_array, or_many_heap (see C114) and an add_bulk context filled by contains_bulk are excluded: for them the claim is false (C38_false, C38_false_remove_many_new, C38_false_range_array, C38_false_bulk_context, C114_false). C38_mixed_flags: the flag has to be the same on all bitmaps."},
 {"property": "C39", "status": "proved", "theorems": ["CRoaring.Props.C39_to_bitset"], "note": "Into any bitset without set bits."},
 {"property": "C40", "status": "partial", "theorems": ["CRoaring.Props.C40_intersect_with_range_partial", "CRoaring.Props.C40_intersect_with_range_false"], "note": "Proved for x below 2^32 (and empty ranges); false above, with a witness, because x is cut to 32 bits."},
 {"property": "C41", "status": "proved", "theorems": ["CRoaring.Props.C41_overwrite_self", "CRoaring.Props.C41_copy", "CRoaring.Props.C41_overwrite", "CRoaring.Props.C41_clear", "CRoaring.Props.C41_copy_exact", "CRoaring.Props.C41_overwrite_exact", "CRoaring.Props.C41_clear_exact"], "note": "Overwriting takes two different bitmaps; C41_overwrite_self shows that overwrite(x, x) is undefined behaviour."},
 {"property": "C42", "status": "partial", "theorems": ["CRoaring.Props.C42_statistics_partial", "CRoaring.Props.C42_false"], "note": "All counters exact unless the bitmap holds all 2^32 values, where the 32-bit per-kind value counters may wrap (C42_false)."},
 {"property": "C43", "status": "proved", "theorems": ["CRoaring.Props.C43_andnot_flip", "CRoaring.Props.C43_or_comm", "CRoaring.Props.C43_and_comm", "CRoaring.Props.C43_xor_comm", "CRoaring.Props.C43_or_assoc", "CRoaring.Props.C43_and_assoc", "CRoaring.Props.C43_idem", "CRoaring.Props.C43_distrib", "CRoaring.Props.C43_xor_def"], "note": ""},
 {"property": "C44", "status": "proved", "theorems": ["CRoaring.Props.C44_binarySearch", "CRoaring.Props.C44_advanceUntil", "CRoaring.Props.C44_counts", "CRoaring.Props.C44_lanes"], "note": "scalar code"},
 {"property": "C45", "status": "proved", "theorems": ["CRoaring.Props.C45_portable_layout"], "note": "Equality of the written bytes with an independent definition of the layout."},
 {"property": "C46", "status": "proved", "theorems": ["CRoaring.Props.C46_frozen_view_in_bounds"], "note": "All byte strings, lengths and addresses."},
 {"property": "C47", "status": "partial", "theorems": ["CRoaring.Props.C47_portable_view_partial", "CRoaring.Props.C47_false"], "note": "Proved for serialized sizes below 4 GiB; C47_false shows that the property fails above (offsets wrap)."},
 {"property": "C48", "status": "proved", "theorems": ["CRoaring.Props.C48_reachable", "CRoaring.Props.C48_create", "CRoaring.Props.C48_set", "CRoaring.Props.C48_set_to_value", "CRoaring.Props.C48_grow", "CRoaring.Props.C48_resize", "CRoaring.Props.C48_copy_clear_fill"], "note": "BSOK holds of every bitset built by the operations (C48_reachable)."},
 {"property": "C49", "status": "proved", "theorems": ["CRoaring.Props.C49_inplace", "CRoaring.Props.C49_counts", "CRoaring.Props.C49_predicates"], "note": ""},
 {"property": "C50", "status": "partial", "theorems": ["CRoaring.Props.C50_shift_left_partial", "CRoaring.Props.C50_shift_right_partial", "CRoaring.Props.C50_false_left", "CRoaring.Props.C50_false_right"], "note": "False for left shifts of a bitset without words (C50_false_left) and right shifts beyond the words in use (C50_false_right)."},
 {"property": "C51", "status": "proved", "theorems": ["CRoaring.Props.C51_next_set_bit", "CRoaring.Props.C51_next_set_bits", "CRoaring.Props.C51_for_each", "CRoaring.Props.C51_extrema"], "note": ""},
 {"property": "C52", "status": "partial", "theorems": ["CRoaring.Props.C52_trim_partial", "CRoaring.Props.C52_false"], "note": "False for bitsets with memory but without set bits (C52_false)."},
 {"property": "C53", "status": "proved", "theorems": ["CRoaring.Props.C53_create", "CRoaring.Props.C53_add", "CRoaring.Props.C53_remove", "CRoaring.Props.C53_add_checked", "CRoaring.Props.C53_remove_checked", "CRoaring.Props.C53_copy_clear"], "note": ""},
 {"property": "C54", "status": "proved", "theorems": ["CRoaring.Props.C54_history"], "note": ""},
 {"property": "C55", "status": "proved", "theorems": ["CRoaring.Props.C55_or", "CRoaring.Props.C55_and", "CRoaring.Props.C55_andnot", "CRoaring.Props.C55_xor"], "note": ""},
 {"property": "C56", "status": "proved", "theorems": ["CRoaring.Props.C56_or_inplace", "CRoaring.Props.C56_and_inplace", "CRoaring.Props.C56_andnot_inplace", "CRoaring.Props.C56_xor_inplace"], "note": ""},
 {"property": "C57", "status": "proved", "theorems": ["CRoaring.Props.C57_cardinality", "CRoaring.Props.C57_op_cardinality", "CRoaring.Props.C57_intersect"], "note": "Counts are exact except for the full set, whose count 2^64 wraps to 0; the statements say so."},
 {"property": "C58", "status": "proved", "theorems": ["CRoaring.Props.C58_equals", "CRoaring.Props.C58_is_subset"], "note": ""},
 {"property": "C59", "status": "partial", "theorems": ["CRoaring.Props.C59_is_strict_subset_partial", "CRoaring.Props.C59_is_strict_subset_false"], "note": "False when the larger set holds all 2^64 values, because its cardinality wraps to 0 (C59_is_strict_subset_false)."},
 {"property": "C60", "status": "proved", "theorems": ["CRoaring.Props.C60_add_range", "CRoaring.Props.C60_remove_range"], "note": ""},
 {"property": "C61", "status": "partial", "theorems": ["CRoaring.Props.C61_contains_range_partial", "CRoaring.Props.C61_contains_range_false"], "note": "The code answers true when the container of the last value is missing but a later one exists (C61_contains_range_false); proved in all other cases."},
 {"property": "C62", "status": "proved", "theorems": ["CRoaring.Props.C62_range_cardinality", "CRoaring.Props.C62_intersect_with_range"], "note": ""},
 {"property": "C63", "status": "proved", "theorems": ["CRoaring.Props.C63_flip", "CRoaring.Props.C63_flip_twice"], "note": ""},
 {"property": "C64", "status": "proved", "theorems": ["CRoaring.Props.C64_rank_get_index"], "note": ""},
 {"property": "C65", "status": "partial", "theorems": ["CRoaring.Props.C65_select_partial", "CRoaring.Props.C65_select_false"], "note": "False for the last 65536 ranks of the full set, where the running count wraps (C65_select_false)."},
 {"property": "C66", "status": "proved", "theorems": ["CRoaring.Props.C66_extrema"], "note": ""},
 {"property": "C67", "status": "proved", "theorems": ["CRoaring.Props.C67_iterate", "CRoaring.Props.C67_to_uint64_array"], "note": "to_uint64_array: a bitmap that lacks at least one value (the count is 64-bit)."},
 {"property": "C68", "status": "proved", "theorems": ["CRoaring.Props.C68_iterator"], "note": ""},
 {"property": "C69", "status": "partial", "theorems": ["CRoaring.Props.C69_read_partial", "CRoaring.Props.C69_read_false"], "note": "The values read and the position are right unless the read exhausts the bitmap: then a following advance restarts at the first value (C69_read_false)."},
 {"property": "C70", "status": "proved", "theorems": ["CRoaring.Props.C70_add_many", "CRoaring.Props.C70_of_ptr", "CRoaring.Props.C70_bulk_context"], "note": ""},
 {"property": "C71", "status": "partial", "theorems": ["CRoaring.Props.C71_remove_many_partial", "CRoaring.Props.C71_remove_many_false"], "note": "False when a container becomes empty and the next value has the same high 48 bits: null pointer (C71_remove_many_false); the theorem characterises exactly these inputs."},
 {"property": "C72", "status": "proved", "theorems": ["CRoaring.Props.C72_from_range"], "note": ""},
 {"property": "C73", "status": "proved", "theorems": ["CRoaring.Props.C73_move_from_roaring32"], "note": "The 32-bit bitmap has no shared (copy-on-write) containers."},
 {"property": "C74", "status": "proved", "theorems": ["CRoaring.Props.C74_run_optimize", "CRoaring.Props.C74_statistics"], "note": ""},
 {"property": "C75", "status": "partial", "theorems": ["CRoaring.Props.C75_portable_round_trip_partial", "CRoaring.Props.C75_truncated_partial", "CRoaring.Props.C75_portable_round_trip_false"], "note": "Proved for bitmaps in which at least one of the 2^32 high halves does not occur; false otherwise (C75_portable_round_trip_false)."},
 {"property": "C76", "status": "proved", "theorems": ["CRoaring.Props.C76_portable_in_bounds", "CRoaring.Props.C76_validated_input"], "note": ""},
 {"property": "C77", "status": "proved", "theorems": ["CRoaring.Props.C77_portable_layout", "CRoaring.Props.C77_portable_read"], "note": ""},
 {"property": "C78", "status": "proved", "theorems": ["CRoaring.Props.C78_ordered_map"], "note": ""},
 {"property": "C79", "status": "partial", "theorems": ["CRoaring.Props.C79_validate_partial", "CRoaring.Props.C79_validate_false"], "note": "The count of a node48 is not compared with its children (C79_validate_false); exact otherwise."},
 {"property": "C80", "status": "proved", "theorems": ["CRoaring.Props.C80_iterate64"], "note": ""},
 {"property": "C81", "status": "proved", "theorems": ["CRoaring.Props.C81_create", "CRoaring.Props.C81_add", "CRoaring.Props.C81_add_checked", "CRoaring.Props.C81_remove", "CRoaring.Props.C81_remove_checked", "CRoaring.Props.C81_contains32", "CRoaring.Props.C81_of_roaring", "CRoaring.Props.C81_bitmap_of"], "note": ""},
 {"property": "C82", "status": "proved", "theorems": ["CRoaring.Props.C82_add_range_closed", "CRoaring.Props.C82_add_range", "CRoaring.Props.C82_remove_range_closed", "CRoaring.Props.C82_remove_range", "CRoaring.Props.C82_flip_closed", "CRoaring.Props.C82_flip"], "note": ""},
 {"property": "C83", "status": "proved", "theorems": ["CRoaring.Props.C83_add_many"], "note": ""},
 {"property": "C84", "status": "proved", "theorems": ["CRoaring.Props.C84_and", "CRoaring.Props.C84_or", "CRoaring.Props.C84_andnot", "CRoaring.Props.C84_xor", "CRoaring.Props.C84_fastunion"], "note": ""},
 {"property": "C85", "status": "partial", "theorems": ["CRoaring.Props.C85_is_empty_is_full", "CRoaring.Props.C85_cardinality", "CRoaring.Props.C85_minimum", "CRoaring.Props.C85_maximum", "CRoaring.Props.C85_is_subset", "CRoaring.Props.C85_equals", "CRoaring.Props.C85_is_strict_subset_partial", "CRoaring.Props.C85_is_strict_subset_throws", "CRoaring.Props.C85_full_exists"], "note": "isStrictSubset throws when the second map is full (C85_is_strict_subset_throws); everything else is proved in full"},
 {"property": "C86", "status": "partial", "theorems": ["CRoaring.Props.C86_rank", "CRoaring.Props.C86_rank_exact", "CRoaring.Props.C86_get_index", "CRoaring.Props.C86_select_partial", "CRoaring.Props.C86_select_false"], "note": "select terminates on a full inner bitmap (C86_select_false); getIndex is proved for ranks below 2^63"},
 {"property": "C87", "status": "proved", "theorems": ["CRoaring.Props.C87_to_uint64_array", "CRoaring.Props.C87_iterate", "CRoaring.Props.C87_range_for", "CRoaring.Props.C87_to_string"], "note": ""},
 {"property": "C88", "status": "partial", "theorems": ["CRoaring.Props.C88_position_partial", "CRoaring.Props.C88_move_partial", "CRoaring.Props.C88_move_false", "CRoaring.Props.C88_post_decrement_false", "CRoaring.Props.C88_compare_partial", "CRoaring.Props.C88_equality_false", "CRoaring.Props.C88_built"], "note": "Proved for every map the class builds (C88_built, C91_no_empty_parts) and for all maps without empty inner bitmaps above key 0. False otherwise: C88_move_false, C88_post_decrement_false; == and != with the left side at the end: C88_equality_false."},
 {"property": "C89", "status": "partial", "theorems": ["CRoaring.Props.C89_portable", "CRoaring.Props.C89_truncated", "CRoaring.Props.C89_read_by_c", "CRoaring.Props.C89_read_of_c", "CRoaring.Props.C89_read_safe_partial", "CRoaring.Props.C89_read_safe_false", "CRoaring.Props.C89_native_partial", "CRoaring.Props.C89_native_write", "CRoaring.Props.C89_native_uncompressed", "CRoaring.Props.C89_native_false"], "note": "Portable form complete: layout, sizes, round trip, truncation, exchange with the C API. False as stated for readSafe on hostile data (C89_read_safe_false) and for the native form of some maps (C89_native_false); _partial theorems say where they hold."},
 {"property": "C90", "status": "partial", "theorems": ["CRoaring.Props.C90_compression_partial", "CRoaring.Props.C90_run_optimize_false", "CRoaring.Props.C90_remove_run_compression_false"], "note": "the sets are unchanged; the answers of runOptimize and removeRunCompression are not what is documented (C90_*_false)"},
 {"property": "C91", "status": "proved", "theorems": ["CRoaring.Props.C91_history", "CRoaring.Props.C91_no_empty_parts"], "note": ""},
 {"property": "C92", "status": "partial", "theorems": ["CRoaring.Props.C92_frozen_partial", "CRoaring.Props.C92_size_false", "CRoaring.Props.C92_portable_frozen"], "note": "Round trip at any address; the announced size is exact at multiples of 32 and too small elsewhere (C92_size_false). portableDeserializeFrozen for parts below 4 GiB."},
 {"property": "C93", "status": "partial", "theorems": ["CRoaring.Props.C93_iterator_partial", "CRoaring.Props.C93_end_false", "CRoaring.Props.C93_range_for", "CRoaring.Props.C93_to_string"], "note": "Positions, order, loops and text proved. False for end() after end() was called on another bitmap: C93_end_false."},
 {"property": "C94", "status": "proved", "theorems": ["CRoaring.Props.C94_intersection", "CRoaring.Props.C94_cardinality", "CRoaring.Props.C94_same_as_portable", "CRoaring.Props.C94_room_needed"], "note": "both hardware settings; the vector code is modelled on lists of lanes and byte shuffles with the code's own tables. With an output whose capacity lies between the number of values and eight more the vector code writes behind the end (C94_room_needed); no caller passes one"},
 {"property": "C95", "status": "proved", "theorems": ["CRoaring.Props.C95_difference", "CRoaring.Props.C95_same_as_portable"], "note": "both hardware settings"},
 {"property": "C96", "status": "proved", "theorems": ["CRoaring.Props.C96_union", "CRoaring.Props.C96_same_as_portable"], "note": "both hardware settings; qsort is modelled as a sorting function"},
 {"property": "C97", "status": "proved", "theorems": ["CRoaring.Props.C97_symmetric_difference", "CRoaring.Props.C97_same_as_portable"], "note": "both hardware settings; xor_uint16 writes its result in one step in the model"},
 {"property": "C98", "status": "proved", "theorems": ["CRoaring.Props.C98_intersection", "CRoaring.Props.C98_difference", "CRoaring.Props.C98_union"], "note": "scalar and AVX2 routines with the output on top of an input"},
 {"property": "C99", "status": "proved", "theorems": ["CRoaring.Props.C99_to_uint32_array", "CRoaring.Props.C99_range_uint32_array", "CRoaring.Props.C99_array_from_bitset", "CRoaring.Props.C99_sse_uint16_out_of_bounds"], "note": "AVX-512, AVX2 and portable code; the unused SSE function overruns (D33), proved"},
 {"property": "C100", "status": "partial", "theorems": ["CRoaring.Props.C100_memory_hooks_partial"], "note": "false: the last buffer of range_uint32_array goes to the C library's free (D32); the exact condition is proved"},
 {"property": "C101", "status": "proved", "theorems": ["CRoaring.Props.C101_bitset_operation", "CRoaring.Props.C101_bitset_operation_nocard", "CRoaring.Props.C101_bitset_operation_justcard", "CRoaring.Props.C101_compute_cardinality", "CRoaring.Props.C101_popcount_any_size"], "note": "with AVX-512, AVX2, NEON and portable code"},
 {"property": "C102", "status": "proved", "theorems": ["CRoaring.Props.C102_memequals", "CRoaring.Props.C102_array_equals", "CRoaring.Props.C102_run_equals", "CRoaring.Props.C102_bitset_equals", "CRoaring.Props.C102_run_cardinality", "CRoaring.Props.C102_set_list_withcard", "CRoaring.Props.C102_set_list", "CRoaring.Props.C102_clear_list"], "note": "with AVX-512, AVX2 and portable code"},
 {"property": "C103", "status": "partial", "theorems": ["CRoaring.Props.C103_detection_partial", "CRoaring.Props.C103_bmi2_not_tested"], "note": "AVX2 and AVX-512 detection is right; false for BMI2, which the AVX2 assembly needs (D34, negation proved)"},
 {"property": "C104", "status": "partial", "theorems": ["CRoaring.Props.C104_same_answer_partial", "CRoaring.Props.C104_answer_comes", "CRoaring.Props.C104_plain_int_race"], "note": "right and wait-free for builds with C atomics; in C++ and without atomics the plain int is a data race (D35, reachable race proved)"},
 {"property": "C105", "status": "partial", "theorems": ["CRoaring.Props.C105_modify_race", "CRoaring.Props.C105_free_race", "CRoaring.Props.C105_keeper_partial", "CRoaring.Props.C105_unsplit_partial", "CRoaring.Props.C105_no_atomics_leak"], "note": "False of the code (D36): two-thread schedules that read released memory are exhibited (C105_modify_race, C105_free_race). Proved for every schedule in which some copy is kept untouched, and for every schedule in which modifications are not interrupted (then also: given up exactly once). Without atomics the container is never released (D37)."},
 {"property": "C106", "status": "proved", "theorems": ["CRoaring.Props.C106_history", "CRoaring.Props.C106_step", "CRoaring.Props.C106_empty"], "note": "The arrays of nodes, references and lists of unused places are modelled (Model/ArtHeap.lean) and proved to refine the tree model of C53-C60. Indices are natural numbers (no wrap at 2^48), allocation never fails."},
 {"property": "C107", "status": "partial", "theorems": ["CRoaring.Props.C107_history", "CRoaring.Props.C107_fit_partial", "CRoaring.Props.C107_again", "CRoaring.Props.C107_lost"], "note": "False for empty trees (C107_lost, defect D38); proved for histories in which the tree has a key whenever it is shrunk. Answers, memory safety and idempotence hold for all histories."},
 {"property": "C108", "status": "proved", "theorems": ["CRoaring.Props.C108_history", "CRoaring.Props.C108_free", "CRoaring.Props.C108_copy", "CRoaring.Props.C108_shrink"], "note": "All sequences of calls on a new bitmap (and on a copy), in a model with container objects, places and node arrays; shrinking inside containers is not counted in bytes."},
 {"property": "C109", "status": "proved", "theorems": ["CRoaring.Props.C109_shrunken", "CRoaring.Props.C109_frozen", "CRoaring.Props.C109_not_shrunken"], "note": "Frozen format in memory, round trip for every history; the arrays of the bitmap below 2^48 bytes; little-endian 64-bit layout."},
 {"property": "C110", "status": "partial", "theorems": ["CRoaring.Props.C110_truncated_partial", "CRoaring.Props.C110_truncated_false", "CRoaring.Props.C110_again_false", "CRoaring.Props.C110_other_bytes_false"], "note": "The claim is false (D39, D40), shown for every bitmap; proved: prefixes that end before the root of the tree are refused, and those that only lack padding are viewed correctly."},
 {"property": "C111", "status": "proved", "theorems": ["CRoaring.Props.C111_add", "CRoaring.Props.C111_remove", "CRoaring.Props.C111_add_range", "CRoaring.Props.C111_remove_range", "CRoaring.Props.C111_copy", "CRoaring.Props.C111_shrink", "CRoaring.Props.C111_union", "CRoaring.Props.C111_array_union", "CRoaring.Props.C111_xor", "CRoaring.Props.C111_array_xor", "CRoaring.Props.C111_intersection", "CRoaring.Props.C111_andnot", "CRoaring.Props.C111_array_andnot", "CRoaring.Props.C111_flip", "CRoaring.Props.C111_from_array", "CRoaring.Props.C111_from_bitset", "CRoaring.Props.C111_history", "CRoaring.Props.C111_sample"], "note": "Every operation of Model/RunMem on memory: in bounds, and exactly the right set; in-place union and in-place flip included; any sequence of calls (C111_history). Operands of union, intersection and difference must not be empty, as containers in bitmaps never are (run_container_is_full reads runs[0])."},
 {"property": "C112", "status": "partial", "theorems": ["CRoaring.Props.C112_create", "CRoaring.Props.C112_copy_partial", "CRoaring.Props.C112_copy_cow_false", "CRoaring.Props.C112_overwrite_partial", "CRoaring.Props.C112_overwrite_false", "CRoaring.Props.C112_read_partial", "CRoaring.Props.C112_read_false", "CRoaring.Props.C112_insert", "CRoaring.Props.C112_append", "CRoaring.Props.C112_shrink_array", "CRoaring.Props.C112_shrink_container_false"], "note": "Proved for creating, copying without copy-on-write, overwriting, reading bytes without run containers, new keys and the arrays of the bitmap under every schedule of refusals; false with copy-on-write, for an overwritten bitmap whose arrays must grow, for run containers, for a full bitmap that gets a new key and for shrinking a container (counterexamples proved). Not covered: the other functions, which do not check for refused requests."},
 {"property": "C113", "status": "proved", "theorems": ["CRoaring.Props.C113_history", "CRoaring.Props.C113_refused", "CRoaring.Props.C113_read", "CRoaring.Props.C113_shared"], "note": "Bitmaps without copy-on-write; bytes with run containers only if memory is granted."},
 {"property": "C114", "status": "partial", "theorems": ["CRoaring.Props.C114_or_many", "CRoaring.Props.C114_xor_many", "CRoaring.Props.C114_add_offset", "CRoaring.Props.C114_or_many_heap_partial", "CRoaring.Props.C114_false", "CRoaring.Props.C114_flag_lost"], "note": "or_many, xor_many and add_offset: proved for every history. or_many_heap: proved for every history as far as the result, the other bitmaps and memory are concerned; that the result can be used like any other bitmap is false with copy-on-write (C114_false)."},
 {"property": "C115", "status": "proved", "theorems": ["CRoaring.Props.C115_history", "CRoaring.Props.C115_create", "CRoaring.Props.C115_copy", "CRoaring.Props.C115_overwrite", "CRoaring.Props.C115_clear", "CRoaring.Props.C115_contains", "CRoaring.Props.C115_add", "CRoaring.Props.C115_add_checked", "CRoaring.Props.C115_remove", "CRoaring.Props.C115_remove_checked", "CRoaring.Props.C115_and", "CRoaring.Props.C115_and_inplace", "CRoaring.Props.C115_or", "CRoaring.Props.C115_or_inplace", "CRoaring.Props.C115_xor", "CRoaring.Props.C115_xor_inplace", "CRoaring.Props.C115_andnot", "CRoaring.Props.C115_andnot_inplace", "CRoaring.Props.C115_add_many", "CRoaring.Props.C115_remove_many", "CRoaring.Props.C115_add_range_closed", "CRoaring.Props.C115_remove_range_closed", "CRoaring.Props.C115_flip_closed", "CRoaring.Props.C115_flip_inplace_closed", "CRoaring.Props.C115_run_optimize", "CRoaring.Props.C115_remove_run_compression", "CRoaring.Props.C115_shrink_to_fit", "CRoaring.Props.C115_add_offset", "CRoaring.Props.C115_range_array", "CRoaring.Props.C115_range_array_inside", "CRoaring.Props.C115_from_range", "CRoaring.Props.C115_or_many", "CRoaring.Props.C115_or_many_heap", "CRoaring.Props.C115_xor_many"], "note": "histories of all calls of the copy-on-write model, without copy-on-write; every call also one by one from any well-formed memory; from_range under the condition of C36_from_range_partial"},
 {"property": "C116", "status": "proved", "theorems": ["CRoaring.Props.C116_is_empty", "CRoaring.Props.C116_cardinality", "CRoaring.Props.C116_rank", "CRoaring.Props.C116_get_index", "CRoaring.Props.C116_select", "CRoaring.Props.C116_minimum", "CRoaring.Props.C116_maximum", "CRoaring.Props.C116_to_uint32_array", "CRoaring.Props.C116_contains_range_closed", "CRoaring.Props.C116_range_cardinality_closed", "CRoaring.Props.C116_equals", "CRoaring.Props.C116_is_subset", "CRoaring.Props.C116_is_strict_subset", "CRoaring.Props.C116_intersect", "CRoaring.Props.C116_and_cardinality", "CRoaring.Props.C116_or_cardinality", "CRoaring.Props.C116_andnot_cardinality", "CRoaring.Props.C116_xor_cardinality", "CRoaring.Props.C116_after_history"], "note": "19 theorems for the calls one by one and one for bitmaps left by any history; containers are read as a whole"},
 {"property": "C117", "status": "proved", "theorems": ["CRoaring.Props.C117_portable_round_trip", "CRoaring.Props.C117_native_round_trip", "CRoaring.Props.C117_validate_accepts", "CRoaring.Props.C117_truncated", "CRoaring.Props.C117_any_bytes", "CRoaring.Props.C117_any_bytes_native", "CRoaring.Props.C117_any_memory"], "note": "on the memory model"},
 {"property": "C118", "status": "proved", "theorems": ["CRoaring.Props.C118_iterator", "CRoaring.Props.C118_iterator_last", "CRoaring.Props.C118_read_all", "CRoaring.Props.C118_intersect_with_range"], "note": "Any sequence of calls on an iterator over a bitmap in memory, from both ends, with reads into one array of the caller; intersect_with_range with the condition of C40."},
 {"property": "C119", "status": "proved", "theorems": ["CRoaring.Props.C119_cursor", "CRoaring.Props.C119_determined"], "note": "all sequences of calls on the arrays of a radix tree and an iterator over it; C119_determined shows that the specification leaves no choice"},
 {"property": "C120", "status": "partial", "theorems": ["CRoaring.Props.C120_missed", "CRoaring.Props.C120_freed", "CRoaring.Props.C120_false", "CRoaring.Props.C120_partial"], "note": "the full statement is false of the code (C120_false, C120_missed, C120_freed; D47); proved for iterators on a key and those that ran out by moving"},
 {"property": "C121", "status": "proved", "theorems": ["CRoaring.Props.C121_history"], "note": "Histories over any number of bitmaps; whether container functions in place reuse objects is universally quantified. Objects of different bitmaps are in separate lists."},
 {"property": "C122", "status": "proved", "theorems": ["CRoaring.Props.C122_questions", "CRoaring.Props.C122_iterate"], "note": "Every reading function of a 64-bit bitmap in memory is total on every reachable bitmap and answers as Verif/Store64AskSpec.lean says; the cases excepted there are the defects of C61 and C65."},
 {"property": "C123", "status": "proved", "theorems": ["CRoaring.Props.C123_iterators"], "note": "Any sequence of calls on an iterator over any reachable 64-bit bitmap; what is excepted is the defect of C69."},
 {"property": "C124", "status": "proved", "theorems": ["CRoaring.Props.C124_bulk", "CRoaring.Props.C124_no_remove", "CRoaring.Props.C124_unsafe"], "note": "C124_bulk: for every bitmap after any allowed history, every sequence of bulk calls with one context and every remove_many; safe sequences give the set's answers, the others read memory that is not there (defect D16). C124_no_remove, C124_unsafe: which sequences these are. Calls on a context after other calls on the same bitmap are outside (the header forbids them)."},
 {"property": "C125", "status": "proved", "theorems": ["CRoaring.Props.C125_write", "CRoaring.Props.C125_round_trip", "CRoaring.Props.C125_read", "CRoaring.Props.C125_any_bytes"], "note": "serialization, deserialization, from_range and move_from_roaring32 of 64-bit bitmaps on memory; sets with members in all 2^32 blocks are excluded from the round trip by the claim (C75_portable_round_trip_false)"},
 {"property": "C126", "status": "proved", "theorems": ["CRoaring.Props.C126_printf", "CRoaring.Props.C126_read", "CRoaring.Props.C126_same_text", "CRoaring.Props.C126_describe", "CRoaring.Props.C126_bitset_print"], "note": "texts printed by roaring_bitmap_printf, roaring_bitmap_printf_describe (containers not shared) and bitset_print; stdio's formatting of a number is Text.number"},
 {"property": "C127", "status": "proved", "theorems": ["CRoaring.Props.C127_history", "CRoaring.Props.C127_any_bytes", "CRoaring.Props.C127_accepts", "CRoaring.Props.C127_owned", "CRoaring.Props.C127_free_lists"], "note": "All parts are proved. The case of a shared container, which is not noticed, is shown by an example."},
 {"property": "C128", "status": "partial", "theorems": ["CRoaring.Props.C128_history_partial", "CRoaring.Props.C128_move", "CRoaring.Props.C128_copy", "CRoaring.Props.C128_assign", "CRoaring.Props.C128_false", "CRoaring.Props.C128_view_assign_false"], "note": "C128_history_partial: any program over Roaring objects, with and without copy-on-write; C128_move, C128_copy, C128_assign spell the special members out. False for x = x (C128_false) and for assigning to a frozen view (C128_view_assign_false). Not covered: calls of the library with views as arguments (C32, C47), objects with different copy-on-write flags, refusals of memory."},
 {"property": "C129", "status": "partial", "theorems": ["CRoaring.Props.C129_history", "CRoaring.Props.C129_shift_left_partial", "CRoaring.Props.C129_shift_left_false", "CRoaring.Props.C129_union_not_atomic"], "note": "C129_history covers all calls but the left shift; the left shift is right when its memory is granted and false when it is refused (C129_shift_left_false)"},
 {"property": "C130", "status": "proved", "theorems": ["CRoaring.Props.C130_questions"], "note": "All questions of bitset.c and bitset.h after any history, on memory."},
 {"property": "C131", "status": "proved", "theorems": ["CRoaring.Props.C131_to_bitset", "CRoaring.Props.C131_needs_no_bits", "CRoaring.Props.C131_to_bitset_from_memory"], "note": "that the bitset has no set bits before is an assumption stated in the header; C131_needs_no_bits shows that it is needed. C131_to_bitset_from_memory is the same for a bitmap in memory, whose cells are loaded one by one."},
 {"property": "C132", "status": "proved", "theorems": ["CRoaring.Props.C132_rank_many", "CRoaring.Props.C132_rank_many_all", "CRoaring.Props.C132_iterate", "CRoaring.Props.C132_iterate64", "CRoaring.Props.C132_jaccard_index"], "note": "Also says for which queries rank_many writes nothing (the defect of C20)."},
 {"property": "C133", "status": "proved", "theorems": ["CRoaring.Props.C133_bulk_context", "CRoaring.Props.C133_statistics"], "note": "The bitmap is changed only through the context, as its documentation asks."},
 {"property": "C134", "status": "partial", "theorems": ["CRoaring.Props.C134_add_range_partial", "CRoaring.Props.C134_remove_range_partial", "CRoaring.Props.C134_flip_partial", "CRoaring.Props.C134_flip_inplace_partial", "CRoaring.Props.C134_contains_range_partial", "CRoaring.Props.C134_range_cardinality_partial", "CRoaring.Props.C134_of", "CRoaring.Props.C134_false"], "note": "Memory safety for all ends; the effect for ranges that end at 2^32 at most, are empty or begin beyond 2^32. The rest is false of the code (C134_false)."},
 {"property": "C135", "status": "proved", "theorems": ["CRoaring.Props.C135_frozen", "CRoaring.Props.C135_needs_room"], "note": ""}
]}
