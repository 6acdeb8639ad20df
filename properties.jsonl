{"id": "C01", "title": "Point updates behave like a set", "statement": "After roaring_bitmap_add(r,x), roaring_bitmap_contains(r,y) is true exactly when y==x or it was true before; after roaring_bitmap_remove(r,x), it is true exactly when y!=x and it was true before. A new bitmap contains nothing.", "quantifier": "every valid bitmap (any mix of the three container kinds), every 32-bit x and y, every history of operations leading to the bitmap", "why_tests_cant": "the answer depends on the container kind, on where x falls relative to runs/array cells and on the 4096 threshold; 2^32 values times unboundedly many bitmaps", "anchors": ["src/roaring.c: roaring_bitmap_add, roaring_bitmap_remove, roaring_bitmap_contains", "include/roaring/containers/containers.h: container_add, container_remove, container_contains", "src/containers/run.c: run_container_add", "include/roaring/containers/array.h: array_container_try_add"]}
{"id": "C02", "title": "Checked updates report exactly whether the set changed", "statement": "roaring_bitmap_add_checked(r,x) returns true exactly when x was absent, roaring_bitmap_remove_checked(r,x) returns true exactly when x was present, and both leave the same set as the unchecked variants.", "quantifier": "every valid bitmap and every 32-bit x", "why_tests_cant": "the return value is computed from a cardinality difference that must agree with membership in every container state", "anchors": ["src/roaring.c: roaring_bitmap_add_checked, roaring_bitmap_remove_checked"]}
{"id": "C03", "title": "Public operations keep the structure valid", "statement": "Every bitmap produced from valid bitmaps by a finite sequence of public operations passes roaring_bitmap_internal_validate: keys strictly increasing, no empty container, arrays sorted with 1..4096 values, runs sorted, disjoint and not mergeable, bitset cardinality exact and above 4096.", "quantifier": "every finite sequence of public mutating and constructing operations with arbitrary arguments", "why_tests_cant": "an invariant over unbounded histories; a test sees finitely many histories", "anchors": ["src/roaring.c: roaring_bitmap_internal_validate and all mutating functions", "src/containers/containers.c: container_internal_validate"]}
{"id": "C04", "title": "Union is set union", "statement": "roaring_bitmap_or(a,b) contains v exactly when a contains v or b contains v, and a and b are unchanged.", "quantifier": "every pair of valid bitmaps and every 32-bit v", "why_tests_cant": "nine container pairings, several early-exit and conversion branches, unbounded inputs", "anchors": ["src/roaring.c: roaring_bitmap_or", "include/roaring/containers/containers.h: container_or", "src/containers/mixed_union.c"]}
{"id": "C05", "title": "Intersection is set intersection", "statement": "roaring_bitmap_and(a,b) contains v exactly when both contain v.", "quantifier": "every pair of valid bitmaps and every 32-bit v", "why_tests_cant": "galloping and skewed searches choose between algorithms by size ratio; nine container pairings", "anchors": ["src/roaring.c: roaring_bitmap_and", "include/roaring/containers/containers.h: container_and", "src/containers/mixed_intersection.c", "src/array_util.c: intersect_skewed_uint16"]}
{"id": "C06", "title": "Difference is set difference", "statement": "roaring_bitmap_andnot(a,b) contains v exactly when a contains v and b does not.", "quantifier": "every pair of valid bitmaps and every 32-bit v", "why_tests_cant": "the asymmetric pairings have separate algorithms, each with boundary cases at runs' ends and at 0/65535", "anchors": ["src/roaring.c: roaring_bitmap_andnot", "include/roaring/containers/containers.h: container_andnot", "src/containers/mixed_andnot.c"]}
{"id": "C07", "title": "Symmetric difference is set symmetric difference", "statement": "roaring_bitmap_xor(a,b) contains v exactly when exactly one of a and b contains v.", "quantifier": "every pair of valid bitmaps and every 32-bit v", "why_tests_cant": "run xor works by appending half-open pieces that may cancel previous ones; correctness depends on all preceding appends", "anchors": ["src/roaring.c: roaring_bitmap_xor", "include/roaring/containers/containers.h: container_xor", "src/containers/mixed_xor.c", "src/containers/run.c: run_container_smart_append_exclusive"]}
{"id": "C08", "title": "In-place set operations agree with the allocating ones", "statement": "roaring_bitmap_{or,and,xor,andnot}_inplace(a,b) leave in a exactly the set computed by the allocating function, and leave b unchanged.", "quantifier": "every pair of distinct valid bitmaps", "why_tests_cant": "in-place algorithms overwrite their own input; whether a value is read before being overwritten depends on the whole input", "anchors": ["src/roaring.c: roaring_bitmap_or_inplace, roaring_bitmap_and_inplace, roaring_bitmap_xor_inplace, roaring_bitmap_andnot_inplace", "include/roaring/containers/containers.h: container_ior, container_iand, container_ixor, container_iandnot"]}
{"id": "C09", "title": "Cardinality counts the elements", "statement": "roaring_bitmap_get_cardinality(r) is the number of 32-bit values v with roaring_bitmap_contains(r,v); roaring_bitmap_is_empty(r) holds exactly when that number is 0.", "quantifier": "every valid bitmap", "why_tests_cant": "cached bitset cardinalities must be exact after every possible history", "anchors": ["src/roaring.c: roaring_bitmap_get_cardinality, roaring_bitmap_is_empty"]}
{"id": "C10", "title": "Counting set operations without materialising them", "statement": "and/or/xor/andnot_cardinality return the cardinality of the corresponding set operation, and roaring_bitmap_intersect is true exactly when a common value exists.", "quantifier": "every pair of valid bitmaps", "why_tests_cant": "separate counting algorithms per container pairing, combined through subtraction of 64-bit counts", "anchors": ["src/roaring.c: roaring_bitmap_and_cardinality, roaring_bitmap_or_cardinality, roaring_bitmap_andnot_cardinality, roaring_bitmap_xor_cardinality, roaring_bitmap_intersect"]}
{"id": "C11", "title": "Equality is extensional", "statement": "roaring_bitmap_equals(a,b) is true exactly when a and b contain the same values, whatever container kinds they use.", "quantifier": "every pair of valid bitmaps", "why_tests_cant": "the same set has many representations; every pair of representations must compare equal", "anchors": ["src/roaring.c: roaring_bitmap_equals", "src/containers/mixed_equal.c", "include/roaring/containers/containers.h: container_equals"]}
{"id": "C12", "title": "Subset tests are exact", "statement": "roaring_bitmap_is_subset(a,b) is true exactly when every value of a is in b; roaring_bitmap_is_strict_subset additionally requires b to have a value that a lacks.", "quantifier": "every pair of valid bitmaps", "why_tests_cant": "the answer is short-circuited on container kinds and cardinalities that are only sound under the structural invariant", "anchors": ["src/roaring.c: roaring_bitmap_is_subset, roaring_bitmap_is_strict_subset", "src/containers/mixed_subset.c"]}
{"id": "C13", "title": "Closed-range insertion and removal", "statement": "roaring_bitmap_add_range_closed(r,lo,hi) adds exactly the values of [lo,hi] and removes none; roaring_bitmap_remove_range_closed(r,lo,hi) removes exactly those and adds none.", "quantifier": "every valid bitmap and all 32-bit lo, hi (including lo>hi)", "why_tests_cant": "per-container choice between array, run and bitset depends on computed sizes; ranges cross arbitrarily many containers", "anchors": ["src/roaring.c: roaring_bitmap_add_range_closed, roaring_bitmap_remove_range_closed", "include/roaring/containers/containers.h: container_add_range, container_remove_range"]}
{"id": "C14", "title": "Half-open 64-bit range arguments", "statement": "roaring_bitmap_{add_range,remove_range,contains_range,range_cardinality,flip,flip_inplace}(r,lo,hi) act on the values v with lo<=v<hi, for all 64-bit lo and hi.", "quantifier": "every valid bitmap and all 64-bit lo, hi", "why_tests_cant": "boundary arithmetic on 64-bit arguments truncated to 32 bits", "anchors": ["include/roaring/roaring.h: roaring_bitmap_add_range, roaring_bitmap_remove_range", "src/roaring.c: roaring_bitmap_range_cardinality, roaring_bitmap_flip, roaring_bitmap_flip_inplace, roaring_bitmap_contains_range"]}
{"id": "C15", "title": "Range containment", "statement": "roaring_bitmap_contains_range_closed(r,lo,hi) is true exactly when every v in [lo,hi] is contained.", "quantifier": "every valid bitmap and all 32-bit lo, hi", "why_tests_cant": "interior containers are checked only for being full; fullness must be detected for every representation", "anchors": ["src/roaring.c: roaring_bitmap_contains_range_closed", "include/roaring/containers/containers.h: container_contains_range"]}
{"id": "C16", "title": "Range cardinality", "statement": "roaring_bitmap_range_cardinality_closed(r,lo,hi) is the number of contained values in [lo,hi].", "quantifier": "every valid bitmap and all 32-bit lo, hi", "why_tests_cant": "differences of ranks with boundary corrections", "anchors": ["src/roaring.c: roaring_bitmap_range_cardinality_closed"]}
{"id": "C17", "title": "Flipping a range complements it", "statement": "roaring_bitmap_flip_closed / flip_inplace_closed(r,lo,hi) toggle membership of exactly the values of [lo,hi]; flipping twice restores the set.", "quantifier": "every valid bitmap and all 32-bit lo<=hi", "why_tests_cant": "missing containers must become full ones and full ones disappear, across arbitrarily many keys", "anchors": ["src/roaring.c: roaring_bitmap_flip_closed, roaring_bitmap_flip_inplace_closed", "src/containers/mixed_negation.c"]}
{"id": "C18", "title": "Rank and index", "statement": "roaring_bitmap_rank(r,x) is the number of contained values <= x; roaring_bitmap_get_index(r,x) is rank(r,x)-1 when x is contained and -1 otherwise.", "quantifier": "every valid bitmap and 32-bit x", "why_tests_cant": "prefix sums over containers plus in-container ranks in three encodings", "anchors": ["src/roaring.c: roaring_bitmap_rank, roaring_bitmap_get_index"]}
{"id": "C19", "title": "Select inverts rank", "statement": "roaring_bitmap_select(r,k) succeeds exactly when k < cardinality and then returns the value v in r with exactly k smaller contained values.", "quantifier": "every valid bitmap and every 32-bit k", "why_tests_cant": "32-bit start ranks may wrap when the bitmap is full", "anchors": ["src/roaring.c: roaring_bitmap_select", "include/roaring/containers/containers.h: container_select", "src/containers/bitset.c: bitset_container_select"]}
{"id": "C20", "title": "Batched rank", "statement": "roaring_bitmap_rank_many on a sorted query array writes, for each query, the value roaring_bitmap_rank would return.", "quantifier": "every valid bitmap and every sorted query array", "why_tests_cant": "the pointer walk interleaves queries and containers and can stop early", "anchors": ["src/roaring.c: roaring_bitmap_rank_many"]}
{"id": "C21", "title": "Minimum and maximum", "statement": "roaring_bitmap_minimum/maximum return the least/greatest contained value, or UINT32_MAX / 0 for the empty bitmap.", "quantifier": "every valid bitmap", "why_tests_cant": "the bitset maximum scan is only right under the cardinality invariant", "anchors": ["src/roaring.c: roaring_bitmap_minimum, roaring_bitmap_maximum"]}
{"id": "C22", "title": "Array export is the sorted enumeration", "statement": "roaring_bitmap_to_uint32_array writes the contained values in strictly increasing order, all of them, each once, and nothing else.", "quantifier": "every valid bitmap", "why_tests_cant": "order and completeness over all bitmaps; output position depends on all preceding containers", "anchors": ["src/roaring.c: roaring_bitmap_to_uint32_array", "src/roaring_array.c: ra_to_uint32_array"]}
{"id": "C23", "title": "Paged array export", "statement": "roaring_bitmap_range_uint32_array(r,off,lim,out) writes the values at positions off..off+lim-1 of the sorted enumeration.", "quantifier": "every valid bitmap, every offset and limit", "why_tests_cant": "page boundaries fall anywhere in any container kind", "anchors": ["src/roaring.c: roaring_bitmap_range_uint32_array", "src/roaring_array.c: ra_range_uint32_array"]}
{"id": "C24", "title": "Callback iteration", "statement": "roaring_iterate calls the callback on the contained values in increasing order until it returns false, returns whether it never did, and visits nothing after that.", "quantifier": "every valid bitmap and every (stateful) callback", "why_tests_cant": "callbacks are arbitrary programs", "anchors": ["src/roaring.c: roaring_iterate", "include/roaring/containers/containers.h: container_iterate"]}
{"id": "C25", "title": "Iterator is a cursor on the sorted enumeration", "statement": "Any interleaving of roaring_uint32_iterator_advance, _previous, _move_equalorlarger behaves like a cursor moving on the sorted list of values with one sentinel before the first and one after the last element; has_value and current_value report the cursor.", "quantifier": "every valid bitmap and every finite sequence of iterator calls", "why_tests_cant": "unbounded sequences of calls, with direction reversal at container boundaries and at both ends", "anchors": ["src/roaring.c: roaring_iterator_init, roaring_uint32_iterator_advance, roaring_uint32_iterator_previous, roaring_uint32_iterator_move_equalorlarger", "src/containers/containers.c: container_iterator_next, container_iterator_prev, container_iterator_lower_bound"]}
{"id": "C26", "title": "Bulk iterator read", "statement": "roaring_uint32_iterator_read(it,buf,n) delivers the next min(n,remaining) values in order and leaves the iterator on the first value not delivered; repeating it until it returns fewer than n enumerates the bitmap.", "quantifier": "every valid bitmap, every position and n", "why_tests_cant": "buffer boundaries fall anywhere inside a container, including at value 65535", "anchors": ["src/roaring.c: roaring_uint32_iterator_read", "src/containers/containers.c: container_iterator_read_into_uint32"]}
{"id": "C27", "title": "Representation changes preserve the set", "statement": "roaring_bitmap_run_optimize, remove_run_compression and shrink_to_fit never change the set; run_optimize returns true exactly when a run container is present afterwards; remove_run_compression returns true exactly when one was present before, and none is afterwards.", "quantifier": "every valid bitmap", "why_tests_cant": "conversion decisions depend on sizes; conversions must be lossless for all contents", "anchors": ["src/roaring.c: roaring_bitmap_run_optimize, roaring_bitmap_remove_run_compression", "src/containers/convert.c"]}
{"id": "C28", "title": "Portable serialization round-trips", "statement": "roaring_bitmap_portable_serialize writes exactly roaring_bitmap_portable_size_in_bytes bytes, and roaring_bitmap_portable_deserialize_safe on these bytes (followed by anything) yields an equal, valid bitmap.", "quantifier": "every valid bitmap and every trailing byte sequence", "why_tests_cant": "unbounded inputs; header layout changes with the number of containers and with the presence of runs", "anchors": ["src/roaring.c: roaring_bitmap_portable_serialize, roaring_bitmap_portable_deserialize_safe", "src/roaring_array.c: ra_portable_serialize, ra_portable_deserialize"]}
{"id": "C29", "title": "Deserialization never reads outside the buffer", "statement": "roaring_bitmap_portable_deserialize_safe(buf,n) and portable_deserialize_size(buf,n) read only bytes at positions below n, terminate, and when they succeed agree on the number of bytes consumed (<= n).", "quantifier": "every byte string and every n", "why_tests_cant": "adversarial inputs: all byte strings of all lengths", "anchors": ["src/roaring_array.c: ra_portable_deserialize, ra_portable_deserialize_size"]}
{"id": "C30", "title": "Validated untrusted input is safe to use", "statement": "If roaring_bitmap_internal_validate accepts a bitmap deserialized from arbitrary bytes then all guarantees stated for valid bitmaps hold of it: validation accepts exactly the valid structures.", "quantifier": "every byte string", "why_tests_cant": "all byte strings; soundness of a checker is not testable", "anchors": ["src/roaring.c: roaring_bitmap_internal_validate", "src/containers/array.c: array_container_validate", "src/containers/run.c: run_container_validate", "src/containers/bitset.c: bitset_container_validate"]}
{"id": "C31", "title": "Native serialization round-trips", "statement": "roaring_bitmap_deserialize and deserialize_safe invert roaring_bitmap_serialize, and the number of bytes written is roaring_bitmap_size_in_bytes.", "quantifier": "every valid bitmap", "why_tests_cant": "choice between array form and container form depends on size comparison", "anchors": ["src/roaring.c: roaring_bitmap_serialize, roaring_bitmap_deserialize, roaring_bitmap_deserialize_safe, roaring_bitmap_size_in_bytes"]}
{"id": "C32", "title": "Frozen serialization round-trips", "statement": "roaring_bitmap_frozen_view of the bytes produced by roaring_bitmap_frozen_serialize is an equal bitmap, and exactly roaring_bitmap_frozen_size_in_bytes bytes are written.", "quantifier": "every valid bitmap without shared containers", "why_tests_cant": "five zones whose offsets depend on all containers", "anchors": ["src/roaring.c: roaring_bitmap_frozen_serialize, roaring_bitmap_frozen_view, roaring_bitmap_frozen_size_in_bytes"]}
{"id": "C33", "title": "Lazy operations followed by repair", "statement": "Any sequence of lazy_or / lazy_or_inplace (resp. lazy_xor) followed by roaring_bitmap_repair_after_lazy gives a valid bitmap equal to the union (resp. symmetric difference).", "quantifier": "every sequence of valid bitmaps, every bitsetconversion flag", "why_tests_cant": "intermediate states carry unknown cardinalities and over-sized arrays", "anchors": ["src/roaring.c: roaring_bitmap_lazy_or, roaring_bitmap_lazy_or_inplace, roaring_bitmap_lazy_xor, roaring_bitmap_lazy_xor_inplace, roaring_bitmap_repair_after_lazy"]}
{"id": "C34", "title": "Many-way union and symmetric difference", "statement": "roaring_bitmap_or_many, or_many_heap and xor_many over any list of bitmaps equal the fold of the binary operation; for zero bitmaps the result is empty.", "quantifier": "every finite list of valid bitmaps", "why_tests_cant": "arbitrary list length; heap order depends on serialized sizes", "anchors": ["src/roaring.c: roaring_bitmap_or_many, roaring_bitmap_xor_many", "src/roaring_priority_queue.c: roaring_bitmap_or_many_heap"]}
{"id": "C35", "title": "Bulk insertion and removal, bulk contexts", "statement": "roaring_bitmap_add_many / of_ptr / remove_many have the effect of inserting/removing each value; roaring_bitmap_add_bulk and contains_bulk with a context give the same results as add and contains.", "quantifier": "every valid bitmap, every list of values in any order, every sequence of bulk calls sharing a context", "why_tests_cant": "cached container pointers must never be stale, for all orders of values", "anchors": ["src/roaring.c: roaring_bitmap_add_many, roaring_bitmap_of_ptr, roaring_bitmap_remove_many, roaring_bitmap_add_bulk, roaring_bitmap_contains_bulk"]}
{"id": "C36", "title": "Construction from an arithmetic progression", "statement": "roaring_bitmap_from_range(min,max,step) contains exactly the values min+k*step < min(max,2^32).", "quantifier": "all 64-bit min and max, all 32-bit step", "why_tests_cant": "progression crosses container boundaries at arbitrary phase; wrap-around near 2^32", "anchors": ["src/roaring.c: roaring_bitmap_from_range", "include/roaring/containers/containers.h: container_from_range"]}
{"id": "C37", "title": "Shifting by an offset", "statement": "roaring_bitmap_add_offset(r,d) contains v exactly when r contains v-d (values leaving [0,2^32) are dropped).", "quantifier": "every valid bitmap and every 64-bit signed d", "why_tests_cant": "each container is split across two target containers that must merge with neighbours", "anchors": ["src/roaring.c: roaring_bitmap_add_offset, offset_append_with_merge", "include/roaring/containers/containers.h: container_add_offset"]}
{"id": "C38", "title": "Copy-on-write isolation", "statement": "With copy-on-write enabled on all bitmaps, modifying one bitmap never changes the contents of any other bitmap, and every container is freed exactly once after all its owners are freed.", "quantifier": "every finite interleaving of copy, mutate and free operations over any number of bitmaps", "why_tests_cant": "all histories of sharing; reference counts are global state", "anchors": ["src/containers/containers.c: get_copy_of_container, shared_container_extract_copy, shared_container_free", "src/roaring_array.c: ra_append_copy"]}
{"id": "C39", "title": "Conversion to an uncompressed bitset", "statement": "roaring_bitmap_to_bitset(r,b) into a fresh bitset sets exactly the bits of the contained values.", "quantifier": "every valid bitmap", "why_tests_cant": "every container kind at every key", "anchors": ["src/roaring.c: roaring_bitmap_to_bitset"]}
{"id": "C40", "title": "Range intersection test", "statement": "roaring_bitmap_intersect_with_range(r,x,y) is true exactly when r contains some v with x<=v<y.", "quantifier": "every valid bitmap and all 64-bit x, y", "why_tests_cant": "64-bit bounds against 32-bit values", "anchors": ["src/roaring.c: roaring_bitmap_intersect_with_range"]}
{"id": "C41", "title": "Copy, overwrite and clear", "statement": "roaring_bitmap_copy and roaring_bitmap_overwrite produce an equal valid bitmap; roaring_bitmap_clear produces the empty one.", "quantifier": "every valid bitmap", "why_tests_cant": "must hold for every structure", "anchors": ["src/roaring.c: roaring_bitmap_copy, roaring_bitmap_overwrite, roaring_bitmap_clear"]}
{"id": "C42", "title": "Statistics are consistent", "statement": "roaring_bitmap_statistics reports a cardinality equal to get_cardinality, container counts summing to the number of containers, value counts per container kind summing to the cardinality, and min/max equal to roaring_bitmap_minimum/maximum.", "quantifier": "every valid bitmap", "why_tests_cant": "sums over arbitrarily many containers", "anchors": ["src/roaring.c: roaring_bitmap_statistics"]}
{"id": "C43", "title": "Algebraic laws hold observably", "statement": "Union and intersection are commutative, associative, idempotent and distributive, andnot(a,b)=and(a,flip(b)), xor = or minus and, all as judged by roaring_bitmap_equals.", "quantifier": "all valid bitmaps", "why_tests_cant": "laws quantify over all bitmaps; different evaluation orders give different container representations", "anchors": ["src/roaring.c: roaring_bitmap_or, roaring_bitmap_and, roaring_bitmap_xor, roaring_bitmap_andnot, roaring_bitmap_equals"]}
{"id": "C44", "title": "Searching sorted 16-bit arrays", "statement": "The binary, galloping, 2-way and 4-way searches return the least index at or after the start whose value is at least the target (or the exact position), and read only cells inside the array.", "quantifier": "every sorted array, start position and target", "why_tests_cant": "loop bounds and probe indices depend on the length; all lengths", "anchors": ["include/roaring/array_util.h: binarySearch, advanceUntil", "src/array_util.c: binarySearch2, binarySearch4"]}
{"id": "C45", "title": "Portable serialization follows the published layout", "statement": "The bytes written by roaring_bitmap_portable_serialize are exactly those of the Roaring format specification: cookie (with the bitset of run containers when there is one), key/cardinality header, offset header giving the start of every container, then the containers. In particular the offset of every container is right, although this library's own reader skips the offsets.", "quantifier": "every valid bitmap", "why_tests_cant": "The offset header is ignored by the reader, so round-trip tests cannot see errors in it; the layout depends on the number of containers and on which of them are run containers.", "anchors": ["src/roaring_array.c: ra_portable_serialize, ra_portable_header_size", "include/roaring/containers/containers.h: container_write"]}
{"id": "C46", "title": "Frozen views never look outside the given bytes", "statement": "roaring_bitmap_frozen_view, given any bytes, length and address, only reads inside the given length; it refuses buffers that are not 32-byte aligned; and every container of the bitmap it returns lies inside the given length.", "quantifier": "every byte string, of any length, and every buffer address", "why_tests_cant": "the reader meets untrusted bytes; all byte strings, all lengths", "anchors": ["src/roaring.c: roaring_bitmap_frozen_view"]}
{"id": "C47", "title": "Portable bytes can be viewed in place", "statement": "roaring_bitmap_portable_deserialize_frozen, given the bytes written by roaring_bitmap_portable_serialize for a bitmap, gives a bitmap equal to it, and reads only inside those bytes.", "quantifier": "every valid bitmap", "why_tests_cant": "the view follows the 32-bit offset header, which only fails for serialized sizes of 4 GiB and more", "anchors": ["src/roaring.c: roaring_bitmap_portable_deserialize_frozen", "src/roaring_array.c: ra_portable_serialize"]}
{"id": "C48", "title": "Standalone bitset: one bit at a time", "statement": "bitset_set and bitset_set_to_value change exactly the given bit, growing the bitset when needed; bitset_get reads it; creating, copying, clearing, filling, growing and resizing do to the bits what their names say; growing refuses shrinking and sizes above the limit.", "quantifier": "every bitset built by any history of bitset operations, every index below 64 * (SIZE_MAX / 64), any content of uninitialised memory", "why_tests_cant": "capacity, words in use and stale words above them interact over histories; the growth policy depends on every size", "anchors": ["include/roaring/bitset/bitset.h: bitset_set, bitset_set_to_value, bitset_get", "src/bitset.c: bitset_create, bitset_create_with_capacity, bitset_copy, bitset_clear, bitset_fill, bitset_resize, bitset_grow"]}
{"id": "C49", "title": "Standalone bitset: set algebra", "statement": "The in-place union, intersection, difference and symmetric difference compute the set operation; the counting functions give the cardinality of the result; bitset_contains_all, bitsets_disjoint, bitsets_intersect and bitset_empty decide the corresponding relation.", "quantifier": "every pair of bitsets, of any two sizes", "why_tests_cant": "operands of different sizes, and stale words above the words in use", "anchors": ["src/bitset.c: bitset_inplace_union, bitset_union_count, bitset_inplace_intersection, bitset_intersection_count, bitset_inplace_difference, bitset_difference_count, bitset_inplace_symmetric_difference, bitset_symmetric_difference_count, bitset_contains_all, bitsets_disjoint, bitsets_intersect, bitset_empty, bitset_count"]}
{"id": "C50", "title": "Standalone bitset: shifts", "statement": "bitset_shift_left moves every bit up by s and bitset_shift_right moves every bit down by s, dropping the lowest s bits, without accessing memory outside of the bitset.", "quantifier": "every bitset and every shift s", "why_tests_cant": "word and bit offsets combine; out-of-range accesses need not crash", "anchors": ["src/bitset.c: bitset_shift_left, bitset_shift_right"]}
{"id": "C51", "title": "Standalone bitset: iteration", "statement": "bitset_next_set_bit finds the least set bit from a position on; the loop over bitset_next_set_bits yields every set bit once in increasing order for every buffer size; bitset_for_each calls back on the same sequence until told to stop; bitset_minimum and bitset_maximum are its ends.", "quantifier": "every bitset, every position, every buffer size, every callback", "why_tests_cant": "batches may end anywhere inside a word", "anchors": ["include/roaring/bitset/bitset.h: bitset_next_set_bit, bitset_next_set_bits, bitset_for_each", "src/bitset.c: bitset_minimum, bitset_maximum"]}
{"id": "C52", "title": "Standalone bitset: trimming", "statement": "bitset_trim keeps the bits and leaves a valid bitset without unused capacity.", "quantifier": "every bitset", "why_tests_cant": "the failing inputs are bitsets without set bits, where realloc(p, 0) only shows under particular allocators", "anchors": ["src/bitset.c: bitset_trim"]}
{"id": "C53", "title": "64-bit bitmaps: point updates", "statement": "After roaring64_bitmap_add(r,x) exactly x and the former values are contained; remove deletes exactly x; the checked variants do the same and say whether the set changed; copy keeps and clear empties the set.", "quantifier": "every valid 64-bit bitmap, every 64-bit value", "why_tests_cant": "keys are 48-bit paths in a radix tree with four node layouts that grow, shrink, split and merge", "anchors": ["src/roaring64.c: roaring64_bitmap_add, roaring64_bitmap_add_checked, roaring64_bitmap_remove, roaring64_bitmap_remove_checked, roaring64_bitmap_contains, roaring64_bitmap_copy, roaring64_bitmap_clear"]}
{"id": "C54", "title": "64-bit bitmaps: every history builds a valid bitmap with the right set", "statement": "Whatever sequence of calls builds a 64-bit bitmap, it passes internal validation and contains exactly the values its history says.", "quantifier": "all finite histories of API calls, including validated deserialized input", "why_tests_cant": "histories compose without bound", "anchors": ["src/roaring64.c: the whole public API of updates, set operations and construction"]}
{"id": "C55", "title": "64-bit bitmaps: set operations", "statement": "and, or, andnot, xor of two 64-bit bitmaps contain exactly the intersection, union, difference and symmetric difference.", "quantifier": "all pairs of valid 64-bit bitmaps", "why_tests_cant": "merging walks of two trees of different shapes, all pairings of containers", "anchors": ["src/roaring64.c: roaring64_bitmap_and, roaring64_bitmap_or, roaring64_bitmap_andnot, roaring64_bitmap_xor"]}
{"id": "C56", "title": "64-bit bitmaps: in-place set operations", "statement": "The in-place variants leave the same set in the first argument.", "quantifier": "all pairs of valid 64-bit bitmaps, including the same object where it is allowed", "why_tests_cant": "the tree changes under the iterator that walks it", "anchors": ["src/roaring64.c: roaring64_bitmap_and_inplace, roaring64_bitmap_or_inplace, roaring64_bitmap_andnot_inplace, roaring64_bitmap_xor_inplace"]}
{"id": "C57", "title": "64-bit bitmaps: cardinalities", "statement": "get_cardinality is the number of values (modulo 2^64); the *_cardinality functions count the results of the operations (modulo 2^64); is_empty and intersect decide emptiness; the jaccard index is the quotient of the two counts.", "quantifier": "all (pairs of) valid 64-bit bitmaps", "why_tests_cant": "sums over arbitrarily many containers", "anchors": ["src/roaring64.c: roaring64_bitmap_get_cardinality, roaring64_bitmap_and_cardinality, roaring64_bitmap_or_cardinality, roaring64_bitmap_andnot_cardinality, roaring64_bitmap_xor_cardinality, roaring64_bitmap_intersect, roaring64_bitmap_is_empty, roaring64_bitmap_jaccard_index"]}
{"id": "C58", "title": "64-bit bitmaps: equality and subset", "statement": "equals is true exactly for equal sets, is_subset exactly for subsets.", "quantifier": "all pairs of valid 64-bit bitmaps", "why_tests_cant": "representations of equal sets differ", "anchors": ["src/roaring64.c: roaring64_bitmap_equals, roaring64_bitmap_is_subset"]}
{"id": "C59", "title": "64-bit bitmaps: strict subset", "statement": "is_strict_subset is true exactly for subsets that differ.", "quantifier": "all pairs of valid 64-bit bitmaps", "why_tests_cant": "only fails against the set of all 2^64 values", "anchors": ["src/roaring64.c: roaring64_bitmap_is_strict_subset"]}
{"id": "C60", "title": "64-bit bitmaps: ranges", "statement": "add_range, add_range_closed, remove_range and remove_range_closed change exactly the values of the range.", "quantifier": "every valid 64-bit bitmap, all bounds", "why_tests_cant": "ranges span up to 2^48 containers", "anchors": ["src/roaring64.c: roaring64_bitmap_add_range, roaring64_bitmap_add_range_closed, roaring64_bitmap_remove_range, roaring64_bitmap_remove_range_closed"]}
{"id": "C61", "title": "64-bit bitmaps: contains_range", "statement": "contains_range(r,a,b) is true exactly when all values of [a,b) are present.", "quantifier": "every valid 64-bit bitmap, all bounds", "why_tests_cant": "the wrong answers need a hole just at the end of the range", "anchors": ["src/roaring64.c: roaring64_bitmap_contains_range"]}
{"id": "C62", "title": "64-bit bitmaps: range cardinality and intersection with a range", "statement": "range_cardinality counts the values of the range, range_closed_cardinality too (modulo 2^64), intersect_with_range says whether there is one.", "quantifier": "every valid 64-bit bitmap, all bounds", "why_tests_cant": "ranges cross container and tree boundaries", "anchors": ["src/roaring64.c: roaring64_bitmap_range_cardinality, roaring64_bitmap_range_closed_cardinality, roaring64_bitmap_intersect_with_range"]}
{"id": "C63", "title": "64-bit bitmaps: flips", "statement": "The flip functions complement exactly the values of the range; flipping twice gives back the set.", "quantifier": "every valid 64-bit bitmap, all bounds", "why_tests_cant": "the tree gains and loses leaves under the walk", "anchors": ["src/roaring64.c: roaring64_bitmap_flip, roaring64_bitmap_flip_closed, roaring64_bitmap_flip_inplace, roaring64_bitmap_flip_closed_inplace"]}
{"id": "C64", "title": "64-bit bitmaps: rank and get_index", "statement": "rank(x) is the number of values up to x (modulo 2^64); get_index(x) is the number below x if x is present and fails otherwise.", "quantifier": "every valid 64-bit bitmap, every value", "why_tests_cant": "sums over arbitrarily many containers", "anchors": ["src/roaring64.c: roaring64_bitmap_rank, roaring64_bitmap_get_index"]}
{"id": "C65", "title": "64-bit bitmaps: select", "statement": "select(k) gives the value with exactly k smaller ones, and fails exactly when there are at most k values.", "quantifier": "every valid 64-bit bitmap, every rank", "why_tests_cant": "only fails for the set of all 2^64 values", "anchors": ["src/roaring64.c: roaring64_bitmap_select"]}
{"id": "C66", "title": "64-bit bitmaps: minimum and maximum", "statement": "minimum and maximum are the ends of the set; for the empty bitmap they are UINT64_MAX and 0.", "quantifier": "every valid 64-bit bitmap", "why_tests_cant": "the tree has unboundedly many shapes", "anchors": ["src/roaring64.c: roaring64_bitmap_minimum, roaring64_bitmap_maximum"]}
{"id": "C67", "title": "64-bit bitmaps: enumeration", "statement": "iterate calls back on exactly the values in increasing order until told to stop; to_uint64_array writes exactly the values in increasing order.", "quantifier": "every valid 64-bit bitmap, every callback; the array for every bitmap that lacks at least one value (2^64 values fit no array)", "why_tests_cant": "order and completeness over every tree", "anchors": ["src/roaring64.c: roaring64_bitmap_iterate, roaring64_bitmap_to_uint64_array"]}
{"id": "C68", "title": "64-bit bitmaps: the iterator is a cursor", "statement": "Any sequence of init, init_last, advance, previous and move_equalorlarger shows exactly what a cursor on the sorted sequence of values shows.", "quantifier": "every valid 64-bit bitmap, every sequence of iterator calls", "why_tests_cant": "iterator states at both ends and changes of direction", "anchors": ["src/roaring64.c: roaring64_iterator_reinit, roaring64_iterator_reinit_last, roaring64_iterator_advance, roaring64_iterator_previous, roaring64_iterator_move_equalorlarger"]}
{"id": "C69", "title": "64-bit bitmaps: reading from an iterator", "statement": "iterator_read gives the next values in order, and afterwards the iterator is where as many advances leave it.", "quantifier": "every valid 64-bit bitmap, every position and count", "why_tests_cant": "the state after exhausting the bitmap only shows in a following call", "anchors": ["src/roaring64.c: roaring64_iterator_read"]}
{"id": "C70", "title": "64-bit bitmaps: bulk additions", "statement": "add_many, of_ptr, add_bulk and contains_bulk have the effect of single calls, whatever the context remembers.", "quantifier": "every valid 64-bit bitmap, every sequence of values", "why_tests_cant": "the context is a pointer into the tree that later calls change", "anchors": ["src/roaring64.c: roaring64_bitmap_add_many, roaring64_bitmap_add_bulk, roaring64_bitmap_contains_bulk, roaring64_bitmap_of_ptr"]}
{"id": "C71", "title": "64-bit bitmaps: bulk removals", "statement": "remove_many removes exactly the given values.", "quantifier": "every valid 64-bit bitmap, every sequence of values", "why_tests_cant": "the context may name a container that the removal freed", "anchors": ["src/roaring64.c: roaring64_bitmap_remove_many, roaring64_bitmap_remove_bulk"]}
{"id": "C72", "title": "64-bit bitmaps: from_range", "statement": "from_range(a,b,step) contains exactly a, a+step, ... below b, and gives no bitmap for a zero step or an empty range.", "quantifier": "all 64-bit arguments", "why_tests_cant": "steps around 65536 and bounds near 2^64", "anchors": ["src/roaring64.c: roaring64_bitmap_from_range"]}
{"id": "C73", "title": "64-bit bitmaps: taking over a 32-bit bitmap", "statement": "move_from_roaring32 gives a bitmap with the same values and leaves the source empty and valid.", "quantifier": "every valid 32-bit bitmap without copy-on-write", "why_tests_cant": "containers change owner", "anchors": ["src/roaring64.c: roaring64_bitmap_move_from_roaring32"]}
{"id": "C74", "title": "64-bit bitmaps: run compression and statistics", "statement": "run_optimize keeps the set and says whether a run container is present; the statistics agree with the containers and the other queries.", "quantifier": "every valid 64-bit bitmap", "why_tests_cant": "conversions depend on the data", "anchors": ["src/roaring64.c: roaring64_bitmap_run_optimize, roaring64_bitmap_statistics"]}
{"id": "C75", "title": "64-bit bitmaps: portable round trip", "statement": "portable_serialize writes portable_size_in_bytes bytes, from which portable_deserialize_safe builds an equal bitmap; every strict prefix is refused.", "quantifier": "every valid 64-bit bitmap", "why_tests_cant": "only fails when all 2^32 high halves occur", "anchors": ["src/roaring64.c: roaring64_bitmap_portable_size_in_bytes, roaring64_bitmap_portable_serialize, roaring64_bitmap_portable_deserialize_safe, roaring64_bitmap_portable_deserialize_size"]}
{"id": "C76", "title": "64-bit bitmaps: deserialization of arbitrary bytes", "statement": "portable_deserialize_safe and portable_deserialize_size read only the given bytes, for every input; what passes internal validation afterwards is a valid bitmap.", "quantifier": "all byte sequences", "why_tests_cant": "adversarial input", "anchors": ["src/roaring64.c: roaring64_bitmap_portable_deserialize_safe, roaring64_bitmap_portable_deserialize_size, roaring64_bitmap_internal_validate"]}
{"id": "C77", "title": "64-bit bitmaps: portable layout", "statement": "The written bytes are the documented format: the number of buckets, and for every bucket its high half and the 32-bit portable format of its low halves; bytes of that form are read back.", "quantifier": "every valid 64-bit bitmap; every sequence of buckets", "why_tests_cant": "interoperability with other implementations", "anchors": ["src/roaring64.c: roaring64_bitmap_portable_serialize, roaring64_bitmap_portable_deserialize_safe"]}
{"id": "C78", "title": "The radix tree is an ordered map", "statement": "Through any history of insertions, erasures, overwrites, searches and iterator calls (including insertion and erasure through the iterator), lookups answer like a map from keys to values, and iterators are where the order of keys says.", "quantifier": "all finite histories, all keys", "why_tests_cant": "nodes grow and shrink through four layouts; prefixes split and merge", "anchors": ["src/art/art.c: art_insert, art_erase, art_find, art_is_empty, art_init_iterator, art_iterator_next, art_iterator_prev, art_iterator_move, art_lower_bound, art_upper_bound, art_iterator_lower_bound, art_iterator_insert, art_iterator_erase"]}
{"id": "C79", "title": "Validation of 64-bit bitmaps", "statement": "roaring64_bitmap_internal_validate accepts a bitmap exactly when it is well formed: nodes, keys and containers satisfy all structural rules.", "quantifier": "all tree structures in memory", "why_tests_cant": "the accepted wrong structures have to be thought of", "anchors": ["src/art/art.c: art_internal_validate, art_node48_internal_validate", "src/roaring64.c: roaring64_bitmap_internal_validate"]}
{"id": "C80", "title": "roaring_iterate64", "statement": "roaring_iterate64 calls back on every value of a 32-bit bitmap combined with the given high bits, in increasing order, until told to stop.", "quantifier": "every valid 32-bit bitmap, every callback, all high bits", "why_tests_cant": "order and completeness over every representation", "anchors": ["src/roaring.c: roaring_iterate64"]}
{"id": "C81", "title": "Roaring64Map: single values", "statement": "add, addChecked, remove, removeChecked, clear, the constructors and bitmapOf of the C++ class Roaring64Map change exactly the named values; the checked versions answer whether the set changed; contains answers membership.", "quantifier": "all 64-bit and 32-bit values, every map", "why_tests_cant": "any combination of inner bitmaps, also empty ones", "anchors": ["cpp/roaring64map.hh: Roaring64Map::add, addChecked, remove, removeChecked, contains, bitmapOf"]}
{"id": "C82", "title": "Roaring64Map: ranges", "statement": "addRange, addRangeClosed, removeRange, removeRangeClosed, flip and flipClosed add, remove and negate exactly the values of the range, for ranges within one or over many inner bitmaps, and do nothing for empty ranges.", "quantifier": "all bounds below 2^64, every map", "why_tests_cant": "ranges over up to 2^32 inner bitmaps cannot be tested", "anchors": ["cpp/roaring64map.hh: Roaring64Map::addRangeClosed, removeRangeClosed, flipClosed, ensureRangePopulated"]}
{"id": "C83", "title": "Roaring64Map: addMany", "statement": "addMany inserts exactly the values of the array, in any order and with repetitions.", "quantifier": "every array, every map", "why_tests_cant": "all orders", "anchors": ["cpp/roaring64map.hh: Roaring64Map::addMany"]}
{"id": "C84", "title": "Roaring64Map: set operators", "statement": "The operators &=, |=, -=, ^= (and &, |, -, ^) and fastunion compute intersection, union, difference, symmetric difference and the union of many, also when both arguments are the same object.", "quantifier": "every two maps, every list of maps, every order in which the priority queue breaks ties", "why_tests_cant": "merge loops over arbitrary key patterns", "anchors": ["cpp/roaring64map.hh: Roaring64Map::operator&=, operator|=, operator-=, operator^=, fastunion"]}
{"id": "C85", "title": "Roaring64Map: queries", "statement": "cardinality (an exception exactly for the full set), isEmpty, isFull, minimum, maximum, isSubset, isStrictSubset and == answer about the set of values only, whatever empty inner bitmaps a map has.", "quantifier": "every map, every two maps", "why_tests_cant": "empty inner bitmaps and the full set", "anchors": ["cpp/roaring64map.hh: Roaring64Map::cardinality, isEmpty, isFull, minimum, maximum, isSubset, isStrictSubset, operator=="]}
{"id": "C86", "title": "Roaring64Map: rank, getIndex and select", "statement": "rank(x) counts the values up to x; getIndex(x) is the number of smaller values if x is present and -1 otherwise; select(k) yields the value with exactly k smaller ones and fails exactly when there is none.", "quantifier": "every map, all x and k", "why_tests_cant": "counts beyond 2^32", "anchors": ["cpp/roaring64map.hh: Roaring64Map::rank, getIndex, select"]}
{"id": "C87", "title": "Roaring64Map: enumeration", "statement": "toUint64Array writes, iterate calls back on, and a range-based for loop visits every value once in increasing order; iterate stops when the callback asks for it; toString and printf give the comma-separated list of the values in braces.", "quantifier": "every map and callback", "why_tests_cant": "order and completeness over every representation", "anchors": ["cpp/roaring64map.hh: Roaring64Map::toUint64Array, iterate, begin, end, toString, printf"]}
{"id": "C88", "title": "Roaring64Map iterators", "statement": "An iterator of a Roaring64Map brought by any sequence of ++, -- (prefix and postfix) and move_equalorlarger to a position shows the value of that position in increasing order; move_equalorlarger(x) goes to the first value not less than x and answers whether there is one; two iterators compare like their positions.", "quantifier": "every map, every sequence of iterator calls within the rules of bidirectional iterators", "why_tests_cant": "positions at the borders of inner bitmaps, empty inner bitmaps, any sequence of calls", "anchors": ["cpp/roaring64map.hh: Roaring64MapSetBitBiDirectionalIterator"]}
{"id": "C89", "title": "Roaring64Map: serialization", "statement": "write uses exactly getSizeInBytes bytes and, in the portable form, the documented layout; read and readSafe give a map with the same values back, in both forms; readSafe never looks beyond maxbytes and throws on truncated data; the C functions for 64-bit bitmaps and the C++ class read each other's portable bytes.", "quantifier": "every map, every buffer, every byte limit, arbitrary input bytes", "why_tests_cant": "every size, content and truncation; hostile data", "anchors": ["cpp/roaring64map.hh: Roaring64Map::write, read, readSafe, getSizeInBytes", "cpp/roaring.hh: Roaring::write, Roaring::read, Roaring::readSafe, Roaring::getSizeInBytes"]}
{"id": "C90", "title": "Roaring64Map: compression", "statement": "runOptimize, removeRunCompression and shrinkToFit do not change the set; removeRunCompression leaves no run container; the answers tell what the documentation says.", "quantifier": "every map", "why_tests_cant": "all representations", "anchors": ["cpp/roaring64map.hh: Roaring64Map::runOptimize, removeRunCompression, shrinkToFit"]}
{"id": "C91", "title": "Roaring64Map: histories", "statement": "After any sequence of constructors, updates, operators and compression calls a map contains exactly the values the sequence says, and no inner bitmap except the one of the values below 2^32 is empty.", "quantifier": "every history", "why_tests_cant": "unbounded histories", "anchors": ["cpp/roaring64map.hh: Roaring64Map::(all updating functions)"]}
{"id": "C92", "title": "Roaring64Map: frozen maps", "statement": "writeFrozen writes at most getFrozenSizeInBytes bytes; frozenView of these bytes at an equally aligned address gives the same map; portableDeserializeFrozen of portable bytes gives the same map.", "quantifier": "every map, every address", "why_tests_cant": "padding depends on the address and on all sizes before", "anchors": ["cpp/roaring64map.hh: Roaring64Map::writeFrozen, getFrozenSizeInBytes, frozenView, portableDeserializeFrozen"]}
{"id": "C93", "title": "Roaring iterators and text", "statement": "An iterator of the C++ class Roaring brought by ++, -- and move_equalorlarger to a position shows the value there; iterators of one bitmap compare like their positions; a range-based for loop visits every value once in increasing order; toString is the comma-separated list of the values in braces.", "quantifier": "every bitmap, every sequence of iterator calls", "why_tests_cant": "any sequence of calls over any mix of containers", "anchors": ["cpp/roaring.hh: RoaringSetBitBiDirectionalIterator, Roaring::begin, Roaring::end, Roaring::toString"]}
{"id": "C94", "title": "Vectorised intersection of sorted arrays", "statement": "Intersecting two sorted arrays of 16-bit values gives exactly the common values in increasing order, and counting them the right number, with the AVX2 code as without; no element outside the arrays is read, and nothing is written outside an output that is new or has eight spare places.", "quantifier": "every pair of arrays, every output buffer, both builds", "why_tests_cant": "block boundaries, tails and spilled lanes depend on every length and every interleaving of the values", "anchors": ["src/array_util.c: intersect_vector16, intersect_vector16_cardinality, intersect_skewed_uint16, intersect_uint16", "src/containers/array.c: array_container_intersection, array_container_intersection_cardinality"]}
{"id": "C95", "title": "Vectorised difference of sorted arrays", "statement": "The difference of two sorted arrays of 16-bit values has exactly the values of the first that are not in the second, in increasing order, with the AVX2 code as without; all accesses are in bounds for an output with room for the first array.", "quantifier": "every pair of arrays, every output buffer, both builds", "why_tests_cant": "as C94; the AVX2 code combines masks over several blocks", "anchors": ["src/array_util.c: difference_vector16, difference_uint16", "src/containers/array.c: array_container_andnot"]}
{"id": "C96", "title": "Vectorised union of sorted arrays", "statement": "The union of two sorted arrays of 16-bit values has exactly the values of both, each once, in increasing order, with the AVX2 code as without; all accesses are in bounds for an output with room for both arrays.", "quantifier": "every pair of arrays, every output buffer, both builds", "why_tests_cant": "the merging network, the removal of duplicates across blocks and the end game depend on every interleaving", "anchors": ["src/array_util.c: union_vector16, sse_merge, store_unique, union_uint16, fast_union_uint16", "src/containers/array.c: array_container_union"]}
{"id": "C97", "title": "Vectorised symmetric difference of sorted arrays", "statement": "The symmetric difference of two sorted arrays of 16-bit values has exactly the values of one but not both, in increasing order, with the AVX2 code as without; all accesses are in bounds for an output with room for both arrays.", "quantifier": "every pair of arrays, every output buffer, both builds", "why_tests_cant": "as C96; a value is kept or dropped depending on its neighbours in other blocks", "anchors": ["src/array_util.c: xor_vector16, store_unique_xor, unique_xor, xor_uint16", "src/containers/array.c: array_container_xor"]}
{"id": "C98", "title": "In-place operations on one buffer", "statement": "Operations on array containers that write their result into the buffer of their first operand while they read it (intersection, difference, union, lazy union) give the same result as with a separate buffer.", "quantifier": "every pair of arrays, both builds", "why_tests_cant": "whether a value is overwritten before it is read depends on every interleaving", "anchors": ["src/containers/array.c: array_container_intersection_inplace, array_container_andnot", "src/containers/mixed_union.c: array_array_container_inplace_union, array_array_container_lazy_inplace_union", "src/array_util.c: intersect_vector16_inplace, union_vector16"]}
{"id": "C99", "title": "Enumeration into the caller's array on every processor", "statement": "Writing the values of a bitmap, or one page of them, into the caller's array gives the contained values in increasing order, whether the AVX-512 code, the AVX2 code or the portable code runs; cells behind the result keep their contents, and nothing outside the array is written. The same holds of the conversion of a bitset to an array.", "quantifier": "every bitmap, every output array with room for the result, every offset and limit, every processor", "why_tests_cant": "the vector code writes whole registers beyond the current position; whether it stays inside depends on the positions of all values", "anchors": ["src/bitset_util.c: bitset_extract_setbits_avx512, bitset_extract_setbits_avx512_uint16, bitset_extract_setbits_avx2, bitset_extract_setbits, bitset_extract_setbits_sse_uint16", "src/array_util.c: array_container_to_uint32_array_vector16, avx512_array_container_to_uint32_array", "src/containers/run.c: _avx2_run_container_to_uint32_array", "src/roaring_array.c: ra_to_uint32_array, ra_range_uint32_array", "src/containers/convert.c: array_container_from_bitset"]}
{"id": "C100", "title": "Temporary memory goes back to the application's allocator", "statement": "If the application has set its own memory functions, a buffer that a call allocates with them for its own use is released with them when the call ends, and no block goes to another allocator.", "quantifier": "every bitmap, offset and limit", "why_tests_cant": "every path has to be matched with its release; with the default functions a mismatch is invisible", "anchors": ["src/roaring_array.c: ra_range_uint32_array", "src/memory.c: roaring_malloc, roaring_free", "include/roaring/memory.h: roaring_init_memory_hook"]}
{"id": "C101", "title": "Bitset operations give the set operation on every processor", "statement": "Union, intersection, symmetric difference and difference of two bitset containers, with the count, without it, or only the count, and the plain count give the set operation and its cardinality with AVX-512, AVX2, NEON or portable code; into a new container or over one of the operands; no access is outside the containers. The counting loops are right for any number of blocks.", "quantifier": "every pair of bitsets, every kind of processor, every placement of the result", "why_tests_cant": "2^131072 operand values; the carry-save adder tree and the 16-bit partial sums have to be right for all of them", "anchors": ["include/roaring/bitset_util.h: popcount256, avx2_harley_seal_popcount256, avx512_vpopcount", "src/containers/bitset.c: CROARING_BITSET_CONTAINER_FN, bitset_container_compute_cardinality"]}
{"id": "C102", "title": "Comparison, run counts and bit lists on every processor", "statement": "Equality of containers (bytewise, with registers of 64, 32, 8 and 1 bytes), the cardinality of a run container and setting or clearing a list of bits with its running count are right with the vector or assembly code as with portable code, and access nothing outside the operands.", "quantifier": "every pair of containers, every list of positions, every kind of processor", "why_tests_cant": "block boundaries and tails for every length, and the carry flag for every history of bits", "anchors": ["src/array_util.c: memequals", "src/containers/bitset.c: bitset_container_equals", "src/containers/run.c: run_container_cardinality", "src/bitset_util.c: bitset_set_list_withcard, bitset_set_list, bitset_clear_list", "include/roaring/containers/array.h: array_container_equals", "include/roaring/containers/run.h: run_container_equals"]}
{"id": "C103", "title": "Vector code runs only where the processor and the system allow it", "statement": "The library takes a vector path only if every instruction-set extension used on that path is reported by the processor and the operating system saves its registers; if all are available it takes it.", "quantifier": "every combination of cpuid and XCR0 bits", "why_tests_cant": "tests run on the processors at hand", "anchors": ["src/isadetection.c: dynamic_croaring_detect_supported_architectures, croaring_hardware_support", "src/bitset_util.c: _asm_bitset_set_list", "include/roaring/portability.h: CROARING_TARGET_AVX2"]}
{"id": "C104", "title": "First use from several threads", "statement": "Any number of threads may make their first call at the same time: each gets the same choice of code paths as a single thread would, without waiting for the others, and without a data race.", "quantifier": "every number of threads, every interleaving", "why_tests_cant": "the number of interleavings is unbounded", "anchors": ["src/isadetection.c: croaring_detect_supported_architectures, croaring_hardware_support"]}
{"id": "C105", "title": "Copy-on-write copies in several threads", "statement": "Copies of a copy-on-write bitmap may be given to different threads and there be queried, copied, changed and released at the same time: no thread reads memory that another has released or a container that another has taken over, and when the last copy is gone the shared container has been given up exactly once.", "quantifier": "every number of threads and copies, every interleaving of their steps", "why_tests_cant": "the number of interleavings is unbounded; the failing ones need a thread to be interrupted between two instructions", "anchors": ["src/containers/containers.c: get_copy_of_container, shared_container_extract_copy, shared_container_free", "include/roaring/portability.h: croaring_refcount_inc, croaring_refcount_dec", "README.md: thread safety"]}
{"id": "C106", "title": "Memory of the radix tree", "statement": "A radix tree keeps its nodes in arrays that grow and move, and reuses the places of erased nodes. Whatever values are set, looked up and erased, in whatever order, no access goes through a pointer from before an array moved or to a place without a node; the answers are those of a map from keys to values; no place is lost or handed out twice: each is one node of the tree with one reference to it, or on the list of unused places once; and after the last erasure all places are unused.", "quantifier": "every history of insertions, assignments, erasures and lookups of six-byte keys, from an empty tree", "why_tests_cant": "which reallocation moves which array, and which places are reused, depends on the whole history; a stale pointer or a lost place shows only in some histories", "anchors": ["src/art/art.c: art_allocate_index, art_extend, art_node_free, art_insert, art_erase, art_find, art_node4_erase, art_node4_insert", "include/roaring/art/art.h"]}
{"id": "C107", "title": "Shrinking the memory of the radix tree", "statement": "Shrinking may be requested at any time between insertions, erasures and lookups. It never changes an answer or touches memory outside the nodes; afterwards the arrays of nodes hold the nodes of the tree and nothing else; the number it returns is the number of bytes given back; and a second request in a row gives back nothing.", "quantifier": "every history of insertions, assignments, erasures, lookups and shrink requests, from an empty tree", "why_tests_cant": "which nodes are moved, and through which stale references they might be reached, depends on the order in which places were given up in the whole history", "anchors": ["src/art/art.c: art_shrink_to_fit, art_sort_free_lists, art_move_node_to_shrink, art_shrink_at, art_shrink_node_arrays, art_is_shrunken", "src/roaring64.c: roaring64_bitmap_shrink_to_fit"]}
{"id": "C108", "title": "Ownership of the containers of a 64-bit bitmap", "statement": "Under any sequence of additions, removals (of values and of ranges), queries, run optimisation and shrinking, a 64-bit bitmap never uses a container after it was freed, a container of another type than it really is, a null entry, or a pointer into an array that has moved; the answers are those of a set; every allocated container belongs to exactly one key and holds at least one value; freeing the bitmap frees every container exactly once; a copy owns containers of its own; and shrinking leaves no unused entry, moves no container object, and returns the number of bytes by which the arrays became smaller.", "quantifier": "every sequence of calls on a new bitmap with arguments below 2^64, and every further sequence on a copy", "why_tests_cant": "which entry of the container array a key gets, and when a container object is replaced, depends on the whole history; a stale type code or entry only shows in a later call", "anchors": ["src/roaring64.c: replace_container, extend_containers, next_free_container_idx, allocate_index, add_container, remove_container, roaring64_bitmap_add, roaring64_bitmap_add_checked, roaring64_bitmap_remove, roaring64_bitmap_remove_checked, roaring64_bitmap_add_range_closed, roaring64_bitmap_remove_range_closed, roaring64_bitmap_run_optimize, move_to_shrink, roaring64_bitmap_shrink_to_fit, roaring64_bitmap_copy, roaring64_bitmap_free"]}
{"id": "C109", "title": "Frozen format of 64-bit bitmaps", "statement": "After roaring64_bitmap_shrink_to_fit, whatever the history before, roaring64_bitmap_frozen_size_in_bytes gives a multiple of 64; roaring64_bitmap_frozen_serialize writes exactly that many bytes into a buffer that has room for them and nothing else; and roaring64_bitmap_frozen_view of these bytes at an address that is a multiple of 64, with any further bytes behind them, gives a bitmap with the same values, whose copy is a bitmap of its own with these values, and which is freed without freeing anything twice. A bitmap that was not shrunk is not written: 0 bytes, buffer unchanged.", "quantifier": "every sequence of calls on a new bitmap after which it is shrunken, every content of unused memory in the nodes, every buffer, aligned address and length that is large enough (arrays of the bitmap below 2^48 bytes)", "why_tests_cant": "the bytes are an image of the node arrays, whose layout and unused parts depend on the whole history; alignment of the parts depends on the number of containers and nodes", "anchors": ["src/roaring64.c: roaring64_bitmap_frozen_size_in_bytes, roaring64_bitmap_frozen_serialize, roaring64_bitmap_frozen_view, container_frozen_serialize, container_frozen_view, is_shrunken", "src/art/art.c: art_size_in_bytes, art_serialize, art_frozen_view"]}
{"id": "C110", "title": "Incomplete frozen buffers of 64-bit bitmaps, and views that are written again", "statement": "roaring64_bitmap_frozen_view of a prefix of what roaring64_bitmap_frozen_serialize wrote, given the length of the prefix, returns NULL or a bitmap with the same values, and reads nothing outside the prefix; and a view can be written again in the frozen format.", "quantifier": "every shrunken bitmap after any history, every prefix length", "why_tests_cant": "there is one prefix for every byte of every buffer, and whether a read outside is noticed depends on the memory behind it", "anchors": ["src/roaring64.c: roaring64_bitmap_frozen_view, roaring64_bitmap_free, roaring64_bitmap_frozen_serialize, roaring64_bitmap_frozen_size_in_bytes", "src/art/art.c: art_frozen_view"]}
{"id": "C111", "title": "Run containers stay inside their buffers", "statement": "Adding, removing, adding and removing ranges, flipping a range, copying, shrinking, union, intersection, difference and symmetric difference of run containers, unions, differences and symmetric differences with arrays, and conversions from arrays and bitsets read and write only inside their buffers and give exactly the right set as ordered, separated runs; also the operations that write over their own input (union into the first operand, flipping in place), whatever the capacity, the unused memory behind the runs and the contents of new memory.", "quantifier": "every well-formed run container in a buffer of any capacity with any unused contents, every content of newly allocated memory, all arguments, every sequence of calls on one container", "why_tests_cant": "whether an in-place operation overwrites a run before reading it, or writes one run behind a full buffer, depends on capacity, number of runs and their positions together", "anchors": ["src/containers/run.c: run_container_grow, run_container_copy, run_container_add, run_container_union, run_container_union_inplace, run_container_xor, run_container_intersection, run_container_andnot, run_container_smart_append_exclusive", "include/roaring/containers/run.h: makeRoomAtIndex, recoverRoomAtIndex, run_container_remove, run_container_append, run_container_add_range_nruns, run_container_remove_range", "src/containers/mixed_union.c: array_run_container_union, array_run_container_inplace_union", "src/containers/mixed_xor.c: array_run_container_lazy_xor", "src/containers/mixed_andnot.c: run_array_container_andnot", "src/containers/mixed_negation.c: run_container_negation_range, run_container_negation_range_inplace", "src/containers/convert.c: run_container_from_array, convert_run_optimize"]}
{"id": "C112", "title": "Running out of memory", "statement": "If a request for memory is refused during a call, the functions that are documented to return NULL or false (creating, copying, overwriting, reading a serialized bitmap) do so, exactly then or if the bytes are invalid; the call touches no memory that is not in use, leaves no block behind, and leaves the bitmaps it was given valid: unchanged, or empty if they were to be overwritten. Adding a container and shrinking keep the bitmap valid.", "quantifier": "every set of requests that are refused, every bitmap in any memory, every byte sequence, every capacity", "why_tests_cant": "each allocation of each call can be the one that fails, and what has been built until then has to be undone from every such point; tests run with memory available", "anchors": ["src/roaring.c: roaring_bitmap_create_with_capacity, roaring_bitmap_copy, roaring_bitmap_overwrite, roaring_bitmap_portable_deserialize_safe, roaring_bitmap_free, roaring_bitmap_shrink_to_fit", "src/roaring_array.c: ra_init_with_capacity, realloc_array, ra_overwrite, ra_clear, ra_portable_deserialize, extend_array, ra_append, ra_insert_new_key_value_at, ra_shrink_to_fit", "src/containers/array.c: array_container_create_given_capacity, array_container_clone, array_container_read, array_container_shrink_to_fit", "src/containers/run.c: run_container_read, run_container_grow", "src/containers/bitset.c: bitset_container_create, bitset_container_clone", "src/containers/containers.c: get_copy_of_container"]}
{"id": "C113", "title": "No memory is lost in a history of calls", "statement": "After any sequence of creating, copying, reading from bytes (valid or not), shrinking and releasing bitmaps, no call has touched memory that is not in use or released a block twice, the bitmaps are those that the calls should give, and releasing the remaining bitmaps gives back exactly the memory that was in use at the start; also if memory runs out at any point, as long as no serialized run containers are read. A container shared by copy-on-write stays unchanged until its last owner releases it, and is given back then.", "quantifier": "every sequence of calls, every byte sequence that is read, every initial memory, every set of refused requests, every number of owners", "why_tests_cant": "a leak or double release shows only for particular orders of calls and particular malformed inputs or failures; there are unboundedly many", "anchors": ["src/roaring.c: roaring_bitmap_create_with_capacity, roaring_bitmap_copy, roaring_bitmap_portable_deserialize_safe, roaring_bitmap_free", "src/roaring_array.c: ra_overwrite, ra_clear, ra_clear_containers, ra_portable_deserialize, ra_shrink_to_fit", "src/containers/containers.c: container_free, container_clone"]}
{"id": "C114", "title": "Many-way operations and shifts respect memory and other bitmaps", "statement": "After any history of calls, with or without copy-on-write, or_many, xor_many, or_many_heap and add_offset give a new valid bitmap with the right contents, leave the contents of every other bitmap (their arguments included) as they were, use no memory that was released, release nothing twice and lose nothing; the new bitmap may be used like any other.", "quantifier": "every finite history of calls over any number of bitmaps, every list of arguments (repetitions allowed), every offset", "why_tests_cant": "the containers of the intermediate results are shared, cloned, converted or moved depending on all sizes, kinds and keys, and the effects of a wrong reference count show only in later calls", "anchors": ["src/roaring.c: roaring_bitmap_or_many, roaring_bitmap_xor_many, roaring_bitmap_lazy_or, roaring_bitmap_lazy_or_inplace, roaring_bitmap_lazy_xor, roaring_bitmap_lazy_xor_inplace, roaring_bitmap_repair_after_lazy, roaring_bitmap_add_offset, offset_append_with_merge", "src/roaring_priority_queue.c: roaring_bitmap_or_many_heap, lazy_or_from_lazy_inputs, create_pq, pq_add, pq_poll"]}
{"id": "C115", "title": "Bitmaps stay inside their memory", "statement": "In any history of calls that create, copy, overwrite, clear and free bitmaps, add and remove values, lists of values and ranges, flip ranges, unite, intersect and subtract bitmaps (into a new bitmap or in place, two at a time or many at once), shift them, convert their containers and read parts of their lists of values, no call reads or writes outside of the blocks of memory it owns, every call terminates, and each bitmap is well formed and has exactly the values it should have, whatever the capacities and whatever new memory contains.", "quantifier": "every finite history of calls over any number of bitmaps, every content of new memory, and every well-formed bitmap in memory for the calls one by one", "why_tests_cant": "blocks grow by rules that depend on sizes, capacities and kinds of containers; a write just behind a block, or a read of a cell never written, usually changes nothing a test can see", "anchors": ["src/roaring_array.c: realloc_array, extend_array, ra_append, ra_append_copy_range, ra_insert_new_key_value_at, ra_remove_at_index, ra_copy_range, ra_overwrite", "src/roaring.c: roaring_bitmap_add, roaring_bitmap_remove, roaring_bitmap_and, roaring_bitmap_or_inplace, roaring_bitmap_xor_inplace, roaring_bitmap_andnot_inplace", "include/roaring/containers/containers.h: container_and, container_ior, container_xor, container_iandnot, container_add, container_remove", "src/containers/mixed_intersection.c", "src/containers/mixed_union.c", "src/containers/mixed_xor.c", "src/containers/mixed_andnot.c", "src/containers/array.c: array_container_union, array_container_intersection, array_container_grow", "src/roaring.c: roaring_bitmap_add_range_closed, roaring_bitmap_remove_range_closed, roaring_bitmap_flip_closed, roaring_bitmap_flip_inplace_closed, roaring_bitmap_add_many, roaring_bitmap_remove_many, roaring_bitmap_or_many, roaring_bitmap_xor_many, roaring_bitmap_add_offset, roaring_bitmap_range_uint32_array, roaring_bitmap_run_optimize, roaring_bitmap_remove_run_compression, roaring_bitmap_shrink_to_fit, roaring_bitmap_from_range", "src/roaring_priority_queue.c: roaring_bitmap_or_many_heap"]}
{"id": "C116", "title": "Questions about bitmaps stay inside their memory and depend on the values alone", "statement": "Asking one bitmap for its cardinality, emptiness, rank, index, minimum, maximum, the value at a position, a range of values or all values as an array, or two bitmaps for equality, inclusion, common values or the cardinality of a combination, reads only memory that belongs to the bitmaps and writes only where values go, terminates, and gives the answer for the sets of values, whatever the capacities, the kinds of containers and the unused parts of the blocks. The value at a position is excepted for the last 65536 positions of the bitmap of all 2^32 values (see C19).", "quantifier": "every well-formed bitmap in memory or pair of them, in particular every one left by a history of calls; every argument; every block for the values that is long enough", "why_tests_cant": "a read of a cell or value behind the end usually meets memory that is there, with a value that does not change the answer; only all capacities and all unused contents together exclude it", "anchors": ["src/roaring.c: roaring_bitmap_get_cardinality, roaring_bitmap_rank, roaring_bitmap_get_index, roaring_bitmap_select, roaring_bitmap_minimum, roaring_bitmap_maximum, roaring_bitmap_equals, roaring_bitmap_is_subset, roaring_bitmap_intersect, roaring_bitmap_and_cardinality, roaring_bitmap_contains_range_closed, roaring_bitmap_range_cardinality_closed", "src/roaring_array.c: ra_to_uint32_array, ra_get_index, ra_advance_until"]}
{"id": "C117", "title": "Bitmaps in memory are written to bytes and read back, and any bytes are read without leaving memory", "statement": "Serializing a bitmap reads only its own memory and writes exactly the announced number of bytes, and deserializing these bytes into freshly allocated memory gives a bitmap with the same values, in both formats, with and without a limit, whatever the capacities and contents of the blocks on either side. Deserializing any bytes at all with a limit leaves neither the bytes nor the blocks that are allocated; internal_validate can be asked about whatever it returns, and it accepts exactly the well-formed bitmaps.", "quantifier": "every well-formed bitmap in memory, every buffer that is long enough, every byte string and limit, every allocator that returns blocks of the size asked for", "why_tests_cant": "a fuzzer finds an access outside only if the memory behind the block is guarded and the bytes lead to it; the capacity of a block that is filled from the counts in hostile bytes has to be right for all counts", "anchors": ["src/roaring.c: roaring_bitmap_portable_serialize, roaring_bitmap_portable_deserialize_safe, roaring_bitmap_serialize, roaring_bitmap_deserialize, roaring_bitmap_deserialize_safe, roaring_bitmap_internal_validate", "src/roaring_array.c: ra_portable_serialize, ra_portable_deserialize, ra_portable_size_in_bytes, ra_has_run_container", "src/containers/array.c: array_container_read", "src/containers/run.c: run_container_read"]}
{"id": "C118", "title": "Iterators over bitmaps in memory stay inside the bitmap's and the caller's memory and show its values", "statement": "Any sequence of advance, previous, move_equalorlarger and read calls on an iterator made by roaring_iterator_init or roaring_iterator_init_last, in memory that held anything before, accesses only the blocks of the bitmap, whatever their capacities and the contents of their unused parts. The caller sees what a cursor on the increasing list of the values shows, each read writes exactly the values it delivers to the caller's array and nothing else, and an array that is just long enough for what is delivered is enough. roaring_bitmap_intersect_with_range, for a lower bound below 2^32 or an empty range, answers whether a value lies in the range, also without leaving memory.", "quantifier": "every well-formed bitmap in memory, every finite sequence of calls with 32-bit arguments, every content of the iterator before its initialization and of the caller's array", "why_tests_cant": "the position in the container, the value and the container are kept in separate fields that must agree after every sequence of calls, at every boundary between words, runs and containers and in both directions; a read past a block goes unnoticed unless the memory behind it is guarded", "anchors": ["src/roaring.c: roaring_iterator_init, roaring_iterator_init_last, roaring_uint32_iterator_advance, roaring_uint32_iterator_previous, roaring_uint32_iterator_move_equalorlarger, roaring_uint32_iterator_read, roaring_bitmap_intersect_with_range", "src/containers/containers.c: container_init_iterator, container_init_iterator_last, container_iterator_next, container_iterator_prev, container_iterator_lower_bound, container_iterator_read_into_uint32"]}
{"id": "C119", "title": "Iterators over a radix tree follow a cursor on a map, while keys are inserted and erased through them", "statement": "Whatever calls are made in whatever order on a radix tree and an iterator over it - set, look up, erase, shrink; make an iterator at the first or last key, at the first key not below a given one, or above it; move it forward, backward or by a search; insert a key or erase the current key through it; store through its value pointer - no pointer from before an array moved and no place that is not a node is used, the iterator shows after each call the key and value that a cursor on a map shows, an erase leaves it on the next key, and in the end the tree holds exactly what the map holds. A call on the tree that may change it ends the use of the iterator.", "quantifier": "every finite sequence of calls with keys of six bytes in which next, previous and store are made on an iterator that is on a key, inserted keys are absent, and a search is made through an iterator on a key, or one that has run out but was neither made by a search nor used to erase the last key", "why_tests_cant": "the iterator keeps a reference and a position for each level of the tree; inserting and erasing change kinds of nodes and move them to other places, so that the path is right only if every change of every kind of node repairs it, for every shape of the tree", "anchors": ["src/art/art.c: art_init_iterator, art_iterator_next, art_iterator_prev, art_iterator_lower_bound, art_lower_bound, art_upper_bound, art_iterator_insert, art_iterator_erase, art_iterator_move", "include/roaring/art/art.h: art_iterator_t"]}
{"id": "C120", "title": "A search through any iterator over a radix tree gives what a search from the root gives", "statement": "art_iterator_lower_bound puts an iterator on the same key as art_lower_bound on its tree, whatever iterator it is given.", "quantifier": "every tree and iterator left by a sequence of calls, every key of six bytes", "why_tests_cant": "it depends on what each call that runs out leaves in the first frame of the iterator", "anchors": ["src/art/art.c: art_iterator_lower_bound, art_lower_bound, art_upper_bound, art_iterator_erase", "include/roaring/art/art.h: art_iterator_lower_bound"]}
{"id": "C121", "title": "Set operations, comparisons and counts of 64-bit bitmaps use memory safely and do what they do to sets", "statement": "Whatever calls are made in whatever order on any number of 64-bit bitmaps - make, copy and free them; the calls of C108 on each; intersection, union, symmetric difference and difference of two, as a new bitmap or in place; comparisons; counts of a bitmap and of the four combinations of two - no memory that is not allocated, of another type, or behind a pointer that has become invalid is used, every answer is that of sets, afterwards each bitmap has its set and owns each of its containers once, and freeing a bitmap frees all its containers, whether or not the container functions that work in place reuse their objects. The same holds of flips (new and in place), clear, of_ptr, add_many, and, where C124 allows them, remove_many and bulk calls.", "quantifier": "every finite sequence of calls on bitmaps that exist, with 64-bit numbers; the same bitmap may be given twice except to xor_inplace and andnot_inplace, as documented; the second bitmap of is_strict_subset lacks some number (C59)", "why_tests_cant": "the operations in place walk the tree they change: a leaf that is inserted or erased through the iterator moves nodes and changes their kinds, while the array of containers reuses the places of removed ones; which paths are taken depends on the keys of both bitmaps at every level and on whether each result is empty or a new object", "anchors": ["src/roaring64.c: roaring64_bitmap_and, roaring64_bitmap_or, roaring64_bitmap_xor, roaring64_bitmap_andnot, roaring64_bitmap_and_inplace, roaring64_bitmap_or_inplace, roaring64_bitmap_xor_inplace, roaring64_bitmap_andnot_inplace, roaring64_bitmap_equals, roaring64_bitmap_is_subset, roaring64_bitmap_is_strict_subset, roaring64_bitmap_intersect, roaring64_bitmap_get_cardinality, roaring64_bitmap_and_cardinality", "src/roaring64.c: roaring64_bitmap_flip, roaring64_bitmap_flip_closed, roaring64_bitmap_flip_inplace, roaring64_bitmap_flip_closed_inplace, roaring64_bitmap_clear, roaring64_bitmap_of_ptr, roaring64_bitmap_add_many, roaring64_bitmap_remove_many"]}
{"id": "C122", "title": "Functions that read a 64-bit bitmap in memory use memory safely and answer as its set does", "statement": "After whatever calls that make, change, combine, copy and free 64-bit bitmaps, rank, get_index, select, is_empty, minimum, maximum, range_closed_cardinality, range_cardinality, contains_range, intersect_with_range, to_uint64_array, statistics and iterate on any of them use no memory that is not allocated, of another type, or behind a pointer that has become invalid, whatever uninitialised memory holds, and their answers are those of the set: numbers of members, the member with a given number before it, least and greatest, all members in order. The answers of contains_range and select in the cases named in C61 and C65 are excepted, and the list of all 2^64 numbers, which no memory holds.", "quantifier": "every finite sequence of calls on 64-bit bitmaps, every bitmap then there, every 64-bit argument, every content of uninitialised memory", "why_tests_cant": "the functions walk the radix tree with an iterator whose frames point into nodes that the history has grown, shrunk, merged and moved; which nodes those are depends on every earlier call", "anchors": ["src/roaring64.c: roaring64_bitmap_rank, roaring64_bitmap_get_index, roaring64_bitmap_select, roaring64_bitmap_is_empty, roaring64_bitmap_minimum, roaring64_bitmap_maximum, roaring64_bitmap_range_closed_cardinality, roaring64_bitmap_range_cardinality, roaring64_bitmap_contains_range, roaring64_bitmap_intersect_with_range, roaring64_bitmap_to_uint64_array, roaring64_bitmap_statistics, roaring64_bitmap_iterate"]}
{"id": "C123", "title": "Iterators over a 64-bit bitmap in memory use memory safely and show its values in order", "statement": "After whatever calls that make, change, combine, copy and free 64-bit bitmaps, an iterator over any of them, made at its first or its last value in memory with any content, survives any sequence of advance, previous, move_equalorlarger and read: no memory that is not allocated, of another type, or behind a pointer that has become invalid is used, and what the iterator shows after each call is what a cursor on the increasing list of the values shows; what advance and previous show after a read that reached the end is excepted (C69).", "quantifier": "every finite sequence of calls on 64-bit bitmaps, every bitmap then there, every content of the iterator's memory, every finite sequence of calls on the iterator with 64-bit arguments", "why_tests_cant": "an iterator keeps a path of frames into the tree, a pointer to a leaf and a position inside a container, and each call may change any of them at any level; sequences and tree shapes are unbounded", "anchors": ["src/roaring64.c: roaring64_iterator_create, roaring64_iterator_create_last, roaring64_iterator_has_value, roaring64_iterator_value, roaring64_iterator_advance, roaring64_iterator_previous, roaring64_iterator_move_equalorlarger, roaring64_iterator_read", "src/art/art.c: art_iterator_next, art_iterator_prev, art_iterator_lower_bound"]}
{"id": "C124", "title": "Calls with a bulk context on a 64-bit bitmap in memory are safe unless they go back to a chunk they emptied", "statement": "After whatever calls that make, change, combine, flip, clear, copy and free 64-bit bitmaps, any sequence of add_bulk, contains_bulk and remove_bulk with one context (and remove_many) on one of them does what the calls without a context do, and uses only memory that is allocated, unless some call has the upper 48 bits of the chunk that the context last used and the last number of that chunk has been removed since: then, and only then, the code reads a leaf or a container that is not there. Sequences without remove_bulk are always safe; remove_bulk of the only number of a chunk followed by any call for the same chunk never is.", "quantifier": "every finite sequence of calls on 64-bit bitmaps, every bitmap then there, every finite sequence of bulk calls with 64-bit arguments", "why_tests_cant": "the context keeps a pointer to a leaf across calls, while calls insert and erase other leaves; whether it dangles depends on the whole sequence", "anchors": ["src/roaring64.c: roaring64_bitmap_add_bulk, roaring64_bitmap_contains_bulk, roaring64_bitmap_remove_bulk, roaring64_bitmap_add_many, roaring64_bitmap_remove_many, roaring64_bitmap_of_ptr", "include/roaring/roaring64.h: roaring64_bulk_context_t"]}
{"id": "C125", "title": "64-bit bitmaps in memory are written to bytes and made from any bytes safely, and nothing is leaked", "statement": "After whatever calls that make, change, combine and free 64-bit bitmaps, the announced portable size of a bitmap is the length of the documented layout of its set, and portable_serialize writes that layout at the start of any long enough buffer and changes nothing behind it, using only memory that is allocated. If the set lacks all numbers of at least one block of 2^32 (see C75 for the others), reading these bytes back, whatever follows them, gives a bitmap with the same set that owns its memory, and under a limit that cuts them short gives NULL with nothing left allocated. Bytes of the documented layout that others wrote are read as the set they stand for. For any bytes and any limit within them, portable_deserialize_safe returns NULL with nothing left allocated, or a bitmap that roaring64_bitmap_free frees completely; if internal_validate accepts it, it is a proper bitmap. from_range and move_from_roaring32 make bitmaps with the set they should.", "quantifier": "every finite sequence of calls on 64-bit bitmaps, every buffer, every byte string and every limit within it, every list of valid buckets", "why_tests_cant": "the reader makes containers, inserts them in a tree whose arrays move, and gives up in the middle when later bytes are wrong; all byte strings cannot be tried", "anchors": ["src/roaring64.c: roaring64_bitmap_portable_size_in_bytes, roaring64_bitmap_portable_serialize, roaring64_bitmap_portable_deserialize_safe, roaring64_bitmap_move_from_roaring32, roaring64_bitmap_from_range, move_from_roaring32_offset, count_high32"]}
{"id": "C126", "title": "What is printed determines the set", "statement": "roaring_bitmap_printf prints the members of a bitmap in increasing order in decimal, with commas between them and in braces, whatever kinds of containers hold them; so whoever reads the numbers of the text gets the set back, and two bitmaps print the same text exactly when they have the same members. roaring_bitmap_printf_describe prints, for each chunk of 2^16 numbers that has a member, in order, its key, the kind of its container and the number of its members. bitset_print prints the bits that are set, in increasing order, each followed by a comma and a blank.", "quantifier": "every valid 32-bit bitmap, every bitset_t, any number of members", "why_tests_cant": "three container kinds have three loops that place commas differently; tests compare a few texts by eye", "anchors": ["src/roaring.c: roaring_bitmap_printf, roaring_bitmap_printf_describe", "src/containers/array.c: array_container_printf_as_uint32_array", "src/containers/bitset.c: bitset_container_printf_as_uint32_array", "src/containers/run.c: run_container_printf_as_uint32_array", "include/roaring/bitset/bitset.h: bitset_print"]}
{"id": "C127", "title": "internal_validate of 64-bit bitmaps accepts what the library makes, and only usable bitmaps", "statement": "roaring64_bitmap_internal_validate uses only memory that is there and accepts every bitmap after any history of calls that make, change and combine 64-bit bitmaps. Of a bitmap that was read from any bytes it accepts exactly those whose containers are all valid, and an accepted one owns its containers and has a set. Of a bitmap whose memory may hold anything of the declared types, acceptance implies that the nodes form a tree in which every leaf lies below its key and no node is reached twice, that every search uses only memory that is there, and that the answers are those of one set. It does not notice that two leaves name one container, nor a wrong count of a node48 (C79).", "quantifier": "every history of allowed calls, every byte sequence, every content of the arrays of nodes and containers with values of the declared types", "why_tests_cant": "corrupt structures have no bound; tests try a few broken nodes", "anchors": ["src/roaring64.c: roaring64_bitmap_internal_validate, roaring64_leaf_internal_validate", "src/art/art.c: art_internal_validate, art_internal_validate_at, art_node4_internal_validate, art_node16_internal_validate, art_node48_internal_validate, art_node256_internal_validate"]}
{"id": "C128", "title": "C++ Roaring objects own their memory", "statement": "Objects of the C++ class Roaring can be constructed, copied, moved, assigned, swapped and destroyed in any order, with the calls of their methods in between: each object is a set of its own, a copy has the values of its source and shares nothing visible with it, a moved-from object is empty and can be used again, moving an object to itself empties it, frozen views can be moved, swapped, copied and destroyed. No container and no arena of a view is used after its release, released twice, or lost; when all objects are destroyed, all memory was given back. (False for the copy assignment of an object to itself, which copies released containers, and for assigning anything to a frozen view, which gives parts of the view's memory block to free.)", "quantifier": "every program over any number of objects, with or without copy-on-write; every valid content of frozen views", "why_tests_cant": "ownership errors depend on the history of moves and copies and show up only at a later use or destruction; tests run a few histories", "anchors": ["cpp/roaring.hh: Roaring::Roaring, Roaring::operator=, Roaring::swap, Roaring::~Roaring, Roaring::frozenView, Roaring::setCopyOnWrite", "src/roaring.c: roaring_bitmap_overwrite, roaring_bitmap_clear, roaring_bitmap_free, roaring_bitmap_frozen_view", "src/roaring_array.c: ra_overwrite, ra_reset"]}
{"id": "C129", "title": "Histories of standalone bitsets when memory is refused", "statement": "Any program over any number of standalone bitsets (create, create with capacity, copy, free, clear, fill, resize, grow, trim, set, set to a value, shift right, in-place union, symmetric difference, intersection, difference), with an allocator that may refuse any request: every access is within an allocated block, no block is released twice, every bit and every size is what the calls say, a call that is refused memory answers so (or, for set, leaves the bitset as it was) and does not touch other bitsets, no memory is lost, and when all bitsets are freed all memory was given back. A left shift moves the bits up if its memory is granted. (False for a left shift whose memory is refused: it ignores the refusal and writes outside the array. A union or symmetric difference whose memory is refused answers false but has combined the words both bitsets have.)", "quantifier": "every history of calls with size_t arguments, every number of bitsets, every allocator (which requests are refused, what is in fresh memory)", "why_tests_cant": "which request fails is up to the environment; tests run with an allocator that grants everything, on a few histories", "anchors": ["src/bitset.c: bitset_create, bitset_create_with_capacity, bitset_copy, bitset_free, bitset_clear, bitset_fill, bitset_resize, bitset_grow, bitset_trim, bitset_shift_left, bitset_shift_right, bitset_inplace_union, bitset_inplace_symmetric_difference, bitset_inplace_intersection, bitset_inplace_difference", "include/roaring/bitset/bitset.h: bitset_set, bitset_set_to_value, bitset_get, bitset_size_in_words", "src/memory.c: roaring_malloc, roaring_realloc, roaring_calloc, roaring_free"]}
{"id": "C130", "title": "Questions about standalone bitsets are answered from memory that is allocated", "statement": "After any history of calls on standalone bitsets, even if memory was refused in between: counting, emptiness, least and greatest bit, the next set bit, buffers of set bits, iteration with a callback, intersection tests, inclusion, and the counts of unions, intersections, differences and symmetric differences (also of a bitset with itself) load only words of allocated blocks, never words beyond the size in use, and answer what the sets of bits say.", "quantifier": "every history of calls with size_t arguments, every allocator, every pair of bitsets, start, buffer capacity and callback", "why_tests_cant": "unrolled loops and early exits depend on the sizes; stale words beyond the size in use and refused memory are not reached by tests", "anchors": ["src/bitset.c: bitset_count, bitset_empty, bitset_minimum, bitset_maximum, bitsets_disjoint, bitsets_intersect, bitset_contains_all, bitset_union_count, bitset_intersection_count, bitset_difference_count, bitset_symmetric_difference_count", "include/roaring/bitset/bitset.h: bitset_next_set_bit, bitset_next_set_bits, bitset_for_each"]}
{"id": "C131", "title": "Writing a bitmap into a standalone bitset stays within memory, or changes nothing", "statement": "roaring_bitmap_to_bitset, into any standalone bitset after any history of calls and with memory that may be refused: it accesses only words of allocated blocks, answers true exactly if its request for memory (if any) is granted, then leaves the bitset with just the words up to the maximum of the bitmap and, if the bitset had no set bits, with exactly the values of the bitmap as bits; if refused it answers false and changes nothing. Other bitsets keep their bits, no memory is lost, and any further history of calls works from there.", "quantifier": "every bitmap, every history of calls before and after, every allocator, every bitset of the program", "why_tests_cant": "the last container is cut at the maximum of the bitmap, ranges are written two words at a time up to the end of the array, and refusals come at any request", "anchors": ["src/roaring.c: roaring_bitmap_to_bitset", "src/bitset_util.c: bitset_set_list", "include/roaring/bitset_util.h: bitset_set_lenrange", "src/bitset.c: bitset_resize"]}
{"id": "C132", "title": "Ranks of many values, iteration and the Jaccard index stay within memory and answer from the values", "statement": "For every well-formed 32-bit bitmap in memory: roaring_bitmap_rank_many with increasing queries and an array with one place per query writes only in that array, gives each query its rank as long as the bitmap has a value with the same or greater upper 16 bits, and leaves the rest of the array as it was; roaring_iterate and roaring_iterate64 call the callback on the values in increasing order until it answers false; the Jaccard index divides the size of the intersection by that of the union. All terminate and access only cells and elements in use.", "quantifier": "every bitmap, capacity and unused memory contents; every increasing list of queries and every array; every callback with any state", "why_tests_cant": "the loop over queries and containers moves one of two positions at a time, depending on how the queries lie between the containers; the callback is arbitrary", "anchors": ["src/roaring.c: roaring_bitmap_rank_many", "src/roaring.c: roaring_iterate", "src/roaring.c: roaring_iterate64", "src/roaring.c: roaring_bitmap_jaccard_index"]}
{"id": "C133", "title": "Calls that share a bulk context, and statistics, stay within the memory of the bitmap", "statement": "Any sequence of roaring_bitmap_add_bulk and roaring_bitmap_contains_bulk on one context that was zeroed at first accesses only cells and elements in use, adds exactly the given values, and answers each question from the values present at that time, whatever blocks the allocator gives out. roaring_bitmap_statistics gives the number of values, the extreme values, one container for every upper half of a value, and counters of kinds that add up.", "quantifier": "every bitmap in memory, every sequence of bulk calls, every allocator that grants its requests", "why_tests_cant": "the context may point before, at or after the container of the next value, to containers that were replaced or moved by earlier calls on it, in any order", "anchors": ["src/roaring.c: roaring_bitmap_add_bulk", "src/roaring.c: roaring_bitmap_contains_bulk", "src/roaring.c: roaring_bitmap_statistics", "include/roaring/roaring_array.h: ra_advance_until"]}
{"id": "C134", "title": "Functions of half-open ranges stay within memory for any ends, and constructors from lists build the list", "statement": "roaring_bitmap_add_range, remove_range, flip, flip_inplace, contains_range and range_cardinality, with any 64-bit ends, access only cells and elements in use and leave a well-formed bitmap; they treat exactly the values v with lo <= v < hi (proved for ranges that end at 2^32 at most, are empty or begin beyond 2^32; false for others, where the ends are cut to 32 bits). roaring_bitmap_of and roaring_bitmap_of_ptr build exactly the given values, whatever blocks the allocator gives out.", "quantifier": "every bitmap in memory, every pair of ends, every list of values, every allocator that grants its requests", "why_tests_cant": "64-bit ends that do not fit into 32 bits, and every position of the ends relative to the containers", "anchors": ["include/roaring/roaring.h: roaring_bitmap_add_range", "include/roaring/roaring.h: roaring_bitmap_remove_range", "src/roaring.c: roaring_bitmap_flip", "src/roaring.c: roaring_bitmap_flip_inplace", "src/roaring.c: roaring_bitmap_contains_range", "src/roaring.c: roaring_bitmap_range_cardinality", "src/roaring.c: roaring_bitmap_of", "src/roaring.c: roaring_bitmap_of_ptr"]}
{"id": "C135", "title": "Writing the frozen format reads only memory in use and writes exactly the announced bytes", "statement": "For every well-formed 32-bit bitmap in memory, roaring_bitmap_frozen_serialize reads only cells and elements in use, so the bytes do not depend on capacities and unused memory; it writes exactly roaring_bitmap_frozen_size_in_bytes bytes, in the documented layout, and nothing else; with less room it writes out of bounds; a frozen view of the bytes at an address that is a multiple of 32 has exactly the values of the bitmap.", "quantifier": "every bitmap in memory, every capacity and contents of unused memory, every buffer and offset", "why_tests_cant": "the bytes of each kind of container go to their own zone, whose position depends on all containers; leaks of unused memory show only for particular capacities", "anchors": ["src/roaring.c: roaring_bitmap_frozen_size_in_bytes", "src/roaring.c: roaring_bitmap_frozen_serialize", "src/roaring.c: roaring_bitmap_frozen_view"]}
