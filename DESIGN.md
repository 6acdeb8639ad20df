# A Lean 4 model of CRoaring

## 1. What is modelled, and how

The model is functional. Each C function becomes a total Lean function that returns the new value of
whatever the C code mutates. Every definition cites the file and lines in `/repo` that it models.

* **16-bit containers.** `Container` has three constructors: an array (`List Nat`, the sorted values),
  a run list (`List (Nat x Nat)`, `rle16_t {value,length}`), and a bitset (a cached cardinality, `-1`
  meaning `BITSET_UNKNOWN_CARDINALITY`, and the list of 64-bit words as `BitVec 64`).
  Masks, shifts and `w & (w-1)` tricks are modelled on `BitVec 64`.
* **Bitmaps.** `Bitmap` is the list of `(key, container)` pairs of `roaring_array_t`.
* **Numbers.** Values are `Nat`. Where the C code narrows to `uint16_t`/`uint32_t`, or where a sum may wrap,
  the model writes the reduction modulo a power of two explicitly.
* **Searches.** Binary and galloping searches are modelled on an index-reading function, with the C loop's
  index arithmetic, so that "reads only inside the array" can be stated.
* **Bytes.** Memory buffers are `List UInt8`. Reading or writing outside of the buffer is a distinct outcome `oob`, apart
  from the failure result `fail`. Serialized integers are little-endian (the C code only supports such hosts here).
* **Standalone bitsets.** `BSet` has the allocated words and the number of words in use. Words that the allocator leaves
  uninitialised come from a parameter `junk`, over which the theorems quantify. Accesses outside of the allocated words in
  the shifts, and `realloc` to size 0, are the outcome `none`.
* **Heap / copy-on-write.** `Model/Cow.lean` is a second model of the bitmap operations, on a heap of containers and of
  reference-counted shared containers; the cells of a bitmap hold a pointer with its typecode (shared or not). Use of a
  freed container, a wrong typecode, freeing twice and null pointers are the outcome `none`. A container function that may
  work in place or return a new container does so by an oracle, over which the theorems quantify. A wrapper and the
  container in it are one heap cell. `Model/CowMany.lean` adds the lazy and many-way operations and the shift, `Model/CowHistory.lean` the histories. `HistorySpec.lean` says what a history of calls means.

* **Radix tree.** `Model/Art.lean`: a tree of nodes with four layouts. node4 and node16 are lists of (byte, child); node48
  and node256 keep their index arrays, the mask of available slots and the count field. References to nodes are the nodes
  themselves. `Model/ArtHeap.lean` is a second model of insertion, erasure and lookup, on the arrays of nodes with their
  capacities and lists of unused places; a use of a pointer from before the last move of its array is the outcome `oob`; it is
  proved to refine the first (C106). `Model/ArtHeapShrink.lean` adds `art_shrink_to_fit` (C107). `Model/Store64.lean` puts the 64-bit bitmap on top of these arrays: leaves with an index and a type code, the array of container pointers, and container objects that are allocated and freed (C108). `Model/ArtHeapIter.lean` adds the iterators (C119), and `Model/Store64Ops.lean` the operations on two such bitmaps (C121). The loops over one bitmap (C108) use these iterators too. `Model/Store64Ask.lean` adds the functions that read one bitmap and `roaring64_iterator_t` (C122, C123), `Model/Store64More.lean` bulk contexts, flips and the functions of many values (C121, C124), `Model/Store64Validate.lean` the validation, `Model/Store64Serial.lean` the portable format, `_from_range` and `_move_from_roaring32` (C125); a call of an iterator that has lost its bitmap is not modelled. The bytes saved inside containers by shrinking are not counted. `Model/Frozen64.lean` adds the frozen format: the nodes as bytes at the offsets of a 64-bit little-endian machine, with arbitrary bytes `old` where the program writes nothing (C109, C110); there the iterators over leaves are replaced by a traversal. A container object of a view denotes the container that its bytes hold, or nothing if they are outside the buffer. `ArtHeapSpec.lean` says what the arrays have to look like. Iterators are the stack of (node, index) frames that the
  code keeps, plus key and value.
* **64-bit bitmaps.** `R64` is a radix tree of containers (`Model/Roaring64.lean`, `Iter64`, `Validate64`, `Serial64`).
  A leaf holds the container itself instead of an index into the array of containers. `shared` and `caps` oracles stand for
  what in-place container functions look at. Null pointer accesses of the bulk functions are the outcome `none`. Loops that
  walk an iterator to its end have a fuel of 2^65, more than there can be rounds; the proofs show that it suffices.

* **Standalone bitsets on memory.** `Model/BitsetMem.lean`: `bitset_t` (src/bitset.c, bitset.h) as a struct block and a block of words on a
  heap whose every access is checked, with an allocator that may refuse any request and fills fresh memory with anything. The computations
  inside of words are those of `Model/BitsetT.lean`. `Model/BitsetFrom.lean`: `roaring_bitmap_to_bitset` on that heap; `Model/BitsetFromMem.lean`: the same from a bitmap in memory.
  `Model/BitmapMemAsk.lean`: ranks of many values, iteration and the Jaccard index on the cells of C115.
  `Model/BitmapMemBulk.lean`: bulk contexts and statistics on them.
  `Model/BitmapMemOpen.lean`: half-open ranges and constructors on them.
  `Model/BitmapMemFrozen.lean`: the frozen format of them.
  `Model/BitsetAsk.lean`: the questions (counting,
  iterating, comparing) with every word loaded from that heap. Not modelled: changing calls of two bitsets with the same bitset twice (their parameters are `restrict`, so the C standard gives such calls no meaning).
* **C++ class `Roaring`.** `Model/CppOwner.lean`: an object is a bitmap of `Model/Cow.lean` or a view of an arena; its special members, `swap`,
  `frozenView`, `setCopyOnWrite`, and library calls on objects that are no views. Not modelled: the arrays of keys and pointers of an object, refusals of memory and exceptions (C128).
* **C++ class `Roaring64Map`.** `Model/Map64.lean`: the `std::map` is the list of (key, inner 32-bit bitmap) sorted by key;
  map iterators are keys (or the end). Exceptions and `ROARING_TERMINATE` are the outcome `none`. The inner bitmaps are those of
  the model of `roaring.c`, so the theorems include the C code below. Whether the two arguments of an operator are the same
  object is a parameter; the order in which a priority queue breaks ties is arbitrary.

Abstraction: the meaning of a container or bitmap is its characteristic function `has : Nat -> Bool`.
`Spec.lean` contains the whole specification vocabulary: union, intersection, ... of characteristic
functions, counting, sorted enumeration. Property theorems are in `Verif/Props/*.lean`, apart from the
lemmas; they mention only the modelled API, `has`, validity and `Spec.lean`.

* **Vector code.** `Model/Simd.lean`, `SimdMerge.lean`: a 128-bit register is a list of eight 16-bit lanes; byte shuffles, `cmpestrm`,
  `cmpistrm`, `alignr` and so on are list functions; the shuffle tables are the code's. Loads and stores outside a buffer are the
  outcome `oob`. `Model/RunMem.lean`: run containers as buffers with a capacity, allocation succeeding (C111). `Model/ArrOps.lean` and `Model/ContMem.lean`: array containers and containers of all kinds as blocks with a capacity, with checked accesses. `Model/BitmapMem.lean`: `roaring_array_t` as one block of cells with `size` of them in use, and the functions of src/roaring.c that walk over it by index (C115; `Model/BitmapMemRange.lean` has the ranges, the flips, the lists of values and the conversions, `Model/BitmapMemLazy.lean` the lazy operations and those on many bitmaps, `Model/BitmapMemOffset.lean` the shifts and the paging, `Model/BitmapMemQuery.lean` the questions (C116), `Model/BitmapMemSerial.lean` the bytes (C117), `Model/BitmapMemIter.lean` the iterators (C118)); all blocks of one size that one call allocates have the same, arbitrary, contents; copy-on-write, freeing and refused requests are in other models. `Model/Alloc.lean`: bitmaps, their arrays, containers and buffers as blocks of a memory whose requests may be refused (C112, C113); `realloc` is a new block and the release of the old one, the kind of a block replaces its bytes. `Model/ArrayMem.lean`: array containers as buffers with a capacity, the scalar routines on memory, and the
  operations of `array.c` with and without AVX2. They are proved to give the values of the portable model, on which everything else is
  built (C94-C98). `Model/SimdExtract.lean`: enumeration into the caller's array with AVX-512, AVX2 or neither; registers are lists
  of 16- or 32-bit lanes, the decoding tables are the code's (C99, C100).
  `Model/SimdBits.lean`: operations and counts of bitset containers (AVX-512, AVX2 Harley-Seal, NEON, portable), `memequals`, run counts,
  the assembly loops (C101, C102). `Model/Isa.lean`: detection of the processor, with threads (C103, C104).
  `Model/CowThreads.lean`: a shared container, its counter and the threads that hold references to it (C105).

Not modelled: SIMD variants not named above (all calls that select one by `croaring_hardware_support` are), allocation failure (except in C112 and C113),
growth policy of buffers (except of array containers in C94-C98, run containers in C111 and the arrays of a bitmap in C112), thread interleavings (except in C104 and C105),
the standard output itself (the printing functions give the text, C87 and C126), floating point (`jaccard` is given as the exact pair numerator/denominator).

## 2. Trusted base

* Lean 4.33.0's kernel, with at most the axioms `propext`, `Classical.choice`, `Quot.sound`. No own axioms,
  no `sorry`, no `native_decide`, no `bv_decide`.
* The reading of the C code into the model (cited on each definition).
* Compiler intrinsics (`popcount`, `ctz`, `clz`) behave as specified.

## 3. Plan per property

| id | modelled | proof |
|----|----------|-------|
| C01 C02 | add/remove/contains down to array insertion, run add/remove, bitset words | refinement to `has` |
| C03 | all public operations | invariant by induction over a list of operations |
| C04-C08 | every `container_{or,and,andnot,xor}` pairing and in-place variant, and the bitmap merges | refinement, one lemma per container function |
| C09 C10 C16 | cardinalities of the three containers, counting intersections | `count` lemmas on characteristic functions |
| C11 C12 | `container_equals`, `container_is_subset`, bitmap loops | decision procedures proved exact |
| C13 C14 C15 C17 | range functions | refinement; C14 is false for ends above 2^32: negation by witness and `_partial` |
| C18 C19 C20 C21 | rank/select/min/max loops | `count` lemmas; C20 is false when a query exceeds the last container; C19 has a wrap-around corner |
| C22 C23 C24 | export loops, callbacks | equality with the sorted enumeration |
| C25 C26 | iterator state machine | simulation with a cursor on the enumeration |
| C27 | conversions | refinement |
| C28-C32 | byte-level writers and readers | round-trip, exact sizes, no out-of-range read for arbitrary bytes |
| C33 C34 | lazy operations, priority queue | refinement with weaker invariant for lazy containers |
| C35 | bulk contexts | context invariant |
| C36 | from_range | refinement; C36 is false for steps >= 65536 near 2^32 (non-termination) |
| C37 | add_offset | refinement |
| C38 | reference-counted heap, all calls over a pool of bitmaps | invariant by induction over all histories; false for `remove_many`, `range_uint32_array` and `or_many_heap` (C114) under copy-on-write: negations by witness and `_partial` |
| C41 | the same heap | refinement |
| C39 C40 C42-C44 | corresponding functions | refinement / corollaries |
| C45 | the portable writer | equality with an independent definition of the layout |
| C46 | `roaring_bitmap_frozen_view` on arbitrary bytes | outcome `oob` excluded for all inputs |
| C47 | `roaring_bitmap_portable_deserialize_frozen` | refinement; false for serialized sizes of 4 GiB and more: negation by witness and `_partial` |
| C48 C49 C51 | the standalone `bitset_t`: all of `bitset.c` and `bitset.h`, with capacity, uninitialised words as an arbitrary parameter | refinement; invariant by induction over all ways to build a bitset |
| C50 | shifts, with out-of-range accesses as a distinct outcome | refinement; false for empty bitsets and large shifts: negations and `_partial` |
| C52 | `bitset_trim` | refinement; false for bitsets without set bits: negation and `_partial` |
| C53-C74 C80 | `roaring64.c`: all public functions of updates, queries, set operations, ranges, bulk, iterators, on the radix tree | refinement to characteristic functions on [0, 2^64); history theorem C54; C59 C61 C65 C69 C71 are false in corners: negations by witness and `_partial` |
| C75-C77 | the 64-bit portable format at byte level | round trip, bounds for arbitrary bytes, equality with an independent layout; C75 false for 2^32 buckets |
| C78 | `art.c`: insert, erase, find, iterators and bounds | invariant by induction over all histories, against a map and its order |
| C81-C87 C90 C91 | `cpp/roaring64map.hh`: updates, ranges, bulk, operators, queries, enumeration, compression | refinement to sets of 64-bit values; history theorem C91; C85 C86 C90 false in corners: negations by witness and `_partial` |
| C94 C95 C96 C97 | `intersect_vector16`, `difference_vector16`, `union_vector16`, `xor_vector16` with their tables, and the callers in `array.c` | blocks: loop invariant on the two positions; merging network by the 0-1 principle; refinement to the scalar routines |
| C98 | in-place routines: inputs are functions of the output memory | invariant: what has not been read has not been overwritten, or with the same value |
| C99 | the extraction loops on an output memory, `ra_to_uint32_array`, `ra_range_uint32_array` with its buffer | invariant: what is before the position is right, what is behind the allowed end is untouched; table rows by `decide` over all 256 bytes |
| C100 | log of calls of the memory functions in `ra_range_uint32_array` | refinement of the loop; false in general (D32), the exact condition is proved |
| C101 | registers as lists of lanes, the carry-save adder tree, 16-bit NEON sums, destination memory with sources as functions of it | invariant: 16 times the total plus weighted partial sums is the count so far (mod 2^64); lanes stay below 65536 |
| C102 | `memequals` as loops over blocks, assembly as steps on registers and carry flag | induction over the loops |
| C103 | `cpuid`/`xgetbv` results as numbers, the function that tests them | bitwise characterization of the result; false for BMI2 (D34), proved |
| C104 | small-step semantics of threads, one access to a static variable per step, any schedule (sequentially consistent, as C atomics are) | invariant over all reachable states, measure for progress; a reachable racing state for the plain `int` (D35) |
| C105 | small-step semantics of threads over one shared container and its counter, one atomic operation or one visit per step, any schedule | false (D36), two-thread schedules; with a copy that is kept, and with modifications in one go: invariant over all schedules; without atomics nothing is released (D37) |
| C106 | arrays of nodes, references, pointers with the generation of their array, lists of unused places | simulation of the tree model, with separation of subtrees by footprints; induction over histories |
| C107 | the arrays of C106 with sorting of the lists, moves, and cutting of the arrays | simulation: the same tree at lower places, lists kept ascending; false for empty trees (D38), histories as witnesses |
| C108 | `R64M`: arrays of the radix tree, array of container pointers, container objects; use after free, wrong type, null entry and stale pointer are the outcome `oob` | invariant (`Slots`, `FirstFree`) over the tree invariant of C106; each call refines the call on trees of containers, whose set semantics is known |
| C109 | byte image of the node arrays and containers, buffer as a list of bytes, address of the buffer, reads and writes outside are `oob` | the bytes as a function of the bitmap; the view simulates the bitmap on the nodes that are reachable (`Like`), its objects are the containers in key order |
| C110 | as C109 with prefixes of the bytes | false (D39, D40), for every bitmap; what holds: prefixes that end before the tree, or in the last padding |
| C111 | `Model/RunMem.lean`: buffer of runs with capacity, checked accesses, arbitrary new memory | refinement of the list model of run containers: capacity invariant (runs written plus runs left to read fit); for the in-place flip of a full buffer, the number of runs is counted by the changes of membership |
| C112 | `Model/Alloc.lean`: memory as a map from addresses to blocks, every request granted or refused by an arbitrary schedule; spec `AllocSpec.lean` | ownership invariant: the memory is the frame plus exactly the blocks owned so far; each function is proved against it for every outcome of its requests |
| C113 | as C112, with a list of bitmaps and calls; shared containers on their own | induction over the calls with the invariant that the blocks of the bitmaps are pairwise disjoint and are all that was added |
| C114 | `Model/CowMany.lean`, `Model/CowHistory.lean`: the lazy operations, the many-way operations and the shift on the heap of C38 | each call refines its set-level model and keeps the ownership invariant; the queue of `or_many_heap` with an invariant on its elements; false for later uses of the result of `or_many_heap` under copy-on-write: negation by witness and `_partial` |
| C115 | `Model/ArrOps.lean`, `Model/ContMem.lean`, `Model/BitmapMem.lean`, `Model/BitmapMemRange.lean`, `Model/BitmapMemLazy.lean`, `Model/BitmapMemOffset.lean`, `Model/BitmapMemHistory.lean`: the blocks of the containers and of the keys with their capacities, every access checked | each function on memory gives what its set-level model gives, and no `.oob`; then induction over all histories; `BitmapBufSpec.lean` says what a bitmap in memory means |
| C116 | `Model/BitmapMemQuery.lean`: the functions of roaring.c that ask about bitmaps, on the blocks of `Model/BitmapMem.lean`; a container is read as a whole through `CBuf.load`, which is `oob` if its counter exceeds its block | each function on memory gives what its set-level model gives, by induction over the cells that are left; then the theorems about the set-level model; with C115 for all histories |
| C117 | `Model/BitmapMemSerial.lean`: the writers and readers of roaring_array.c and roaring.c and `roaring_bitmap_internal_validate` on the blocks of `Model/BitmapMem.lean`; keys are written into the cells first and containers put in one by one, as in the code; a bitset's words and an array's values are copied as a whole | the writers give what their set-level models give, by induction over the cells that are left; for the readers a relation between the two computations: both `oob`, both `NULL`, or the blocks hold the bitmap, by induction over the containers that are left; then C28 to C31 |
| C118 | `Model/BitmapMemIter.lean`: the container iterators and `roaring_uint32_iterator_t` on the blocks of `Model/BitmapMem.lean`, every read through an index and every value stored in the caller's array checked; `container_maximum` and the searches of the lower bound read the container as a whole | each move gives what the model of C25 gives, by induction over the words, values or runs that are left, from the invariant of C25 that ties the index, the value and the container together; reads by induction over the containers that are left; then the cursor of C25 |
| C119 | `Model/ArtHeapIter.lean`: `art_iterator_t` with its seven frames of references and positions, on the arrays of `Model/ArtHeap.lean`; every access to a frame, a byte of a key or a node is checked. The specification is in `ArtIterSpec.lean` | each move of the frames follows the move of the model of C78, by induction over the levels, from an invariant that ties the frames to the path in the tree; insert and erase are tied to those of C106, with a frame lemma for the nodes above the place of the change; then the cursor |
| C120 | as C119 | full statement false: proved negations (an iterator made beyond the last key by a search; an iterator that has erased the last key) and the part that holds, from C119 |
| C121 | `Model/Store64Ops.lean`: the loops over two bitmaps of `Model/Store64.lean` with the iterators of `Model/ArtHeapIter.lean`, inserting and erasing through them; whether a container function in place reuses its object is a parameter. The specification, several bitmaps and the sets they stand for, is in `Store64PoolSpec.lean` | for each loop, induction on its counter with an invariant: both iterators have passed the keys before a bound that grows in every round, the containers before it are done, those after it untouched; key by key these are the set operations; then histories by induction |
| C122 | `Model/Store64Ask.lean`: the functions that read one bitmap of `Model/Store64.lean`, with the iterators of `Model/ArtHeapIter.lean`; what they answer about a set is in `Store64AskSpec.lean` | each loop on memory is `ok` of the loop on the tree of `Model/Art.lean` (a simulation of the two iterators), about which C60 to C67 were proved; histories by C121 |
| C123 | `Model/Store64Ask.lean`: `roaring64_iterator_t` with the iterator on memory inside | the same simulation, for each call; then C68 |
| C124 | `Model/Store64More.lean`: the bulk functions with a context that keeps a pointer to a leaf, `_of_ptr`, `_clear` and the flips on memory; `BulkSafe` in `Store64PoolSpec.lean` says which sequences of bulk calls are safe | each call simulates the one on the tree, where the context is a key; the context's pointer leads to the leaf as long as the leaf is there, because the arrays of nodes move only in calls that insert a leaf, and these set the pointer anew; not safe is exactly when the tree has no leaf for the context's key |
| C125 | `Model/Store64Serial.lean`: the portable functions, `_move_from_roaring32` and `_from_range` on memory, with the objects that are left when the reader gives up | writing and measuring equal the functions on trees (C75, C77), by simulation of their loops over the iterator; reading simulates the reader on trees, and a reader that gives up frees all objects, because at each moment the memory is that of a bitmap; `.fromRange`, `.moveFrom32` and `.roundTrip` are calls of the histories of C121 |
| C126 | `Model/Print.lean`: the printing functions, whose result is the text; `PrintSpec.lean`: decimal numbers, texts with separators and a reader of numbers | each loop prints the numbers of `to_uint32_array` with separators, by induction over words, runs and cells; the reader gets a list back from its text, because digits and separators differ |
| C127 | `Model/Store64Validate.lean`: `art_internal_validate` on the arrays of nodes, with the tests on references and free lists, and the container of each leaf | completeness: on a tree that the arrays represent the answer is that of the leaves, by induction over the representation; soundness: from acceptance the tree is built, by induction over the levels, and two nodes at one place are excluded because the leaves below them lie below different keys |
| C128 | `Model/CppOwner.lean`: the special members of `Roaring`, `swap`, `frozenView`, on the heap of containers of C38 and the arenas of views; `OwnerSpec.lean`: objects as sets | invariant: the containers in memory are counted by the pointers of the objects, each arena by one view; moves are exchanges with a blank object, copies use the theorems of C38 and C41, calls keep the objects they are not given |
| C129 | `Model/BitsetMem.lean`: `bitset_t` as two blocks of a checked heap (struct and array of words), every request answered by an allocator that may refuse; `BitsetHistSpec.lean`: bitsets as a number of words and a set of bits | invariant: no two bitsets share a block and every block belongs to one; each call is shown to compute the value of C50's model, or the value of a refused call; induction over the history |
| C130 | `Model/BitsetAsk.lean`: the questions of bitset.c and bitset.h with every word loaded from the heap of C129, unrolled loops as written; `BitsetAskSpec.lean`: the list of set bits | each loop equals the loop of the value model (C48, C49) because its loads are within the size; then the invariant of C129 |
| C131 | `Model/BitsetFrom.lean`: `roaring_bitmap_to_bitset` with every load and store of the bitset, and of the words of a bitset container that is copied, checked on the heap of C129; the containers of the bitmap are values, and in `Model/BitsetFromMem.lean` they are loaded from the bitmap's cells in memory | each loop equals that of the value model (C39) because the greatest value bounds its words; then the invariant of C129 |
| C132 | `Model/BitmapMemAsk.lean`: `roaring_bitmap_rank_many`, `roaring_iterate`, `roaring_iterate64` and `roaring_bitmap_jaccard_index` on the cells of C115, with checked loads and checked stores into the caller's array | each loop equals that of the value model (C20, C24, C10), by induction over the cells (and the queries) that are left |
| C133 | `Model/BitmapMemBulk.lean`: `roaring_bitmap_contains_bulk` and `roaring_bitmap_statistics` on the cells of C115 (`add_bulk` was there); the container pointer of a context is the container in the cell of its index, so bitmaps that are changed by other calls between two uses of the context are left out | each call equals that of the value model while the context points to a cell of the bitmap (C35), which every call keeps |
| C134 | `Model/BitmapMemOpen.lean`: the functions of half-open ranges, and `roaring_bitmap_of(_ptr)`, on the cells of C115 | from the theorems of the closed ranges (C115, C116); partial, because ranges that end beyond 2^32 are cut (`C134_false`, the defect of C14) |
| C135 | `Model/BitmapMemFrozen.lean`: `roaring_bitmap_frozen_size_in_bytes` and `roaring_bitmap_frozen_serialize` with checked loads of the cells of C115 and checked stores into the buffer | each loop equals that of the value model (C32), by induction over the cells that are left; the last store is the end of the announced bytes |
| C88 C93 | iterators of the classes `Roaring64Map` and `Roaring`, `toString` | simulation with a position in the increasing list of values; false for maps with empty parts, for `end() == it`, and for `end()` of a second bitmap: negations and `_partial` |
| C89 C92 | serialized and frozen forms of `Roaring64Map` | bytes as a function of the map, written and read back by induction over the parts; false for `readSafe` on hostile data, for the native form of some maps and for unaligned buffers: witnesses and `_partial` |
| C79 | `art_internal_validate` | equivalence with an independent definition of well-formed trees; false for the count of node48 |

## 4. Suspected defects found while reading

See the section at the end of this file, kept current as theorems are proved.

* D1: half-open 64-bit ranges are truncated to 32 bits (C14).
* D2: `from_range` with `step >= 65536` may not terminate (C36).
* D3: `rank_many` leaves answers unwritten for queries above the last container (C20).
* D4: `intersect_with_range` truncates its lower bound (C40).
* D5: `remove_many` drops a reference twice on a shared container (C38).
* D6: `range_uint32_array` overwrites the type code of shared containers (C38).
* D7: mixing bitmaps with and without copy-on-write (documented as unsafe).
* D14: `add_bulk` with a context from `contains_bulk` drops a reference twice on a shared container (C38).
* D15: `roaring_bitmap_overwrite(x, x)` copies freed containers (C41).
* Not modelled: a bulk context that is kept while its bitmap is copied with copy-on-write leads to the container inside of
  the wrapper, so a later `add_bulk` writes into a shared container; `ra_range_uint32_array` gives memory of
  `roaring_malloc` to `free`.
* D8: frozen serialization of shared containers is undefined behaviour (C32).
* D9: `select` on the full bitmap whose last container is a bitset fails because of 32-bit wrap-around (C19).
* D10: the 32-bit offsets of the portable format wrap for bitmaps whose serialized form reaches 4 GiB; the in-place view of such bytes is wrong (C47). The copying reader skips the offsets and is not affected.
* D11: `bitset_trim` of a bitset with allocated memory but without set bits calls `realloc(p, 0)` and keeps the pointer (C52).
* D12: `bitset_shift_left` of a bitset without words by a non-multiple of 64 reads `array[-1]`; `bitset_shift_right` by more than the words in use accesses memory outside of the array (C50).
* D13: the per-kind value counters of `roaring_bitmap_statistics` have 32 bits and wrap to 0 for all 2^32 values in run or bitset containers (C42).
* Not modelled: `frozen_view` may form misaligned `uint16_t` pointers before it has compared the length (alignment of inner arrays).
* D16: `roaring64_bitmap_remove_many`/`remove_bulk` dereference a null pointer after a removal emptied the container and the next value has the same high 48 bits (C71).
* D17: `roaring64_iterator_read` that exhausts the bitmap leaves the iterator in the state of one before the first value: a following advance restarts (C69).
* D18 (`C110_other_bytes_false`): `roaring64_bitmap_frozen_view` multiplies sizes from the buffer without overflow checks and does not check the references in the tree, so bytes that `roaring64_bitmap_frozen_serialize` did not write can make it access memory outside the buffer. The documentation asks for bytes written by that function (for incomplete buffers see D39).
* D19 (read, not proved): `roaring64_bitmap_move_from_roaring32` of a copy-on-write bitmap takes over shared containers.
* D20: `art_internal_validate` does not compare the count of a node48 with its children (C79).
* D21: `roaring64_bitmap_contains_range` answers true when the container of the last value is missing but a later container exists (C61).
* D22: the cardinality of the full 64-bit set wraps to 0: `is_strict_subset` and `select` are wrong for it (C59, C65).
* D23: the portable format of a bitmap with all 2^32 high halves is refused by the reader (C75).
* D25: the answers of `Roaring64Map::runOptimize` and `removeRunCompression` are the conjunction over the inner bitmaps, not what is documented (C90).
* D24: `move_equalorlarger` of the iterator of `Roaring64Map` answers true on a map where it only finds an empty inner bitmap; postfix `--` from the end stops in an empty last one (C88). The calls of the class never make such maps (`C91_no_empty_parts`); reading serialized data does.
* D26: `Roaring64Map::readSafe` goes forward by the size in which it would write the part just read; 23 bytes in which the first of two parts has a cookie for run containers but none of them make it read out of bounds (`C89_read_safe_false`).
* D27: `==` and `!=` of these iterators dereference the end of the map when the left side is at the end and the right side is not (C88).
* D28: `Roaring::end()` is one static iterator, made for the first bitmap it was called on (C93).
* D29: `Roaring64Map::read(buf, false)` has the same flaw for bytes that `write(buf, false)` itself wrote: a part with many short runs is written as a list of values, read as an array container, and skipped by a wrong length, so that reading throws (`C89_native_false`).
* D30: `Roaring64Map::getFrozenSizeInBytes` counts the padding for a buffer at a multiple of 32; at other addresses `writeFrozen` can need up to 19 bytes more and overflows the buffer (`C92_size_false`).
* D31 (latent): `array_container_intersection` reserves the eight extra places the vector code may write to only when the output is too small anyway; an output with a capacity between the number of values and eight more is overrun (`C94_room_needed`). The only caller passes a new container.
* D32: `ra_range_uint32_array` (`roaring_bitmap_range_uint32_array`) allocates its buffer with `roaring_malloc` and releases the last one with `free`: with memory functions set by `roaring_init_memory_hook` a foreign block goes to the C library (`C100_memory_hooks_partial`).
* D33 (unused code): `bitset_extract_setbits_sse_uint16` tests for room for 16 values and then writes the up to 64 values of a word (`C99_sse_uint16_out_of_bounds`). The extraction functions are declared in a header that is not part of the public API.
* D34 (latent): the assembly that runs when AVX2 is found uses the BMI2 instruction `shrx`, and the AVX2 code is compiled for BMI1 and LZCNT, but only the AVX2 bit is tested (`C103_bmi2_not_tested`). The assembly of `_asm_bitset_set_list_withcard` and `_asm_bitset_set_list` also lacks the "memory" clobber that `_asm_bitset_clear_list` has; that is outside the model.
* D35 (latent): in C++ and in C without atomics the static `support` of `croaring_hardware_support` is a plain `int` that several threads may write and read at once: a data race by the language rules (`C104_plain_int_race`); the values would be equal.
* D36 (use after free): `shared_container_extract_copy` gives its reference up (`croaring_refcount_dec`) and only then clones `sc->container`. If in between another thread drops the last reference, container and `shared_container_t` are released, or changed in place by their new owner, while the first thread reads them (`C105_modify_race`, `C105_free_race`). README.md says that copies may be used in different threads.
* D37 (leak): with `CROARING_ATOMIC_IMPL_NONE`, `croaring_refcount_dec` ends with `return val == 0;`, which compares the pointer: shared containers are never released (`C105_no_atomics_leak`).
* D38 (leak): `art_shrink_to_fit` on an empty tree does not sort the lists of unused places before it cuts each array at the first unused place. The places before it stay allocated but are on no list any more; they are never used again, later shrinks keep them, and every round of filling, emptying and shrinking loses more (`C107_lost`).
* D39 (out of bounds): `roaring64_bitmap_frozen_view` moves its pointer to the next multiple of 8 before the tree without subtracting the padding from `maxbytes`: a buffer that ends 8 bytes after the header passes the check, and the root is read outside (`C110_truncated_false`, for every bitmap). For the same reason a buffer that is up to 7 bytes too short is accepted and its last container lies outside. And a buffer that ends inside the tree or inside the containers is refused by freeing a bitmap whose root is set but whose arrays of nodes are null, or whose array of containers was not initialised (examples beside C110).
* D40: a view has `first_free = 0`, so `is_shrunken` is false for it unless it is empty: `roaring64_bitmap_frozen_size_in_bytes` gives 0 and `roaring64_bitmap_frozen_serialize` writes nothing (`C110_again_false`).
* D41 (allocation failure): `roaring_bitmap_copy` with copy-on-write does not look at the result of `get_copy_of_container`: if the shared container cannot be allocated, the slot of the source becomes NULL, the container is lost, and the copy is returned as if nothing had happened (`C112_copy_cow_false`).
* D42 (allocation failure): `roaring_bitmap_overwrite` releases the containers of the destination before it asks for larger arrays; if these are refused it returns false with `size` unchanged and pointers to released containers, although the header promises a valid, empty bitmap (`C112_overwrite_false`, for all bitmaps where the arrays have to grow). With the documented use, `roaring_bitmap_free` of the destination, memory is released twice.
* D43 (allocation failure): `run_container_read` does not look at the result of `run_container_grow`: `roaring_bitmap_portable_deserialize_safe` copies to NULL (`C112_read_false`).
* D44 (allocation failure): `ra_append` and `ra_insert_new_key_value_at` ignore the result of `extend_array` and write outside of the arrays (`C112_insert`, `C112_append`: exactly if the arrays are full and the request is refused).
* D45 (allocation failure): `array_container_shrink_to_fit` and `run_container_shrink_to_fit` release the old buffer if the smaller one is refused: the values are lost (`C112_shrink_container_false`), although the call needs no memory.
* D46: under copy-on-write, `roaring_bitmap_or_many_heap` of four or more bitmaps can return a bitmap whose copy-on-write flag is off although the flag is on for all arguments (`lazy_or_from_lazy_inputs` creates its answer without it). A later `roaring_bitmap_or_inplace` then puts a shared container into it, and copying it uses a null pointer (`C114_false`, `C114_flag_lost`).
* D47: `art_iterator_lower_bound` on an iterator that has run out starts at the reference in its first frame. `art_lower_bound` and `art_upper_bound` leave a null reference there when no key is found at the root, so that a later search finds nothing although keys are there; and `art_iterator_erase` of the last key leaves the reference of the erased leaf there, which is then read after it was freed (`C120_missed`, `C120_freed`). No function of the 64-bit bitmaps does either.
* D48: `Roaring::operator=(const Roaring &)` of an object to itself copies released containers (`C128_false`; D15 in C++).
* D49: `operator=` of both kinds on an object that is a frozen view (`auto r = Roaring::frozenView(...); r = ...`) calls `roaring_bitmap_clear` or `roaring_bitmap_overwrite` on it, which give parts of the view's arena to `free`; only the destructor tests the flag (`C128_view_assign_false`).
* D50: `bitset_shift_left` ignores the answer of `bitset_resize`; if memory is refused it writes outside the array (`C129_shift_left_false`).
* D51: `bitset_inplace_union` and `bitset_inplace_symmetric_difference` that are refused memory answer `false` after having changed the words both bitsets have (`C129_union_not_atomic`).
* `Roaring64Map`: `isStrictSubset` throws for a full second map; `rank` wraps to 0 for the full map; `select` terminates the program on a full inner bitmap (D9) (C85, C86).
