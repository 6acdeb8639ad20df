import Verif.Model.Art
import Verif.Model.Bitmap
import Verif.Model.Query
import Verif.Model.Stats
/-
Model of the 64-bit bitmap: src/roaring64.c (iterators and serialization are in `Iter64.lean` and `Serial64.lean`).

A 64-bit bitmap is an adaptive radix tree whose leaves hold containers.  Simplification: in the code a leaf holds the
index of a cell of the array `containers` and a type code; here it holds the container itself, so `get_container` and
`get_typecode` are the leaf's value, `add_container` and `remove_container` are not seen, and `replace_container` is a
store in the leaf.  The management of the cells is modelled separately in `Slots64.lean`.  A container is never
shared here, except where the model takes an argument `shared` that says so.

Loops over an iterator carry a counter; `FUEL` is more than the number of rounds of any of them (proved with the
property of each function).  The cardinalities that are `uint64_t` are reduced modulo 2^64.
-/
namespace CRoaring

/-- `roaring64_bitmap_t`: src/roaring64.c:37-43. -/
abbrev R64 := Option (Art Container)

/-- `art_iterator_t` on a 64-bit bitmap. -/
abbrev AIt := ArtIt Container

/-- More than the number of rounds of any loop: 2^65. -/
def FUEL : Nat := 36893488147419103232

/-- 2^64. -/
def TOP64 : Nat := 18446744073709551616

/-- `split_key`: src/roaring64.c:73-77: the six high bytes, most significant first, and the low 16 bits. -/
def splitKey (key : Nat) : List Nat × Nat :=
  ((List.range KEY_BYTES).map (fun i => key / 256 ^ (7 - i) % 256), key % 65536)

/-- `combine_key`: src/roaring64.c:81-85: the eight bytes as a number, most significant first. -/
def combineKey (high48 : List Nat) (low16 : Nat) : Nat :=
  (high48 ++ [0, 0]).foldl (fun a b => a * 256 + b) 0 ||| low16

/-- `minimum`: src/roaring64.c:87-89. -/
def minimum64 (a b : Nat) : Nat := if a < b then a else b

/-- `value & 0xFFFFFFFFFFFF0000`: the value with its low 16 bits cleared. -/
def clearLow (x : Nat) : Nat := x / 65536 * 65536

/-- `roaring64_bitmap_create`: src/roaring64.c:225-234. -/
def r64Create : R64 := none

/-- The loop of `roaring64_bitmap_copy`: src/roaring64.c:259-274. -/
def r64CopyLoop (r : R64) : Nat → AIt → R64 → R64
  | 0, _, res => res
  | fuel + 1, it, res =>
    match it.value with
    | none => res
    | some c => r64CopyLoop r fuel (itNext r it) (artInsert res it.key c)

/-- `roaring64_bitmap_copy`: src/roaring64.c:259-274. -/
def r64Copy (r : R64) : R64 := r64CopyLoop r FUEL (artInitIterator r true) r64Create

/-- `move_from_roaring32_offset`: src/roaring64.c:283-302 (the source is left empty). -/
def r64MoveOffset (high_bits : Nat) : Bitmap → R64 → R64
  | [], dst => dst
  | (key, c) :: t, dst =>
    let high48_bits := (high_bits <<< 32) ||| (key <<< 16)
    r64MoveOffset high_bits t (artInsert dst (splitKey high48_bits).1 c)

/-- `roaring64_bitmap_move_from_roaring32`: src/roaring64.c:304-311: the new bitmap and the source afterwards. -/
def r64MoveFrom32 (bitmap32 : Bitmap) : R64 × Bitmap := (r64MoveOffset 0 bitmap32 r64Create, [])

/-- `containerptr_roaring64_bitmap_add`: src/roaring64.c:360-384; `leaf` is the container of the leaf, if there is
one. -/
def r64AddAt (r : R64) (high48 : List Nat) (low16 : Nat) (leaf : Option Container) : R64 :=
  match leaf with
  | some c => artStore r high48 (containerAdd low16 c)
  | none => artInsert r high48 (containerAdd low16 (.array []))

/-- `roaring64_bitmap_add`: src/roaring64.c:386-391. -/
def r64Add (r : R64) (val : Nat) : R64 :=
  let k := splitKey val
  r64AddAt r k.1 k.2 (artFind r k.1)

/-- The container of the leaf with the given key, read through a pointer to the leaf. -/
def leafAt (r : R64) (high48 : List Nat) : Container := (artFind r high48).getD (.array [])

/-- `roaring64_bitmap_add_checked`: src/roaring64.c:393-407. -/
def r64AddChecked (r : R64) (val : Nat) : R64 × Bool :=
  let k := splitKey val
  let leaf := artFind r k.1
  let old_cardinality := match leaf with
    | some c => containerCard c
    | none => 0
  let r := r64AddAt r k.1 k.2 leaf
  (r, old_cardinality != containerCard (leafAt r k.1))

/-- `roaring64_bulk_context_t`: include/roaring/roaring64.h:33-36: the high bytes, if the leaf pointer is not null.  The
pointer is represented by the key of its leaf. -/
abbrev BulkCtx64 := Option (List Nat)

/-- `roaring64_bitmap_add_bulk`: src/roaring64.c:409-434.  The answer `none` stands for undefined behaviour: the leaf
pointer of the context no longer points to a leaf. -/
def r64AddBulk (r : R64) (ctx : BulkCtx64) (val : Nat) : Option (R64 × BulkCtx64) :=
  let k := splitKey val
  match ctx with
  | some high_bytes =>
    if artCompareKeys high_bytes k.1 = 0 then
      match artFind r high_bytes with
      | some c => some (artStore r high_bytes (containerAdd k.2 c), ctx)
      | none => none
    else some (r64AddAt r k.1 k.2 (artFind r k.1), some k.1)
  | none => some (r64AddAt r k.1 k.2 (artFind r k.1), some k.1)

/-- The loop of `roaring64_bitmap_add_many`: src/roaring64.c:436-447. -/
def r64AddManyLoop (r : R64) (ctx : BulkCtx64) : List Nat → Option R64
  | [] => some r
  | v :: vs =>
    match r64AddBulk r ctx v with
    | some (r, ctx) => r64AddManyLoop r ctx vs
    | none => none

/-- `roaring64_bitmap_add_many`: src/roaring64.c:436-447. -/
def r64AddMany (r : R64) (vals : List Nat) : Option R64 :=
  if vals.length = 0 then some r else r64AddManyLoop r none vals

/-- `roaring64_bitmap_of_ptr`: src/roaring64.c:353-358. -/
def r64OfPtr (vals : List Nat) : Option R64 := r64AddMany r64Create vals

/-- The loop of `roaring64_bitmap_from_range` for large steps: src/roaring64.c:322-327. -/
def fromRange64Values (max step : Nat) : Nat → Nat → R64 → R64
  | 0, _, r => r
  | fuel + 1, value, r =>
    if value < max then
      let r := r64Add r value
      if value > TOP64 - 1 - step then r else fromRange64Values max step fuel (value + step) r
    else r

/-- The loop of `roaring64_bitmap_from_range` for small steps: src/roaring64.c:329-349.  The answer `none` stands for a
container that `container_from_range` did not make. -/
def fromRange64Containers (max step : Nat) : Nat → Nat → R64 → Option R64
  | 0, _, r => some r
  | fuel + 1, min, r =>
    let high_bits := clearLow min
    let container_min := min % 65536
    let container_max := minimum64 (max - high_bits) 65536 % 4294967296
    match containerFromRange container_min container_max (step % 65536) with
    | none => none
    | some c =>
      let r := artInsert r (splitKey min).1 c
      let gap := u64 (u32 ((container_max : Int) - container_min) + step - 1)
      let increment := gap - gap % step
      if min > TOP64 - 1 - increment then some r
      else
        let min := min + increment
        if min < max then fromRange64Containers max step fuel min r else some r

/-- `roaring64_bitmap_from_range`: src/roaring64.c:313-351; `none` stands for the answer `NULL` (or for a container
that was not made, see above). -/
def r64FromRange (min max step : Nat) : Option R64 :=
  if step = 0 ∨ max ≤ min then none
  else if step ≥ 65536 then some (fromRange64Values max step FUEL min r64Create)
  else fromRange64Containers max step FUEL min r64Create

/-- `add_range_closed_at`: src/roaring64.c:449-471. -/
def addRangeClosedAt (r : R64) (high48 : List Nat) (min max : Nat) : R64 :=
  match artFind r high48 with
  | some c => artStore r high48 (containerAddRange min max c)
  | none => artInsert r high48 (containerRangeOfOnes min (max + 1))

/-- `roaring64_bitmap_add_range_closed`: src/roaring64.c:481-510. -/
def r64AddRangeClosed (r : R64) (min max : Nat) : R64 :=
  if min > max then r
  else
    let kmin := splitKey min
    let kmax := splitKey max
    if artCompareKeys kmin.1 kmax.1 = 0 then addRangeClosedAt r kmin.1 kmin.2 kmax.2
    else
      let r := addRangeClosedAt r kmin.1 kmin.2 65535
      let min_high_bits := min / 65536
      let max_high_bits := max / 65536
      let r := (List.range' (min_high_bits + 1) (max_high_bits - (min_high_bits + 1))).foldl
        (fun r current => addRangeClosedAt r (splitKey (current <<< 16)).1 0 65535) r
      addRangeClosedAt r kmax.1 0 kmax.2

/-- `roaring64_bitmap_add_range`: src/roaring64.c:473-479. -/
def r64AddRange (r : R64) (min max : Nat) : R64 := if min ≥ max then r else r64AddRangeClosed r min (max - 1)

/-- `roaring64_bitmap_contains`: src/roaring64.c:512-521. -/
def r64Contains (r : R64) (val : Nat) : Bool :=
  let k := splitKey val
  match artFind r k.1 with
  | some c => containerContains k.2 c
  | none => false

/-- The loop of `roaring64_bitmap_contains_range`: src/roaring64.c:523-578. -/
def containsRange64Loop (r : R64) (kmin kmax : List Nat × Nat) (max_high48_bits : Nat) : Nat → AIt → Nat → Bool
  | 0, _, _ => false
  | fuel + 1, it, prev =>
    match it.value with
    | none => prev == max_high48_bits
    | some c =>
      let current := combineKey it.key 0
      if current > max_high48_bits then true
      else if u64 ((current : Int) - prev) > 65536 then false
      else
        let container_min := if artCompareKeys it.key kmin.1 = 0 then kmin.2 else 0
        let container_max := if artCompareKeys it.key kmax.1 = 0 then kmax.2 else 65536
        if container_min = 0 ∧ container_max = 65536 then
          if !containerIsFull c then false
          else containsRange64Loop r kmin kmax max_high48_bits fuel (itNext r it) current
        else if !containerContainsRange container_min container_max c then false
        else containsRange64Loop r kmin kmax max_high48_bits fuel (itNext r it) current

/-- `roaring64_bitmap_contains_range`: src/roaring64.c:523-578. -/
def r64ContainsRange (r : R64) (min max : Nat) : Bool :=
  if min ≥ max then true
  else
    let kmin := splitKey min
    let kmax := splitKey max
    let max_high48_bits := clearLow (max - 1)
    let it := artLowerBound r kmin.1
    if it.value.isNone = true ∨ combineKey it.key 0 > min then false
    else containsRange64Loop r kmin kmax max_high48_bits FUEL it (clearLow min)

/-- `roaring64_bitmap_contains_bulk`: src/roaring64.c:580-599.  The answer `none` stands for undefined behaviour, as in
`r64AddBulk`. -/
def r64ContainsBulk (r : R64) (ctx : BulkCtx64) (val : Nat) : Option (Bool × BulkCtx64) :=
  let k := splitKey val
  let fresh : Option (Bool × BulkCtx64) :=
    match artFind r k.1 with
    | none => some (false, ctx)
    | some c => some (containerContains k.2 c, some k.1)
  match ctx with
  | none => fresh
  | some high_bytes =>
    if artCompareKeys high_bytes k.1 ≠ 0 then fresh
    else match artFind r high_bytes with
      | some c => some (containerContains k.2 c, ctx)
      | none => none

/-- The loop of `roaring64_bitmap_select`: src/roaring64.c:601-624. -/
def select64Loop (r : R64) (rank : Nat) : Nat → AIt → Nat → Option Nat
  | 0, _, _ => none
  | fuel + 1, it, start_rank =>
    match it.value with
    | none => none
    | some c =>
      let cardinality := u64 (containerCard c)
      if u64 (start_rank + cardinality) > rank then
        match containerSelect 0 (u32 ((rank : Int) - start_rank)) c with
        | some (.inl e) => some (combineKey it.key (e % 65536))
        | _ => none
      else select64Loop r rank fuel (itNext r it) (u64 (start_rank + cardinality))

/-- `roaring64_bitmap_select`: src/roaring64.c:601-624: the element, if the answer is `true`. -/
def r64Select (r : R64) (rank : Nat) : Option Nat := select64Loop r rank FUEL (artInitIterator r true) 0

/-- The loop of `roaring64_bitmap_rank`: src/roaring64.c:626-647. -/
def rank64Loop (r : R64) (k : List Nat × Nat) : Nat → AIt → Nat → Nat
  | 0, _, rank => rank
  | fuel + 1, it, rank =>
    match it.value with
    | none => rank
    | some c =>
      let compare_result := artCompareKeys it.key k.1
      if compare_result < 0 then rank64Loop r k fuel (itNext r it) (u64 (rank + containerCard c))
      else if compare_result = 0 then u64 (rank + containerRank k.2 c)
      else rank

/-- `roaring64_bitmap_rank`: src/roaring64.c:626-647. -/
def r64Rank (r : R64) (val : Nat) : Nat := rank64Loop r (splitKey val) FUEL (artInitIterator r true) 0

/-- The loop of `roaring64_bitmap_get_index`: src/roaring64.c:649-676. -/
def getIndex64Loop (r : R64) (k : List Nat × Nat) : Nat → AIt → Nat → Option Nat
  | 0, _, _ => none
  | fuel + 1, it, index =>
    match it.value with
    | none => none
    | some c =>
      let compare_result := artCompareKeys it.key k.1
      if compare_result < 0 then getIndex64Loop r k fuel (itNext r it) (u64 (index + containerCard c))
      else if compare_result = 0 then
        let index16 := containerGetIndex k.2 c
        if index16 < 0 then none else some (u64 (index + index16))
      else none

/-- `roaring64_bitmap_get_index`: src/roaring64.c:649-676: the index, if the answer is `true`. -/
def r64GetIndex (r : R64) (val : Nat) : Option Nat :=
  getIndex64Loop r (splitKey val) FUEL (artInitIterator r true) 0

/-- `containerptr_roaring64_bitmap_remove`: src/roaring64.c:679-704: the bitmap and whether a container was
removed. -/
def r64RemoveAt (r : R64) (high48 : List Nat) (low16 : Nat) (leaf : Option Container) : R64 × Bool :=
  match leaf with
  | none => (r, false)
  | some c =>
    let c2 := containerRemove low16 c
    let r := artStore r high48 c2
    if !containerNonzero c2 then ((artErase r high48).2, true) else (r, false)

/-- `roaring64_bitmap_remove`: src/roaring64.c:706-713. -/
def r64Remove (r : R64) (val : Nat) : R64 :=
  let k := splitKey val
  (r64RemoveAt r k.1 k.2 (artFind r k.1)).1

/-- `roaring64_bitmap_remove_checked`: src/roaring64.c:715-732. -/
def r64RemoveChecked (r : R64) (val : Nat) : R64 × Bool :=
  let k := splitKey val
  match artFind r k.1 with
  | none => (r, false)
  | some c =>
    let old_cardinality := containerCard c
    let p := r64RemoveAt r k.1 k.2 (some c)
    if p.2 then (p.1, true) else (p.1, containerCard (leafAt p.1 k.1) != old_cardinality)

/-- `roaring64_bitmap_remove_bulk`: src/roaring64.c:734-767.  The answer `none` stands for undefined behaviour: the leaf
pointer of the context points to a leaf that was erased, whose cell of `containers` holds a null pointer. -/
def r64RemoveBulk (r : R64) (ctx : BulkCtx64) (val : Nat) : Option (R64 × BulkCtx64) :=
  let k := splitKey val
  let fresh : Option (R64 × BulkCtx64) :=
    let leaf := artFind r k.1
    some ((r64RemoveAt r k.1 k.2 leaf).1, leaf.map (fun _ => k.1))
  match ctx with
  | some high_bytes =>
    if artCompareKeys high_bytes k.1 = 0 then
      match artFind r high_bytes with
      | none => none
      | some c =>
        let c2 := containerRemove k.2 c
        let r := artStore r high_bytes c2
        if !containerNonzero c2 then some ((artErase r k.1).2, ctx) else some (r, ctx)
    else fresh
  | none => fresh

/-- The loop of `roaring64_bitmap_remove_many`: src/roaring64.c:769-780. -/
def r64RemoveManyLoop (r : R64) (ctx : BulkCtx64) : List Nat → Option R64
  | [] => some r
  | v :: vs =>
    match r64RemoveBulk r ctx v with
    | some (r, ctx) => r64RemoveManyLoop r ctx vs
    | none => none

/-- `roaring64_bitmap_remove_many`: src/roaring64.c:769-780. -/
def r64RemoveMany (r : R64) (vals : List Nat) : Option R64 :=
  if vals.length = 0 then some r else r64RemoveManyLoop r none vals

/-- `remove_range_closed_at`: src/roaring64.c:782-804. -/
def removeRangeClosedAt (r : R64) (high48 : List Nat) (min max : Nat) : R64 :=
  match artFind r high48 with
  | none => r
  | some c =>
    match containerRemoveRange min max c with
    | some c2 => artStore r high48 c2
    | none => (artErase r high48).2

/-- The loop of `roaring64_bitmap_remove_range_closed`: src/roaring64.c:814-844. -/
def removeRange64Loop (max_high48 : List Nat) : Nat → R64 → AIt → R64
  | 0, r, _ => r
  | fuel + 1, r, it =>
    if it.value.isSome = true ∧ artCompareKeys it.key max_high48 < 0 then
      let p := itErase r it
      removeRange64Loop max_high48 fuel p.2.1 p.2.2
    else r

/-- `roaring64_bitmap_remove_range_closed`: src/roaring64.c:814-844. -/
def r64RemoveRangeClosed (r : R64) (min max : Nat) : R64 :=
  if min > max then r
  else
    let kmin := splitKey min
    let kmax := splitKey max
    if artCompareKeys kmin.1 kmax.1 = 0 then removeRangeClosedAt r kmin.1 kmin.2 kmax.2
    else
      let r := removeRangeClosedAt r kmin.1 kmin.2 65535
      let r := removeRange64Loop kmax.1 FUEL r (artUpperBound r kmin.1)
      removeRangeClosedAt r kmax.1 0 kmax.2

/-- `roaring64_bitmap_remove_range`: src/roaring64.c:806-812. -/
def r64RemoveRange (r : R64) (min max : Nat) : R64 := if min ≥ max then r else r64RemoveRangeClosed r min (max - 1)

/-- `roaring64_bitmap_clear`: src/roaring64.c:846-848. -/
def r64Clear (r : R64) : R64 := r64RemoveRangeClosed r 0 (TOP64 - 1)

/-- The loop of `roaring64_bitmap_get_cardinality`: src/roaring64.c:850-860. -/
def card64Loop (r : R64) : Nat → AIt → Nat → Nat
  | 0, _, n => n
  | fuel + 1, it, n =>
    match it.value with
    | none => n
    | some c => card64Loop r fuel (itNext r it) (u64 (n + containerCard c))

/-- `roaring64_bitmap_get_cardinality`: src/roaring64.c:850-860. -/
def r64Cardinality (r : R64) : Nat := card64Loop r FUEL (artInitIterator r true) 0

/-- The loop of `roaring64_bitmap_range_closed_cardinality`: src/roaring64.c:873-913. -/
def rangeCard64Loop (r : R64) (kmin kmax : List Nat × Nat) : Nat → AIt → Nat → Nat
  | 0, _, n => n
  | fuel + 1, it, n =>
    match it.value with
    | none => n
    | some c =>
      let max_compare_result := artCompareKeys it.key kmax.1
      if max_compare_result > 0 then n
      else
        let n := if max_compare_result = 0 then u64 (n + containerRank kmax.2 c) else u64 (n + containerCard c)
        let n := if artCompareKeys it.key kmin.1 = 0 ∧ kmin.2 > 0 then u64 (n - containerRank (kmin.2 - 1) c) else n
        rangeCard64Loop r kmin kmax fuel (itNext r it) n

/-- `roaring64_bitmap_range_closed_cardinality`: src/roaring64.c:873-913. -/
def r64RangeCardinalityClosed (r : R64) (min max : Nat) : Nat :=
  if min > max then 0
  else
    let kmin := splitKey min
    rangeCard64Loop r kmin (splitKey max) FUEL (artLowerBound r kmin.1) 0

/-- `roaring64_bitmap_range_cardinality`: src/roaring64.c:862-871. -/
def r64RangeCardinality (r : R64) (min max : Nat) : Nat :=
  if min ≥ max then 0 else r64RangeCardinalityClosed r min (max - 1)

/-- `roaring64_bitmap_is_empty`: src/roaring64.c:915-917. -/
def r64IsEmpty (r : R64) : Bool := artIsEmpty r

/-- `roaring64_bitmap_minimum`: src/roaring64.c:919-927. -/
def r64Minimum (r : R64) : Nat :=
  let it := artInitIterator r true
  match it.value with
  | none => TOP64 - 1
  | some c => combineKey it.key (containerMin c)

/-- `roaring64_bitmap_maximum`: src/roaring64.c:929-937. -/
def r64Maximum (r : R64) : Nat :=
  let it := artInitIterator r false
  match it.value with
  | none => 0
  | some c => combineKey it.key (containerMax c)

/-- The loop of `roaring64_bitmap_run_optimize`: src/roaring64.c:939-954. -/
def runOptimize64Loop : Nat → R64 → AIt → Bool → R64 × Bool
  | 0, r, _, b => (r, b)
  | fuel + 1, r, it, b =>
    match it.value with
    | none => (r, b)
    | some c =>
      let c2 := convertRunOptimize c
      let r := artStore r it.key c2
      runOptimize64Loop fuel r (itNext r { it with value := some c2 }) (b || isRun c2)

/-- `roaring64_bitmap_run_optimize`: src/roaring64.c:939-954. -/
def r64RunOptimize (r : R64) : R64 × Bool := runOptimize64Loop FUEL r (artInitIterator r true) false

/-- One round of the loop of `roaring64_bitmap_statistics`: src/roaring64.c:998-1037.  The counters are `uint64_t`
(include/roaring/roaring_types.h:107-135). -/
def statStep64 (st : Stats) (c : Container) : Stats :=
  let card := u32 (containerCard c)
  let sbytes := u32 (containerSizeInBytes c)
  let st := { st with n_containers := u64 (st.n_containers + 1), cardinality := u64 (st.cardinality + card) }
  match c with
  | .bitset _ =>
    { st with
      n_bitset_containers := u64 (st.n_bitset_containers + 1)
      n_values_bitset_containers := u64 (st.n_values_bitset_containers + card)
      n_bytes_bitset_containers := u64 (st.n_bytes_bitset_containers + sbytes) }
  | .array _ =>
    { st with
      n_array_containers := u64 (st.n_array_containers + 1)
      n_values_array_containers := u64 (st.n_values_array_containers + card)
      n_bytes_array_containers := u64 (st.n_bytes_array_containers + sbytes) }
  | .run _ =>
    { st with
      n_run_containers := u64 (st.n_run_containers + 1)
      n_values_run_containers := u64 (st.n_values_run_containers + card)
      n_bytes_run_containers := u64 (st.n_bytes_run_containers + sbytes) }

/-- The loop of `roaring64_bitmap_statistics`: src/roaring64.c:998-1037. -/
def stat64Loop (r : R64) : Nat → AIt → Stats → Stats
  | 0, _, st => st
  | fuel + 1, it, st =>
    match it.value with
    | none => st
    | some c => stat64Loop r fuel (itNext r it) (statStep64 st c)

/-- `roaring64_bitmap_statistics`: src/roaring64.c:998-1037. -/
def r64Statistics (r : R64) : Stats :=
  stat64Loop r FUEL (artInitIterator r true)
    { n_containers := 0, n_array_containers := 0, n_run_containers := 0, n_bitset_containers := 0
      n_values_array_containers := 0, n_values_run_containers := 0, n_values_bitset_containers := 0
      n_bytes_array_containers := 0, n_bytes_run_containers := 0, n_bytes_bitset_containers := 0
      max_value := r64Maximum r, min_value := r64Minimum r, cardinality := 0 }

/-! ### Comparisons -/

/-- The loop of `roaring64_bitmap_equals`: src/roaring64.c:1054-1073. -/
def equals64Loop (r1 r2 : R64) : Nat → AIt → AIt → Bool
  | 0, _, _ => false
  | fuel + 1, it1, it2 =>
    match it1.value, it2.value with
    | some c1, some c2 =>
      if artCompareKeys it1.key it2.key ≠ 0 then false
      else if !containerEquals c1 c2 then false
      else equals64Loop r1 r2 fuel (itNext r1 it1) (itNext r2 it2)
    | v1, v2 => v1.isNone && v2.isNone

/-- `roaring64_bitmap_equals`: src/roaring64.c:1054-1073. -/
def r64Equals (r1 r2 : R64) : Bool := equals64Loop r1 r2 FUEL (artInitIterator r1 true) (artInitIterator r2 true)

/-- The loop of `roaring64_bitmap_is_subset`: src/roaring64.c:1075-1105. -/
def subset64Loop (r1 r2 : R64) : Nat → AIt → AIt → Bool
  | 0, _, _ => false
  | fuel + 1, it1, it2 =>
    match it1.value, it2.value with
    | none, _ => true
    | some _, none => false
    | some c1, some c2 =>
      let compare_result := artCompareKeys it1.key it2.key
      if compare_result = 0 then
        if !containerIsSubset c1 c2 then false
        else subset64Loop r1 r2 fuel (itNext r1 it1) (itNext r2 it2)
      else if compare_result < 0 then false
      else subset64Loop r1 r2 fuel it1 (itLowerBound r2 it2 it1.key)

/-- `roaring64_bitmap_is_subset`: src/roaring64.c:1075-1105. -/
def r64IsSubset (r1 r2 : R64) : Bool := subset64Loop r1 r2 FUEL (artInitIterator r1 true) (artInitIterator r2 true)

/-- `roaring64_bitmap_is_strict_subset`: src/roaring64.c:1107-1112. -/
def r64IsStrictSubset (r1 r2 : R64) : Bool :=
  decide (r64Cardinality r1 < r64Cardinality r2) && r64IsSubset r1 r2

/-! ### Set operations -/

/-- The loop of `roaring64_bitmap_and`: src/roaring64.c:1114-1155. -/
def and64Loop (r1 r2 : R64) : Nat → AIt → AIt → R64 → R64
  | 0, _, _, res => res
  | fuel + 1, it1, it2, res =>
    match it1.value, it2.value with
    | some c1, some c2 =>
      let compare_result := artCompareKeys it1.key it2.key
      if compare_result = 0 then
        let c := containerAnd c1 c2
        let res := if containerNonzero c then artInsert res it1.key c else res
        and64Loop r1 r2 fuel (itNext r1 it1) (itNext r2 it2) res
      else if compare_result < 0 then and64Loop r1 r2 fuel (itLowerBound r1 it1 it2.key) it2 res
      else and64Loop r1 r2 fuel it1 (itLowerBound r2 it2 it1.key) res
    | _, _ => res

/-- `roaring64_bitmap_and`: src/roaring64.c:1114-1155. -/
def r64And (r1 r2 : R64) : R64 :=
  and64Loop r1 r2 FUEL (artInitIterator r1 true) (artInitIterator r2 true) r64Create

/-- The loop of `roaring64_bitmap_and_cardinality`: src/roaring64.c:1157-1188. -/
def andCard64Loop (r1 r2 : R64) : Nat → AIt → AIt → Nat → Nat
  | 0, _, _, result => result
  | fuel + 1, it1, it2, result =>
    match it1.value, it2.value with
    | some c1, some c2 =>
      let compare_result := artCompareKeys it1.key it2.key
      if compare_result = 0 then
        andCard64Loop r1 r2 fuel (itNext r1 it1) (itNext r2 it2) (u64 (result + containerAndCard c1 c2))
      else if compare_result < 0 then andCard64Loop r1 r2 fuel (itLowerBound r1 it1 it2.key) it2 result
      else andCard64Loop r1 r2 fuel it1 (itLowerBound r2 it2 it1.key) result
    | _, _ => result

/-- `roaring64_bitmap_and_cardinality`: src/roaring64.c:1157-1188. -/
def r64AndCardinality (r1 r2 : R64) : Nat :=
  andCard64Loop r1 r2 FUEL (artInitIterator r1 true) (artInitIterator r2 true) 0

/-- The loop of `roaring64_bitmap_and_inplace`: src/roaring64.c:1191-1266; `shared key` says that the container of the
first bitmap at that key is shared. -/
def andInplace64Loop (shared : List Nat → Bool) (r2 : R64) : Nat → R64 → AIt → AIt → R64
  | 0, r1, _, _ => r1
  | fuel + 1, r1, it1, it2 =>
    match it1.value, it2.value with
    | none, _ => r1
    | some _, none =>
      let p := itErase r1 it1
      andInplace64Loop shared r2 fuel p.2.1 p.2.2 it2
    | some c1, some c2 =>
      let compare_result := artCompareKeys it1.key it2.key
      if compare_result = 0 then
        let c := chooseAnd (shared it1.key) c1 c2
        if !containerNonzero c then
          let p := itErase r1 it1
          andInplace64Loop shared r2 fuel p.2.1 p.2.2 (itNext r2 it2)
        else
          let r1 := artStore r1 it1.key c
          andInplace64Loop shared r2 fuel r1 (itNext r1 { it1 with value := some c }) (itNext r2 it2)
      else if compare_result < 0 then
        let p := itErase r1 it1
        andInplace64Loop shared r2 fuel p.2.1 p.2.2 it2
      else andInplace64Loop shared r2 fuel r1 it1 (itLowerBound r2 it2 it1.key)

/-- `roaring64_bitmap_and_inplace`: src/roaring64.c:1191-1266; `same` says that the two pointers are equal. -/
def r64AndInplace (same : Bool) (shared : List Nat → Bool) (r1 r2 : R64) : R64 :=
  if same then r1
  else andInplace64Loop shared r2 FUEL r1 (artInitIterator r1 true) (artInitIterator r2 true)

/-- The loop of `roaring64_bitmap_intersect`: src/roaring64.c:1268-1298. -/
def intersect64Loop (r1 r2 : R64) : Nat → AIt → AIt → Bool → Bool
  | 0, _, _, b => b
  | fuel + 1, it1, it2, b =>
    match it1.value, it2.value with
    | some c1, some c2 =>
      let compare_result := artCompareKeys it1.key it2.key
      if compare_result = 0 then
        intersect64Loop r1 r2 fuel (itNext r1 it1) (itNext r2 it2) (b || containerIntersect c1 c2)
      else if compare_result < 0 then intersect64Loop r1 r2 fuel (itLowerBound r1 it1 it2.key) it2 b
      else intersect64Loop r1 r2 fuel it1 (itLowerBound r2 it2 it1.key) b
    | _, _ => b

/-- `roaring64_bitmap_intersect`: src/roaring64.c:1268-1298. -/
def r64Intersect (r1 r2 : R64) : Bool :=
  intersect64Loop r1 r2 FUEL (artInitIterator r1 true) (artInitIterator r2 true) false

/-- The loop of `roaring64_bitmap_or`: src/roaring64.c:1322-1374. -/
def or64Loop (r1 r2 : R64) : Nat → AIt → AIt → R64 → R64
  | 0, _, _, res => res
  | fuel + 1, it1, it2, res =>
    match it1.value, it2.value with
    | none, none => res
    | some c1, none => or64Loop r1 r2 fuel (itNext r1 it1) it2 (artInsert res it1.key c1)
    | none, some c2 => or64Loop r1 r2 fuel it1 (itNext r2 it2) (artInsert res it2.key c2)
    | some c1, some c2 =>
      let compare_result := artCompareKeys it1.key it2.key
      if compare_result = 0 then
        or64Loop r1 r2 fuel (itNext r1 it1) (itNext r2 it2) (artInsert res it1.key (containerOr c1 c2))
      else if compare_result < 0 then or64Loop r1 r2 fuel (itNext r1 it1) it2 (artInsert res it1.key c1)
      else or64Loop r1 r2 fuel it1 (itNext r2 it2) (artInsert res it2.key c2)

/-- `roaring64_bitmap_or`: src/roaring64.c:1322-1374. -/
def r64Or (r1 r2 : R64) : R64 :=
  or64Loop r1 r2 FUEL (artInitIterator r1 true) (artInitIterator r2 true) r64Create

/-- `roaring64_bitmap_or_cardinality`: src/roaring64.c:1376-1382. -/
def r64OrCardinality (r1 r2 : R64) : Nat :=
  u64 ((r64Cardinality r1 : Int) + r64Cardinality r2 - r64AndCardinality r1 r2)

/-- The choice between `container_or` and `container_ior`: src/roaring64.c:1428-1436. -/
def chooseOr64 (shared : Bool) (capacity : Nat) (c1 c2 : Container) : Container :=
  if shared then containerOr c1 c2 else containerIor capacity c1 c2

/-- The loop of `roaring64_bitmap_or_inplace`: src/roaring64.c:1384-1442; `caps key` is the capacity of the array of the
first bitmap's container at that key. -/
def orInplace64Loop (shared : List Nat → Bool) (caps : List Nat → Nat) (r2 : R64) : Nat → R64 → AIt → AIt → R64
  | 0, r1, _, _ => r1
  | fuel + 1, r1, it1, it2 =>
    match it1.value, it2.value with
    | none, none => r1
    | some _, none => orInplace64Loop shared caps r2 fuel r1 (itNext r1 it1) it2
    | none, some c2 =>
      let p := itInsert r1 it1 it2.key c2
      orInplace64Loop shared caps r2 fuel p.1 p.2 (itNext r2 it2)
    | some c1, some c2 =>
      let compare_result := artCompareKeys it1.key it2.key
      if compare_result = 0 then
        let c := chooseOr64 (shared it1.key) (caps it1.key) c1 c2
        let r1 := artStore r1 it1.key c
        orInplace64Loop shared caps r2 fuel r1 (itNext r1 { it1 with value := some c }) (itNext r2 it2)
      else if compare_result < 0 then orInplace64Loop shared caps r2 fuel r1 (itNext r1 it1) it2
      else
        let p := itInsert r1 it1 it2.key c2
        orInplace64Loop shared caps r2 fuel p.1 p.2 (itNext r2 it2)

/-- `roaring64_bitmap_or_inplace`: src/roaring64.c:1384-1442. -/
def r64OrInplace (same : Bool) (shared : List Nat → Bool) (caps : List Nat → Nat) (r1 r2 : R64) : R64 :=
  if same then r1
  else orInplace64Loop shared caps r2 FUEL r1 (artInitIterator r1 true) (artInitIterator r2 true)

/-- The loop of `roaring64_bitmap_xor`: src/roaring64.c:1444-1501. -/
def xor64Loop (r1 r2 : R64) : Nat → AIt → AIt → R64 → R64
  | 0, _, _, res => res
  | fuel + 1, it1, it2, res =>
    match it1.value, it2.value with
    | none, none => res
    | some c1, none => xor64Loop r1 r2 fuel (itNext r1 it1) it2 (artInsert res it1.key c1)
    | none, some c2 => xor64Loop r1 r2 fuel it1 (itNext r2 it2) (artInsert res it2.key c2)
    | some c1, some c2 =>
      let compare_result := artCompareKeys it1.key it2.key
      if compare_result = 0 then
        let c := containerXor c1 c2
        let res := if containerNonzero c then artInsert res it1.key c else res
        xor64Loop r1 r2 fuel (itNext r1 it1) (itNext r2 it2) res
      else if compare_result < 0 then xor64Loop r1 r2 fuel (itNext r1 it1) it2 (artInsert res it1.key c1)
      else xor64Loop r1 r2 fuel it1 (itNext r2 it2) (artInsert res it2.key c2)

/-- `roaring64_bitmap_xor`: src/roaring64.c:1444-1501. -/
def r64Xor (r1 r2 : R64) : R64 :=
  xor64Loop r1 r2 FUEL (artInitIterator r1 true) (artInitIterator r2 true) r64Create

/-- `roaring64_bitmap_xor_cardinality`: src/roaring64.c:1503-1509. -/
def r64XorCardinality (r1 r2 : R64) : Nat :=
  u64 ((r64Cardinality r1 : Int) + r64Cardinality r2 - 2 * r64AndCardinality r1 r2)

/-- The loop of `roaring64_bitmap_xor_inplace`: src/roaring64.c:1511-1587. -/
def xorInplace64Loop (shared : List Nat → Bool) (r2 : R64) : Nat → R64 → AIt → AIt → R64
  | 0, r1, _, _ => r1
  | fuel + 1, r1, it1, it2 =>
    match it1.value, it2.value with
    | none, none => r1
    | some _, none => xorInplace64Loop shared r2 fuel r1 (itNext r1 it1) it2
    | none, some c2 => xorInplace64Loop shared r2 fuel (artInsert r1 it2.key c2) it1 (itNext r2 it2)
    | some c1, some c2 =>
      let compare_result := artCompareKeys it1.key it2.key
      if compare_result = 0 then
        let c := chooseXor (shared it1.key) c1 c2
        if !containerNonzero c then
          let p := itErase r1 it1
          xorInplace64Loop shared r2 fuel p.2.1 p.2.2 (itNext r2 it2)
        else
          let r1 := artStore r1 it1.key c
          xorInplace64Loop shared r2 fuel r1 (itNext r1 { it1 with value := some c }) (itNext r2 it2)
      else if compare_result < 0 then xorInplace64Loop shared r2 fuel r1 (itNext r1 it1) it2
      else
        let p := itInsert r1 it1 it2.key c2
        xorInplace64Loop shared r2 fuel p.1 (itNext p.1 p.2) (itNext r2 it2)

/-- `roaring64_bitmap_xor_inplace`: src/roaring64.c:1511-1587, for two different bitmaps (the code asserts that they
are). -/
def r64XorInplace (shared : List Nat → Bool) (r1 r2 : R64) : R64 :=
  xorInplace64Loop shared r2 FUEL r1 (artInitIterator r1 true) (artInitIterator r2 true)

/-- The loop of `roaring64_bitmap_andnot`: src/roaring64.c:1589-1641. -/
def andnot64Loop (r1 r2 : R64) : Nat → AIt → AIt → R64 → R64
  | 0, _, _, res => res
  | fuel + 1, it1, it2, res =>
    match it1.value, it2.value with
    | none, _ => res
    | some c1, none => andnot64Loop r1 r2 fuel (itNext r1 it1) it2 (artInsert res it1.key c1)
    | some c1, some c2 =>
      let compare_result := artCompareKeys it1.key it2.key
      if compare_result = 0 then
        let c := containerAndnot c1 c2
        let res := if containerNonzero c then artInsert res it1.key c else res
        andnot64Loop r1 r2 fuel (itNext r1 it1) (itNext r2 it2) res
      else if compare_result < 0 then andnot64Loop r1 r2 fuel (itNext r1 it1) it2 (artInsert res it1.key c1)
      else andnot64Loop r1 r2 fuel it1 (itNext r2 it2) res

/-- `roaring64_bitmap_andnot`: src/roaring64.c:1589-1641. -/
def r64Andnot (r1 r2 : R64) : R64 :=
  andnot64Loop r1 r2 FUEL (artInitIterator r1 true) (artInitIterator r2 true) r64Create

/-- `roaring64_bitmap_andnot_cardinality`: src/roaring64.c:1643-1648. -/
def r64AndnotCardinality (r1 r2 : R64) : Nat := u64 ((r64Cardinality r1 : Int) - r64AndCardinality r1 r2)

/-- `roaring64_bitmap_jaccard_index`: src/roaring64.c:1314-1320: the numerator and the denominator of the quotient. -/
def r64Jaccard (r1 r2 : R64) : Nat × Nat :=
  (r64AndCardinality r1 r2, u64 ((r64Cardinality r1 : Int) + r64Cardinality r2 - r64AndCardinality r1 r2))

/-- The loop of `roaring64_bitmap_andnot_inplace`: src/roaring64.c:1650-1714. -/
def andnotInplace64Loop (shared : List Nat → Bool) (r2 : R64) : Nat → R64 → AIt → AIt → R64
  | 0, r1, _, _ => r1
  | fuel + 1, r1, it1, it2 =>
    match it1.value, it2.value with
    | none, _ => r1
    | some _, none => andnotInplace64Loop shared r2 fuel r1 (itNext r1 it1) it2
    | some c1, some c2 =>
      let compare_result := artCompareKeys it1.key it2.key
      if compare_result = 0 then
        let c := chooseAndnot (shared it1.key) c1 c2
        if !containerNonzero c then
          let p := itErase r1 it1
          andnotInplace64Loop shared r2 fuel p.2.1 p.2.2 (itNext r2 it2)
        else
          let r1 := artStore r1 it1.key c
          andnotInplace64Loop shared r2 fuel r1 (itNext r1 { it1 with value := some c }) (itNext r2 it2)
      else if compare_result < 0 then andnotInplace64Loop shared r2 fuel r1 (itNext r1 it1) it2
      else andnotInplace64Loop shared r2 fuel r1 it1 (itNext r2 it2)

/-- `roaring64_bitmap_andnot_inplace`: src/roaring64.c:1650-1714, for two different bitmaps. -/
def r64AndnotInplace (shared : List Nat → Bool) (r1 r2 : R64) : R64 :=
  andnotInplace64Loop shared r2 FUEL r1 (artInitIterator r1 true) (artInitIterator r2 true)

/-! ### Flips -/

/-- The container computed by `roaring64_flip_leaf` and by `roaring64_flip_leaf_inplace` for an existing leaf. -/
def flipContainer (min max : Nat) (c : Container) : Container :=
  if min = 0 ∧ max > 65535 then containerNot c else containerNotRange min max c

/-- `roaring64_flip_leaf`: src/roaring64.c:1720-1745. -/
def flipLeaf64 (r1 r2 : R64) (high48 : List Nat) (min max : Nat) : R64 :=
  let c2 := match artFind r1 high48 with
    | none => containerRangeOfOnes min max
    | some c => flipContainer min max c
  if containerNonzero c2 then artInsert r2 high48 c2 else r2

/-- `roaring64_flip_leaf_inplace`: src/roaring64.c:1752-1783. -/
def flipLeafInplace64 (r : R64) (high48 : List Nat) (min max : Nat) : R64 :=
  match artFind r high48 with
  | none => artInsert r high48 (containerRangeOfOnes min max)
  | some c =>
    let c2 := flipContainer min max c
    if containerNonzero c2 then artStore r high48 c2 else (artErase r high48).2

/-- The bounds `min_container` and `max_container` of a round: src/roaring64.c:1833-1840, 1890-1897. -/
def flipBounds (min max high48_bits : Nat) : Nat × Nat :=
  (if high48_bits = min / 65536 then min % 65536 else 0, if high48_bits = max / 65536 then max % 65536 + 1 else 65536)

/-- The first loop of `roaring64_bitmap_flip_closed`: src/roaring64.c:1793-1852. -/
def flipCopyBefore (r1 : R64) (min_key : List Nat) : Nat → AIt → R64 → R64
  | 0, _, r2 => r2
  | fuel + 1, it, r2 =>
    match it.value with
    | none => r2
    | some c =>
      if artCompareKeys it.key min_key < 0 then flipCopyBefore r1 min_key fuel (itNext r1 it) (artInsert r2 it.key c)
      else r2

/-- `roaring64_bitmap_flip_closed`: src/roaring64.c:1793-1852.  The last loop is that of `roaring64_bitmap_copy`. -/
def r64FlipClosed (r1 : R64) (min max : Nat) : R64 :=
  if min > max then r64Copy r1
  else
    let r2 := flipCopyBefore r1 (splitKey min).1 FUEL (artInitIterator r1 true) r64Create
    let r2 := (List.range' (min / 65536) (max / 65536 + 1 - min / 65536)).foldl
      (fun r2 high48_bits =>
        let b := flipBounds min max high48_bits
        flipLeaf64 r1 r2 (splitKey (high48_bits <<< 16)).1 b.1 b.2) r2
    r64CopyLoop r1 FUEL (artUpperBound r1 (splitKey max).1) r2

/-- `roaring64_bitmap_flip`: src/roaring64.c:1785-1791. -/
def r64Flip (r : R64) (min max : Nat) : R64 := if min ≥ max then r64Copy r else r64FlipClosed r min (max - 1)

/-- `roaring64_bitmap_flip_closed_inplace`: src/roaring64.c:1862-1891. -/
def r64FlipClosedInplace (r : R64) (min max : Nat) : R64 :=
  if min > max then r
  else
    (List.range' (min / 65536) (max / 65536 + 1 - min / 65536)).foldl
      (fun r high48_bits =>
        let b := flipBounds min max high48_bits
        flipLeafInplace64 r (splitKey (high48_bits <<< 16)).1 b.1 b.2) r

/-- `roaring64_bitmap_flip_inplace`: src/roaring64.c:1854-1860. -/
def r64FlipInplace (r : R64) (min max : Nat) : R64 := if min ≥ max then r else r64FlipClosedInplace r min (max - 1)

end CRoaring
