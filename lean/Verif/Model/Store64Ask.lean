import Verif.Model.Store64Ops
import Verif.Model.Iter64
/-
The functions that only read a 64-bit bitmap in memory: src/roaring64.c:523-676, 862-937, 994-1037, 1300-1312, 2528-2550, and the iterator
`roaring64_iterator_t` (src/roaring64.c:45-65, 186-223, 2552-2705).  Each use of a leaf and of its container is a use of memory
(`R64M.look`, `Model/Store64.lean`), and the iterators over the radix tree are those of `Model/ArtHeapIter.lean`.
(`Model/Roaring64.lean` and `Model/Iter64.lean` have the same functions on a tree whose leaves are containers.)
The loops carry a counter; `fail` is its end, and the theorems say that it is not reached.
-/
namespace CRoaring

/-- The loop of `roaring64_bitmap_contains_range`: src/roaring64.c:539-577. -/
def R64M.containsRangeLoop (r : R64M) (kmin kmax : List Nat × Nat) (max_high48_bits : Nat) : Nat → HIt → Nat → Out Bool
  | 0, _, _ => .fail
  | n + 1, it, prev_high48_bits =>
    match it.value with
    | none => .ok (prev_high48_bits == max_high48_bits)
    | some p =>
      let current_high48_bits := combineKey it.key 0
      if current_high48_bits > max_high48_bits then .ok true
      else if u64 ((current_high48_bits : Int) - prev_high48_bits) > 65536 then .ok false
      else do
        let x ← r.look p
        let container_min := if artCompareKeys it.key kmin.1 = 0 then kmin.2 else 0
        let container_max := if artCompareKeys it.key kmax.1 = 0 then kmax.2 else 65536
        if container_min = 0 ∧ container_max = 65536 then
          if !containerIsFull x.2.2 then .ok false
          else do
            let it ← r.art.itNext it
            containsRangeLoop r kmin kmax max_high48_bits n it current_high48_bits
        else if !containerContainsRange container_min container_max x.2.2 then .ok false
        else do
          let it ← r.art.itNext it
          containsRangeLoop r kmin kmax max_high48_bits n it current_high48_bits

/-- `roaring64_bitmap_contains_range`: src/roaring64.c:523-578. -/
def R64M.containsRange (r : R64M) (min max : Nat) : Out Bool :=
  if min ≥ max then .ok true
  else do
    let it ← r.art.lowerBound (splitKey min).1
    if it.value.isNone = true ∨ combineKey it.key 0 > min then .ok false
    else R64M.containsRangeLoop r (splitKey min) (splitKey max) (clearLow (max - 1)) FUEL it (clearLow min)

/-- The loop of `roaring64_bitmap_select`: src/roaring64.c:605-623. -/
def R64M.selectLoop (r : R64M) (rank : Nat) : Nat → HIt → Nat → Out (Option Nat)
  | 0, _, _ => .fail
  | n + 1, it, start_rank =>
    match it.value with
    | none => .ok none
    | some p => do
      let x ← r.look p
      let cardinality := u64 (containerCard x.2.2)
      if u64 (start_rank + cardinality) > rank then
        match containerSelect 0 (u32 ((rank : Int) - start_rank)) x.2.2 with
        | some (.inl e) => .ok (some (combineKey it.key (e % 65536)))
        | _ => .ok none
      else do
        let it ← r.art.itNext it
        selectLoop r rank n it (u64 (start_rank + cardinality))

/-- `roaring64_bitmap_select`: src/roaring64.c:601-624: the element, if the answer is `true`. -/
def R64M.select (r : R64M) (rank : Nat) : Out (Option Nat) := do
  let it ← r.art.initIterator true
  R64M.selectLoop r rank FUEL it 0

/-- The loop of `roaring64_bitmap_rank`: src/roaring64.c:632-646. -/
def R64M.rankLoop (r : R64M) (k : List Nat × Nat) : Nat → HIt → Nat → Out Nat
  | 0, _, _ => .fail
  | n + 1, it, rank =>
    match it.value with
    | none => .ok rank
    | some p => do
      let _ ← r.art.load p
      let compare_result := artCompareKeys it.key k.1
      if compare_result < 0 then do
        let x ← r.look p
        let it ← r.art.itNext it
        rankLoop r k n it (u64 (rank + containerCard x.2.2))
      else if compare_result = 0 then do
        let x ← r.look p
        .ok (u64 (rank + containerRank k.2 x.2.2))
      else .ok rank

/-- `roaring64_bitmap_rank`: src/roaring64.c:626-647. -/
def R64M.rank (r : R64M) (val : Nat) : Out Nat := do
  let it ← r.art.initIterator true
  R64M.rankLoop r (splitKey val) FUEL it 0

/-- The loop of `roaring64_bitmap_get_index`: src/roaring64.c:656-675. -/
def R64M.getIndexLoop (r : R64M) (k : List Nat × Nat) : Nat → HIt → Nat → Out (Option Nat)
  | 0, _, _ => .fail
  | n + 1, it, index =>
    match it.value with
    | none => .ok none
    | some p => do
      let _ ← r.art.load p
      let compare_result := artCompareKeys it.key k.1
      if compare_result < 0 then do
        let x ← r.look p
        let it ← r.art.itNext it
        getIndexLoop r k n it (u64 (index + containerCard x.2.2))
      else if compare_result = 0 then do
        let x ← r.look p
        let index16 := containerGetIndex k.2 x.2.2
        if index16 < 0 then .ok none else .ok (some (u64 (index + index16)))
      else .ok none

/-- `roaring64_bitmap_get_index`: src/roaring64.c:649-676: the index, if the answer is `true`. -/
def R64M.getIndex (r : R64M) (val : Nat) : Out (Option Nat) := do
  let it ← r.art.initIterator true
  R64M.getIndexLoop r (splitKey val) FUEL it 0

/-- The loop of `roaring64_bitmap_range_closed_cardinality`: src/roaring64.c:886-912. -/
def R64M.rangeCardLoop (r : R64M) (kmin kmax : List Nat × Nat) : Nat → HIt → Nat → Out Nat
  | 0, _, _ => .fail
  | n + 1, it, cardinality =>
    match it.value with
    | none => .ok cardinality
    | some p =>
      let max_compare_result := artCompareKeys it.key kmax.1
      if max_compare_result > 0 then .ok cardinality
      else do
        let x ← r.look p
        let cardinality := if max_compare_result = 0 then u64 (cardinality + containerRank kmax.2 x.2.2) else u64 (cardinality + containerCard x.2.2)
        let cardinality := if artCompareKeys it.key kmin.1 = 0 ∧ kmin.2 > 0 then u64 (cardinality - containerRank (kmin.2 - 1) x.2.2) else cardinality
        let it ← r.art.itNext it
        rangeCardLoop r kmin kmax n it cardinality

/-- `roaring64_bitmap_range_closed_cardinality`: src/roaring64.c:873-913. -/
def R64M.rangeClosedCardinality (r : R64M) (min max : Nat) : Out Nat :=
  if min > max then .ok 0
  else do
    let it ← r.art.lowerBound (splitKey min).1
    R64M.rangeCardLoop r (splitKey min) (splitKey max) FUEL it 0

/-- `roaring64_bitmap_range_cardinality`: src/roaring64.c:862-871. -/
def R64M.rangeCardinality (r : R64M) (min max : Nat) : Out Nat :=
  if min ≥ max then .ok 0 else r.rangeClosedCardinality min (max - 1)

/-- `roaring64_bitmap_is_empty`: src/roaring64.c:915-917, and `art_is_empty`: src/art/art.c:1863-1865. -/
def R64M.isEmpty (r : R64M) : Bool := r.art.root.isNone

/-- `roaring64_bitmap_minimum`: src/roaring64.c:919-927. -/
def R64M.minimum (r : R64M) : Out Nat := do
  let it ← r.art.initIterator true
  match it.value with
  | none => .ok (TOP64 - 1)
  | some p => do
    let x ← r.look p
    .ok (combineKey it.key (containerMin x.2.2))

/-- `roaring64_bitmap_maximum`: src/roaring64.c:929-937. -/
def R64M.maximum (r : R64M) : Out Nat := do
  let it ← r.art.initIterator false
  match it.value with
  | none => .ok 0
  | some p => do
    let x ← r.look p
    .ok (combineKey it.key (containerMax x.2.2))

/-- The loop of `roaring64_bitmap_statistics`: src/roaring64.c:1004-1036. -/
def R64M.statLoop (r : R64M) : Nat → HIt → Stats → Out Stats
  | 0, _, _ => .fail
  | n + 1, it, st =>
    match it.value with
    | none => .ok st
    | some p => do
      let x ← r.look p
      let it ← r.art.itNext it
      statLoop r n it (statStep64 st x.2.2)

/-- `roaring64_bitmap_statistics`: src/roaring64.c:998-1037. -/
def R64M.statistics (r : R64M) : Out Stats := do
  let min_value ← r.minimum
  let max_value ← r.maximum
  let it ← r.art.initIterator true
  R64M.statLoop r FUEL it
    { n_containers := 0, n_array_containers := 0, n_run_containers := 0, n_bitset_containers := 0
      n_values_array_containers := 0, n_values_run_containers := 0, n_values_bitset_containers := 0
      n_bytes_array_containers := 0, n_bytes_run_containers := 0, n_bytes_bitset_containers := 0
      max_value := max_value, min_value := min_value, cardinality := 0 }

/-- The loop of `roaring64_bitmap_iterate`: src/roaring64.c:2531-2542. -/
def R64M.iterateLoop {σ : Type} (f : σ → Nat → σ × Bool) (r : R64M) : Nat → HIt → σ → Out (σ × Bool)
  | 0, _, _ => .fail
  | n + 1, it, s =>
    match it.value with
    | none => .ok (s, true)
    | some p => do
      let high48 := combineKey it.key 0
      let high32 := high48 / 4294967296 * 4294967296
      let low32 := high48 % 4294967296
      let x ← r.look p
      let y := containerIterate64 f s low32 high32 x.2.2
      if !y.2 then .ok (y.1, false)
      else do
        let it ← r.art.itNext it
        iterateLoop f r n it y.1

/-- `roaring64_bitmap_iterate`: src/roaring64.c:2528-2543. -/
def R64M.iterate {σ : Type} (f : σ → Nat → σ × Bool) (s : σ) (r : R64M) : Out (σ × Bool) := do
  let it ← r.art.initIterator true
  R64M.iterateLoop f r FUEL it s

/-! ### The iterator -/

/-- `struct roaring64_iterator_s`: src/roaring64.c:47-65, without the pointer to the bitmap, which the functions below take as an argument. -/
structure Iter64M where
  artIt : HIt
  cit : Int
  high48 : Nat
  value : Nat
  hasValue : Bool
  satFwd : Bool

/-- The container at which the iterator over the tree stands; a null pointer is not to be followed. -/
def R64M.lookAt (r : R64M) (it : HIt) : Out Container :=
  match it.value with
  | none => .oob
  | some p => do
    let x ← r.look p
    .ok x.2.2

/-- `roaring64_iterator_init_at_leaf_first`: src/roaring64.c:186-195. -/
def R64M.leafFirst (r : R64M) (it : Iter64M) : Out Iter64M := do
  let c ← r.lookAt it.artIt
  let high48 := combineKey it.artIt.key 0
  let p := containerInitIterator c
  .ok { it with high48 := high48, cit := p.1, value := high48 ||| p.2, hasValue := true }

/-- `roaring64_iterator_init_at_leaf_last`: src/roaring64.c:197-206. -/
def R64M.leafLast (r : R64M) (it : Iter64M) : Out Iter64M := do
  let c ← r.lookAt it.artIt
  let high48 := combineKey it.artIt.key 0
  let p := containerInitIteratorLast c
  .ok { it with high48 := high48, cit := p.1, value := high48 ||| p.2, hasValue := true }

/-- `roaring64_iterator_init_at`: src/roaring64.c:208-223, hence `roaring64_iterator_create`, `_create_last`, `_reinit` and `_reinit_last` (2552-2576); `it` is
what the memory of the iterator held before. -/
def R64M.initAt (r : R64M) (it : Iter64M) (first : Bool) : Out Iter64M := do
  let a ← r.art.initIterator first
  if a.value.isSome then
    if first then r.leafFirst { it with artIt := a, hasValue := true } else r.leafLast { it with artIt := a, hasValue := true }
  else .ok { it with artIt := a, hasValue := false, satFwd := first }

/-- `art_iterator_next`, and what the iterator does when the container has no further value: src/roaring64.c:2607-2611, 2667-2674. -/
def R64M.nextLeaf (r : R64M) (it : Iter64M) : Out Iter64M := do
  let a ← r.art.itNext it.artIt
  if a.value.isSome then r.leafFirst { it with artIt := a } else .ok { it with artIt := a, satFwd := true, hasValue := false }

/-- `roaring64_iterator_advance`: src/roaring64.c:2592-2612; the result is the new `hasValue`. -/
def R64M.advance (r : R64M) (it : Iter64M) : Out Iter64M :=
  match it.artIt.value with
  | none => if it.satFwd then .ok { it with hasValue := false } else r.initAt it true
  | some _ => do
    let c ← r.lookAt it.artIt
    let p := containerIteratorNext c it.cit (it.value % 65536)
    match p.2 with
    | some low16 => .ok { it with cit := p.1, value := it.high48 ||| low16, hasValue := true }
    | none => r.nextLeaf { it with cit := p.1 }

/-- `roaring64_iterator_previous`: src/roaring64.c:2614-2635; the result is the new `hasValue`. -/
def R64M.previous (r : R64M) (it : Iter64M) : Out Iter64M :=
  match it.artIt.value with
  | none => if !it.satFwd then .ok { it with hasValue := false } else r.initAt it false
  | some _ => do
    let c ← r.lookAt it.artIt
    let p := containerIteratorPrev c it.cit (it.value % 65536)
    match p.2 with
    | some low16 => .ok { it with cit := p.1, value := it.high48 ||| low16, hasValue := true }
    | none => do
      let a ← r.art.itPrev it.artIt
      if a.value.isSome then r.leafLast { it with cit := p.1, artIt := a }
      else .ok { it with cit := p.1, artIt := a, satFwd := false, hasValue := false }

/-- The second half of `roaring64_iterator_move_equalorlarger`: src/roaring64.c:2654-2674. -/
def R64M.moveAt (r : R64M) (it : Iter64M) (val : Nat) : Out Iter64M :=
  if it.high48 = clearLow val then do
    let c ← r.lookAt it.artIt
    let p := containerIteratorLowerBound c it.cit (splitKey val).2
    match p.2 with
    | some low16 => .ok { it with cit := p.1, value := it.high48 ||| low16, hasValue := true }
    | none => r.nextLeaf { it with cit := p.1 }
  else r.leafFirst it

/-- `roaring64_iterator_move_equalorlarger`: src/roaring64.c:2637-2675; the result is the new `hasValue`. -/
def R64M.moveTo (r : R64M) (it : Iter64M) (val : Nat) : Out Iter64M :=
  if !it.hasValue || it.high48 != clearLow val then do
    let a ← r.art.itLowerBound it.artIt (splitKey val).1
    if a.value.isSome then r.moveAt { it with artIt := a, high48 := combineKey a.key 0 } val
    else .ok { it with artIt := a, satFwd := true, hasValue := false }
  else r.moveAt it val

/-- `roaring64_bitmap_intersect_with_range`: src/roaring64.c:1300-1312; `junk` is the uninitialised iterator. -/
def R64M.intersectWithRange (r : R64M) (min max : Nat) (junk : Iter64M) : Out Bool :=
  if min ≥ max then .ok false
  else do
    let it ← r.initAt junk true
    let it ← r.moveTo it min
    if !it.hasValue then .ok false else .ok (it.hasValue && decide (it.value < max))

/-- To the next container while reading: src/roaring64.c:2699-2702. -/
def R64M.readNext (r : R64M) (it : Iter64M) : Out Iter64M := do
  let a ← r.art.itNext it.artIt
  if a.value.isSome then r.leafFirst { it with artIt := a, hasValue := true } else .ok { it with artIt := a, hasValue := false }

/-- The loop of `roaring64_iterator_read`: src/roaring64.c:2680-2703; `count` is what remains of the caller's count.  The values written and the iterator
after the call. -/
def R64M.readLoop (r : R64M) : Nat → Iter64M → Nat → Out (List Nat × Iter64M)
  | 0, _, _ => .fail
  | n + 1, it, count =>
    if it.hasValue && decide (0 < count) then do
      let c ← r.lookAt it.artIt
      let container_count := if count < 4294967295 then count else 4294967295
      let p := containerIteratorRead c it.cit it.high48 container_count (it.value % 65536)
      match p.2.2 with
      | some low16 => .ok (p.1, { it with cit := p.2.1, hasValue := true, value := it.high48 ||| low16 })
      | none => do
        let it ← r.readNext { it with cit := p.2.1 }
        let q ← readLoop r n it (count - p.1.length)
        .ok (p.1 ++ q.1, q.2)
    else .ok ([], it)

/-- `roaring64_iterator_read`: src/roaring64.c:2677-2705. -/
def R64M.read (r : R64M) (it : Iter64M) (count : Nat) : Out (List Nat × Iter64M) := R64M.readLoop r FUEL it count

/-- `roaring64_bitmap_to_uint64_array`: src/roaring64.c:2545-2550: the values written; `junk` is the uninitialised iterator. -/
def R64M.toUint64 (r : R64M) (junk : Iter64M) : Out (List Nat) := do
  let it ← r.initAt junk true
  let x ← r.read it 18446744073709551615
  .ok x.1

end CRoaring
