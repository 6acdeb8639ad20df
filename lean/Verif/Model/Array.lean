import Verif.Model.ArrayUtil
import Verif.Model.Bits
/-
Model of the array container (include/roaring/containers/array.h, src/containers/array.c).

An array container is the list of its first `cardinality` 16-bit values.  `capacity` and the
allocations that maintain it (`array_container_grow`) are not modelled: allocation succeeds and the
buffer is always large enough.  Where the x64 build calls a vectorised routine the scalar routine of
the portable build is modelled.  `Model/ArrayMem.lean` models the same operations on buffers with a
capacity and with the AVX2 routines; C94-C98 prove that they give the values modelled here.
-/
namespace CRoaring

/-- `DEFAULT_MAX_SIZE`, include/roaring/containers/array.h:30. -/
def DEFAULT_MAX_SIZE : Nat := 4096

/-- `INT32_MAX`. -/
def INT32_MAX : Int := 2147483647

/-- `array_container_append`, array.h:265-274. -/
def arrayAppend (l : List Nat) (pos : Nat) : List Nat := l ++ [pos]

/-- `array_container_try_add`, array.h:283-312: new contents and return code. -/
def arrayTryAdd (l : List Nat) (value : Nat) (max_cardinality : Int) : List Nat × Int :=
  let cardinality : Int := l.length
  if (l.length = 0 ∨ rdL l (l.length - 1) < value) ∧ cardinality < max_cardinality then
    (arrayAppend l value, 1)
  else
    let loc := binarySearch (rdL l) l.length value
    if loc ≥ 0 then (l, 0)
    else if cardinality < max_cardinality then
      let insert_idx := (-loc - 1).toNat
      (l.take insert_idx ++ value :: l.drop insert_idx, 1)
    else (l, -1)

/-- `array_container_add`, array.h:315-317. -/
def arrayAdd (l : List Nat) (value : Nat) : List Nat × Bool :=
  let r := arrayTryAdd l value INT32_MAX
  (r.1, r.2 == 1)

/-- `array_container_remove`, array.h:320-331. -/
def arrayRemove (l : List Nat) (pos : Nat) : List Nat × Bool :=
  let idx := binarySearch (rdL l) l.length pos
  if idx ≥ 0 then (l.take idx.toNat ++ l.drop (idx.toNat + 1), true) else (l, false)

/-- The final linear scan of `array_container_contains`, array.h:353-360, over indices `i..high`. -/
def arrayContainsScan (rd : Nat → Nat) (pos : Nat) (i high : Int) : Bool :=
  if i ≤ high then
    let v := rd i.toNat
    if v = pos then true
    else if v > pos then false
    else arrayContainsScan rd pos (i + 1) high
  else false
termination_by (high + 1 - i).toNat
decreasing_by omega

/-- The bisection of `array_container_contains`, array.h:341-352, falling through to the scan. -/
def arrayContainsLoop (rd : Nat → Nat) (pos : Nat) (low high : Int) : Bool :=
  if high ≥ low + 16 then
    let mid := (low + high) / 2
    let v := rd mid.toNat
    if v < pos then arrayContainsLoop rd pos (mid + 1) high
    else if v > pos then arrayContainsLoop rd pos low (mid - 1)
    else true
  else arrayContainsScan rd pos low high
termination_by (high + 1 - low).toNat
decreasing_by all_goals omega

/-- `array_container_contains`, array.h:334-362. -/
def arrayContains (l : List Nat) (pos : Nat) : Bool :=
  arrayContainsLoop (rdL l) pos 0 ((l.length : Int) - 1)

/-- `array_container_offset`, array.h:364, array.c:103-127: the low and high containers, when produced.
`offset` is a `uint16_t`; `c->array[i] + offset` is narrowed to `uint16_t` on the call. -/
def arrayOffset (l : List Nat) (offset : Nat) : Option (List Nat) × Option (List Nat) :=
  let top := 65536 - offset
  let lo_cap := (countLess (rdL l) l.length top).toNat
  let lo := (l.take lo_cap).foldl (fun acc v => (arrayAdd acc ((v + offset) % 65536)).1) []
  let hi := (l.drop lo_cap).foldl (fun acc v => (arrayAdd acc ((v + offset) % 65536)).1) []
  (if lo_cap ≠ 0 then some lo else none, if l.length - lo_cap ≠ 0 then some hi else none)

/-- `array_container_contains_range`, array.h:369-392. -/
def arrayContainsRange (l : List Nat) (range_start range_end : Nat) : Bool :=
  let range_count : Int := (range_end : Int) - range_start
  let rs_included := range_start % 65536
  let re_included := (range_end - 1) % 65536
  if range_count ≤ 0 then true
  else if range_count > l.length then false
  else
    let start := binarySearch (rdL l) l.length rs_included
    decide (start ≥ 0) && decide ((l.length : Int) ≥ start + range_count) &&
      (rdL l (start + range_count - 1).toNat == re_included)

/-- `array_container_minimum`, array.h:395-398. -/
def arrayMin (l : List Nat) : Nat := if l.length = 0 then 0 else rdL l 0
/-- `array_container_maximum`, array.h:401-404. -/
def arrayMax (l : List Nat) : Nat := if l.length = 0 then 0 else rdL l (l.length - 1)

/-- `array_container_rank`, array.h:407-415. -/
def arrayRank (l : List Nat) (x : Nat) : Int :=
  let idx := binarySearch (rdL l) l.length x
  if idx ≥ 0 then idx + 1 else -idx - 1

/-- `array_container_rank_many`, array.h:419-442: loop over the queries of this container.
`high` is the common upper half; the result is the answers written, in order, and the queries left. -/
def arrayRankManyLoop (l : List Nat) (start_rank high : Nat) : Nat → List Nat → List Nat × List Nat
  | _, [] => ([], [])
  | pos, x :: xs =>
    if x / 65536 % 65536 ≠ high then ([], x :: xs)
    else
      let idx := binarySearch (fun i => rdL l (pos + i)) (l.length - pos) (x % 65536)
      if idx ≥ 0 then
        let r := arrayRankManyLoop l start_rank high (idx.toNat + 1) xs
        ((start_rank + pos + (idx + 1).toNat) :: r.1, r.2)
      else
        let r := arrayRankManyLoop l start_rank high pos xs
        ((start_rank + pos + (-idx - 1).toNat) :: r.1, r.2)

/-- `array_container_rank_many`, array.h:419-442. -/
def arrayRankMany (l : List Nat) (start_rank : Nat) (xs : List Nat) : List Nat × List Nat :=
  arrayRankManyLoop l start_rank (xs.headD 0 / 65536 % 65536) 0 xs

/-- `array_container_get_index`, array.h:445-453. -/
def arrayGetIndex (l : List Nat) (x : Nat) : Int :=
  let idx := binarySearch (rdL l) l.length x
  if idx ≥ 0 then idx else -1

/-- `array_container_index_equalorlarger`, array.h:456-467. -/
def arrayIndexEqualOrLarger (l : List Nat) (x : Nat) : Int :=
  let idx := binarySearch (rdL l) l.length x
  if idx ≥ 0 then idx
  else
    let candidate := -idx - 1
    if candidate < l.length then candidate else -1

/-- `array_container_add_range_nvals`, array.h:474-489 (also the same loop of
`array_container_create_range`): the first `nvals_less` values, `min..max`, the last `nvals_greater`. -/
def arrayAddRangeNvals (l : List Nat) (min max nvals_less nvals_greater : Nat) : List Nat :=
  l.take nvals_less ++ (List.range' min (max - min + 1)).map (· % 65536) ++ l.drop (l.length - nvals_greater)

/-- `array_container_remove_range`, array.h:506-513. -/
def arrayRemoveRange (l : List Nat) (pos count : Nat) : List Nat :=
  if count ≠ 0 then l.take pos ++ l.drop (pos + count) else l

/-- `array_container_select`, array.h:242-253: the element, or the advanced rank.
`*start_rank + card` is `uint32_t` arithmetic. -/
def arraySelect (l : List Nat) (start_rank rank : Nat) : Nat ⊕ Nat :=
  if u32 (start_rank + l.length) ≤ rank then .inr (u32 (start_rank + l.length))
  else .inl (rdL l (rank - start_rank))

/-- `array_container_equals`, array.h:221-229 (`memequals` on the two value arrays). -/
def arrayEquals (l1 l2 : List Nat) : Bool :=
  if l1.length ≠ l2.length then false else l1 == l2

/-- `array_container_create_range`, array.c:76-86: the values of `[min, max)`. -/
def arrayCreateRange (min max : Nat) : List Nat := (List.range' min (max - min)).map (· % 65536)

/-- `array_container_add_from_range`, array.c:197-202, for `step > 0`. -/
def arrayAddFromRange (l : List Nat) (min max step : Nat) : List Nat :=
  if min < max ∧ 0 < step then arrayAddFromRange (arrayAppend l (min % 65536)) (min + step) max step
  else l
termination_by max - min
decreasing_by omega

/-- `array_container_union`, array.c:207-218. -/
def arrayUnion (l1 l2 : List Nat) : List Nat := fastUnionU16 l1 l2
/-- `array_container_andnot`, array.c:224-246 (scalar branch). -/
def arrayAndnot (l1 l2 : List Nat) : List Nat := differenceU16 l1 l2
/-- `array_container_xor`, array.c:253-277 (scalar branch). -/
def arrayXor (l1 l2 : List Nat) : List Nat := xorU16 l1 l2

/-- `array_container_intersection`, array.c:286-323 and `array_container_intersection_inplace`,
373-397 (scalar branches; the in-place variant writes into the first operand, see `Model/Alias`). -/
def arrayIntersection (l1 l2 : List Nat) : List Nat :=
  if l1.length * 64 < l2.length then intersectSkewed l1 l2
  else if l2.length * 64 < l1.length then intersectSkewed l2 l1
  else intersectU16 l1 l2

/-- `array_container_intersection_cardinality`, array.c:327-351. -/
def arrayIntersectionCard (l1 l2 : List Nat) : Nat :=
  if l1.length * 64 < l2.length then intersectSkewedCard l1 l2
  else if l2.length * 64 < l1.length then intersectSkewedCard l2 l1
  else intersectU16Card l1 l2

/-- `array_container_intersect`, array.c:353-368. -/
def arrayIntersect (l1 l2 : List Nat) : Bool :=
  if l1.length * 64 < l2.length then intersectSkewedNonempty l1 l2
  else if l2.length * 64 < l1.length then intersectSkewedNonempty l2 l1
  else intersectU16Nonempty l1 l2

/-- `array_container_to_uint32_array`, array.c:400-427. -/
def arrayToUint32 (l : List Nat) (base : Nat) : List Nat := l.map (fun (v : Nat) => u32 (base + v))

/-- The ordering loop of `array_container_validate`, array.c:480-487. -/
def arrayIncreasing : Nat → List Nat → Bool
  | _, [] => true
  | prev, v :: l => if v ≤ prev then false else arrayIncreasing v l

/-- `array_container_validate`, array.c:454-490 (capacity and pointer checks are not modelled). -/
def arrayValidate (l : List Nat) : Bool :=
  if l.length > DEFAULT_MAX_SIZE then false
  else match l with
    | [] => false
    | v :: l => arrayIncreasing v l

/-- `array_container_number_of_runs`, array.c:493-502. -/
def arrayNumberOfRuns : Int → List Nat → Nat
  | _, [] => 0
  | prev, p :: l => (if (p : Int) ≠ prev + 1 then 1 else 0) + arrayNumberOfRuns p l

/-- The loop of `array_container_is_subset`, array.c:521-530: `true` when the first list runs out. -/
def arraySubsetLoop : List Nat → List Nat → Bool
  | [], _ => true
  | _ :: _, [] => false
  | a :: as, b :: bs =>
    if a = b then arraySubsetLoop as bs
    else if a > b then arraySubsetLoop (a :: as) bs
    else false
termination_by as bs => as.length + bs.length

/-- `array_container_is_subset`, array.c:515-536. -/
def arrayIsSubset (l1 l2 : List Nat) : Bool :=
  if l1.length > l2.length then false else arraySubsetLoop l1 l2

/-- `array_container_iterate`, array.c:549-554: the calls made with a callback that stops the walk
the first time it returns `false`; the callback carries its state `σ`. -/
def arrayIterate {σ : Type} (f : σ → Nat → σ × Bool) (s : σ) (base : Nat) : List Nat → σ × Bool
  | [] => (s, true)
  | v :: l =>
    let r := f s (u32 (v + base))
    if r.2 then arrayIterate f r.1 base l else (r.1, false)

end CRoaring
