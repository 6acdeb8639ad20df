import Verif.Model.ArrayMem
import Verif.Model.RunMem
import Verif.Model.SimdExtract
/-
Array containers on memory: single values, ranges, copies, and the operations that combine an array or a run container with a container
of another kind and write an array.  An array container is a buffer of `capacity` values of which the first `cardinality` are its contents
(`ArrBuf`).  Every access to a buffer is checked against its capacity; `.oob` is an access outside it.  The contents of new memory are
arbitrary: `fresh n` is whatever `malloc` returns for `n` values.  Allocation succeeds.

The searches (`binarySearch`, `countLess`, `advanceUntil`, …) read the values below `cardinality` only and are taken from Model/ArrayUtil.
A bitset container always has its 1024 words, and a 16-bit position is inside them; its operations are taken from Model/Bitset.
-/
namespace CRoaring

/-- `arr->array[arr->cardinality++] = v`. -/
def ArrBuf.push (b : ArrBuf) (v : Nat) : Out ArrBuf := do
  let mem ← write16 b.mem b.card v
  .ok ⟨b.card + 1, mem⟩

/-- `arr->array[arr->cardinality] = v; arr->cardinality += keep`: the value is always written, and counts if `keep` is true. -/
def ArrBuf.store (b : ArrBuf) (v : Nat) (keep : Bool) : Out ArrBuf := do
  let mem ← write16 b.mem b.card v
  .ok ⟨b.card + keep.toNat, mem⟩

/-- `memmove(array + dst, array + src, count * sizeof(uint16_t))`. -/
def mvVals (mem : List Nat) (dst src count : Nat) : Out (List Nat) := do
  let v ← readN mem src count
  storeu mem dst v

/-- `for (i = 0; i < n; i++) array[pos + i] = (uint16_t)(v + i)`. -/
def fillVals (mem : List Nat) (pos v : Nat) : Nat → Out (List Nat)
  | 0 => .ok mem
  | n + 1 => do
    let mem ← write16 mem pos (v % 65536)
    fillVals mem (pos + 1) (v + 1) n

/-- `array_container_grow(container, min, true)`: src/containers/array.c:164-183 (`realloc` keeps what fits). -/
def arrayGrowKeep (fresh : Nat → List Nat) (b : ArrBuf) (min : Nat) : ArrBuf :=
  let max := if min ≤ DEFAULT_MAX_SIZE then DEFAULT_MAX_SIZE else 65536
  let cap := clampNat (growCapacity b.mem.length) min max
  { b with mem := b.mem.take cap ++ (fresh cap).drop b.mem.length }

/-- `array_container_create_given_capacity`: src/containers/array.c:48-69; `array_container_create` (72-74) has
`ARRAY_DEFAULT_INIT_SIZE`, which is 0 (include/roaring/containers/perfparameters.h:25). -/
def arrayCreateBuf (fresh : Nat → List Nat) (size : Nat) : ArrBuf := ⟨0, fresh size⟩

/-- `array_container_clone`: src/containers/array.c:89-101. -/
def arrayCloneBuf (fresh : Nat → List Nat) (src : ArrBuf) : Out ArrBuf := do
  let v ← readN src.mem 0 src.card
  let mem ← storeu (fresh src.mem.length) 0 v
  .ok ⟨src.card, mem⟩

/-- `array_container_copy`: src/containers/array.c:186-195. -/
def arrayCopyBuf (fresh : Nat → List Nat) (src dst : ArrBuf) : Out ArrBuf := do
  let dst := arrayReserve fresh dst src.card src.card
  let v ← readN src.mem 0 src.card
  let mem ← storeu dst.mem 0 v
  .ok ⟨src.card, mem⟩

/-- `array_container_shrink_to_fit`: src/containers/array.c:129-144 (a `realloc` to a smaller size succeeds; the pointer of an empty
container becomes `NULL`, which is no memory as well). -/
def arrayShrinkBuf (b : ArrBuf) : ArrBuf × Nat :=
  if b.card = b.mem.length then (b, 0) else (⟨b.card, b.mem.take b.card⟩, b.mem.length - b.card)

/-- `if (array_container_full(arr)) array_container_grow(arr, arr->capacity + 1, true)`: include/roaring/containers/array.h:269-271, 301-303. -/
def arrayRoom (fresh : Nat → List Nat) (b : ArrBuf) : ArrBuf :=
  if b.card = b.mem.length then arrayGrowKeep fresh b (b.mem.length + 1) else b

/-- `array_container_append`: include/roaring/containers/array.h:265-274. -/
def arrayAppendBuf (fresh : Nat → List Nat) (b : ArrBuf) (pos : Nat) : Out ArrBuf := (arrayRoom fresh b).push pos

/-- `array_container_empty(arr) || arr->array[cardinality - 1] < value`: include/roaring/containers/array.h:289. -/
def lastBelow (b : ArrBuf) (value : Nat) : Out Bool :=
  if b.card = 0 then .ok true
  else do
    let v ← rdVal b.mem (b.card - 1)
    .ok (decide (v < value))

/-- `array_container_try_add`: include/roaring/containers/array.h:283-312. -/
def arrayTryAddBuf (fresh : Nat → List Nat) (b : ArrBuf) (value : Nat) (max_cardinality : Int) : Out (ArrBuf × Int) := do
  let below ← lastBelow b value
  if below = true ∧ (b.card : Int) < max_cardinality then
    let b ← arrayAppendBuf fresh b value
    .ok (b, 1)
  else
    let loc := binarySearch (rdL b.vals) b.card value
    if loc ≥ 0 then .ok (b, 0)
    else if (b.card : Int) < max_cardinality then
      let b := arrayRoom fresh b
      let insert_idx := (-loc - 1).toNat
      let mem ← mvVals b.mem (insert_idx + 1) insert_idx (b.card - insert_idx)
      let mem ← write16 mem insert_idx value
      .ok (⟨b.card + 1, mem⟩, 1)
    else .ok (b, -1)

/-- `array_container_add`: include/roaring/containers/array.h:315-317. -/
def arrayAddBuf (fresh : Nat → List Nat) (b : ArrBuf) (value : Nat) : Out (ArrBuf × Bool) := do
  let r ← arrayTryAddBuf fresh b value INT32_MAX
  .ok (r.1, r.2 == 1)

/-- `array_container_remove`: include/roaring/containers/array.h:320-331. -/
def arrayRemoveBuf (b : ArrBuf) (pos : Nat) : Out (ArrBuf × Bool) :=
  let idx := binarySearch (rdL b.vals) b.card pos
  if idx ≥ 0 then do
    let mem ← mvVals b.mem idx.toNat (idx.toNat + 1) (b.card - idx.toNat - 1)
    .ok (⟨b.card - 1, mem⟩, true)
  else .ok (b, false)

/-- `array_container_add_range_nvals`: include/roaring/containers/array.h:474-489. -/
def arrayAddRangeNvalsBuf (fresh : Nat → List Nat) (b : ArrBuf) (min max nvals_less nvals_greater : Nat) : Out ArrBuf := do
  let union_cardinality := nvals_less + (max - min + 1) + nvals_greater
  let b' := if union_cardinality > b.mem.length then arrayGrowKeep fresh b union_cardinality else b
  let mem ← mvVals b'.mem (union_cardinality - nvals_greater) (b.card - nvals_greater) nvals_greater
  let mem ← fillVals mem nvals_less min (max - min + 1)
  .ok ⟨union_cardinality, mem⟩

/-- `array_container_remove_range`: include/roaring/containers/array.h:506-513. -/
def arrayRemoveRangeBuf (b : ArrBuf) (pos count : Nat) : Out ArrBuf :=
  if count ≠ 0 then do
    let mem ← mvVals b.mem pos (pos + count) (b.card - pos - count)
    .ok ⟨b.card - count, mem⟩
  else .ok b

/-- `n` values from `v` on are appended to a buffer that is expected to have room: the inner loops of src/containers/array.c:82-84,
src/containers/convert.c:48-50, 182-184. -/
def pushRange (b : ArrBuf) (v : Nat) : Nat → Out ArrBuf
  | 0 => .ok b
  | n + 1 => do
    let b ← b.push (v % 65536)
    pushRange b (v + 1) n

/-- `array_container_create_range`: src/containers/array.c:77-86. -/
def arrayCreateRangeBuf (fresh : Nat → List Nat) (min max : Nat) : Out ArrBuf :=
  pushRange (arrayCreateBuf fresh (max - min + 1)) min (max - min)

/-- `array_container_add_from_range`: src/containers/array.c:197-202, for `step > 0`. -/
def arrayAddFromRangeBuf (fresh : Nat → List Nat) (b : ArrBuf) (min max step : Nat) : Out ArrBuf :=
  if min < max ∧ 0 < step then
    match arrayAppendBuf fresh b (min % 65536) with
    | .ok b => arrayAddFromRangeBuf fresh b (min + step) max step
    | .fail => .fail
    | .oob => .oob
  else .ok b
termination_by max - min
decreasing_by omega

/-- The loops of `array_container_offset`: src/containers/array.c:113-115, 122-124: `n` values of `mem` from index `i` on. -/
def offsetLoopBuf (fresh : Nat → List Nat) (mem : List Nat) (offset : Nat) : Nat → Nat → ArrBuf → Out ArrBuf
  | 0, _, b => .ok b
  | n + 1, i, b => do
    let v ← rdVal mem i
    let r ← arrayAddBuf fresh b ((v + offset) % 65536)
    offsetLoopBuf fresh mem offset n (i + 1) r.1

/-- `array_container_offset`: src/containers/array.c:103-127; both results are asked for. -/
def arrayOffsetBuf (fresh : Nat → List Nat) (b : ArrBuf) (offset : Nat) : Out (Option ArrBuf × Option ArrBuf) := do
  let top := 65536 - offset
  let lo_cap := (countLess (rdL b.vals) b.card top).toNat
  let hi_cap := b.card - lo_cap
  let lo ← if lo_cap ≠ 0 then do
      let lo ← offsetLoopBuf fresh b.mem offset lo_cap 0 (arrayCreateBuf fresh lo_cap)
      .ok (some lo)
    else .ok none
  let hi ← if hi_cap ≠ 0 then do
      let hi ← offsetLoopBuf fresh b.mem offset hi_cap lo_cap (arrayCreateBuf fresh hi_cap)
      .ok (some hi)
    else .ok none
  .ok (lo, hi)

/-! ### An array and a bitset or runs -/

/-- The loops of `array_bitset_container_intersection`, src/containers/mixed_intersection.c:27-31, and of `array_bitset_container_andnot`,
src/containers/mixed_andnot.c:33-37, which write every value and keep it or not.  `g` is the memory of the first operand as a function
of the memory of the destination: constant if they are different, the identity if they are the same. -/
def filterBuf (keep : Nat → Bool) (g : List Nat → List Nat) : Nat → Nat → ArrBuf → Out ArrBuf
  | 0, _, d => .ok d
  | n + 1, i, d => do
    let key ← rdVal (g d.mem) i
    let d ← d.store key (keep key)
    filterBuf keep g n (i + 1) d

/-- `array_bitset_container_intersection` (`src_1 ≠ dst`): src/containers/mixed_intersection.c:19-47. -/
def arrayBitsetIntersectionBuf (fresh : Nat → List Nat) (a : ArrBuf) (b : Bitset) (dst : ArrBuf) : Out ArrBuf :=
  let dst := arrayReserve fresh dst a.card a.card
  filterBuf (bitsetGet b) (fun _ => a.mem) a.card 0 ⟨0, dst.mem⟩

/-- `array_bitset_container_intersection(a, b, a)`: src/containers/mixed_intersection.c:19-47. -/
def arrayBitsetIntersectionInplaceBuf (fresh : Nat → List Nat) (a : ArrBuf) (b : Bitset) : Out ArrBuf :=
  let dst := arrayReserve fresh a a.card a.card
  filterBuf (bitsetGet b) (fun m => m) a.card 0 ⟨0, dst.mem⟩

/-- `array_bitset_container_andnot` (`src_1 ≠ dst`): src/containers/mixed_andnot.c:24-39. -/
def arrayBitsetAndnotBuf (fresh : Nat → List Nat) (a : ArrBuf) (b : Bitset) (dst : ArrBuf) : Out ArrBuf :=
  let dst := arrayReserve fresh dst a.card a.card
  filterBuf (fun key => !bitsetGet b key) (fun _ => a.mem) a.card 0 ⟨0, dst.mem⟩

/-- `array_bitset_container_iandnot`: src/containers/mixed_andnot.c:24-47. -/
def arrayBitsetIandnotBuf (fresh : Nat → List Nat) (a : ArrBuf) (b : Bitset) : Out ArrBuf :=
  let dst := arrayReserve fresh a a.card a.card
  filterBuf (fun key => !bitsetGet b key) (fun m => m) a.card 0 ⟨0, dst.mem⟩

/-- The loop of `array_run_container_intersection`: src/containers/mixed_intersection.c:92-110, for `dst ≠ src_1`. -/
def arrayRunInterBufLoop (a : ArrBuf) (r : RunBuf) : Nat → Nat → Nat → Rle → ArrBuf → Out ArrBuf
  | 0, _, _, _, _ => .fail
  | fuel + 1, i, j, rle, d =>
    if i < a.card then do
      let v ← rdVal a.mem i
      if rle.1 + rle.2 < v then
        if j + 1 = r.n then .ok d
        else do
          let x ← rdRun r.mem (j + 1)
          arrayRunInterBufLoop a r fuel i (j + 1) x d
      else if rle.1 > v then arrayRunInterBufLoop a r fuel (advanceUntil (rdL a.vals) i a.card rle.1) j rle d
      else do
        let d ← d.push v
        arrayRunInterBufLoop a r fuel (i + 1) j rle d
    else .ok d

/-- `array_run_container_intersection` (`dst ≠ src_1`): src/containers/mixed_intersection.c:74-111.  With no runs the destination keeps its
cardinality. -/
def arrayRunIntersectionBuf (fresh : Nat → List Nat) (a : ArrBuf) (r : RunBuf) (dst : ArrBuf) : Out ArrBuf := do
  let full ← isFullBuf r
  if full = true then arrayCopyBuf fresh a dst
  else
    let dst := arrayReserve fresh dst a.card a.card
    if r.n = 0 then .ok dst
    else
      let rle ← rdRun r.mem 0
      arrayRunInterBufLoop a r (a.card + r.n + 1) 0 0 rle ⟨0, dst.mem⟩

/-- `do … while (val > run_end)`: src/containers/mixed_andnot.c:409-417: `which_run`, `run_start` and `run_end`. -/
def nextRunBuf (r : RunBuf) (val : Nat) : Nat → Nat → Out (Nat × Nat × Nat)
  | 0, _ => .fail
  | fuel + 1, which =>
    if which + 1 < r.n then do
      let x ← rdRun r.mem (which + 1)
      if val > x.1 + x.2 then nextRunBuf r val fuel (which + 1) else .ok (which + 1, x.1, x.1 + x.2)
    else if val > 65537 then nextRunBuf r val fuel which else .ok (which, 65537, 65537)

/-- The loop of `array_run_container_andnot`: src/containers/mixed_andnot.c:402-420.  After the `do … while` the C code steps `i` back and
examines the same value again; now it is not above `run_end`. -/
def arrayRunAndnotBufLoop (g : List Nat → List Nat) (r : RunBuf) : Nat → Nat → Nat × Nat × Nat → ArrBuf → Out ArrBuf
  | 0, _, _, d => .ok d
  | n + 1, i, s, d => do
    let val ← rdVal (g d.mem) i
    if val < s.2.1 then do
      let d ← d.push val
      arrayRunAndnotBufLoop g r n (i + 1) s d
    else if val ≤ s.2.2 then arrayRunAndnotBufLoop g r n (i + 1) s d
    else do
      let s ← nextRunBuf r val (r.n + 1) s.1
      if val < s.2.1 then do
        let d ← d.push val
        arrayRunAndnotBufLoop g r n (i + 1) s d
      else arrayRunAndnotBufLoop g r n (i + 1) s d

/-- `array_run_container_andnot` (`src_1 ≠ dst`): src/containers/mixed_andnot.c:381-422. -/
def arrayRunAndnotBuf (fresh : Nat → List Nat) (a : ArrBuf) (r : RunBuf) (dst : ArrBuf) : Out ArrBuf := do
  let dst := arrayReserve fresh dst a.card a.card
  if r.n = 0 then
    let v ← readN a.mem 0 a.card
    let mem ← storeu dst.mem 0 v
    .ok ⟨a.card, mem⟩
  else
    let x ← rdRun r.mem 0
    arrayRunAndnotBufLoop (fun _ => a.mem) r a.card 0 (0, x.1, x.1 + x.2) ⟨0, dst.mem⟩

/-- `array_run_container_iandnot`: src/containers/mixed_andnot.c:381-430. -/
def arrayRunIandnotBuf (fresh : Nat → List Nat) (a : ArrBuf) (r : RunBuf) : Out ArrBuf := do
  let dst := arrayReserve fresh a a.card a.card
  if r.n = 0 then
    let mem ← mvVals dst.mem 0 0 a.card
    .ok ⟨a.card, mem⟩
  else
    let x ← rdRun r.mem 0
    arrayRunAndnotBufLoop (fun m => m) r a.card 0 (0, x.1, x.1 + x.2) ⟨0, dst.mem⟩

/-! ### Runs into an array -/

/-- `for (rlepos = 0; rlepos < n_runs; ++rlepos)` with the body `f`: `n` runs from index `i` on. -/
def runsLoop {σ : Type} (r : RunBuf) (f : σ → Rle → Out σ) : Nat → Nat → σ → Out σ
  | 0, _, s => .ok s
  | n + 1, i, s => do
    let x ← rdRun r.mem i
    let s ← f s x
    runsLoop r f n (i + 1) s

/-- `array_container_from_run`: src/containers/convert.c:40-53; the same loop is at 176-186. -/
def arrayFromRunBuf (fresh : Nat → List Nat) (r : RunBuf) : Out ArrBuf :=
  runsLoop r (fun b x => pushRange b x.1 (x.2 + 1)) r.n 0 (arrayCreateBuf fresh (runCard r.vals))

/-- The array branch of `convert_to_bitset_or_array_container`: src/containers/convert.c:121-137; `run_end` is a `uint16_t`. -/
def convertToArrayBuf (fresh : Nat → List Nat) (r : RunBuf) (card : Nat) : Out ArrBuf :=
  runsLoop r (fun b x => do
    let b ← pushRange b x.1 (u16 ((x.1 : Int) + x.2) - x.1)
    b.push (u16 ((x.1 : Int) + x.2))) r.n 0 (arrayCreateBuf fresh card)

/-- Every value is written, those in the bitset are kept: src/containers/mixed_intersection.c:140-145. -/
def storeRange (g : Nat → Bool) (b : ArrBuf) (v : Nat) : Nat → Out ArrBuf
  | 0 => .ok b
  | n + 1 => do
    let b ← b.store (v % 65536) (g v)
    storeRange g b (v + 1) n

/-- The array branch of `run_bitset_container_intersection`: src/containers/mixed_intersection.c:125-149. -/
def runBitsetInterBuf (fresh : Nat → List Nat) (r : RunBuf) (b : Bitset) : Out ArrBuf :=
  let card : Int := if (runCard r.vals : Int) > b.card then b.card else runCard r.vals
  runsLoop r (fun d x => storeRange (bitsetGet b) d x.1 (x.2 + 1)) r.n 0 (arrayCreateBuf fresh card.toNat)

/-- The values that are not in the bitset are appended: src/containers/mixed_andnot.c:114-119. -/
def pushRangeIf (g : Nat → Bool) (b : ArrBuf) (v : Nat) : Nat → Out ArrBuf
  | 0 => .ok b
  | n + 1 =>
    if g v then do
      let b ← b.push (v % 65536)
      pushRangeIf g b (v + 1) n
    else pushRangeIf g b (v + 1) n

/-- The array branch of `run_bitset_container_andnot`: src/containers/mixed_andnot.c:108-123. -/
def runBitsetAndnotBuf (fresh : Nat → List Nat) (r : RunBuf) (b : Bitset) : Out ArrBuf :=
  runsLoop r (fun d x => pushRangeIf (fun v => !bitsetGet b v) d x.1 (x.2 + 1)) r.n 0 (arrayCreateBuf fresh (runCard r.vals))

/-- The loop src/containers/mixed_andnot.c:260-267: `n` values from `i` on; the last `in_array_pos`. -/
def subtractRunBuf (l : List Nat) (i : Nat) : Nat → Nat → Nat → ArrBuf → Out (ArrBuf × Nat)
  | 0, _, pos, d => .ok (d, pos)
  | n + 1, next, pos, d =>
    if i ≠ next then do
      let d ← d.push (i % 65536)
      subtractRunBuf l (i + 1) n next pos d
    else if pos + 1 ≥ l.length then subtractRunBuf l (i + 1) n 0 pos d
    else do
      let next ← rdVal l (pos + 1)
      subtractRunBuf l (i + 1) n next (pos + 1) d

/-- The body of the loop of `run_array_array_subtract`: src/containers/mixed_andnot.c:241-269.  The state is the output and
`in_array_pos + 1`; `l` are the values of the array. -/
def subtractStepBuf (l : List Nat) (s : ArrBuf × Nat) (r : Rle) : Out (ArrBuf × Nat) :=
  let start := r.1
  let end_ := start + r.2 + 1
  let pos := advanceFrom (rdL l) s.2 l.length start
  if pos ≥ l.length then do
    let d ← pushRange s.1 start (end_ - start)
    .ok (d, pos + 1)
  else do
    let next ← rdVal l pos
    if next ≥ end_ then do
      let d ← pushRange s.1 start (end_ - start)
      .ok (d, pos)
    else subtractRunBuf l start (end_ - start) next pos s.1

/-- `run_array_array_subtract` into an array of `run_container_cardinality` values: src/containers/mixed_andnot.c:233-272, 349-354. -/
def runArraySubtractBuf (fresh : Nat → List Nat) (r : RunBuf) (a : ArrBuf) : Out ArrBuf := do
  let p ← runsLoop r (subtractStepBuf a.vals) r.n 0 (arrayCreateBuf fresh (runCard r.vals), 0)
  .ok p.1

/-! ### Flipping a range of an array -/

/-- The two loops src/containers/mixed_negation.c:138-148; see `negationLoop`.  `card` is `out_pos` here. -/
def negationFill (l : List Nat) (last_index : Int) (val : Nat) : Nat → Nat → ArrBuf → Out ArrBuf
  | 0, _, d => .ok d
  | n + 1, in_pos, d =>
    if (in_pos : Int) ≤ last_index then do
      let v ← rdVal l in_pos
      if val % 65536 ≠ v then do
        let d ← d.push (val % 65536)
        negationFill l last_index (val + 1) n in_pos d
      else negationFill l last_index (val + 1) n (in_pos + 1) d
    else do
      let d ← d.push (val % 65536)
      negationFill l last_index (val + 1) n in_pos d

/-- The array branch of `array_container_negation_range`, src/containers/mixed_negation.c:128-153, for a result of `new_cardinality`
values. -/
def arrayNegationBuf (fresh : Nat → List Nat) (src : ArrBuf) (range_start range_end : Nat) (start_index last_index : Int)
    (new_cardinality : Nat) : Out ArrBuf := do
  let arr := arrayCreateBuf fresh new_cardinality
  if new_cardinality = 0 then .ok arr
  else
    let v ← readN src.mem 0 start_index.toNat
    let mem ← storeu arr.mem 0 v
    let arr ← negationFill src.vals last_index range_start (range_end - range_start) start_index.toNat ⟨start_index.toNat, mem⟩
    let v ← readN src.mem (last_index + 1).toNat (src.card - (last_index + 1).toNat)
    let mem ← storeu arr.mem arr.card v
    .ok ⟨new_cardinality, mem⟩

end CRoaring
