import Verif.Model.Array
/-
Model of the run container (include/roaring/containers/run.h, src/containers/run.c).

A run container is the list of its `n_runs` runs; a run `(value, length)` stands for the values
`value .. value + length`.  `capacity` and the allocations that maintain it are not modelled.
A container that is being built by appending at the end (`dst` in the C code) is a list in
*reverse* order, its last run first; `run_container_append` and `run_container_append_value` keep a
copy `previousrl` of the last run, which is the head of that list.
-/
namespace CRoaring

/-- `rle16_t`, include/roaring/containers/run.h:40-43. -/
abbrev Rle := Nat × Nat

/-- `run->runs[i]`. -/
def rdR (rs : List Rle) (i : Nat) : Rle := rs.getD i (0, 0)

/-- `recoverRoomAtIndex`, run.h:94-98. -/
def recoverRoomAtIndex (rs : List Rle) (index : Nat) : List Rle := rs.take index ++ rs.drop (index + 1)

/-- `makeRoomAtIndex`, run.h:200-209, together with the store into the new slot that follows it at
every call site. -/
def insertRunAt (rs : List Rle) (index : Nat) (r : Rle) : List Rle := rs.take index ++ r :: rs.drop index

/-- `interleavedBinarySearch`, run.h:103-119: `binarySearch` on the run starts (same code). -/
def interleavedBinarySearch (rs : List Rle) (ikey : Nat) : Int :=
  binarySearch (fun i => (rdR rs i).1) rs.length ikey

/-- `rle16_find_run`, run.h:124-141: the loop.  `max` is a `uint16_t`. -/
def findRunLoop (rs : List Rle) (ikey : Nat) (low high : Int) : Int :=
  if low ≤ high then
    let mid := (low + high) / 2
    let min := (rdR rs mid.toNat).1
    let max := ((rdR rs mid.toNat).1 + (rdR rs mid.toNat).2) % 65536
    if ikey > max then findRunLoop rs ikey (mid + 1) high
    else if ikey < min then findRunLoop rs ikey low (mid - 1)
    else mid
  else -(low + 1)
termination_by (high + 1 - low).toNat
decreasing_by all_goals omega

/-- `rle16_find_run`, run.h:124-141. -/
def rle16FindRun (rs : List Rle) (ikey : Nat) : Int := findRunLoop rs ikey 0 ((rs.length : Int) - 1)

/-- `rle16_count_less`, run.h:148-167: the loop over `array[0..lenarray)`. -/
def rleCountLessLoop (rs : List Rle) (key : Nat) (low high : Int) : Int :=
  if low ≤ high then
    let mid := (low + high) / 2
    let min_value := (rdR rs mid.toNat).1
    let max_value := ((rdR rs mid.toNat).1 + (rdR rs mid.toNat).2) % 65536
    if max_value + 1 < key then rleCountLessLoop rs key (mid + 1) high
    else if key < min_value then rleCountLessLoop rs key low (mid - 1)
    else mid
  else low
termination_by (high + 1 - low).toNat
decreasing_by all_goals omega

/-- `rle16_count_less`, run.h:148-167. -/
def rle16CountLess (rs : List Rle) (lenarray : Nat) (key : Nat) : Int :=
  if lenarray = 0 then 0 else rleCountLessLoop rs key 0 ((lenarray : Int) - 1)

/-- `rle16_count_greater`, run.h:169-188: the loop. -/
def rleCountGreaterLoop (rs : List Rle) (lenarray : Nat) (key : Nat) (low high : Int) : Int :=
  if low ≤ high then
    let mid := (low + high) / 2
    let min_value := (rdR rs mid.toNat).1
    let max_value := ((rdR rs mid.toNat).1 + (rdR rs mid.toNat).2) % 65536
    if max_value < key then rleCountGreaterLoop rs lenarray key (mid + 1) high
    else if key + 1 < min_value then rleCountGreaterLoop rs lenarray key low (mid - 1)
    else lenarray - (mid + 1)
  else lenarray - low
termination_by (high + 1 - low).toNat
decreasing_by all_goals omega

/-- `rle16_count_greater`, run.h:169-188. -/
def rle16CountGreater (rs : List Rle) (lenarray : Nat) (key : Nat) : Int :=
  if lenarray = 0 then 0 else rleCountGreaterLoop rs lenarray key 0 ((lenarray : Int) - 1)

/-- `run_container_add`, run.c:39-86. -/
def runAdd (rs : List Rle) (pos : Nat) : List Rle × Bool :=
  let index := interleavedBinarySearch rs pos
  if index ≥ 0 then (rs, false)
  else
    let index := -index - 2
    let fresh := (insertRunAt rs (index + 1).toNat (pos, 0), true)
    if index ≥ 0 then
      let i := index.toNat
      let r := rdR rs i
      let nx := rdR rs (i + 1)
      let offset : Int := (pos : Int) - r.1
      let le : Int := r.2
      if offset ≤ le then (rs, false)
      else if offset = le + 1 then
        if i + 1 < rs.length ∧ nx.1 = pos + 1 then
          (recoverRoomAtIndex (rs.set i (r.1, u16 ((nx.1 : Int) + nx.2 - r.1))) (i + 1), true)
        else (rs.set i (r.1, (r.2 + 1) % 65536), true)
      else if i + 1 < rs.length ∧ nx.1 = pos + 1 then
        (rs.set (i + 1) (pos, (nx.2 + 1) % 65536), true)
      else fresh
    else
      let r := rdR rs 0
      if 0 < rs.length ∧ r.1 = pos + 1 then (rs.set 0 (u16 ((r.1 : Int) - 1), (r.2 + 1) % 65536), true)
      else fresh

/-- `run_container_remove`, run.h:215-249. -/
def runRemove (rs : List Rle) (pos : Nat) : List Rle × Bool :=
  let index := interleavedBinarySearch rs pos
  if index ≥ 0 then
    let i := index.toNat
    let r := rdR rs i
    if r.2 = 0 then (recoverRoomAtIndex rs i, true)
    else (rs.set i ((r.1 + 1) % 65536, u16 ((r.2 : Int) - 1)), true)
  else
    let index := -index - 2
    if index ≥ 0 then
      let i := index.toNat
      let r := rdR rs i
      let offset : Int := (pos : Int) - r.1
      let le : Int := r.2
      if offset < le then
        (insertRunAt (rs.set i (r.1, u16 (offset - 1))) (i + 1) ((pos + 1) % 65536, u16 (le - offset - 1)), true)
      else if offset = le then (rs.set i (r.1, u16 ((r.2 : Int) - 1)), true)
      else (rs, false)
    else (rs, false)

/-- `run_container_contains`, run.h:252-262. -/
def runContains (rs : List Rle) (pos : Nat) : Bool :=
  let index := interleavedBinarySearch rs pos
  if index ≥ 0 then true
  else
    let index := -index - 2
    if index ≠ -1 then
      let r := rdR rs index.toNat
      decide ((pos : Int) - r.1 ≤ r.2)
    else false

/-- The counting loop of `run_container_contains_range`, run.h:281-292.  All quantities are `uint32_t`;
`stop - pos_start` does not wrap because the first run visited holds `pos_start`. -/
def runContainsRangeLoop (pos_start pos_end : Nat) (count : Nat) : List Rle → Nat
  | [] => count
  | r :: rs =>
    let stop := r.1 + r.2
    if r.1 ≥ pos_end then count
    else if stop ≥ pos_end then count + (pos_end - r.1)
    else
      let min := u32 ((stop : Int) - pos_start)
      runContainsRangeLoop pos_start pos_end (count + if min < r.2 then min else r.2) rs

/-- `run_container_contains_range`, run.h:268-294. -/
def runContainsRange (rs : List Rle) (pos_start pos_end : Nat) : Bool :=
  let index := interleavedBinarySearch rs (pos_start % 65536)
  let index' := if index < 0 then -index - 2 else index
  if index < 0 ∧ (index' = -1 ∨
      u32 ((pos_start : Int) - (rdR rs index'.toNat).1) > (rdR rs index'.toNat).2) then false
  else
    let count := runContainsRangeLoop pos_start pos_end 0 (rs.drop index'.toNat)
    decide (count ≥ u32 ((pos_end : Int) - pos_start - 1))

/-- `run_container_cardinality`, run.c:1049-1061. -/
def runCard (rs : List Rle) : Nat := rs.length + (rs.map (·.2)).sum

/-- `run_container_append`, run.h:323-337 (`acc`: `dst` in reverse; its head is `*previousrl`). -/
def runAppend (acc : List Rle) (vl : Rle) : List Rle :=
  match acc with
  | [] => [vl]   -- `run_container_append_first`, run.h:342-347
  | p :: acc' =>
    let previousend := p.1 + p.2
    if vl.1 > previousend + 1 then vl :: p :: acc'
    else
      let newend := vl.1 + vl.2 + 1
      if newend > previousend then (p.1, u16 ((newend : Int) - 1 - p.1)) :: acc'
      else p :: acc'

/-- `run_container_append_value`, run.h:358-370 and `run_container_append_value_first`, 376-382. -/
def runAppendValue (acc : List Rle) (val : Nat) : List Rle :=
  match acc with
  | [] => [(val, 0)]
  | p :: acc' =>
    let previousend := p.1 + p.2
    if val > previousend + 1 then (val, 0) :: p :: acc'
    else if val = previousend + 1 then (p.1, (p.2 + 1) % 65536) :: acc'
    else p :: acc'

/-- `run_container_is_full`, run.h:386-389 (reads `runs[0]`). -/
def runIsFull (rs : List Rle) : Bool :=
  rs.length == 1 && (rdR rs 0).1 == 0 && (rdR rs 0).2 == 0xFFFF

/-- The merging loops of `run_container_union`, run.c:251-280. -/
def runUnionLoop : List Rle → List Rle → List Rle → List Rle
  | [], [], acc => acc
  | [], x :: xs, acc => runUnionLoop [] xs (runAppend acc x)
  | r :: rs, [], acc => runUnionLoop rs [] (runAppend acc r)
  | r :: rs, x :: xs, acc =>
    if r.1 ≤ x.1 then runUnionLoop rs (x :: xs) (runAppend acc r)
    else runUnionLoop (r :: rs) xs (runAppend acc x)
termination_by rs xs => rs.length + xs.length

/-- `run_container_union`, run.c:229-281; also `run_container_union_inplace`, 285-341, which first moves
its runs out of the way.  Both operands non-empty. -/
def runUnion (rs1 rs2 : List Rle) : List Rle :=
  if runIsFull rs1 then rs1
  else if runIsFull rs2 then rs2
  else (runUnionLoop rs1 rs2 []).reverse

/-- `run_container_smart_append_exclusive`, run.c:798-841 (`acc` in reverse order). -/
def smartAppend (acc : List Rle) (start length : Nat) : List Rle :=
  match acc with
  | [] => [(start, length)]
  | p :: acc' =>
    let old_end := p.1 + p.2 + 1
    if start > old_end then (start, length) :: p :: acc'
    else if old_end = start then (p.1, (p.2 + (length + 1)) % 65536) :: acc'
    else
      let new_end := start + length + 1
      if start = p.1 then
        if new_end < old_end then (u16 new_end, u16 ((old_end : Int) - new_end - 1)) :: acc'
        else if new_end > old_end then (u16 old_end, u16 ((new_end : Int) - old_end - 1)) :: acc'
        else acc'
      else
        let p' := (p.1, u16 ((start : Int) - p.1 - 1))
        if new_end < old_end then (u16 new_end, u16 ((old_end : Int) - new_end - 1)) :: p' :: acc'
        else if new_end > old_end then (u16 old_end, u16 ((new_end : Int) - old_end - 1)) :: p' :: acc'
        else p' :: acc'

/-- The loops of `run_container_xor`, run.c:359-380. -/
def runXorLoop : List Rle → List Rle → List Rle → List Rle
  | [], [], acc => acc
  | r :: rs, [], acc => runXorLoop rs [] (smartAppend acc r.1 r.2)
  | [], x :: xs, acc => runXorLoop [] xs (smartAppend acc x.1 x.2)
  | r :: rs, x :: xs, acc =>
    if r.1 ≤ x.1 then runXorLoop rs (x :: xs) (smartAppend acc r.1 r.2)
    else runXorLoop (r :: rs) xs (smartAppend acc x.1 x.2)
termination_by rs xs => rs.length + xs.length

/-- `run_container_xor`, run.c:346-381. -/
def runXor (rs1 rs2 : List Rle) : List Rle := (runXorLoop rs1 rs2 []).reverse

/-- The loop of `run_container_intersection`, run.c:413-459: `start`/`end` and `xstart`/`xend` are always
those of the current runs, the heads of the two lists. -/
def runIntersectionLoop : List Rle → List Rle → List Rle
  | r :: rs, x :: xs =>
    let start := r.1
    let end_ := start + r.2 + 1
    let xstart := x.1
    let xend := xstart + x.2 + 1
    if end_ ≤ xstart then runIntersectionLoop rs (x :: xs)
    else if xend ≤ start then runIntersectionLoop (r :: rs) xs
    else
      let lateststart := if start > xstart then start else xstart
      if end_ = xend then (lateststart, u16 ((end_ : Int) - lateststart - 1)) :: runIntersectionLoop rs xs
      else if end_ < xend then
        (lateststart, u16 ((end_ : Int) - lateststart - 1)) :: runIntersectionLoop rs (x :: xs)
      else (lateststart, u16 ((xend : Int) - lateststart - 1)) :: runIntersectionLoop (r :: rs) xs
  | _, _ => []
termination_by rs xs => rs.length + xs.length

/-- `run_container_intersection`, run.c:385-461. -/
def runIntersection (rs1 rs2 : List Rle) : List Rle :=
  if runIsFull rs1 then rs2
  else if runIsFull rs2 then rs1
  else runIntersectionLoop rs1 rs2

/-- The loop of `run_container_intersection_cardinality`, run.c:483-529. -/
def runIntersectionCardLoop : List Rle → List Rle → Nat
  | r :: rs, x :: xs =>
    let start := r.1
    let end_ := start + r.2 + 1
    let xstart := x.1
    let xend := xstart + x.2 + 1
    if end_ ≤ xstart then runIntersectionCardLoop rs (x :: xs)
    else if xend ≤ start then runIntersectionCardLoop (r :: rs) xs
    else
      let lateststart := if start > xstart then start else xstart
      if end_ = xend then (end_ - lateststart) + runIntersectionCardLoop rs xs
      else if end_ < xend then (end_ - lateststart) + runIntersectionCardLoop rs (x :: xs)
      else (xend - lateststart) + runIntersectionCardLoop (r :: rs) xs
  | _, _ => 0
termination_by rs xs => rs.length + xs.length

/-- `run_container_intersection_cardinality`, run.c:464-531. -/
def runIntersectionCard (rs1 rs2 : List Rle) : Nat :=
  if runIsFull rs1 then runCard rs2
  else if runIsFull rs2 then runCard rs1
  else runIntersectionCardLoop rs1 rs2

/-- The loop of `run_container_intersect`, run.c:550-567. -/
def runIntersectLoop : List Rle → List Rle → Bool
  | r :: rs, x :: xs =>
    if r.1 + r.2 + 1 ≤ x.1 then runIntersectLoop rs (x :: xs)
    else if x.1 + x.2 + 1 ≤ r.1 then runIntersectLoop (r :: rs) xs
    else true
  | _, _ => false
termination_by rs xs => rs.length + xs.length

/-- `run_container_intersect`, run.c:533-569. -/
def runIntersect (rs1 rs2 : List Rle) : Bool :=
  if runIsFull rs1 then !rs2.isEmpty
  else if runIsFull rs2 then !rs1.isEmpty
  else runIntersectLoop rs1 rs2

/-- The loop of `run_container_andnot`, run.c:591-622, and the final copy, 623-630.
`start`, `end_` describe what is left of the current run of the first operand, `rs` the runs after it. -/
def runAndnotLoop (start end_ : Nat) (rs : List Rle) : List Rle → List Rle
  | [] => (start, u16 ((end_ : Int) - start - 1)) :: rs
  | x :: xs =>
    let start2 := x.1
    let end2 := start2 + x.2 + 1
    if end_ ≤ start2 then
      (start, u16 ((end_ : Int) - start - 1)) ::
        match rs with
        | [] => []
        | r :: rs' => runAndnotLoop r.1 (r.1 + r.2 + 1) rs' (x :: xs)
    else if end2 ≤ start then runAndnotLoop start end_ rs xs
    else
      let pre := if start < start2 then [(start, u16 ((start2 : Int) - start - 1))] else []
      if end2 < end_ then pre ++ runAndnotLoop end2 end_ rs xs
      else
        pre ++
        match rs with
        | [] => []
        | r :: rs' => runAndnotLoop r.1 (r.1 + r.2 + 1) rs' (x :: xs)
termination_by xs => rs.length + xs.length

/-- `run_container_andnot`, run.c:573-631.  (When `end2 < end` the C code sets `start = end2` and finds
`end2 <= start` on the next turn, which advances the second operand; the model does both at once.) -/
def runAndnot (rs1 rs2 : List Rle) : List Rle :=
  match rs1 with
  | [] => []
  | r :: rs => runAndnotLoop r.1 (r.1 + r.2 + 1) rs rs2

/-- The loop of `run_container_validate`, run.c:692-712. -/
def runValidateLoop (last_end : Nat) : List Rle → Bool
  | [] => true
  | r :: rs =>
    let start := r.1
    let end_ := u32 (start + r.2 + 1)
    if end_ ≤ start then false
    else if end_ > 65536 then false
    else if start < last_end then false
    else if start = last_end ∧ last_end ≠ 0 then false
    else runValidateLoop end_ rs

/-- `run_container_validate`, run.c:667-714 (capacity and pointer checks are not modelled). -/
def runValidate (rs : List Rle) : Bool :=
  if rs.length = 0 then false else runValidateLoop 0 rs

/-- The inner loop of `run_container_iterate`, run.c:745-746, `n` values from `x`. -/
def iterRange {σ : Type} (f : σ → Nat → σ × Bool) (s : σ) (x : Nat) : Nat → σ × Bool
  | 0 => (s, true)
  | n + 1 =>
    let r := f s (u32 x)
    if r.2 then iterRange f r.1 (x + 1) n else (r.1, false)

/-- `run_container_iterate`, run.c:739-750. -/
def runIterate {σ : Type} (f : σ → Nat → σ × Bool) (s : σ) (base : Nat) : List Rle → σ × Bool
  | [] => (s, true)
  | r :: rs =>
    let q := iterRange f s (u32 (base + r.1)) (r.2 + 1)
    if q.2 then runIterate f q.1 base rs else (q.1, false)

/-- `run_container_is_subset`, run.c:765-791. -/
def runIsSubset : List Rle → List Rle → Bool
  | [], _ => true
  | _ :: _, [] => false
  | r :: rs, x :: xs =>
    if r.1 < x.1 then false
    else if r.1 + r.2 < x.1 + x.2 then runIsSubset rs (x :: xs)
    else if r.1 + r.2 = x.1 + x.2 then runIsSubset rs xs
    else runIsSubset (r :: rs) xs
termination_by rs xs => rs.length + xs.length

/-- `run_container_select`, run.c:843-856 (`uint32_t` arithmetic). -/
def runSelect (start_rank rank : Nat) : List Rle → Nat ⊕ Nat
  | [] => .inr start_rank
  | r :: rs =>
    if rank ≤ u32 (start_rank + r.2) then .inl (u32 ((r.1 : Int) + rank - start_rank))
    else runSelect (u32 (start_rank + r.2 + 1)) rank rs

/-- `run_container_rank`, run.c:858-873, from `sum`. -/
def runRankLoop (x sum : Nat) : List Rle → Nat
  | [] => sum
  | r :: rs =>
    if x ≤ r.2 + r.1 then (if x < r.1 then sum else sum + (x - r.1) + 1)
    else runRankLoop x (sum + (r.2 + 1)) rs

/-- `run_container_rank`, run.c:858-873. -/
def runRank (rs : List Rle) (x : Nat) : Nat := runRankLoop x 0 rs

/-- The `while` loop of `run_container_rank_many`, run.c:887-902, and the test after it: the answer and
the position (`sum` and the remaining runs) kept for the next query. -/
def runRankStep (start_rank x sum : Nat) : List Rle → Nat × Nat × List Rle
  | [] => (start_rank + sum, sum, [])
  | r :: rs =>
    if x ≤ r.2 + r.1 then
      (if x < r.1 then start_rank + sum else start_rank + sum + (x - r.1) + 1, sum, r :: rs)
    else runRankStep start_rank x (sum + (r.2 + 1)) rs

/-- `run_container_rank_many`, run.c:874-907: answers written and queries left. -/
def runRankManyLoop (start_rank high sum : Nat) (rs : List Rle) : List Nat → List Nat × List Nat
  | [] => ([], [])
  | x :: xs =>
    if x / 65536 % 65536 ≠ high then ([], x :: xs)
    else
      let q := runRankStep start_rank (x % 65536) sum rs
      let r := runRankManyLoop start_rank high q.2.1 q.2.2 xs
      (q.1 :: r.1, r.2)

/-- `run_container_rank_many`, run.c:874-907. -/
def runRankMany (rs : List Rle) (start_rank : Nat) (xs : List Nat) : List Nat × List Nat :=
  runRankManyLoop start_rank (xs.headD 0 / 65536 % 65536) 0 rs xs

/-- The loop of `run_container_get_index`, run.c:913-925. -/
def runGetIndexLoop (x sum : Nat) : List Rle → Int
  | [] => (sum : Int) - 1
  | r :: rs =>
    if x ≤ r.2 + r.1 then (if x < r.1 then (sum : Int) - 1 else sum + (x - r.1))
    else runGetIndexLoop x (sum + (r.2 + 1)) rs

/-- `run_container_get_index`, run.c:909-928. -/
def runGetIndex (rs : List Rle) (x : Nat) : Int :=
  if runContains rs x then runGetIndexLoop x 0 rs else -1

/-- `run_container_to_uint32_array`, run.c:1076-1092. -/
def runToUint32 (rs : List Rle) (base : Nat) : List Nat :=
  rs.flatMap (fun r => (List.range (r.2 + 1)).map (fun (j : Nat) => u32 ((u32 (base + r.1) : Int) + j)))

/-- `run_container_create_range`, run.h:523-533. -/
def runCreateRange (start stop : Nat) : List Rle := [(start % 65536, u16 ((stop : Int) - start - 1))]

/-- `run_container_minimum`, run.h:555-558. -/
def runMin (rs : List Rle) : Nat := if rs.length = 0 then 0 else (rdR rs 0).1
/-- `run_container_maximum`, run.h:561-564. -/
def runMax (rs : List Rle) : Nat :=
  if rs.length = 0 then 0 else ((rdR rs (rs.length - 1)).1 + (rdR rs (rs.length - 1)).2) % 65536

/-- `run_container_index_equalorlarger`, run.h:579-594. -/
def runIndexEqualOrLarger (rs : List Rle) (x : Nat) : Int :=
  let index := interleavedBinarySearch rs x
  if index ≥ 0 then index
  else
    let index := -index - 2
    if index ≠ -1 ∧ (x : Int) - (rdR rs index.toNat).1 ≤ (rdR rs index.toNat).2 then index
    else if index + 1 < rs.length then index + 1 else -1

/-- `run_container_add_range_nruns`, run.h:599-623. -/
def runAddRangeNruns (rs : List Rle) (min max nruns_less nruns_greater : Nat) : List Rle :=
  let nruns_common := rs.length - nruns_less - nruns_greater
  if nruns_common = 0 then insertRunAt rs nruns_less (min % 65536, u16 ((max : Int) - min))
  else
    let common_min := (rdR rs nruns_less).1
    let common_max := (rdR rs (nruns_less + nruns_common - 1)).1 + (rdR rs (nruns_less + nruns_common - 1)).2
    let result_min := if common_min < min then common_min else min
    let result_max := if common_max > max then common_max else max
    rs.take nruns_less ++ (result_min % 65536, u16 ((result_max : Int) - result_min)) ::
      rs.drop (rs.length - nruns_greater)

/-- `run_container_remove_range`, run.h:658-710 (with `run_container_shift_tail`, 641-653, inlined:
it drops the runs `first .. last`). -/
def runRemoveRange (rs : List Rle) (min max : Nat) : List Rle :=
  let first := rle16FindRun rs (min % 65536)
  let last := rle16FindRun rs (max % 65536)
  let rf := rdR rs first.toNat
  if first ≥ 0 ∧ min > rf.1 ∧ max < rf.1 + rf.2 then
    insertRunAt (rs.set first.toNat (rf.1, u16 ((min : Int) - 1 - rf.1))) (first.toNat + 1)
      ((max + 1) % 65536, u16 ((rf.1 : Int) + rf.2 - (max + 1)))
  else
    let rs1 := if first ≥ 0 ∧ min > rf.1 then rs.set first.toNat (rf.1, u16 ((min : Int) - 1 - rf.1)) else rs
    let first1 := if first ≥ 0 then (if min > rf.1 then first + 1 else first) else -first - 1
    let rl := rdR rs1 last.toNat
    let run_max := (rl.1 + rl.2) % 65536
    let rs2 := if last ≥ 0 ∧ run_max > max then
        rs1.set last.toNat ((max + 1) % 65536, u16 ((run_max : Int) - (max + 1))) else rs1
    let last1 := if last ≥ 0 then (if run_max > max then last - 1 else last) else (-last - 1) - 1
    if first1 ≤ last1 then rs2.take first1.toNat ++ rs2.drop (last1 + 1).toNat else rs2

/-- `run_container_offset`, run.c:133-188: the low and high containers, when produced. -/
def runOffset (rs : List Rle) (offset : Nat) : Option (List Rle) × Option (List Rle) :=
  let top := 65536 - offset
  let pivot := runIndexEqualOrLarger rs (top % 65536)
  let split := decide (pivot ≠ -1) && decide ((rdR rs pivot.toNat).1 < top)
  let lo_cap := if pivot = -1 then rs.length else pivot.toNat + (if split then 1 else 0)
  let hi_cap := if pivot = -1 then 0 else rs.length - pivot.toNat
  let shift := fun (r : Rle) => ((r.1 + offset) % 65536, r.2)
  let lo := (rs.take lo_cap).map shift
  let hi := (rs.drop pivot.toNat).map shift
  let lo' := if split then
      lo.set (lo_cap - 1) ((rdR lo (lo_cap - 1)).1, u16 (65536 - ((rdR lo (lo_cap - 1)).1 : Int) - 1))
    else lo
  let hi' := if split then
      hi.set 0 (0, u16 (((rdR hi 0).2 : Int) - (65535 - (rdR hi 0).1 + 1)))
    else hi
  (if lo_cap ≠ 0 then some lo' else none, if hi_cap ≠ 0 then some hi' else none)

end CRoaring
