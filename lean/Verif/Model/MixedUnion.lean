import Verif.Model.Convert

/-! Model of `src/containers/mixed_union.c` and `src/containers/mixed_intersection.c`. -/

namespace CRoaring

/-- `array_bitset_container_union`: `src/containers/mixed_union.c:22-29`. -/
def arrayBitsetUnion (l : List Nat) (b : Bitset) : Bitset :=
  let (ws, c) := bitsetSetListWithcard b.words b.card l
  ⟨c, ws⟩

/-- `array_bitset_container_lazy_union`: `src/containers/mixed_union.c:34-40`. -/
def arrayBitsetLazyUnion (l : List Nat) (b : Bitset) : Bitset := ⟨UNKNOWN_CARD, bitsetSetList b.words l⟩

/-- `run_bitset_container_union`: `src/containers/mixed_union.c:42-52`. -/
def runBitsetUnion (rs : List Rle) (b : Bitset) : Bitset :=
  let ws := setRuns b.words rs
  ⟨computeCard ws, ws⟩

/-- `run_bitset_container_lazy_union`: `src/containers/mixed_union.c:54-64`. -/
def runBitsetLazyUnion (rs : List Rle) (b : Bitset) : Bitset := ⟨UNKNOWN_CARD, setRuns b.words rs⟩

/-- The merging loops of `array_run_container_union`: `src/containers/mixed_union.c:77-107`
(and of the in-place version `:125-157`).  `acc` is the output so far, last run first. -/
def arrayRunUnionLoop : List Nat → List Rle → List Rle → List Rle
  | [], [], acc => acc
  | [], r :: rs, acc => arrayRunUnionLoop [] rs (runAppend acc r)
  | v :: l, [], acc => arrayRunUnionLoop l [] (runAppendValue acc v)
  | v :: l, r :: rs, acc =>
    if r.1 ≤ v then arrayRunUnionLoop (v :: l) rs (runAppend acc r)
    else arrayRunUnionLoop l (r :: rs) (runAppendValue acc v)
termination_by l rs => l.length + rs.length

/-- `array_run_container_union`: `src/containers/mixed_union.c:67-108`.  The C code reads the first
cell of both inputs, so both must be non-empty.  The in-place variant
`array_run_container_inplace_union` (`:110-158`) runs the same loops after moving its input out of
the way, so at the level of values it is the same function. -/
def arrayRunUnion (l : List Nat) (rs : List Rle) : List Rle :=
  if runIsFull rs then rs else (arrayRunUnionLoop l rs []).reverse

/-- `array_array_container_union`: `src/containers/mixed_union.c:160-190`. -/
def arrayArrayUnion (l1 l2 : List Nat) : Container :=
  if l1.length + l2.length ≤ DEFAULT_MAX_SIZE then .array (arrayUnion l1 l2)
  else
    let (ws, c) := bitsetSetListWithcard (bitsetSetList zeros l1) l1.length l2
    if c ≤ DEFAULT_MAX_SIZE then .array (arrayFromBitset ⟨c, ws⟩) else .bitset ⟨c, ws⟩

/-- `array_array_container_inplace_union`: `src/containers/mixed_union.c:192-245`, `capacity` being
the allocated size of the first array. -/
def arrayArrayInplaceUnion (capacity : Nat) (l1 l2 : List Nat) : Container :=
  if l1.length + l2.length ≤ DEFAULT_MAX_SIZE then
    if capacity < l1.length + l2.length then .array (arrayUnion l1 l2)
    else .array (unionU16 l1 l2)
  else
    let (ws, c) := bitsetSetListWithcard (bitsetSetList zeros l1) l1.length l2
    if c ≤ DEFAULT_MAX_SIZE then .array (arrayFromBitset ⟨c, ws⟩) else .bitset ⟨c, ws⟩

/-- `ARRAY_LAZY_LOWERBOUND`: `include/roaring/containers/perfparameters.h:42`. -/
def ARRAY_LAZY_LOWERBOUND : Nat := 1024

/-- `array_array_container_lazy_union`: `src/containers/mixed_union.c:247-281`. -/
def arrayArrayLazyUnion (l1 l2 : List Nat) : Container :=
  if l1.length + l2.length ≤ ARRAY_LAZY_LOWERBOUND then .array (arrayUnion l1 l2)
  else .bitset ⟨UNKNOWN_CARD, bitsetSetList (bitsetSetList zeros l1) l2⟩

/-- `array_array_container_lazy_inplace_union`: `src/containers/mixed_union.c:283-366`, `capacity`
being the allocated size of the first array. -/
def arrayArrayLazyInplaceUnion (capacity : Nat) (l1 l2 : List Nat) : Container :=
  if l1.length + l2.length ≤ ARRAY_LAZY_LOWERBOUND then
    if capacity < l1.length + l2.length then .array (arrayUnion l1 l2)
    else .array (fastUnionU16 l1 l2)
  else .bitset ⟨UNKNOWN_CARD, bitsetSetList (bitsetSetList zeros l1) l2⟩

/-! ### Intersections -/

/-- `array_bitset_container_intersection`: `src/containers/mixed_intersection.c:19-47`. -/
def arrayBitsetIntersection (l : List Nat) (b : Bitset) : List Nat := l.filter (bitsetGet b)

/-- `array_bitset_container_intersection_cardinality`: `src/containers/mixed_intersection.c:50-59`. -/
def arrayBitsetIntersectionCard (l : List Nat) (b : Bitset) : Nat :=
  l.foldl (fun n key => n + (bitsetGet b key).toNat) 0

/-- `array_bitset_container_intersect`: `src/containers/mixed_intersection.c:61-69`. -/
def arrayBitsetIntersect (l : List Nat) (b : Bitset) : Bool := l.any (bitsetGet b)

theorem bisect_ge (rd : Nat → Nat) (x lower upper : Nat) : min lower upper ≤ bisect rd x lower upper := by
  fun_induction bisect rd x lower upper <;> omega

theorem lt_advanceUntil (rd : Nat → Nat) (pos length x : Nat) : pos < advanceUntil rd pos length x := by
  unfold advanceUntil advanceFrom
  simp only
  split
  · omega
  · rename_i h
    have hu : pos < (if pos + 1 + gallop rd (pos + 1) length x 1 < length then
        pos + 1 + gallop rd (pos + 1) length x 1 else length - 1) := by split <;> omega
    generalize (if pos + 1 + gallop rd (pos + 1) length x 1 < length then
        pos + 1 + gallop rd (pos + 1) length x 1 else length - 1) = upper at hu ⊢
    have := bisect_ge rd x (pos + 1 + gallop rd (pos + 1) length x 1 / 2) upper
    split
    · omega
    · split <;> omega

/-- The loop of `array_run_container_intersection`: `src/containers/mixed_intersection.c:88-110`.
`rle :: rs` are the runs from `rlepos` on. -/
def arrayRunInterLoop (l : List Nat) (arraypos : Nat) (rle : Rle) (rs : List Rle) : List Nat :=
  if arraypos < l.length then
    let arrayval := rdL l arraypos
    if rle.1 + rle.2 < arrayval then
      match rs with
      | [] => []
      | r :: rs => arrayRunInterLoop l arraypos r rs
    else if rle.1 > arrayval then
      arrayRunInterLoop l (advanceUntil (rdL l) arraypos l.length rle.1) rle rs
    else arrayval :: arrayRunInterLoop l (arraypos + 1) rle rs
  else []
termination_by (l.length - arraypos) + rs.length
decreasing_by
  · simp
  · have := lt_advanceUntil (rdL l) arraypos l.length rle.1; omega
  · omega

/-- `array_run_container_intersection`: `src/containers/mixed_intersection.c:74-111` (into a fresh
array, or an empty one: with no runs the destination is left as it is). -/
def arrayRunIntersection (l : List Nat) (rs : List Rle) : List Nat :=
  if runIsFull rs then l
  else match rs with
    | [] => []
    | r :: rs => arrayRunInterLoop l 0 r rs

/-- The loop of `array_run_container_intersection_cardinality`:
`src/containers/mixed_intersection.c:217-235`. -/
def arrayRunInterCardLoop (l : List Nat) (arraypos newcard : Nat) (rle : Rle) (rs : List Rle) : Nat :=
  if arraypos < l.length then
    let arrayval := rdL l arraypos
    if rle.1 + rle.2 < arrayval then
      match rs with
      | [] => newcard
      | r :: rs => arrayRunInterCardLoop l arraypos newcard r rs
    else if rle.1 > arrayval then
      arrayRunInterCardLoop l (advanceUntil (rdL l) arraypos l.length rle.1) newcard rle rs
    else arrayRunInterCardLoop l (arraypos + 1) (newcard + 1) rle rs
  else newcard
termination_by (l.length - arraypos) + rs.length
decreasing_by
  · simp
  · have := lt_advanceUntil (rdL l) arraypos l.length rle.1; omega
  · omega

/-- `array_run_container_intersection_cardinality`: `src/containers/mixed_intersection.c:205-237`. -/
def arrayRunIntersectionCard (l : List Nat) (rs : List Rle) : Nat :=
  if runIsFull rs then l.length
  else match rs with
    | [] => 0
    | r :: rs => arrayRunInterCardLoop l 0 0 r rs

/-- The loop of `array_run_container_intersect`: `src/containers/mixed_intersection.c:265-283`. -/
def arrayRunIntersectLoop (l : List Nat) (arraypos : Nat) (rle : Rle) (rs : List Rle) : Bool :=
  if arraypos < l.length then
    let arrayval := rdL l arraypos
    if rle.1 + rle.2 < arrayval then
      match rs with
      | [] => false
      | r :: rs => arrayRunIntersectLoop l arraypos r rs
    else if rle.1 > arrayval then
      arrayRunIntersectLoop l (advanceUntil (rdL l) arraypos l.length rle.1) rle rs
    else true
  else false
termination_by (l.length - arraypos) + rs.length
decreasing_by
  · simp
  · have := lt_advanceUntil (rdL l) arraypos l.length rle.1; omega

/-- `array_run_container_intersect`: `src/containers/mixed_intersection.c:254-284`. -/
def arrayRunIntersect (l : List Nat) (rs : List Rle) : Bool :=
  if runIsFull rs then !l.isEmpty
  else match rs with
    | [] => false
    | r :: rs => arrayRunIntersectLoop l 0 r rs

/-- The gap-clearing loop of `run_bitset_container_intersection`:
`src/containers/mixed_intersection.c:177-184` (the same code is at `:151-159`). -/
def resetGaps (ws : List Word) (start : Nat) : List Rle → List Word
  | [] => bitsetResetRange ws start 65536
  | r :: rs => resetGaps (bitsetResetRange ws start r.1) (r.1 + r.2 + 1) rs

/-- `run_bitset_container_intersection`: `src/containers/mixed_intersection.c:117-202`.  The two
branches `*dst == src_2` and `*dst != src_2` compute the same values. -/
def runBitsetIntersection (rs : List Rle) (b : Bitset) : Container :=
  if runIsFull rs then .bitset b
  else if runCard rs ≤ DEFAULT_MAX_SIZE then
    .array ((rs.flatMap fun (r : Rle) => (List.range' r.1 (r.2 + 1)).filter (bitsetGet b)).map (· % 65536))
  else
    let ws := resetGaps b.words 0 rs
    let c := computeCard ws
    if c > DEFAULT_MAX_SIZE then .bitset ⟨c, ws⟩ else .array (arrayFromBitset ⟨c, ws⟩)

/-- `run_bitset_container_intersection_cardinality`: `src/containers/mixed_intersection.c:241-253`. -/
def runBitsetIntersectionCard (rs : List Rle) (b : Bitset) : Int :=
  if runIsFull rs then b.card
  else (rs.foldl (fun n (r : Rle) => n + bitsetLenrangeCardinality b.words r.1 r.2) 0 : Nat)

/-- `run_bitset_container_intersect`: `src/containers/mixed_intersection.c:288-299`. -/
def runBitsetIntersect (rs : List Rle) (b : Bitset) : Bool :=
  if runIsFull rs then !bitsetEmpty b
  else rs.any fun (r : Rle) => !bitsetLenrangeEmpty b.words r.1 r.2

/-- `bitset_bitset_container_intersection`: `src/containers/mixed_intersection.c:306-325`; the
in-place variant (`:327-346`) computes the same values. -/
def bitsetBitsetIntersection (b1 b2 : Bitset) : Container :=
  let newCardinality := bitsetOpJustcard wAnd b1 b2
  if newCardinality > DEFAULT_MAX_SIZE then
    .bitset ⟨newCardinality, (bitsetOpNocard wAnd b1 b2).words⟩
  else .array ((extractIntersectionSetbits b1.words b2.words 0).take newCardinality)

end CRoaring
