/-
Model of the scalar search and merge routines on sorted 16-bit arrays.
A C array `const uint16_t *a` is read through `rd : Nat → Nat` (cell index to value);
arrays that are only consumed from the front are lists.
-/
namespace CRoaring

/-- Reading cell `i` of the array `l`.  Theorems show no cell at or past the length influences a result. -/
def rdL (l : List Nat) (i : Nat) : Nat := l.getD i 0

/-- `binarySearch`, include/roaring/array_util.h:33-49: the loop. -/
def binarySearchLoop (rd : Nat → Nat) (ikey : Nat) (low high : Int) : Int :=
  if low ≤ high then
    let mid := (low + high) / 2
    if rd mid.toNat < ikey then binarySearchLoop rd ikey (mid + 1) high
    else if rd mid.toNat > ikey then binarySearchLoop rd ikey low (mid - 1)
    else mid
  else -(low + 1)
termination_by (high + 1 - low).toNat
decreasing_by all_goals omega

/-- `binarySearch`, include/roaring/array_util.h:33-49. -/
def binarySearch (rd : Nat → Nat) (len : Nat) (ikey : Nat) : Int :=
  binarySearchLoop rd ikey 0 ((len : Int) - 1)

/-- `advanceUntil`, include/roaring/array_util.h:66-70: doubling of the span.
`0 < span` always holds (the span starts at 1); it is repeated here for termination. -/
def gallop (rd : Nat → Nat) (lower length min span : Nat) : Nat :=
  if 0 < span ∧ lower + span < length ∧ rd (lower + span) < min then
    gallop rd lower length min (span * 2)
  else span
termination_by length - span
decreasing_by omega

/-- `advanceUntil`, include/roaring/array_util.h:89-100: final bisection.
The C loop runs until `lower + 1 == upper`; the model also stops if `upper ≤ lower` (never the case). -/
def bisect (rd : Nat → Nat) (min lower upper : Nat) : Nat :=
  if lower + 1 < upper then
    let mid := (lower + upper) / 2
    if rd mid = min then mid
    else if rd mid < min then bisect rd min mid upper
    else bisect rd min lower mid
  else upper
termination_by upper - lower
decreasing_by all_goals omega

/-- `advanceUntil`, include/roaring/array_util.h:60-101, after `lower = pos + 1` (line 60).  Callers that
start from `pos = -1` (mixed_andnot.c:238, mixed_subset.c:29) use this one with `lower = 0`. -/
def advanceFrom (rd : Nat → Nat) (lower length min : Nat) : Nat :=
  if lower ≥ length ∨ rd lower ≥ min then lower
  else
    let span := gallop rd lower length min 1
    let upper := if lower + span < length then lower + span else length - 1
    if rd upper = min then upper
    else if rd upper < min then length
    else bisect rd min (lower + span / 2) upper

/-- `advanceUntil`, include/roaring/array_util.h:58-101. -/
def advanceUntil (rd : Nat → Nat) (pos length min : Nat) : Nat := advanceFrom rd (pos + 1) length min

/-- `count_less`, include/roaring/array_util.h:107-112. -/
def countLess (rd : Nat → Nat) (len ikey : Nat) : Int :=
  if len = 0 then 0
  else
    let pos := binarySearch rd len ikey
    if pos ≥ 0 then pos else -(pos + 1)

/-- `count_greater`, include/roaring/array_util.h:118-127. -/
def countGreater (rd : Nat → Nat) (len ikey : Nat) : Int :=
  if len = 0 then 0
  else
    let pos := binarySearch rd len ikey
    if pos ≥ 0 then (len : Int) - (pos + 1) else (len : Int) - (-pos - 1)

/-- `binarySearch4`, src/array_util.c:805-826.  `b1..b4` are the offsets of the base pointers. -/
def binarySearch4Loop (rd : Nat → Nat) (t1 t2 t3 t4 : Nat) (n b1 b2 b3 b4 : Nat) :
    Nat × Nat × Nat × Nat :=
  if n > 1 then
    let half := n / 2
    binarySearch4Loop rd t1 t2 t3 t4 (n - half)
      (if rd (b1 + half) < t1 then b1 + half else b1)
      (if rd (b2 + half) < t2 then b2 + half else b2)
      (if rd (b3 + half) < t3 then b3 + half else b3)
      (if rd (b4 + half) < t4 then b4 + half else b4)
  else
    ((if rd b1 < t1 then 1 else 0) + b1, (if rd b2 < t2 then 1 else 0) + b2,
     (if rd b3 < t3 then 1 else 0) + b3, (if rd b4 < t4 then 1 else 0) + b4)
termination_by n
decreasing_by omega

/-- `binarySearch2`, src/array_util.c:836-850. -/
def binarySearch2Loop (rd : Nat → Nat) (t1 t2 : Nat) (n b1 b2 : Nat) : Nat × Nat :=
  if n > 1 then
    let half := n / 2
    binarySearch2Loop rd t1 t2 (n - half)
      (if rd (b1 + half) < t1 then b1 + half else b1)
      (if rd (b2 + half) < t2 then b2 + half else b2)
  else
    ((if rd b1 < t1 then 1 else 0) + b1, (if rd b2 < t2 then 1 else 0) + b2)
termination_by n
decreasing_by omega

/-- One conditional store `if ((index + idx_l < size_l) && (large[idx_l + index] == target)) buffer[pos++] = target`
of src/array_util.c:874-885. -/
def hit (large : List Nat) (i t : Nat) : List Nat :=
  if i < large.length ∧ rdL large i = t then [t] else []

/-- The part of `intersect_skewed_uint16` after the 4-blocks, src/array_util.c:889-909.
The list argument is the unread part of `small` (fewer than 4 values, or `idx_l ≥ size_l`). -/
def skewTail (large : List Nat) (idxl : Nat) : List Nat → List Nat
  | a :: b :: rest =>
    if idxl < large.length then
      let r := binarySearch2Loop (fun i => rdL large (idxl + i)) a b (large.length - idxl) 0 0
      hit large (idxl + r.1) a ++ hit large (idxl + r.2) b ++
        (match rest with
         | c :: _ =>
           if idxl + r.2 < large.length then
             if binarySearch (fun i => rdL large (idxl + r.2 + i)) (large.length - (idxl + r.2)) c ≥ 0
             then [c] else []
           else []
         | [] => [])
    else []
  | [a] =>
    if idxl < large.length then
      if binarySearch (fun i => rdL large (idxl + i)) (large.length - idxl) a ≥ 0 then [a] else []
    else []
  | [] => []

/-- `intersect_skewed_uint16`, src/array_util.c:857-909: the loop over blocks of 4 values of `small`. -/
def skewLoop (large : List Nat) (idxl : Nat) : List Nat → List Nat
  | a :: b :: c :: d :: rest =>
    if idxl < large.length then
      let r := binarySearch4Loop (fun i => rdL large (idxl + i)) a b c d (large.length - idxl) 0 0 0 0
      hit large (idxl + r.1) a ++ hit large (idxl + r.2.1) b ++ hit large (idxl + r.2.2.1) c ++
        hit large (idxl + r.2.2.2) d ++ skewLoop large (idxl + r.2.2.2) rest
    else []
  | rest => skewTail large idxl rest

/-- `intersect_skewed_uint16`, src/array_util.c:857-909. -/
def intersectSkewed (small large : List Nat) : List Nat := skewLoop large 0 small

/-- `intersect_skewed_uint16_cardinality`, src/array_util.c:913-945: the loop.
`small` is consumed from the front, `large` is read at `idxl`.  The C code reads `large[0]` before
testing anything, so `size_l > 0` is a precondition.  The fuel bounds the number of iterations
(each one consumes a cell of `small` or moves `idx_l`). -/
def skewCardLoop (large : List Nat) : Nat → List Nat → Nat → Nat
  | 0, _, _ => 0
  | _, [], _ => 0
  | fuel + 1, s :: small, idxl =>
    let vl := rdL large idxl
    if vl < s then
      let idxl' := advanceUntil (rdL large) idxl large.length s
      if idxl' = large.length then 0 else skewCardLoop large fuel (s :: small) idxl'
    else if s < vl then skewCardLoop large fuel small idxl
    else
      match small with
      | [] => 1
      | s' :: small' =>
        let idxl' := advanceUntil (rdL large) idxl large.length s'
        if idxl' = large.length then 1 else 1 + skewCardLoop large fuel (s' :: small') idxl'

/-- `intersect_skewed_uint16_cardinality`, src/array_util.c:913-945. -/
def intersectSkewedCard (small large : List Nat) : Nat :=
  skewCardLoop large (small.length + large.length + 1) small 0

/-- `intersect_skewed_uint16_nonempty`, src/array_util.c:948-973 (same precondition and fuel). -/
def skewNonemptyLoop (large : List Nat) : Nat → List Nat → Nat → Bool
  | 0, _, _ => false
  | _, [], _ => false
  | fuel + 1, s :: small, idxl =>
    let vl := rdL large idxl
    if vl < s then
      let idxl' := advanceUntil (rdL large) idxl large.length s
      if idxl' = large.length then false else skewNonemptyLoop large fuel (s :: small) idxl'
    else if s < vl then skewNonemptyLoop large fuel small idxl
    else true

/-- `intersect_skewed_uint16_nonempty`, src/array_util.c:948-973. -/
def intersectSkewedNonempty (small large : List Nat) : Bool :=
  skewNonemptyLoop large (small.length + large.length + 1) small 0

/-- `intersect_uint16`, src/array_util.c:978-1001 (also `intersection_uint32`, 1054-1078):
advance the smaller head; on equality emit and advance both. -/
def intersectU16 : List Nat → List Nat → List Nat
  | [], _ => []
  | _, [] => []
  | a :: as, b :: bs =>
    if a < b then intersectU16 as (b :: bs)
    else if a > b then intersectU16 (a :: as) bs
    else a :: intersectU16 as bs
termination_by as bs => as.length + bs.length

/-- `intersect_uint16_cardinality`, src/array_util.c:1003-1026 (also `intersection_uint32_card`). -/
def intersectU16Card : List Nat → List Nat → Nat
  | [], _ => 0
  | _, [] => 0
  | a :: as, b :: bs =>
    if a < b then intersectU16Card as (b :: bs)
    else if a > b then intersectU16Card (a :: as) bs
    else intersectU16Card as bs + 1
termination_by as bs => as.length + bs.length

/-- `intersect_uint16_nonempty`, src/array_util.c:1028-1049. -/
def intersectU16Nonempty : List Nat → List Nat → Bool
  | [], _ => false
  | _, [] => false
  | a :: as, b :: bs =>
    if a < b then intersectU16Nonempty as (b :: bs)
    else if a > b then intersectU16Nonempty (a :: as) bs
    else true
termination_by as bs => as.length + bs.length

/-- `union_uint16`, src/array_util.c:1108-1155 (also `union_uint32`, 1889-1935). -/
def unionU16 : List Nat → List Nat → List Nat
  | as, [] => as
  | [], bs => bs
  | a :: as, b :: bs =>
    if a < b then a :: unionU16 as (b :: bs)
    else if b < a then b :: unionU16 (a :: as) bs
    else a :: unionU16 as bs
termination_by as bs => as.length + bs.length

/-- `fast_union_uint16`, src/array_util.c:1982-2010, non-SIMD branch: smallest array first. -/
def fastUnionU16 (as bs : List Nat) : List Nat :=
  if as.length < bs.length then unionU16 as bs else unionU16 bs as

/-- `difference_uint16`, src/array_util.c:1157-1200. -/
def differenceU16 : List Nat → List Nat → List Nat
  | [], _ => []
  | as, [] => as
  | a :: as, b :: bs =>
    if a < b then a :: differenceU16 as (b :: bs)
    else if a = b then differenceU16 as bs
    else differenceU16 (a :: as) bs
termination_by as bs => as.length + bs.length

/-- `xor_uint16`, src/array_util.c:1202-1235. -/
def xorU16 : List Nat → List Nat → List Nat
  | as, [] => as
  | [], bs => bs
  | a :: as, b :: bs =>
    if a = b then xorU16 as bs
    else if a < b then a :: xorU16 as (b :: bs)
    else b :: xorU16 (a :: as) bs
termination_by as bs => as.length + bs.length

end CRoaring
