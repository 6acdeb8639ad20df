import Verif.Model.Array
import Verif.Model.SimdMerge
/-
The array routines on memory: an array container is a buffer of `capacity` 16-bit values of which the first `cardinality` are its
contents (include/roaring/containers/array.h:32-42).  The scalar routines are given their inputs as functions of the output memory, as
in Model/SimdMerge, so that they can be run with the output on top of an input, as the in-place operations do.

`avx2` says whether `croaring_hardware_support()` reports AVX2.  Allocation succeeds; `fresh n` is whatever `malloc` returns for `n`
values.
-/
namespace CRoaring

/-- The loop of `intersect_uint16`: src/array_util.c:985-1000 (`i`, `j`, `pos`: the pointers `A`, `B`, `out`).  The `goto` skips a
comparison whose result is known. -/
def intersectMemLoop (gA gB : List Nat → List Nat) (lenA lenB : Nat) : Nat → Nat → Nat → Nat → List Nat → Out (List Nat × Nat)
  | 0, _, _, _, _ => .fail
  | fuel + 1, i, j, pos, mem => do
    let a ← read16 (gA mem) i
    let b ← read16 (gB mem) j
    if a < b then
      if i + 1 = lenA then .ok (mem, pos) else intersectMemLoop gA gB lenA lenB fuel (i + 1) j pos mem
    else if b < a then
      if j + 1 = lenB then .ok (mem, pos) else intersectMemLoop gA gB lenA lenB fuel i (j + 1) pos mem
    else do
      let mem ← write16 mem pos a
      if i + 1 = lenA ∨ j + 1 = lenB then .ok (mem, pos + 1)
      else intersectMemLoop gA gB lenA lenB fuel (i + 1) (j + 1) (pos + 1) mem

/-- `intersect_uint16(A, lenA, B, lenB, mem)`: src/array_util.c:978-1001. -/
def intersectMem (gA gB : List Nat → List Nat) (lenA lenB : Nat) (mem : List Nat) : Out (List Nat × Nat) :=
  if lenA = 0 ∨ lenB = 0 then .ok (mem, 0) else intersectMemLoop gA gB lenA lenB (lenA + lenB + 1) 0 0 0 mem

/-- The loop of `difference_uint16`: src/array_util.c:1168-1198. -/
def differenceMemLoop (gA : List Nat → List Nat) (B : List Nat) (len1 : Nat) :
    Nat → Nat → Nat → Nat → Nat → Nat → List Nat → Out (List Nat × Nat)
  | 0, _, _, _, _, _, _ => .fail
  | fuel + 1, k1, k2, s1, s2, out, mem =>
    if s1 < s2 then do
      let mem ← write16 mem out s1
      if len1 ≤ k1 + 1 then .ok (mem, out + 1)
      else do
        let s1 ← read16 (gA mem) (k1 + 1)
        differenceMemLoop gA B len1 fuel (k1 + 1) k2 s1 s2 (out + 1) mem
    else if s1 = s2 then
      if len1 ≤ k1 + 1 then .ok (mem, out)
      else if B.length ≤ k2 + 1 then do
        let v ← readN (gA mem) (k1 + 1) (len1 - (k1 + 1))
        let mem ← storeu mem out v
        .ok (mem, out + (len1 - (k1 + 1)))
      else do
        let s1 ← read16 (gA mem) (k1 + 1)
        let s2 ← read16 B (k2 + 1)
        differenceMemLoop gA B len1 fuel (k1 + 1) (k2 + 1) s1 s2 out mem
    else
      if B.length ≤ k2 + 1 then do
        let v ← readN (gA mem) k1 (len1 - k1)
        let mem ← storeu mem out v
        .ok (mem, out + (len1 - k1))
      else do
        let s2 ← read16 B (k2 + 1)
        differenceMemLoop gA B len1 fuel k1 (k2 + 1) s1 s2 out mem

/-- `difference_uint16(a1, length1, a2, length2, mem)`: src/array_util.c:1157-1200; `same`: `a1 == a_out`.  The second array does not
overlap the output. -/
def differenceMem (gA : List Nat → List Nat) (B : List Nat) (len1 : Nat) (same : Bool) (mem : List Nat) : Out (List Nat × Nat) :=
  if len1 = 0 then .ok (mem, 0)
  else if B.length = 0 then
    if same then .ok (mem, len1)
    else do
      let v ← readN (gA mem) 0 len1
      let mem ← storeu mem 0 v
      .ok (mem, len1)
  else do
    let s1 ← read16 (gA mem) 0
    let s2 ← read16 B 0
    differenceMemLoop gA B len1 (len1 + B.length + 1) 0 0 s1 s2 0 mem

/-- `if ((index + idx_l < size_l) && (large[idx_l + index] == target)) buffer[pos++] = target`: src/array_util.c:874-885, 895-900. -/
def hitMem (gL : List Nat → List Nat) (sizeL i t : Nat) (p : List Nat × Nat) : Out (List Nat × Nat) :=
  if i < sizeL then do
    let v ← read16 (gL p.1) i
    if v = t then do
      let mem ← write16 p.1 p.2 t
      .ok (mem, p.2 + 1)
    else .ok p
  else .ok p

/-- The last value of `small`: src/array_util.c:903-908. -/
def skewOneMem (gS gL : List Nat → List Nat) (sizeS sizeL idxl idxs pos : Nat) (mem : List Nat) : Out (List Nat × Nat) :=
  if idxs < sizeS ∧ idxl < sizeL then do
    let t ← read16 (gS mem) idxs
    if binarySearch (fun i => rdL (gL mem) (idxl + i)) (sizeL - idxl) t ≥ 0 then do
      let mem ← write16 mem pos t
      .ok (mem, pos + 1)
    else .ok (mem, pos)
  else .ok (mem, pos)

/-- The part of `intersect_skewed_uint16` after the blocks of four: src/array_util.c:889-909. -/
def skewTailMem (gS gL : List Nat → List Nat) (sizeS sizeL idxl idxs pos : Nat) (mem : List Nat) : Out (List Nat × Nat) :=
  if idxs + 2 ≤ sizeS ∧ idxl < sizeL then do
    let t1 ← read16 (gS mem) idxs
    let t2 ← read16 (gS mem) (idxs + 1)
    let r := binarySearch2Loop (fun i => rdL (gL mem) (idxl + i)) t1 t2 (sizeL - idxl) 0 0
    let p ← hitMem gL sizeL (idxl + r.1) t1 (mem, pos)
    let p ← hitMem gL sizeL (idxl + r.2) t2 p
    skewOneMem gS gL sizeS sizeL (idxl + r.2) (idxs + 2) p.2 p.1
  else skewOneMem gS gL sizeS sizeL idxl idxs pos mem

/-- The blocks of four: src/array_util.c:866-888. -/
def skewLoopMem (gS gL : List Nat → List Nat) (sizeS sizeL : Nat) : Nat → Nat → Nat → Nat → List Nat → Out (List Nat × Nat)
  | 0, _, _, _, _ => .fail
  | fuel + 1, idxl, idxs, pos, mem =>
    if idxs + 4 ≤ sizeS ∧ idxl < sizeL then do
      let t1 ← read16 (gS mem) idxs
      let t2 ← read16 (gS mem) (idxs + 1)
      let t3 ← read16 (gS mem) (idxs + 2)
      let t4 ← read16 (gS mem) (idxs + 3)
      let r := binarySearch4Loop (fun i => rdL (gL mem) (idxl + i)) t1 t2 t3 t4 (sizeL - idxl) 0 0 0 0
      let p ← hitMem gL sizeL (idxl + r.1) t1 (mem, pos)
      let p ← hitMem gL sizeL (idxl + r.2.1) t2 p
      let p ← hitMem gL sizeL (idxl + r.2.2.1) t3 p
      let p ← hitMem gL sizeL (idxl + r.2.2.2) t4 p
      skewLoopMem gS gL sizeS sizeL fuel (idxl + r.2.2.2) (idxs + 4) p.2 p.1
    else skewTailMem gS gL sizeS sizeL idxl idxs pos mem

/-- `intersect_skewed_uint16(small, size_s, large, size_l, mem)`: src/array_util.c:857-909. -/
def skewMem (gS gL : List Nat → List Nat) (sizeS sizeL : Nat) (mem : List Nat) : Out (List Nat × Nat) :=
  if sizeS = 0 then .ok (mem, 0) else skewLoopMem gS gL sizeS sizeL (sizeS + 1) 0 0 0 mem

/-! ### Buffers -/

/-- `array_container_t`: include/roaring/containers/array.h:32-42; `mem` has `capacity` values. -/
structure ArrBuf where
  card : Nat
  mem : List Nat

/-- The contents. -/
def ArrBuf.vals (b : ArrBuf) : List Nat := b.mem.take b.card

/-- `grow_capacity`: src/containers/array.c:153-158. -/
def growCapacity (capacity : Nat) : Nat :=
  if capacity = 0 then 0 else if capacity < 64 then capacity * 2 else if capacity < 1024 then capacity * 3 / 2 else capacity * 5 / 4

/-- `clamp`: src/containers/array.c:160-162. -/
def clampNat (val min max : Nat) : Nat := if val < min then min else if val > max then max else val

/-- `array_container_grow(container, min, false)`: src/containers/array.c:164-183. -/
def arrayGrow (fresh : Nat → List Nat) (b : ArrBuf) (min : Nat) : ArrBuf :=
  let max := if min ≤ DEFAULT_MAX_SIZE then DEFAULT_MAX_SIZE else 65536
  { b with mem := fresh (clampNat (growCapacity b.mem.length) min max) }

/-- `if (out->capacity < n) array_container_grow(out, m, false)`. -/
def arrayReserve (fresh : Nat → List Nat) (out : ArrBuf) (n m : Nat) : ArrBuf :=
  if out.mem.length < n then arrayGrow fresh out m else out

/-- `out->cardinality = …`. -/
def setCard (r : Out (List Nat × Nat)) : Out ArrBuf := do
  let r ← r
  .ok { card := r.2, mem := r.1 }

/-- `fast_union_uint16`: src/array_util.c:1982-2011. -/
def fastUnionHw (avx2 : Bool) (gA gB : List Nat → List Nat) (n1 n2 : Nat) (mem : List Nat) : Out (List Nat × Nat) :=
  if avx2 then fastUnionVector16 gA gB n1 n2 mem else fastUnionMem gA gB n1 n2 mem

/-- `array_container_union`: src/containers/array.c:207-218. -/
def arrayUnionBuf (avx2 : Bool) (fresh : Nat → List Nat) (a b out : ArrBuf) : Out ArrBuf :=
  let out := arrayReserve fresh out (a.card + b.card) (a.card + b.card)
  setCard (fastUnionHw avx2 (fun _ => a.vals) (fun _ => b.vals) a.card b.card out.mem)

/-- `array_container_andnot` with an `out` that is neither operand: src/containers/array.c:224-245. -/
def arrayAndnotBuf (avx2 : Bool) (fresh : Nat → List Nat) (a b out : ArrBuf) : Out ArrBuf :=
  let out := arrayReserve fresh out a.card a.card
  if avx2 then setCard (differenceVector16 a.vals b.vals out.mem)
  else setCard (differenceMem (fun _ => a.vals) b.vals a.card false out.mem)

/-- `array_container_andnot(array_1, array_2, array_1)`: src/containers/array.c:224-245. -/
def arrayAndnotInplaceBuf (a b : ArrBuf) : Out ArrBuf :=
  setCard (differenceMem (fun m => m.take a.card) b.vals a.card true a.mem)

/-- `array_container_xor`: src/containers/array.c:252-276.  (`xor_uint16` writes its result in one step here.) -/
def arrayXorBuf (avx2 : Bool) (fresh : Nat → List Nat) (a b out : ArrBuf) : Out ArrBuf :=
  let out := arrayReserve fresh out (a.card + b.card) (a.card + b.card)
  if avx2 then setCard (xorVector16 a.vals b.vals out.mem)
  else do
    let mem ← storeu out.mem 0 (xorU16 a.vals b.vals)
    .ok { card := (xorU16 a.vals b.vals).length, mem := mem }

/-- `array_container_intersection`: src/containers/array.c:286-323 (on x64: `sizeof(__m128i) / sizeof(uint16_t)` is 8). -/
def arrayIntersectionBuf (avx2 : Bool) (fresh : Nat → List Nat) (a b out : ArrBuf) : Out ArrBuf :=
  let minCard := Nat.min a.card b.card
  let out := arrayReserve fresh out minCard (minCard + 8)
  if a.card * 64 < b.card then setCard (skewMem (fun _ => a.vals) (fun _ => b.vals) a.card b.card out.mem)
  else if b.card * 64 < a.card then setCard (skewMem (fun _ => b.vals) (fun _ => a.vals) b.card a.card out.mem)
  else if avx2 then setCard (intersectVector16 a.vals b.vals out.mem)
  else setCard (intersectMem (fun _ => a.vals) (fun _ => b.vals) a.card b.card out.mem)

/-- `array_container_intersection_cardinality`: src/containers/array.c:327-351. -/
def arrayIntersectionCardBuf (avx2 : Bool) (a b : ArrBuf) : Out Nat :=
  if a.card * 64 < b.card then .ok (intersectSkewedCard a.vals b.vals)
  else if b.card * 64 < a.card then .ok (intersectSkewedCard b.vals a.vals)
  else if avx2 then intersectVector16Card a.vals b.vals
  else .ok (intersectU16Card a.vals b.vals)

/-- The contents of a buffer are replaced by those an in-place routine leaves; the rest of the buffer stays. -/
def setPrefix (b : ArrBuf) (r : Out (List Nat × Nat)) : Out ArrBuf := do
  let r ← r
  .ok { card := r.2, mem := r.1 ++ b.mem.drop b.card }

/-- `array_container_intersection_inplace`: src/containers/array.c:373-397. -/
def arrayIntersectionInplaceBuf (avx2 : Bool) (a b : ArrBuf) : Out ArrBuf :=
  if a.card * 64 < b.card then setCard (skewMem (fun m => m.take a.card) (fun _ => b.vals) a.card b.card a.mem)
  else if b.card * 64 < a.card then setCard (skewMem (fun _ => b.vals) (fun m => m.take a.card) b.card a.card a.mem)
  else if avx2 then setPrefix a (intersectVector16Inplace a.vals b.vals)
  else setCard (intersectMem (fun m => m.take a.card) (fun _ => b.vals) a.card b.card a.mem)

/-- The in-place union of two arrays in `array_array_container_inplace_union`, src/containers/mixed_union.c:208-219, when the capacity
suffices: the first array is moved to the right, and the union is written in front of it. -/
def arrayUnionInplaceBuf (a b : ArrBuf) : Out ArrBuf := do
  let v ← readN a.mem 0 a.card
  let mem ← storeu a.mem b.card v
  setCard (unionMem (fun m => (m.drop b.card).take a.card) (fun _ => b.vals) a.card b.card mem 0)

/-- The in-place union of two arrays in `array_array_container_lazy_inplace_union`, src/containers/mixed_union.c:310-355. -/
def arrayLazyUnionInplaceBuf (avx2 : Bool) (a b : ArrBuf) : Out ArrBuf := do
  let v ← readN a.mem 0 a.card
  let mem ← storeu a.mem b.card v
  setCard (fastUnionHw avx2 (fun m => (m.drop b.card).take a.card) (fun _ => b.vals) a.card b.card mem)

end CRoaring
