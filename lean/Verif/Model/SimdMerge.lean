import Verif.Model.Simd
import Verif.Model.ArrayUtil
/-
The vector code for unions and symmetric differences of sorted 16-bit arrays: src/array_util.c:1240-1881, 1982-2013.

The output may overlap an input (`array_array_container_lazy_inplace_union` calls `fast_union_uint16` that way), so the inputs
are functions of the memory that is written: `gA mem` and `gB mem` are the two arrays when the output memory is `mem`.  If the
arrays do not overlap, they are constant.  (`__restrict__` says that there is no overlap; what a compiler may make of that is not
modelled, only what the instructions do in the order in which they are written.)
-/
namespace CRoaring

/-- Two lines of `sse_merge`, and the rotation that follows them: src/array_util.c:1249-1251. -/
def mergeStep (p : V8 × V8) : V8 × V8 :=
  let m := List.zipWith min p.1 p.2
  (alignr m m 2, List.zipWith max p.1 p.2)

/-- `sse_merge`: src/array_util.c:1246-1274; `(vecMin, vecMax)`. -/
def sseMerge (a b : V8) : V8 × V8 :=
  mergeStep (mergeStep (mergeStep (mergeStep (mergeStep (mergeStep (mergeStep (mergeStep (a, b))))))))

/-- `_mm_movemask_epi8(_mm_packs_epi16(_mm_cmpeq_epi16(…), _mm_setzero_si128()))`, where the comparison gave the given
truth values (lanes of 0xFFFF and 0, which become bytes 0xFF and 0). -/
def movemask (l : List Bool) : Nat := bitMask l

/-- `store_unique`: src/array_util.c:1623-1634; the vector that is stored and the number of values of it that count. -/
def storeUnique (old new : V8) : V8 × Nat :=
  let vecTmp := alignr new old (16 - 2)
  let M := movemask (List.zipWith (fun x y => x == y) vecTmp new)
  (shuffleEpi8 new (uniqShuf.getD M []), 8 - popcnt32 M)

/-- `store_unique_xor`: src/array_util.c:1749-1763. -/
def storeUniqueXor (old new : V8) : V8 × Nat :=
  let vecTmp1 := alignr new old (16 - 4)
  let vecTmp2 := alignr new old (16 - 2)
  let equalleft := List.zipWith (fun x y => x == y) vecTmp2 vecTmp1
  let equalright := List.zipWith (fun x y => x == y) vecTmp2 new
  let M := movemask (List.zipWith (fun x y => x || y) equalleft equalright)
  (shuffleEpi8 vecTmp2 (uniqShuf.getD M []), 8 - popcnt32 M)

/-- The loop of `unique`: src/array_util.c:1640-1644; the first argument is the number of iterations left. -/
def uniqueLoop : Nat → Nat → Nat → List Nat → Out (List Nat × Nat)
  | 0, _, pos, buf => .ok (buf, pos)
  | n + 1, i, pos, buf => do
    let a ← read16 buf i
    let b ← read16 buf (i - 1)
    if a ≠ b then do
      let buf ← write16 buf pos a
      uniqueLoop n (i + 1) (pos + 1) buf
    else uniqueLoop n (i + 1) pos buf

/-- `unique`: src/array_util.c:1638-1646. -/
def unique16 (buf : List Nat) (len : Nat) : Out (List Nat × Nat) := uniqueLoop (len - 1) 1 1 buf

/-- The loop of `unique_xor`: src/array_util.c:1770-1775.  (`pos--` at 0 would wrap around; here it fails.) -/
def uniqueXorLoop : Nat → Nat → Nat → List Nat → Out (List Nat × Nat)
  | 0, _, pos, buf => .ok (buf, pos)
  | n + 1, i, pos, buf => do
    let a ← read16 buf i
    let b ← read16 buf (i - 1)
    if a ≠ b then do
      let buf ← write16 buf pos a
      uniqueXorLoop n (i + 1) (pos + 1) buf
    else if pos = 0 then .fail
    else uniqueXorLoop n (i + 1) (pos - 1) buf

/-- `unique_xor`: src/array_util.c:1768-1777. -/
def uniqueXor16 (buf : List Nat) (len : Nat) : Out (List Nat × Nat) := uniqueXorLoop (len - 1) 1 1 buf

/-- `qsort(buffer, len, sizeof(uint16_t), uint16_compare)`: the first `len` values are sorted (the C library's function). -/
def qsort16 (buf : List Nat) (len : Nat) : List Nat :=
  (buf.take len).mergeSort (fun a b => decide (a ≤ b)) ++ buf.drop len

/-- The `n` values from index `i` on, the source of a `memcpy` or `memmove`. -/
def readN (a : List Nat) (i n : Nat) : Out (List Nat) := if i + n ≤ a.length then .ok ((a.drop i).take n) else .oob

/-! ### `union_uint16` on memory -/

/-- The loop of `union_uint16`: src/array_util.c:1123-1142; the indices, the position and the memory when it ends.  `g1`, `g2`
are the inputs as functions of the memory. -/
def unionMemLoop (g1 g2 : List Nat → List Nat) (size1 size2 : Nat) :
    Nat → Nat → Nat → Nat → Nat → Nat → List Nat → Out (Nat × Nat × Nat × List Nat)
  | 0, _, _, _, _, _, _ => .fail
  | fuel + 1, idx1, idx2, val1, val2, pos, mem =>
    if val1 < val2 then do
      let mem ← write16 mem pos val1
      if size1 ≤ idx1 + 1 then .ok (idx1 + 1, idx2, pos + 1, mem)
      else do
        let val1 ← read16 (g1 mem) (idx1 + 1)
        unionMemLoop g1 g2 size1 size2 fuel (idx1 + 1) idx2 val1 val2 (pos + 1) mem
    else if val2 < val1 then do
      let mem ← write16 mem pos val2
      if size2 ≤ idx2 + 1 then .ok (idx1, idx2 + 1, pos + 1, mem)
      else do
        let val2 ← read16 (g2 mem) (idx2 + 1)
        unionMemLoop g1 g2 size1 size2 fuel idx1 (idx2 + 1) val1 val2 (pos + 1) mem
    else do
      let mem ← write16 mem pos val1
      if size1 ≤ idx1 + 1 ∨ size2 ≤ idx2 + 1 then .ok (idx1 + 1, idx2 + 1, pos + 1, mem)
      else do
        let val1 ← read16 (g1 mem) (idx1 + 1)
        let val2 ← read16 (g2 mem) (idx2 + 1)
        unionMemLoop g1 g2 size1 size2 fuel (idx1 + 1) (idx2 + 1) val1 val2 (pos + 1) mem

/-- `union_uint16(set_1, size1, set_2, size2, mem + base)`: src/array_util.c:1108-1154; the memory afterwards and the number of values
written. -/
def unionMem (g1 g2 : List Nat → List Nat) (size1 size2 : Nat) (mem : List Nat) (base : Nat) : Out (List Nat × Nat) :=
  if size2 = 0 then do
    let v ← readN (g1 mem) 0 size1
    let mem ← storeu mem base v
    .ok (mem, size1)
  else if size1 = 0 then do
    let v ← readN (g2 mem) 0 size2
    let mem ← storeu mem base v
    .ok (mem, size2)
  else do
    let val1 ← read16 (g1 mem) 0
    let val2 ← read16 (g2 mem) 0
    let r ← unionMemLoop g1 g2 size1 size2 (size1 + size2 + 1) 0 0 val1 val2 base mem
    if r.1 < size1 then do
      let v ← readN (g1 r.2.2.2) r.1 (size1 - r.1)
      let mem ← storeu r.2.2.2 r.2.2.1 v
      .ok (mem, r.2.2.1 + (size1 - r.1) - base)
    else if r.2.1 < size2 then do
      let v ← readN (g2 r.2.2.2) r.2.1 (size2 - r.2.1)
      let mem ← storeu r.2.2.2 r.2.2.1 v
      .ok (mem, r.2.2.1 + (size2 - r.2.1) - base)
    else .ok (r.2.2.2, r.2.2.1 - base)

/-! ### The merging machine -/

/-- The variables of `union_vector16` and `xor_vector16`: `pos1`, `pos2`, `vecMax`, `laststore`, the output memory and `output - initoutput`. -/
structure MergeSt where
  pos1 : Nat
  pos2 : Nat
  vecMax : V8
  last : V8
  mem : List Nat
  n : Nat

/-- `sse_merge(&V, &vecMax, &vecMin, &vecMax); output += store(laststore, vecMin, output); laststore = vecMin`:
src/array_util.c:1701-1703 and the like. -/
def mergeEmit (store : V8 → V8 → V8 × Nat) (s : MergeSt) (V : V8) : Out MergeSt := do
  let p := sseMerge V s.vecMax
  let q := store s.last p.1
  let mem ← storeu s.mem s.n q.1
  .ok { s with vecMax := p.2, last := p.1, mem := mem, n := s.n + q.2 }

/-- The loop of `union_vector16`, src/array_util.c:1682-1706, and of `xor_vector16`, 1808-1839 (with the merge that follows a
`break`). -/
def mergeLoop (store : V8 → V8 → V8 × Nat) (gA gB : List Nat → List Nat) (len1 len2 : Nat) :
    Nat → Nat → Nat → MergeSt → Out MergeSt
  | 0, _, _, _ => .fail
  | fuel + 1, curA, curB, s =>
    if curA ≤ curB then do
      let V ← loadu (gA s.mem) (8 * s.pos1)
      let s := { s with pos1 := s.pos1 + 1 }
      if s.pos1 < len1 then do
        let curA ← read16 (gA s.mem) (8 * s.pos1)
        let s ← mergeEmit store s V
        mergeLoop store gA gB len1 len2 fuel curA curB s
      else mergeEmit store s V
    else do
      let V ← loadu (gB s.mem) (8 * s.pos2)
      let s := { s with pos2 := s.pos2 + 1 }
      if s.pos2 < len2 then do
        let curB ← read16 (gB s.mem) (8 * s.pos2)
        let s ← mergeEmit store s V
        mergeLoop store gA gB len1 len2 fuel curA curB s
      else mergeEmit store s V

/-- The vector part of `union_vector16`, src/array_util.c:1662-1707, and of `xor_vector16`, 1786-1840. -/
def mergeVec (store : V8 → V8 → V8 × Nat) (gA gB : List Nat → List Nat) (n1 n2 : Nat) (mem : List Nat) : Out MergeSt := do
  let vA ← loadu (gA mem) 0
  let vB ← loadu (gB mem) 0
  let s ← mergeEmit store { pos1 := 1, pos2 := 1, vecMax := vB, last := List.replicate 8 65535, mem := mem, n := 0 } vA
  if 1 < n1 / 8 ∧ 1 < n2 / 8 then do
    let curA ← read16 (gA s.mem) 8
    let curB ← read16 (gB s.mem) 8
    mergeLoop store gA gB (n1 / 8) (n2 / 8) (n1 + n2 + 1) curA curB s
  else .ok s

/-- The end of `union_vector16`, src/array_util.c:1715-1723 and 1724-1732: the `left` values in `buffer`, the values of one array from index
`i` on (fewer than eight), and those of the other from `j` on. -/
def unionEnd (g g' : List Nat → List Nat) (i k j k' : Nat) (buffer : List Nat) (left : Nat) (mem : List Nat) (n : Nat) :
    Out (List Nat × Nat) := do
  let t ← readN (g mem) i k
  let buffer ← storeu buffer left t
  let u ← unique16 (qsort16 buffer (left + k)) (left + k)
  let r ← unionMem (fun _ => u.1) (fun m => (g' m).drop j) u.2 k' mem n
  .ok (r.1, n + r.2)

/-- `union_vector16`: src/array_util.c:1656-1734; the output memory and the number of values. -/
def unionVector16 (gA gB : List Nat → List Nat) (n1 n2 : Nat) (mem : List Nat) : Out (List Nat × Nat) :=
  if n1 < 8 ∨ n2 < 8 then unionMem gA gB n1 n2 mem 0
  else do
    let s ← mergeVec storeUnique gA gB n1 n2 mem
    let q := storeUnique s.last s.vecMax
    let buffer ← storeu (List.replicate 16 0) 0 q.1
    if s.pos1 = n1 / 8 then
      unionEnd gA gB (8 * s.pos1) (n1 - 8 * (n1 / 8)) (8 * s.pos2) (n2 - 8 * s.pos2) buffer q.2 s.mem s.n
    else unionEnd gB gA (8 * s.pos2) (n2 - 8 * (n2 / 8)) (8 * s.pos1) (n1 - 8 * s.pos1) buffer q.2 s.mem s.n

/-- `fast_union_uint16` when the processor has AVX2: src/array_util.c:1986-1994. -/
def fastUnionVector16 (gA gB : List Nat → List Nat) (n1 n2 : Nat) (mem : List Nat) : Out (List Nat × Nat) :=
  if n1 < n2 then unionVector16 gA gB n1 n2 mem else unionVector16 gB gA n2 n1 mem

/-- `fast_union_uint16` without AVX2, on memory: src/array_util.c:1995-2002. -/
def fastUnionMem (gA gB : List Nat → List Nat) (n1 n2 : Nat) (mem : List Nat) : Out (List Nat × Nat) :=
  if n1 < n2 then unionMem gA gB n1 n2 mem 0 else unionMem gB gA n2 n1 mem 0

/-- The end of `xor_vector16`: src/array_util.c:1851-1864, 1865-1879.  (`xor_uint16` writes its result, the list `xorU16 …`, in
one step here.) -/
def xorEnd (A B : List Nat) (i k j : Nat) (buffer : List Nat) (left : Nat) (mem : List Nat) (n : Nat) : Out (List Nat × Nat) := do
  let t ← readN A i k
  let buffer ← storeu buffer left t
  if left + k = 0 then do
    let mem ← storeu mem n (B.drop j)
    .ok (mem, n + (B.length - j))
  else do
    let u ← uniqueXor16 (qsort16 buffer (left + k)) (left + k)
    let r := xorU16 (u.1.take u.2) (B.drop j)
    let mem ← storeu mem n r
    .ok (mem, n + r.length)

/-- The last value of the register, unless it is equal to the one before it: src/array_util.c:1848-1850. -/
def xorLast (vecMax : V8) (buffer : List Nat) (left : Nat) : Out (List Nat × Nat) :=
  let vec7 := vecMax.getD 7 0
  let vec6 := vecMax.getD 6 0
  if vec7 ≠ vec6 then do
    let buffer ← write16 buffer left vec7
    .ok (buffer, left + 1)
  else .ok (buffer, left)

/-- `xor_vector16`: src/array_util.c:1780-1881. -/
def xorVector16 (A B mem : List Nat) : Out (List Nat × Nat) :=
  if A.length < 8 ∨ B.length < 8 then do
    let mem ← storeu mem 0 (xorU16 A B)
    .ok (mem, (xorU16 A B).length)
  else do
    let s ← mergeVec storeUniqueXor (fun _ => A) (fun _ => B) A.length B.length mem
    let q := storeUniqueXor s.last s.vecMax
    let buffer ← storeu (List.replicate 17 0) 0 q.1
    let b ← xorLast s.vecMax buffer q.2
    if s.pos1 = A.length / 8 then xorEnd A B (8 * s.pos1) (A.length - 8 * (A.length / 8)) (8 * s.pos2) b.1 b.2 s.mem s.n
    else xorEnd B A (8 * s.pos2) (B.length - 8 * (B.length / 8)) (8 * s.pos1) b.1 b.2 s.mem s.n

end CRoaring
