import Verif.Model.Serial
import Verif.Model.SimdTables
import Verif.Model.Array
/-
The vector code for sorted 16-bit arrays that runs on x64 processors with AVX2: src/array_util.c.

A register `__m128i` is the list of its eight 16-bit lanes, lane 0 first; where the code works on bytes, the register is
seen as 16 bytes in little-endian order.  The instructions are those of Intel's manual, restricted to the immediate
operands that occur.  Arrays in memory are lists; `oob` is an access outside of the array, `fail` never occurs (the loops
that are not structurally recursive get some fuel).
-/
namespace CRoaring

/-! ### Instructions -/

/-- `__m128i` as eight lanes of 16 bits. -/
abbrev V8 := List Nat

/-- The bytes of a register. -/
def bytesOf (v : V8) : List Nat := v.flatMap (fun x => [x % 256, x / 256])

/-- The register with the given bytes. -/
def ofBytes : List Nat → V8
  | a :: b :: t => (a + 256 * b) :: ofBytes t
  | _ => []

/-- `a[i]`. -/
def read16 (a : List Nat) (i : Nat) : Out Nat :=
  match a[i]? with
  | some x => .ok x
  | none => .oob

/-- `a[i] = x`. -/
def write16 (a : List Nat) (i x : Nat) : Out (List Nat) := if i < a.length then .ok (a.set i x) else .oob

/-- `_mm_lddqu_si128((__m128i *)&a[i])`, `_mm_loadu_si128`. -/
def loadu (a : List Nat) (i : Nat) : Out V8 := if i + 8 ≤ a.length then .ok ((a.drop i).take 8) else .oob

/-- `_mm_storeu_si128((__m128i *)&c[i], v)`; also `memcpy` of the list `v` to `c + i`. -/
def storeu (c : List Nat) (i : Nat) (v : List Nat) : Out (List Nat) :=
  if i + v.length ≤ c.length then .ok (c.take i ++ v ++ c.drop (i + v.length)) else .oob

/-- `_mm_shuffle_epi8`: byte `i` is the byte of `v` that the low four bits of byte `i` of the mask choose, or 0 if the top bit of
the mask byte is set. -/
def shuffleEpi8 (v : V8) (mask : List Nat) : V8 :=
  ofBytes (mask.map (fun m => if m ≥ 128 then 0 else (bytesOf v).getD (m % 16) 0))

/-- `_mm_alignr_epi8(a, b, n)`: the bytes of `b` and then `a`, from byte `n` on. -/
def alignr (a b : V8) (n : Nat) : V8 := ofBytes (((bytesOf b ++ bytesOf a).drop n).take 16)

/-- The number whose bit `i` is element `i`. -/
def bitMask : List Bool → Nat
  | [] => 0
  | b :: t => b.toNat + 2 * bitMask t

/-- `_mm_extract_epi32(_mm_cmpestrm(a, la, b, lb, _SIDD_UWORD_OPS | _SIDD_CMP_EQUAL_ANY | _SIDD_BIT_MASK), 0)`: bit `i` tells whether lane `i` of
`b` is one of the lanes of `a`; lanes at or behind the lengths do not count. -/
def cmpestrm (a : V8) (la : Nat) (b : V8) (lb : Nat) : Nat :=
  bitMask ((b.take lb).map (fun x => (a.take la).contains x))

/-- `_mm_extract_epi32(_mm_cmpistrm(a, b, …), 0)`: the lengths are implicit, a lane 0 ends the string. -/
def cmpistrm (a b : V8) : Nat :=
  cmpestrm a (a.takeWhile (· != 0)).length b (b.takeWhile (· != 0)).length

/-- `_mm_popcnt_u32`. -/
def popcnt32 (r : Nat) : Nat := ((List.range 32).filter (fun i => r.testBit i)).length

/-- `_mm_loadu_si128((const __m128i *)shuffle_mask16 + r)` and the shuffle with it: the lanes of `v` whose bit in `r` is set, moved
together. -/
def compress (v : V8) (r : Nat) : V8 := shuffleEpi8 v (shuffleMask16.getD r [])

/-! ### The loops over blocks -/

/-- The variables of the loops: the indices, the vectors `v_a` and `v_b`, and the rest. -/
structure VecSt (σ : Type) where
  ia : Nat
  ib : Nat
  va : V8
  vb : V8
  x : σ

/-- The loop that `intersect_vector16` (src/array_util.c:397-418, 419-442), `intersect_vector16_inplace` (499-524, 525-553), its
counting variant (594-612, 613-632) and `difference_vector16` (701-738) have in common: compare the two vectors
(`emit`), then move on in the array whose last value is smaller (in both if they are equal); `flush` is what is done
before moving on in `A`.  `getA` is the array `A`, which may be part of the state; `go` is the condition of the loop. -/
def vecLoop {σ : Type} (getA : σ → List Nat) (B : List Nat) (cmp : V8 → V8 → Nat) (go : List Nat → Nat → Nat → Out Bool)
    (emit : σ → V8 → Nat → Out σ) (flush : σ → V8 → Out σ) (sta stb : Nat) : Nat → VecSt σ → Out (VecSt σ)
  | 0, _ => .fail
  | fuel + 1, s => do
    let more ← go (getA s.x) s.ia s.ib
    if !more then .ok s
    else do
      let x ← emit s.x s.va (cmp s.vb s.va)
      let amax ← read16 (getA x) (s.ia + 8 - 1)
      let bmax ← read16 B (s.ib + 8 - 1)
      if amax ≤ bmax then do
        let x ← flush x s.va
        let ia := s.ia + 8
        if ia = sta then .ok { s with ia := ia, x := x }
        else do
          let va ← loadu (getA x) ia
          if bmax ≤ amax then
            let ib := s.ib + 8
            if ib = stb then .ok { ia := ia, ib := ib, va := va, vb := s.vb, x := x }
            else do
              let vb ← loadu B ib
              vecLoop getA B cmp go emit flush sta stb fuel { ia := ia, ib := ib, va := va, vb := vb, x := x }
          else vecLoop getA B cmp go emit flush sta stb fuel { ia := ia, ib := s.ib, va := va, vb := s.vb, x := x }
      else
        let ib := s.ib + 8
        if ib = stb then .ok { s with ib := ib, x := x }
        else do
          let vb ← loadu B ib
          vecLoop getA B cmp go emit flush sta stb fuel { s with ib := ib, vb := vb, x := x }

/-- `(A[i_a] == 0) || (B[i_b] == 0)`: src/array_util.c:397, 499, 594. -/
def goZero (B : List Nat) (A : List Nat) (ia ib : Nat) : Out Bool := do
  let a ← read16 A ia
  if a = 0 then .ok true
  else do
    let b ← read16 B ib
    .ok (b == 0)

/-- `while (true)`. -/
def goTrue (_A : List Nat) (_ia _ib : Nat) : Out Bool := .ok true

/-- The vectorised part of the three intersections: src/array_util.c:390-443, 490-553, 587-633.  If there is not a whole block in both arrays, nothing
is done. -/
def vecIsect {σ : Type} (getA : σ → List Nat) (B : List Nat) (emit : σ → V8 → Nat → Out σ) (flush : σ → V8 → Out σ)
    (sa sb : Nat) (x : σ) : Out (Nat × Nat × σ) :=
  let sta := sa / 8 * 8
  let stb := sb / 8 * 8
  if 0 < sta ∧ 0 < stb then do
    let va ← loadu (getA x) 0
    let vb ← loadu B 0
    let s ← vecLoop getA B (fun b a => cmpestrm b 8 a 8) (goZero B) emit flush sta stb (sa + sb + 1)
      { ia := 0, ib := 0, va := va, vb := vb, x := x }
    if s.ia < sta ∧ s.ib < stb then do
      let s ← vecLoop getA B cmpistrm goTrue emit flush sta stb (sa + sb + 1) s
      .ok (s.ia, s.ib, s.x)
    else .ok (s.ia, s.ib, s.x)
  else .ok (0, 0, x)

/-- The scalar loop that the intersections end with: src/array_util.c:444-458, 561-575, 634-647; `put` is `C[count++] = a`. -/
def isectTail {σ : Type} (getA : σ → List Nat) (B : List Nat) (put : σ → Nat → Out σ) (sa sb : Nat) :
    Nat → Nat → Nat → σ → Out σ
  | 0, _, _, _ => .fail
  | fuel + 1, ia, ib, x =>
    if ia < sa ∧ ib < sb then do
      let a ← read16 (getA x) ia
      let b ← read16 B ib
      if a < b then isectTail getA B put sa sb fuel (ia + 1) ib x
      else if b < a then isectTail getA B put sa sb fuel ia (ib + 1) x
      else do
        let x ← put x a
        isectTail getA B put sa sb fuel (ia + 1) (ib + 1) x
    else .ok x

/-! ### Intersections -/

/-- The body of the loops of `intersect_vector16`; the state is the array `C` and `count`. -/
def isectEmit (x : List Nat × Nat) (va : V8) (r : Nat) : Out (List Nat × Nat) := do
  let C ← storeu x.1 x.2 (compress va r)
  .ok (C, x.2 + popcnt32 r)

/-- `C[count] = a; count++`. -/
def isectPut (x : List Nat × Nat) (a : Nat) : Out (List Nat × Nat) := do
  let C ← write16 x.1 x.2 a
  .ok (C, x.2 + 1)

/-- `intersect_vector16`: src/array_util.c:385-460; the array `C` afterwards and the number of values. -/
def intersectVector16 (A B C : List Nat) : Out (List Nat × Nat) := do
  let p ← vecIsect (fun _ => A) B isectEmit (fun x _ => .ok x) A.length B.length (C, 0)
  isectTail (fun _ => A) B isectPut A.length B.length (A.length + B.length + 1) p.1 p.2.1 p.2.2

/-- `intersect_vector16_cardinality`: src/array_util.c:581-649. -/
def intersectVector16Card (A B : List Nat) : Out Nat := do
  let p ← vecIsect (fun _ => A) B (fun n _ r => .ok (n + popcnt32 r)) (fun x _ => .ok x) A.length B.length 0
  isectTail (fun _ => A) B (fun n _ => .ok (n + 1)) A.length B.length (A.length + B.length + 1) p.1 p.2.1 p.2.2

/-- The state of `intersect_vector16_inplace`: the array, `count`, the 16 lanes of `tmp`, `tmp_count`. -/
structure InplSt where
  A : List Nat
  count : Nat
  tmp : List Nat
  tmpCount : Nat

/-- The body of its loops: src/array_util.c:500-507, 527-535. -/
def inplEmit (x : InplSt) (va : V8) (r : Nat) : Out InplSt := do
  let tmp ← storeu x.tmp x.tmpCount (compress va r)
  .ok { x with tmp := tmp, tmpCount := x.tmpCount + popcnt32 r }

/-- `_mm_storeu_si128((__m128i *)&A[count], tmp[0]); …`: src/array_util.c:511-514, 539-542. -/
def inplFlush (x : InplSt) (_va : V8) : Out InplSt := do
  let A ← storeu x.A x.count (x.tmp.take 8)
  let tmp ← storeu x.tmp 0 (List.replicate 8 0)
  .ok { A := A, count := x.count + x.tmpCount, tmp := tmp, tmpCount := 0 }

/-- `A[count] = …; count++`. -/
def inplPut (x : InplSt) (a : Nat) : Out InplSt := do
  let A ← write16 x.A x.count a
  .ok { x with A := A, count := x.count + 1 }

/-- The loop that stores what is left in `tmp`: src/array_util.c:555-558. -/
def inplRest (x : InplSt) : Nat → Nat → Out InplSt
  | 0, _ => .ok x
  | n + 1, i => do
    let v ← read16 x.tmp i
    let x ← inplPut x v
    inplRest x n (i + 1)

/-- `intersect_vector16_inplace`: src/array_util.c:486-577; the array afterwards and the number of values.  (The second half of
`tmp` is initialised to 0.) -/
def intersectVector16Inplace (A B : List Nat) : Out (List Nat × Nat) := do
  let sa := A.length
  let p ← vecIsect InplSt.A B inplEmit inplFlush sa B.length { A := A, count := 0, tmp := List.replicate 16 0, tmpCount := 0 }
  let x ← inplRest p.2.2 p.2.2.tmpCount 0
  let x ← isectTail InplSt.A B inplPut sa B.length (sa + B.length + 1) (p.1 + x.tmpCount) p.2.1 x
  .ok (x.A, x.count)

/-! ### Difference -/

/-- The state of `difference_vector16`: `C`, `count`, `runningmask_a_found_in_b`. -/
structure DiffSt where
  C : List Nat
  count : Nat
  mask : Nat

/-- `runningmask_a_found_in_b = _mm_or_si128(…)`: src/array_util.c:702-709, 748-752. -/
def diffEmit (x : DiffSt) (_va : V8) (r : Nat) : Out DiffSt := .ok { x with mask := x.mask ||| r }

/-- The values of the vector that are in the difference are stored: src/array_util.c:717-724, 753-759.  (The code sets the mask to 0
after the test that may end the loop; it is not used when that test succeeds.) -/
def diffFlush (x : DiffSt) (va : V8) : Out DiffSt := do
  let belongs := x.mask ^^^ 255
  let C ← storeu x.C x.count (compress va belongs)
  .ok { C := C, count := x.count + popcnt32 belongs, mask := 0 }

/-- The scalar loop: src/array_util.c:764-778; the number of the first value of `A` that is left, too. -/
def diffTail (A B : List Nat) : Nat → Nat → Nat → List Nat × Nat → Out (Nat × List Nat × Nat)
  | 0, _, _, _ => .fail
  | fuel + 1, ia, ib, x =>
    if ia < A.length ∧ ib < B.length then do
      let a ← read16 A ia
      let b ← read16 B ib
      if b < a then diffTail A B fuel ia (ib + 1) x
      else if a < b then do
        let x ← isectPut x a
        diffTail A B fuel (ia + 1) ib x
      else diffTail A B fuel (ia + 1) (ib + 1) x
    else .ok (ia, x)

/-- The vector part of `difference_vector16` (for `A` and `B` without 0), with `count` values stored before: src/array_util.c:686-763.  The numbers of the
first values of `A` and `B` that are left, the output and the number of values in it. -/
def diffVec (A B C : List Nat) (count : Nat) : Out (Nat × Nat × List Nat × Nat) :=
  let sta := A.length / 8 * 8
  let stb := B.length / 8 * 8
  if 0 < sta ∧ 0 < stb then do
    let va ← loadu A 0
    let vb ← loadu B 0
    let s ← vecLoop (fun _ => A) B cmpistrm goTrue diffEmit diffFlush sta stb (A.length + B.length + 1)
      { ia := 0, ib := 0, va := va, vb := vb, x := { C := C, count := count, mask := 0 } }
    if s.ia < sta then do
      let buffer ← storeu (List.replicate 8 0) 0 (B.drop s.ib)
      let vb ← loadu buffer 0
      let x ← diffEmit s.x s.va (cmpistrm vb s.va)
      let x ← diffFlush x s.va
      .ok (s.ia + 8, s.ib, x.C, x.count)
    else .ok (s.ia, s.ib, s.x.C, s.x.count)
  else .ok (0, 0, C, count)

/-- `difference_vector16` from `size_t i_a = 0` on, with `count` values stored: src/array_util.c:686-793, for `C != A`. -/
def diffMain (A B C : List Nat) (count : Nat) : Out (List Nat × Nat) := do
  let p ← diffVec A B C count
  let q ← diffTail A B (A.length + B.length + 1) p.1 p.2.1 p.2.2
  if q.1 < A.length then do
    let C ← storeu q.2.1 q.2.2 (A.drop q.1)
    .ok (C, q.2.2 + (A.length - q.1))
  else .ok q.2

/-- `difference_vector16`: src/array_util.c:657-793, for `C != A`. -/
def differenceVector16 (A B C : List Nat) : Out (List Nat × Nat) :=
  match A, B with
  | [], _ => .ok (C, 0)
  | _, [] => do
    let C ← storeu C 0 A
    .ok (C, A.length)
  | a :: as, b :: bs =>
    if a = 0 then
      if b = 0 then diffMain as bs C 0
      else do
        let C ← write16 C 0 0
        diffMain as B C 1
    else if b = 0 then diffMain A bs C 0
    else diffMain A B C 0

end CRoaring
