import Verif.Model.Simd
import Verif.Model.ExtractTables
import Verif.Model.Query
import Verif.Model.SimdMerge
/-
The enumeration of values into an array of 32-bit (or 16-bit) integers, on memory, with the vector code of x64 processors:
src/bitset_util.c, src/array_util.c, src/containers/{array,bitset,run}.c.  The output is a list (`mem`) and a position in it; an access
outside of it is `oob`.  A vector is the list of its lanes.
-/
namespace CRoaring

/-- What `croaring_hardware_support()` reports (src/isadetection.c). -/
structure Hw where
  avx2 : Bool
  avx512 : Bool

/-- `_mm256_add_epi32`, `_mm512_add_epi32` (`m = 2^32`), `_mm_add_epi16`, `_mm512_add_epi16` (`m = 2^16`). -/
def addLanes (m : Nat) (a b : List Nat) : List Nat := List.zipWith (fun x y => (x + y) % m) a b

/-- `_mm256_set1_epi32(x)` and the like: `n` lanes. -/
def set1 (m n x : Nat) : List Nat := List.replicate n (x % m)

/-! ### Bitsets -/

/-- The scalar loop over the bits of a word: src/bitset_util.c:616-624, 665-672, 721-729, 823-828.  `safe` is `safeout`; `m` is 2^32 or 2^16. -/
def extractWordMem (m safe : Nat) (w : Word) (base : Nat) (mem : List Nat) (pos : Nat) : Out (List Nat × Nat) :=
  if _h : w = 0#64 then .ok (mem, pos)
  else if pos < safe then
    match write16 mem pos ((ctz w + base) % m) with
    | .ok mem => extractWordMem m safe (w &&& (w - 1#64)) base mem (pos + 1)
    | .fail => .fail
    | .oob => .oob
  else .ok (mem, pos)
termination_by w.toNat
decreasing_by exact clearLowest_lt _h

/-- The scalar loop over the words that are left: src/bitset_util.c:614-626, 663-674, 719-731, 821-830. -/
def extractTailMem (m safe : Nat) : List Word → Nat → List Nat → Nat → Out (List Nat × Nat)
  | [], _, mem, pos => .ok (mem, pos)
  | w :: ws, base, mem, pos =>
    if pos < safe then do
      let p ← extractWordMem m safe w base mem pos
      extractTailMem m safe ws ((base + 64) % m) p.1 p.2
    else .ok (mem, pos)

/-- The variables of the vector loops: the output, the position in it, `baseVec`. -/
structure ExSt where
  mem : List Nat
  pos : Nat
  base : List Nat

/-- Two bytes of a word: src/bitset_util.c:697-714 (`m = 2^32`), 798-815 (`m = 2^16`). -/
def avx2Pair (m : Nat) (table : List (List Nat)) (w : Word) (s : ExSt) : Out ExSt := do
  let byteA := w.toNat % 256
  let byteB := (w >>> 8).toNat % 256
  let vecA := addLanes m s.base (table.getD byteA [])
  let base := addLanes m s.base (set1 m 8 8)
  let vecB := addLanes m base (table.getD byteB [])
  let base := addLanes m base (set1 m 8 8)
  let mem ← storeu s.mem s.pos vecA
  let pos := s.pos + lengthTable.getD byteA 0
  let mem ← storeu mem pos vecB
  .ok { mem := mem, pos := pos + lengthTable.getD byteB 0, base := base }

/-- `for (int k = 0; k < 4; ++k)`: src/bitset_util.c:696-715, 797-816. -/
def avx2Pairs (m : Nat) (table : List (List Nat)) : Nat → Word → ExSt → Out ExSt
  | 0, _, s => .ok s
  | k + 1, w, s => do
    let s ← avx2Pair m table w s
    avx2Pairs m table k (w >>> 16) s

/-- The vector loop: src/bitset_util.c:691-717 with `room = 64`, 792-818 with `room = 16`; the words that are left, `i`, and the variables. -/
def avx2Loop (m : Nat) (table : List (List Nat)) (room safe : Nat) : List Word → Nat → ExSt → Out (List Word × Nat × ExSt)
  | [], i, s => .ok ([], i, s)
  | w :: ws, i, s =>
    if s.pos + room ≤ safe then
      if w = 0#64 then avx2Loop m table room safe ws (i + 1) { s with base := addLanes m s.base (set1 m 8 64) }
      else do
        let s ← avx2Pairs m table 4 w s
        avx2Loop m table room safe ws (i + 1) s
    else .ok (w :: ws, i, s)

/-- `bitset_extract_setbits_avx2(words, length, mem + pos, cap, base)`: src/bitset_util.c:683-733; the output and the position behind the last
value. -/
def extractAvx2 (ws : List Word) (mem : List Nat) (pos cap base : Nat) : Out (List Nat × Nat) := do
  let r ← avx2Loop 4294967296 vecDecodeTable 64 (pos + cap) ws 0
    { mem := mem, pos := pos, base := set1 4294967296 8 (base + 4294967295) }
  extractTailMem 4294967296 (pos + cap) r.1 ((base + r.2.1 * 64) % 4294967296) r.2.2.mem r.2.2.pos

/-- `bitset_extract_setbits_sse_uint16`: src/bitset_util.c:786-833.  (It is not called anywhere.) -/
def extractSse16 (ws : List Word) (mem : List Nat) (pos cap base : Nat) : Out (List Nat × Nat) := do
  let r ← avx2Loop 65536 vecDecodeTable16 16 (pos + cap) ws 0 { mem := mem, pos := pos, base := set1 65536 8 (base + 65535) }
  extractTailMem 65536 (pos + cap) r.1 ((base + r.2.1 * 64) % 65536) r.2.2.mem r.2.2.pos

/-- `vbmi2_table`: src/bitset_util.c:571-575. -/
def vbmi2Table : List Nat := [
  0, 1, 2, 3, 4, 5, 6, 7, 8, 9, 10, 11, 12, 13, 14, 15,
  16, 17, 18, 19, 20, 21, 22, 23, 24, 25, 26, 27, 28, 29, 30, 31,
  32, 33, 34, 35, 36, 37, 38, 39, 40, 41, 42, 43, 44, 45, 46, 47,
  48, 49, 50, 51, 52, 53, 54, 55, 56, 57, 58, 59, 60, 61, 62, 63]

/-- `_mm512_maskz_compress_epi8(k, a)`: the bytes of `a` whose bit in `k` is set, then zeros. -/
def maskzCompress (k : Word) (a : List Nat) : List Nat :=
  let l := ((List.range 64).filter (fun i => k.getLsbD i)).map (fun i => a.getD i 0)
  l ++ List.replicate (64 - l.length) 0

/-- `_mm512_cvtepi8_epi32` (`m = 2^32`), `_mm512_cvtepi8_epi16` (`m = 2^16`): sign extension of bytes. -/
def cvtepi8 (m : Nat) (v : List Nat) : List Nat := v.map (fun b => if b < 128 then b else m - 256 + b)

/-- The stores of one word: `n` vectors of `lanes` lanes, made of consecutive parts of `vec`: src/bitset_util.c:592-607 (four of 16),
648-656 (two of 32).  (All are computed before the first is stored.) -/
def avx512Stores (m lanes : Nat) (vbase vec : List Nat) : Nat → Nat → List Nat → Nat → Out (List Nat)
  | 0, _, mem, _ => .ok mem
  | n + 1, j, mem, pos => do
    let r := addLanes m (cvtepi8 m ((vec.drop (j * lanes)).take lanes)) vbase
    let mem ← storeu mem (pos + j * lanes) r
    avx512Stores m lanes vbase vec n (j + 1) mem pos

/-- The vector loop: src/bitset_util.c:585-610, 641-658. -/
def avx512Loop (m lanes n safe : Nat) (base : Nat) : List Word → Nat → List Nat → Nat → Out (List Word × Nat × List Nat × Nat)
  | [], i, mem, pos => .ok ([], i, mem, pos)
  | w :: ws, i, mem, pos =>
    if pos + 64 < safe then do
      let vec := maskzCompress w vbmi2Table
      let vbase := addLanes m (set1 m lanes base) (set1 m lanes (i * 64))
      let mem ← avx512Stores m lanes vbase vec n 0 mem pos
      avx512Loop m lanes n safe base ws (i + 1) mem (pos + popcount w)
    else .ok (w :: ws, i, mem, pos)

/-- `bitset_extract_setbits_avx512`: src/bitset_util.c:576-629. -/
def extractAvx512 (ws : List Word) (mem : List Nat) (pos cap base : Nat) : Out (List Nat × Nat) := do
  let r ← avx512Loop 4294967296 16 4 (pos + cap) base ws 0 mem pos
  extractTailMem 4294967296 (pos + cap) r.1 ((base + r.2.1 * 64) % 4294967296) r.2.2.1 r.2.2.2

/-- `bitset_extract_setbits_avx512_uint16`: src/bitset_util.c:632-677. -/
def extractAvx512u16 (ws : List Word) (mem : List Nat) (pos cap base : Nat) : Out (List Nat × Nat) := do
  let r ← avx512Loop 65536 32 2 (pos + cap) base ws 0 mem pos
  extractTailMem 65536 (pos + cap) r.1 ((base + r.2.1 * 64) % 65536) r.2.2.1 r.2.2.2

/-- `bitset_extract_setbits(words, length, mem + pos, base)`: src/bitset_util.c:737-754 (`m = 2^32`), and `bitset_extract_setbits_uint16`, 847-860
(`m = 2^16`).  There is no test of the position; the memory ends somewhere. -/
def extractScalarMem (m : Nat) (ws : List Word) (mem : List Nat) (pos base : Nat) : Out (List Nat × Nat) :=
  extractTailMem m (mem.length + 1) ws base mem pos

/-- `bitset_container_to_uint32_array`: src/containers/bitset.c:931-956; `cap` is the cached cardinality. -/
def bitsetToMem (hw : Hw) (b : Bitset) (base : Nat) (mem : List Nat) (pos : Nat) : Out (List Nat × Nat) :=
  if hw.avx512 ∧ b.card ≥ 8192 then extractAvx512 b.words mem pos b.card.toNat base
  else if hw.avx2 ∧ b.card ≥ 8192 then extractAvx2 b.words mem pos b.card.toNat base
  else extractScalarMem 4294967296 b.words mem pos base

/-- `array_container_from_bitset`: src/containers/convert.c:55-81; the array has room for `cardinality` values, `fresh n` is what `malloc`
returns for `n` values. -/
def arrayFromBitsetMem (hw : Hw) (fresh : Nat → List Nat) (b : Bitset) : Out (List Nat × Nat) :=
  if hw.avx512 then extractAvx512u16 b.words (fresh b.card.toNat) 0 b.card.toNat 0
  else extractScalarMem 65536 b.words (fresh b.card.toNat) 0 0

/-! ### Arrays -/

/-- `for (; i < cardinality; ++i)`: src/array_util.c:476-481, 2153-2158, src/containers/array.c:419-424. -/
def arrayTailMem : List Nat → Nat → List Nat → Nat → Out (List Nat × Nat)
  | [], _, mem, pos => .ok (mem, pos)
  | v :: t, base, mem, pos => do
    let mem ← write16 mem pos ((base + v) % 4294967296)
    arrayTailMem t base mem (pos + 1)

/-- The vector loop, `lanes` values at a time: src/array_util.c:469-475, 2145-2152.  (The values are 16-bit, so `_mm256_cvtepu16_epi32` changes
nothing.)  The result is the number of values done, the output and the position in it. -/
def arrayVecMem (lanes : Nat) (arr : List Nat) (base : Nat) : Nat → Nat → List Nat → Nat → Out (Nat × List Nat × Nat)
  | 0, _, _, _ => .fail
  | fuel + 1, i, mem, pos =>
    if i + lanes ≤ arr.length then do
      let v ← readN arr i lanes
      let mem ← storeu mem pos (addLanes 4294967296 v (set1 4294967296 lanes base))
      arrayVecMem lanes arr base fuel (i + lanes) mem (pos + lanes)
    else .ok (i, mem, pos)

/-- `array_container_to_uint32_array_vector16`: src/array_util.c:463-483, with 8 lanes; `avx512_array_container_to_uint32_array`, 2140-2160, with
16. -/
def arrayVec (lanes : Nat) (arr : List Nat) (base : Nat) (mem : List Nat) (pos : Nat) : Out (List Nat × Nat) := do
  let r ← arrayVecMem lanes arr base (arr.length + 1) 0 mem pos
  arrayTailMem (arr.drop r.1) base r.2.1 r.2.2

/-- `array_container_to_uint32_array`: src/containers/array.c:400-427. -/
def arrayToMem (hw : Hw) (arr : List Nat) (base : Nat) (mem : List Nat) (pos : Nat) : Out (List Nat × Nat) :=
  if hw.avx512 then arrayVec 16 arr base mem pos
  else if hw.avx2 then arrayVec 8 arr base mem pos
  else arrayTailMem arr base mem pos

/-! ### Runs -/

/-- `for (; j <= le; ++j)`: src/containers/run.c:1016-1021, 1036-1041, 1084-1089; `n` values are left. -/
def runTailMem (start : Nat) : Nat → Nat → List Nat → Nat → Out (List Nat × Nat)
  | 0, _, mem, pos => .ok (mem, pos)
  | n + 1, j, mem, pos => do
    let mem ← write16 mem pos ((start + j) % 4294967296)
    runTailMem start n (j + 1) mem (pos + 1)

/-- `for (j = 0; j + 8 <= le; j += 8)`: src/containers/run.c:1030-1035. -/
def runVecMem (start le : Nat) : Nat → Nat → List Nat → List Nat → Nat → Out (Nat × List Nat × Nat)
  | 0, _, _, _, _ => .fail
  | fuel + 1, j, delta, mem, pos =>
    if j + 8 ≤ le then do
      let mem ← storeu mem pos (addLanes 4294967296 (set1 4294967296 8 start) delta)
      runVecMem start le fuel (j + 8) (addLanes 4294967296 (set1 4294967296 8 8) delta) mem (pos + 8)
    else .ok (j, mem, pos)

/-- One run: src/containers/run.c:1012-1042. -/
def runOneAvx2 (base : Nat) (r : Rle) (mem : List Nat) (pos : Nat) : Out (List Nat × Nat) :=
  let start := (base + r.1) % 4294967296
  if r.2 < 8 then runTailMem start (r.2 + 1) 0 mem pos
  else do
    let p ← runVecMem start r.2 (r.2 + 1) 0 [0, 1, 2, 3, 4, 5, 6, 7] mem pos
    runTailMem start (r.2 + 1 - p.1) p.1 p.2.1 p.2.2

/-- One run with or without AVX2: src/containers/run.c:1080-1090. -/
def runOneMem (hw : Hw) (base : Nat) (r : Rle) (mem : List Nat) (pos : Nat) : Out (List Nat × Nat) :=
  if hw.avx2 then runOneAvx2 base r mem pos
  else runTailMem ((base + r.1) % 4294967296) (r.2 + 1) 0 mem pos

/-- `_avx2_run_container_to_uint32_array`: src/containers/run.c:1006-1045; `_scalar_run_container_to_uint32_array`, 1076-1092. -/
def runToMem (hw : Hw) (base : Nat) : List Rle → List Nat → Nat → Out (List Nat × Nat)
  | [], mem, pos => .ok (mem, pos)
  | r :: t, mem, pos => do
    let p ← runOneMem hw base r mem pos
    runToMem hw base t p.1 p.2

/-! ### Bitmaps -/

/-- `container_to_uint32_array`: include/roaring/containers/containers.h:451-470. -/
def containerToMem (hw : Hw) (base : Nat) (c : Container) (mem : List Nat) (pos : Nat) : Out (List Nat × Nat) :=
  match c with
  | .bitset b => bitsetToMem hw b base mem pos
  | .array l => arrayToMem hw l base mem pos
  | .run rs => runToMem hw base rs mem pos

/-- `ra_to_uint32_array`: src/roaring_array.c:426-434 (`roaring_bitmap_to_uint32_array`, src/roaring.c:1396-1398); `ctr` is the position. -/
def rbToMem (hw : Hw) : Bitmap → List Nat → Nat → Out (List Nat × Nat)
  | [], mem, ctr => .ok (mem, ctr)
  | (key, c) :: t, mem, ctr => do
    let p ← containerToMem hw (key <<< 16) c mem ctr
    rbToMem hw t p.1 p.2

/-- The calls of the memory functions: `roaring_malloc` and `roaring_free` (include/roaring/memory.h:31-35, the functions the application
set with `roaring_init_memory_hook`), and `free` of the C library. -/
inductive MemEv where
  | hookMalloc
  | hookFree
  | libcFree
deriving DecidableEq

/-- The variables of `ra_range_uint32_array`: `ctr`, `dtr`, and if `t_ans` is not `NULL` the buffer and `first_skip`; the calls of the
memory functions so far. -/
structure RangeMemSt where
  ctr : Nat
  dtr : Nat
  buf : Option (List Nat × Nat)
  log : List MemEv

/-- `t_ans` and `first_skip` after the first two `if`s, with the log: src/roaring_array.c:464-489.  Allocations succeed. -/
def rangeMemBuf (offset limit tl : Nat) (st : RangeMemSt) : Out (List Nat × Nat × List MemEv) :=
  let p : List Nat × Nat × List MemEv :=
    match st.buf with
    | none => (List.replicate (offset - st.ctr + limit) 0, offset - st.ctr, st.log ++ [.hookMalloc])
    | some b => (b.1, b.2, st.log)
  if st.dtr + tl > p.1.length then do
    let v ← readN p.1 0 st.dtr
    let buf ← storeu (List.replicate (p.1.length + tl) 0) 0 v
    .ok (buf, p.2.1, p.2.2 ++ [.hookMalloc, .hookFree])
  else .ok p

/-- The body of the loop of `ra_range_uint32_array` before its exit test: src/roaring_array.c:449-508. -/
def rangeMemStep (hw : Hw) (offset limit : Nat) (st : RangeMemSt) (key : Nat) (c : Container) : Out RangeMemSt :=
  let tl := (containerCard c).toNat
  if st.ctr + tl - 1 ≥ offset ∧ st.ctr < offset + limit then do
    let p ← rangeMemBuf offset limit tl st
    let q ← containerToMem hw (key <<< 16) c p.1 st.dtr
    .ok { ctr := st.ctr + tl, dtr := st.dtr + tl, buf := some (q.1, p.2.1), log := p.2.2 }
  else .ok { st with ctr := st.ctr + tl }

/-- `first_skip`, zero until the buffer is made: src/roaring_array.c:444,510. -/
def rangeMemSkip (st : RangeMemSt) : Nat := match st.buf with | none => 0 | some b => b.2

/-- The loop of `ra_range_uint32_array`: src/roaring_array.c:449-510; `first_skip` is 0 as long as there is no buffer. -/
def rangeMemLoop (hw : Hw) (offset limit : Nat) : RangeMemSt → Bitmap → Out RangeMemSt
  | st, [] => .ok st
  | st, (key, c) :: t => do
    let st2 ← rangeMemStep hw offset limit st key c
    if u64 ((st2.dtr : Int) - (rangeMemSkip st2 : Nat)) ≥ limit then .ok st2 else rangeMemLoop hw offset limit st2 t

/-- The end of `ra_range_uint32_array`: src/roaring_array.c:511-516. -/
def rangeMemEnd (limit : Nat) (ans : List Nat) (st : RangeMemSt) : Out (List Nat × List MemEv) :=
  match st.buf with
  | none => .ok (ans, st.log)
  | some b => do
    let v ← readN b.1 b.2 limit
    let ans ← storeu ans 0 v
    .ok (ans, st.log ++ [.libcFree])

/-- `ra_range_uint32_array`: src/roaring_array.c:436-517 (`roaring_bitmap_range_uint32_array`, src/roaring.c:1400-1403), with the caller's
array `ans`; the array afterwards and the calls of the memory functions. -/
def rangeMem (hw : Hw) (r : Bitmap) (offset limit : Nat) (ans : List Nat) : Out (List Nat × List MemEv) := do
  let st ← rangeMemLoop hw offset limit { ctr := 0, dtr := 0, buf := none, log := [] } r
  rangeMemEnd limit ans st

end CRoaring
