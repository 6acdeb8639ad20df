import Verif.Model.SimdExtract
import Verif.Model.Run
/-
The operations of bitset containers, population counts and comparisons with the vector code of x64 processors (AVX2, AVX-512) and of ARM
processors (NEON): include/roaring/bitset_util.h, src/containers/bitset.c, src/containers/run.c, src/array_util.c, src/bitset_util.c.
A 256-bit (512-bit, 128-bit) register is the list of its four (eight, two) 64-bit lanes; registers of counters are lists of numbers.
The destination of an operation is a list of words; the sources are functions of it, for they may be the same container.
-/
namespace CRoaring

/-- `_mm256_lddqu_si256(a + i)` (`n = 4`), `_mm512_loadu_si512(a + i)` (`n = 8`), `vld1q_u64` (`n = 2`), `a[i]` (`n = 1`). -/
def loadW (n : Nat) (a : List Word) (i : Nat) : Out (List Word) :=
  if n * i + n ≤ a.length then .ok ((a.drop (n * i)).take n) else .oob

/-- `_mm256_storeu_si256(c + i, v)` and so on. -/
def storeW (n : Nat) (c : List Word) (i : Nat) (v : List Word) : Out (List Word) :=
  if n * i + v.length ≤ c.length then .ok (c.take (n * i) ++ v ++ c.drop (n * i + v.length)) else .oob

/-! ### Counting -/

/-- The bytes of a 64-bit lane, lowest first. -/
def bytesW (w : Word) : List Nat := (List.range 8).map (fun i => (w >>> (8 * i)).toNat % 256)

/-- `_mm256_srli_epi16(v, k)` on the bytes of a lane: each pair of bytes is a 16-bit number. -/
def srliEpi16 (k : Nat) : List Nat → List Nat
  | a :: b :: t => (a + 256 * b) / 2 ^ k % 256 :: (a + 256 * b) / 2 ^ k / 256 :: srliEpi16 k t
  | _ => []

/-- `lookuppos`: include/roaring/bitset_util.h:280-289 (both 128-bit halves are the same). -/
def lookupPos : List Nat := [4 + 0, 4 + 1, 4 + 1, 4 + 2, 4 + 1, 4 + 2, 4 + 2, 4 + 3, 4 + 1, 4 + 2, 4 + 2, 4 + 3, 4 + 2, 4 + 3, 4 + 3, 4 + 4]

/-- `lookupneg`: include/roaring/bitset_util.h:290-299. -/
def lookupNeg : List Nat := [4 - 0, 4 - 1, 4 - 1, 4 - 2, 4 - 1, 4 - 2, 4 - 2, 4 - 3, 4 - 1, 4 - 2, 4 - 2, 4 - 3, 4 - 2, 4 - 3, 4 - 3, 4 - 4]

/-- `_mm256_sad_epu8` on one lane: the sum of the absolute differences of the bytes. -/
def sadEpu8 (a b : List Nat) : Nat := (List.zipWith (fun x y => (x - y) + (y - x)) a b).sum

/-- One lane of `popcount256`: include/roaring/bitset_util.h:300-306.  (The indices of the shuffles are below 16.) -/
def popcountLane (w : Word) : Nat :=
  let v := bytesW w
  let lo := v.map (· &&& 0x0f)
  let hi := (srliEpi16 4 v).map (· &&& 0x0f)
  let popcnt1 := lo.map (fun i => lookupPos.getD i 0)
  let popcnt2 := hi.map (fun i => lookupNeg.getD i 0)
  sadEpu8 popcnt1 popcnt2

/-- `popcount256`: include/roaring/bitset_util.h:279-307. -/
def popcount256 (v : List Word) : List Nat := v.map popcountLane

/-- `_mm256_slli_epi64(v, k)`. -/
def slliEpi64 (k : Nat) (v : List Nat) : List Nat := v.map (fun x => x * 2 ^ k % 2 ^ 64)

/-- `CSA(&h, &l, a, b, c)`: include/roaring/bitset_util.h:314-319; `h` and `l`. -/
def csa (a b c : List Word) : List Word × List Word :=
  let u := List.zipWith (· ^^^ ·) a b
  (List.zipWith (· ||| ·) (List.zipWith (· &&& ·) a b) (List.zipWith (· &&& ·) u c), List.zipWith (· ^^^ ·) u c)

/-- How block number `i` is obtained, and the memory after that: a load, an operation on two loads, or that and a store. -/
abbrev Blk := Nat → List Word → Out (List Word × List Word)

/-- The registers of the loop. -/
structure HsSt where
  total : List Nat
  ones : List Word
  twos : List Word
  fours : List Word
  eights : List Word

/-- Two blocks and `CSA(&twosX, &ones, ones, A1, A2)`: `twosX`, `ones`, the memory. -/
def hsPair (blk : Blk) (i : Nat) (ones : List Word) (mem : List Word) : Out (List Word × List Word × List Word) := do
  let a1 ← blk i mem
  let a2 ← blk (i + 1) a1.2
  let r := csa ones a1.1 a2.1
  .ok (r.1, r.2, a2.2)

/-- Four blocks: two pairs and `CSA(&foursX, &twos, twos, twosA, twosB)`: `foursX`, `ones`, `twos`, the memory. -/
def hsQuad (blk : Blk) (i : Nat) (ones twos : List Word) (mem : List Word) : Out (List Word × List Word × List Word × List Word) := do
  let pa ← hsPair blk i ones mem
  let pb ← hsPair blk (i + 2) pa.2.1 pa.2.2
  let r := csa twos pa.1 pb.1
  .ok (r.1, pb.2.1, r.2, pb.2.2)

/-- Sixteen blocks, one iteration of the loop: include/roaring/bitset_util.h:339-365, 399-448, 480-545. -/
def hsStep (blk : Blk) (i : Nat) (s : HsSt) (mem : List Word) : Out (HsSt × List Word) := do
  let qa ← hsQuad blk i s.ones s.twos mem
  let qb ← hsQuad blk (i + 4) qa.2.1 qa.2.2.1 qa.2.2.2
  let ea := csa s.fours qa.1 qb.1
  let qa ← hsQuad blk (i + 8) qb.2.1 qb.2.2.1 qb.2.2.2
  let qb ← hsQuad blk (i + 12) qa.2.1 qa.2.2.1 qa.2.2.2
  let eb := csa ea.2 qa.1 qb.1
  let sx := csa s.eights ea.1 eb.1
  .ok ({ total := addLanes (2 ^ 64) s.total (popcount256 sx.1), ones := qb.2.1, twos := qb.2.2.1, fours := eb.2, eights := sx.2 }, qb.2.2.2)

/-- `for (; i < limit; i += 16)`, `k` iterations. -/
def hsLoop (blk : Blk) : Nat → Nat → HsSt → List Word → Out (HsSt × List Word)
  | 0, _, s, mem => .ok (s, mem)
  | k + 1, i, s, mem => do
    let r ← hsStep blk i s mem
    hsLoop blk k (i + 16) r.1 r.2

/-- `for (; i < size; i++)`, `k` iterations: include/roaring/bitset_util.h:375-377, 457-461, 554-559. -/
def hsTail (blk : Blk) : Nat → Nat → List Nat → List Word → Out (List Nat × List Word)
  | 0, _, total, mem => .ok (total, mem)
  | k + 1, i, total, mem => do
    let a ← blk i mem
    hsTail blk k (i + 1) (addLanes (2 ^ 64) total (popcount256 a.1)) a.2

/-- `avx2_harley_seal_popcount256`, `avx2_harley_seal_popcount256_##opname`, `avx2_harley_seal_popcount256andstore_##opname`:
include/roaring/bitset_util.h:326-383, 387-466, 467-564.  They have the same text but for the way the blocks are obtained. -/
def harleySeal (blk : Blk) (size : Nat) (mem : List Word) : Out (Nat × List Word) := do
  let z : List Word := List.replicate 4 0#64
  let r ← hsLoop blk (size / 16) 0 { total := List.replicate 4 0, ones := z, twos := z, fours := z, eights := z } mem
  let s := r.1
  let total := slliEpi64 4 s.total
  let total := addLanes (2 ^ 64) total (slliEpi64 3 (popcount256 s.eights))
  let total := addLanes (2 ^ 64) total (slliEpi64 2 (popcount256 s.fours))
  let total := addLanes (2 ^ 64) total (slliEpi64 1 (popcount256 s.twos))
  let total := addLanes (2 ^ 64) total (popcount256 s.ones)
  let t ← hsTail blk (size % 16) (size - size % 16) total r.2
  .ok (t.1.sum % 2 ^ 64, t.2)

/-- A block and `total = _mm512_add_epi64(total, _mm512_popcnt_epi64(a))`. -/
def vpopStep (blk : Blk) (i : Nat) (p : List Nat × List Word) : Out (List Nat × List Word) := do
  let a ← blk i p.2
  .ok (addLanes (2 ^ 64) p.1 (a.1.map popcount), a.2)

/-- `for (; i < limit; i += 4)`, `k` iterations: include/roaring/bitset_util.h:617-622, 640-653, 667-684. -/
def vpopLoop (blk : Blk) : Nat → Nat → List Nat × List Word → Out (List Nat × List Word)
  | 0, _, p => .ok p
  | k + 1, i, p => do
    let p ← vpopStep blk i p
    let p ← vpopStep blk (i + 1) p
    let p ← vpopStep blk (i + 2) p
    let p ← vpopStep blk (i + 3) p
    vpopLoop blk k (i + 4) p

/-- `for (; i < size; i++)`, `k` iterations. -/
def vpopTail (blk : Blk) : Nat → Nat → List Nat × List Word → Out (List Nat × List Word)
  | 0, _, p => .ok p
  | k + 1, i, p => do
    let p ← vpopStep blk i p
    vpopTail blk k (i + 1) p

/-- `avx512_vpopcount`, `avx512_harley_seal_popcount512_##opname`, `avx512_harley_seal_popcount512andstore_##opname`:
include/roaring/bitset_util.h:597-630, 635-660, 661-692. -/
def vpopcount (blk : Blk) (size : Nat) (mem : List Word) : Out (Nat × List Word) := do
  let r ← vpopLoop blk (size / 4) 0 (List.replicate 8 0, mem)
  let t ← vpopTail blk (size % 4) (size - size % 4) r
  .ok (((t.1.take 4).sum % 2 ^ 64 + (t.1.drop 4).sum % 2 ^ 64) % 2 ^ 64, t.2)

/-- `vcntq_u8(vreinterpretq_u8_u64(c))`: the population counts of the sixteen bytes. -/
def vcntqU8 (v : List Word) : List Nat := v.flatMap (fun w => (bytesW w).map (fun b => (List.range 8).countP (fun i => b.testBit i)))

/-- `vpaddlq_u8`, `vpaddlq_u16`, `vpaddlq_u32`: pairwise sums in lanes twice as wide. -/
def vpaddlq : List Nat → List Nat
  | a :: b :: t => (a + b) :: vpaddlq t
  | _ => []

/-- One block and `n = vaddq_u16(n, vpaddlq_u8(vcntq_u8(c)))`. -/
def neonStep (blk : Blk) (i : Nat) (n : List Nat) (mem : List Word) : Out (List Nat × List Word) := do
  let c ← blk i mem
  .ok (addLanes 65536 n (vpaddlq (vcntqU8 c.1)), c.2)

/-- The loop of the NEON code: src/containers/bitset.c:293-302, 794-811, 847-860; `k` iterations, four accumulators. -/
def neonLoop (blk : Blk) : Nat → Nat → List Nat → List Nat → List Nat → List Nat → List Word → Out (List (List Nat) × List Word)
  | 0, _, n0, n1, n2, n3, mem => .ok ([n0, n1, n2, n3], mem)
  | k + 1, i, n0, n1, n2, n3, mem => do
    let r0 ← neonStep blk i n0 mem
    let r1 ← neonStep blk (i + 1) n1 r0.2
    let r2 ← neonStep blk (i + 2) n2 r1.2
    let r3 ← neonStep blk (i + 3) n3 r2.2
    neonLoop blk k (i + 4) r0.1 r1.1 r2.1 r3.1 r3.2

/-- `n = vaddq_u64(n, vpaddlq_u32(vpaddlq_u16(n0)))` and so on: src/containers/bitset.c:303-308, 812-817, 861-866. -/
def neonSum : List Nat → List (List Nat) → List Nat
  | n, [] => n
  | n, a :: t => neonSum (addLanes (2 ^ 64) n (vpaddlq (vpaddlq a))) t

/-- The NEON code: src/containers/bitset.c:288-309, 784-819, 839-867; the sizes are multiples of eight words. -/
def neonCount (blk : Blk) (size : Nat) (mem : List Word) : Out (Nat × List Word) := do
  let z := List.replicate 8 0
  let r ← neonLoop blk (size / 4) 0 z z z z mem
  .ok ((neonSum (List.replicate 2 0) r.1).sum % 2 ^ 64, r.2)

/-- A word and `sum += roaring_hamming(word_1); sum += roaring_hamming(word_2);`: src/containers/bitset.c:256-267, 651-669, 682-695 (here one word at a time). -/
def scalarLoop (blk : Blk) : Nat → Nat → Nat → List Word → Out (Nat × List Word)
  | 0, _, sum, mem => .ok (sum, mem)
  | k + 1, i, sum, mem => do
    let a ← blk i mem
    scalarLoop blk k (i + 1) (sum + (a.1.map popcount).sum) a.2

/-! ### The container operations -/

/-- The kind of machine: `croaring_hardware_support` on x64, NEON, or neither. -/
inductive Machine where
  | avx512
  | avx2
  | neon
  | scalar
deriving DecidableEq

/-- The number of 64-bit words in a register. -/
def Machine.lanes : Machine → Nat
  | .avx512 => 8
  | .avx2 => 4
  | .neon => 2
  | .scalar => 1

/-- The four operations of `CROARING_BITSET_CONTAINER_FN`: src/containers/bitset.c:919-928. -/
inductive BitOp where
  | or
  | and
  | xor
  | andnot
deriving DecidableEq

/-- `opsymbol`. -/
def BitOp.sym : BitOp → Word → Word → Word
  | .or => fun a b => a ||| b
  | .and => fun a b => a &&& b
  | .xor => fun a b => a ^^^ b
  | .andnot => fun a b => a &&& ~~~b

/-- `_mm256_or_si256`, `_mm512_or_si512` and so on; `_mm256_andnot_si256(a, b)` is `~a & b`. -/
def BitOp.avx : BitOp → Word → Word → Word
  | .or => fun a b => a ||| b
  | .and => fun a b => a &&& b
  | .xor => fun a b => a ^^^ b
  | .andnot => fun a b => ~~~a &&& b

/-- `vorrq_u64`, `vandq_u64`, `veorq_u64`, `vbicq_u64(a, b)`, which is `a & ~b`. -/
def BitOp.neon : BitOp → Word → Word → Word
  | .or => fun a b => a ||| b
  | .and => fun a b => a &&& b
  | .xor => fun a b => a ^^^ b
  | .andnot => fun a b => a &&& ~~~b

/-- A block of the result.  The AVX functions pass the operands in the order `words_2`, `words_1`: src/containers/bitset.c:338-415, 499-577; the
NEON and scalar code do not: 794-811, 650-695. -/
def opBlock (m : Machine) (op : BitOp) (d1 d2 : List Word → List Word) (i : Nat) (mem : List Word) : Out (List Word) := do
  let a1 ← loadW m.lanes (d1 mem) i
  let a2 ← loadW m.lanes (d2 mem) i
  match m with
  | .avx512 => .ok (List.zipWith op.avx a2 a1)
  | .avx2 => .ok (List.zipWith op.avx a2 a1)
  | .neon => .ok (List.zipWith op.neon a1 a2)
  | .scalar => .ok (List.zipWith op.sym a1 a2)

/-- A block of the result, stored. -/
def blkStore (m : Machine) (op : BitOp) (d1 d2 : List Word → List Word) : Blk := fun i mem => do
  let a ← opBlock m op d1 d2 i mem
  let mem ← storeW m.lanes mem i a
  .ok (a, mem)

/-- A block of the result, only counted. -/
def blkOp (m : Machine) (op : BitOp) (d1 d2 : List Word → List Word) : Blk := fun i mem => do
  let a ← opBlock m op d1 d2 i mem
  .ok (a, mem)

/-- A block of the data. -/
def blkLoad (n : Nat) (d : List Word) : Blk := fun i mem => do
  let a ← loadW n d i
  .ok (a, mem)

/-- The counting loop of each machine over the 1024 words. -/
def countBlocks (m : Machine) (blk : Blk) (mem : List Word) : Out (Nat × List Word) :=
  match m with
  | .avx512 => vpopcount blk (1024 / 8) mem
  | .avx2 => harleySeal blk (1024 / 4) mem
  | .neon => neonCount blk (1024 / 2) mem
  | .scalar => scalarLoop blk 1024 0 0 mem

/-- The loops without counting (eight blocks per iteration, 1024 words in all): src/containers/bitset.c:348-385, 509-546, 826-835, 676-678. -/
def storeLoop (blk : Blk) : Nat → Nat → List Word → Out (List Word)
  | 0, _, mem => .ok mem
  | k + 1, i, mem => do
    let a ← blk i mem
    storeLoop blk k (i + 1) a.2

/-- `(int32_t)`, `(int)` of a 64-bit number. -/
def i32of (n : Nat) : Int := toI32 (n % 4294967296)

/-- `bitset_container_##opname(src_1, src_2, dst)`: src/containers/bitset.c:709-721, 784-819. -/
def bitsetOpMem (m : Machine) (op : BitOp) (d1 d2 : List Word → List Word) (dst : List Word) : Out Bitset := do
  let r ← countBlocks m (blkStore m op d1 d2) dst
  .ok { card := i32of r.1, words := r.2 }

/-- `bitset_container_##opname##_nocard`: src/containers/bitset.c:722-734, 820-838. -/
def bitsetOpNocardMem (m : Machine) (op : BitOp) (d1 d2 : List Word → List Word) (dst : List Word) : Out Bitset := do
  let mem ← storeLoop (blkStore m op d1 d2) (1024 / m.lanes) 0 dst
  .ok { card := UNKNOWN_CARD, words := mem }

/-- `bitset_container_##opname##_justcard`: src/containers/bitset.c:735-746, 839-867. -/
def bitsetOpJustcardMem (m : Machine) (op : BitOp) (w1 w2 : List Word) : Out Int := do
  let r ← countBlocks m (blkOp m op (fun _ => w1) (fun _ => w2)) []
  .ok (i32of r.1)

/-- `bitset_container_compute_cardinality`: src/containers/bitset.c:256-326. -/
def computeCardMem (m : Machine) (ws : List Word) : Out Int := do
  let r ← countBlocks m (blkLoad m.lanes ws) []
  .ok (i32of r.1)

/-! ### Comparisons -/

/-- `_mm512_cmpeq_epi8_mask(r1, r2) != UINT64_MAX`, `_mm256_movemask_epi8(_mm256_cmpeq_epi8(r1, r2)) != UINT32_MAX`: some byte differs. -/
def someByteDiffers (r1 r2 : List Nat) : Bool := (List.zip r1 r2).any (fun p => p.1 != p.2)

/-- `_avx512_bitset_container_equals`, `_avx2_bitset_container_equals`: src/containers/bitset.c:1091-1126; `k` blocks of `n` words. -/
def equalsLoop (n : Nat) (a b : List Word) : Nat → Nat → Out Bool
  | 0, _ => .ok true
  | k + 1, i => do
    let r1 ← loadW n a i
    let r2 ← loadW n b i
    if someByteDiffers (r1.flatMap bytesW) (r2.flatMap bytesW) then .ok false else equalsLoop n a b k (i + 1)

/-- `bitset_container_equals`: src/containers/bitset.c:1128-1153; elsewhere than on x64 it is `memcmp`. -/
def bitsetEqualsMem (m : Machine) (b1 b2 : Bitset) : Out Bool :=
  if b1.card ≠ UNKNOWN_CARD ∧ b2.card ≠ UNKNOWN_CARD ∧ b1.card ≠ b2.card then .ok false
  else if b1.card ≠ UNKNOWN_CARD ∧ b2.card ≠ UNKNOWN_CARD ∧ b1.card = 65536 then .ok true
  else match m with
    | .avx512 => equalsLoop 8 b1.words b2.words (1024 * 8 / 64) 0
    | .avx2 => equalsLoop 4 b1.words b2.words (1024 * 8 / 32) 0
    | _ => .ok (decide (b1.words = b2.words))

/-- One of the loops of `memequals`: `while (ptr1 < end)`, `n` bytes at a time; `none` if a difference was found, otherwise the offset. -/
def memEqLoop (n : Nat) (a b : List Nat) (end_ : Nat) : Nat → Nat → Out (Option Nat)
  | 0, _ => .fail
  | fuel + 1, p =>
    if p < end_ then do
      let r1 ← readN a p n
      let r2 ← readN b p n
      if someByteDiffers r1 r2 then .ok none else memEqLoop n a b end_ fuel (p + n)
    else .ok (some p)

/-- The loops one after the other: block size and end. -/
def memEqLoops (a b : List Nat) (fuel : Nat) : List (Nat × Nat) → Nat → Out Bool
  | [], _ => .ok true
  | (n, e) :: t, p => do
    match ← memEqLoop n a b e fuel p with
    | none => .ok false
    | some p => memEqLoops a b fuel t p

/-- `memequals(s1, s2, n)`: src/array_util.c:2012-2133, on bytes. -/
def memequals (m : Machine) (a b : List Nat) (n : Nat) : Out Bool :=
  if n = 0 then .ok true
  else match m with
    | .avx512 => memEqLoops a b (n + 1) [(64, (n >>> 6) <<< 6), (32, (n >>> 5) <<< 5), (8, (n >>> 3) <<< 3), (1, n)] 0
    | .avx2 => memEqLoops a b (n + 1) [(32, n / 32 * 32), (8, n / 8 * 8), (1, n)] 0
    | _ => do
      let r1 ← readN a 0 n
      let r2 ← readN b 0 n
      .ok (decide (r1 = r2))

/-- A 16-bit number in memory. -/
def le16 (x : Nat) : List Nat := [x % 256, x / 256 % 256]

/-- The bytes of an array container. -/
def arrayBytes (l : List Nat) : List Nat := l.flatMap le16

/-- The bytes of a run container (`rle16_t`: value, length). -/
def runImage (rs : List Rle) : List Nat := rs.flatMap (fun r => le16 r.1 ++ le16 r.2)

/-- `array_container_equals`: include/roaring/containers/array.h:221-228. -/
def arrayEqualsMem (m : Machine) (a b : List Nat) : Out Bool :=
  if a.length ≠ b.length then .ok false else memequals m (arrayBytes a) (arrayBytes b) (a.length * 2)

/-- `run_container_equals`: include/roaring/containers/run.h:493-500. -/
def runEqualsMem (m : Machine) (a b : List Rle) : Out Bool :=
  if a.length ≠ b.length then .ok false else memequals m (runImage a) (runImage b) (a.length * 4)

/-! ### Runs -/

/-- `for (; k + step <= n_runs; k += step)`: src/containers/run.c:945-949, 984-988; a run is a 32-bit lane, the length its upper half. -/
def runCardVec (step : Nat) (rs : List Rle) : Nat → Nat → List Nat → Out (Nat × List Nat)
  | 0, _, _ => .fail
  | fuel + 1, k, total =>
    if k + step ≤ rs.length then
      let ymm1 := ((rs.drop k).take step).map (fun r => r.1 + 65536 * r.2)
      runCardVec step rs fuel (k + step) (addLanes (2 ^ 32) total (ymm1.map (· / 2 ^ 16)))
    else .ok (k, total)

/-- `if (n_runs > step)`. -/
def runCardBlocks (step : Nat) (rs : List Rle) : Out (Nat × List Nat) :=
  if rs.length > step then runCardVec step rs (rs.length + 1) 0 (List.replicate step 0) else .ok (0, [])

/-- `_avx512_run_container_cardinality` (`step = 16`), `_avx2_run_container_cardinality` (`step = 8`): src/containers/run.c:935-969, 976-1002.
(`sum` is computed in 32-bit unsigned arithmetic and converted.) -/
def runCardSimd (step : Nat) (rs : List Rle) : Out Int := do
  let r ← runCardBlocks step rs
  .ok (i32of (rs.length + r.2.sum + ((rs.drop r.1).map (·.2)).sum))

/-- `run_container_cardinality`: src/containers/run.c:1049-1075. -/
def runCardMem (m : Machine) (rs : List Rle) : Out Int :=
  match m with
  | .avx512 => runCardSimd 16 rs
  | .avx2 => runCardSimd 8 rs
  | _ => .ok (runCard rs : Nat)

/-! ### Setting and clearing bits with assembly -/

/-- The registers of the assembly loops: `card`, the carry flag; and the words. -/
structure AsmSt where
  card : Word
  cf : Bool
  words : List Word

/-- `shrx`, `mov`, `bts` (or `btr`), `mov`: src/bitset_util.c:876-880, 960-964; the carry flag is the old bit.  `bts r64, r64` takes the position
modulo 64. -/
def asmBit (set : Bool) (pos : Nat) (s : AsmSt) : Out AsmSt :=
  let offset := pos >>> 6
  if offset < s.words.length then
    let load := wd s.words offset
    let bit := oneBit (pos % 64)
    .ok { s with cf := load.getLsbD (pos % 64), words := s.words.set offset (if set then load ||| bit else load &&& ~~~bit) }
  else .oob

/-- `sbb $k, %[card]`. -/
def asmSbb (k : Word) (s : AsmSt) : AsmSt := { s with card := s.card - k - (if s.cf then 1#64 else 0#64) }

/-- `_asm_bitset_set_list_withcard`: src/bitset_util.c:864-888. -/
def asmSetListWithcard : List Nat → AsmSt → Out AsmSt
  | [], s => .ok s
  | pos :: t, s => do
    let s ← asmBit true pos s
    asmSetListWithcard t (asmSbb (BitVec.allOnes 64) s)

/-- `_asm_bitset_set_list`: src/bitset_util.c:890-945 (the loop that takes four at a time and the one that takes the others). -/
def asmSetList : List Nat → AsmSt → Out AsmSt
  | p0 :: p1 :: p2 :: p3 :: t, s => do
    let s ← asmBit true p0 s
    let s ← asmBit true p1 s
    let s ← asmBit true p2 s
    let s ← asmBit true p3 s
    asmSetList t s
  | pos :: t, s => do
    let s ← asmBit true pos s
    asmSetList t s
  | [], s => .ok s

/-- `_asm_bitset_clear_list`: src/bitset_util.c:947-974. -/
def asmClearList : List Nat → AsmSt → Out AsmSt
  | [], s => .ok s
  | pos :: t, s => do
    let s ← asmBit false pos s
    asmClearList t (asmSbb 0#64 s)

/-- `(int32_t)bitset_set_list_withcard(words, card, list, length)`: src/bitset_util.c:1036-1043, 1070-1085; src/containers/mixed_union.c:26-29. -/
def setListWithcardMem (m : Machine) (ws : List Word) (card : Int) (list : List Nat) : Out (List Word × Int) :=
  let asm : Out (List Word × Int) := do
    let s ← asmSetListWithcard list { card := BitVec.ofInt 64 card, cf := false, words := ws }
    .ok (s.words, i32of s.card.toNat)
  match m with
  | .avx512 => asm
  | .avx2 => asm
  | _ => .ok (bitsetSetListWithcard ws card list)

/-- `bitset_set_list(words, list, length)`: src/bitset_util.c:1045-1051, 1087-1099. -/
def setListMem (m : Machine) (ws : List Word) (list : List Nat) : Out (List Word) :=
  let asm : Out (List Word) := do
    let s ← asmSetList list { card := 0#64, cf := false, words := ws }
    .ok s.words
  match m with
  | .avx512 => asm
  | .avx2 => asm
  | _ => .ok (bitsetSetList ws list)

/-- `(int32_t)bitset_clear_list(words, card, list, length)`: src/bitset_util.c:1027-1034, 1053-1068; src/containers/mixed_andnot.c:60-63. -/
def clearListMem (m : Machine) (ws : List Word) (card : Int) (list : List Nat) : Out (List Word × Int) :=
  let asm : Out (List Word × Int) := do
    let s ← asmClearList list { card := BitVec.ofInt 64 card, cf := false, words := ws }
    .ok (s.words, i32of s.card.toNat)
  match m with
  | .avx512 => asm
  | .avx2 => asm
  | _ => .ok (bitsetClearList ws card list)

end CRoaring
