import Verif.Model.Container
import Verif.Model.SimdExtract
import Verif.Model.RunMem
import Verif.Model.ArrOps

/-! Containers in memory: the type-dispatching functions of include/roaring/containers/containers.h over the buffers of
`Model/ArrayMem`, `Model/ArrOps` and `Model/RunMem`.

An array or run container is a count and an allocation of some length; every access is checked against that length, and
`Out.oob` is an access outside of it.  A bitset container always owns 1024 words, so its words are a list.  Where a
function of the bitset files walks over the values of an array or the runs of a run container from first to last, the
model loads them first (`ArrBuf.load`, `RunBuf.load`, checked against the allocation) and then calls the function of
`Model/Mixed…` or `Model/Bits` on the values: it reads nothing else and writes only to the bitset. -/

namespace CRoaring

/-- A container in memory with its typecode: include/roaring/containers/containers.h:29-63. -/
inductive CBuf where
  | bitset (b : Bitset)
  | array (a : ArrBuf)
  | run (r : RunBuf)

/-- What the processor supports, and what `roaring_malloc` returns for `n` values and `n` runs. -/
structure MemEnv where
  hw : Hw
  vals : Nat → List Nat
  runs : Nat → List Rle

/-- The values of an array container, read one after the other. -/
def ArrBuf.load (a : ArrBuf) : Out (List Nat) := readN a.mem 0 a.card
/-- The runs of a run container, read one after the other. -/
def RunBuf.load (r : RunBuf) : Out (List Rle) := getRuns r.mem 0 r.n

/-- The container at the level of values. -/
def CBuf.val : CBuf → Container
  | .bitset b => .bitset b
  | .array a => .array a.vals
  | .run r => .run r.vals

variable (E : MemEnv)

/-- `array_container_from_bitset`: src/containers/convert.c:55-81; the cardinality is that of the bitset. -/
def fromBitsetBuf (b : Bitset) : Out CBuf := do
  let p ← arrayFromBitsetMem E.hw E.vals b
  .ok (.array ⟨b.card.toNat, p.1⟩)

/-- The ending `if (card <= DEFAULT_MAX_SIZE) array_container_from_bitset(..)`, e.g. src/containers/mixed_andnot.c:65-72. -/
def bitsetOrArrayBuf (b : Bitset) : Out CBuf := if b.card ≤ DEFAULT_MAX_SIZE then fromBitsetBuf E b else .ok (.bitset b)

/-- `convert_run_to_efficient_container`: src/containers/convert.c:154-200 (and `_and_free`, 203-208). -/
def convertEffBuf (r : RunBuf) : Out CBuf := do
  let rs ← r.load
  let card := runCard rs
  let min_size := if bitsetSerializedSize < arraySerializedSize card then bitsetSerializedSize else arraySerializedSize card
  if runSerializedSize r.n ≤ min_size then .ok (.run r)
  else if card ≤ DEFAULT_MAX_SIZE then do
    let a ← arrayFromRunBuf E.vals r
    .ok (.array a)
  else .ok (.bitset ⟨card, setRunRanges zeros rs⟩)

/-- `run_container_create_range`: include/roaring/containers/run.h:523-533. -/
def runCreateRangeBuf (start stop : Nat) : Out CBuf := do
  let r ← (runCreateBuf E.runs 1).push (start % 65536, u16 ((stop : Int) - start - 1))
  .ok (.run r)

/-! ### Intersection -/

/-- `bitset_extract_intersection_setbits_uint16(words1, words2, 1024, mem, 0)`: src/bitset_util.c:756-770. -/
def extractInterMem : List Word → List Word → Nat → List Nat → Nat → Out (List Nat × Nat)
  | w1 :: ws1, w2 :: ws2, base, mem, pos => do
    let p ← extractWordMem 65536 (mem.length + 1) (w1 &&& w2) base mem pos
    extractInterMem ws1 ws2 ((base + 64) % 65536) p.1 p.2
  | _, _, _, mem, pos => .ok (mem, pos)

/-- `bitset_bitset_container_intersection`: src/containers/mixed_intersection.c:306-325 (in place: 327-346). -/
def bitsetBitsetInterBuf (b1 b2 : Bitset) : Out CBuf :=
  let newCardinality := bitsetOpJustcard wAnd b1 b2
  if newCardinality > DEFAULT_MAX_SIZE then .ok (.bitset ⟨newCardinality, (bitsetOpNocard wAnd b1 b2).words⟩)
  else do
    let p ← extractInterMem b1.words b2.words 0 (arrayCreateBuf E.vals newCardinality).mem 0
    .ok (.array ⟨newCardinality, p.1⟩)

/-- `run_bitset_container_intersection`: src/containers/mixed_intersection.c:117-202. -/
def runBitsetIntersectionBuf (r : RunBuf) (b : Bitset) : Out CBuf := do
  let full ← isFullBuf r
  if full then .ok (.bitset b)
  else do
    let rs ← r.load
    if runCard rs ≤ DEFAULT_MAX_SIZE then do
      let a ← runBitsetInterBuf E.vals r b
      .ok (.array a)
    else
      let ws := resetGaps b.words 0 rs
      let c := computeCard ws
      if c > DEFAULT_MAX_SIZE then .ok (.bitset ⟨c, ws⟩) else fromBitsetBuf E ⟨c, ws⟩

/-- `result = array_container_create(); array_run_container_intersection(a, r, result)`:
include/roaring/containers/containers.h:769-781, src/containers/mixed_intersection.c:74-111. -/
def arrayRunInterNew (a : ArrBuf) (r : RunBuf) : Out CBuf := do
  let o ← arrayRunIntersectionBuf E.vals a r (arrayCreateBuf E.vals 0)
  .ok (.array o)

/-- `container_and`: include/roaring/containers/containers.h:709-789. -/
def cAndBuf : CBuf → CBuf → Out CBuf
  | .bitset b1, .bitset b2 => bitsetBitsetInterBuf E b1 b2
  | .array a1, .array a2 => do
    let o ← arrayIntersectionBuf E.hw.avx2 E.vals a1 a2 (arrayCreateBuf E.vals 0)
    .ok (.array o)
  | .run r1, .run r2 => do
    let o ← runIntersectionBuf E.runs r1 r2 (runCreateBuf E.runs 0)
    convertEffBuf E o
  | .bitset b1, .array a2 => do
    let o ← arrayBitsetIntersectionBuf E.vals a2 b1 (arrayCreateBuf E.vals 0)
    .ok (.array o)
  | .array a1, .bitset b2 => do
    let o ← arrayBitsetIntersectionBuf E.vals a1 b2 (arrayCreateBuf E.vals 0)
    .ok (.array o)
  | .bitset b1, .run r2 => runBitsetIntersectionBuf E r2 b1
  | .run r1, .bitset b2 => runBitsetIntersectionBuf E r1 b2
  | .array a1, .run r2 => arrayRunInterNew E a1 r2
  | .run r1, .array a2 => arrayRunInterNew E a2 r1

/-- `container_iand`: include/roaring/containers/containers.h:904-984. -/
def cIandBuf : CBuf → CBuf → Out CBuf
  | .bitset b1, .bitset b2 => bitsetBitsetInterBuf E b1 b2
  | .array a1, .array a2 => do
    let o ← arrayIntersectionInplaceBuf E.hw.avx2 a1 a2
    .ok (.array o)
  | .run r1, .run r2 => do
    let o ← runIntersectionBuf E.runs r1 r2 (runCreateBuf E.runs 0)
    convertEffBuf E o
  | .bitset b1, .array a2 => do
    let o ← arrayBitsetIntersectionBuf E.vals a2 b1 (arrayCreateBuf E.vals 0)
    .ok (.array o)
  | .array a1, .bitset b2 => do
    let o ← arrayBitsetIntersectionInplaceBuf E.vals a1 b2
    .ok (.array o)
  | .bitset b1, .run r2 => runBitsetIntersectionBuf E r2 b1
  | .run r1, .bitset b2 => runBitsetIntersectionBuf E r1 b2
  | .array a1, .run r2 => arrayRunInterNew E a1 r2
  | .run r1, .array a2 => arrayRunInterNew E a2 r1

/-! ### Union -/

/-- The bitset part of `array_array_container_union` and of its in-place variant: src/containers/mixed_union.c:174-183, 220-228. -/
def unionBitset (a1 a2 : ArrBuf) : Out Bitset := do
  let l1 ← a1.load
  let l2 ← a2.load
  let p := bitsetSetListWithcard (bitsetSetList zeros l1) a1.card l2
  .ok ⟨p.2, p.1⟩

/-- `array_array_container_union`: src/containers/mixed_union.c:160-190. -/
def arrayArrayUnionBuf (a1 a2 : ArrBuf) : Out CBuf :=
  if a1.card + a2.card ≤ DEFAULT_MAX_SIZE then do
    let o ← arrayUnionBuf E.hw.avx2 E.vals a1 a2 (arrayCreateBuf E.vals (a1.card + a2.card))
    .ok (.array o)
  else do
    let b ← unionBitset a1 a2
    bitsetOrArrayBuf E b

/-- `array_array_container_inplace_union`: src/containers/mixed_union.c:192-245. -/
def arrayArrayInplaceUnionBuf (a1 a2 : ArrBuf) : Out CBuf :=
  if a1.card + a2.card ≤ DEFAULT_MAX_SIZE then
    if a1.mem.length < a1.card + a2.card then do
      let o ← arrayUnionBuf E.hw.avx2 E.vals a1 a2 (arrayCreateBuf E.vals (2 * (a1.card + a2.card)))
      .ok (.array o)
    else do
      let o ← arrayUnionInplaceBuf a1 a2
      .ok (.array o)
  else do
    let b ← unionBitset a1 a2
    if b.card ≤ DEFAULT_MAX_SIZE then do
      let p ← extractScalarMem 65536 b.words (arrayReserve E.vals a1 b.card.toNat b.card.toNat).mem 0 0
      .ok (.array ⟨b.card.toNat, p.1⟩)
    else .ok (.bitset b)

/-- The bitset part of the lazy variants: src/containers/mixed_union.c:271-279, 361-369. -/
def lazyUnionBitset (a1 a2 : ArrBuf) : Out CBuf := do
  let l1 ← a1.load
  let l2 ← a2.load
  .ok (.bitset ⟨UNKNOWN_CARD, bitsetSetList (bitsetSetList zeros l1) l2⟩)

/-- `array_array_container_lazy_union`: src/containers/mixed_union.c:247-281. -/
def arrayArrayLazyUnionBuf (a1 a2 : ArrBuf) : Out CBuf :=
  if a1.card + a2.card ≤ ARRAY_LAZY_LOWERBOUND then do
    let o ← arrayUnionBuf E.hw.avx2 E.vals a1 a2 (arrayCreateBuf E.vals (a1.card + a2.card))
    .ok (.array o)
  else lazyUnionBitset a1 a2

/-- `array_array_container_lazy_inplace_union`: src/containers/mixed_union.c:283-366. -/
def arrayArrayLazyInplaceUnionBuf (a1 a2 : ArrBuf) : Out CBuf :=
  if a1.card + a2.card ≤ ARRAY_LAZY_LOWERBOUND then
    if a1.mem.length < a1.card + a2.card then do
      let o ← arrayUnionBuf E.hw.avx2 E.vals a1 a2 (arrayCreateBuf E.vals (2 * (a1.card + a2.card)))
      .ok (.array o)
    else do
      let o ← arrayLazyUnionInplaceBuf E.hw.avx2 a1 a2
      .ok (.array o)
  else lazyUnionBitset a1 a2

/-- The cases of a bitset and a run container of `container_or`, `container_lazy_or`, `container_ior` and `container_lazy_ior`:
a full run container is copied, include/roaring/containers/containers.h:1041-1067, 1148-1174; `f` is
`run_bitset_container_union` or its lazy variant. -/
def runBitsetUnionBuf (f : List Rle → Bitset → Bitset) (r : RunBuf) (b : Bitset) : Out CBuf := do
  let full ← isFullBuf r
  if full then do
    let o ← runCopyBuf E.runs r (runCreateBuf E.runs 0)
    .ok (.run o)
  else do
    let rs ← r.load
    .ok (.bitset (f rs b))

/-- The case of a run container and a bitset of `container_ior` and `container_lazy_ior`: a full run container stays as it is,
include/roaring/containers/containers.h:1270-1282, 1386-1397. -/
def runBitsetIunionBuf (f : List Rle → Bitset → Bitset) (r : RunBuf) (b : Bitset) : Out CBuf := do
  let full ← isFullBuf r
  if full then .ok (.run r)
  else do
    let rs ← r.load
    .ok (.bitset (f rs b))

/-- `container_or`: include/roaring/containers/containers.h:991-1086. -/
def cOrBuf : CBuf → CBuf → Out CBuf
  | .bitset b1, .bitset b2 => .ok (.bitset (bitsetOp wOr b1 b2))
  | .array a1, .array a2 => arrayArrayUnionBuf E a1 a2
  | .run r1, .run r2 => do
    let o ← runUnionBuf E.runs r1 r2 (runCreateBuf E.runs 0)
    convertEffBuf E o
  | .bitset b1, .array a2 => do
    let l ← a2.load
    .ok (.bitset (arrayBitsetUnion l b1))
  | .array a1, .bitset b2 => do
    let l ← a1.load
    .ok (.bitset (arrayBitsetUnion l b2))
  | .bitset b1, .run r2 => runBitsetUnionBuf E runBitsetUnion r2 b1
  | .run r1, .bitset b2 => runBitsetUnionBuf E runBitsetUnion r1 b2
  | .array a1, .run r2 => do
    let l ← a1.load
    let o ← arrayRunUnionBuf E.runs l r2 (runCreateBuf E.runs 0)
    convertEffBuf E o
  | .run r1, .array a2 => do
    let l ← a2.load
    let o ← arrayRunUnionBuf E.runs l r1 (runCreateBuf E.runs 0)
    convertEffBuf E o

/-- `container_lazy_or`: include/roaring/containers/containers.h:1096-1198. -/
def cLazyOrBuf : CBuf → CBuf → Out CBuf
  | .bitset b1, .bitset b2 => .ok (.bitset (bitsetOpNocard wOr b1 b2))
  | .array a1, .array a2 => arrayArrayLazyUnionBuf E a1 a2
  | .run r1, .run r2 => do
    let o ← runUnionBuf E.runs r1 r2 (runCreateBuf E.runs 0)
    convertEffBuf E o
  | .bitset b1, .array a2 => do
    let l ← a2.load
    .ok (.bitset (arrayBitsetLazyUnion l b1))
  | .array a1, .bitset b2 => do
    let l ← a1.load
    .ok (.bitset (arrayBitsetLazyUnion l b2))
  | .bitset b1, .run r2 => runBitsetUnionBuf E runBitsetLazyUnion r2 b1
  | .run r1, .bitset b2 => runBitsetUnionBuf E runBitsetLazyUnion r1 b2
  | .array a1, .run r2 => do
    let l ← a1.load
    let o ← arrayRunUnionBuf E.runs l r2 (runCreateBuf E.runs 0)
    .ok (.run o)
  | .run r1, .array a2 => do
    let l ← a2.load
    let o ← arrayRunUnionBuf E.runs l r1 (runCreateBuf E.runs 0)
    .ok (.run o)

/-- `container_ior`: include/roaring/containers/containers.h:1209-1302. -/
def cIorBuf : CBuf → CBuf → Out CBuf
  | .bitset b1, .bitset b2 =>
    let b := bitsetOp wOr b1 b2
    if b.card = 65536 then runCreateRangeBuf E 0 65536 else .ok (.bitset b)
  | .array a1, .array a2 => arrayArrayInplaceUnionBuf E a1 a2
  | .run r1, .run r2 => do
    let o ← runUnionInplaceBuf E.runs r1 r2
    convertEffBuf E o
  | .bitset b1, .array a2 => do
    let l ← a2.load
    .ok (.bitset (arrayBitsetUnion l b1))
  | .array a1, .bitset b2 => do
    let l ← a1.load
    .ok (.bitset (arrayBitsetUnion l b2))
  | .bitset b1, .run r2 => runBitsetUnionBuf E runBitsetUnion r2 b1
  | .run r1, .bitset b2 => runBitsetIunionBuf runBitsetUnion r1 b2
  | .array a1, .run r2 => do
    let l ← a1.load
    let o ← arrayRunUnionBuf E.runs l r2 (runCreateBuf E.runs 0)
    convertEffBuf E o
  | .run r1, .array a2 => do
    let l ← a2.load
    let o ← arrayRunInplaceUnionBuf E.runs l r1
    convertEffBuf E o

/-- `container_lazy_ior`: include/roaring/containers/containers.h:1316-1425. -/
def cLazyIorBuf : CBuf → CBuf → Out CBuf
  | .bitset b1, .bitset b2 =>
    let b := bitsetOp wOr b1 b2
    if b.card = 65536 then runCreateRangeBuf E 0 65536 else .ok (.bitset b)
  | .array a1, .array a2 => arrayArrayLazyInplaceUnionBuf E a1 a2
  | .run r1, .run r2 => do
    let o ← runUnionInplaceBuf E.runs r1 r2
    convertEffBuf E o
  | .bitset b1, .array a2 => do
    let l ← a2.load
    .ok (.bitset (arrayBitsetLazyUnion l b1))
  | .array a1, .bitset b2 => do
    let l ← a1.load
    .ok (.bitset (arrayBitsetLazyUnion l b2))
  | .bitset b1, .run r2 => runBitsetUnionBuf E runBitsetLazyUnion r2 b1
  | .run r1, .bitset b2 => runBitsetIunionBuf runBitsetLazyUnion r1 b2
  | .array a1, .run r2 => do
    let l ← a1.load
    let o ← arrayRunUnionBuf E.runs l r2 (runCreateBuf E.runs 0)
    .ok (.run o)
  | .run r1, .array a2 => do
    let l ← a2.load
    let o ← arrayRunInplaceUnionBuf E.runs l r1
    .ok (.run o)

/-! ### Symmetric difference -/

/-- `array_array_container_xor`: src/containers/mixed_xor.c:196-219. -/
def arrayArrayXorBuf (a1 a2 : ArrBuf) : Out CBuf :=
  if a1.card + a2.card ≤ DEFAULT_MAX_SIZE then do
    let o ← arrayXorBuf E.hw.avx2 E.vals a1 a2 (arrayCreateBuf E.vals (a1.card + a2.card))
    .ok (.array o)
  else do
    let l1 ← a1.load
    let l2 ← a2.load
    let p := bitsetFlipListWithcard (bitsetFromArray l1).words a1.card l2
    bitsetOrArrayBuf E ⟨p.2, p.1⟩

/-- `array_array_container_lazy_xor`: src/containers/mixed_xor.c:221-253. -/
def arrayArrayLazyXorBuf (a1 a2 : ArrBuf) : Out CBuf :=
  if a1.card + a2.card ≤ ARRAY_LAZY_LOWERBOUND then do
    let o ← arrayXorBuf E.hw.avx2 E.vals a1 a2 (arrayCreateBuf E.vals (a1.card + a2.card))
    .ok (.array o)
  else do
    let l1 ← a1.load
    let l2 ← a2.load
    .ok (.bitset ⟨UNKNOWN_CARD, bitsetFlipList (bitsetFromArray l1).words l2⟩)

/-- `array_bitset_container_xor`: src/containers/mixed_xor.c:23-40 (in place: 282-296). -/
def arrayBitsetXorBuf (a : ArrBuf) (b : Bitset) : Out CBuf := do
  let l ← a.load
  let p := bitsetFlipListWithcard b.words b.card l
  bitsetOrArrayBuf E ⟨p.2, p.1⟩

/-- `run_bitset_container_xor`: src/containers/mixed_xor.c:62-82. -/
def runBitsetXorBuf (r : RunBuf) (b : Bitset) : Out CBuf := do
  let rs ← r.load
  let ws := flipRuns b.words rs
  bitsetOrArrayBuf E ⟨computeCard ws, ws⟩

/-- `array_run_container_xor`: src/containers/mixed_xor.c:105-138. -/
def arrayRunXorBuf (a : ArrBuf) (r : RunBuf) : Out CBuf := do
  let rs ← r.load
  if a.card < 32 then do
    let l ← a.load
    let o ← arrayRunLazyXorBuf E.runs l r (runCreateBuf E.runs 0)
    convertEffBuf E o
  else if runCard rs ≤ DEFAULT_MAX_SIZE then do
    let t ← arrayFromRunBuf E.vals r
    arrayArrayXorBuf E t a
  else arrayBitsetXorBuf E a (bitsetFromRun rs)

/-- `run_run_container_xor`: src/containers/mixed_xor.c:179-186. -/
def runRunXorBuf (r1 r2 : RunBuf) : Out CBuf := do
  let o ← runXorBuf E.runs r1 r2 (runCreateBuf E.runs 0)
  convertEffBuf E o

/-- `container_xor`: include/roaring/containers/containers.h:1432-1507, and `container_ixor`, 1648-1718: every `…_ixor` function of
src/containers/mixed_xor.c:282-390 calls the plain one and frees its input, or does the same in the bitset it is given. -/
def cXorBuf : CBuf → CBuf → Out CBuf
  | .bitset b1, .bitset b2 => bitsetOrArrayBuf E (bitsetOp wXor b1 b2)
  | .array a1, .array a2 => arrayArrayXorBuf E a1 a2
  | .run r1, .run r2 => runRunXorBuf E r1 r2
  | .bitset b1, .array a2 => arrayBitsetXorBuf E a2 b1
  | .array a1, .bitset b2 => arrayBitsetXorBuf E a1 b2
  | .bitset b1, .run r2 => runBitsetXorBuf E r2 b1
  | .run r1, .bitset b2 => runBitsetXorBuf E r1 b2
  | .array a1, .run r2 => arrayRunXorBuf E a1 r2
  | .run r1, .array a2 => arrayRunXorBuf E a2 r1

/-- `container_lazy_xor`: include/roaring/containers/containers.h:1553-1637. -/
def cLazyXorBuf : CBuf → CBuf → Out CBuf
  | .bitset b1, .bitset b2 => .ok (.bitset (bitsetOpNocard wXor b1 b2))
  | .array a1, .array a2 => arrayArrayLazyXorBuf E a1 a2
  | .run r1, .run r2 => runRunXorBuf E r1 r2
  | .bitset b1, .array a2 => do
    let l ← a2.load
    .ok (.bitset (arrayBitsetLazyXor l b1))
  | .array a1, .bitset b2 => do
    let l ← a1.load
    .ok (.bitset (arrayBitsetLazyXor l b2))
  | .bitset b1, .run r2 => do
    let rs ← r2.load
    .ok (.bitset (runBitsetLazyXor rs b1))
  | .run r1, .bitset b2 => do
    let rs ← r1.load
    .ok (.bitset (runBitsetLazyXor rs b2))
  | .array a1, .run r2 => do
    let l ← a1.load
    let o ← arrayRunLazyXorBuf E.runs l r2 (runCreateBuf E.runs 0)
    .ok (.run o)
  | .run r1, .array a2 => do
    let l ← a2.load
    let o ← arrayRunLazyXorBuf E.runs l r1 (runCreateBuf E.runs 0)
    .ok (.run o)

/-- `container_lazy_ixor`: include/roaring/containers/containers.h:1732-1759. -/
def cLazyIxorBuf : CBuf → CBuf → Out CBuf
  | .bitset b1, .bitset b2 => .ok (.bitset (bitsetOpNocard wXor b1 b2))
  | .bitset b1, c2 => cXorBuf E (.bitset (if b1.card = UNKNOWN_CARD then ⟨computeCard b1.words, b1.words⟩ else b1)) c2
  | c1, c2 => cXorBuf E c1 c2

/-- `container_repair_after_lazy`: include/roaring/containers/containers.h:332-359. -/
def cRepairBuf : CBuf → Out CBuf
  | .bitset b => bitsetOrArrayBuf E ⟨computeCard b.words, b.words⟩
  | .array a => .ok (.array a)
  | .run r => convertEffBuf E r

/-! ### Difference -/

/-- `bitset_array_container_andnot`: src/containers/mixed_andnot.c:54-74 (in place: 83-96). -/
def bitsetArrayAndnotBuf (b : Bitset) (a : ArrBuf) : Out CBuf := do
  let l ← a.load
  let p := bitsetClearList b.words b.card l
  bitsetOrArrayBuf E ⟨p.2, p.1⟩

/-- `run_bitset_container_andnot`: src/containers/mixed_andnot.c:104-150 (in place: 159-166). -/
def runBitsetDiffBuf (r : RunBuf) (b : Bitset) : Out CBuf := do
  let rs ← r.load
  if runCard rs ≤ DEFAULT_MAX_SIZE then do
    let o ← runBitsetAndnotBuf E.vals r b
    .ok (.array o)
  else
    let ws := flipRunsResetGaps b.words 0 rs
    bitsetOrArrayBuf E ⟨computeCard ws, ws⟩

/-- `bitset_run_container_andnot`: src/containers/mixed_andnot.c:175-196 (in place: 205-223). -/
def bitsetRunAndnotBuf (b : Bitset) (r : RunBuf) : Out CBuf := do
  let rs ← r.load
  let ws := resetRuns b.words rs
  bitsetOrArrayBuf E ⟨computeCard ws, ws⟩

/-- `run_array_container_andnot`: src/containers/mixed_andnot.c:277-361 (in place: 370-377). -/
def runArrayDiffBuf (r : RunBuf) (a : ArrBuf) : Out CBuf := do
  let rs ← r.load
  if runCard rs ≤ 32 then
    if a.card = 0 then do
      let o ← runCloneBuf E.runs r
      .ok (.run o)
    else do
      let l ← a.load
      let o ← runArrayAndnotBuf E.runs r l
      convertEffBuf E o
  else if runCard rs ≤ DEFAULT_MAX_SIZE then do
    let o ← runArraySubtractBuf E.vals r a
    .ok (.array o)
  else bitsetArrayAndnotBuf E (bitsetFromRun rs) a

/-- `run_run_container_andnot`: src/containers/mixed_andnot.c:437-444 (in place: 453-459). -/
def runRunAndnotBuf (r1 r2 : RunBuf) : Out CBuf := do
  let o ← runAndnotBuf E.runs r1 r2 (runCreateBuf E.runs 0)
  convertEffBuf E o

/-- `if (run_container_is_full(c2)) { result = array_container_create(); … }`: include/roaring/containers/containers.h:1786-1791,
1811-1816, 1832-1837. -/
def unlessFull (r : RunBuf) (k : Out CBuf) : Out CBuf := do
  let full ← isFullBuf r
  if full then .ok (.array (arrayCreateBuf E.vals 0)) else k

/-- `container_andnot`: include/roaring/containers/containers.h:1766-1859. -/
def cAndnotBuf : CBuf → CBuf → Out CBuf
  | .bitset b1, .bitset b2 => bitsetOrArrayBuf E (bitsetOp wAndnot b1 b2)
  | .array a1, .array a2 => do
    let o ← arrayAndnotBuf E.hw.avx2 E.vals a1 a2 (arrayCreateBuf E.vals 0)
    .ok (.array o)
  | .run r1, .run r2 => unlessFull E r2 (runRunAndnotBuf E r1 r2)
  | .bitset b1, .array a2 => bitsetArrayAndnotBuf E b1 a2
  | .array a1, .bitset b2 => do
    let o ← arrayBitsetAndnotBuf E.vals a1 b2 (arrayCreateBuf E.vals 0)
    .ok (.array o)
  | .bitset b1, .run r2 => unlessFull E r2 (bitsetRunAndnotBuf E b1 r2)
  | .run r1, .bitset b2 => runBitsetDiffBuf E r1 b2
  | .array a1, .run r2 => unlessFull E r2 (do
    let o ← arrayRunAndnotBuf E.vals a1 r2 (arrayCreateBuf E.vals 0)
    .ok (.array o))
  | .run r1, .array a2 => runArrayDiffBuf E r1 a2

/-- `container_iandnot`: include/roaring/containers/containers.h:1871-1938. -/
def cIandnotBuf : CBuf → CBuf → Out CBuf
  | .bitset b1, .bitset b2 => bitsetOrArrayBuf E (bitsetOp wAndnot b1 b2)
  | .array a1, .array a2 => do
    let o ← arrayAndnotInplaceBuf a1 a2
    .ok (.array o)
  | .run r1, .run r2 => runRunAndnotBuf E r1 r2
  | .bitset b1, .array a2 => bitsetArrayAndnotBuf E b1 a2
  | .array a1, .bitset b2 => do
    let o ← arrayBitsetIandnotBuf E.vals a1 b2
    .ok (.array o)
  | .bitset b1, .run r2 => bitsetRunAndnotBuf E b1 r2
  | .run r1, .bitset b2 => runBitsetDiffBuf E r1 b2
  | .array a1, .run r2 => do
    let o ← arrayRunIandnotBuf E.vals a1 r2
    .ok (.array o)
  | .run r1, .array a2 => runArrayDiffBuf E r1 a2

/-! ### Complement -/

/-- `array_container_negation`: src/containers/mixed_negation.c:32-43. -/
def arrayNotBuf (a : ArrBuf) : Out CBuf := do
  let l ← a.load
  .ok (.bitset (arrayNegation l))

/-- `array_container_negation_range`: src/containers/mixed_negation.c:97-154; for an empty range the array is cloned (in place, 160-169:
the same function, and the input is freed). -/
def arrayNotRangeBuf (a : ArrBuf) (range_start range_end : Nat) : Out CBuf :=
  if range_start ≥ range_end then do
    let o ← arrayCloneBuf E.vals a
    .ok (.array o)
  else do
    let l ← a.load
    let si := binarySearch (rdL l) l.length (range_start % 65536)
    let start_index := if si < 0 then -si - 1 else si
    let li := binarySearch (rdL l) l.length ((range_end - 1) % 65536)
    let last_index := if li < 0 then -li - 2 else li
    let current_values_in_range := last_index - start_index + 1
    let span_to_be_flipped : Int := (range_end : Int) - range_start
    let new_values_in_range := span_to_be_flipped - current_values_in_range
    let cardinality_change := new_values_in_range - current_values_in_range
    let new_cardinality := (l.length : Int) + cardinality_change
    if new_cardinality > DEFAULT_MAX_SIZE then
      .ok (.bitset ⟨new_cardinality, bitsetFlipRange (bitsetFromArray l).words range_start range_end⟩)
    else do
      let o ← arrayNegationBuf E.vals a range_start range_end start_index.toNat last_index new_cardinality.toNat
      .ok (.array o)

/-- `bitset_container_negation_range`: src/containers/mixed_negation.c:182-203 (in place: 212-227). -/
def bitsetNotRangeBuf (b : Bitset) (range_start range_end : Nat) : Out CBuf :=
  let ws := bitsetFlipRange b.words range_start range_end
  bitsetOrArrayBuf E ⟨computeCard ws, ws⟩

/-- `run_container_negation_range`: src/containers/mixed_negation.c:235-265. -/
def runNotRangeBuf (r : RunBuf) (range_start range_end : Nat) : Out CBuf :=
  if range_end ≤ range_start then do
    let o ← runCloneBuf E.runs r
    .ok (.run o)
  else do
    let o ← runNegationBuf E.runs r range_start range_end
    convertEffBuf E o

/-- `run_container_negation_range_inplace`: src/containers/mixed_negation.c:274-346. -/
def runInotRangeBuf (r : RunBuf) (range_start range_end : Nat) : Out CBuf :=
  if range_end ≤ range_start then .ok (.run r)
  else do
    let o ← runNegationInplaceBuf E.runs r range_start range_end
    convertEffBuf E o

/-- `container_not`: include/roaring/containers/containers.h:1992-2020. -/
def cNotBuf : CBuf → Out CBuf
  | .bitset b => bitsetNotRangeBuf E b 0 65536
  | .array a => arrayNotBuf a
  | .run r => runNotRangeBuf E r 0 65536

/-- `container_inot`: include/roaring/containers/containers.h:2058-2088. -/
def cInotBuf : CBuf → Out CBuf
  | .bitset b => bitsetNotRangeBuf E b 0 65536
  | .array a => arrayNotBuf a
  | .run r => runInotRangeBuf E r 0 65536

/-- `container_not_range`: include/roaring/containers/containers.h:2022-2056. -/
def cNotRangeBuf (range_start range_end : Nat) : CBuf → Out CBuf
  | .bitset b => bitsetNotRangeBuf E b range_start range_end
  | .array a => arrayNotRangeBuf E a range_start range_end
  | .run r => runNotRangeBuf E r range_start range_end

/-- `container_inot_range`: include/roaring/containers/containers.h:2090-2121. -/
def cInotRangeBuf (range_start range_end : Nat) : CBuf → Out CBuf
  | .bitset b => bitsetNotRangeBuf E b range_start range_end
  | .array a => arrayNotRangeBuf E a range_start range_end
  | .run r => runInotRangeBuf E r range_start range_end

/-! ### Single values and ranges -/

/-- `container_add`: include/roaring/containers/containers.h:477-508. -/
def cAddBuf (val : Nat) : CBuf → Out CBuf
  | .bitset b => .ok (.bitset (bitsetSet b val))
  | .array a => do
    let p ← arrayTryAddBuf E.vals a val DEFAULT_MAX_SIZE
    if p.2 ≠ -1 then .ok (.array p.1)
    else do
      let l ← a.load
      .ok (.bitset (bitsetAdd (bitsetFromArray l) val).1)
  | .run r => do
    let p ← runAddBuf E.runs r val
    .ok (.run p.1)

/-- `container_remove`: include/roaring/containers/containers.h:518-548. -/
def cRemoveBuf (val : Nat) : CBuf → Out CBuf
  | .bitset b =>
    let p := bitsetRemove b val
    if p.2 ∧ p.1.card ≤ DEFAULT_MAX_SIZE then fromBitsetBuf E p.1 else .ok (.bitset p.1)
  | .array a => do
    let p ← arrayRemoveBuf a val
    .ok (.array p.1)
  | .run r => do
    let p ← runRemoveBuf E.runs r val
    .ok (.run p.1)

/-- `container_from_run_range`: src/containers/convert.c:323-348. -/
def fromRunRangeBuf (r : RunBuf) (min max : Nat) : Out CBuf := do
  let rs ← r.load
  let ws := setRuns zeros rs
  let union_cardinality : Int :=
    ((rs.map fun (r : Rle) => r.2 + 1).sum : Nat) + ((max : Int) - min + 1)
      - bitsetLenrangeCardinality ws min (max - min)
  bitsetOrArrayBuf E ⟨union_cardinality, bitsetSetLenrange ws min (max - min)⟩

/-- `container_add_range`: include/roaring/containers/containers.h:2263-2339. -/
def cAddRangeBuf (min max : Nat) : CBuf → Out CBuf
  | .bitset b =>
    let union_cardinality : Int := b.card + (max - min + 1 : Nat) - bitsetLenrangeCardinality b.words min (max - min)
    if union_cardinality = 65536 then runCreateRangeBuf E 0 65536
    else .ok (.bitset ⟨union_cardinality, bitsetSetLenrange b.words min (max - min)⟩)
  | .array a => do
    let l ← a.load
    let nvals_greater := (countGreater (rdL l) l.length (max % 65536)).toNat
    let nvals_less := (countLess (rdL l) (l.length - nvals_greater) (min % 65536)).toNat
    let union_cardinality := nvals_less + (max - min + 1) + nvals_greater
    if union_cardinality = 65536 then runCreateRangeBuf E 0 65536
    else if union_cardinality ≤ DEFAULT_MAX_SIZE then do
      let o ← arrayAddRangeNvalsBuf E.vals a min max nvals_less nvals_greater
      .ok (.array o)
    else .ok (.bitset ⟨union_cardinality, bitsetSetLenrange (bitsetFromArray l).words min (max - min)⟩)
  | .run r => do
    let rs ← r.load
    let nruns_greater := (rle16CountGreater rs rs.length (max % 65536)).toNat
    let nruns_less := (rle16CountLess rs (rs.length - nruns_greater) (min % 65536)).toNat
    if (nruns_less + 1 + nruns_greater) * 4 ≤ NWORDS * 8 then do
      let o ← runAddRangeBuf E.runs r min max nruns_less nruns_greater
      .ok (.run o)
    else fromRunRangeBuf E r min max

/-- `container_remove_range`: include/roaring/containers/containers.h:2352-2413; `none` is `NULL`. -/
def cRemoveRangeBuf (min max : Nat) : CBuf → Out (Option CBuf)
  | .bitset b =>
    let result_cardinality : Int := b.card - bitsetLenrangeCardinality b.words min (max - min)
    if result_cardinality = 0 then .ok none
    else do
      let o ← bitsetOrArrayBuf E ⟨result_cardinality, bitsetResetRange b.words min (max + 1)⟩
      .ok (some o)
  | .array a => do
    let l ← a.load
    let nvals_greater := (countGreater (rdL l) l.length (max % 65536)).toNat
    let nvals_less := (countLess (rdL l) (l.length - nvals_greater) (min % 65536)).toNat
    let result_cardinality := nvals_less + nvals_greater
    if result_cardinality = 0 then .ok none
    else do
      let o ← arrayRemoveRangeBuf a nvals_less (l.length - result_cardinality)
      .ok (some (.array o))
  | .run r =>
    if r.n = 0 then .ok none
    else do
      let rs ← r.load
      if min ≤ runMin rs ∧ max ≥ runMax rs then .ok none
      else do
        let o ← runRemoveRangeBuf E.runs r min max
        let c ← convertEffBuf E o
        .ok (some c)

/-- `container_range_of_ones`: include/roaring/containers/containers.h:288-300. -/
def cRangeOfOnesBuf (range_start range_end : Nat) : Out CBuf :=
  if range_end - range_start + 1 ≤ 2 then do
    let o ← arrayCreateRangeBuf E.vals range_start range_end
    .ok (.array o)
  else runCreateRangeBuf E range_start range_end

/-- `container_from_range`: include/roaring/containers/containers.h:304-327; `none` is `NULL`. -/
def cFromRangeBuf (min max step : Nat) : Out (Option CBuf) :=
  if step = 0 then .ok none
  else if step = 1 then do
    let o ← cRangeOfOnesBuf E min max
    .ok (some o)
  else if (max - min + step - 1) / step ≤ DEFAULT_MAX_SIZE then do
    let o ← arrayAddFromRangeBuf E.vals (arrayCreateBuf E.vals ((max - min + step - 1) / step)) min max step
    .ok (some (.array o))
  else .ok (some (.bitset (bitsetAddFromRange bitsetCreate min max step)))

/-! ### Copies and conversions -/

/-- `container_clone`: src/containers/containers.c:206-225. -/
def cCloneBuf : CBuf → Out CBuf
  | .bitset b => .ok (.bitset b)
  | .array a => do
    let o ← arrayCloneBuf E.vals a
    .ok (.array o)
  | .run r => do
    let o ← runCloneBuf E.runs r
    .ok (.run o)

/-- `container_shrink_to_fit`: include/roaring/containers/containers.h:267-281: the container and the bytes saved.  (The C functions
return the numbers of values and runs; `roaring_bitmap_shrink_to_fit` adds them up.) -/
def cShrinkBuf : CBuf → CBuf × Nat
  | .bitset b => (.bitset b, 0)
  | .array a => (.array (arrayShrinkBuf a).1, (arrayShrinkBuf a).2)
  | .run r => (.run (runShrinkBuf r).1, (runShrinkBuf r).2)

/-- `convert_run_optimize`: src/containers/convert.c:217-321. -/
def cRunOptimizeBuf : CBuf → Out CBuf
  | .run r => convertEffBuf E r
  | .array a => do
    let l ← a.load
    let n_runs := arrayNumberOfRuns (-2) l
    if runSerializedSize n_runs ≥ arraySerializedSize a.card then .ok (.array a)
    else do
      let o ← fromArrayBufLoop (-2) (-1) (runCreateBuf E.runs n_runs) l
      .ok (.run o)
  | .bitset b =>
    let n_runs := bitsetNumberOfRuns b
    if bitsetSerializedSize ≤ runSerializedSize n_runs then .ok (.bitset b)
    else do
      let o ← runFromBitsetBuf E.runs b
      .ok (.run o)

end CRoaring
