import Verif.Model.BitmapMemRange
import Verif.Model.Lazy
import Verif.Model.Serial

/-! Bitmaps in memory: the lazy operations, their repair, and the operations on many bitmaps: src/roaring.c:742-777,2233-2580,
src/roaring_priority_queue.c.  As in `Model/BitmapMem`. -/

namespace CRoaring

variable (E : RbEnv)

/-! ### Lazy unions -/

/-- `get_container_type(c, type) == BITSET_CONTAINER_TYPE`. -/
def CBuf.isBitset : CBuf → Bool
  | .bitset _ => true
  | _ => false

/-- `container_to_bitset`: include/roaring/containers/containers.h:154-173. -/
def cToBitsetBuf (c : CBuf) : Out CBuf := do
  let v ← c.load
  .ok (.bitset (containerToBitset v))

/-- The case of equal keys in `roaring_bitmap_lazy_or`: src/roaring.c:2261-2274. -/
def cChooseLazyOrBuf (conv : Bool) (c1 c2 : CBuf) : Out CBuf :=
  if conv && !c1.isBitset && !c2.isBitset then do
    let newc1 ← cToBitsetBuf c1
    cLazyIorBuf E.m newc1 c2
  else cLazyOrBuf E.m c1 c2

/-- The loop of `roaring_bitmap_lazy_or` and the appended rest: src/roaring.c:2253-2320. -/
def rbLazyOrLoopBuf (conv : Bool) (x1 x2 : RaBuf) : Nat → Nat → Nat → Nat → Nat → RaBuf → Out RaBuf
  | 0, _, _, _, _, _ => .fail
  | fuel + 1, pos1, pos2, s1, s2, ans =>
    if s1 = s2 then do
      let c1 ← raContBuf x1 pos1
      let c2 ← raContBuf x2 pos2
      let c ← cChooseLazyOrBuf E conv c1 c2
      let ans ← raAppendBuf E ans s1 c
      if pos1 + 1 = x1.size then raAppendCopyRangeBuf E ans x2 (pos2 + 1) x2.size
      else if pos2 + 1 = x2.size then raAppendCopyRangeBuf E ans x1 (pos1 + 1) x1.size
      else do
        let s1 ← raKeyBuf x1 (pos1 + 1)
        let s2 ← raKeyBuf x2 (pos2 + 1)
        rbLazyOrLoopBuf conv x1 x2 fuel (pos1 + 1) (pos2 + 1) s1 s2 ans
    else if s1 < s2 then do
      let c1 ← raContBuf x1 pos1
      let c1 ← cCloneBuf E.m c1
      let ans ← raAppendBuf E ans s1 c1
      if pos1 + 1 = x1.size then raAppendCopyRangeBuf E ans x2 pos2 x2.size
      else do
        let s1 ← raKeyBuf x1 (pos1 + 1)
        rbLazyOrLoopBuf conv x1 x2 fuel (pos1 + 1) pos2 s1 s2 ans
    else do
      let c2 ← raContBuf x2 pos2
      let c2 ← cCloneBuf E.m c2
      let ans ← raAppendBuf E ans s2 c2
      if pos2 + 1 = x2.size then raAppendCopyRangeBuf E ans x1 pos1 x1.size
      else do
        let s2 ← raKeyBuf x2 (pos2 + 1)
        rbLazyOrLoopBuf conv x1 x2 fuel pos1 (pos2 + 1) s1 s2 ans

/-- `roaring_bitmap_lazy_or`: src/roaring.c:2233-2322. -/
def rbLazyOrBuf (conv : Bool) (x1 x2 : RaBuf) : Out RaBuf :=
  if x1.size = 0 then rbCopyBuf E x2
  else if x2.size = 0 then rbCopyBuf E x1
  else do
    let s1 ← raKeyBuf x1 0
    let s2 ← raKeyBuf x2 0
    rbLazyOrLoopBuf E conv x1 x2 (x1.size + x2.size) 0 0 s1 s2 (rbCreateBuf E (x1.size + x2.size))

/-- The first operand of `container_lazy_ior` in `roaring_bitmap_lazy_or_inplace`: src/roaring.c:2345-2357. -/
def cLazyOperandBuf (conv : Bool) (c1 : CBuf) : Out CBuf := if conv = false || c1.isBitset then .ok c1 else cToBitsetBuf c1

/-- The case of equal keys in `roaring_bitmap_lazy_or_inplace`: src/roaring.c:2342-2372. -/
def rbLazyIorCellBuf (conv : Bool) (x1 x2 : RaBuf) (pos1 pos2 : Nat) : Out RaBuf := do
  let c1 ← raContBuf x1 pos1
  let full ← cIsFullBuf c1
  if !full then do
    let c1 ← cLazyOperandBuf conv c1
    let c2 ← raContBuf x2 pos2
    let c ← cLazyIorBuf E.m c1 c2
    raSetBuf x1 pos1 c
  else .ok x1

/-- The loop of `roaring_bitmap_lazy_or_inplace` and the appended rest: src/roaring.c:2340-2405. -/
def rbLazyOrInplaceLoopBuf (conv : Bool) (x2 : RaBuf) : Nat → Nat → Nat → Nat → Nat → Nat → RaBuf → Out RaBuf
  | 0, _, _, _, _, _, _ => .fail
  | fuel + 1, length1, pos1, pos2, s1, s2, x1 =>
    if s1 = s2 then do
      let x1 ← rbLazyIorCellBuf E conv x1 x2 pos1 pos2
      if pos1 + 1 = length1 then raAppendCopyRangeBuf E x1 x2 (pos2 + 1) x2.size
      else if pos2 + 1 = x2.size then .ok x1
      else do
        let s1 ← raKeyBuf x1 (pos1 + 1)
        let s2 ← raKeyBuf x2 (pos2 + 1)
        rbLazyOrInplaceLoopBuf conv x2 fuel length1 (pos1 + 1) (pos2 + 1) s1 s2 x1
    else if s1 < s2 then
      if pos1 + 1 = length1 then raAppendCopyRangeBuf E x1 x2 pos2 x2.size
      else do
        let s1 ← raKeyBuf x1 (pos1 + 1)
        rbLazyOrInplaceLoopBuf conv x2 fuel length1 (pos1 + 1) pos2 s1 s2 x1
    else do
      let c2 ← raContBuf x2 pos2
      let c2 ← cCloneBuf E.m c2
      let x1 ← raInsertBuf E x1 pos1 s2 c2
      if pos2 + 1 = x2.size then
        if pos1 + 1 = length1 + 1 then raAppendCopyRangeBuf E x1 x2 (pos2 + 1) x2.size else .ok x1
      else do
        let s2 ← raKeyBuf x2 (pos2 + 1)
        rbLazyOrInplaceLoopBuf conv x2 fuel (length1 + 1) (pos1 + 1) (pos2 + 1) s1 s2 x1

/-- `roaring_bitmap_lazy_or_inplace`: src/roaring.c:2324-2406, for two distinct bitmaps. -/
def rbLazyOrInplaceBuf (conv : Bool) (x1 x2 : RaBuf) : Out RaBuf :=
  if x2.size = 0 then .ok x1
  else if x1.size = 0 then rbOverwriteBuf E x1 x2
  else do
    let s1 ← raKeyBuf x1 0
    let s2 ← raKeyBuf x2 0
    rbLazyOrInplaceLoopBuf E conv x2 (x1.size + x2.size) x1.size 0 0 s1 s2 x1

/-! ### Lazy symmetric differences -/

/-- The loop of `roaring_bitmap_lazy_xor` and the appended rest: src/roaring.c:2427-2484. -/
def rbLazyXorLoopBuf (x1 x2 : RaBuf) : Nat → Nat → Nat → Nat → Nat → RaBuf → Out RaBuf
  | 0, _, _, _, _, _ => .fail
  | fuel + 1, pos1, pos2, s1, s2, ans =>
    if s1 = s2 then do
      let c1 ← raContBuf x1 pos1
      let c2 ← raContBuf x2 pos2
      let c ← cLazyXorBuf E.m c1 c2
      let ans ← raAppendNonzeroBuf E ans s1 c
      if pos1 + 1 = x1.size then raAppendCopyRangeBuf E ans x2 (pos2 + 1) x2.size
      else if pos2 + 1 = x2.size then raAppendCopyRangeBuf E ans x1 (pos1 + 1) x1.size
      else do
        let s1 ← raKeyBuf x1 (pos1 + 1)
        let s2 ← raKeyBuf x2 (pos2 + 1)
        rbLazyXorLoopBuf x1 x2 fuel (pos1 + 1) (pos2 + 1) s1 s2 ans
    else if s1 < s2 then do
      let c1 ← raContBuf x1 pos1
      let c1 ← cCloneBuf E.m c1
      let ans ← raAppendBuf E ans s1 c1
      if pos1 + 1 = x1.size then raAppendCopyRangeBuf E ans x2 pos2 x2.size
      else do
        let s1 ← raKeyBuf x1 (pos1 + 1)
        rbLazyXorLoopBuf x1 x2 fuel (pos1 + 1) pos2 s1 s2 ans
    else do
      let c2 ← raContBuf x2 pos2
      let c2 ← cCloneBuf E.m c2
      let ans ← raAppendBuf E ans s2 c2
      if pos2 + 1 = x2.size then raAppendCopyRangeBuf E ans x1 pos1 x1.size
      else do
        let s2 ← raKeyBuf x2 (pos2 + 1)
        rbLazyXorLoopBuf x1 x2 fuel pos1 (pos2 + 1) s1 s2 ans

/-- `roaring_bitmap_lazy_xor`: src/roaring.c:2408-2485. -/
def rbLazyXorBuf (x1 x2 : RaBuf) : Out RaBuf :=
  if x1.size = 0 then rbCopyBuf E x2
  else if x2.size = 0 then rbCopyBuf E x1
  else do
    let s1 ← raKeyBuf x1 0
    let s2 ← raKeyBuf x2 0
    rbLazyXorLoopBuf E x1 x2 (x1.size + x2.size) 0 0 s1 s2 (rbCreateBuf E (x1.size + x2.size))

/-- The loop of `roaring_bitmap_lazy_xor_inplace` and the appended rest: src/roaring.c:2504-2566.  What follows the computation of the
container is the same as in `roaring_bitmap_xor_inplace`. -/
def rbLazyXorInplaceLoopBuf (x2 : RaBuf) : Nat → Nat → Nat → Nat → Nat → Nat → RaBuf → Out RaBuf
  | 0, _, _, _, _, _, _ => .fail
  | fuel + 1, length1, pos1, pos2, s1, s2, x1 =>
    if s1 = s2 then do
      let c1 ← raContBuf x1 pos1
      let c2 ← raContBuf x2 pos2
      let c ← cLazyIxorBuf E.m c1 c2
      let p ← rbXorCellBuf x1 length1 pos1 c
      if p.2.1 = p.2.2 then raAppendCopyRangeBuf E p.1 x2 (pos2 + 1) x2.size
      else if pos2 + 1 = x2.size then .ok p.1
      else do
        let s1 ← raKeyBuf p.1 p.2.1
        let s2 ← raKeyBuf x2 (pos2 + 1)
        rbLazyXorInplaceLoopBuf x2 fuel p.2.2 p.2.1 (pos2 + 1) s1 s2 p.1
    else if s1 < s2 then
      if pos1 + 1 = length1 then raAppendCopyRangeBuf E x1 x2 pos2 x2.size
      else do
        let s1 ← raKeyBuf x1 (pos1 + 1)
        rbLazyXorInplaceLoopBuf x2 fuel length1 (pos1 + 1) pos2 s1 s2 x1
    else do
      let c2 ← raContBuf x2 pos2
      let c2 ← cCloneBuf E.m c2
      let x1 ← raInsertBuf E x1 pos1 s2 c2
      if pos2 + 1 = x2.size then
        if pos1 + 1 = length1 + 1 then raAppendCopyRangeBuf E x1 x2 (pos2 + 1) x2.size else .ok x1
      else do
        let s2 ← raKeyBuf x2 (pos2 + 1)
        rbLazyXorInplaceLoopBuf x2 fuel (length1 + 1) (pos1 + 1) (pos2 + 1) s1 s2 x1

/-- `roaring_bitmap_lazy_xor_inplace`: src/roaring.c:2487-2567 (`x1` and `x2` are distinct objects). -/
def rbLazyXorInplaceBuf (x1 x2 : RaBuf) : Out RaBuf :=
  if x2.size = 0 then .ok x1
  else if x1.size = 0 then rbOverwriteBuf E x1 x2
  else do
    let s1 ← raKeyBuf x1 0
    let s2 ← raKeyBuf x2 0
    rbLazyXorInplaceLoopBuf E x2 (x1.size + x2.size) x1.size 0 0 s1 s2 x1

/-! ### Repair and many bitmaps -/

/-- The loop of `roaring_bitmap_repair_after_lazy`: src/roaring.c:2572-2579; `n` cells are left. -/
def rbRepairLoopBuf : Nat → Nat → RaBuf → Out RaBuf
  | 0, _, r => .ok r
  | n + 1, i, r => do
    let c ← cellAt r.mem i
    let c2 ← cRepairBuf E.m c.2
    let r ← raSetBuf r i c2
    rbRepairLoopBuf n (i + 1) r

/-- `roaring_bitmap_repair_after_lazy`: src/roaring.c:2569-2580. -/
def rbRepairBuf (r : RaBuf) : Out RaBuf := rbRepairLoopBuf E r.size 0 r

/-- The loop of `roaring_bitmap_or_many`: src/roaring.c:752-754. -/
def rbOrManyLoopBuf : RaBuf → List RaBuf → Out RaBuf
  | answer, [] => .ok answer
  | answer, x :: xs => do
    let answer ← rbLazyOrInplaceBuf E true answer x
    rbOrManyLoopBuf answer xs

/-- `roaring_bitmap_or_many`: src/roaring.c:742-757. -/
def rbOrManyBuf : List RaBuf → Out RaBuf
  | [] => .ok (rbCreateBuf E 0)
  | [x0] => rbCopyBuf E x0
  | x0 :: x1 :: xs => do
    let answer ← rbLazyOrBuf E true x0 x1
    let answer ← rbOrManyLoopBuf E answer xs
    rbRepairBuf E answer

/-- The loop of `roaring_bitmap_xor_many`: src/roaring.c:772-774. -/
def rbXorManyLoopBuf : RaBuf → List RaBuf → Out RaBuf
  | answer, [] => .ok answer
  | answer, x :: xs => do
    let answer ← rbLazyXorInplaceBuf E answer x
    rbXorManyLoopBuf answer xs

/-- `roaring_bitmap_xor_many`: src/roaring.c:762-777. -/
def rbXorManyBuf : List RaBuf → Out RaBuf
  | [] => .ok (rbCreateBuf E 0)
  | [x0] => rbCopyBuf E x0
  | x0 :: x1 :: xs => do
    let answer ← rbLazyXorBuf E x0 x1
    let answer ← rbXorManyLoopBuf E answer xs
    rbRepairBuf E answer

/-! ### The union of many bitmaps with a queue -/

/-- The loop of `ra_append_move_range`: src/roaring_array.c:287-294; `n` cells are left. -/
def raMoveLoop (sa : RaBuf) : Nat → Nat → RaBuf → Out RaBuf
  | 0, _, b => .ok b
  | n + 1, i, b => do
    let c ← cellAt sa.mem i
    let mem ← setCell b.mem b.size c
    raMoveLoop sa n (i + 1) ⟨b.size + 1, mem⟩

/-- `ra_append_move_range`: src/roaring_array.c:283-295. -/
def raAppendMoveRangeBuf (b sa : RaBuf) (start_index end_index : Nat) : Out RaBuf := do
  let b ← extendArrayBuf E b (end_index - start_index)
  raMoveLoop sa (end_index - start_index) start_index b

/-- The case of equal keys in `lazy_or_from_lazy_inputs`: src/roaring_priority_queue.c:135-150. -/
def cLazyLazyBuf (c1 c2 : CBuf) : Out CBuf :=
  if c2.isBitset && !c1.isBitset then cLazyIorBuf E.m c2 c1 else cLazyIorBuf E.m c1 c2

/-- The loop of `lazy_or_from_lazy_inputs` and the appended rest: src/roaring_priority_queue.c:117-185. -/
def rbLazyLazyLoopBuf (x1 x2 : RaBuf) : Nat → Nat → Nat → Nat → Nat → RaBuf → Out RaBuf
  | 0, _, _, _, _, _ => .fail
  | fuel + 1, pos1, pos2, s1, s2, ans =>
    if s1 = s2 then do
      let c1 ← raContBuf x1 pos1
      let c2 ← raContBuf x2 pos2
      let c ← cLazyLazyBuf E c1 c2
      let ans ← raAppendBuf E ans s1 c
      if pos1 + 1 = x1.size then raAppendMoveRangeBuf E ans x2 (pos2 + 1) x2.size
      else if pos2 + 1 = x2.size then raAppendMoveRangeBuf E ans x1 (pos1 + 1) x1.size
      else do
        let s1 ← raKeyBuf x1 (pos1 + 1)
        let s2 ← raKeyBuf x2 (pos2 + 1)
        rbLazyLazyLoopBuf x1 x2 fuel (pos1 + 1) (pos2 + 1) s1 s2 ans
    else if s1 < s2 then do
      let c1 ← raContBuf x1 pos1
      let ans ← raAppendBuf E ans s1 c1
      if pos1 + 1 = x1.size then raAppendMoveRangeBuf E ans x2 pos2 x2.size
      else do
        let s1 ← raKeyBuf x1 (pos1 + 1)
        rbLazyLazyLoopBuf x1 x2 fuel (pos1 + 1) pos2 s1 s2 ans
    else do
      let c2 ← raContBuf x2 pos2
      let ans ← raAppendBuf E ans s2 c2
      if pos2 + 1 = x2.size then raAppendMoveRangeBuf E ans x1 pos1 x1.size
      else do
        let s2 ← raKeyBuf x2 (pos2 + 1)
        rbLazyLazyLoopBuf x1 x2 fuel pos1 (pos2 + 1) s1 s2 ans

/-- `lazy_or_from_lazy_inputs`: src/roaring_priority_queue.c:99-192. -/
def lazyOrFromLazyInputsBuf (x1 x2 : RaBuf) : Out RaBuf :=
  if x1.size = 0 then .ok x2
  else if x2.size = 0 then .ok x1
  else do
    let s1 ← raKeyBuf x1 0
    let s2 ← raKeyBuf x2 0
    rbLazyLazyLoopBuf E x1 x2 (x1.size + x2.size) 0 0 s1 s2 (rbCreateBuf E (Nat.min x1.size x2.size))

/-- The bitmap in the first `n` cells from `i` on. -/
def raLoadLoop (mem : List RCell) : Nat → Nat → Out Bitmap
  | 0, _ => .ok []
  | n + 1, i => do
    let c ← cellAt mem i
    let v ← c.2.load
    let t ← raLoadLoop mem n (i + 1)
    .ok ((c.1, v) :: t)

/-- `roaring_bitmap_portable_size_in_bytes`: src/roaring.c:1498-1500, of what is in memory. -/
def rbPortableSizeBuf (r : RaBuf) : Out Nat := do
  let v ← raLoadLoop r.mem r.size 0
  .ok (rbPortableSize v)

instance : Inhabited RaBuf := ⟨⟨0, []⟩⟩

/-- The sizes in `create_pq`: src/roaring_priority_queue.c:74-79. -/
def pqElemsBuf : List RaBuf → Out (PQOf RaBuf)
  | [] => .ok []
  | r :: t => do
    let n ← rbPortableSizeBuf r
    let l ← pqElemsBuf t
    .ok (⟨n, false, r⟩ :: l)

/-- `create_pq`: src/roaring_priority_queue.c:69-85. -/
def createPqBuf (arr : List RaBuf) : Out (PQOf RaBuf) := do
  let l ← pqElemsBuf arr
  .ok (pqHeapify l (arr.length / 2))

/-- The new bitmap made from two polled elements: src/roaring_priority_queue.c:214-239. -/
def pqUnionBuf (x1 x2 : PQElemOf RaBuf) : Out RaBuf :=
  if x1.isTemp && x2.isTemp then lazyOrFromLazyInputsBuf E x1.bitmap x2.bitmap
  else if x2.isTemp then rbLazyOrInplaceBuf E false x2.bitmap x1.bitmap
  else if x1.isTemp then rbLazyOrInplaceBuf E false x1.bitmap x2.bitmap
  else rbLazyOrBuf E false x1.bitmap x2.bitmap

/-- The loop of `roaring_bitmap_or_many_heap`: src/roaring_priority_queue.c:209-240.  Each round makes the queue one shorter; `n` counts
the rounds.  The queue itself, an array of elements with its size, is that of `Model/Lazy`. -/
def pqLoopBuf : Nat → PQOf RaBuf → Out (PQOf RaBuf)
  | 0, pq => .ok pq
  | n + 1, pq =>
    if pq.length > 1 then do
      let newb ← pqUnionBuf E (pqPoll pq).1 (pqPoll (pqPoll pq).2).1
      let bsize ← rbPortableSizeBuf newb
      pqLoopBuf n (pqAdd (pqPoll (pqPoll pq).2).2 ⟨bsize, true, newb⟩)
    else .ok pq

/-- `roaring_bitmap_or_many_heap`: src/roaring_priority_queue.c:200-247. -/
def rbOrManyHeapBuf : List RaBuf → Out RaBuf
  | [] => .ok (rbCreateBuf E 0)
  | [x0] => rbCopyBuf E x0
  | x0 :: x1 :: xs => do
    let pq ← createPqBuf (x0 :: x1 :: xs)
    let pq ← pqLoopBuf E pq.length pq
    rbRepairBuf E (pqPoll pq).1.bitmap

end CRoaring
