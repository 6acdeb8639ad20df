import Verif.Model.BitmapMemQuery
import Verif.Model.BitmapMemRange
import Verif.Model.Serial

/-! Bitmaps in memory: serialization, deserialization and validation.  The caller's bytes are a list of bytes as in `Model/Serial`; the
bitmap is in blocks with a capacity as in `Model/BitmapMem`.  As in `Model/BitmapMemQuery`, a container that is written out is read as a
whole first.  `fail` is the `false` or `NULL` of the C function, with everything that it built freed (see `Model/Alloc` for what is freed). -/

namespace CRoaring

/-! ### Validation -/

/-- The loop over the keys: src/roaring.c:469-476; `n` cells are left. -/
def keysIncreasingBuf (mem : List RCell) : Nat → Nat → Nat → Out Bool
  | 0, _, _ => .ok true
  | n + 1, i, prev => do
    let c ← cellAt mem i
    if c.1 ≤ prev then .ok false else keysIncreasingBuf mem n (i + 1) c.1

/-- The loop over the containers: src/roaring.c:478-487; `n` cells are left. -/
def containersValidBuf (mem : List RCell) : Nat → Nat → Out Bool
  | 0, _ => .ok true
  | n + 1, i => do
    let c ← loadCell mem i
    if !containerValidate c.2 then .ok false else containersValidBuf mem n (i + 1)

/-- `roaring_bitmap_internal_validate`: src/roaring.c:427-490.  Sizes are not negative here, the flags are valid and no pointer is null
unless the block is empty. -/
def rbInternalValidateBuf (r : RaBuf) : Out Bool :=
  if r.size > r.mem.length then .ok false
  else if r.size = 0 then .ok true
  else do
    let c ← cellAt r.mem 0
    let a ← keysIncreasingBuf r.mem (r.size - 1) 1 c.1
    if !a then .ok false else containersValidBuf r.mem r.size 0

/-! ### Writing -/

/-- Whether the type code of a cell is that of a run container. -/
def isRunBuf : CBuf → Bool
  | .run _ => true
  | _ => false

/-- `ra_has_run_container`: src/roaring_array.c:519-526; `n` cells are left. -/
def raHasRunLoopBuf (mem : List RCell) : Nat → Nat → Out Bool
  | 0, _ => .ok false
  | n + 1, k => do
    let c ← cellAt mem k
    if isRunBuf c.2 then .ok true else raHasRunLoopBuf mem n (k + 1)

/-- `ra_portable_header_size`: src/roaring_array.c:528-539. -/
def raPortableHeaderSizeBuf (r : RaBuf) : Out Nat := do
  let hasrun ← raHasRunLoopBuf r.mem r.size 0
  .ok (if hasrun then
    if r.size < NO_OFFSET_THRESHOLD then 4 + (r.size + 7) / 8 + 4 * r.size else 4 + (r.size + 7) / 8 + 8 * r.size
    else 4 + 4 + 8 * r.size)

/-- The loop of `ra_portable_size_in_bytes`: src/roaring_array.c:544-546; `n` cells are left. -/
def raPortableSizeLoopBuf (mem : List RCell) : Nat → Nat → Nat → Out Nat
  | 0, _, count => .ok count
  | n + 1, k, count => do
    let c ← loadCell mem k
    raPortableSizeLoopBuf mem n (k + 1) (count + containerSizeInBytes c.2)

/-- `ra_portable_size_in_bytes`: src/roaring_array.c:541-548. -/
def raPortableSizeBuf (r : RaBuf) : Out Nat := do
  let h ← raPortableHeaderSizeBuf r
  raPortableSizeLoopBuf r.mem r.size 0 h

/-- The bitmap of run containers: src/roaring_array.c:558-567; `n` cells are left.  `bitmapOfRunContainers` has `(size + 7) / 8` bytes. -/
def runFlagsLoopBuf (mem : List RCell) : Nat → Nat → List UInt8 → Out (List UInt8)
  | 0, _, bm => .ok bm
  | n + 1, i, bm => do
    let c ← cellAt mem i
    if isRunBuf c.2 then
      if i / 8 < bm.length then runFlagsLoopBuf mem n (i + 1) (bm.modify (i / 8) (· ||| UInt8.ofNat (1 <<< (i % 8)))) else .oob
    else runFlagsLoopBuf mem n (i + 1) bm

/-- The keys and cardinalities: src/roaring_array.c:587-597; `n` cells are left. -/
def writeKeyCardsBuf (mem : List RCell) : Nat → Nat → WSt → Out WSt
  | 0, _, st => .ok st
  | n + 1, k, st => do
    let c ← loadCell mem k
    let st ← put st (leBytes 2 c.1)
    let st ← put st (leBytes 2 ((containerCard c.2 - 1) % 65536).toNat)
    writeKeyCardsBuf mem n (k + 1) st

/-- The offsets: src/roaring_array.c:600-606; `n` cells are left. -/
def writeOffsetsBuf (mem : List RCell) : Nat → Nat → WSt → Nat → Out WSt
  | 0, _, st, _ => .ok st
  | n + 1, k, st, startOffset => do
    let c ← loadCell mem k
    let st ← put st (leBytes 4 startOffset)
    writeOffsetsBuf mem n (k + 1) st ((startOffset + containerSizeInBytes c.2) % 4294967296)

/-- The containers: src/roaring_array.c:608-610; `n` cells are left. -/
def writeContainersBuf (mem : List RCell) : Nat → Nat → WSt → Out WSt
  | 0, _, st => .ok st
  | n + 1, k, st => do
    let c ← loadCell mem k
    let st ← containerWrite st c.2
    writeContainersBuf mem n (k + 1) st

/-- The cookie, and the bitmap of run containers or the number of containers: src/roaring_array.c:555-586. -/
def serialHeaderBuf (r : RaBuf) (hasrun : Bool) (st : WSt) : Out (WSt × Nat) :=
  if hasrun then do
    let st ← put st (leBytes 4 (COOKIE ||| ((r.size - 1) <<< 16)))
    let s := (r.size + 7) / 8
    let bm ← runFlagsLoopBuf r.mem r.size 0 (List.replicate s 0)
    let st ← put st bm
    .ok (st, if r.size < NO_OFFSET_THRESHOLD then 4 + 4 * r.size + s else 4 + 8 * r.size + s)
  else do
    let st ← put st (leBytes 4 COOKIE_NORUN)
    let st ← put st (leBytes 4 r.size)
    .ok (st, 4 + 4 + 4 * r.size + 4 * r.size)

/-- `ra_portable_serialize`: src/roaring_array.c:551-611, `roaring_bitmap_portable_serialize`: src/roaring.c:1533-1535, writing at offset
`off` of the caller's bytes. -/
def rbPortableSerializeBuf (r : RaBuf) (bytes : List UInt8) (off : Nat) : Out (List UInt8 × Nat) := do
  let hasrun ← raHasRunLoopBuf r.mem r.size 0
  let hdr ← serialHeaderBuf r hasrun (bytes, off)
  let st ← writeKeyCardsBuf r.mem r.size 0 hdr.1
  let st ← if (!hasrun) || decide (r.size ≥ NO_OFFSET_THRESHOLD) then writeOffsetsBuf r.mem r.size 0 st hdr.2 else .ok st
  let st ← writeContainersBuf r.mem r.size 0 st
  .ok (st.1, st.2 - off)

/-- `roaring_bitmap_size_in_bytes`: src/roaring.c:1490-1496. -/
def rbSizeInBytesBuf (r : RaBuf) : Out Nat := do
  let portablesize ← raPortableSizeBuf r
  let card ← rbCardinalityBuf r
  .ok (if portablesize < card * 4 + 4 then portablesize + 1 else card * 4 + 4 + 1)

/-- `roaring_bitmap_serialize`: src/roaring.c:1474-1488.  The values go to an array first, which is then written in one step. -/
def rbSerializeBuf (hw : Hw) (r : RaBuf) (bytes : List UInt8) : Out (List UInt8 × Nat) := do
  let portablesize ← raPortableSizeBuf r
  let cardinality ← rbCardinalityBuf r
  if portablesize < cardinality * 4 + 4 then do
    let bytes ← memWrite bytes 0 (leBytes 1 SER_CONTAINER)
    let p ← rbPortableSerializeBuf r bytes 1
    .ok (p.1, p.2 + 1)
  else do
    let bytes ← memWrite bytes 0 (leBytes 1 SER_ARRAY)
    let bytes ← memWrite bytes 1 (leBytes 4 (cardinality % 4294967296))
    let vals ← rbToArrayBuf hw r (List.replicate cardinality 0)
    let bytes ← memWrite bytes 5 (vals.flatMap (leBytes 4))
    .ok (bytes, 1 + (cardinality * 4 + 4))

/-! ### Reading -/

/-- `array_container_read`: src/containers/array.c:538-547. -/
def arrayReadBuf (fresh : Nat → List Nat) (cardinality : Nat) (a : ArrBuf) (buf : List UInt8) (off : Nat) : Out ArrBuf := do
  let a := arrayReserve fresh a cardinality cardinality
  let l ← readU16s buf off cardinality
  let mem ← storeu a.mem 0 l
  .ok ⟨cardinality, mem⟩

/-- `run_container_read`: src/containers/run.c:724-738. -/
def runReadBuf (fresh : Nat → List Rle) (r : RunBuf) (buf : List UInt8) (off : Nat) : Out RunBuf := do
  let n_runs ← readLE buf off 2
  let r := if n_runs > r.mem.length then runGrow fresh r n_runs false else r
  if n_runs > 0 then do
    let rs ← readRles buf (off + 2) n_runs
    let mem ← cpRuns r.mem 0 rs
    .ok ⟨n_runs, mem⟩
  else .ok ⟨n_runs, r.mem⟩

/-- The loop that stores the keys: src/roaring_array.c:771-775; `n` cells are left. -/
def readKeysBuf (buf : List UInt8) (keyscards : Nat) : Nat → Nat → List RCell → Out (List RCell)
  | 0, _, mem => .ok mem
  | n + 1, k, mem => do
    let v ← readLE buf (keyscards + 2 * (2 * k)) 2
    let c ← cellAt mem k
    let mem ← setCell mem k (v, c.2)
    readKeysBuf buf keyscards n (k + 1) mem

/-- `answer->size++; answer->containers[k] = c; answer->typecodes[k] = …`: src/roaring_array.c:820-823, 852-855, 875-878. -/
def putContBuf (ra : RaBuf) (k : Nat) (c : CBuf) : Out RaBuf := do
  let old ← cellAt ra.mem k
  let mem ← setCell ra.mem k (old.1, c)
  .ok ⟨ra.size + 1, mem⟩

variable (E : RbEnv)

/-- The loop that reads the containers: src/roaring_array.c:789-880; `n` of them are left.  The result is the array and `*readbytes`. -/
def deserLoopBuf (buf : List UInt8) (maxbytes : Nat) (hasrun : Option Nat) (keyscards : Nat) :
    Nat → Nat → Nat → Nat → RaBuf → Out (RaBuf × Nat)
  | 0, _, _, readbytes, ra => .ok (ra, readbytes)
  | n + 1, k, off, readbytes, ra => do
    let tmp ← readLE buf (keyscards + 2 * (2 * k + 1)) 2
    let thiscard := tmp + 1
    let isrun ← isRunAt buf hasrun k
    let isbitmap := !isrun && decide (thiscard > DEFAULT_MAX_SIZE)
    if isbitmap then
      let readbytes := readbytes + NWORDS * 8
      if readbytes > maxbytes then .fail
      else do
        let ws ← readWords buf off NWORDS
        let ra ← putContBuf ra k (.bitset ⟨thiscard, ws⟩)
        deserLoopBuf buf maxbytes hasrun keyscards n (k + 1) (off + NWORDS * 8) readbytes ra
    else if isrun then
      let readbytes := readbytes + 2
      if readbytes > maxbytes then .fail
      else do
        let n_runs ← readLE buf off 2
        let readbytes := readbytes + n_runs * 4
        if readbytes > maxbytes then .fail
        else do
          let r ← runReadBuf E.m.runs (runCreateBuf E.m.runs 0) buf off
          let ra ← putContBuf ra k (.run r)
          deserLoopBuf buf maxbytes hasrun keyscards n (k + 1) (off + runSerializedSize r.n) readbytes ra
    else
      let readbytes := readbytes + thiscard * 2
      if readbytes > maxbytes then .fail
      else do
        let a ← arrayReadBuf E.m.vals thiscard (arrayCreateBuf E.m.vals thiscard) buf off
        let ra ← putContBuf ra k (.array a)
        deserLoopBuf buf maxbytes hasrun keyscards n (k + 1) (off + a.card * 2) readbytes ra

/-- `ra_portable_deserialize`: src/roaring_array.c:707-882, from offset `base`. -/
def raPortableDeserializeBuf (buf : List UInt8) (base maxbytes : Nat) : Out (RaBuf × Nat) := do
  let readbytes := 4
  if readbytes > maxbytes then .fail
  else
    let cookie ← readLE buf base 4
    let off := base + 4
    if cookie % 65536 ≠ COOKIE ∧ cookie ≠ COOKIE_NORUN then .fail
    else
      let h ← deserSize buf cookie off maxbytes readbytes
      let off := h.2.1
      let readbytes := h.2.2
      if h.1 < 0 then .fail
      else if h.1 > 65536 then .fail
      else
        let size := h.1.toNat
        let hasrun := cookie % 65536 = COOKIE
        let s := (size + 7) / 8
        let readbytes := if hasrun then readbytes + s else readbytes
        if hasrun ∧ readbytes > maxbytes then .fail
        else
          let runs := if hasrun then some off else none
          let off := if hasrun then off + s else off
          let keyscards := off
          let readbytes := readbytes + size * 2 * 2
          if readbytes > maxbytes then .fail
          else
            let off := off + size * 2 * 2
            let answer := raInitBuf E size
            let mem ← readKeysBuf buf keyscards size 0 answer.mem
            let o ← deserSkipOffsets hasrun size off maxbytes readbytes
            deserLoopBuf E buf maxbytes runs keyscards size 0 o.1 o.2 ⟨answer.size, mem⟩

/-- `roaring_bitmap_portable_deserialize_safe`: src/roaring.c:1502-1522, from offset `base`. -/
def rbPortableDeserializeSafeBuf (buf : List UInt8) (base maxbytes : Nat) : Out RaBuf := do
  let p ← raPortableDeserializeBuf E buf base maxbytes
  .ok p.1

/-- `roaring_bitmap_portable_deserialize`: src/roaring.c:1524-1526, from offset `base`. -/
def rbPortableDeserializeBuf (buf : List UInt8) (base : Nat) : Out RaBuf := rbPortableDeserializeSafeBuf E buf base SIZE_MAX

/-- The loop that adds the listed values: src/roaring.c:1553-1558, 1594-1599; `n` values are left. -/
def deserAddLoopBuf (buf : List UInt8) : Nat → Nat → RaBuf → BulkCtx → Out RaBuf
  | 0, _, r, _ => .ok r
  | n + 1, off, r, ctx => do
    let elem ← readLE buf off 4
    let p ← rbAddBulkBuf E r ctx elem
    deserAddLoopBuf buf n (off + 4) p.1 p.2

/-- `roaring_bitmap_deserialize`: src/roaring.c:1537-1565. -/
def rbDeserializeBuf (buf : List UInt8) : Out RaBuf := do
  let b ← readLE buf 0 1
  if b = SER_ARRAY then do
    let card ← readLE buf 1 4
    deserAddLoopBuf E buf card 5 (rbCreateBuf E 0) none
  else if b = SER_CONTAINER then rbPortableDeserializeBuf E buf 1
  else .fail

/-- `roaring_bitmap_deserialize_safe`: src/roaring.c:1567-1609. -/
def rbDeserializeSafeBuf (buf : List UInt8) (maxbytes : Nat) : Out RaBuf :=
  if maxbytes < 1 then .fail
  else do
    let b ← readLE buf 0 1
    if b = SER_ARRAY then
      if maxbytes < 1 + 4 then .fail
      else do
        let card ← readLE buf 1 4
        if maxbytes < 1 + 4 + card * 4 then .fail
        else deserAddLoopBuf E buf card 5 (rbCreateBuf E 0) none
    else if b = SER_CONTAINER then rbPortableDeserializeSafeBuf E buf 1 (maxbytes - 1)
    else .fail

end CRoaring
