import Verif.Model.Bulk
import Verif.Model.Query

/-! Model of the portable and the native serialization: `src/roaring_array.c:519-882` and
`src/roaring.c:1474-1609`.

Memory is explicit.  A buffer is a list of bytes; a read or a write that is not entirely inside the buffer gives the
outcome `oob`, which stands for the undefined behaviour of the C program.  The pointer `buf` of the C code is an
offset into the buffer, and is kept apart from the byte counters (`*readbytes`, `bytestotal`) that the C code compares
with `maxbytes`.  The host is little-endian (the C code is marked endian-sensitive).  Allocation always succeeds. -/

namespace CRoaring

/-- The outcome of a function that accesses a buffer: `oob` is an access outside of it, `fail` the failure the C
function reports (`false` or `NULL`). -/
inductive Out (α : Type) where
  | oob
  | fail
  | ok (a : α)
deriving DecidableEq, Repr

/-- Sequencing: an access out of bounds or a failure ends the computation. -/
def Out.bind {α β : Type} (x : Out α) (f : α → Out β) : Out β :=
  match x with
  | .oob => .oob
  | .fail => .fail
  | .ok a => f a

instance : Monad Out where
  pure := .ok
  bind := Out.bind

/-- `memcpy(dst, buf + off, n)`. -/
def memRead (buf : List UInt8) (off n : Nat) : Out (List UInt8) :=
  if off + n ≤ buf.length then .ok ((buf.drop off).take n) else .oob

/-- `memcpy(buf + off, bs, |bs|)`. -/
def memWrite (mem : List UInt8) (off : Nat) (bs : List UInt8) : Out (List UInt8) :=
  if off + bs.length ≤ mem.length then .ok (mem.take off ++ bs ++ mem.drop (off + bs.length)) else .oob

/-- The little-endian representation of an integer on `k` bytes. -/
def leBytes : Nat → Nat → List UInt8
  | 0, _ => []
  | k + 1, n => UInt8.ofNat n :: leBytes k (n / 256)

/-- The integer represented by bytes, little-endian. -/
def leVal : List UInt8 → Nat
  | [] => 0
  | b :: bs => b.toNat + 256 * leVal bs

/-- Reads an unsigned integer of `k` bytes. -/
def readLE (buf : List UInt8) (off k : Nat) : Out Nat := do
  let bs ← memRead buf off k
  pure (leVal bs)

/-- Conversion of a 32-bit pattern to `int32_t`. -/
def toI32 (n : Nat) : Int := if n < 2147483648 then n else (n : Int) - 4294967296

/-- `SERIAL_COOKIE_NO_RUNCONTAINER`: `include/roaring/roaring_array.h:22`. -/
def COOKIE_NORUN : Nat := 12346
/-- `SERIAL_COOKIE`: `include/roaring/roaring_array.h:23`. -/
def COOKIE : Nat := 12347
/-- `NO_OFFSET_THRESHOLD`: `include/roaring/roaring_array.h:25`. -/
def NO_OFFSET_THRESHOLD : Nat := 4

/-! ### Writing -/

/-- `ra_has_run_container`: `src/roaring_array.c:519-526`. -/
def raHasRun (r : Bitmap) : Bool := r.any (fun p => isRun p.2)

/-- `container_size_in_bytes`: `include/roaring/containers/containers.h:390-405`, with
`bitset_container_size_in_bytes` (`bitset.h:458-462`), `array_container_size_in_bytes` (`array.h:212-215`) and
`run_container_size_in_bytes` (`run.h:484-487`). -/
def containerSizeInBytes : Container → Nat
  | .bitset _ => NWORDS * 8
  | .array l => l.length * 2
  | .run rs => runSerializedSize rs.length

/-- `ra_portable_header_size`: `src/roaring_array.c:528-539`. -/
def raPortableHeaderSize (r : Bitmap) : Nat :=
  if raHasRun r then
    if r.length < NO_OFFSET_THRESHOLD then 4 + (r.length + 7) / 8 + 4 * r.length
    else 4 + (r.length + 7) / 8 + 8 * r.length
  else 4 + 4 + 8 * r.length

/-- `ra_portable_size_in_bytes`, `roaring_bitmap_portable_size_in_bytes`: `src/roaring_array.c:541-548`,
`src/roaring.c:1498-1500`. -/
def rbPortableSize (r : Bitmap) : Nat :=
  r.foldl (fun count p => count + containerSizeInBytes p.2) (raPortableHeaderSize r)

/-- A buffer being written and the offset of the pointer `buf`. -/
abbrev WSt := List UInt8 × Nat

/-- `memcpy(buf, bs, |bs|); buf += |bs|`. -/
def put (st : WSt) (bs : List UInt8) : Out WSt := do
  let m ← memWrite st.1 st.2 bs
  pure (m, st.2 + bs.length)

/-- The bytes of a bitset container's words. -/
def wordBytes (ws : List Word) : List UInt8 := ws.flatMap (fun w => leBytes 8 w.toNat)

/-- `container_write`, followed by the caller's `buf += ...`: `include/roaring/containers/containers.h:369-384`,
with `bitset_container_write` (`src/containers/bitset.c:1049-1053`), `array_container_write`
(`src/containers/array.c:510-513`) and `run_container_write` (`src/containers/run.c:716-722`). -/
def containerWrite (st : WSt) (c : Container) : Out WSt := do
  let m ← match c with
    | .bitset b => memWrite st.1 st.2 (wordBytes b.words)
    | .array l => memWrite st.1 st.2 (l.flatMap (leBytes 2))
    | .run rs => do
      let m ← memWrite st.1 st.2 (leBytes 2 (rs.length % 65536))
      memWrite m (st.2 + 2) (rs.flatMap fun p => leBytes 2 p.1 ++ leBytes 2 p.2)
  pure (m, st.2 + containerSizeInBytes c)

/-- The bitmap of run containers: `src/roaring_array.c:558-567`. -/
def runFlags (r : Bitmap) : List UInt8 :=
  (List.range r.length).foldl
    (fun bm i => if isRun (contAt r i) then bm.modify (i / 8) (· ||| UInt8.ofNat (1 <<< (i % 8))) else bm)
    (List.replicate ((r.length + 7) / 8) 0)

/-- The keys and cardinalities: `src/roaring_array.c:587-597`. -/
def writeKeyCards (st : WSt) : Bitmap → Out WSt
  | [] => .ok st
  | (k, c) :: t => do
    let st ← put st (leBytes 2 k)
    let st ← put st (leBytes 2 ((containerCard c - 1) % 65536).toNat)
    writeKeyCards st t

/-- The offsets: `src/roaring_array.c:600-606`; `startOffset` is a `uint32_t`. -/
def writeOffsets (st : WSt) (startOffset : Nat) : Bitmap → Out WSt
  | [] => .ok st
  | (_, c) :: t => do
    let st ← put st (leBytes 4 startOffset)
    writeOffsets st ((startOffset + containerSizeInBytes c) % 4294967296) t

/-- The containers: `src/roaring_array.c:608-610`. -/
def writeContainers (st : WSt) : Bitmap → Out WSt
  | [] => .ok st
  | (_, c) :: t => do
    let st ← containerWrite st c
    writeContainers st t

/-- `ra_portable_serialize`, `roaring_bitmap_portable_serialize`: `src/roaring_array.c:551-611`,
`src/roaring.c:1533-1535`, writing at offset `off` of the memory `mem`.  The result is the memory afterwards and the
returned number of bytes. -/
def rbPortableSerialize (r : Bitmap) (mem : List UInt8) (off : Nat) : Out (List UInt8 × Nat) := do
  let hasrun := raHasRun r
  let size := r.length
  let hdr : WSt × Nat ←
    if hasrun then do
      let st ← put (mem, off) (leBytes 4 (COOKIE ||| ((size - 1) <<< 16)))
      let s := (size + 7) / 8
      let st ← put st (runFlags r)
      pure (st, if size < NO_OFFSET_THRESHOLD then 4 + 4 * size + s else 4 + 8 * size + s)
    else do
      let st ← put (mem, off) (leBytes 4 COOKIE_NORUN)
      let st ← put st (leBytes 4 size)
      pure (st, 4 + 4 + 4 * size + 4 * size)
  let st ← writeKeyCards hdr.1 r
  let st ← if (!hasrun) || decide (size ≥ NO_OFFSET_THRESHOLD) then writeOffsets st hdr.2 r else pure st
  let st ← writeContainers st r
  pure (st.1, st.2 - off)

/-! ### The size of a serialized bitmap -/

/-- Bit `k` of the bitmap of run containers that starts at offset `off`: `src/roaring_array.c:670`, `:796`. -/
def readRunFlag (buf : List UInt8) (off k : Nat) : Out Bool := do
  let b ← readLE buf (off + k / 8) 1
  pure (b &&& (1 <<< (k % 8)) != 0)

/-- Whether container `k` is a run container: `src/roaring_array.c:668-674`, `794-800`; `hasrun` is the offset of the
bitmap of run containers, if there is one. -/
def isRunAt (buf : List UInt8) (hasrun : Option Nat) (k : Nat) : Out Bool :=
  match hasrun with
  | some o => readRunFlag buf o k
  | none => .ok false

/-- The loop of `ra_portable_deserialize_size`: `src/roaring_array.c:663-697`, with `n` containers left. -/
def deserSizeLoop (buf : List UInt8) (maxbytes : Nat) (hasrun : Option Nat) (keyscards : Nat) :
    Nat → Nat → Nat → Nat → Out Nat
  | 0, _, _, bytestotal => .ok bytestotal
  | n + 1, k, off, bytestotal => do
    let tmp ← readLE buf (keyscards + 2 * (2 * k + 1)) 2
    let thiscard := tmp + 1
    let isrun ← isRunAt buf hasrun k
    let isbitmap := !isrun && decide (thiscard > DEFAULT_MAX_SIZE)
    if isbitmap then
      let bytestotal := bytestotal + NWORDS * 8
      if bytestotal > maxbytes then .fail
      else deserSizeLoop buf maxbytes hasrun keyscards n (k + 1) (off + NWORDS * 8) bytestotal
    else if isrun then
      let bytestotal := bytestotal + 2
      if bytestotal > maxbytes then .fail
      else
        let n_runs ← readLE buf off 2
        let bytestotal := bytestotal + n_runs * 4
        if bytestotal > maxbytes then .fail
        else deserSizeLoop buf maxbytes hasrun keyscards n (k + 1) (off + 2 + n_runs * 4) bytestotal
    else
      let bytestotal := bytestotal + thiscard * 2
      if bytestotal > maxbytes then .fail
      else deserSizeLoop buf maxbytes hasrun keyscards n (k + 1) (off + thiscard * 2) bytestotal

/-- The number of containers: `src/roaring_array.c:630-639`, with the offset and the counter after reading it. -/
def deserSizeSize (buf : List UInt8) (cookie off maxbytes bytestotal : Nat) : Out (Int × Nat × Nat) :=
  if cookie % 65536 = COOKIE then .ok ((cookie >>> 16 : Nat) + 1, off, bytestotal)
  else if bytestotal + 4 > maxbytes then .fail
  else do
    let size ← readLE buf off 4
    pure (toI32 size, off + 4, bytestotal + 4)

/-- `ra_portable_deserialize_size`: `src/roaring_array.c:620-699`, from offset `base`.  `fail` is the result 0.  The
counter `bytestotal` is a `size_t`; it stays below 2^35 and is modelled without wrap-around. -/
def raPortableDeserializeSize (buf : List UInt8) (base maxbytes : Nat) : Out Nat := do
  let bytestotal := 4
  if bytestotal > maxbytes then .fail
  else
    let cookie ← readLE buf base 4
    let off := base + 4
    if cookie % 65536 ≠ COOKIE ∧ cookie ≠ COOKIE_NORUN then .fail
    else
      let h ← deserSizeSize buf cookie off maxbytes bytestotal
      let off := h.2.1
      let bytestotal := h.2.2
      if h.1 > 65536 ∨ h.1 < 0 then .fail
      else
        let size := h.1.toNat
        let hasrun := cookie % 65536 = COOKIE
        let s := (size + 7) / 8
        let bytestotal := if hasrun then bytestotal + s else bytestotal
        if hasrun ∧ bytestotal > maxbytes then .fail
        else
          let runs := if hasrun then some off else none
          let off := if hasrun then off + s else off
          let bytestotal := bytestotal + size * 2 * 2
          if bytestotal > maxbytes then .fail
          else
            let keyscards := off
            let off := off + size * 2 * 2
            if ¬ hasrun ∨ size ≥ NO_OFFSET_THRESHOLD then
              let bytestotal := bytestotal + size * 4
              if bytestotal > maxbytes then .fail
              else deserSizeLoop buf maxbytes runs keyscards size 0 (off + size * 4) bytestotal
            else deserSizeLoop buf maxbytes runs keyscards size 0 off bytestotal

/-- `roaring_bitmap_portable_deserialize_size`: `src/roaring.c:1528-1531`; 0 stands for failure. -/
def rbPortableDeserializeSize (buf : List UInt8) (maxbytes : Nat) : Out Nat :=
  match raPortableDeserializeSize buf 0 maxbytes with
  | .fail => .ok 0
  | x => x

/-! ### Reading -/

/-- `n` consecutive 16-bit values. -/
def readU16s (buf : List UInt8) (off : Nat) : Nat → Out (List Nat)
  | 0 => .ok []
  | n + 1 => do
    let v ← readLE buf off 2
    let vs ← readU16s buf (off + 2) n
    pure (v :: vs)

/-- `n` consecutive 64-bit words. -/
def readWords (buf : List UInt8) (off : Nat) : Nat → Out (List Word)
  | 0 => .ok []
  | n + 1 => do
    let v ← readLE buf off 8
    let vs ← readWords buf (off + 8) n
    pure (BitVec.ofNat 64 v :: vs)

/-- `n` consecutive runs (`rle16_t`: value, then length). -/
def readRles (buf : List UInt8) (off : Nat) : Nat → Out (List Rle)
  | 0 => .ok []
  | n + 1 => do
    let v ← readLE buf off 2
    let l ← readLE buf (off + 2) 2
    let vs ← readRles buf (off + 4) n
    pure ((v, l) :: vs)

/-- `bitset_container_read`: `src/containers/bitset.c:1056-1061`. -/
def bitsetRead (cardinality : Nat) (buf : List UInt8) (off : Nat) : Out Container := do
  let ws ← readWords buf off NWORDS
  pure (.bitset ⟨cardinality, ws⟩)

/-- `array_container_read`: `src/containers/array.c:538-549`. -/
def arrayRead (cardinality : Nat) (buf : List UInt8) (off : Nat) : Out Container := do
  let l ← readU16s buf off cardinality
  pure (.array l)

/-- `run_container_read`: `src/containers/run.c:724-737`. -/
def runRead (buf : List UInt8) (off : Nat) : Out Container := do
  let n_runs ← readLE buf off 2
  let rs ← readRles buf (off + 2) n_runs
  pure (.run rs)

/-- The loop that reads the keys: `src/roaring_array.c:771-775`. -/
def readKeys (buf : List UInt8) (keyscards : Nat) : Nat → Nat → Out (List Nat)
  | 0, _ => .ok []
  | n + 1, k => do
    let v ← readLE buf (keyscards + 2 * (2 * k)) 2
    let vs ← readKeys buf keyscards n (k + 1)
    pure (v :: vs)

/-- The loop that reads the containers: `src/roaring_array.c:789-880`.  The result is the list of containers and
`*readbytes`. -/
def deserLoop (buf : List UInt8) (maxbytes : Nat) (hasrun : Option Nat) (keyscards : Nat) :
    Nat → Nat → Nat → Nat → Out (List Container × Nat)
  | 0, _, _, readbytes => .ok ([], readbytes)
  | n + 1, k, off, readbytes => do
    let tmp ← readLE buf (keyscards + 2 * (2 * k + 1)) 2
    let thiscard := tmp + 1
    let isrun ← isRunAt buf hasrun k
    let isbitmap := !isrun && decide (thiscard > DEFAULT_MAX_SIZE)
    if isbitmap then
      let readbytes := readbytes + NWORDS * 8
      if readbytes > maxbytes then .fail
      else
        let c ← bitsetRead thiscard buf off
        let p ← deserLoop buf maxbytes hasrun keyscards n (k + 1) (off + containerSizeInBytes c) readbytes
        pure (c :: p.1, p.2)
    else if isrun then
      let readbytes := readbytes + 2
      if readbytes > maxbytes then .fail
      else
        let n_runs ← readLE buf off 2
        let readbytes := readbytes + n_runs * 4
        if readbytes > maxbytes then .fail
        else
          let c ← runRead buf off
          let p ← deserLoop buf maxbytes hasrun keyscards n (k + 1) (off + containerSizeInBytes c) readbytes
          pure (c :: p.1, p.2)
    else
      let readbytes := readbytes + thiscard * 2
      if readbytes > maxbytes then .fail
      else
        let c ← arrayRead thiscard buf off
        let p ← deserLoop buf maxbytes hasrun keyscards n (k + 1) (off + containerSizeInBytes c) readbytes
        pure (c :: p.1, p.2)

/-- The number of containers: `src/roaring_array.c:722-734`, with the offset and `*readbytes` after reading it. -/
def deserSize (buf : List UInt8) (cookie off maxbytes readbytes : Nat) : Out (Int × Nat × Nat) :=
  if cookie % 65536 = COOKIE then .ok ((cookie >>> 16 : Nat) + 1, off, readbytes)
  else if readbytes + 4 > maxbytes then .fail
  else do
    let size ← readLE buf off 4
    pure (toI32 size, off + 4, readbytes + 4)

/-- Skipping the offsets: `src/roaring_array.c:776-787`. -/
def deserSkipOffsets (hasrun : Prop) [Decidable hasrun] (size off maxbytes readbytes : Nat) : Out (Nat × Nat) :=
  if ¬ hasrun ∨ size ≥ NO_OFFSET_THRESHOLD then
    if readbytes + size * 4 > maxbytes then .fail
    else .ok (off + size * 4, readbytes + size * 4)
  else .ok (off, readbytes)

/-- `ra_portable_deserialize`: `src/roaring_array.c:707-882`, from offset `base`.  The result is the bitmap and
`*readbytes`. -/
def raPortableDeserialize (buf : List UInt8) (base maxbytes : Nat) : Out (Bitmap × Nat) := do
  let readbytes := 4
  if readbytes > maxbytes then .fail
  else
    let cookie ← readLE buf base 4
    let off := base + 4
    if cookie % 65536 ≠ COOKIE ∧ cookie ≠ COOKIE_NORUN then .fail
    else
      let h ← deserSize buf cookie off maxbytes readbytes
      let off := h.2.1
      let readbytes := h.2.2
      if h.1 < 0 then .fail
      else if h.1 > 65536 then .fail
      else
        let size := h.1.toNat
        let hasrun := cookie % 65536 = COOKIE
        let s := (size + 7) / 8
        let readbytes := if hasrun then readbytes + s else readbytes
        if hasrun ∧ readbytes > maxbytes then .fail
        else
          let runs := if hasrun then some off else none
          let off := if hasrun then off + s else off
          let keyscards := off
          let readbytes := readbytes + size * 2 * 2
          if readbytes > maxbytes then .fail
          else
            let off := off + size * 2 * 2
            let keys ← readKeys buf keyscards size 0
            let o ← deserSkipOffsets hasrun size off maxbytes readbytes
            let p ← deserLoop buf maxbytes runs keyscards size 0 o.1 o.2
            pure (keys.zip p.1, p.2)

/-- `roaring_bitmap_portable_deserialize_safe`: `src/roaring.c:1502-1522`, from offset `base`. -/
def rbPortableDeserializeSafe (buf : List UInt8) (base maxbytes : Nat) : Out Bitmap := do
  let p ← raPortableDeserialize buf base maxbytes
  pure p.1

/-- `SIZE_MAX` on a 64-bit machine. -/
def SIZE_MAX : Nat := 18446744073709551615

/-- `roaring_bitmap_portable_deserialize`: `src/roaring.c:1524-1526`, from offset `base`. -/
def rbPortableDeserialize (buf : List UInt8) (base : Nat) : Out Bitmap :=
  rbPortableDeserializeSafe buf base SIZE_MAX

/-! ### The native format -/

/-- `CROARING_SERIALIZATION_ARRAY_UINT32`: `src/roaring.c:25`. -/
def SER_ARRAY : Nat := 1
/-- `CROARING_SERIALIZATION_CONTAINER`: `src/roaring.c:26`. -/
def SER_CONTAINER : Nat := 2

/-- `roaring_bitmap_size_in_bytes`: `src/roaring.c:1490-1496`. -/
def rbSizeInBytes (r : Bitmap) : Nat :=
  let portablesize := rbPortableSize r
  let sizeasarray := rbCardinality r * 4 + 4
  if portablesize < sizeasarray then portablesize + 1 else sizeasarray + 1

/-- `roaring_bitmap_serialize`: `src/roaring.c:1474-1488`, at the start of the memory `mem`. -/
def rbSerialize (r : Bitmap) (mem : List UInt8) : Out (List UInt8 × Nat) := do
  let portablesize := rbPortableSize r
  let cardinality := rbCardinality r
  let sizeasarray := cardinality * 4 + 4
  if portablesize < sizeasarray then
    let mem ← memWrite mem 0 (leBytes 1 SER_CONTAINER)
    let p ← rbPortableSerialize r mem 1
    pure (p.1, p.2 + 1)
  else
    let mem ← memWrite mem 0 (leBytes 1 SER_ARRAY)
    let mem ← memWrite mem 1 (leBytes 4 (cardinality % 4294967296))
    let mem ← memWrite mem 5 ((rbToUint32 r).flatMap (leBytes 4))
    pure (mem, 1 + sizeasarray)

/-- The loop that adds the listed values: `src/roaring.c:1553-1558`, `1594-1599`, with `n` values left. -/
def deserAddLoop (buf : List UInt8) : Nat → Nat → Bitmap → BulkCtx → Out Bitmap
  | 0, _, r, _ => .ok r
  | n + 1, off, r, ctx => do
    let elem ← readLE buf off 4
    let p := rbAddBulk r ctx elem
    deserAddLoop buf n (off + 4) p.1 p.2

/-- `roaring_bitmap_deserialize`: `src/roaring.c:1537-1565`. -/
def rbDeserialize (buf : List UInt8) : Out Bitmap := do
  let b ← readLE buf 0 1
  if b = SER_ARRAY then
    let card ← readLE buf 1 4
    deserAddLoop buf card 5 rbCreate none
  else if b = SER_CONTAINER then rbPortableDeserialize buf 1
  else .fail

/-- `roaring_bitmap_deserialize_safe`: `src/roaring.c:1567-1609`. -/
def rbDeserializeSafe (buf : List UInt8) (maxbytes : Nat) : Out Bitmap := do
  if maxbytes < 1 then .fail
  else
    let b ← readLE buf 0 1
    if b = SER_ARRAY then
      if maxbytes < 1 + 4 then .fail
      else
        let card ← readLE buf 1 4
        if maxbytes < 1 + 4 + card * 4 then .fail
        else deserAddLoop buf card 5 rbCreate none
    else if b = SER_CONTAINER then rbPortableDeserializeSafe buf 1 (maxbytes - 1)
    else .fail

end CRoaring
