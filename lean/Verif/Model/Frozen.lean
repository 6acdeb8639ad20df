import Verif.Model.Serial

/-! Model of the frozen format: `src/roaring.c:2916-3353`.

Memory is as in `Verif.Model.Serial`.  A frozen view does not copy the data: its containers point into the buffer.  The
model gives the bitmap that these pointers denote while the buffer is unchanged; a container whose data are not entirely
inside the buffer gives the outcome `oob`, although the C function itself would only compute the pointer.  Misaligned
accesses are not modelled. -/

namespace CRoaring

/-- `FROZEN_COOKIE`: `include/roaring/roaring_array.h:24`. -/
def FROZEN_COOKIE : Nat := 13766
/-- `BITSET_CONTAINER_TYPE`: `include/roaring/containers/containers.h:36`. -/
def BITSET_TYPE : Nat := 1
/-- `ARRAY_CONTAINER_TYPE`: `include/roaring/containers/containers.h:37`. -/
def ARRAY_TYPE : Nat := 2
/-- `RUN_CONTAINER_TYPE`: `include/roaring/containers/containers.h:38`. -/
def RUN_TYPE : Nat := 3

/-- The typecode of a container (shared containers are a precondition violation of the frozen format). -/
def typecode : Container → Nat
  | .bitset _ => BITSET_TYPE
  | .array _ => ARRAY_TYPE
  | .run _ => RUN_TYPE

/-- The number of bytes added for one container: `src/roaring.c:2948-2966`. -/
def frozenDataSize : Container → Nat
  | .bitset _ => NWORDS * 8
  | .run rs => rs.length * 4
  | .array l => l.length * 2

/-- `roaring_bitmap_frozen_size_in_bytes`: `src/roaring.c:2944-2971`. -/
def rbFrozenSize (r : Bitmap) : Nat :=
  r.foldl (fun n p => n + frozenDataSize p.2) 0 + (2 + 2 + 1) * r.length + 4

/-- One turn of the loop that sums the zone sizes: `src/roaring.c:2990-3011`. -/
def zoneStep (z : Nat × Nat × Nat) : Container → Nat × Nat × Nat
  | .bitset _ => (z.1 + NWORDS * 8, z.2.1, z.2.2)
  | .run rs => (z.1, z.2.1 + rs.length * 4, z.2.2)
  | .array l => (z.1, z.2.1, z.2.2 + l.length * 2)

/-- `bitset_zone_size`, `run_zone_size`, `array_zone_size`: `src/roaring.c:2987-3011`. -/
def zoneSizes (r : Bitmap) : Nat × Nat × Nat := r.foldl (fun z p => zoneStep z p.2) (0, 0, 0)

/-- The cardinality of a bitset container, computed if it is not known: `src/roaring.c:3030-3036`. -/
def frozenBitsetCard (b : Bitset) : Int :=
  if b.card ≠ UNKNOWN_CARD then b.card else computeCard b.words

/-- The loop of `roaring_bitmap_frozen_serialize`: `src/roaring.c:3021-3060`.  `bz`, `rz` and `az` are the offsets of
the pointers `bitset_zone`, `run_zone` and `array_zone`, `cz` that of `count_zone`. -/
def frozenWriteLoop (cz : Nat) : Bitmap → Nat → Nat → Nat → Nat → List UInt8 → Out (List UInt8)
  | [], _, _, _, _, mem => .ok mem
  | (_, .bitset b) :: t, i, bz, rz, az, mem => do
    let mem ← memWrite mem bz (wordBytes b.words)
    let mem ← memWrite mem (cz + 2 * i) (leBytes 2 ((frozenBitsetCard b - 1) % 65536).toNat)
    frozenWriteLoop cz t (i + 1) (bz + NWORDS * 8) rz az mem
  | (_, .run rs) :: t, i, bz, rz, az, mem => do
    let mem ← memWrite mem rz (rs.flatMap fun p => leBytes 2 p.1 ++ leBytes 2 p.2)
    let mem ← memWrite mem (cz + 2 * i) (leBytes 2 (rs.length % 65536))
    frozenWriteLoop cz t (i + 1) bz (rz + rs.length * 4) az mem
  | (_, .array l) :: t, i, bz, rz, az, mem => do
    let mem ← memWrite mem az (l.flatMap (leBytes 2))
    let mem ← memWrite mem (cz + 2 * i) (leBytes 2 (((l.length : Int) - 1) % 65536).toNat)
    frozenWriteLoop cz t (i + 1) bz rz (az + l.length * 2) mem

/-- `roaring_bitmap_frozen_serialize`: `src/roaring.c:2979-3065`, at offset `off` of the memory `mem`; the zones are
carved out of the buffer by `arena_alloc`, `src/roaring.c:2973-2977`. -/
def rbFrozenSerialize (r : Bitmap) (mem : List UInt8) (off : Nat) : Out (List UInt8) := do
  let z := zoneSizes r
  let bitset_zone := off
  let run_zone := bitset_zone + z.1
  let array_zone := run_zone + z.2.1
  let key_zone := array_zone + z.2.2
  let count_zone := key_zone + 2 * r.length
  let typecode_zone := count_zone + 2 * r.length
  let header_zone := typecode_zone + r.length
  let mem ← frozenWriteLoop count_zone r 0 bitset_zone run_zone array_zone mem
  let mem ← memWrite mem key_zone ((keysOf r).flatMap (leBytes 2))
  let mem ← memWrite mem typecode_zone (r.map fun p => UInt8.ofNat (typecode p.2))
  memWrite mem header_zone (leBytes 4 ((r.length <<< 15 % 4294967296) ||| FROZEN_COOKIE))

/-- The loop of `roaring_bitmap_frozen_view` that sums the zone sizes: `src/roaring.c:3096-3118`, with `n` containers
left. -/
def frozenSizesLoop (buf : List UInt8) (counts typecodes : Nat) : Nat → Nat → Nat × Nat × Nat → Out (Nat × Nat × Nat)
  | 0, _, z => .ok z
  | n + 1, i, z => do
    let t ← readLE buf (typecodes + i) 1
    if t = BITSET_TYPE then frozenSizesLoop buf counts typecodes n (i + 1) (z.1 + NWORDS * 8, z.2.1, z.2.2)
    else if t = RUN_TYPE then
      let c ← readLE buf (counts + 2 * i) 2
      frozenSizesLoop buf counts typecodes n (i + 1) (z.1, z.2.1 + c * 4, z.2.2)
    else if t = ARRAY_TYPE then
      let c ← readLE buf (counts + 2 * i) 2
      frozenSizesLoop buf counts typecodes n (i + 1) (z.1, z.2.1, z.2.2 + (c + 1) * 2)
    else .fail

/-- The loop of `roaring_bitmap_frozen_view` that builds the containers: `src/roaring.c:3155-3190`, with `n` containers
left.  `bz`, `rz`, `az` are the offsets of `bitset_zone`, `run_zone`, `array_zone`. -/
def frozenViewLoop (buf : List UInt8) (keys counts typecodes : Nat) : Nat → Nat → Nat → Nat → Nat → Out Bitmap
  | 0, _, _, _, _ => .ok []
  | n + 1, i, bz, rz, az => do
    let k ← readLE buf (keys + 2 * i) 2
    let t ← readLE buf (typecodes + i) 1
    let c ← readLE buf (counts + 2 * i) 2
    if t = BITSET_TYPE then
      let ws ← readWords buf bz NWORDS
      let rest ← frozenViewLoop buf keys counts typecodes n (i + 1) (bz + NWORDS * 8) rz az
      pure ((k, .bitset ⟨(c : Int) + 1, ws⟩) :: rest)
    else if t = RUN_TYPE then
      let rs ← readRles buf rz c
      let rest ← frozenViewLoop buf keys counts typecodes n (i + 1) bz (rz + c * 4) az
      pure ((k, .run rs) :: rest)
    else if t = ARRAY_TYPE then
      let l ← readU16s buf az (c + 1)
      let rest ← frozenViewLoop buf keys counts typecodes n (i + 1) bz rz (az + (c + 1) * 2)
      pure ((k, .array l) :: rest)
    else .fail

/-- `roaring_bitmap_frozen_view`: `src/roaring.c:3067-3193`.  `addr` is the address of the buffer (only its remainder
modulo 32 matters), `length` the length the caller gives. -/
def rbFrozenView (addr : Nat) (buf : List UInt8) (length : Nat) : Out Bitmap :=
  if addr % 32 ≠ 0 then .fail
  else if length < 4 then .fail
  else do
    let header ← readLE buf (length - 4) 4
    if header % 32768 ≠ FROZEN_COOKIE then .fail
    else
      let num_containers := header >>> 15
      if length < 4 + num_containers * (1 + 2 + 2) then .fail
      else
        let keys := length - 4 - num_containers * 5
        let counts := length - 4 - num_containers * 3
        let typecodes := length - 4 - num_containers * 1
        let z ← frozenSizesLoop buf counts typecodes num_containers 0 (0, 0, 0)
        if length ≠ z.1 + z.2.1 + z.2.2 + 5 * num_containers + 4 then .fail
        else frozenViewLoop buf keys counts typecodes num_containers 0 0 z.1 (z.1 + z.2.1)

/-! ### Views of the portable format -/

/-- The data of container `i` of a portable view: `src/roaring.c:3304-3349`.  `offs` is the offset of the offset header,
if there is one, `base` the start of the buffer, `off` the pointer `buf`.  The result is the container and the pointer
`buf` afterwards. -/
def pfContainer (buf : List UInt8) (base : Nat) (offs : Option Nat) (isbitmap isrun : Bool) (cardinality i off : Nat) :
    Out (Container × Nat) :=
  match offs with
  | some o => do
    let p ← readLE buf (o + 4 * i) 4
    if isbitmap then
      let c ← bitsetRead cardinality buf (base + p)
      pure (c, off)
    else if isrun then
      let c ← runRead buf (base + p)
      pure (c, off)
    else
      let c ← arrayRead cardinality buf (base + p)
      pure (c, off)
  | none =>
    if isbitmap then do
      let c ← bitsetRead cardinality buf off
      pure (c, off + NWORDS * 8)
    else if isrun then do
      let n_runs ← readLE buf off 2
      let rs ← readRles buf (off + 2) n_runs
      pure (.run rs, off + 2 + n_runs * 4)
    else do
      let c ← arrayRead cardinality buf off
      pure (c, off + cardinality * 2)

/-- The loop that builds the containers: `src/roaring.c:3289-3350`, with `n` containers left.  `hdr` is the offset of
`descriptive_headers`. -/
def pfLoop (buf : List UInt8) (base hdr : Nat) (runs offs : Option Nat) : Nat → Nat → Nat → Out Bitmap
  | 0, _, _ => .ok []
  | n + 1, i, off => do
    let tmp ← readLE buf (hdr + 2 * (2 * i + 1)) 2
    let cardinality := tmp + 1
    let isrun ← isRunAt buf runs i
    let isbitmap := !isrun && decide (cardinality > DEFAULT_MAX_SIZE)
    let key ← readLE buf (hdr + 2 * (2 * i)) 2
    let c ← pfContainer buf base offs isbitmap isrun cardinality i off
    let rest ← pfLoop buf base hdr runs offs n (i + 1) c.2
    pure ((key, c.1) :: rest)

/-- `roaring_bitmap_portable_deserialize_frozen`: `src/roaring.c:3196-3353`, from offset `base`.  The function checks
nothing but the cookie; a negative number of containers makes it compute wild pointers, which is `oob` here. -/
def rbPortableDeserializeFrozen (buf : List UInt8) (base : Nat) : Out Bitmap := do
  let cookie ← readLE buf base 4
  let off := base + 4
  if cookie = COOKIE_NORUN then
    let num ← readLE buf off 4
    if toI32 num < 0 then .oob
    else
      let hdr := off + 4
      let offs := hdr + num * 4
      pfLoop buf base hdr none (some offs) num 0 (offs + num * 4)
  else if cookie % 65536 = COOKIE then
    let num := (cookie >>> 16) + 1
    let hdr := off + (num + 7) / 8
    let off' := hdr + num * 4
    if num ≥ NO_OFFSET_THRESHOLD then pfLoop buf base hdr (some off) (some off') num 0 (off' + num * 4)
    else pfLoop buf base hdr (some off) none num 0 off'
  else .fail

end CRoaring
