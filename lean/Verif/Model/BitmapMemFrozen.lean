import Verif.Model.BitmapMemQuery
import Verif.Model.Frozen

/-! Bitmaps in memory: writing the frozen format.  The containers are read from the cells of Model/BitmapMem.lean through `loadCell`, the
bytes are written with the checked stores of Model/Frozen.lean. -/

namespace CRoaring

/-- The loop of `roaring_bitmap_frozen_size_in_bytes`: src/roaring.c:2947-2967; `n` cells are left. -/
def frozenSizeLoopBuf (cells : List RCell) : Nat → Nat → Nat → Out Nat
  | 0, _, k => .ok k
  | n + 1, i, k => do
    let c ← loadCell cells i
    frozenSizeLoopBuf cells n (i + 1) (k + frozenDataSize c.2)

/-- `roaring_bitmap_frozen_size_in_bytes`: src/roaring.c:2944-2971. -/
def rbFrozenSizeBuf (r : RaBuf) : Out Nat := do
  let k ← frozenSizeLoopBuf r.mem r.size 0 0
  .ok (k + (2 + 2 + 1) * r.size + 4)

/-- The loop of `roaring_bitmap_frozen_serialize` that sums the zone sizes: src/roaring.c:2990-3011; `n` cells are left. -/
def frozenZonesBuf (cells : List RCell) : Nat → Nat → Nat × Nat × Nat → Out (Nat × Nat × Nat)
  | 0, _, z => .ok z
  | n + 1, i, z => do
    let c ← loadCell cells i
    frozenZonesBuf cells n (i + 1) (zoneStep z c.2)

/-- The loop of `roaring_bitmap_frozen_serialize` that writes the containers and their counts: src/roaring.c:3021-3060; `n` cells are
left.  `bz`, `rz`, `az` and `cz` are the offsets of the pointers into the zones. -/
def frozenWriteBuf (cells : List RCell) (cz : Nat) : Nat → Nat → Nat → Nat → Nat → List UInt8 → Out (List UInt8)
  | 0, _, _, _, _, mem => .ok mem
  | n + 1, i, bz, rz, az, mem => do
    let c ← loadCell cells i
    match c.2 with
    | .bitset b => do
      let mem ← memWrite mem bz (wordBytes b.words)
      let mem ← memWrite mem (cz + 2 * i) (leBytes 2 ((frozenBitsetCard b - 1) % 65536).toNat)
      frozenWriteBuf cells cz n (i + 1) (bz + NWORDS * 8) rz az mem
    | .run rs => do
      let mem ← memWrite mem rz (rs.flatMap fun p => leBytes 2 p.1 ++ leBytes 2 p.2)
      let mem ← memWrite mem (cz + 2 * i) (leBytes 2 (rs.length % 65536))
      frozenWriteBuf cells cz n (i + 1) bz (rz + rs.length * 4) az mem
    | .array l => do
      let mem ← memWrite mem az (l.flatMap (leBytes 2))
      let mem ← memWrite mem (cz + 2 * i) (leBytes 2 (((l.length : Int) - 1) % 65536).toNat)
      frozenWriteBuf cells cz n (i + 1) bz rz (az + l.length * 2) mem

/-- The typecode of a container in memory: include/roaring/containers/containers.h:36-38. -/
def CBuf.typecode : CBuf → Nat
  | .bitset _ => BITSET_TYPE
  | .array _ => ARRAY_TYPE
  | .run _ => RUN_TYPE

/-- The typecodes that `memcpy` reads, src/roaring.c:3062. -/
def raTypecodesBuf (b : RaBuf) : Out (List Nat) :=
  if b.size ≤ b.mem.length then .ok ((b.mem.take b.size).map fun c => c.2.typecode) else .oob

/-- `roaring_bitmap_frozen_serialize`: src/roaring.c:2979-3065, at offset `off` of the memory `mem`. -/
def rbFrozenSerializeBuf (r : RaBuf) (mem : List UInt8) (off : Nat) : Out (List UInt8) := do
  let z ← frozenZonesBuf r.mem r.size 0 (0, 0, 0)
  let bitset_zone := off
  let run_zone := bitset_zone + z.1
  let array_zone := run_zone + z.2.1
  let key_zone := array_zone + z.2.2
  let count_zone := key_zone + 2 * r.size
  let typecode_zone := count_zone + 2 * r.size
  let header_zone := typecode_zone + r.size
  let mem ← frozenWriteBuf r.mem count_zone r.size 0 bitset_zone run_zone array_zone mem
  let ks ← raKeysBuf r
  let mem ← memWrite mem key_zone (ks.flatMap (leBytes 2))
  let ts ← raTypecodesBuf r
  let mem ← memWrite mem typecode_zone (ts.map UInt8.ofNat)
  memWrite mem header_zone (leBytes 4 ((r.size <<< 15 % 4294967296) ||| FROZEN_COOKIE))

end CRoaring
