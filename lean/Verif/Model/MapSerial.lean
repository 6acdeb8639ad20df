import Verif.Model.Map64
import Verif.Model.Serial64
import Verif.Model.Frozen
/-
The serialized forms of `Roaring64Map`: cpp/roaring64map.hh:1124-1352, with the methods of `Roaring` they use
(cpp/roaring.hh:623-747).

Conventions as in Model/Serial: the memory is a list of bytes, `oob` is an access outside of it; `fail` is
`ROARING_TERMINATE` (an exception).  Where the model of a C function starts at the beginning of its memory, it is given what
is left from the offset on.  The format of `size_t` and of the fixed-width integers is that of a 64-bit little-endian machine.
-/
namespace CRoaring

/-- `Roaring::write`: cpp/roaring.hh:623-629; the memory afterwards and the number of bytes. -/
def roaringWrite (portable : Bool) (b : Bitmap) (mem : List UInt8) (off : Nat) : Out (List UInt8 × Nat) :=
  if portable then rbPortableSerialize b mem off
  else do
    let p ← rbSerialize b (mem.drop off)
    pure (mem.take off ++ p.1, p.2)

/-- `Roaring::read`: cpp/roaring.hh:647-655. -/
def roaringRead (portable : Bool) (buf : List UInt8) (off : Nat) : Out Bitmap :=
  if portable then rbPortableDeserialize buf off else rbDeserialize (buf.drop off)

/-- `Roaring::readSafe`: cpp/roaring.hh:680-687. -/
def roaringReadSafe (buf : List UInt8) (off maxbytes : Nat) : Out Bitmap := rbPortableDeserializeSafe buf off maxbytes

/-- `Roaring::getSizeInBytes`: cpp/roaring.hh:697-703. -/
def roaringSize (portable : Bool) (b : Bitmap) : Nat := if portable then rbPortableSize b else rbSizeInBytes b

/-- The loop of `write`: cpp/roaring64map.hh:1137-1148. -/
def m64WriteLoop (portable : Bool) (st : WSt) : Map64 → Out WSt
  | [] => .ok st
  | (k, b) :: t => do
    let st ← put st (leBytes 4 k)
    let p ← roaringWrite portable b st.1 st.2
    m64WriteLoop portable (p.1, st.2 + p.2) t

/-- `write`: cpp/roaring64map.hh:1131-1150, into the memory `mem`; the memory afterwards and the number of bytes. -/
def m64Write (m : Map64) (portable : Bool) (mem : List UInt8) : Out (List UInt8 × Nat) := do
  let st ← put (mem, 0) (leBytes 8 m.length)
  m64WriteLoop portable st m

/-- The loop of `read`: cpp/roaring64map.hh:1170-1182, with `n` rounds left. -/
def m64ReadLoop (portable : Bool) (buf : List UInt8) : Nat → Nat → Map64 → Out Map64
  | 0, _, result => .ok result
  | n + 1, off, result => do
    let key ← readLE buf off 4
    let off := off + 4
    let b ← roaringRead portable buf off
    m64ReadLoop portable buf n (off + roaringSize portable b) (m64Emplace result key b)

/-- `read`: cpp/roaring64map.hh:1164-1184. -/
def m64Read (portable : Bool) (buf : List UInt8) : Out Map64 := do
  let mapSize ← readLE buf 0 8
  m64ReadLoop portable buf mapSize 8 []

/-- The loop of `readSafe`: cpp/roaring64map.hh:1202-1220; `maxbytes` has type `size_t`. -/
def m64ReadSafeLoop (buf : List UInt8) : Nat → Nat → Nat → Map64 → Out Map64
  | 0, _, _, result => .ok result
  | n + 1, off, maxbytes, result =>
    if maxbytes < 4 then .fail
    else do
      let key ← readLE buf off 4
      let off := off + 4
      let maxbytes := u64 ((maxbytes : Int) - 4)
      let b ← roaringReadSafe buf off maxbytes
      let tz := rbPortableSize b
      m64ReadSafeLoop buf n (off + tz) (u64 ((maxbytes : Int) - tz)) (m64Emplace result key b)

/-- `readSafe`: cpp/roaring64map.hh:1193-1222. -/
def m64ReadSafe (buf : List UInt8) (maxbytes : Nat) : Out Map64 :=
  if maxbytes < 8 then .fail
  else do
    let mapSize ← readLE buf 0 8
    m64ReadSafeLoop buf mapSize 8 (u64 ((maxbytes : Int) - 8)) []

/-- `getSizeInBytes`: cpp/roaring64map.hh:1231-1243. -/
def m64SizeInBytes (portable : Bool) (m : Map64) : Nat :=
  m.foldl (fun previous p => u64 ((previous : Int) + roaringSize portable p.2)) (u64 (8 + (m.length * 4 : Nat)))

/-! ### Frozen maps -/

/-- `while (((uintptr_t)buf + metadata_size) % 32 != 0) buf++`, with `metadata_size` 12: cpp/roaring64map.hh:1256, 1320, 1346;
`addr` is the address of the memory.  The loop ends within 32 rounds, so it is given as many. -/
def padTo : Nat → Nat → Nat → Nat
  | 0, _, off => off
  | fuel + 1, addr, off => if (addr + off + 12) % 32 ≠ 0 then padTo fuel addr (off + 1) else off

/-- The loop of `writeFrozen`: cpp/roaring64map.hh:1316-1333. -/
def m64WriteFrozenLoop (addr : Nat) (st : WSt) : Map64 → Out WSt
  | [] => .ok st
  | (k, b) :: t => do
    let size := rbFrozenSize b
    let off := padTo 32 addr st.2
    let st ← put (st.1, off) (leBytes 8 size)
    let st ← put st (leBytes 4 k)
    let mem ← rbFrozenSerialize b st.1 st.2
    m64WriteFrozenLoop addr (mem, st.2 + rbFrozenSize b) t

/-- `writeFrozen`, with the address of the memory: cpp/roaring64map.hh:1307-1334; the memory and the end. -/
def m64WriteFrozen (addr : Nat) (m : Map64) (mem : List UInt8) : Out WSt := do
  let st ← put (mem, 0) (leBytes 8 m.length)
  m64WriteFrozenLoop addr st m

/-- `getFrozenSizeInBytes`: cpp/roaring64map.hh:1336-1352. -/
def m64FrozenSize (m : Map64) : Nat := m.foldl (fun ret p => padTo 32 0 ret + 12 + rbFrozenSize p.2) 8

/-- The loop of `frozenView`: cpp/roaring64map.hh:1254-1274; `Roaring::frozenView`: cpp/roaring.hh:709-718.  The copy that
`emplaceOrInsert` makes is the bitmap itself. -/
def m64FrozenViewLoop (addr : Nat) (buf : List UInt8) : Nat → Nat → Map64 → Out Map64
  | 0, _, result => .ok result
  | n + 1, off, result => do
    let off := padTo 32 addr off
    let len ← readLE buf off 8
    let off := off + 8
    let key ← readLE buf off 4
    let off := off + 4
    let b ← rbFrozenView (addr + off) (buf.drop off) len
    m64FrozenViewLoop addr buf n (off + len) (m64Emplace result key b)

/-- `frozenView`: cpp/roaring64map.hh:1243-1276. -/
def m64FrozenView (addr : Nat) (buf : List UInt8) : Out Map64 := do
  let mapSize ← readLE buf 0 8
  m64FrozenViewLoop addr buf mapSize 8 []

/-- The loop of `portableDeserializeFrozen`: cpp/roaring64map.hh:1285-1294; `Roaring::portableDeserializeFrozen`:
cpp/roaring.hh:724-733. -/
def m64PortableFrozenLoop (buf : List UInt8) : Nat → Nat → Map64 → Out Map64
  | 0, _, result => .ok result
  | n + 1, off, result => do
    let key ← readLE buf off 4
    let off := off + 4
    let b ← rbPortableDeserializeFrozen buf off
    m64PortableFrozenLoop buf n (off + rbPortableSize b) (m64Emplace result key b)

/-- `portableDeserializeFrozen`: cpp/roaring64map.hh:1278-1296. -/
def m64PortableDeserializeFrozen (buf : List UInt8) : Out Map64 := do
  let mapSize ← readLE buf 0 8
  m64PortableFrozenLoop buf mapSize 8 []

end CRoaring
