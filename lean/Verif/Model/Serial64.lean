import Verif.Model.Roaring64
import Verif.Model.Serial
/-
The portable format of 64-bit bitmaps: src/roaring64.c:1893-2175.

Conventions as in Model/Serial: the memory is a list of bytes, `oob` is an access outside of it, `fail` an error result
(`NULL`).  The inner loops that count the containers of a bucket (1944-1950, 2012-2018) only choose a capacity and are not
modelled.  `roaring_bitmap_create_with_capacity` is the empty bitmap and `ra_append` appends an entry.
-/
namespace CRoaring

/-- The loop of `count_high32`: src/roaring64.c:1894-1908. -/
def countHigh32Loop (r : R64) : Nat → AIt → Nat → Nat → Nat
  | 0, _, n, _ => n
  | fuel + 1, it, n, prev =>
    match it.value with
    | none => n
    | some _ =>
      let current := combineKey it.key 0 / 4294967296
      if n = 0 ∨ prev ≠ current then countHigh32Loop r fuel (itNext r it) (n + 1) current
      else countHigh32Loop r fuel (itNext r it) n prev

/-- `count_high32`: src/roaring64.c:1894-1908. -/
def countHigh32 (r : R64) : Nat := countHigh32Loop r FUEL (artInitIterator r true) 0 0

/-- The loop of `roaring64_bitmap_portable_size_in_bytes`, and what follows it: src/roaring64.c:1929-1971.  `b` is
`bitmap32` (or `NULL`).  The keys of the temporary bitmap are those of the code (`current_high32 >> 16`); only its size
matters. -/
def size64Loop (r : R64) : Nat → AIt → Nat → Nat → Option Bitmap → Nat
  | 0, _, size, _, _ => size
  | fuel + 1, it, size, prev, b =>
    match it.value with
    | none =>
      match b with
      | none => size
      | some b => size + 4 + rbPortableSize b
    | some c =>
      let current := combineKey it.key 0 / 4294967296
      let key := current / 65536 % 65536
      match b with
      | none => size64Loop r fuel (itNext r it) size current (some [(key, c)])
      | some b =>
        if prev ≠ current then
          size64Loop r fuel (itNext r it) (size + 4 + rbPortableSize b) current (some [(key, c)])
        else size64Loop r fuel (itNext r it) size prev (some (b ++ [(key, c)]))

/-- `roaring64_bitmap_portable_size_in_bytes`: src/roaring64.c:1915-1974.  The sum of at most 2^32 terms below 2^31 does
not wrap. -/
def r64PortableSize (r : R64) : Nat := size64Loop r FUEL (artInitIterator r true) 8 0 none

/-- One bucket: src/roaring64.c:2000-2008, 2032-2039. -/
def putBucket (st : WSt) (high32 : Nat) (b : Bitmap) : Out WSt := do
  let st ← put st (leBytes 4 high32)
  let p ← rbPortableSerialize b st.1 st.2
  pure (p.1, st.2 + p.2)

/-- The loop of `roaring64_bitmap_portable_serialize`, and what follows it: src/roaring64.c:1995-2040. -/
def ser64Loop (r : R64) : Nat → AIt → WSt → Nat → Option Bitmap → Out WSt
  | 0, _, st, _, _ => .ok st
  | fuel + 1, it, st, prev, b =>
    match it.value with
    | none =>
      match b with
      | none => .ok st
      | some b => putBucket st prev b
    | some c =>
      let current48 := combineKey it.key 0
      let current := current48 / 4294967296
      let key := current48 / 65536 % 65536
      match b with
      | none => ser64Loop r fuel (itNext r it) st current (some [(key, c)])
      | some b =>
        if prev ≠ current then do
          let st ← putBucket st prev b
          ser64Loop r fuel (itNext r it) st current (some [(key, c)])
        else ser64Loop r fuel (itNext r it) st prev (some (b ++ [(key, c)]))

/-- `roaring64_bitmap_portable_serialize`: src/roaring64.c:1976-2043, into the memory `mem`.  The memory afterwards and
the returned number of bytes. -/
def r64PortableSerialize (r : R64) (mem : List UInt8) : Out (List UInt8 × Nat) := do
  let st ← put (mem, 0) (leBytes 8 (countHigh32 r))
  let st ← ser64Loop r FUEL (artInitIterator r true) st 0 none
  pure st

/-- `roaring_bitmap_portable_deserialize_size` from offset `base`: src/roaring.c:1528-1531. -/
def rbPortableDeserializeSizeAt (buf : List UInt8) (base maxbytes : Nat) : Out Nat :=
  match raPortableDeserializeSize buf base maxbytes with
  | .fail => .ok 0
  | x => x

/-- The loop of `roaring64_bitmap_portable_deserialize_size`: src/roaring64.c:2069-2087.  `read_bytes` is also the offset
of the pointer.  `fail` is the result 0. -/
def deserSize64Loop (buf : List UInt8) (maxbytes : Nat) : Nat → Nat → Out Nat
  | 0, read_bytes => .ok read_bytes
  | n + 1, read_bytes =>
    if read_bytes + 4 > maxbytes then .fail
    else do
      let read_bytes := read_bytes + 4
      let size ← rbPortableDeserializeSizeAt buf read_bytes (maxbytes - read_bytes)
      if size = 0 then .fail
      else deserSize64Loop buf maxbytes n (read_bytes + size)

/-- `roaring64_bitmap_portable_deserialize_size`: src/roaring64.c:2045-2089. -/
def r64PortableDeserializeSize (buf : List UInt8) (maxbytes : Nat) : Out Nat :=
  if 8 > maxbytes then .fail
  else do
    let buckets ← readLE buf 0 8
    if buckets > 4294967295 then .fail
    else deserSize64Loop buf maxbytes buckets 8

/-- The check of the keys: src/roaring64.c:2159-2168. -/
def keysOk : Int → Bitmap → Bool
  | _, [] => true
  | last, (key, _) :: t => if (key : Int) ≤ last then false else keysOk key t

/-- The loop of `roaring64_bitmap_portable_deserialize_safe`: src/roaring64.c:2117-2173. -/
def deser64Loop (buf : List UInt8) (maxbytes : Nat) : Nat → Nat → Int → R64 → Out (R64 × Nat)
  | 0, read_bytes, _, r => .ok (r, read_bytes)
  | n + 1, read_bytes, previous, r =>
    if read_bytes + 4 > maxbytes then .fail
    else do
      let high32 ← readLE buf read_bytes 4
      let read_bytes := read_bytes + 4
      if (high32 : Int) ≤ previous then .fail
      else do
        let size ← rbPortableDeserializeSizeAt buf read_bytes (maxbytes - read_bytes)
        if size = 0 then .fail
        else do
          let bitmap32 ← rbPortableDeserializeSafe buf read_bytes (maxbytes - read_bytes)
          if keysOk (-1) bitmap32 then
            deser64Loop buf maxbytes n (read_bytes + size) high32 (r64MoveOffset high32 bitmap32 r)
          else .fail

/-- `roaring64_bitmap_portable_deserialize_safe`: src/roaring64.c:2091-2175; with the number of bytes read, for the
statements. -/
def r64PortableDeserialize (buf : List UInt8) (maxbytes : Nat) : Out (R64 × Nat) :=
  if 8 > maxbytes then .fail
  else do
    let buckets ← readLE buf 0 8
    if buckets > 4294967295 then .fail
    else deser64Loop buf maxbytes buckets 8 (-1) r64Create

/-- `roaring64_bitmap_portable_deserialize_safe`: src/roaring64.c:2091-2175. -/
def r64PortableDeserializeSafe (buf : List UInt8) (maxbytes : Nat) : Out R64 := do
  let p ← r64PortableDeserialize buf maxbytes
  pure p.1

end CRoaring
