import Verif.Model.Store64More
import Verif.Model.Serial64
/-
The portable format of 64-bit bitmaps in memory, and the functions that make a bitmap from a 32-bit bitmap or a progression: src/roaring64.c:276-351,
1893-2043, 2091-2175.  `Model/Serial64.lean` and `Model/Roaring64.lean` have the same functions on a tree whose leaves are containers.  Each use of a leaf and of
its container is a use of memory (`R64M.look`, `Model/Store64.lean`); the temporary 32-bit bitmap of the writing functions, which borrows containers, is a list
of these containers, read when they are appended.  The containers of a 32-bit bitmap are values until they are moved into a 64-bit bitmap.
The loops carry a counter; `fail` is its end, and the theorems say that it is not reached.
-/
namespace CRoaring

/-- The loop of `count_high32`: src/roaring64.c:1898-1905. -/
def R64M.countHigh32Loop (r : R64M) : Nat → HIt → Nat → Nat → Out Nat
  | 0, _, _, _ => .fail
  | n + 1, it, high32_count, prev_high32 =>
    match it.value with
    | none => .ok high32_count
    | some _ => do
      let current_high32 := combineKey it.key 0 / 4294967296
      let it ← r.art.itNext it
      if high32_count = 0 ∨ prev_high32 ≠ current_high32 then countHigh32Loop r n it (high32_count + 1) current_high32
      else countHigh32Loop r n it high32_count prev_high32

/-- `count_high32`: src/roaring64.c:1894-1908. -/
def R64M.countHigh32 (r : R64M) : Out Nat := do
  let it ← r.art.initIterator true
  R64M.countHigh32Loop r FUEL it 0 0

/-- The loop that counts containers with a copy of the iterator, as long as `same` holds of the key: src/roaring64.c:1944-1950, 2012-2018. -/
def R64M.countSame (r : R64M) (same : Nat → Bool) : Nat → HIt → Nat → Out Nat
  | 0, _, _ => .fail
  | n + 1, it2, containers_with_high32 =>
    match it2.value with
    | none => .ok containers_with_high32
    | some _ =>
      if same (combineKey it2.key 0) = true then do
        let it2 ← r.art.itNext it2
        countSame r same n it2 (containers_with_high32 + 1)
      else .ok containers_with_high32

/-- The loop of `roaring64_bitmap_portable_size_in_bytes`, and what follows it: src/roaring64.c:1929-1971.  `b` is `bitmap32` (or `NULL`). -/
def R64M.sizeLoop (r : R64M) : Nat → HIt → Nat → Nat → Option Bitmap → Out Nat
  | 0, _, _, _, _ => .fail
  | n + 1, it, size, prev_high32, b =>
    match it.value with
    | none =>
      match b with
      | none => .ok size
      | some b => .ok (size + 4 + rbPortableSize b)
    | some p => do
      let current_high32 := combineKey it.key 0 / 4294967296
      let key := current_high32 / 65536 % 65536
      match b with
      | none => do
        let _ ← r.countSame (fun k => k / 4294967296 == current_high32) FUEL it 0
        let x ← r.look p
        let it ← r.art.itNext it
        sizeLoop r n it size current_high32 (some [(key, x.2.2)])
      | some b =>
        if prev_high32 ≠ current_high32 then do
          let _ ← r.countSame (fun k => k / 4294967296 == current_high32) FUEL it 0
          let x ← r.look p
          let it ← r.art.itNext it
          sizeLoop r n it (size + 4 + rbPortableSize b) current_high32 (some [(key, x.2.2)])
        else do
          let x ← r.look p
          let it ← r.art.itNext it
          sizeLoop r n it size prev_high32 (some (b ++ [(key, x.2.2)]))

/-- `roaring64_bitmap_portable_size_in_bytes`: src/roaring64.c:1915-1974. -/
def R64M.portableSize (r : R64M) : Out Nat := do
  let it ← r.art.initIterator true
  R64M.sizeLoop r FUEL it 8 0 none

/-- The loop of `roaring64_bitmap_portable_serialize`, and what follows it: src/roaring64.c:1995-2040.  The inner loop compares the lower 32 bits of the key, and
so counts wrongly (2012-2018); the count is a capacity, which `ra_append` enlarges. -/
def R64M.serLoop (r : R64M) : Nat → HIt → WSt → Nat → Option Bitmap → Out WSt
  | 0, _, _, _, _ => .fail
  | n + 1, it, st, prev_high32, b =>
    match it.value with
    | none =>
      match b with
      | none => .ok st
      | some b => putBucket st prev_high32 b
    | some p => do
      let current_high48 := combineKey it.key 0
      let current_high32 := current_high48 / 4294967296
      let key := current_high48 / 65536 % 65536
      match b with
      | none => do
        let _ ← r.countSame (fun k => k % 4294967296 == current_high32) FUEL it 0
        let x ← r.look p
        let it ← r.art.itNext it
        serLoop r n it st current_high32 (some [(key, x.2.2)])
      | some b =>
        if prev_high32 ≠ current_high32 then do
          let st ← putBucket st prev_high32 b
          let _ ← r.countSame (fun k => k % 4294967296 == current_high32) FUEL it 0
          let x ← r.look p
          let it ← r.art.itNext it
          serLoop r n it st current_high32 (some [(key, x.2.2)])
        else do
          let x ← r.look p
          let it ← r.art.itNext it
          serLoop r n it st prev_high32 (some (b ++ [(key, x.2.2)]))

/-- `roaring64_bitmap_portable_serialize`: src/roaring64.c:1976-2043, into the memory `mem`: the memory afterwards and the returned number of bytes. -/
def R64M.portableSerialize (r : R64M) (mem : List UInt8) : Out (List UInt8 × Nat) := do
  let high32_count ← r.countHigh32
  let st ← CRoaring.put (mem, 0) (leBytes 8 high32_count)
  let it ← r.art.initIterator true
  R64M.serLoop r FUEL it st 0 none

/-- `move_from_roaring32_offset`: src/roaring64.c:283-302. -/
def R64M.moveOffset (high_bits : Nat) : Bitmap → R64M → Out R64M
  | [], dst => .ok dst
  | (key, c) :: t, dst => do
    let x ← dst.put (splitKey ((high_bits <<< 32) ||| (key <<< 16))).1 c
    moveOffset high_bits t x.1

/-- `roaring64_bitmap_move_from_roaring32`: src/roaring64.c:304-311: the new bitmap and the source afterwards.  (The source has no containers that are shared.) -/
def R64M.moveFrom32 (bitmap32 : Bitmap) : Out (R64M × Bitmap) := do
  let r ← R64M.moveOffset 0 bitmap32 R64M.create
  .ok (r, [])

/-- `roaring64_bitmap_free(r); return NULL;`: the objects that are left. -/
def R64M.giveUp (r : R64M) : Out (List (Option Container) ⊕ R64M × Nat) := do
  let m ← r.free
  .ok (.inl m)

/-- The loop of `roaring64_bitmap_portable_deserialize_safe`: src/roaring64.c:2117-2173.  The answer is the bitmap and the number of bytes that were read, or, for
`NULL`, the objects of the bitmap that are left. -/
def R64M.deserLoop (buf : List UInt8) (maxbytes : Nat) : Nat → Nat → Int → R64M → Out (List (Option Container) ⊕ R64M × Nat)
  | 0, read_bytes, _, r => .ok (.inr (r, read_bytes))
  | n + 1, read_bytes, previous_high32, r =>
    if read_bytes + 4 > maxbytes then r.giveUp
    else do
      let high32 ← readLE buf read_bytes 4
      let read_bytes := read_bytes + 4
      if (high32 : Int) ≤ previous_high32 then r.giveUp
      else do
        let bitmap32_size ← rbPortableDeserializeSizeAt buf read_bytes (maxbytes - read_bytes)
        if bitmap32_size = 0 then r.giveUp
        else
          match rbPortableDeserializeSafe buf read_bytes (maxbytes - read_bytes) with
          | .oob => .oob
          | .fail => r.giveUp
          | .ok bitmap32 =>
            if keysOk (-1) bitmap32 then do
              let r ← R64M.moveOffset high32 bitmap32 r
              deserLoop buf maxbytes n (read_bytes + bitmap32_size) high32 r
            else r.giveUp

/-- `roaring64_bitmap_portable_deserialize_safe`: src/roaring64.c:2091-2175.  The answer as in `R64M.deserLoop`. -/
def R64M.portableDeserialize (buf : List UInt8) (maxbytes : Nat) : Out (List (Option Container) ⊕ R64M × Nat) :=
  if 8 > maxbytes then .ok (.inl [])
  else do
    let buckets ← readLE buf 0 8
    if buckets > 4294967295 then .ok (.inl [])
    else R64M.deserLoop buf maxbytes buckets 8 (-1) R64M.create

/-- The loop of `roaring64_bitmap_from_range` for large steps: src/roaring64.c:322-327. -/
def R64M.fromRangeValues (max step : Nat) : Nat → Nat → R64M → Out R64M
  | 0, _, _ => .fail
  | n + 1, value, r =>
    if value < max then do
      let r ← r.add value
      if value > TOP64 - 1 - step then .ok r else fromRangeValues max step n (value + step) r
    else .ok r

/-- The loop of `roaring64_bitmap_from_range` for small steps: src/roaring64.c:329-349.  A container that `container_from_range` does not make is an error. -/
def R64M.fromRangeContainers (max step : Nat) : Nat → Nat → R64M → Out R64M
  | 0, _, _ => .fail
  | n + 1, min, r =>
    let high_bits := clearLow min
    let container_min := min % 65536
    let container_max := minimum64 (max - high_bits) 65536 % 4294967296
    match containerFromRange container_min container_max (step % 65536) with
    | none => .oob
    | some c => do
      let x ← r.put (splitKey min).1 c
      let gap := u64 (u32 ((container_max : Int) - container_min) + step - 1)
      let increment := gap - gap % step
      if min > TOP64 - 1 - increment then .ok x.1
      else if min + increment < max then fromRangeContainers max step n (min + increment) x.1
      else .ok x.1

/-- `roaring64_bitmap_from_range`: src/roaring64.c:313-351; `none` stands for the answer `NULL`. -/
def R64M.fromRange (min max step : Nat) : Out (Option R64M) :=
  if step = 0 ∨ max ≤ min then .ok none
  else if step ≥ 65536 then do
    let r ← R64M.fromRangeValues max step FUEL min R64M.create
    .ok (some r)
  else do
    let r ← R64M.fromRangeContainers max step FUEL min R64M.create
    .ok (some r)

end CRoaring
