import Verif.Model.ContMem
import Verif.Model.Bitmap

/-! Bitmaps in memory: `roaring_array_t` with its allocation (src/roaring_array.c), and the operations of src/roaring.c that
walk over it by index.

`containers`, `keys` and `typecodes` live in one block and always have the same number of cells, so a cell is a key and a
container.  `mem` is the block: its length is `allocation_size`, and `size` of its cells are in use.  The cells behind `size`
hold whatever `roaring_malloc` or an earlier operation left there.  Every access is checked against the allocation: `Out.oob`
is an access outside of it.

Not represented here: refused allocations (see `Model/Alloc`), copy-on-write and shared containers (see `Model/Cow`), and the
freeing of containers (see `Model/Alloc`).  A pointer to a container is identified with the container in memory it points to, so
an update of a container in place is a write to its cell. -/

namespace CRoaring

/-- A cell: `keys[i]`, and `containers[i]` with `typecodes[i]`. -/
abbrev RCell := Nat × CBuf

/-- `roaring_array_t`: include/roaring/roaring_types.h:86-93. -/
structure RaBuf where
  size : Nat
  mem : List RCell

/-- The environment of the containers, and what `roaring_malloc` returns for `n` cells. -/
structure RbEnv where
  m : MemEnv
  cells : Nat → List RCell

variable (E : RbEnv)

/-! ### `roaring_array_t` -/

/-- A read of the cell `i`. -/
def cellAt (mem : List RCell) (i : Nat) : Out RCell :=
  match mem[i]? with
  | some c => .ok c
  | none => .oob

/-- A write to the cell `i`. -/
def setCell (mem : List RCell) (i : Nat) (c : RCell) : Out (List RCell) :=
  if i < mem.length then .ok (mem.set i c) else .oob

/-- `memmove` of `n` cells from `src` to `dst` inside of the block. -/
def moveCells (mem : List RCell) (dst src n : Nat) : Out (List RCell) :=
  if src + n ≤ mem.length ∧ dst + n ≤ mem.length then
    .ok (mem.take dst ++ (mem.drop src).take n ++ mem.drop (dst + n))
  else .oob

/-- `realloc_array`: src/roaring_array.c:42-78. -/
def reallocArrayBuf (b : RaBuf) (new_capacity : Nat) : Out RaBuf :=
  if new_capacity = 0 then .ok ⟨b.size, []⟩
  else
    let fresh := E.cells new_capacity
    if b.size ≤ b.mem.length ∧ b.size ≤ fresh.length then .ok ⟨b.size, b.mem.take b.size ++ fresh.drop b.size⟩ else .oob

/-- `ra_init_with_capacity`: src/roaring_array.c:80-101. -/
def raInitBuf (cap : Nat) : RaBuf :=
  let cap := if cap > 65536 then 65536 else cap
  if cap > 0 then ⟨0, E.cells cap⟩ else ⟨0, []⟩

/-- `ra_shrink_to_fit`: src/roaring_array.c:103-111, without the number of bytes it returns. -/
def raShrinkBuf (b : RaBuf) : Out RaBuf := reallocArrayBuf E b b.size

/-- `extend_array`: src/roaring_array.c:195-209. -/
def extendArrayBuf (b : RaBuf) (k : Nat) : Out RaBuf :=
  let desired_size := b.size + k
  if desired_size > b.mem.length then
    let new_capacity := if b.size < 1024 then 2 * desired_size else 5 * desired_size / 4
    let new_capacity := if new_capacity > 65536 then 65536 else new_capacity
    reallocArrayBuf E b new_capacity
  else .ok b

/-- `ra_get_key_at_index`: include/roaring/roaring_array.h:96-98; the index is a `uint16_t`. -/
def raKeyBuf (b : RaBuf) (i : Nat) : Out Nat := do
  let c ← cellAt b.mem (i % 65536)
  .ok c.1

/-- `ra_get_container_at_index`: include/roaring/roaring_array.h:87-91; the index is a `uint16_t`. -/
def raContBuf (b : RaBuf) (i : Nat) : Out CBuf := do
  let c ← cellAt b.mem (i % 65536)
  .ok c.2

/-- `ra_set_container_at_index`: include/roaring/roaring_array.h:160-165. -/
def raSetBuf (b : RaBuf) (i : Nat) (c : CBuf) : Out RaBuf := do
  let old ← cellAt b.mem i
  let mem ← setCell b.mem i (old.1, c)
  .ok ⟨b.size, mem⟩

/-- `ra_replace_key_and_container_at_index`: include/roaring/roaring_array.h:189-197. -/
def raReplaceBuf (b : RaBuf) (i key : Nat) (c : CBuf) : Out RaBuf := do
  let mem ← setCell b.mem i (key, c)
  .ok ⟨b.size, mem⟩

/-- The keys in use, as the searches below read them.  The searches read no other key. -/
def raKeysBuf (b : RaBuf) : Out (List Nat) :=
  if b.size ≤ b.mem.length then .ok ((b.mem.take b.size).map (·.1)) else .oob

/-- `ra_get_index`: include/roaring/roaring_array.h:79-82. -/
def raGetIndexBuf (b : RaBuf) (x : Nat) : Out Int := do
  let ks ← raKeysBuf b
  .ok (if b.size = 0 ∨ rdL ks (b.size - 1) = x then (b.size : Int) - 1 else binarySearch (rdL ks) b.size x)

/-- `ra_advance_until`: include/roaring/roaring_array.h:179-182. -/
def raAdvanceUntilBuf (b : RaBuf) (x pos : Nat) : Out Nat := do
  let ks ← raKeysBuf b
  .ok (advanceUntil (rdL ks) pos b.size x)

/-- `ra_advance_until_freeing`: src/roaring_array.c:339-346; `n` cells are left. -/
def raAdvanceFreeingBuf (b : RaBuf) (x : Nat) : Nat → Nat → Out Nat
  | 0, pos => .ok pos
  | n + 1, pos => do
    let c ← cellAt b.mem pos
    if c.1 < x then raAdvanceFreeingBuf b x n (pos + 1) else .ok pos

/-- `ra_append`: src/roaring_array.c:212-221. -/
def raAppendBuf (b : RaBuf) (key : Nat) (c : CBuf) : Out RaBuf := do
  let b ← extendArrayBuf E b 1
  let mem ← setCell b.mem b.size (key, c)
  .ok ⟨b.size + 1, mem⟩

/-- The loop of `ra_append_copy_range`: src/roaring_array.c:256-270 (without copy-on-write); `n` cells are left. -/
def raCopyLoop (sa : RaBuf) : Nat → Nat → RaBuf → Out RaBuf
  | 0, _, b => .ok b
  | n + 1, i, b => do
    let s ← cellAt sa.mem i
    let c ← cCloneBuf E.m s.2
    let mem ← setCell b.mem b.size (s.1, c)
    raCopyLoop sa n (i + 1) ⟨b.size + 1, mem⟩

/-- `ra_append_copy_range`: src/roaring_array.c:252-271. -/
def raAppendCopyRangeBuf (b sa : RaBuf) (start_index end_index : Nat) : Out RaBuf := do
  let b ← extendArrayBuf E b (end_index - start_index)
  raCopyLoop E sa (end_index - start_index) start_index b

/-- `ra_insert_new_key_value_at`: src/roaring_array.c:348-362. -/
def raInsertBuf (b : RaBuf) (i key : Nat) (c : CBuf) : Out RaBuf := do
  let b ← extendArrayBuf E b 1
  let mem ← moveCells b.mem (i + 1) i (b.size - i)
  let mem ← setCell mem i (key, c)
  .ok ⟨b.size + 1, mem⟩

/-- `ra_remove_at_index`: src/roaring_array.c:374-382 (and `_and_free`, 384-387). -/
def raRemoveBuf (b : RaBuf) (i : Nat) : Out RaBuf := do
  let mem ← moveCells b.mem i (i + 1) (b.size - i - 1)
  .ok ⟨b.size - 1, mem⟩

/-- `ra_copy_range`: src/roaring_array.c:394-411. -/
def raCopyRangeBuf (b : RaBuf) (start stop new_begin : Nat) : Out RaBuf := do
  let mem ← moveCells b.mem new_begin start (stop - start)
  .ok ⟨b.size, mem⟩

/-- `ra_downsize`: src/roaring_array.c:369-372. -/
def raDownsizeBuf (b : RaBuf) (new_length : Nat) : RaBuf := ⟨new_length, b.mem⟩

/-! ### Reading a container -/

/-- `container_nonzero_cardinality`: include/roaring/containers/containers.h:424-439. -/
def cNonzeroBuf : CBuf → Bool
  | .bitset b => !bitsetEmpty b
  | .array a => decide (a.card > 0)
  | .run r => decide (r.n > 0)

/-- `container_is_full`: include/roaring/containers/containers.h:250-265; `run_container_is_full` (run.h:386-389) reads the first
run, which a run container always has room for. -/
def cIsFullBuf : CBuf → Out Bool
  | .bitset b => .ok (b.card == 65536)
  | .array a => .ok (a.card == 65536)
  | .run r => do
    let x ← rdRun r.mem 0
    .ok (r.n == 1 && x.1 == 0 && x.2 == 65535)

/-- The values of a container, as the read-only functions below read them. -/
def CBuf.load : CBuf → Out Container
  | .bitset b => .ok (.bitset b)
  | .array a => do
    let l ← a.load
    .ok (.array l)
  | .run r => do
    let rs ← r.load
    .ok (.run rs)

/-! ### Creating, copying, clearing -/

/-- `roaring_bitmap_create_with_capacity`: src/roaring.c:83-96. -/
def rbCreateBuf (cap : Nat) : RaBuf := raInitBuf E cap

/-- The growth of `dest` in `ra_overwrite`: src/roaring_array.c:132-136. -/
def raReserveBuf (dest : RaBuf) (n : Nat) : Out RaBuf := if dest.mem.length < n then reallocArrayBuf E dest n else .ok dest

/-- `ra_overwrite(source, dest, false)`: src/roaring_array.c:125-166. -/
def raOverwriteBuf (source dest : RaBuf) : Out RaBuf :=
  if source.size = 0 then .ok ⟨0, dest.mem⟩
  else do
    let dest ← raReserveBuf E dest source.size
    raCopyLoop E source source.size 0 ⟨0, dest.mem⟩

/-- `roaring_bitmap_copy`: src/roaring.c:491-508. -/
def rbCopyBuf (r : RaBuf) : Out RaBuf := raOverwriteBuf E r (raInitBuf E r.size)

/-- `roaring_bitmap_overwrite`: src/roaring.c:510-515. -/
def rbOverwriteBuf (dest src : RaBuf) : Out RaBuf := raOverwriteBuf E src dest

/-- `roaring_bitmap_clear`: src/roaring.c:527-529, by `ra_reset`: src/roaring_array.c:174-178. -/
def rbClearBuf (r : RaBuf) : Out RaBuf := raShrinkBuf E ⟨0, r.mem⟩

/-! ### One value -/

/-- `roaring_bitmap_contains`: src/roaring.c:2829-2844. -/
def rbContainsBuf (r : RaBuf) (val : Nat) : Out Bool := do
  let i ← raGetIndexBuf r (val / 65536)
  if i < 0 then .ok false
  else do
    let o ← raContBuf r i.toNat
    let c ← o.load
    .ok (containerContains (val % 65536) c)

/-- `roaring_bitmap_add`: src/roaring.c:533-559. -/
def rbAddBuf (r : RaBuf) (val : Nat) : Out RaBuf := do
  let i ← raGetIndexBuf r (val / 65536)
  if i ≥ 0 then do
    let c ← raContBuf r i.toNat
    let c2 ← cAddBuf E.m (val % 65536) c
    raSetBuf r i.toNat c2
  else do
    let c ← cAddBuf E.m (val % 65536) (.array (arrayCreateBuf E.m.vals 0))
    raInsertBuf E r (-i - 1).toNat (val / 65536) c

/-- Whether two containers have different types: `container_add` returns another pointer exactly then. -/
def CBuf.changed : CBuf → CBuf → Bool
  | .bitset _, .bitset _ => false
  | .array _, .array _ => false
  | .run _, .run _ => false
  | _, _ => true

/-- `roaring_bitmap_add_checked`: src/roaring.c:561-599. -/
def rbAddCheckedBuf (r : RaBuf) (val : Nat) : Out (RaBuf × Bool) := do
  let i ← raGetIndexBuf r (val / 65536)
  if i ≥ 0 then do
    let c ← raContBuf r i.toNat
    let v ← c.load
    let c2 ← cAddBuf E.m (val % 65536) c
    let v2 ← c2.load
    let r ← raSetBuf r i.toNat c2
    .ok (r, if c.changed c2 then true else containerCard v != containerCard v2)
  else do
    let c ← cAddBuf E.m (val % 65536) (.array (arrayCreateBuf E.m.vals 0))
    let r ← raInsertBuf E r (-i - 1).toNat (val / 65536) c
    .ok (r, true)

/-- `roaring_bitmap_remove`: src/roaring.c:601-624. -/
def rbRemoveBuf (r : RaBuf) (val : Nat) : Out RaBuf := do
  let i ← raGetIndexBuf r (val / 65536)
  if i ≥ 0 then do
    let c ← raContBuf r i.toNat
    let c2 ← cRemoveBuf E.m (val % 65536) c
    let r ← raSetBuf r i.toNat c2
    if cNonzeroBuf c2 then .ok r else raRemoveBuf r i.toNat
  else .ok r

/-- `roaring_bitmap_remove_checked`: src/roaring.c:626-661. -/
def rbRemoveCheckedBuf (r : RaBuf) (val : Nat) : Out (RaBuf × Bool) := do
  let i ← raGetIndexBuf r (val / 65536)
  if i ≥ 0 then do
    let c ← raContBuf r i.toNat
    let v ← c.load
    let c2 ← cRemoveBuf E.m (val % 65536) c
    let r ← raSetBuf r i.toNat c2
    let v2 ← c2.load
    if containerCard v2 ≠ 0 then .ok (r, containerCard v != containerCard v2)
    else do
      let r ← raRemoveBuf r i.toNat
      .ok (r, containerCard v != containerCard v2)
  else .ok (r, false)

/-! ### Intersection

In the loops below `fuel` bounds the number of iterations; running out of it is `Out.fail`. -/

/-- A new container is appended if it is not empty, and freed otherwise, e.g. src/roaring.c:1022-1026. -/
def raAppendNonzeroBuf (ans : RaBuf) (key : Nat) (c : CBuf) : Out RaBuf :=
  if cNonzeroBuf c then raAppendBuf E ans key c else .ok ans

/-- The loop of `roaring_bitmap_and`: src/roaring.c:708-735. -/
def rbAndLoopBuf (x1 x2 : RaBuf) : Nat → Nat → Nat → RaBuf → Out RaBuf
  | 0, _, _, _ => .fail
  | fuel + 1, pos1, pos2, ans =>
    if pos1 < x1.size ∧ pos2 < x2.size then do
      let s1 ← raKeyBuf x1 pos1
      let s2 ← raKeyBuf x2 pos2
      if s1 = s2 then do
        let c1 ← raContBuf x1 pos1
        let c2 ← raContBuf x2 pos2
        let c ← cAndBuf E.m c1 c2
        let ans ← raAppendNonzeroBuf E ans s1 c
        rbAndLoopBuf x1 x2 fuel (pos1 + 1) (pos2 + 1) ans
      else if s1 < s2 then do
        let pos1 ← raAdvanceUntilBuf x1 s2 pos1
        rbAndLoopBuf x1 x2 fuel pos1 pos2 ans
      else do
        let pos2 ← raAdvanceUntilBuf x2 s1 pos2
        rbAndLoopBuf x1 x2 fuel pos1 pos2 ans
    else .ok ans

/-- `roaring_bitmap_and`: src/roaring.c:698-737. -/
def rbAndBuf (x1 x2 : RaBuf) : Out RaBuf :=
  rbAndLoopBuf E x1 x2 (x1.size + x2.size + 1) 0 0 (rbCreateBuf E (if x1.size > x2.size then x2.size else x1.size))

/-- The cell of a container that is not empty is written, src/roaring.c:814-821 and 1269-1275: the bitmap and `intersection_size`. -/
def rbKeepNonzeroBuf (x1 : RaBuf) (isize key : Nat) (c : CBuf) : Out (RaBuf × Nat) :=
  if cNonzeroBuf c then do
    let x1 ← raReplaceBuf x1 isize key c
    .ok (x1, isize + 1)
  else .ok (x1, isize)

/-- The loop of `roaring_bitmap_and_inplace`: src/roaring.c:788-827; the result is the bitmap and `intersection_size`. -/
def rbAndInplaceLoopBuf (length1 : Nat) (x2 : RaBuf) : Nat → Nat → Nat → Nat → RaBuf → Out (RaBuf × Nat)
  | 0, _, _, _, _ => .fail
  | fuel + 1, pos1, pos2, isize, x1 =>
    if pos1 < length1 ∧ pos2 < x2.size then do
      let s1 ← raKeyBuf x1 pos1
      let s2 ← raKeyBuf x2 pos2
      if s1 = s2 then do
        let c1 ← raContBuf x1 pos1
        let c2 ← raContBuf x2 pos2
        let c ← cIandBuf E.m c1 c2
        let p ← rbKeepNonzeroBuf x1 isize s1 c
        rbAndInplaceLoopBuf length1 x2 fuel (pos1 + 1) (pos2 + 1) p.2 p.1
      else if s1 < s2 then do
        let pos1 ← raAdvanceFreeingBuf x1 s2 (x1.size - pos1) pos1
        rbAndInplaceLoopBuf length1 x2 fuel pos1 pos2 isize x1
      else do
        let pos2 ← raAdvanceUntilBuf x2 s1 pos2
        rbAndInplaceLoopBuf length1 x2 fuel pos1 pos2 isize x1
    else .ok (x1, isize)

/-- `roaring_bitmap_and_inplace`: src/roaring.c:779-842, for two distinct bitmaps. -/
def rbAndInplaceBuf (x1 x2 : RaBuf) : Out RaBuf := do
  let p ← rbAndInplaceLoopBuf E x1.size x2 (x1.size + x2.size + 1) 0 0 0 x1
  .ok (raDownsizeBuf p.1 p.2)

/-! ### Union -/

/-- The loop of `roaring_bitmap_or` and the appended rest: src/roaring.c:861-919.  `s1` and `s2` are the keys at `pos1` and `pos2`. -/
def rbOrLoopBuf (x1 x2 : RaBuf) : Nat → Nat → Nat → Nat → Nat → RaBuf → Out RaBuf
  | 0, _, _, _, _, _ => .fail
  | fuel + 1, pos1, pos2, s1, s2, ans =>
    if s1 = s2 then do
      let c1 ← raContBuf x1 pos1
      let c2 ← raContBuf x2 pos2
      let c ← cOrBuf E.m c1 c2
      let ans ← raAppendBuf E ans s1 c
      if pos1 + 1 = x1.size then raAppendCopyRangeBuf E ans x2 (pos2 + 1) x2.size
      else if pos2 + 1 = x2.size then raAppendCopyRangeBuf E ans x1 (pos1 + 1) x1.size
      else do
        let s1 ← raKeyBuf x1 (pos1 + 1)
        let s2 ← raKeyBuf x2 (pos2 + 1)
        rbOrLoopBuf x1 x2 fuel (pos1 + 1) (pos2 + 1) s1 s2 ans
    else if s1 < s2 then do
      let c1 ← raContBuf x1 pos1
      let c1 ← cCloneBuf E.m c1
      let ans ← raAppendBuf E ans s1 c1
      if pos1 + 1 = x1.size then raAppendCopyRangeBuf E ans x2 pos2 x2.size
      else do
        let s1 ← raKeyBuf x1 (pos1 + 1)
        rbOrLoopBuf x1 x2 fuel (pos1 + 1) pos2 s1 s2 ans
    else do
      let c2 ← raContBuf x2 pos2
      let c2 ← cCloneBuf E.m c2
      let ans ← raAppendBuf E ans s2 c2
      if pos2 + 1 = x2.size then raAppendCopyRangeBuf E ans x1 pos1 x1.size
      else do
        let s2 ← raKeyBuf x2 (pos2 + 1)
        rbOrLoopBuf x1 x2 fuel pos1 (pos2 + 1) s1 s2 ans

/-- `roaring_bitmap_or`: src/roaring.c:844-920. -/
def rbOrBuf (x1 x2 : RaBuf) : Out RaBuf :=
  if x1.size = 0 then rbCopyBuf E x2
  else if x2.size = 0 then rbCopyBuf E x1
  else do
    let s1 ← raKeyBuf x1 0
    let s2 ← raKeyBuf x2 0
    rbOrLoopBuf E x1 x2 (x1.size + x2.size) 0 0 s1 s2 (rbCreateBuf E (x1.size + x2.size))

/-- The case of equal keys in `roaring_bitmap_or_inplace`: src/roaring.c:940-956. -/
def rbIorCellBuf (x1 x2 : RaBuf) (pos1 pos2 : Nat) : Out RaBuf := do
  let c1 ← raContBuf x1 pos1
  let full ← cIsFullBuf c1
  if !full then do
    let c2 ← raContBuf x2 pos2
    let c ← cIorBuf E.m c1 c2
    raSetBuf x1 pos1 c
  else .ok x1

/-- The loop of `roaring_bitmap_or_inplace` and the appended rest: src/roaring.c:939-992. -/
def rbOrInplaceLoopBuf (x2 : RaBuf) : Nat → Nat → Nat → Nat → Nat → Nat → RaBuf → Out RaBuf
  | 0, _, _, _, _, _, _ => .fail
  | fuel + 1, length1, pos1, pos2, s1, s2, x1 =>
    if s1 = s2 then do
      let x1 ← rbIorCellBuf E x1 x2 pos1 pos2
      if pos1 + 1 = length1 then raAppendCopyRangeBuf E x1 x2 (pos2 + 1) x2.size
      else if pos2 + 1 = x2.size then .ok x1
      else do
        let s1 ← raKeyBuf x1 (pos1 + 1)
        let s2 ← raKeyBuf x2 (pos2 + 1)
        rbOrInplaceLoopBuf x2 fuel length1 (pos1 + 1) (pos2 + 1) s1 s2 x1
    else if s1 < s2 then
      if pos1 + 1 = length1 then raAppendCopyRangeBuf E x1 x2 pos2 x2.size
      else do
        let s1 ← raKeyBuf x1 (pos1 + 1)
        rbOrInplaceLoopBuf x2 fuel length1 (pos1 + 1) pos2 s1 s2 x1
    else do
      let c2 ← raContBuf x2 pos2
      let c2 ← cCloneBuf E.m c2
      let x1 ← raInsertBuf E x1 pos1 s2 c2
      if pos2 + 1 = x2.size then
        if pos1 + 1 = length1 + 1 then raAppendCopyRangeBuf E x1 x2 (pos2 + 1) x2.size else .ok x1
      else do
        let s2 ← raKeyBuf x2 (pos2 + 1)
        rbOrInplaceLoopBuf x2 fuel (length1 + 1) (pos1 + 1) (pos2 + 1) s1 s2 x1

/-- `roaring_bitmap_or_inplace`: src/roaring.c:923-993, for two distinct bitmaps. -/
def rbOrInplaceBuf (x1 x2 : RaBuf) : Out RaBuf :=
  if x2.size = 0 then .ok x1
  else if x1.size = 0 then rbOverwriteBuf E x1 x2
  else do
    let s1 ← raKeyBuf x1 0
    let s2 ← raKeyBuf x2 0
    rbOrInplaceLoopBuf E x2 (x1.size + x2.size) x1.size 0 0 s1 s2 x1

/-! ### Symmetric difference -/

/-- The loop of `roaring_bitmap_xor` and the appended rest: src/roaring.c:1012-1069. -/
def rbXorLoopBuf (x1 x2 : RaBuf) : Nat → Nat → Nat → Nat → Nat → RaBuf → Out RaBuf
  | 0, _, _, _, _, _ => .fail
  | fuel + 1, pos1, pos2, s1, s2, ans =>
    if s1 = s2 then do
      let c1 ← raContBuf x1 pos1
      let c2 ← raContBuf x2 pos2
      let c ← cXorBuf E.m c1 c2
      let ans ← raAppendNonzeroBuf E ans s1 c
      if pos1 + 1 = x1.size then raAppendCopyRangeBuf E ans x2 (pos2 + 1) x2.size
      else if pos2 + 1 = x2.size then raAppendCopyRangeBuf E ans x1 (pos1 + 1) x1.size
      else do
        let s1 ← raKeyBuf x1 (pos1 + 1)
        let s2 ← raKeyBuf x2 (pos2 + 1)
        rbXorLoopBuf x1 x2 fuel (pos1 + 1) (pos2 + 1) s1 s2 ans
    else if s1 < s2 then do
      let c1 ← raContBuf x1 pos1
      let c1 ← cCloneBuf E.m c1
      let ans ← raAppendBuf E ans s1 c1
      if pos1 + 1 = x1.size then raAppendCopyRangeBuf E ans x2 pos2 x2.size
      else do
        let s1 ← raKeyBuf x1 (pos1 + 1)
        rbXorLoopBuf x1 x2 fuel (pos1 + 1) pos2 s1 s2 ans
    else do
      let c2 ← raContBuf x2 pos2
      let c2 ← cCloneBuf E.m c2
      let ans ← raAppendBuf E ans s2 c2
      if pos2 + 1 = x2.size then raAppendCopyRangeBuf E ans x1 pos1 x1.size
      else do
        let s2 ← raKeyBuf x2 (pos2 + 1)
        rbXorLoopBuf x1 x2 fuel pos1 (pos2 + 1) s1 s2 ans

/-- `roaring_bitmap_xor`: src/roaring.c:995-1070. -/
def rbXorBuf (x1 x2 : RaBuf) : Out RaBuf :=
  if x1.size = 0 then rbCopyBuf E x2
  else if x2.size = 0 then rbCopyBuf E x1
  else do
    let s1 ← raKeyBuf x1 0
    let s2 ← raKeyBuf x2 0
    rbXorLoopBuf E x1 x2 (x1.size + x2.size) 0 0 s1 s2 (rbCreateBuf E (x1.size + x2.size))

/-- What `roaring_bitmap_xor_inplace` does after two containers with equal keys, src/roaring.c:1116-1132: the bitmap, `pos1` and
`length1`. -/
def rbXorCellBuf (x1 : RaBuf) (length1 pos1 : Nat) (c : CBuf) : Out (RaBuf × Nat × Nat) :=
  if cNonzeroBuf c then do
    let x1 ← raSetBuf x1 pos1 c
    .ok (x1, pos1 + 1, length1)
  else do
    let x1 ← raRemoveBuf x1 pos1
    .ok (x1, pos1, length1 - 1)

/-- The loop of `roaring_bitmap_xor_inplace` and the appended rest: src/roaring.c:1095-1158. -/
def rbXorInplaceLoopBuf (x2 : RaBuf) : Nat → Nat → Nat → Nat → Nat → Nat → RaBuf → Out RaBuf
  | 0, _, _, _, _, _, _ => .fail
  | fuel + 1, length1, pos1, pos2, s1, s2, x1 =>
    if s1 = s2 then do
      let c1 ← raContBuf x1 pos1
      let c2 ← raContBuf x2 pos2
      let c ← cXorBuf E.m c1 c2
      let p ← rbXorCellBuf x1 length1 pos1 c
      if p.2.1 = p.2.2 then raAppendCopyRangeBuf E p.1 x2 (pos2 + 1) x2.size
      else if pos2 + 1 = x2.size then .ok p.1
      else do
        let s1 ← raKeyBuf p.1 p.2.1
        let s2 ← raKeyBuf x2 (pos2 + 1)
        rbXorInplaceLoopBuf x2 fuel p.2.2 p.2.1 (pos2 + 1) s1 s2 p.1
    else if s1 < s2 then
      if pos1 + 1 = length1 then raAppendCopyRangeBuf E x1 x2 pos2 x2.size
      else do
        let s1 ← raKeyBuf x1 (pos1 + 1)
        rbXorInplaceLoopBuf x2 fuel length1 (pos1 + 1) pos2 s1 s2 x1
    else do
      let c2 ← raContBuf x2 pos2
      let c2 ← cCloneBuf E.m c2
      let x1 ← raInsertBuf E x1 pos1 s2 c2
      if pos2 + 1 = x2.size then
        if pos1 + 1 = length1 + 1 then raAppendCopyRangeBuf E x1 x2 (pos2 + 1) x2.size else .ok x1
      else do
        let s2 ← raKeyBuf x2 (pos2 + 1)
        rbXorInplaceLoopBuf x2 fuel (length1 + 1) (pos1 + 1) (pos2 + 1) s1 s2 x1

/-- `roaring_bitmap_xor_inplace`: src/roaring.c:1074-1159 (`x1` and `x2` are distinct objects). -/
def rbXorInplaceBuf (x1 x2 : RaBuf) : Out RaBuf :=
  if x2.size = 0 then .ok x1
  else if x1.size = 0 then rbOverwriteBuf E x1 x2
  else do
    let s1 ← raKeyBuf x1 0
    let s2 ← raKeyBuf x2 0
    rbXorInplaceLoopBuf E x2 (x1.size + x2.size) x1.size 0 0 s1 s2 x1

/-! ### Difference -/

/-- The loop of `roaring_bitmap_andnot` and the appended rest: src/roaring.c:1182-1223. -/
def rbAndnotLoopBuf (x1 x2 : RaBuf) : Nat → Nat → Nat → RaBuf → Out RaBuf
  | 0, _, _, _ => .fail
  | fuel + 1, pos1, pos2, ans => do
    let s1 ← raKeyBuf x1 pos1
    let s2 ← raKeyBuf x2 pos2
    if s1 = s2 then do
      let c1 ← raContBuf x1 pos1
      let c2 ← raContBuf x2 pos2
      let c ← cAndnotBuf E.m c1 c2
      let ans ← raAppendNonzeroBuf E ans s1 c
      if pos1 + 1 = x1.size then
        if pos2 + 1 = x2.size then raAppendCopyRangeBuf E ans x1 (pos1 + 1) x1.size else .ok ans
      else if pos2 + 1 = x2.size then raAppendCopyRangeBuf E ans x1 (pos1 + 1) x1.size
      else rbAndnotLoopBuf x1 x2 fuel (pos1 + 1) (pos2 + 1) ans
    else if s1 < s2 then do
      let next_pos1 ← raAdvanceUntilBuf x1 s2 pos1
      let ans ← raAppendCopyRangeBuf E ans x1 pos1 next_pos1
      if next_pos1 = x1.size then .ok ans
      else rbAndnotLoopBuf x1 x2 fuel next_pos1 pos2 ans
    else do
      let pos2 ← raAdvanceUntilBuf x2 s1 pos2
      if pos2 = x2.size then raAppendCopyRangeBuf E ans x1 pos1 x1.size
      else rbAndnotLoopBuf x1 x2 fuel pos1 pos2 ans

/-- `roaring_bitmap_andnot`: src/roaring.c:1161-1224. -/
def rbAndnotBuf (x1 x2 : RaBuf) : Out RaBuf :=
  if x1.size = 0 then .ok (rbCreateBuf E 0)
  else if x2.size = 0 then rbCopyBuf E x1
  else rbAndnotLoopBuf E x1 x2 (x1.size + x2.size) 0 0 (rbCreateBuf E x1.size)

/-- The left slide of the remaining cells in `roaring_bitmap_andnot_inplace`: src/roaring.c:1311-1315. -/
def rbSlideBuf (x1 : RaBuf) (pos1 length1 isize : Nat) : Out RaBuf :=
  if pos1 > isize then raCopyRangeBuf x1 pos1 length1 isize else .ok x1

/-- The end of `roaring_bitmap_andnot_inplace`: src/roaring.c:1304-1319. -/
def rbAndnotEndBuf (length1 pos1 isize : Nat) (x1 : RaBuf) : Out RaBuf :=
  if pos1 < length1 then do
    let x1 ← rbSlideBuf x1 pos1 length1 isize
    .ok (raDownsizeBuf x1 (isize + (length1 - pos1)))
  else .ok (raDownsizeBuf x1 isize)

/-- The cell at `pos1` is kept, src/roaring.c:1285-1291. -/
def rbKeepCellBuf (x1 : RaBuf) (pos1 isize key : Nat) : Out RaBuf :=
  if pos1 ≠ isize then do
    let c1 ← raContBuf x1 pos1
    raReplaceBuf x1 isize key c1
  else .ok x1

/-- The loop of `roaring_bitmap_andnot_inplace`: src/roaring.c:1248-1302. -/
def rbAndnotInplaceLoopBuf (length1 : Nat) (x2 : RaBuf) : Nat → Nat → Nat → Nat → Nat → Nat → RaBuf → Out RaBuf
  | 0, _, _, _, _, _, _ => .fail
  | fuel + 1, pos1, pos2, isize, s1, s2, x1 =>
    if s1 = s2 then do
      let c1 ← raContBuf x1 pos1
      let c2 ← raContBuf x2 pos2
      let c ← cIandnotBuf E.m c1 c2
      let p ← rbKeepNonzeroBuf x1 isize s1 c
      if pos1 + 1 = length1 then rbAndnotEndBuf length1 (pos1 + 1) p.2 p.1
      else if pos2 + 1 = x2.size then rbAndnotEndBuf length1 (pos1 + 1) p.2 p.1
      else do
        let s1 ← raKeyBuf p.1 (pos1 + 1)
        let s2 ← raKeyBuf x2 (pos2 + 1)
        rbAndnotInplaceLoopBuf length1 x2 fuel (pos1 + 1) (pos2 + 1) p.2 s1 s2 p.1
    else if s1 < s2 then do
      let x1 ← rbKeepCellBuf x1 pos1 isize s1
      if pos1 + 1 = length1 then rbAndnotEndBuf length1 (pos1 + 1) (isize + 1) x1
      else do
        let s1 ← raKeyBuf x1 (pos1 + 1)
        rbAndnotInplaceLoopBuf length1 x2 fuel (pos1 + 1) pos2 (isize + 1) s1 s2 x1
    else do
      let pos2 ← raAdvanceUntilBuf x2 s1 pos2
      if pos2 = x2.size then rbAndnotEndBuf length1 pos1 isize x1
      else do
        let s2 ← raKeyBuf x2 pos2
        rbAndnotInplaceLoopBuf length1 x2 fuel pos1 pos2 isize s1 s2 x1

/-- `roaring_bitmap_andnot_inplace`: src/roaring.c:1228-1320 (`x1` and `x2` are distinct objects). -/
def rbAndnotInplaceBuf (x1 x2 : RaBuf) : Out RaBuf :=
  if x2.size = 0 then .ok x1
  else if x1.size = 0 then rbClearBuf E x1
  else do
    let s1 ← raKeyBuf x1 0
    let s2 ← raKeyBuf x2 0
    rbAndnotInplaceLoopBuf E x1.size x2 (x1.size + x2.size) 0 0 0 s1 s2 x1

end CRoaring
