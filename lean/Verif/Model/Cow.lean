import Verif.Model.Range
import Verif.Model.Query
import Verif.Model.Bulk

/-! Model of the memory side of bitmaps: copy-on-write, shared containers and their reference counts
(src/containers/containers.c:169-250, include/roaring/containers/containers.h:85-140, src/roaring_array.c,
src/roaring.c).

The heap maps addresses to cells.  A cell is a container allocated on its own, or the shell of a shared
container (`shared_container_t`) together with the container it wraps: the wrapped container is only reached
through its shell, so the two blocks are one cell here.  Fresh addresses are never reused, so that every use
of a freed block is visible: an operation is `none` when the program would read, write or free a block that
is not allocated, treat a plain container as a shared one or conversely, use a null container, or decrement
a reference count that is zero.  All of these are undefined behaviour in C.

A slot of a bitmap holds the key, the address of the container, and whether the typecode is
`SHARED_CONTAINER_TYPE`.  The other typecodes describe the container that is stored at the address; they are
part of the cell.  Allocation never fails.

The container functions that work in place may give back the same block or a new one; which one happens does
not matter for the contents and is left open: an oracle `o : Nat → Bool`, indexed by key, decides.  The
capacities of array containers are a parameter `caps`, as in `Verif/Model/Bitmap.lean`. -/

namespace CRoaring

/-- An allocated block: a container, or a `shared_container_t` with its container and its counter:
`include/roaring/containers/containers.h:70-80`. -/
inductive Cell where
  | plain (c : Container)
  | shared (c : Container) (counter : Nat)

/-- The heap: the allocated blocks and a bound on their addresses. -/
structure Heap where
  next : Nat
  cell : Nat → Option Cell

/-- A heap without blocks. -/
def Heap.init : Heap := ⟨0, fun _ => none⟩

/-- A container pointer with the part of its typecode that says whether it is shared. -/
structure Ref where
  sh : Bool
  addr : Nat
deriving DecidableEq

/-- A cell of a `roaring_array_t`: the key and the container pointer. -/
abbrev Slot := Nat × Ref

/-- A `roaring_bitmap_t`: the flag `ROARING_FLAG_COW` and the cells. -/
structure HBitmap where
  cow : Bool
  slots : List Slot

/-- Store `v` at the address `a`. -/
def Heap.put (h : Heap) (a : Nat) (v : Option Cell) : Heap :=
  { h with cell := fun b => if b = a then v else h.cell b }

/-- Allocation of a block. -/
def Heap.alloc (h : Heap) (v : Cell) : Nat × Heap :=
  (h.next, ⟨h.next + 1, fun b => if b = h.next then some v else h.cell b⟩)

/-- A new container. -/
def newC (h : Heap) (c : Container) : Ref × Heap :=
  let p := h.alloc (.plain c)
  (⟨false, p.1⟩, p.2)

/-- `container_unwrap_shared`: `include/roaring/containers/containers.h:92-101`. -/
def readC (h : Heap) (r : Ref) : Option Container :=
  match r.sh, h.cell r.addr with
  | false, some (.plain c) => some c
  | true, some (.shared c _) => some c
  | _, _ => none

/-- `container_free`: `src/containers/containers.c:47-65`, and `shared_container_free`:
`src/containers/containers.c:243-250`. -/
def freeC (h : Heap) (r : Ref) : Option Heap :=
  match r.sh, h.cell r.addr with
  | false, some (.plain _) => some (h.put r.addr none)
  | true, some (.shared c n) =>
    if n = 0 then none
    else if n - 1 = 0 then some (h.put r.addr none)
    else some (h.put r.addr (some (.shared c (n - 1))))
  | _, _ => none

/-- `container_clone`: `src/containers/containers.c:206-225`; it gives the null pointer for a shared
container. -/
def cloneC (h : Heap) (r : Ref) : Option (Ref × Heap) :=
  match r.sh, h.cell r.addr with
  | false, some (.plain c) => some (newC h c)
  | _, _ => none

/-- `shared_container_extract_copy`: `src/containers/containers.c:227-241`. -/
def extractCopy (h : Heap) (a : Nat) : Option (Ref × Heap) :=
  match h.cell a with
  | some (.shared c n) =>
    if n = 0 then none
    else if n - 1 = 0 then some (newC (h.put a none) c)
    else some (newC (h.put a (some (.shared c (n - 1)))) c)
  | _ => none

/-- `get_writable_copy_if_shared`: `include/roaring/containers/containers.h:133-140`;
`ra_unshare_container_at_index`: `include/roaring/roaring_array.h:256-261`. -/
def unshareC (h : Heap) (r : Ref) : Option (Ref × Heap) :=
  if r.sh then extractCopy h r.addr else some (r, h)

/-- `get_copy_of_container`: `src/containers/containers.c:169-200`: the copy, and the pointer that the
callers store back into the source when `cow` is set. -/
def getCopyOf (cow : Bool) (h : Heap) (r : Ref) : Option (Ref × Ref × Heap) :=
  if cow then
    match r.sh, h.cell r.addr with
    | true, some (.shared c n) => some (r, r, h.put r.addr (some (.shared c (n + 1))))
    | false, some (.plain c) =>
      let p := (h.put r.addr none).alloc (.shared c 2)
      some (⟨true, p.1⟩, ⟨true, p.1⟩, p.2)
    | _, _ => none
  else
    match readC h r with
    | some c => let p := newC h c; some (p.1, r, p.2)
    | none => none

/-- The copy of one cell in `ra_append_copy`, `ra_append_copy_range`, `ra_overwrite`:
`src/roaring_array.c:145-165,225-268`: the copy, and the cell of the source. -/
def appendCopy (cow : Bool) (h : Heap) (r : Ref) : Option (Ref × Ref × Heap) :=
  if cow then getCopyOf true h r
  else match cloneC h r with
    | some (r', h') => some (r', r, h')
    | none => none

/-- Writing into a container that is not shared. -/
def writeC (h : Heap) (r : Ref) (c : Container) : Option Heap :=
  match r.sh, h.cell r.addr with
  | false, some (.plain _) => some (h.put r.addr (some (.plain c)))
  | _, _ => none

/-- `new = op(old); if (new != old) container_free(old, type)`, where `op` may work in place (`o`) and computes
`c`.  Also an in-place `op` that frees the old container itself when it gives back a new one. -/
def replaceC (o : Bool) (h : Heap) (r : Ref) (c : Container) : Option (Ref × Heap) :=
  if o then (writeC h r c).map (fun h' => (r, h'))
  else
    let p := newC h c
    (freeC p.2 r).map (fun h' => (p.1, h'))

/-- The update of a container by a new one if it is shared and in place otherwise:
`src/roaring.c:806-815,948-962,1108-1114,1261-1267`. -/
def replaceShared (o : Bool) (h : Heap) (r : Ref) (c : Container) : Option (Ref × Heap) :=
  replaceC (o && !r.sh) h r c

/-- The keys of an array of cells, as a bitmap with irrelevant containers, for the searches over keys. -/
def skel (s : List Slot) : Bitmap := s.map (fun p => (p.1, .array []))

/-- A cell of the array. -/
def slotAt (s : List Slot) (i : Nat) : Slot := s.getD i (0, ⟨false, 0⟩)

/-- The copies of a range of cells, `ra_append_copy_range`: `src/roaring_array.c:252-271`: the copies and the
cells of the source. -/
def copySlots (cow : Bool) : Heap → List Slot → Option (List Slot × List Slot × Heap)
  | h, [] => some ([], [], h)
  | h, (k, r) :: t => do
    let (r1, r2, h) ← appendCopy cow h r
    let (t1, t2, h) ← copySlots cow h t
    some ((k, r1) :: t1, (k, r2) :: t2, h)

/-- `ra_clear_containers`: `src/roaring_array.c:169-173`. -/
def freeSlots : Heap → List Slot → Option Heap
  | h, [] => some h
  | h, (_, r) :: t => do
    let h ← freeC h r
    freeSlots h t

/-- `roaring_bitmap_create` and `roaring_bitmap_set_copy_on_write` on a new bitmap: `src/roaring.c:83-96`,
`include/roaring/roaring.h:86-97`. -/
def hCreate (cow : Bool) : HBitmap := ⟨cow, []⟩

/-- `roaring_bitmap_copy`: `src/roaring.c:491-510`, with `ra_overwrite`: `src/roaring_array.c:126-167`; the
copy and the source.  The error branch of `ra_overwrite` (a null clone) is `none` here. -/
def hCopy (h : Heap) (x : HBitmap) : Option (HBitmap × HBitmap × Heap) := do
  let (a, s, h) ← copySlots x.cow h x.slots
  some (⟨x.cow, a⟩, ⟨x.cow, s⟩, h)

/-- `roaring_bitmap_overwrite`: `src/roaring.c:512-517` (`dest` and `src` are distinct objects): the new `dest`
and `src`. -/
def hOverwrite (h : Heap) (dest src : HBitmap) : Option (HBitmap × HBitmap × Heap) := do
  let h ← freeSlots h dest.slots
  let (a, s, h) ← copySlots src.cow h src.slots
  some (⟨src.cow, a⟩, ⟨src.cow, s⟩, h)

/-- `roaring_bitmap_clear`: `src/roaring.c:529-531`, `ra_reset`: `src/roaring_array.c:175-179`. -/
def hClear (h : Heap) (x : HBitmap) : Option (HBitmap × Heap) := do
  let h ← freeSlots h x.slots
  some (⟨x.cow, []⟩, h)

/-- `roaring_bitmap_free`: `src/roaring.c:519-527`. -/
def hFree (h : Heap) (x : HBitmap) : Option Heap := freeSlots h x.slots

/-- `roaring_bitmap_add`: `src/roaring.c:533-559`. -/
def hAdd (o : Nat → Bool) (h : Heap) (x : HBitmap) (val : Nat) : Option (HBitmap × Heap) :=
  let i := raGetIndex (skel x.slots) (val / 65536)
  if i ≥ 0 then do
    let s := slotAt x.slots i.toNat
    let (r, h) ← unshareC h s.2
    let c ← readC h r
    let (r, h) ← replaceC (o s.1) h r (containerAdd (val % 65536) c)
    some (⟨x.cow, x.slots.set i.toNat (s.1, r)⟩, h)
  else
    let p := newC h (containerAdd (val % 65536) (.array []))
    let j := (-i - 1).toNat
    some (⟨x.cow, x.slots.take j ++ (val / 65536, p.1) :: x.slots.drop j⟩, p.2)

/-- `roaring_bitmap_remove`: `src/roaring.c:599-622`. -/
def hRemove (o : Nat → Bool) (h : Heap) (x : HBitmap) (val : Nat) : Option (HBitmap × Heap) :=
  let i := raGetIndex (skel x.slots) (val / 65536)
  if i ≥ 0 then do
    let s := slotAt x.slots i.toNat
    let (r, h) ← unshareC h s.2
    let c ← readC h r
    let (r, h) ← replaceC (o s.1) h r (containerRemove (val % 65536) c)
    let c2 ← readC h r
    if containerNonzero c2 then some (⟨x.cow, x.slots.set i.toNat (s.1, r)⟩, h)
    else do
      let h ← freeC h r
      some (⟨x.cow, x.slots.take i.toNat ++ x.slots.drop (i.toNat + 1)⟩, h)
  else some (x, h)

/-- The loop of `roaring_bitmap_and`: `src/roaring.c:714-738`: the cells of the answer. -/
def hAndLoop (h : Heap) (x1 x2 : List Slot) : Option (List Slot × Heap) :=
  match x1, x2 with
  | [], _ => some ([], h)
  | _, [] => some ([], h)
  | (s1, r1) :: t1, (s2, r2) :: t2 =>
    if s1 = s2 then do
      let c1 ← readC h r1
      let c2 ← readC h r2
      let p := newC h (containerAnd c1 c2)
      if containerNonzero (containerAnd c1 c2) then do
        let (a, h) ← hAndLoop p.2 t1 t2
        some ((s1, p.1) :: a, h)
      else do
        let h ← freeC p.2 p.1
        hAndLoop h t1 t2
    else if s1 < s2 then
      hAndLoop h (((s1, r1) :: t1).drop (max 1 (raAdvanceFrom (skel ((s1, r1) :: t1)) s2 1))) ((s2, r2) :: t2)
    else hAndLoop h ((s1, r1) :: t1) (((s2, r2) :: t2).drop (max 1 (raAdvanceFrom (skel ((s2, r2) :: t2)) s1 1)))
termination_by x1.length + x2.length
decreasing_by all_goals simp only [List.length_drop, List.length_cons]; omega

/-- `roaring_bitmap_and`: `src/roaring.c:698-737`. -/
def hAnd (h : Heap) (x1 x2 : HBitmap) : Option (HBitmap × Heap) := do
  let (a, h) ← hAndLoop h x1.slots x2.slots
  some (⟨x1.cow || x2.cow, a⟩, h)

/-- The loop of `roaring_bitmap_or` and the copies of the rest: `src/roaring.c:861-919`: the cells of the answer,
of `x1` and of `x2`. -/
def hOrLoop (cow1 cow2 : Bool) (h : Heap) (x1 x2 : List Slot) :
    Option (List Slot × List Slot × List Slot × Heap) :=
  match x1, x2 with
  | [], x2 => do
    let (a, x2', h) ← copySlots cow2 h x2
    some (a, [], x2', h)
  | x1, [] => do
    let (a, x1', h) ← copySlots cow1 h x1
    some (a, x1', [], h)
  | (s1, r1) :: t1, (s2, r2) :: t2 =>
    if s1 = s2 then do
      let c1 ← readC h r1
      let c2 ← readC h r2
      let p := newC h (containerOr c1 c2)
      let (a, t1', t2', h) ← hOrLoop cow1 cow2 p.2 t1 t2
      some ((s1, p.1) :: a, (s1, r1) :: t1', (s2, r2) :: t2', h)
    else if s1 < s2 then do
      let (r, r1', h) ← getCopyOf cow1 h r1
      let (a, t1', x2', h) ← hOrLoop cow1 cow2 h t1 ((s2, r2) :: t2)
      some ((s1, r) :: a, (s1, r1') :: t1', x2', h)
    else do
      let (r, r2', h) ← getCopyOf cow2 h r2
      let (a, x1', t2', h) ← hOrLoop cow1 cow2 h ((s1, r1) :: t1) t2
      some ((s2, r) :: a, x1', (s2, r2') :: t2', h)
termination_by x1.length + x2.length

/-- `roaring_bitmap_or`: `src/roaring.c:844-920` (`x1` and `x2` are distinct objects): the answer, `x1` and
`x2`. -/
def hOr (h : Heap) (x1 x2 : HBitmap) : Option (HBitmap × HBitmap × HBitmap × Heap) :=
  if x1.slots.length = 0 then do
    let (a, x2, h) ← hCopy h x2
    some (a, x1, x2, h)
  else if x2.slots.length = 0 then do
    let (a, x1, h) ← hCopy h x1
    some (a, x1, x2, h)
  else do
    let (a, s1, s2, h) ← hOrLoop x1.cow x2.cow h x1.slots x2.slots
    some (⟨x1.cow || x2.cow, a⟩, ⟨x1.cow, s1⟩, ⟨x2.cow, s2⟩, h)

/-- The loop of `roaring_bitmap_xor` and the copies of the rest: `src/roaring.c:1012-1069`. -/
def hXorLoop (cow1 cow2 : Bool) (h : Heap) (x1 x2 : List Slot) :
    Option (List Slot × List Slot × List Slot × Heap) :=
  match x1, x2 with
  | [], x2 => do
    let (a, x2', h) ← copySlots cow2 h x2
    some (a, [], x2', h)
  | x1, [] => do
    let (a, x1', h) ← copySlots cow1 h x1
    some (a, x1', [], h)
  | (s1, r1) :: t1, (s2, r2) :: t2 =>
    if s1 = s2 then do
      let c1 ← readC h r1
      let c2 ← readC h r2
      let p := newC h (containerXor c1 c2)
      if containerNonzero (containerXor c1 c2) then do
        let (a, t1', t2', h) ← hXorLoop cow1 cow2 p.2 t1 t2
        some ((s1, p.1) :: a, (s1, r1) :: t1', (s2, r2) :: t2', h)
      else do
        let h ← freeC p.2 p.1
        let (a, t1', t2', h) ← hXorLoop cow1 cow2 h t1 t2
        some (a, (s1, r1) :: t1', (s2, r2) :: t2', h)
    else if s1 < s2 then do
      let (r, r1', h) ← getCopyOf cow1 h r1
      let (a, t1', x2', h) ← hXorLoop cow1 cow2 h t1 ((s2, r2) :: t2)
      some ((s1, r) :: a, (s1, r1') :: t1', x2', h)
    else do
      let (r, r2', h) ← getCopyOf cow2 h r2
      let (a, x1', t2', h) ← hXorLoop cow1 cow2 h ((s1, r1) :: t1) t2
      some ((s2, r) :: a, x1', (s2, r2') :: t2', h)
termination_by x1.length + x2.length

/-- `roaring_bitmap_xor`: `src/roaring.c:997-1070` (`x1` and `x2` are distinct objects). -/
def hXor (h : Heap) (x1 x2 : HBitmap) : Option (HBitmap × HBitmap × HBitmap × Heap) :=
  if x1.slots.length = 0 then do
    let (a, x2, h) ← hCopy h x2
    some (a, x1, x2, h)
  else if x2.slots.length = 0 then do
    let (a, x1, h) ← hCopy h x1
    some (a, x1, x2, h)
  else do
    let (a, s1, s2, h) ← hXorLoop x1.cow x2.cow h x1.slots x2.slots
    some (⟨x1.cow || x2.cow, a⟩, ⟨x1.cow, s1⟩, ⟨x2.cow, s2⟩, h)

/-- The loop of `roaring_bitmap_andnot` and the copies of the rest: `src/roaring.c:1182-1223`: the cells of the
answer and of `x1`. -/
def hAndnotLoop (cow1 : Bool) (h : Heap) (x1 x2 : List Slot) : Option (List Slot × List Slot × Heap) :=
  match x1, x2 with
  | [], _ => some ([], [], h)
  | x1, [] => copySlots cow1 h x1
  | (s1, r1) :: t1, (s2, r2) :: t2 =>
    if s1 = s2 then do
      let c1 ← readC h r1
      let c2 ← readC h r2
      let p := newC h (containerAndnot c1 c2)
      if containerNonzero (containerAndnot c1 c2) then do
        let (a, t1', h) ← hAndnotLoop cow1 p.2 t1 t2
        some ((s1, p.1) :: a, (s1, r1) :: t1', h)
      else do
        let h ← freeC p.2 p.1
        let (a, t1', h) ← hAndnotLoop cow1 h t1 t2
        some (a, (s1, r1) :: t1', h)
    else if s1 < s2 then do
      let n := max 1 (raAdvanceFrom (skel ((s1, r1) :: t1)) s2 1)
      let (a, p', h) ← copySlots cow1 h (((s1, r1) :: t1).take n)
      let (b, t1', h) ← hAndnotLoop cow1 h (((s1, r1) :: t1).drop n) ((s2, r2) :: t2)
      some (a ++ b, p' ++ t1', h)
    else
      hAndnotLoop cow1 h ((s1, r1) :: t1) (((s2, r2) :: t2).drop (max 1 (raAdvanceFrom (skel ((s2, r2) :: t2)) s1 1)))
termination_by x1.length + x2.length
decreasing_by all_goals simp only [List.length_drop, List.length_cons]; omega

/-- `roaring_bitmap_andnot`: `src/roaring.c:1162-1222` (`x1` and `x2` are distinct objects): the answer and
`x1`. -/
def hAndnot (h : Heap) (x1 x2 : HBitmap) : Option (HBitmap × HBitmap × Heap) :=
  if x1.slots.length = 0 then some (⟨x1.cow || x2.cow, []⟩, x1, h)
  else if x2.slots.length = 0 then hCopy h x1
  else do
    let (a, s1, h) ← hAndnotLoop x1.cow h x1.slots x2.slots
    some (⟨x1.cow || x2.cow, a⟩, ⟨x1.cow, s1⟩, h)

/-- `ra_advance_until_freeing`: `src/roaring_array.c:338-344`. -/
def hAdvanceFreeing (x : Nat) : Heap → List Slot → Option (List Slot × Heap)
  | h, [] => some ([], h)
  | h, (k, r) :: t =>
    if k < x then do
      let h ← freeC h r
      hAdvanceFreeing x h t
    else some ((k, r) :: t, h)

theorem hAdvanceFreeing_length {x : Nat} {h h' : Heap} {s s' : List Slot}
    (e : hAdvanceFreeing x h s = some (s', h')) : s'.length ≤ s.length := by
  induction s generalizing h with
  | nil => simp only [hAdvanceFreeing, Option.some.injEq, Prod.mk.injEq] at e; simp [← e.1]
  | cons p t ih =>
    simp only [hAdvanceFreeing] at e
    split at e
    · cases hf : freeC h p.2 with
      | none => simp [hf] at e
      | some h1 =>
        simp only [hf, Option.bind_eq_bind, Option.bind_some] at e
        have := ih e; simp only [List.length_cons]; omega
    · simp only [Option.some.injEq, Prod.mk.injEq] at e; simp [← e.1]

/-- The loop of `roaring_bitmap_and_inplace` and the freeing of the rest: `src/roaring.c:788-841`: the cells
of `x1`.  As in `rbAndInplaceLoop`, the first round of `ra_advance_until_freeing` is unrolled. -/
def hAndInplaceLoop (o : Nat → Bool) (h : Heap) (x1 x2 : List Slot) : Option (List Slot × Heap) :=
  match x1, x2 with
  | [], _ => some ([], h)
  | x1, [] => do
    let h ← freeSlots h x1
    some ([], h)
  | (s1, r1) :: t1, (s2, r2) :: t2 =>
    if s1 = s2 then do
      let c1 ← readC h r1
      let c2 ← readC h r2
      let c := chooseAnd r1.sh c1 c2
      let (r, h) ← replaceShared (o s1) h r1 c
      if containerNonzero c then do
        let (a, h) ← hAndInplaceLoop o h t1 t2
        some ((s1, r) :: a, h)
      else do
        let h ← freeC h r
        hAndInplaceLoop o h t1 t2
    else if s1 < s2 then do
      let h ← freeC h r1
      match _hh : hAdvanceFreeing s2 h t1 with
      | some (t1', h) => hAndInplaceLoop o h t1' ((s2, r2) :: t2)
      | none => none
    else
      hAndInplaceLoop o h ((s1, r1) :: t1)
        (((s2, r2) :: t2).drop (max 1 (raAdvanceFrom (skel ((s2, r2) :: t2)) s1 1)))
termination_by x1.length + x2.length
decreasing_by
  all_goals simp only [List.length_drop, List.length_cons]
  all_goals first
    | omega
    | (have := hAdvanceFreeing_length _hh; omega)

/-- `roaring_bitmap_and_inplace`: `src/roaring.c:779-842`, for distinct objects (for equal ones it returns
immediately). -/
def hAndInplace (o : Nat → Bool) (h : Heap) (x1 x2 : HBitmap) : Option (HBitmap × Heap) := do
  let (a, h) ← hAndInplaceLoop o h x1.slots x2.slots
  some (⟨x1.cow, a⟩, h)

/-- The loop of `roaring_bitmap_or_inplace` and the copies of the rest: `src/roaring.c:941-992`: the cells of
`x1` and of `x2`. -/
def hOrInplaceLoop (o : Nat → Bool) (caps : Nat → Nat) (cow2 : Bool) (h : Heap) (x1 x2 : List Slot) :
    Option (List Slot × List Slot × Heap) :=
  match x1, x2 with
  | [], x2 => copySlots cow2 h x2
  | x1, [] => some (x1, [], h)
  | (s1, r1) :: t1, (s2, r2) :: t2 =>
    if s1 = s2 then do
      let c1 ← readC h r1
      if !containerIsFull c1 then do
        let c2 ← readC h r2
        let (r, h) ← replaceShared (o s1) h r1 (chooseOr r1.sh (caps s1) c1 c2)
        let (a, b, h) ← hOrInplaceLoop o caps cow2 h t1 t2
        some ((s1, r) :: a, (s2, r2) :: b, h)
      else do
        let (a, b, h) ← hOrInplaceLoop o caps cow2 h t1 t2
        some ((s1, r1) :: a, (s2, r2) :: b, h)
    else if s1 < s2 then do
      let (a, b, h) ← hOrInplaceLoop o caps cow2 h t1 ((s2, r2) :: t2)
      some ((s1, r1) :: a, b, h)
    else do
      let (r, r2', h) ← getCopyOf cow2 h r2
      let (a, b, h) ← hOrInplaceLoop o caps cow2 h ((s1, r1) :: t1) t2
      some ((s2, r) :: a, (s2, r2') :: b, h)
termination_by x1.length + x2.length

/-- `roaring_bitmap_or_inplace`: `src/roaring.c:922-995` (`x1` and `x2` are distinct objects): `x1` and `x2`. -/
def hOrInplace (o : Nat → Bool) (caps : Nat → Nat) (h : Heap) (x1 x2 : HBitmap) :
    Option (HBitmap × HBitmap × Heap) :=
  if x2.slots.length = 0 then some (x1, x2, h)
  else if x1.slots.length = 0 then hOverwrite h x1 x2
  else do
    let (a, b, h) ← hOrInplaceLoop o caps x2.cow h x1.slots x2.slots
    some (⟨x1.cow, a⟩, ⟨x2.cow, b⟩, h)

/-- The loop of `roaring_bitmap_xor_inplace` and the copies of the rest: `src/roaring.c:1095-1158`. -/
def hXorInplaceLoop (o : Nat → Bool) (cow2 : Bool) (h : Heap) (x1 x2 : List Slot) :
    Option (List Slot × List Slot × Heap) :=
  match x1, x2 with
  | [], x2 => copySlots cow2 h x2
  | x1, [] => some (x1, [], h)
  | (s1, r1) :: t1, (s2, r2) :: t2 =>
    if s1 = s2 then do
      let c1 ← readC h r1
      let c2 ← readC h r2
      let c := chooseXor r1.sh c1 c2
      let (r, h) ← replaceShared (o s1) h r1 c
      if containerNonzero c then do
        let (a, b, h) ← hXorInplaceLoop o cow2 h t1 t2
        some ((s1, r) :: a, (s2, r2) :: b, h)
      else do
        let h ← freeC h r
        let (a, b, h) ← hXorInplaceLoop o cow2 h t1 t2
        some (a, (s2, r2) :: b, h)
    else if s1 < s2 then do
      let (a, b, h) ← hXorInplaceLoop o cow2 h t1 ((s2, r2) :: t2)
      some ((s1, r1) :: a, b, h)
    else do
      let (r, r2', h) ← getCopyOf cow2 h r2
      let (a, b, h) ← hXorInplaceLoop o cow2 h ((s1, r1) :: t1) t2
      some ((s2, r) :: a, (s2, r2') :: b, h)
termination_by x1.length + x2.length

/-- `roaring_bitmap_xor_inplace`: `src/roaring.c:1074-1160` (`x1` and `x2` are distinct objects). -/
def hXorInplace (o : Nat → Bool) (h : Heap) (x1 x2 : HBitmap) : Option (HBitmap × HBitmap × Heap) :=
  if x2.slots.length = 0 then some (x1, x2, h)
  else if x1.slots.length = 0 then hOverwrite h x1 x2
  else do
    let (a, b, h) ← hXorInplaceLoop o x2.cow h x1.slots x2.slots
    some (⟨x1.cow, a⟩, ⟨x2.cow, b⟩, h)

/-- The loop of `roaring_bitmap_andnot_inplace`: `src/roaring.c:1244-1319`. -/
def hAndnotInplaceLoop (o : Nat → Bool) (h : Heap) (x1 x2 : List Slot) : Option (List Slot × Heap) :=
  match x1, x2 with
  | [], _ => some ([], h)
  | x1, [] => some (x1, h)
  | (s1, r1) :: t1, (s2, r2) :: t2 =>
    if s1 = s2 then do
      let c1 ← readC h r1
      let c2 ← readC h r2
      let c := chooseAndnot r1.sh c1 c2
      let (r, h) ← replaceShared (o s1) h r1 c
      if containerNonzero c then do
        let (a, h) ← hAndnotInplaceLoop o h t1 t2
        some ((s1, r) :: a, h)
      else do
        let h ← freeC h r
        hAndnotInplaceLoop o h t1 t2
    else if s1 < s2 then do
      let (a, h) ← hAndnotInplaceLoop o h t1 ((s2, r2) :: t2)
      some ((s1, r1) :: a, h)
    else
      hAndnotInplaceLoop o h ((s1, r1) :: t1)
        (((s2, r2) :: t2).drop (max 1 (raAdvanceFrom (skel ((s2, r2) :: t2)) s1 1)))
termination_by x1.length + x2.length
decreasing_by all_goals simp only [List.length_drop, List.length_cons]; omega

/-- `roaring_bitmap_andnot_inplace`: `src/roaring.c:1226-1315` (`x1` and `x2` are distinct objects). -/
def hAndnotInplace (o : Nat → Bool) (h : Heap) (x1 x2 : HBitmap) : Option (HBitmap × Heap) :=
  if x2.slots.length = 0 then some (x1, h)
  else if x1.slots.length = 0 then hClear h x1
  else do
    let (a, h) ← hAndnotInplaceLoop o h x1.slots x2.slots
    some (⟨x1.cow, a⟩, h)

/-- The loop of `roaring_bitmap_run_optimize`: `src/roaring.c:1410-1426`; `convert_run_optimize` frees the
container that it replaces (src/containers/convert.c:206-289). -/
def hRunOptimizeLoop (o : Nat → Bool) : Heap → List Slot → Option (List Slot × Heap)
  | h, [] => some ([], h)
  | h, (k, r) :: t => do
    let (r, h) ← unshareC h r
    let c ← readC h r
    let (r, h) ← replaceC (o k) h r (convertRunOptimize c)
    let (a, h) ← hRunOptimizeLoop o h t
    some ((k, r) :: a, h)

/-- `roaring_bitmap_run_optimize`: `src/roaring.c:1410-1426`. -/
def hRunOptimize (o : Nat → Bool) (h : Heap) (x : HBitmap) : Option (HBitmap × Heap) := do
  let (a, h) ← hRunOptimizeLoop o h x.slots
  some (⟨x.cow, a⟩, h)

/-- The loop of `roaring_bitmap_remove_run_compression`: `src/roaring.c:1444-1472`. -/
def hRemoveRunLoop : Heap → List Slot → Option (List Slot × Heap)
  | h, [] => some ([], h)
  | h, (k, r) :: t => do
    let c ← readC h r
    if isRun c then do
      let p := newC h (removeRun c)
      let h ← freeC p.2 r
      let (a, h) ← hRemoveRunLoop h t
      some ((k, p.1) :: a, h)
    else do
      let (a, h) ← hRemoveRunLoop h t
      some ((k, r) :: a, h)

/-- `roaring_bitmap_remove_run_compression`: `src/roaring.c:1444-1472`. -/
def hRemoveRun (h : Heap) (x : HBitmap) : Option (HBitmap × Heap) := do
  let (a, h) ← hRemoveRunLoop h x.slots
  some (⟨x.cow, a⟩, h)

/-- The loop of `roaring_bitmap_remove_range_closed`: `src/roaring.c:312-336`. -/
def hRemoveRangeLoop (o : Nat → Bool) (min max minKey maxKey : Nat) :
    Heap → List Slot → Option (List Slot × Heap)
  | h, [] => some ([], h)
  | h, (k, r) :: t =>
    if k ≤ maxKey then do
      let cmin := if minKey = k then min % 65536 else 0
      let cmax := if maxKey = k then max % 65536 else 65535
      let (r, h) ← unshareC h r
      let c ← readC h r
      match containerRemoveRange cmin cmax c with
      | some c' => do
        let (r, h) ← replaceC (o k) h r c'
        let (a, h) ← hRemoveRangeLoop o min max minKey maxKey h t
        some ((k, r) :: a, h)
      | none => do
        let h ← freeC h r
        hRemoveRangeLoop o min max minKey maxKey h t
    else some ((k, r) :: t, h)

/-- `roaring_bitmap_remove_range_closed`: `src/roaring.c:300-336`. -/
def hRemoveRangeClosed (o : Nat → Bool) (h : Heap) (x : HBitmap) (min max : Nat) : Option (HBitmap × Heap) :=
  if min > max then some (x, h)
  else do
    let minKey := min / 65536
    let maxKey := max / 65536
    let src := (countLess (rdL (keysOf (skel x.slots))) x.slots.length minKey).toNat
    let (a, h) ← hRemoveRangeLoop o min max minKey maxKey h (x.slots.drop src)
    some (⟨x.cow, x.slots.take src ++ a⟩, h)

/-- `ra_shift_tail` with a positive distance: `src/roaring_array.c:412-424`; the cells of the gap are stale. -/
def hShiftTail (s : List Slot) (count distance : Nat) : List Slot :=
  let srcpos := s.length - count
  s.take srcpos ++ (List.range distance).map (fun j => slotAt s (srcpos + j)) ++ s.drop srcpos

/-- The loop of `roaring_bitmap_add_range_closed`: `src/roaring.c:275-297`. -/
def hAddRangeLoop (o : Nat → Bool) (min max minKey maxKey : Nat) :
    Nat → Heap → List Slot → Int → Int → Option (List Slot × Heap)
  | 0, h, ra, _, _ => some (ra, h)
  | n + 1, h, ra, src, dst =>
    let key := minKey + n
    let cmin := if minKey = key then min % 65536 else 0
    let cmax := if maxKey = key then max % 65536 else 65535
    if src ≥ 0 ∧ (slotAt ra src.toNat).1 = key then do
      let (r, h) ← unshareC h (slotAt ra src.toNat).2
      let c ← readC h r
      let (r, h) ← replaceC (o key) h r (containerAddRange cmin cmax c)
      hAddRangeLoop o min max minKey maxKey n h (ra.set dst.toNat (key, r)) (src - 1) (dst - 1)
    else
      let p := newC h ((containerFromRange cmin (cmax + 1) 1).getD (.array []))
      hAddRangeLoop o min max minKey maxKey n p.2 (ra.set dst.toNat (key, p.1)) src (dst - 1)

/-- `roaring_bitmap_add_range_closed`: `src/roaring.c:249-298`. -/
def hAddRangeClosed (o : Nat → Bool) (h : Heap) (x : HBitmap) (min max : Nat) : Option (HBitmap × Heap) :=
  if min > max then some (x, h)
  else do
    let minKey := min / 65536
    let maxKey := max / 65536
    let num := maxKey - minKey + 1
    let keys := rdL (keysOf (skel x.slots))
    let suffix := (countGreater keys x.slots.length maxKey).toNat
    let prefixLen := (countLess keys (x.slots.length - suffix) minKey).toNat
    let common := x.slots.length - prefixLen - suffix
    let ra := if num > common then hShiftTail x.slots suffix (num - common) else x.slots
    let (a, h) ← hAddRangeLoop o min max minKey maxKey num h ra ((prefixLen : Int) + common - 1)
      ((ra.length : Int) - suffix - 1)
    some (⟨x.cow, a⟩, h)

/-- `inplace_flip_container`: `src/roaring.c:1937-1962` and `inplace_fully_flip_container`:
`src/roaring.c:1989-2011`, where `f` is the function computed by `container_inot_range` or `container_inot`, and
`z` the container inserted for an absent key.  Both container functions start with
`get_writable_copy_if_shared` and free the container that they replace
(include/roaring/containers/containers.h:2080-2180). -/
def hInplaceFlip (o : Nat → Bool) (f : Container → Container) (z : Container) (h : Heap) (s : List Slot)
    (hb : Nat) : Option (List Slot × Heap) :=
  let i := raGetIndex (skel s) hb
  if i ≥ 0 then do
    let (r, h) ← unshareC h (slotAt s i.toNat).2
    let c ← readC h r
    let (r, h) ← replaceC (o hb) h r (f c)
    if containerCard (f c) ≠ 0 then some (s.set i.toNat ((slotAt s i.toNat).1, r), h)
    else do
      let h ← freeC h r
      some (s.take i.toNat ++ s.drop (i.toNat + 1), h)
  else
    let p := newC h z
    let j := (-i - 1).toNat
    some (s.take j ++ (hb, p.1) :: s.drop j, p.2)

/-- The loop `for (hb = lo; hb <= hi; ++hb)` over the fully flipped containers. -/
def hFlipKeys (o : Nat → Bool) : List Nat → Heap → List Slot → Option (List Slot × Heap)
  | [], h, s => some (s, h)
  | hb :: t, h, s => do
    let (s, h) ← hInplaceFlip o containerNot (containerRangeOfOnes 0 65536) h s hb
    hFlipKeys o t h s

/-- `inplace_flip_container`: `src/roaring.c:1937-1962`. -/
def hFlipPart (o : Nat → Bool) (h : Heap) (s : List Slot) (hb lbStart lbEnd : Nat) :
    Option (List Slot × Heap) :=
  hInplaceFlip o (containerNotRange lbStart (lbEnd + 1)) (containerRangeOfOnes lbStart (lbEnd + 1)) h s hb

/-- `roaring_bitmap_flip_inplace_closed`: `src/roaring.c:2084-2120`. -/
def hFlipInplaceClosed (o : Nat → Bool) (h : Heap) (x : HBitmap) (rs re : Nat) : Option (HBitmap × Heap) :=
  if rs > re then some (x, h)
  else do
    let hbStart := rs / 65536
    let lbStart := rs % 65536
    let hbEnd := re / 65536
    let lbEnd := re % 65536
    if hbStart = hbEnd then do
      let (s, h) ← hFlipPart o h x.slots hbStart lbStart lbEnd
      some (⟨x.cow, s⟩, h)
    else do
      let (s, h) ← if lbStart > 0 then hFlipPart o h x.slots hbStart lbStart 65535 else some (x.slots, h)
      let lo := if lbStart > 0 then hbStart + 1 else hbStart
      let hi := if lbEnd ≠ 65535 then hbEnd - 1 else hbEnd
      let (s, h) ← hFlipKeys o (List.range' lo (hi + 1 - lo)) h s
      let (s, h) ← if lbEnd ≠ 65535 then hFlipPart o h s (hi + 1) 0 lbEnd else some (s, h)
      some (⟨x.cow, s⟩, h)

/-- `insert_flipped_container`: `src/roaring.c:1909-1935` and `insert_fully_flipped_container`:
`src/roaring.c:1964-1986`, where `f` is the function computed by `container_not_range` or `container_not`, and
`z` the container inserted for an absent key: the cells of the answer. -/
def hInsertFlipped (f : Container → Container) (z : Container) (h : Heap) (ans s : List Slot) (hb : Nat) :
    Option (List Slot × Heap) :=
  let i := raGetIndex (skel s) hb
  let j := (-raGetIndex (skel ans) hb - 1).toNat
  if i ≥ 0 then do
    let c ← readC h (slotAt s i.toNat).2
    let p := newC h (f c)
    if containerCard (f c) ≠ 0 then some (ans.take j ++ (hb, p.1) :: ans.drop j, p.2)
    else do
      let h ← freeC p.2 p.1
      some (ans, h)
  else
    let p := newC h z
    some (ans.take j ++ (hb, p.1) :: ans.drop j, p.2)

/-- The loop over the fully flipped containers, `src/roaring.c:2053-2057`. -/
def hInsertKeys (s : List Slot) : List Nat → Heap → List Slot → Option (List Slot × Heap)
  | [], h, ans => some (ans, h)
  | hb :: t, h, ans => do
    let (ans, h) ← hInsertFlipped containerNot (containerRangeOfOnes 0 65536) h ans s hb
    hInsertKeys s t h ans

/-- `insert_flipped_container`: `src/roaring.c:1909-1935`. -/
def hInsertPart (h : Heap) (ans s : List Slot) (hb lbStart lbEnd : Nat) : Option (List Slot × Heap) :=
  hInsertFlipped (containerNotRange lbStart (lbEnd + 1)) (containerRangeOfOnes lbStart (lbEnd + 1)) h ans s hb

/-- `roaring_bitmap_flip_closed` between the copies of the untouched containers, `src/roaring.c:2040-2067`: the
cells of the answer. -/
def hFlipMiddle (h : Heap) (ans s : List Slot) (rs re : Nat) : Option (List Slot × Heap) :=
  let hbStart := rs / 65536
  let lbStart := rs % 65536
  let hbEnd := re / 65536
  let lbEnd := re % 65536
  if hbStart = hbEnd then hInsertPart h ans s hbStart lbStart lbEnd
  else do
    let (ans, h) ← if lbStart > 0 then hInsertPart h ans s hbStart lbStart 65535 else some (ans, h)
    let lo := if lbStart > 0 then hbStart + 1 else hbStart
    let hi := if lbEnd ≠ 65535 then hbEnd - 1 else hbEnd
    let (ans, h) ← hInsertKeys s (List.range' lo (hi + 1 - lo)) h ans
    if lbEnd ≠ 65535 then hInsertPart h ans s (hi + 1) 0 lbEnd else some (ans, h)

/-- `roaring_bitmap_flip_closed`: `src/roaring.c:2023-2073`: the answer and `x`. -/
def hFlipClosed (h : Heap) (x : HBitmap) (rs re : Nat) : Option (HBitmap × HBitmap × Heap) :=
  if rs > re then hCopy h x
  else do
    let n := (x.slots.takeWhile (fun p => decide (p.1 < rs / 65536))).length
    let (a, s, h) ← copySlots x.cow h (x.slots.take n)
    let s := s ++ x.slots.drop n
    let (a, h) ← hFlipMiddle h a s rs re
    let i := raGetIndex (skel s) (re / 65536)
    let m := if i ≥ 0 then (i + 1).toNat else (-i - 1).toNat
    let (b, t, h) ← copySlots x.cow h (s.drop m)
    some (⟨x.cow, a ++ b⟩, ⟨x.cow, s.take m ++ t⟩, h)

/-- `roaring_bitmap_contains`: `src/roaring.c:2829-2844`. -/
def hContains (h : Heap) (x : HBitmap) (val : Nat) : Option Bool :=
  let i := raGetIndex (skel x.slots) (val / 65536)
  if i < 0 then some false
  else do
    let c ← readC h (slotAt x.slots i.toNat).2
    some (containerContains (val % 65536) c)

/-- `c2 = op(c, ...); if (c2 != c) { container_free(c); ... }` where `op` is `container_add` or `container_remove`,
which start with `get_writable_copy_if_shared` (include/roaring/containers/containers.h:477-548): the container that
ends up in the cell.  `op` works in place (`o`) on the writable copy or gives a new container.  When `c` is shared, the
caller gives its reference back a second time. -/
def modifyOwn (o : Bool) (h : Heap) (old : Ref) (f : Container → Container) : Option (Ref × Heap) := do
  let (r, h) ← unshareC h old
  let c ← readC h r
  let (r2, h) ← if o then (writeC h r (f c)).map (fun h' => (r, h')) else some (newC h (f c))
  if r2.addr ≠ old.addr then do
    let h ← freeC h old
    some (r2, h)
  else some (r2, h)

/-- `roaring_bulk_context_t`: `include/roaring/roaring.h:347-352`: the container pointer with its typecode, the index
and the key; `none` is a context filled with zeros. -/
abbrev HCtx := Option (Ref × Nat × Nat)

/-- The context after `containerptr_roaring_bitmap_add`: `src/roaring.c:51-82`. -/
def ctxAfterAdd (x x' : HBitmap) (val : Nat) : HCtx :=
  let i := raGetIndex (skel x.slots) (val / 65536)
  let idx := if i ≥ 0 then i.toNat else (-i - 1).toNat
  some ((slotAt x'.slots idx).2, idx, val / 65536)

/-- `add_bulk_impl`: `src/roaring.c:102-130`; `o` says whether `container_add` works in place. -/
def hAddBulk (o : Bool) (h : Heap) (x : HBitmap) (ctx : HCtx) (val : Nat) : Option (HBitmap × HCtx × Heap) :=
  let fresh := do
    let (x', h) ← hAdd (fun _ => o) h x val
    some (x', ctxAfterAdd x x' val, h)
  match ctx with
  | none => fresh
  | some (r, idx, k) =>
    if k ≠ val / 65536 then fresh
    else do
      let (r2, h) ← modifyOwn o h r (containerAdd (val % 65536))
      some (⟨x.cow, x.slots.set idx ((slotAt x.slots idx).1, r2)⟩, some (r2, idx, k), h)

/-- The loop of `roaring_bitmap_add_many`: `src/roaring.c:151-154`; the oracle is indexed by the number of values
that remain. -/
def hAddManyLoop (o : Nat → Bool) : Heap → HBitmap → HCtx → List Nat → Option (HBitmap × Heap)
  | h, x, _, [] => some (x, h)
  | h, x, ctx, v :: vs => do
    let (x, ctx, h) ← hAddBulk (o vs.length) h x ctx v
    hAddManyLoop o h x ctx vs

/-- `roaring_bitmap_add_many`: `src/roaring.c:132-155`. -/
def hAddMany (o : Nat → Bool) (h : Heap) (x : HBitmap) (vals : List Nat) : Option (HBitmap × Heap) :=
  match vals with
  | [] => some (x, h)
  | v :: vs => do
    let (x', h) ← hAdd (fun _ => o vals.length) h x v
    hAddManyLoop o h x' (ctxAfterAdd x x' v) (v :: vs)

/-- `roaring_bitmap_contains_bulk`: `src/roaring.c:162-191`: the answer and the context. -/
def hContainsBulk (h : Heap) (x : HBitmap) (ctx : HCtx) (val : Nat) : Option (Bool × HCtx) :=
  let key := val / 65536
  let seek (start : Nat) : Option (Bool × HCtx) :=
    let idx := raAdvanceFrom (skel x.slots) key start
    if idx = x.slots.length then some (false, ctx)
    else
      let s := slotAt x.slots idx
      let ctx' : HCtx := some (s.2, idx, s.1)
      if s.1 ≠ key then some (false, ctx')
      else do
        let c ← readC h s.2
        some (containerContains (val % 65536) c, ctx')
  match ctx with
  | none => seek 0
  | some (r, idx, k) =>
    if k ≠ key then seek (if k < key then idx + 1 else 0)
    else do
      let c ← readC h r
      some (containerContains (val % 65536) c, ctx)

/-- One round of the loop of `roaring_bitmap_remove_many`: `src/roaring.c:671-693`; the state is the cells and
`pos`. -/
def hRemoveManyStep (o : Bool) (h : Heap) (s : List Slot) (pos : Int) (val : Nat) :
    Option (List Slot × Int × Heap) :=
  let key := val / 65536
  let pos := if pos < 0 ∨ key ≠ (slotAt s pos.toNat).1 then raGetIndex (skel s) key else pos
  if pos ≥ 0 then do
    let (r, h) ← modifyOwn o h (slotAt s pos.toNat).2 (containerRemove (val % 65536))
    let c ← readC h r
    if containerNonzero c then some (s.set pos.toNat (key, r), pos, h)
    else do
      let h ← freeC h r
      some (s.take pos.toNat ++ s.drop (pos.toNat + 1), -1, h)
  else some (s, pos, h)

/-- The loop of `roaring_bitmap_remove_many`: `src/roaring.c:670-694`; the oracle is indexed by the number of values
that remain. -/
def hRemoveManyLoop (o : Nat → Bool) : Heap → List Slot → Int → List Nat → Option (List Slot × Heap)
  | h, s, _, [] => some (s, h)
  | h, s, pos, v :: vs => do
    let (s, pos, h) ← hRemoveManyStep (o vs.length) h s pos v
    hRemoveManyLoop o h s pos vs

/-- `roaring_bitmap_remove_many`: `src/roaring.c:663-695`. -/
def hRemoveMany (o : Nat → Bool) (h : Heap) (x : HBitmap) (vals : List Nat) : Option (HBitmap × Heap) :=
  if vals.length = 0 ∨ x.slots.length = 0 then some (x, h)
  else do
    let (s, h) ← hRemoveManyLoop o h x.slots (-1) vals
    some (⟨x.cow, s⟩, h)

/-- The loop of `ra_range_uint32_array`: `src/roaring_array.c:449-511`.  `container_unwrap_shared` stores the typecode
of the wrapped container in the cell of the bitmap (line 451), while the pointer of the cell stays. -/
def hRangeLoop (offset limit : Nat) (h : Heap) : RangeSt → List Slot → Option (RangeSt × List Slot)
  | st, [] => some (st, [])
  | st, (key, r) :: t => do
    let c ← readC h r
    let st2 := rangeStep offset limit st key c
    if u64 ((st2.out.length : Int) - (st2.skip.getD 0 : Nat)) ≥ limit then some (st2, (key, ⟨false, r.addr⟩) :: t)
    else do
      let (st3, t') ← hRangeLoop offset limit h st2 t
      some (st3, (key, ⟨false, r.addr⟩) :: t')

/-- `roaring_bitmap_range_uint32_array`: `src/roaring.c:1398-1403`: the values written and the bitmap. -/
def hRangeUint32 (h : Heap) (x : HBitmap) (offset limit : Nat) : Option (List Nat × HBitmap) := do
  let (st, s) ← hRangeLoop offset limit h { ctr := 0, out := [], curLen := 0, skip := none } x.slots
  match st.skip with
  | none => some ([], ⟨x.cow, s⟩)
  | some skip =>
    some (((st.out ++ List.replicate (st.curLen - st.out.length) 0).drop skip).take limit, ⟨x.cow, s⟩)

end CRoaring
