import Verif.Model.CowHistory

/-!
Model of the objects of the C++ class `Roaring` (cpp/roaring.hh) as owners of memory: construction, copy, move, assignment, swap and
destruction, and the calls that the methods make, on the memory of `Verif/Model/Cow.lean`.

An object holds the `roaring_bitmap_t` itself.  Either its containers are blocks of the heap, or it is a frozen view
(`ROARING_FLAG_FROZEN`): then the containers are parts of one block, the arena that `roaring_bitmap_frozen_view` allocated, and none of
them may be released on its own.  The arrays of keys and pointers of an object that is no view belong to it alone and go with it; they are
not modelled here (see `Verif/Model/Alloc.lean` for them).  Memory is always granted. -/

namespace CRoaring

/-- A `Roaring`: cpp/roaring.hh:915 (the member `roaring`), the flag `ROARING_FLAG_FROZEN` (include/roaring/roaring_types.h:41). -/
inductive CObj where
  | owns (x : HBitmap)
  | view (arena : Nat)

/-- The memory of a C++ program: the heap of containers, the arenas in the order of their allocation (`none`: released) with what the
view shows, and the objects in the order of their construction (`none`: destroyed). -/
structure CWorld where
  heap : Heap
  arenas : List (Option Bitmap)
  objs : List (Option CObj)

/-- Nothing constructed yet. -/
def CWorld.init : CWorld := ⟨Heap.init, [], []⟩

/-- What a program does with objects.  Objects are denoted by the number of objects constructed before them. -/
inductive COp where
  /-- `Roaring()` -/
  | make
  /-- `setCopyOnWrite`, with the flag that the program uses -/
  | setCow (i : Nat)
  /-- `Roaring(const Roaring &)` -/
  | copyNew (i : Nat)
  /-- `Roaring(Roaring &&)` -/
  | moveNew (i : Nat)
  /-- `operator=(const Roaring &)` -/
  | assign (i j : Nat)
  /-- `operator=(Roaring &&)` -/
  | moveAssign (i j : Nat)
  | swap (i j : Nat)
  | destroy (i : Nat)
  /-- `frozenView`, `portableDeserializeFrozen`, of bytes that show `b` -/
  | frozenView (b : Bitmap)
  /-- a call of the C library on the `roaring` of objects; a `roaring_bitmap_t *` that it returns is given to `Roaring(roaring_bitmap_t *)` -/
  | call (op : Op)

/-- `roaring_bitmap_init_cleared`: include/roaring/roaring.h:59-61, `ra_init_with_capacity` with 0: src/roaring_array.c:80-101.  All flags
are 0. -/
def CObj.blank : CObj := .owns ⟨false, []⟩

/-- An object that was not destroyed. -/
def CWorld.obj (w : CWorld) (i : Nat) : Option CObj := (w.objs[i]?).join

/-- `container_clone` of the containers of a view, in `ra_overwrite`: src/roaring_array.c:152-164. -/
def cloneView : Heap → Bitmap → List Slot × Heap
  | h, [] => ([], h)
  | h, (k, c) :: t =>
    let p := newC h c
    let q := cloneView p.2 t
    ((k, p.1) :: q.1, q.2)

/-- `roaring_bitmap_overwrite`: src/roaring.c:512-517, src/roaring_array.c:126-167, and `roaring_bitmap_set_copy_on_write`: the new
destination and source.  For a destination that is a view, `ra_clear_containers` gives parts of the arena to `free`, and `realloc_array`
does so with the array of pointers; nothing of this happens if both are empty. -/
def CWorld.overwrite (w : CWorld) (d s : CObj) : Option (CObj × CObj × Heap) :=
  match d, s with
  | .owns x, .owns y => do
    let (x', y', h) ← hOverwrite w.heap x y
    some (.owns x', .owns y', h)
  | .owns x, .view a => do
    let h ← freeSlots w.heap x.slots
    let b ← (w.arenas[a]?).join
    let q := cloneView h b
    some (.owns ⟨false, q.1⟩, .view a, q.2)
  | .view a, .owns y => do
    let b ← (w.arenas[a]?).join
    if b.isEmpty && y.slots.isEmpty then some (.view a, .owns y, w.heap) else none
  | .view a, .view c => do
    let b ← (w.arenas[a]?).join
    let b' ← (w.arenas[c]?).join
    if b.isEmpty && b'.isEmpty then some (.view a, .view c, w.heap) else none

/-- `roaring_bitmap_clear`: src/roaring.c:529-531, src/roaring_array.c:103-111,175-179.  On a view it gives parts of the arena to `free`, at
least the array of pointers. -/
def clearObj (h : Heap) : CObj → Option (CObj × Heap)
  | .owns x => do
    let (x', h') ← hClear h x
    some (.owns x', h')
  | .view _ => none

/-- The bitmap of an object that calls of the C library may be given here: it is no view and has the flag `g`.  (Calls on other objects
are not modelled.) -/
def CObj.ownPart (g : Bool) : Option CObj → Option HBitmap
  | some (.owns x) => if x.cow = g then some x else none
  | _ => none

/-- The objects after a call of the C library: the bitmaps that it was given are those of the pool, and a new one is adopted by
`Roaring(roaring_bitmap_t *)`: cpp/roaring.hh:104-106. -/
def putBack (g : Bool) : List (Option CObj) → List (Option HBitmap) → List (Option CObj)
  | [], p => p.map (Option.map CObj.owns)
  | os, [] => os
  | o :: os, x :: p => (if (CObj.ownPart g o).isSome then x.map CObj.owns else o) :: putBack g os p

/-- What a call modifies is not released: `roaring_bitmap_free` may not be given the `roaring` of an object. -/
def Op.isFree : Op → Bool
  | .free _ => true
  | _ => false

/-- One step of a program.  `none` is undefined behaviour. -/
def cstep (g : Bool) (o : Nat → Bool) (caps : Nat → Nat) (w : CWorld) : COp → Option CWorld
  /- cpp/roaring.hh:78-82 -/
  | .make => some { w with objs := w.objs ++ [some CObj.blank] }
  /- cpp/roaring.hh:807-809 -/
  | .setCow i => do
    match ← w.obj i with
    | .owns x => some { w with objs := w.objs.set i (some (.owns { x with cow := g })) }
    | .view _ => none
  /- cpp/roaring.hh:112-118 -/
  | .copyNew i => do
    let s ← w.obj i
    let (d, s', h) ← w.overwrite CObj.blank s
    some { w with heap := h, objs := w.objs.set i (some s') ++ [some d] }
  /- cpp/roaring.hh:124-133 -/
  | .moveNew i => do
    let s ← w.obj i
    some { w with objs := w.objs.set i (some CObj.blank) ++ [some s] }
  /- cpp/roaring.hh:154-161 -/
  | .assign i j => do
    let d ← w.obj i
    let s ← w.obj j
    let (d', s', h) ← w.overwrite d s
    some { w with heap := h, objs := (w.objs.set j (some s')).set i (some d') }
  /- cpp/roaring.hh:167-176 -/
  | .moveAssign i j => do
    let d ← w.obj i
    let (d', h) ← clearObj w.heap d
    let w := { w with heap := h, objs := w.objs.set i (some d') }
    let s ← w.obj j
    some { w with objs := (w.objs.set i (some s)).set j (some CObj.blank) }
  /- cpp/roaring.hh:373 -/
  | .swap i j => do
    let x ← w.obj i
    let y ← w.obj j
    some { w with objs := (w.objs.set i (some y)).set j (some x) }
  /- cpp/roaring.hh:878-893; `roaring_bitmap_free` of a frozen bitmap: src/roaring.c:519-527 -/
  | .destroy i => do
    match ← w.obj i with
    | .owns x => do
      let (_, h) ← hClear w.heap x
      some { w with heap := h, objs := w.objs.set i none }
    | .view a => do
      let _ ← (w.arenas[a]?).join
      some { w with arenas := w.arenas.set a none, objs := w.objs.set i none }
  /- cpp/roaring.hh:709-733; the arena: src/roaring.c:3126-3155,3262-3284 -/
  | .frozenView b => some { w with arenas := w.arenas ++ [some b], objs := w.objs ++ [some (.view w.arenas.length)] }
  /- cpp/roaring.hh:187-370,759-805,856-873 -/
  | .call op =>
    if op.isFree then none
    else do
      let w' ← step g o caps ⟨w.heap, w.objs.map (CObj.ownPart g)⟩ op
      some { w with heap := w'.heap, objs := putBack g w.objs w'.pool }

/-- A program: steps, each with the oracles of the container functions. -/
def crun (g : Bool) : CWorld → List (COp × (Nat → Bool) × (Nat → Nat)) → Option CWorld
  | w, [] => some w
  | w, (op, o, caps) :: t => do
    let w ← cstep g o caps w op
    crun g w t

/-- `contains`: cpp/roaring.hh:309-311. -/
def CWorld.contains (w : CWorld) (i v : Nat) : Option Bool := do
  match ← w.obj i with
  | .owns x => hContains w.heap x v
  | .view a => do
    let b ← (w.arenas[a]?).join
    some (rbContains b v)

end CRoaring
