import Verif.Model.ArtHeapShrink
import Verif.Model.ArtHeapIter
import Verif.Model.Roaring64
import Verif.Model.Frozen
/-
A 64-bit bitmap in memory: src/roaring64.c:37-179 and the functions that change it.  The leaves of the radix tree (`Model/ArtHeap.lean`) hold the
index of a place in an array of container pointers, and the type of the container.  The containers themselves are objects that are allocated and
freed.  A use of an object that is not allocated, or of another type than said, is the outcome `oob`, as is the use of a null pointer.
(`Model/Roaring64.lean` has the same functions on a tree whose leaves are containers; `Lemmas/Store64*.lean` relate the two.)
Simplifications: an address is never used again after it was freed; an index is not cut to 56 bits when it is packed into a leaf (`create_leaf`);
what an object of the same type holds after an update is written at once.
-/
namespace CRoaring

/-- `roaring64_bitmap_t`: src/roaring64.c:37-43 (the capacity is the length of `containers`), and all the container objects ever allocated, in that
order: `none` for those that were freed. -/
structure R64M where
  art : ArtT Nat
  containers : List (Option Nat)
  first : Nat
  mem : List (Option Container)

/-- `create_leaf`: src/roaring64.c:91-93. -/
def createLeaf (index type : Nat) : Nat := index * 256 + type

/-- `get_typecode`: src/roaring64.c:95. -/
def leafType (leaf : Nat) : Nat := leaf % 256

/-- `get_index`: src/roaring64.c:97. -/
def leafIndex (leaf : Nat) : Nat := leaf / 256

/-- `roaring64_bitmap_create`: src/roaring64.c:225-234. -/
def R64M.create : R64M := ⟨ArtT.init, [], 0, []⟩

/-! ### Objects -/

/-- The creation of a container. -/
def R64M.new (r : R64M) (c : Container) : R64M × Nat := ({ r with mem := r.mem ++ [some c] }, r.mem.length)

/-- What is at an address, as a container of the given type. -/
def R64M.deref (r : R64M) (a type : Nat) : Out Container :=
  match r.mem[a]? with
  | some (some c) => if typecode c = type then .ok c else .oob
  | _ => .oob

/-- An update of a container in place. -/
def R64M.write (r : R64M) (a : Nat) (c : Container) : R64M := { r with mem := r.mem.set a (some c) }

/-- `container_free`: src/containers/containers.c:47-65. -/
def R64M.freeContainer (r : R64M) (a type : Nat) : Out R64M := do
  let _ ← r.deref a type
  .ok { r with mem := r.mem.set a none }

/-! ### The array of containers -/

/-- `get_container`: src/roaring64.c:99-102.  (All callers dereference the result, so a null pointer is `oob` here.) -/
def R64M.getContainer (r : R64M) (leaf : Nat) : Out Nat :=
  match r.containers[leafIndex leaf]? with
  | some (some a) => .ok a
  | _ => .oob

/-- A store into the array. -/
def R64M.setSlot (r : R64M) (index : Nat) (a : Option Nat) : Out R64M :=
  if index < r.containers.length then .ok { r with containers := r.containers.set index a } else .oob

/-- `replace_container`: src/roaring64.c:106-113; `p` points to the leaf. -/
def R64M.replaceContainer (r : R64M) (p : ArtPtr) (a type : Nat) : Out R64M := do
  let leaf ← r.art.load p
  let r ← r.setSlot (leafIndex leaf) (some a)
  let art ← r.art.store p (createLeaf (leafIndex leaf) type)
  .ok { r with art := art }

/-- `extend_containers`: src/roaring64.c:118-136; the new capacity is computed as for the arrays of nodes. -/
def R64M.extendContainers (r : R64M) : R64M :=
  if r.first < r.containers.length then r
  else { r with containers := r.containers ++ List.replicate (artNewCapacity r.containers.length - r.containers.length) none }

/-- `next_free_container_idx`: src/roaring64.c:138-145. -/
def R64M.nextFree (r : R64M) : Nat :=
  ((List.range' (r.first + 1) (r.containers.length - (r.first + 1))).find? (fun i => r.containers[i]? == some none)).getD r.containers.length

/-- `allocate_index`: src/roaring64.c:147-154. -/
def R64M.allocateIndex (r : R64M) : R64M × Nat :=
  let first_free := r.first
  let r := if first_free = r.containers.length then r.extendContainers else r
  ({ r with first := r.nextFree }, first_free)

/-- `add_container`: src/roaring64.c:156-161. -/
def R64M.addContainer (r : R64M) (a type : Nat) : Out (R64M × Nat) := do
  let i := r.allocateIndex
  let r ← i.1.setSlot i.2 (some a)
  .ok (r, createLeaf i.2 type)

/-- `remove_container`: src/roaring64.c:163-169. -/
def R64M.removeContainer (r : R64M) (leaf : Nat) : Out R64M := do
  let r ← r.setSlot (leafIndex leaf) none
  .ok { r with first := if leafIndex leaf < r.first then leafIndex leaf else r.first }

/-! ### Values -/

/-- The container of a leaf: the leaf, the address and the container itself. -/
def R64M.look (r : R64M) (p : ArtPtr) : Out (Nat × Nat × Container) := do
  let leaf ← r.art.load p
  let a ← r.getContainer leaf
  let c ← r.deref a (leafType leaf)
  .ok (leaf, a, c)

/-- The container of a leaf becomes `c2`: src/roaring64.c:366-373, 457-463, 688-695, 793-797.  The container functions called there (`container_add`,
`container_remove`, `container_add_range`, `container_remove_range`: include/roaring/containers/containers.h) work in place if the type stays, and
return a new object otherwise, in which case the old one is freed.  The address of the container afterwards is returned. -/
def R64M.change (r : R64M) (p : ArtPtr) (a : Nat) (c c2 : Container) : Out (R64M × Nat) :=
  if typecode c2 = typecode c then .ok (r.write a c2, a)
  else do
    let n := r.new c2
    let r ← n.1.freeContainer a (typecode c)
    let r ← r.replaceContainer p n.2 (typecode c2)
    .ok (r, n.2)

/-- A new leaf with a new container: src/roaring64.c:376-382, 465-470. -/
def R64M.put (r : R64M) (high48 : List Nat) (c : Container) : Out (R64M × ArtPtr) := do
  let n := r.new c
  let l ← n.1.addContainer n.2 (typecode c)
  let i ← l.1.art.insert high48 l.2
  .ok ({ l.1 with art := i.1 }, i.2)

/-- `containerptr_roaring64_bitmap_add`: src/roaring64.c:360-384. -/
def R64M.addAt (r : R64M) (high48 : List Nat) (low16 : Nat) (leaf : Option ArtPtr) : Out (R64M × ArtPtr) :=
  match leaf with
  | some p => do
    let x ← r.look p
    let y ← r.change p x.2.1 x.2.2 (containerAdd low16 x.2.2)
    .ok (y.1, p)
  | none => r.put high48 (containerAdd low16 (.array []))

/-- `roaring64_bitmap_add`: src/roaring64.c:386-391. -/
def R64M.add (r : R64M) (val : Nat) : Out R64M := do
  let leaf ← r.art.find (splitKey val).1
  let x ← r.addAt (splitKey val).1 (splitKey val).2 leaf
  .ok x.1

/-- The cardinality of the container of a leaf that was found, or 0: src/roaring64.c:398-402. -/
def R64M.oldCard (r : R64M) (leaf : Option ArtPtr) : Out Int :=
  match leaf with
  | some p => do
    let x ← r.look p
    .ok (containerCard x.2.2)
  | none => .ok 0

/-- `roaring64_bitmap_add_checked`: src/roaring64.c:393-407. -/
def R64M.addChecked (r : R64M) (val : Nat) : Out (R64M × Bool) := do
  let leaf ← r.art.find (splitKey val).1
  let old_cardinality ← r.oldCard leaf
  let x ← r.addAt (splitKey val).1 (splitKey val).2 leaf
  let y ← x.1.look x.2
  .ok (x.1, old_cardinality != containerCard y.2.2)

/-- `roaring64_bitmap_contains`: src/roaring64.c:512-521. -/
def R64M.contains (r : R64M) (val : Nat) : Out Bool := do
  match ← r.art.find (splitKey val).1 with
  | some p => do
    let x ← r.look p
    .ok (containerContains (splitKey val).2 x.2.2)
  | none => .ok false

/-- A read of the value in a leaf after `art_erase` has freed the leaf.  The place is there still, as the array of leaves has not been moved, and
`next_free` lies over the key only (src/art/art.c:44-52: the value is in the second eight bytes), so the value is the one before.  `art_erase` itself
may have written it there again: src/art/art.c:1852 through the pointer given at src/roaring64.c:698. -/
def ArtT.loadFreed (before after : ArtT Nat) (p : ArtPtr) : Out Nat :=
  if p.gen = after.heap.gen p.ref.ty then
    match after.heap.get p.ref with
    | some (.free _) => before.load p
    | _ => .oob
  else .oob

/-- The leaf of a container that was freed is erased: src/roaring64.c:698-700, 799-801.  It is an error (`assert(erased)`) if there is none. -/
def R64M.eraseLeaf (r : R64M) (high48 : List Nat) (p : ArtPtr) : Out R64M := do
  let e ← r.art.erase high48
  match e.2 with
  | none => .oob
  | some _ => do
    let leaf ← r.art.loadFreed e.1 p
    R64M.removeContainer { r with art := e.1 } leaf

/-- The rest of `containerptr_roaring64_bitmap_remove`: src/roaring64.c:696-703. -/
def R64M.dropEmpty (r : R64M) (high48 : List Nat) (p : ArtPtr) (a : Nat) (c : Container) : Out (R64M × Bool) :=
  if containerNonzero c then .ok (r, false)
  else do
    let r ← r.freeContainer a (typecode c)
    let r ← r.eraseLeaf high48 p
    .ok (r, true)

/-- `containerptr_roaring64_bitmap_remove`: src/roaring64.c:679-704. -/
def R64M.removeAt (r : R64M) (high48 : List Nat) (low16 : Nat) (leaf : Option ArtPtr) : Out (R64M × Bool) :=
  match leaf with
  | none => .ok (r, false)
  | some p => do
    let x ← r.look p
    let y ← r.change p x.2.1 x.2.2 (containerRemove low16 x.2.2)
    y.1.dropEmpty high48 p y.2 (containerRemove low16 x.2.2)

/-- `roaring64_bitmap_remove`: src/roaring64.c:706-713. -/
def R64M.remove (r : R64M) (val : Nat) : Out R64M := do
  let leaf ← r.art.find (splitKey val).1
  let x ← r.removeAt (splitKey val).1 (splitKey val).2 leaf
  .ok x.1

/-- The comparison at the end of `roaring64_bitmap_remove_checked`: src/roaring64.c:726-731. -/
def R64M.lessNow (r : R64M) (removed : Bool) (p : ArtPtr) (old_cardinality : Int) : Out Bool :=
  if removed then .ok true
  else do
    let z ← r.look p
    .ok (containerCard z.2.2 != old_cardinality)

/-- `roaring64_bitmap_remove_checked`: src/roaring64.c:715-732. -/
def R64M.removeChecked (r : R64M) (val : Nat) : Out (R64M × Bool) := do
  match ← r.art.find (splitKey val).1 with
  | none => .ok (r, false)
  | some p => do
    let x ← r.look p
    let y ← r.removeAt (splitKey val).1 (splitKey val).2 (some p)
    let b ← y.1.lessNow y.2 p (containerCard x.2.2)
    .ok (y.1, b)

/-- `add_range_closed_at`: src/roaring64.c:449-471. -/
def R64M.addRangeAt (r : R64M) (high48 : List Nat) (min max : Nat) : Out R64M := do
  match ← r.art.find high48 with
  | some p => do
    let x ← r.look p
    let y ← r.change p x.2.1 x.2.2 (containerAddRange min max x.2.2)
    .ok y.1
  | none => do
    let y ← r.put high48 (containerRangeOfOnes min (max + 1))
    .ok y.1

/-- `roaring64_bitmap_add_range_closed`: src/roaring64.c:481-510. -/
def R64M.addRangeClosed (r : R64M) (min max : Nat) : Out R64M :=
  if min > max then .ok r
  else if artCompareKeys (splitKey min).1 (splitKey max).1 = 0 then r.addRangeAt (splitKey min).1 (splitKey min).2 (splitKey max).2
  else do
    let r ← r.addRangeAt (splitKey min).1 (splitKey min).2 65535
    let r ← (List.range' (min / 65536 + 1) (max / 65536 - (min / 65536 + 1))).foldlM
      (fun r current => R64M.addRangeAt r (splitKey (current <<< 16)).1 0 65535) r
    r.addRangeAt (splitKey max).1 0 (splitKey max).2

/-- `remove_range_closed_at`: src/roaring64.c:782-804. -/
def R64M.removeRangeAt (r : R64M) (high48 : List Nat) (min max : Nat) : Out R64M := do
  match ← r.art.find high48 with
  | none => .ok r
  | some p => do
    let x ← r.look p
    match containerRemoveRange min max x.2.2 with
    | some c2 => do
      let y ← r.change p x.2.1 x.2.2 c2
      .ok y.1
    | none => do
      let r ← r.freeContainer x.2.1 (leafType x.1)
      r.eraseLeaf high48 p

/-! ### Functions that walk over the leaves

The loops carry a counter; `fail` is its end, and the theorems say that it is not reached. -/

/-- A leaf is erased through the iterator, and its container freed: src/roaring64.c:838-842, 1256-1260. -/
def R64M.itRemove (r : R64M) (it : HIt) : Out (R64M × HIt) := do
  let e ← r.art.itErase it
  match e.1 with
  | none => .oob
  | some leaf => do
    let a ← r.getContainer leaf
    let r ← R64M.freeContainer { r with art := e.2.1 } a (leafType leaf)
    let r ← r.removeContainer leaf
    .ok (r, e.2.2)

/-- The loop of `roaring64_bitmap_remove_range_closed`: src/roaring64.c:836-842. -/
def R64M.removeBetween (hi : List Nat) : Nat → R64M → HIt → Out R64M
  | 0, _, _ => .fail
  | n + 1, r, it =>
    if it.value.isSome = true ∧ artCompareKeys it.key hi < 0 then do
      let x ← r.itRemove it
      removeBetween hi n x.1 x.2
    else .ok r

/-- `roaring64_bitmap_remove_range_closed`: src/roaring64.c:814-844. -/
def R64M.removeRangeClosed (r : R64M) (min max : Nat) : Out R64M :=
  if min > max then .ok r
  else if artCompareKeys (splitKey min).1 (splitKey max).1 = 0 then r.removeRangeAt (splitKey min).1 (splitKey min).2 (splitKey max).2
  else do
    let r ← r.removeRangeAt (splitKey min).1 (splitKey min).2 65535
    let it ← r.art.upperBound (splitKey min).1
    let r ← R64M.removeBetween (splitKey max).1 FUEL r it
    r.removeRangeAt (splitKey max).1 0 (splitKey max).2

/-- One round of `roaring64_bitmap_run_optimize`: src/roaring64.c:943-951; the old object was freed by `convert_run_optimize`
(src/containers/convert.c:217-321) if the result is a new one. -/
def R64M.runOptimizeLeaf (r : R64M) (p : ArtPtr) : Out (R64M × Bool) := do
  let x ← r.look p
  if typecode (convertRunOptimize x.2.2) = typecode x.2.2 then do
    let r ← (r.write x.2.1 (convertRunOptimize x.2.2)).replaceContainer p x.2.1 (typecode (convertRunOptimize x.2.2))
    .ok (r, isRun (convertRunOptimize x.2.2))
  else do
    let n := r.new (convertRunOptimize x.2.2)
    let r ← n.1.freeContainer x.2.1 (leafType x.1)
    let r ← r.replaceContainer p n.2 (typecode (convertRunOptimize x.2.2))
    .ok (r, isRun (convertRunOptimize x.2.2))

/-- The loop of `roaring64_bitmap_run_optimize`: src/roaring64.c:942-952. -/
def R64M.runOptimizeLoop : Nat → R64M → HIt → Bool → Out (R64M × Bool)
  | 0, _, _, _ => .fail
  | n + 1, r, it, has_run_container =>
    match it.value with
    | none => .ok (r, has_run_container)
    | some p => do
      let y ← r.runOptimizeLeaf p
      let it ← y.1.art.itNext it
      runOptimizeLoop n y.1 it (has_run_container || y.2)

/-- `roaring64_bitmap_run_optimize`: src/roaring64.c:939-954. -/
def R64M.runOptimize (r : R64M) : Out (R64M × Bool) := do
  let it ← r.art.initIterator true
  R64M.runOptimizeLoop FUEL r it false

/-- `move_to_shrink`: src/roaring64.c:956-965. -/
def R64M.moveToShrink (r : R64M) (p : ArtPtr) : Out R64M := do
  let leaf ← r.art.load p
  if leafIndex leaf < r.first then .ok r
  else do
    let a ← r.getContainer leaf
    let r1 ← r.setSlot r.first (some a)
    let r2 ← r1.setSlot (leafIndex leaf) none
    let art ← r2.art.store p (createLeaf r2.first (leafType leaf))
    .ok { r2 with art := art, first := r2.nextFree }

/-- The loop of `roaring64_bitmap_shrink_to_fit`: src/roaring64.c:974-980. -/
def R64M.shrinkLoop : Nat → R64M → HIt → Out R64M
  | 0, _, _ => .fail
  | n + 1, r, it =>
    match it.value with
    | none => .ok r
    | some p => do
      let _ ← r.look p
      let r ← r.moveToShrink p
      let it ← r.art.itNext it
      shrinkLoop n r it

/-- The array is cut: src/roaring64.c:981-990. -/
def R64M.cutContainers (r : R64M) (freed : Nat) : R64M × Nat :=
  if r.art.heap.isShrunken = true ∧ r.first = r.containers.length then (r, freed)
  else if r.first < r.containers.length then
    ({ r with containers := r.containers.take r.first }, freed + (r.containers.length - r.first) * 8)
  else (r, freed)

/-- `roaring64_bitmap_shrink_to_fit`: src/roaring64.c:971-992.  Simplification: `container_shrink_to_fit` leaves the content of a container as it is; the
bytes that it saves are not counted. -/
def R64M.shrinkToFit (r : R64M) : Out (R64M × Nat) := do
  let s ← r.art.shrinkToFit
  let it ← s.1.initIterator true
  let r ← R64M.shrinkLoop FUEL { r with art := s.1 } it
  .ok (r.cutContainers s.2)

/-- `copy_leaf_container`: src/roaring64.c:172-179; `p` points to the leaf of `r1`.  The copy and its objects are apart from those of `r1`. -/
def R64M.copyContainer (r1 r2 : R64M) (p : ArtPtr) : Out (R64M × Nat) := do
  let x ← r1.look p
  let n := r2.new x.2.2
  n.1.addContainer n.2 (typecode x.2.2)

/-- A copied container is inserted without an iterator: src/roaring64.c:264-270, 1361-1363, 1576-1577, 1582. -/
def R64M.copyTo (r result : R64M) (key : List Nat) (p : ArtPtr) : Out R64M := do
  let l ← r.copyContainer result p
  let i ← l.1.art.insert key l.2
  .ok { l.1 with art := i.1 }

/-- The loop of `roaring64_bitmap_copy`: src/roaring64.c:263-272. -/
def R64M.copyLoop (r : R64M) : Nat → HIt → R64M → Out R64M
  | 0, _, _ => .fail
  | n + 1, it, result =>
    match it.value with
    | none => .ok result
    | some p => do
      let result ← r.copyTo result it.key p
      let it ← r.art.itNext it
      copyLoop r n it result

/-- `roaring64_bitmap_copy`: src/roaring64.c:259-274. -/
def R64M.copy (r : R64M) : Out R64M := do
  let it ← r.art.initIterator true
  R64M.copyLoop r FUEL it R64M.create

/-- The loop of `roaring64_bitmap_free` for a bitmap that is not frozen: src/roaring64.c:241-251. -/
def R64M.freeLoop : Nat → R64M → HIt → Out R64M
  | 0, _, _ => .fail
  | n + 1, r, it =>
    match it.value with
    | none => .ok r
    | some p => do
      let leaf ← r.art.load p
      let a ← r.getContainer leaf
      let r ← r.freeContainer a (leafType leaf)
      let it ← r.art.itNext it
      freeLoop n r it

/-- `roaring64_bitmap_free`: src/roaring64.c:236-257: the objects that are left.  The arrays of nodes and of containers are freed last. -/
def R64M.free (r : R64M) : Out (List (Option Container)) := do
  let it ← r.art.initIterator true
  let r ← R64M.freeLoop FUEL r it
  .ok r.mem

end CRoaring
