import Verif.Model.Store64Ops
/-
More functions on a 64-bit bitmap in memory (`Model/Store64.lean`): bulk operations with a context that keeps a pointer to a leaf, and flips.
-/
namespace CRoaring

/-! ### Bulk operations -/

/-- `roaring64_bulk_context_t`: include/roaring/roaring64.h:34-37. -/
structure Bulk64M where
  high : List Nat
  leaf : Option ArtPtr

/-- `CROARING_ZERO_INITIALIZER` for a context: src/roaring64.c:441, 775. -/
def Bulk64M.zero : Bulk64M := ⟨List.replicate KEY_BYTES 0, none⟩

/-- The leaf of a context, if it is there and has the high bits of the value: src/roaring64.c:415, 586-587, 739-740. -/
def Bulk64M.hit (ctx : Bulk64M) (val : Nat) : Option ArtPtr :=
  match ctx.leaf with
  | some p => if artCompareKeys ctx.high (splitKey val).1 = 0 then some p else none
  | none => none

/-- `roaring64_bitmap_add_bulk`: src/roaring64.c:409-434. -/
def R64M.addBulk (r : R64M) (ctx : Bulk64M) (val : Nat) : Out (R64M × Bulk64M) :=
  match ctx.hit val with
  | some p => do
    let x ← r.look p
    let y ← r.change p x.2.1 x.2.2 (containerAdd (splitKey val).2 x.2.2)
    .ok (y.1, ctx)
  | none => do
    let leaf ← r.art.find (splitKey val).1
    let x ← r.addAt (splitKey val).1 (splitKey val).2 leaf
    .ok (x.1, ⟨(splitKey val).1, some x.2⟩)

/-- The loop of `roaring64_bitmap_add_many`: src/roaring64.c:442-445. -/
def R64M.addManyLoop : R64M → Bulk64M → List Nat → Out R64M
  | r, _, [] => .ok r
  | r, ctx, v :: vs => do
    let x ← r.addBulk ctx v
    addManyLoop x.1 x.2 vs

/-- `roaring64_bitmap_add_many`: src/roaring64.c:435-446. -/
def R64M.addMany (r : R64M) (vals : List Nat) : Out R64M := if vals.length = 0 then .ok r else R64M.addManyLoop r Bulk64M.zero vals

/-- `roaring64_bitmap_of_ptr`: src/roaring64.c:353-358. -/
def R64M.ofPtr (vals : List Nat) : Out R64M := R64M.create.addMany vals

/-- `roaring64_bitmap_contains_bulk`: src/roaring64.c:580-599. -/
def R64M.containsBulk (r : R64M) (ctx : Bulk64M) (val : Nat) : Out (Bool × Bulk64M) :=
  match ctx.hit val with
  | some p => do
    let x ← r.look p
    .ok (containerContains (splitKey val).2 x.2.2, ctx)
  | none => do
    match ← r.art.find (splitKey val).1 with
    | none => .ok (false, ctx)
    | some p => do
      let x ← r.look p
      .ok (containerContains (splitKey val).2 x.2.2, ⟨(splitKey val).1, some p⟩)

/-- `art_erase(art, high48, &leaf)` and `remove_container(r, leaf)`: src/roaring64.c:753-756.  It is an error (`assert(erased)`) if there is no leaf. -/
def R64M.eraseOut (r : R64M) (high48 : List Nat) : Out R64M := do
  let e ← r.art.erase high48
  match e.2 with
  | none => .oob
  | some leaf => R64M.removeContainer { r with art := e.1 } leaf

/-- `roaring64_bitmap_remove_bulk`: src/roaring64.c:734-766. -/
def R64M.removeBulk (r : R64M) (ctx : Bulk64M) (val : Nat) : Out (R64M × Bulk64M) :=
  match ctx.hit val with
  | some p => do
    let x ← r.look p
    let c2 := containerRemove (splitKey val).2 x.2.2
    let y ← r.change p x.2.1 x.2.2 c2
    if containerNonzero c2 then .ok (y.1, ctx)
    else do
      let r ← y.1.freeContainer y.2 (typecode c2)
      let r ← r.eraseOut (splitKey val).1
      .ok (r, ctx)
  | none => do
    let leaf ← r.art.find (splitKey val).1
    let x ← r.removeAt (splitKey val).1 (splitKey val).2 leaf
    .ok (x.1, ⟨(splitKey val).1, leaf⟩)

/-- The loop of `roaring64_bitmap_remove_many`: src/roaring64.c:776-779. -/
def R64M.removeManyLoop : R64M → Bulk64M → List Nat → Out R64M
  | r, _, [] => .ok r
  | r, ctx, v :: vs => do
    let x ← r.removeBulk ctx v
    removeManyLoop x.1 x.2 vs

/-- `roaring64_bitmap_remove_many`: src/roaring64.c:768-780. -/
def R64M.removeMany (r : R64M) (vals : List Nat) : Out R64M := if vals.length = 0 then .ok r else R64M.removeManyLoop r Bulk64M.zero vals

/-- `roaring64_bitmap_clear`: src/roaring64.c:846-848. -/
def R64M.clear (r : R64M) : Out R64M := r.removeRangeClosed 0 18446744073709551615

/-! ### Flips -/

/-- `roaring64_flip_leaf`: src/roaring64.c:1719-1745. -/
def R64M.flipLeaf (r1 r2 : R64M) (high48 : List Nat) (min max : Nat) : Out R64M := do
  match ← r1.art.find high48 with
  | none => r2.addResult high48 (containerRangeOfOnes min max)
  | some p => do
    let x ← r1.look p
    r2.addResult high48 (flipContainer min max x.2.2)

/-- The leaf of an empty result is erased, and the result freed: src/roaring64.c:1777-1781; `p` points to the leaf, which is read after it was freed
(`ArtT.loadFreed`). -/
def R64M.flipDrop (r : R64M) (high48 : List Nat) (p : ArtPtr) (a type : Nat) : Out R64M := do
  let e ← r.art.erase high48
  match e.2 with
  | none => .oob
  | some _ => do
    let r2 ← R64M.freeContainer { r with art := e.1 } a type
    let leaf ← r.art.loadFreed e.1 p
    r2.removeContainer leaf

/-- `roaring64_flip_leaf_inplace`: src/roaring64.c:1752-1783.  `keep`: `container_inot` or `container_inot_range` returns the object it was given, if the type
stays; otherwise they free it (include/roaring/containers/containers.h:2058-2126, src/containers/mixed_negation.c:165-173, 214-228, 275-352). -/
def R64M.flipLeafInplace (keep : Bool) (r : R64M) (high48 : List Nat) (min max : Nat) : Out R64M := do
  match ← r.art.find high48 with
  | none => do
    let y ← r.put high48 (containerRangeOfOnes min max)
    .ok y.1
  | some p => do
    let x ← r.look p
    let c2 := flipContainer min max x.2.2
    let n := r.computed x.2.1 x.2.2 c2 keep
    let r ← n.1.freeOld n.2 x.2.1 (leafType x.1)
    if containerNonzero c2 then r.replaceContainer p n.2 (typecode c2) else r.flipDrop high48 p n.2 (typecode c2)

/-- The loop of `roaring64_bitmap_flip_closed_inplace`: src/roaring64.c:1874-1890. -/
def R64M.flipInplaceLoop (E : Reuse) (min max : Nat) (r : R64M) (l : List Nat) : Out R64M :=
  l.foldlM (fun r high48_bits =>
    R64M.flipLeafInplace (E (splitKey (high48_bits <<< 16)).1).1 r (splitKey (high48_bits <<< 16)).1 (flipBounds min max high48_bits).1
      (flipBounds min max high48_bits).2) r

/-- `roaring64_bitmap_flip_closed_inplace`: src/roaring64.c:1862-1891. -/
def R64M.flipClosedInplace (E : Reuse) (r : R64M) (min max : Nat) : Out R64M :=
  if min > max then .ok r
  else R64M.flipInplaceLoop E min max r (List.range' (min / 65536) (max / 65536 + 1 - min / 65536))

/-- `roaring64_bitmap_flip_inplace`: src/roaring64.c:1854-1860. -/
def R64M.flipInplace (E : Reuse) (r : R64M) (min max : Nat) : Out R64M := if min ≥ max then .ok r else r.flipClosedInplace E min (max - 1)

/-- The first loop of `roaring64_bitmap_flip_closed`: src/roaring64.c:1808-1817. -/
def R64M.flipCopyBefore (r1 : R64M) (min_key : List Nat) : Nat → HIt → R64M → Out R64M
  | 0, _, _ => .fail
  | n + 1, it, r2 =>
    match it.value with
    | none => .ok r2
    | some p =>
      if artCompareKeys it.key min_key < 0 then do
        let r2 ← r1.copyTo r2 it.key p
        let it ← r1.art.itNext it
        flipCopyBefore r1 min_key n it r2
      else .ok r2

/-- The second loop of `roaring64_bitmap_flip_closed`: src/roaring64.c:1819-1837. -/
def R64M.flipLoop (min max : Nat) (r1 r2 : R64M) (l : List Nat) : Out R64M :=
  l.foldlM (fun r2 high48_bits =>
    r1.flipLeaf r2 (splitKey (high48_bits <<< 16)).1 (flipBounds min max high48_bits).1 (flipBounds min max high48_bits).2) r2

/-- `roaring64_bitmap_flip_closed`: src/roaring64.c:1793-1852.  The last loop is that of `roaring64_bitmap_copy`. -/
def R64M.flipClosed (r1 : R64M) (min max : Nat) : Out R64M :=
  if min > max then r1.copy
  else do
    let it ← r1.art.initIterator true
    let r2 ← R64M.flipCopyBefore r1 (splitKey min).1 FUEL it R64M.create
    let r2 ← R64M.flipLoop min max r1 r2 (List.range' (min / 65536) (max / 65536 + 1 - min / 65536))
    let it ← r1.art.upperBound (splitKey max).1
    R64M.copyLoop r1 FUEL it r2

/-- `roaring64_bitmap_flip`: src/roaring64.c:1785-1791. -/
def R64M.flip (r : R64M) (min max : Nat) : Out R64M := if min ≥ max then r.copy else r.flipClosed min (max - 1)

end CRoaring
