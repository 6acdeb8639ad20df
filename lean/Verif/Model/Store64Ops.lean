import Verif.Model.Store64
/-
The set operations of 64-bit bitmaps in memory: src/roaring64.c:1054-1714.  Two bitmaps (`Model/Store64.lean`) are walked with iterators over the arrays
of nodes of their radix trees (`Model/ArtHeapIter.lean`); the functions that work in place insert and erase leaves through the iterator.
The loops carry a counter; `fail` is its end, and the theorems say that it is not reached.
Simplifications: the objects of the two bitmaps are in separate lists; no container is a shared one (`SHARED_CONTAINER_TYPE`).
A container function that works in place (`container_iand`, `container_ior`, `container_ixor`, `container_iandnot`) may return the object it was given, with
another content of the same type, or a new object.  Which of the two is not modelled but left open: `Reuse` says it for each key, and the theorems hold for
any `Reuse`.
-/
namespace CRoaring

/-- For the container at a key: whether the object is kept (if the type stays), and the capacity that `container_ior` finds. -/
abbrev Reuse := List Nat → Bool × Nat

/-- The result of a container function that works in place, before the old object is freed: include/roaring/containers/containers.h:904-984, 1209-1302,
1648-1718, 1871-1938. -/
def R64M.computed (r : R64M) (a : Nat) (c c2 : Container) (keep : Bool) : R64M × Nat :=
  if keep = true ∧ typecode c2 = typecode c then (r.write a c2, a) else r.new c2

/-- The old object is freed if there is a new one: src/roaring64.c:1235-1237, 1423-1424; `container_ixor` and `container_iandnot` do so themselves. -/
def R64M.freeOld (r : R64M) (new old type : Nat) : Out R64M := if new = old then .ok r else r.freeContainer old type

/-- `art_iterator_erase(&it1, NULL)` and `remove_container(r1, *leaf1)`: src/roaring64.c:1240-1241, 1557-1559, 1692-1694; `p` points to the leaf, which is
read after it was freed (`ArtT.loadFreed`).  Nothing to erase is an error (an assertion in two of the three places). -/
def R64M.itDrop (r : R64M) (it : HIt) (p : ArtPtr) : Out (R64M × HIt) := do
  let e ← r.art.itErase it
  match e.1 with
  | none => .oob
  | some _ => do
    let leaf ← r.art.loadFreed e.2.1 p
    let r ← R64M.removeContainer { r with art := e.2.1 } leaf
    .ok (r, e.2.2)

/-- The containers of two equal keys are replaced by the result of `f`, and the first iterator moves on: src/roaring64.c:1211-1249, 1533-1567, 1668-1702. -/
def R64M.combine (f : Container → Container → Container) (keep : Bool) (r1 r2 : R64M) (it1 : HIt) (p1 p2 : ArtPtr) : Out (R64M × HIt) := do
  let x ← r1.look p1
  let y ← r2.look p2
  let c := f x.2.2 y.2.2
  let n := r1.computed x.2.1 x.2.2 c keep
  let r ← n.1.freeOld n.2 x.2.1 (leafType x.1)
  if containerNonzero c = false then do
    let r ← r.freeContainer n.2 (typecode c)
    r.itDrop it1 p1
  else do
    let r ← if n.2 = x.2.1 then .ok r else r.replaceContainer p1 n.2 (typecode c)
    let it ← r.art.itNext it1
    .ok (r, it)

/-- The same in `roaring64_bitmap_or_inplace`, where the result is not tested: src/roaring64.c:1408-1427. -/
def R64M.unite (f : Container → Container → Container) (keep : Bool) (r1 r2 : R64M) (it1 : HIt) (p1 p2 : ArtPtr) : Out (R64M × HIt) := do
  let x ← r1.look p1
  let y ← r2.look p2
  let c := f x.2.2 y.2.2
  let n := r1.computed x.2.1 x.2.2 c keep
  let r ← n.1.freeOld n.2 x.2.1 (leafType x.1)
  let r ← if n.2 = x.2.1 then .ok r else r.replaceContainer p1 n.2 (typecode c)
  let it ← r.art.itNext it1
  .ok (r, it)

/-- A copied container is inserted through the iterator: src/roaring64.c:1436-1438, 1576-1579. -/
def R64M.itCopy (r1 r2 : R64M) (it1 : HIt) (key2 : List Nat) (p2 : ArtPtr) : Out (R64M × HIt) := do
  let l ← r2.copyContainer r1 p2
  let i ← l.1.art.itInsert it1 key2 l.2
  .ok ({ l.1 with art := i.1 }, i.2)

/-! ### In place -/

/-- The loop of `roaring64_bitmap_and_inplace`: src/roaring64.c:1199-1265. -/
def R64M.andInplaceLoop (E : Reuse) (r2 : R64M) : Nat → R64M → HIt → HIt → Out R64M
  | 0, _, _, _ => .fail
  | n + 1, r1, it1, it2 =>
    match it1.value, it2.value with
    | none, _ => .ok r1
    | some _, none => do
      let x ← r1.itRemove it1
      andInplaceLoop E r2 n x.1 x.2 it2
    | some p1, some p2 =>
      let compare_result := artCompareKeys it1.key it2.key
      if compare_result = 0 then do
        let x ← r1.combine containerIand (E it1.key).1 r2 it1 p1 p2
        let it2 ← r2.art.itNext it2
        andInplaceLoop E r2 n x.1 x.2 it2
      else if compare_result < 0 then do
        let x ← r1.itRemove it1
        andInplaceLoop E r2 n x.1 x.2 it2
      else do
        let it2 ← r2.art.itLowerBound it2 it1.key
        andInplaceLoop E r2 n r1 it1 it2

/-- The loop of `roaring64_bitmap_or_inplace`: src/roaring64.c:1392-1441. -/
def R64M.orInplaceLoop (E : Reuse) (r2 : R64M) : Nat → R64M → HIt → HIt → Out R64M
  | 0, _, _, _ => .fail
  | n + 1, r1, it1, it2 =>
    match it1.value, it2.value with
    | none, none => .ok r1
    | some _, none => do
      let it1 ← r1.art.itNext it1
      orInplaceLoop E r2 n r1 it1 it2
    | none, some p2 => do
      let x ← r1.itCopy r2 it1 it2.key p2
      let it2 ← r2.art.itNext it2
      orInplaceLoop E r2 n x.1 x.2 it2
    | some p1, some p2 =>
      let compare_result := artCompareKeys it1.key it2.key
      if compare_result = 0 then do
        let x ← r1.unite (containerIor (E it1.key).2) (E it1.key).1 r2 it1 p1 p2
        let it2 ← r2.art.itNext it2
        orInplaceLoop E r2 n x.1 x.2 it2
      else if compare_result < 0 then do
        let it1 ← r1.art.itNext it1
        orInplaceLoop E r2 n r1 it1 it2
      else do
        let x ← r1.itCopy r2 it1 it2.key p2
        let it2 ← r2.art.itNext it2
        orInplaceLoop E r2 n x.1 x.2 it2

/-- The loop of `roaring64_bitmap_xor_inplace`: src/roaring64.c:1517-1586. -/
def R64M.xorInplaceLoop (E : Reuse) (r2 : R64M) : Nat → R64M → HIt → HIt → Out R64M
  | 0, _, _, _ => .fail
  | n + 1, r1, it1, it2 =>
    match it1.value, it2.value with
    | none, none => .ok r1
    | some _, none => do
      let it1 ← r1.art.itNext it1
      xorInplaceLoop E r2 n r1 it1 it2
    | none, some p2 => do
      let x ← r2.copyTo r1 it2.key p2
      let it2 ← r2.art.itNext it2
      xorInplaceLoop E r2 n x it1 it2
    | some p1, some p2 =>
      let compare_result := artCompareKeys it1.key it2.key
      if compare_result = 0 then do
        let x ← r1.combine containerIxor (E it1.key).1 r2 it1 p1 p2
        let it2 ← r2.art.itNext it2
        xorInplaceLoop E r2 n x.1 x.2 it2
      else if compare_result < 0 then do
        let it1 ← r1.art.itNext it1
        xorInplaceLoop E r2 n r1 it1 it2
      else do
        let x ← r1.itCopy r2 it1 it2.key p2
        let it1 ← x.1.art.itNext x.2
        let it2 ← r2.art.itNext it2
        xorInplaceLoop E r2 n x.1 it1 it2

/-- The loop of `roaring64_bitmap_andnot_inplace`: src/roaring64.c:1655-1713. -/
def R64M.andnotInplaceLoop (E : Reuse) (r2 : R64M) : Nat → R64M → HIt → HIt → Out R64M
  | 0, _, _, _ => .fail
  | n + 1, r1, it1, it2 =>
    match it1.value, it2.value with
    | none, _ => .ok r1
    | some _, none => do
      let it1 ← r1.art.itNext it1
      andnotInplaceLoop E r2 n r1 it1 it2
    | some p1, some p2 =>
      let compare_result := artCompareKeys it1.key it2.key
      if compare_result = 0 then do
        let x ← r1.combine containerIandnot (E it1.key).1 r2 it1 p1 p2
        let it2 ← r2.art.itNext it2
        andnotInplaceLoop E r2 n x.1 x.2 it2
      else if compare_result < 0 then do
        let it1 ← r1.art.itNext it1
        andnotInplaceLoop E r2 n r1 it1 it2
      else do
        let it2 ← r2.art.itNext it2
        andnotInplaceLoop E r2 n r1 it1 it2

/-- `roaring64_bitmap_and_inplace` for two different bitmaps: src/roaring64.c:1191-1266. -/
def R64M.andInplace (E : Reuse) (r1 r2 : R64M) : Out R64M := do
  let it1 ← r1.art.initIterator true
  let it2 ← r2.art.initIterator true
  R64M.andInplaceLoop E r2 FUEL r1 it1 it2

/-- `roaring64_bitmap_or_inplace` for two different bitmaps: src/roaring64.c:1384-1442. -/
def R64M.orInplace (E : Reuse) (r1 r2 : R64M) : Out R64M := do
  let it1 ← r1.art.initIterator true
  let it2 ← r2.art.initIterator true
  R64M.orInplaceLoop E r2 FUEL r1 it1 it2

/-- `roaring64_bitmap_xor_inplace` for two different bitmaps: src/roaring64.c:1511-1587. -/
def R64M.xorInplace (E : Reuse) (r1 r2 : R64M) : Out R64M := do
  let it1 ← r1.art.initIterator true
  let it2 ← r2.art.initIterator true
  R64M.xorInplaceLoop E r2 FUEL r1 it1 it2

/-- `roaring64_bitmap_andnot_inplace` for two different bitmaps: src/roaring64.c:1650-1714. -/
def R64M.andnotInplace (E : Reuse) (r1 r2 : R64M) : Out R64M := do
  let it1 ← r1.art.initIterator true
  let it2 ← r2.art.initIterator true
  R64M.andnotInplaceLoop E r2 FUEL r1 it1 it2

/-! ### New bitmaps -/

/-- The result of a container function is added to the new bitmap, or freed if it is empty: src/roaring64.c:1131-1143, 1469-1481, 1611-1624. -/
def R64M.addResult (result : R64M) (key : List Nat) (c : Container) : Out R64M :=
  if containerNonzero c = true then do
    let x ← result.put key c
    .ok x.1
  else do
    let n := result.new c
    n.1.freeContainer n.2 (typecode c)

/-- The loop of `roaring64_bitmap_and`: src/roaring64.c:1121-1153. -/
def R64M.andLoop (r1 r2 : R64M) : Nat → HIt → HIt → R64M → Out R64M
  | 0, _, _, _ => .fail
  | n + 1, it1, it2, result =>
    match it1.value, it2.value with
    | some p1, some p2 =>
      let compare_result := artCompareKeys it1.key it2.key
      if compare_result = 0 then do
        let x ← r1.look p1
        let y ← r2.look p2
        let result ← result.addResult it1.key (containerAnd x.2.2 y.2.2)
        let it1 ← r1.art.itNext it1
        let it2 ← r2.art.itNext it2
        andLoop r1 r2 n it1 it2 result
      else if compare_result < 0 then do
        let it1 ← r1.art.itLowerBound it1 it2.key
        andLoop r1 r2 n it1 it2 result
      else do
        let it2 ← r2.art.itLowerBound it2 it1.key
        andLoop r1 r2 n it1 it2 result
    | _, _ => .ok result

/-- The loop of `roaring64_bitmap_or`: src/roaring64.c:1329-1372. -/
def R64M.orLoop (r1 r2 : R64M) : Nat → HIt → HIt → R64M → Out R64M
  | 0, _, _, _ => .fail
  | n + 1, it1, it2, result =>
    match it1.value, it2.value with
    | none, none => .ok result
    | some p1, none => do
      let result ← r1.copyTo result it1.key p1
      let it1 ← r1.art.itNext it1
      orLoop r1 r2 n it1 it2 result
    | none, some p2 => do
      let result ← r2.copyTo result it2.key p2
      let it2 ← r2.art.itNext it2
      orLoop r1 r2 n it1 it2 result
    | some p1, some p2 =>
      let compare_result := artCompareKeys it1.key it2.key
      if compare_result = 0 then do
        let x ← r1.look p1
        let y ← r2.look p2
        let z ← result.put it1.key (containerOr x.2.2 y.2.2)
        let it1 ← r1.art.itNext it1
        let it2 ← r2.art.itNext it2
        orLoop r1 r2 n it1 it2 z.1
      else if compare_result < 0 then do
        let result ← r1.copyTo result it1.key p1
        let it1 ← r1.art.itNext it1
        orLoop r1 r2 n it1 it2 result
      else do
        let result ← r2.copyTo result it2.key p2
        let it2 ← r2.art.itNext it2
        orLoop r1 r2 n it1 it2 result

/-- The loop of `roaring64_bitmap_xor`: src/roaring64.c:1451-1499. -/
def R64M.xorLoop (r1 r2 : R64M) : Nat → HIt → HIt → R64M → Out R64M
  | 0, _, _, _ => .fail
  | n + 1, it1, it2, result =>
    match it1.value, it2.value with
    | none, none => .ok result
    | some p1, none => do
      let result ← r1.copyTo result it1.key p1
      let it1 ← r1.art.itNext it1
      xorLoop r1 r2 n it1 it2 result
    | none, some p2 => do
      let result ← r2.copyTo result it2.key p2
      let it2 ← r2.art.itNext it2
      xorLoop r1 r2 n it1 it2 result
    | some p1, some p2 =>
      let compare_result := artCompareKeys it1.key it2.key
      if compare_result = 0 then do
        let x ← r1.look p1
        let y ← r2.look p2
        let result ← result.addResult it1.key (containerXor x.2.2 y.2.2)
        let it1 ← r1.art.itNext it1
        let it2 ← r2.art.itNext it2
        xorLoop r1 r2 n it1 it2 result
      else if compare_result < 0 then do
        let result ← r1.copyTo result it1.key p1
        let it1 ← r1.art.itNext it1
        xorLoop r1 r2 n it1 it2 result
      else do
        let result ← r2.copyTo result it2.key p2
        let it2 ← r2.art.itNext it2
        xorLoop r1 r2 n it1 it2 result

/-- The loop of `roaring64_bitmap_andnot`: src/roaring64.c:1596-1639. -/
def R64M.andnotLoop (r1 r2 : R64M) : Nat → HIt → HIt → R64M → Out R64M
  | 0, _, _, _ => .fail
  | n + 1, it1, it2, result =>
    match it1.value, it2.value with
    | none, _ => .ok result
    | some p1, none => do
      let result ← r1.copyTo result it1.key p1
      let it1 ← r1.art.itNext it1
      andnotLoop r1 r2 n it1 it2 result
    | some p1, some p2 =>
      let compare_result := artCompareKeys it1.key it2.key
      if compare_result = 0 then do
        let x ← r1.look p1
        let y ← r2.look p2
        let result ← result.addResult it1.key (containerAndnot x.2.2 y.2.2)
        let it1 ← r1.art.itNext it1
        let it2 ← r2.art.itNext it2
        andnotLoop r1 r2 n it1 it2 result
      else if compare_result < 0 then do
        let result ← r1.copyTo result it1.key p1
        let it1 ← r1.art.itNext it1
        andnotLoop r1 r2 n it1 it2 result
      else do
        let it2 ← r2.art.itNext it2
        andnotLoop r1 r2 n it1 it2 result

/-- `roaring64_bitmap_and`: src/roaring64.c:1114-1155. -/
def R64M.and (r1 r2 : R64M) : Out R64M := do
  let it1 ← r1.art.initIterator true
  let it2 ← r2.art.initIterator true
  R64M.andLoop r1 r2 FUEL it1 it2 R64M.create

/-- `roaring64_bitmap_or`: src/roaring64.c:1322-1374. -/
def R64M.or (r1 r2 : R64M) : Out R64M := do
  let it1 ← r1.art.initIterator true
  let it2 ← r2.art.initIterator true
  R64M.orLoop r1 r2 FUEL it1 it2 R64M.create

/-- `roaring64_bitmap_xor`: src/roaring64.c:1444-1501. -/
def R64M.xor (r1 r2 : R64M) : Out R64M := do
  let it1 ← r1.art.initIterator true
  let it2 ← r2.art.initIterator true
  R64M.xorLoop r1 r2 FUEL it1 it2 R64M.create

/-- `roaring64_bitmap_andnot`: src/roaring64.c:1589-1641. -/
def R64M.andnot (r1 r2 : R64M) : Out R64M := do
  let it1 ← r1.art.initIterator true
  let it2 ← r2.art.initIterator true
  R64M.andnotLoop r1 r2 FUEL it1 it2 R64M.create

/-! ### Comparisons -/

/-- The loop of `roaring64_bitmap_equals`: src/roaring64.c:1059-1072. -/
def R64M.equalsLoop (r1 r2 : R64M) : Nat → HIt → HIt → Out Bool
  | 0, _, _ => .fail
  | n + 1, it1, it2 =>
    match it1.value, it2.value with
    | some p1, some p2 =>
      if artCompareKeys it1.key it2.key ≠ 0 then .ok false
      else do
        let x ← r1.look p1
        let y ← r2.look p2
        if containerEquals x.2.2 y.2.2 = false then .ok false
        else do
          let it1 ← r1.art.itNext it1
          let it2 ← r2.art.itNext it2
          equalsLoop r1 r2 n it1 it2
    | v1, v2 => .ok (v1.isNone && v2.isNone)

/-- The loop of `roaring64_bitmap_is_subset`: src/roaring64.c:1080-1104. -/
def R64M.subsetLoop (r1 r2 : R64M) : Nat → HIt → HIt → Out Bool
  | 0, _, _ => .fail
  | n + 1, it1, it2 =>
    match it1.value, it2.value with
    | none, _ => .ok true
    | some _, none => .ok false
    | some p1, some p2 =>
      let compare_result := artCompareKeys it1.key it2.key
      if compare_result = 0 then do
        let x ← r1.look p1
        let y ← r2.look p2
        if containerIsSubset x.2.2 y.2.2 = false then .ok false
        else do
          let it1 ← r1.art.itNext it1
          let it2 ← r2.art.itNext it2
          subsetLoop r1 r2 n it1 it2
      else if compare_result < 0 then .ok false
      else do
        let it2 ← r2.art.itLowerBound it2 it1.key
        subsetLoop r1 r2 n it1 it2

/-- The loop of `roaring64_bitmap_intersect`: src/roaring64.c:1274-1297. -/
def R64M.intersectLoop (r1 r2 : R64M) : Nat → HIt → HIt → Bool → Out Bool
  | 0, _, _, _ => .fail
  | n + 1, it1, it2, intersect =>
    match it1.value, it2.value with
    | some p1, some p2 =>
      let compare_result := artCompareKeys it1.key it2.key
      if compare_result = 0 then do
        let x ← r1.look p1
        let y ← r2.look p2
        let it1 ← r1.art.itNext it1
        let it2 ← r2.art.itNext it2
        intersectLoop r1 r2 n it1 it2 (intersect || containerIntersect x.2.2 y.2.2)
      else if compare_result < 0 then do
        let it1 ← r1.art.itLowerBound it1 it2.key
        intersectLoop r1 r2 n it1 it2 intersect
      else do
        let it2 ← r2.art.itLowerBound it2 it1.key
        intersectLoop r1 r2 n it1 it2 intersect
    | _, _ => .ok intersect

/-- `roaring64_bitmap_equals`: src/roaring64.c:1054-1073. -/
def R64M.equals (r1 r2 : R64M) : Out Bool := do
  let it1 ← r1.art.initIterator true
  let it2 ← r2.art.initIterator true
  R64M.equalsLoop r1 r2 FUEL it1 it2

/-- `roaring64_bitmap_is_subset`: src/roaring64.c:1075-1105. -/
def R64M.isSubset (r1 r2 : R64M) : Out Bool := do
  let it1 ← r1.art.initIterator true
  let it2 ← r2.art.initIterator true
  R64M.subsetLoop r1 r2 FUEL it1 it2

/-- `roaring64_bitmap_intersect`: src/roaring64.c:1268-1298. -/
def R64M.intersect (r1 r2 : R64M) : Out Bool := do
  let it1 ← r1.art.initIterator true
  let it2 ← r2.art.initIterator true
  R64M.intersectLoop r1 r2 FUEL it1 it2 false

/-! ### Numbers of values -/

/-- The loop of `roaring64_bitmap_get_cardinality`: src/roaring64.c:853-858. -/
def R64M.cardLoop (r : R64M) : Nat → HIt → Nat → Out Nat
  | 0, _, _ => .fail
  | n + 1, it, cardinality =>
    match it.value with
    | none => .ok cardinality
    | some p => do
      let x ← r.look p
      let it ← r.art.itNext it
      cardLoop r n it (u64 (cardinality + containerCard x.2.2))

/-- `roaring64_bitmap_get_cardinality`: src/roaring64.c:850-860. -/
def R64M.cardinality (r : R64M) : Out Nat := do
  let it ← r.art.initIterator true
  R64M.cardLoop r FUEL it 0

/-- The loop of `roaring64_bitmap_and_cardinality`: src/roaring64.c:1164-1186. -/
def R64M.andCardLoop (r1 r2 : R64M) : Nat → HIt → HIt → Nat → Out Nat
  | 0, _, _, _ => .fail
  | n + 1, it1, it2, result =>
    match it1.value, it2.value with
    | some p1, some p2 =>
      let compare_result := artCompareKeys it1.key it2.key
      if compare_result = 0 then do
        let x ← r1.look p1
        let y ← r2.look p2
        let it1 ← r1.art.itNext it1
        let it2 ← r2.art.itNext it2
        andCardLoop r1 r2 n it1 it2 (u64 (result + containerAndCard x.2.2 y.2.2))
      else if compare_result < 0 then do
        let it1 ← r1.art.itLowerBound it1 it2.key
        andCardLoop r1 r2 n it1 it2 result
      else do
        let it2 ← r2.art.itLowerBound it2 it1.key
        andCardLoop r1 r2 n it1 it2 result
    | _, _ => .ok result

/-- `roaring64_bitmap_and_cardinality`: src/roaring64.c:1157-1188. -/
def R64M.andCardinality (r1 r2 : R64M) : Out Nat := do
  let it1 ← r1.art.initIterator true
  let it2 ← r2.art.initIterator true
  R64M.andCardLoop r1 r2 FUEL it1 it2 0

/-- `roaring64_bitmap_or_cardinality`: src/roaring64.c:1376-1382. -/
def R64M.orCardinality (r1 r2 : R64M) : Out Nat := do
  let c1 ← r1.cardinality
  let c2 ← r2.cardinality
  let inter ← r1.andCardinality r2
  .ok (u64 ((c1 : Int) + c2 - inter))

/-- `roaring64_bitmap_xor_cardinality`: src/roaring64.c:1503-1509. -/
def R64M.xorCardinality (r1 r2 : R64M) : Out Nat := do
  let c1 ← r1.cardinality
  let c2 ← r2.cardinality
  let inter ← r1.andCardinality r2
  .ok (u64 ((c1 : Int) + c2 - 2 * inter))

/-- `roaring64_bitmap_andnot_cardinality`: src/roaring64.c:1643-1648. -/
def R64M.andnotCardinality (r1 r2 : R64M) : Out Nat := do
  let c1 ← r1.cardinality
  let inter ← r1.andCardinality r2
  .ok (u64 ((c1 : Int) - inter))

/-- `roaring64_bitmap_is_strict_subset`: src/roaring64.c:1107-1112. -/
def R64M.isStrictSubset (r1 r2 : R64M) : Out Bool := do
  let c1 ← r1.cardinality
  let c2 ← r2.cardinality
  if c1 < c2 then r1.isSubset r2 else .ok false

end CRoaring
