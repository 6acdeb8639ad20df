import Verif.Model.Store64Ask
import Verif.Model.Validate64
/-
`roaring64_bitmap_internal_validate` on memory: src/art/art.c:436-469, 625-654, 805-862, 984-1018, 2216-2309 and src/roaring64.c:1039-1052.
`Model/Validate64.lean` has the same functions on a tree; here the nodes are in the arrays of `Model/ArtHeap.lean`, so the tests that no two children of a node are
the same reference, and that the free lists begin within the arrays, are there as well, and every read is a use of memory.
Simplification: the text that explains a failure is not represented.
-/
namespace CRoaring

section
variable {V : Type}

/-- The loops of `art_node4_internal_validate` and `art_node16_internal_validate`: src/art/art.c:450-467, 635-652; `prev` is the key before, `rec` the validation of
a child. -/
def validateKs (rec : ArtRef → Nat → Out Bool) : Option Nat → List (Nat × ArtRef) → Out Bool
  | _, [] => .ok true
  | prev, p :: t =>
    if prev.any (fun k => decide (k ≥ p.1)) = true then .ok false
    else if t.any (fun q => decide (p.2 = q.2)) = true then .ok false
    else do
      if ← rec p.2 p.1 then validateKs rec (some p.1) t else .ok false

/-- The inner loop over the children in use: src/art/art.c:843-851: another child is the same reference.  The first number counts the bits that are left. -/
def otherSame (children : List (Option ArtRef)) (child : Option ArtRef) : Nat → Word → Bool
  | 0, _ => false
  | n + 1, other_children =>
    if other_children = 0#64 then false
    else if child = children.getD (ctz other_children) none then true
    else otherSame children child n (other_children &&& (other_children - 1#64))

/-- The outer loop: src/art/art.c:838-852: two children are the same reference. -/
def dup48 (children : List (Option ArtRef)) : Nat → Word → Bool
  | 0, _ => false
  | n + 1, used_children =>
    if used_children = 0#64 then false
    else
      let child_idx := ctz used_children
      let used_children := used_children &&& (used_children - 1#64)
      if otherSame children (children.getD child_idx none) 64 used_children then true else dup48 children n used_children

/-- The last loop of `art_node48_internal_validate`: src/art/art.c:854-861; a null reference is `node is null` of `art_internal_validate_at` (2218-2220). -/
def validate48 (rec : ArtRef → Nat → Out Bool) (n : N48 ArtRef) : List Nat → Out Bool
  | [] => .ok true
  | i :: t =>
    if n.keys.getD i NODE48_EMPTY ≠ NODE48_EMPTY then
      match n.children.getD (n.keys.getD i NODE48_EMPTY) none with
      | none => .ok false
      | some c => do
        if ← rec c i then validate48 rec n t else .ok false
    else validate48 rec n t

/-- The loop of `art_node256_internal_validate`, and the test after it: src/art/art.c:994-1017; the list has the indices that are left. -/
def validate256 (rec : ArtRef → Nat → Out Bool) (n : N256 ArtRef) : List Nat → Nat → Out Bool
  | [], actual_count => .ok (decide (actual_count = n.count))
  | i :: t, actual_count =>
    match n.children.getD i none with
    | none => validate256 rec n t actual_count
    | some c =>
      if t.any (fun j => decide (some c = n.children.getD j none)) = true then .ok false
      else do
        if ← rec c i then validate256 rec n t (actual_count + 1) else .ok false

/-- `art_node4_internal_validate` (src/art/art.c:436-469), `art_node16_internal_validate` (625-654), `art_node48_internal_validate` (805-862),
`art_node256_internal_validate` (984-1018). -/
def nodeValidateM (rec : ArtRef → Nat → Out Bool) (node : Node ArtRef) : Out Bool :=
  match node with
  | .n4 ks =>
    if ks.length = 0 then .ok false
    else if ks.length > 4 then .ok false
    else if ks.length = 1 then .ok false
    else validateKs rec none ks
  | .n16 ks =>
    if ks.length ≤ 4 then .ok false
    else if ks.length > 16 then .ok false
    else validateKs rec none ks
  | .n48 n =>
    if n.count ≤ 16 then .ok false
    else if n.count > 48 then .ok false
    else match used48 n with
      | none => .ok false
      | some used =>
        if used ≠ n.avail ^^^ NODE48_MASK then .ok false
        else if dup48 n.children 64 used then .ok false
        else validate48 rec n (List.range 256)
  | .n256 n =>
    if n.count ≤ 48 then .ok false
    else if n.count > 256 then .ok false
    else validate256 rec n (List.range 256) 0

/-- `art_internal_validate_at`: src/art/art.c:2216-2278.  `path` is `current_key` up to `depth`, of which there are at most six bytes; the first argument counts the
levels that remain, and `fail` is its end. -/
def ArtHeap.validateAt (H : ArtHeap V) (cb : V → Out Bool) : Nat → ArtRef → List Nat → Out Bool
  | 0, _, _ => .fail
  | fuel + 1, ref, path =>
    if ref.ty = .leaf then do
      let leaf ← H.peekLeaf (H.deref ref)
      if artComparePrefix leaf.1 0 path 0 path.length ≠ 0 then .ok false
      else cb leaf.2
    else do
      let inner_node ← H.peekInner (H.deref ref)
      if path.length + inner_node.1.length + 1 > KEY_BYTES then .ok false
      else nodeValidateM (fun child key => validateAt H cb fuel child (path ++ inner_node.1 ++ [key])) inner_node.2

/-- The loops over the free lists: src/art/art.c:2295-2304. -/
def ArtHeap.freeWithin (H : ArtHeap V) : Bool :=
  [ArtTy.leaf, .n4, .n16, .n48, .n256].all fun t => (List.range (H.nodes t).length).all fun _ => !decide (H.first t > (H.nodes t).length)

/-- `art_internal_validate`: src/art/art.c:2280-2309. -/
def ArtT.internalValidate (a : ArtT V) (cb : V → Out Bool) : Out Bool :=
  match a.root with
  | none => .ok true
  | some ref => if a.heap.freeWithin = true then a.heap.validateAt cb 7 ref [] else .ok false
end

/-- `roaring64_leaf_internal_validate`: src/roaring64.c:1039-1046. -/
def R64M.leafValidate (r : R64M) (leaf : Nat) : Out Bool := do
  let a ← r.getContainer leaf
  let c ← r.deref a (leafType leaf)
  .ok (containerValidate c)

/-- `roaring64_bitmap_internal_validate`: src/roaring64.c:1048-1052. -/
def R64M.internalValidate (r : R64M) : Out Bool := r.art.internalValidate r.leafValidate

end CRoaring
