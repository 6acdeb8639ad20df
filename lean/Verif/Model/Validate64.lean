import Verif.Model.Roaring64
/-
Model of the validation of 64-bit bitmaps: `art_internal_validate` (src/art/art.c) and
`roaring64_bitmap_internal_validate` (src/roaring64.c).

Simplifications: a reference to a node is the node itself (see `Model/Art.lean`), so the tests that two children of a
node are not the same reference, and that the free lists stay within the capacities of the node arrays, have no
counterpart here.  The text that explains a failure is not represented.
-/
namespace CRoaring

/-- The loop over neighbours in `art_node4_internal_validate` and `art_node16_internal_validate`:
src/art/art.c:451-456, 638-643: keys strictly increase. -/
def keysIncrease {α : Type} : List (Nat × α) → Bool
  | [] => true
  | [_] => true
  | p :: q :: t => if p.1 ≥ q.1 then false else keysIncrease (q :: t)

/-- The first loop of `art_node48_internal_validate`: src/art/art.c:814-830: the children in use, or `none` when a check
fails. -/
def used48 {α : Type} (n : N48 α) : Option Word :=
  (List.range 256).foldl
    (fun acc i => match acc with
      | none => none
      | some used =>
        let child_idx := n.keys.getD i NODE48_EMPTY
        if child_idx ≠ NODE48_EMPTY then
          if used &&& oneBit child_idx ≠ 0#64 then none
          else match n.children.getD child_idx none with
            | none => none
            | some _ => some (used ||| oneBit child_idx)
        else some used) (some 0#64)

/-- The validators of the four layouts, with `rec child key` for the validation of the child under `key`:
`art_node4_internal_validate` (src/art/art.c:436-470), `art_node16_internal_validate` (625-655),
`art_node48_internal_validate` (805-862), `art_node256_internal_validate` (984-1018). -/
def nodeValidate {α : Type} (rec : Option α → Nat → Bool) (node : Node α) : Bool :=
  match node with
  | .n4 ks =>
    if ks.length = 0 then false
    else if ks.length > 4 then false
    else if ks.length = 1 then false
    else keysIncrease ks && ks.all (fun p => rec (some p.2) p.1)
  | .n16 ks =>
    if ks.length ≤ 4 then false
    else if ks.length > 16 then false
    else keysIncrease ks && ks.all (fun p => rec (some p.2) p.1)
  | .n48 n =>
    if n.count ≤ 16 then false
    else if n.count > 48 then false
    else match used48 n with
      | none => false
      | some used =>
        if used ≠ n.avail ^^^ NODE48_MASK then false
        else (List.range 256).all (fun i =>
          if n.keys.getD i NODE48_EMPTY ≠ NODE48_EMPTY
          then rec (n.children.getD (n.keys.getD i NODE48_EMPTY) none) i else true)
  | .n256 n =>
    if n.count ≤ 48 then false
    else if n.count > 256 then false
    else (List.range 256).all (fun i =>
        match n.children.getD i none with
        | some c => rec (some c) i
        | none => true) &&
      decide (((List.range 256).filter (fun i => (n.children.getD i none).isSome)).length = n.count)

/-- `art_internal_validate_at`: src/art/art.c:2216-2278.  `path` is `current_key` up to `depth`; the first argument counts
the levels that remain. -/
def artValidateAt {V : Type} (cb : V → Bool) : Nat → Option (Art V) → List Nat → Bool
  | _, none, _ => false
  | _, some (.leaf key val), path =>
    if artComparePrefix key 0 path 0 path.length ≠ 0 then false else cb val
  | 0, some (.inner _ _), _ => false
  | fuel + 1, some (.inner pfx node), path =>
    if path.length + pfx.length + 1 > KEY_BYTES then false
    else nodeValidate (fun child key => artValidateAt cb fuel child (path ++ pfx ++ [key])) node

/-- `art_internal_validate`: src/art/art.c:2280-2309. -/
def artInternalValidate {V : Type} (root : Option (Art V)) (cb : V → Bool) : Bool :=
  match root with
  | none => true
  | some t => artValidateAt cb 7 (some t) []

/-- `roaring64_bitmap_internal_validate`: src/roaring64.c:1048-1052, with `roaring64_leaf_internal_validate`
(1039-1046). -/
def r64InternalValidate (r : R64) : Bool := artInternalValidate r containerValidate

end CRoaring
