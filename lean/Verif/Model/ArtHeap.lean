import Verif.Model.Art
import Verif.Model.Serial
/-
The arrays of nodes behind the radix tree: src/art/art.c.  A node lives in the array of its type, at an index; a reference is type and index.
Unused places of an array form a list that is linked through them.  An array grows by `realloc`, which moves it: a pointer remembers how
often its array had been moved, and an access through a pointer from before the last move is the outcome `oob`, as is an access to a place
that holds no node.  (`Model/Art.lean` has the tree itself; `Lemmas/ArtHeap*.lean` relate the two.)
Simplifications: a reference is not packed into 64 bits (`art_to_ref`: `index << 16 | typecode`), and indices do not wrap at 2^48.
-/
namespace CRoaring

/-- The typecodes `CROARING_ART_LEAF_TYPE` … `CROARING_ART_NODE256_TYPE`: src/art/art.c:12-16. -/
inductive ArtTy where
  | leaf
  | n4
  | n16
  | n48
  | n256
deriving DecidableEq

/-- `art_ref_t`, not null: src/art/art.c:155-165. -/
structure ArtRef where
  ty : ArtTy
  idx : Nat
deriving DecidableEq

/-- A pointer into an array of nodes, with the number of moves of the array until then. -/
structure ArtPtr where
  ref : ArtRef
  gen : Nat

/-- A place in an array: `art_leaf_t` (src/art/art.c:44-52), an inner node (57-120), or an unused place with `next_free`. -/
inductive ArtSlot (V : Type) where
  | leaf (key : List Nat) (val : V)
  | inner (pfx : List Nat) (node : Node ArtRef)
  | free (next : Nat)

/-- `art_t` without the root: include/roaring/art/art.h:57-70.  The capacity of an array is its length. -/
structure ArtHeap (V : Type) where
  nodes : ArtTy → List (ArtSlot V)
  first : ArtTy → Nat
  gen : ArtTy → Nat

/-- A field that is indexed by the typecode, after a store. -/
def updTy {β : Type} (f : ArtTy → β) (t : ArtTy) (x : β) : ArtTy → β := fun u => if u = t then x else f u

/-- The type of an inner node. -/
def Node.ty {α : Type} : Node α → ArtTy
  | .n4 _ => .n4
  | .n16 _ => .n16
  | .n48 _ => .n48
  | .n256 _ => .n256

section
variable {V : Type}

/-- The arrays of `art_init_cleared`: src/art/art.c:1797-1805. -/
def ArtHeap.empty : ArtHeap V := ⟨fun _ => [], fun _ => 0, fun _ => 0⟩

/-- What is at a reference. -/
def ArtHeap.get (H : ArtHeap V) (r : ArtRef) : Option (ArtSlot V) := (H.nodes r.ty)[r.idx]?

/-- `art_deref`: src/art/art.c:172-177. -/
def ArtHeap.deref (H : ArtHeap V) (r : ArtRef) : ArtPtr := ⟨r, H.gen r.ty⟩

/-- A read through a pointer. -/
def ArtHeap.peek (H : ArtHeap V) (p : ArtPtr) : Out (ArtSlot V) :=
  if p.gen = H.gen p.ref.ty then
    match H.get p.ref with
    | some s => .ok s
    | none => .oob
  else .oob

/-- A read of a leaf. -/
def ArtHeap.peekLeaf (H : ArtHeap V) (p : ArtPtr) : Out (List Nat × V) := do
  match ← H.peek p with
  | .leaf k v => .ok (k, v)
  | _ => .oob

/-- A read of an inner node of the type that the reference says. -/
def ArtHeap.peekInner (H : ArtHeap V) (p : ArtPtr) : Out (List Nat × Node ArtRef) := do
  match ← H.peek p with
  | .inner pfx n => if n.ty = p.ref.ty then .ok (pfx, n) else .oob
  | _ => .oob

/-- A write through a pointer. -/
def ArtHeap.poke (H : ArtHeap V) (p : ArtPtr) (s : ArtSlot V) : Out (ArtHeap V) :=
  if p.gen = H.gen p.ref.ty ∧ p.ref.idx < (H.nodes p.ref.ty).length then
    .ok { H with nodes := updTy H.nodes p.ref.ty ((H.nodes p.ref.ty).set p.ref.idx s) }
  else .oob

/-- A write of an inner node: the array `prefix` has five bytes (src/art/art.c:57-60). -/
def ArtHeap.pokeInner (H : ArtHeap V) (p : ArtPtr) (pfx : List Nat) (n : Node ArtRef) : Out (ArtHeap V) :=
  if pfx.length < KEY_BYTES then H.poke p (.inner pfx n) else .oob

/-- The capacity after growth: src/art/art.c:1309-1316. -/
def artNewCapacity (capacity : Nat) : Nat :=
  if capacity = 0 then 2 else if capacity < 1024 then 2 * capacity else 5 * capacity / 4

/-- `art_extend` when the array is full: src/art/art.c:1303-1326. -/
def ArtHeap.extend (H : ArtHeap V) (t : ArtTy) : ArtHeap V :=
  let capacity := (H.nodes t).length
  let new_capacity := artNewCapacity capacity
  { H with
    nodes := updTy H.nodes t (H.nodes t ++ (List.range' capacity (new_capacity - capacity)).map (fun i => .free (i + 1)))
    gen := updTy H.gen t (H.gen t + 1) }

/-- `art_allocate_index`, with `art_next_free`: src/art/art.c:1332-1335, 1341-1350. -/
def ArtHeap.alloc (H : ArtHeap V) (t : ArtTy) : Out (ArtHeap V × Nat) :=
  if H.first t = (H.nodes t).length then
    .ok ({ H.extend t with first := updTy H.first t (H.first t + 1) }, H.first t)
  else
    match H.get ⟨t, H.first t⟩ with
    | some (.free next) => .ok ({ H with first := updTy H.first t next }, H.first t)
    | _ => .oob

/-- `art_node_free`: src/art/art.c:1148-1154. -/
def ArtHeap.release (H : ArtHeap V) (p : ArtPtr) : Out (ArtHeap V) := do
  let H' ← H.poke p (.free (H.first p.ref.ty))
  .ok { H' with first := updTy H'.first p.ref.ty p.ref.idx }

/-- `art_leaf_create`: src/art/art.c:230-238. -/
def ArtHeap.createLeaf (H : ArtHeap V) (key : List Nat) (val : V) : Out (ArtHeap V × ArtRef) := do
  let a ← H.alloc .leaf
  let H ← a.1.poke (a.1.deref ⟨.leaf, a.2⟩) (.leaf key val)
  .ok (H, ⟨.leaf, a.2⟩)

/-- `art_node4_create`, `art_node16_create`, `art_node48_create`, `art_node256_create`: src/art/art.c:265-273, 471-480, 656-669, 865-877. -/
def ArtHeap.createInner (H : ArtHeap V) (pfx : List Nat) (empty : Node ArtRef) : Out (ArtHeap V × ArtPtr) := do
  let a ← H.alloc empty.ty
  let H ← a.1.pokeInner (a.1.deref ⟨empty.ty, a.2⟩) pfx empty
  .ok (H, a.1.deref ⟨empty.ty, a.2⟩)

/-! ### Nodes of references -/

section layout
variable {α : Type}

/-- `count < 4`, `count < 16`, `count < 48`: src/art/art.c:292, 499, 687. -/
def Node.room : Node α → Bool
  | .n4 ks => decide (ks.length < 4)
  | .n16 ks => decide (ks.length < 16)
  | .n48 n => decide (n.count < 48)
  | .n256 _ => true

/-- The insertion of a child where there is room: src/art/art.c:293-309, 500-516, 688-695, 889-894. -/
def Node.put : Node α → α → Nat → Node α
  | .n4 ks, child, key => .n4 (insertKs ks child key)
  | .n16 ks, child, key => .n16 (insertKs ks child key)
  | .n48 n, child, key => .n48 (n.put (some child) key)
  | .n256 n, child, key => .n256 (n.insert (some child) key)

/-- The next larger node, empty: what the `create` function called at src/art/art.c:311-312, 518-519, 697-698 gives. -/
def Node.larger : Node α → Node α
  | .n4 _ => .n16 []
  | .n16 _ => .n48 N48.create
  | .n48 _ => .n256 N256.create
  | .n256 _ => .n256 N256.create

/-- The copy of a full node into the next larger one: src/art/art.c:315-317, 520-522, 699-704. -/
def Node.grown : Node α → Node α
  | .n4 ks => .n16 ((ks.take 4).foldl (fun m p => insertKs m p.2 p.1) [])
  | .n16 ks => .n48 ((ks.take 16).foldl (fun m p => m.put (some p.2) p.1) N48.create)
  | .n48 n => .n256 n.grow
  | .n256 n => .n256 n

/-- The removal of a key from a node16: src/art/art.c:529-539. -/
def dropKs (ks : List (Nat × α)) (key : Nat) : List (Nat × α) :=
  match ks.findIdx? (fun p => p.1 == key) with
  | some i => ks.eraseIdx i
  | none => ks

/-- The removal of a key from a node48: src/art/art.c:711-717. -/
def N48.dropKey (n : N48 α) (key : Nat) : N48 α :=
  if n.keys.getD key NODE48_EMPTY = NODE48_EMPTY then n
  else ⟨n.count - 1, n.avail ||| oneBit (n.keys.getD key NODE48_EMPTY), n.keys.set key NODE48_EMPTY, n.children⟩

/-- The removal of a child within a node16, node48 or node256: src/art/art.c:529-539, 711-717, 898-899. -/
def Node.drop : Node α → Nat → Node α
  | .n4 ks, _ => .n4 ks
  | .n16 ks, key => .n16 (dropKs ks key)
  | .n48 n, key => .n48 (n.dropKey key)
  | .n256 n, key => .n256 ⟨n.count - 1, n.children.set key none⟩

/-- Whether the layout stays after a removal: `count > 4`, `count > 16`, `count > 48` at src/art/art.c:540, 718, 900; a node48 is also left as it
is if there is nothing to remove (712-714). -/
def Node.stays : Node α → Nat → Bool
  | .n4 _, _ => true
  | .n16 ks, key => decide ((dropKs ks key).length > 4)
  | .n48 n, key => decide (n.keys.getD key NODE48_EMPTY = NODE48_EMPTY) || decide (n.count - 1 > 16)
  | .n256 n, _ => decide (n.count - 1 > 48)

/-- The next smaller node, empty: what the `create` function called at src/art/art.c:543-544, 722-723, 904-905 gives. -/
def Node.smaller : Node α → Node α
  | .n4 _ => .n4 []
  | .n16 _ => .n4 []
  | .n48 _ => .n16 []
  | .n256 _ => .n48 N48.create

/-- The copy of a node into the next smaller one: src/art/art.c:547-549, 724-729, 906-910. -/
def Node.shrunk : Node α → Node α
  | .n4 ks => .n4 ks
  | .n16 ks => .n4 ((ks.take 4).foldl (fun m p => insertKs m p.2 p.1) [])
  | .n48 n => .n16 n.shrink
  | .n256 n => .n48 n.shrink

end layout

/-- The creation of a larger node, the copy, the release of the old one and the insertion: src/art/art.c:311-319, 518-524, 697-706.  The old node is
read through the pointer that was obtained before the creation.  Simplification: the copying loop is one write. -/
def ArtHeap.growInsert (H : ArtHeap V) (p : ArtPtr) (pfx : List Nat) (n : Node ArtRef) (child : ArtRef) (key : Nat) : Out (ArtHeap V × ArtRef) := do
  let a ← H.createInner pfx n.larger
  let old ← a.1.peekInner p
  let H ← a.1.pokeInner a.2 pfx old.2.grown
  let H ← H.release p
  let new ← H.peekInner a.2
  let H ← H.pokeInner a.2 new.1 (new.2.put child key)
  .ok (H, a.2.ref)

/-- `art_node_insert_leaf`: src/art/art.c:1082-1102, with `art_node4_insert` (290-320), `art_node16_insert` (497-525), `art_node48_insert`
(685-707) and `art_node256_insert` (889-894). -/
def ArtHeap.nodeInsert (H : ArtHeap V) (p : ArtPtr) (child : ArtRef) (key : Nat) : Out (ArtHeap V × ArtRef) := do
  let r ← H.peekInner p
  if r.2.room then do
    let H ← H.pokeInner p r.1 (r.2.put child key)
    .ok (H, p.ref)
  else H.growInsert p r.1 r.2 child key

/-- A store of a child reference: `art_replace` on the node at `r`: src/art/art.c:1040-1058. -/
def ArtHeap.nodeReplace (H : ArtHeap V) (p : ArtPtr) (key : Nat) (new : ArtRef) : Out (ArtHeap V) := do
  let r ← H.peekInner p
  H.pokeInner p r.1 (r.2.replace key new)

/-- The prefix of the remaining child of a node4 that is given up: src/art/art.c:340-351.  A leaf stays as it is. -/
def ArtHeap.joinPrefix (H : ArtHeap V) (pfx : List Nat) (rkey : Nat) (child : ArtRef) : Out (ArtHeap V) :=
  if child.ty = .leaf then .ok H
  else do
    let c ← H.peekInner (H.deref child)
    H.pokeInner (H.deref child) (pfx ++ rkey :: c.1) c.2

/-- `art_node4_erase`: src/art/art.c:322-361. -/
def ArtHeap.node4Erase (H : ArtHeap V) (p : ArtPtr) (pfx : List Nat) (ks : List (Nat × ArtRef)) (key : Nat) : Out (ArtHeap V × ArtRef) :=
  match ks.findIdx? (fun q => q.1 == key) with
  | none => .ok (H, p.ref)
  | some idx =>
    if ks.length = 2 then
      match ks[idx ^^^ 1]? with
      | none => .oob
      | some q => do
        let H ← H.joinPrefix pfx q.1 q.2
        let H ← H.release p
        .ok (H, q.2)
    else do
      let H ← H.pokeInner p pfx (.n4 (ks.eraseIdx idx))
      .ok (H, p.ref)

/-- The creation of a smaller node, the copy and the release of the old one: src/art/art.c:543-552, 722-731, 904-912. -/
def ArtHeap.shrinkNode (H : ArtHeap V) (p : ArtPtr) (pfx : List Nat) (n : Node ArtRef) : Out (ArtHeap V × ArtRef) := do
  let a ← H.createInner pfx n.smaller
  let old ← a.1.peekInner p
  let H ← a.1.pokeInner a.2 pfx old.2.shrunk
  let H ← H.release p
  .ok (H, a.2.ref)

/-- `art_node16_erase`, `art_node48_erase`, `art_node256_erase`: src/art/art.c:527-553, 709-732, 896-913. -/
def ArtHeap.bigErase (H : ArtHeap V) (p : ArtPtr) (pfx : List Nat) (n : Node ArtRef) (key : Nat) : Out (ArtHeap V × ArtRef) := do
  let H ← H.pokeInner p pfx (n.drop key)
  if n.stays key then .ok (H, p.ref) else H.shrinkNode p pfx (n.drop key)

/-- `art_node_erase`: src/art/art.c:1062-1078. -/
def ArtHeap.nodeErase (H : ArtHeap V) (p : ArtPtr) (key : Nat) : Out (ArtHeap V × ArtRef) := do
  let r ← H.peekInner p
  match r.2 with
  | .n4 ks => H.node4Erase p r.1 ks key
  | n => H.bigErase p r.1 n key

/-! ### Searches and updates -/

/-- `art_insert_at` on a leaf: src/art/art.c:1357-1377.  The old leaf is read through the pointer that was obtained before the creation. -/
def ArtHeap.insertAtLeaf (H : ArtHeap V) (ref : ArtRef) (key : List Nat) (depth : Nat) (new_leaf : ArtRef) : Out (ArtHeap V × ArtRef) := do
  let leaf ← H.peekLeaf (H.deref ref)
  let common_prefix := artCommonPrefix leaf.1 depth KEY_BYTES key depth KEY_BYTES
  let a ← H.createInner ((key.drop depth).take common_prefix) (.n4 [])
  let again ← a.1.peekLeaf (H.deref ref)
  let b ← a.1.nodeInsert a.2 ref (again.1.getD (depth + common_prefix) 0)
  b.1.nodeInsert a.2 new_leaf (key.getD (depth + common_prefix) 0)

/-- `art_insert_at` where the prefix does not match: src/art/art.c:1384-1417. -/
def ArtHeap.splitPrefix (H : ArtHeap V) (ref : ArtRef) (pfx key : List Nat) (depth common_prefix : Nat) (new_leaf : ArtRef) :
    Out (ArtHeap V × ArtRef) := do
  let a ← H.createInner (pfx.take common_prefix) (.n4 [])
  let i ← a.1.peekInner (a.1.deref ref)
  let b ← a.1.nodeInsert a.2 ref (i.1.getD common_prefix 0)
  let i ← b.1.peekInner (b.1.deref ref)
  let H ← b.1.pokeInner (b.1.deref ref) (i.1.drop (common_prefix + 1)) i.2
  H.nodeInsert a.2 new_leaf (key.getD (common_prefix + depth) 0)

/-- The reference of a child is stored if it has changed: src/art/art.c:1424-1430, 1505-1510. -/
def ArtHeap.storeChild (H : ArtHeap V) (ref : ArtRef) (key_chunk : Nat) (child new_child : ArtRef) : Out (ArtHeap V) :=
  if new_child ≠ child then H.nodeReplace (H.deref ref) key_chunk new_child else .ok H

/-- `art_insert_at`: src/art/art.c:1354-1436. -/
def ArtHeap.insertAt (key : List Nat) (new_leaf : ArtRef) : Nat → ArtHeap V → ArtRef → Nat → Out (ArtHeap V × ArtRef)
  | 0, H, ref, depth => if ref.ty = .leaf then H.insertAtLeaf ref key depth new_leaf else .oob
  | fuel + 1, H, ref, depth =>
    if ref.ty = .leaf then H.insertAtLeaf ref key depth new_leaf
    else do
      let i ← H.peekInner (H.deref ref)
      let common_prefix := artCommonPrefix i.1 0 i.1.length key depth KEY_BYTES
      if common_prefix ≠ i.1.length then H.splitPrefix ref i.1 key depth common_prefix new_leaf
      else
        match i.2.find (key.getD (depth + common_prefix) 0) with
        | some child => do
          let r ← insertAt key new_leaf fuel H child (depth + common_prefix + 1)
          let H ← r.1.storeChild ref (key.getD (depth + common_prefix) 0) child r.2
          .ok (H, ref)
        | none => H.nodeInsert (H.deref ref) new_leaf (key.getD (depth + common_prefix) 0)

/-- What a node does after the removal below it: src/art/art.c:1497-1510. -/
def ArtHeap.afterErase (H : ArtHeap V) (ref : ArtRef) (key_chunk : Nat) (child : ArtRef) (rootmost : Option ArtRef) : Out (ArtHeap V × ArtRef) :=
  match rootmost with
  | none => H.nodeErase (H.deref ref) key_chunk
  | some new_child => do
    let H ← H.storeChild ref key_chunk child new_child
    .ok (H, ref)

/-- `art_erase_at` on a leaf: src/art/art.c:1460-1472. -/
def ArtHeap.eraseAtLeaf (H : ArtHeap V) (ref : ArtRef) (key : List Nat) : Out (ArtHeap V × Option (V × Option ArtRef)) := do
  let leaf ← H.peekLeaf (H.deref ref)
  if artCommonPrefix leaf.1 0 KEY_BYTES key 0 KEY_BYTES ≠ KEY_BYTES then .ok (H, none)
  else do
    let H ← H.release (H.deref ref)
    .ok (H, some (leaf.2, none))

/-- `art_erase_at`: src/art/art.c:1453-1512: the value erased, if any, and the rootmost node, if one is left. -/
def ArtHeap.eraseAt (key : List Nat) : Nat → ArtHeap V → ArtRef → Nat → Out (ArtHeap V × Option (V × Option ArtRef))
  | 0, H, ref, _ => if ref.ty = .leaf then H.eraseAtLeaf ref key else .oob
  | fuel + 1, H, ref, depth =>
    if ref.ty = .leaf then H.eraseAtLeaf ref key
    else do
      let i ← H.peekInner (H.deref ref)
      let common_prefix := artCommonPrefix i.1 0 i.1.length key depth KEY_BYTES
      if common_prefix ≠ i.1.length then .ok (H, none)
      else
        match i.2.find (key.getD (depth + common_prefix) 0) with
        | none => .ok (H, none)
        | some child => do
          let r ← eraseAt key fuel H child (depth + common_prefix + 1)
          match r.2 with
          | none => .ok (r.1, none)
          | some e => do
            let s ← r.1.afterErase ref (key.getD (depth + common_prefix) 0) child e.2
            .ok (s.1, some (e.1, some s.2))

/-- `art_find_at` on a leaf: src/art/art.c:1535-1544: the pointer to the leaf whose value is returned. -/
def ArtHeap.findAtLeaf (H : ArtHeap V) (ref : ArtRef) (key : List Nat) (depth : Nat) : Out (Option ArtPtr) := do
  let leaf ← H.peekLeaf (H.deref ref)
  if depth ≥ KEY_BYTES then .ok (some (H.deref ref))
  else if artCommonPrefix leaf.1 0 KEY_BYTES key 0 KEY_BYTES = KEY_BYTES then .ok (some (H.deref ref)) else .ok none

/-- `art_find_at`: src/art/art.c:1516-1545. -/
def ArtHeap.findAt (H : ArtHeap V) (key : List Nat) : Nat → ArtRef → Nat → Out (Option ArtPtr)
  | 0, ref, depth => if ref.ty = .leaf then H.findAtLeaf ref key depth else .oob
  | fuel + 1, ref, depth =>
    if ref.ty = .leaf then H.findAtLeaf ref key depth
    else do
      let i ← H.peekInner (H.deref ref)
      if artCommonPrefix i.1 0 i.1.length key depth KEY_BYTES ≠ i.1.length then .ok none
      else
        match i.2.find (key.getD (depth + i.1.length) 0) with
        | none => .ok none
        | some child => findAt H key fuel child (depth + (i.1.length + 1))

/-- `art_t`: the arrays and the root (`none` is `CROARING_ART_NULL_REF`). -/
structure ArtT (V : Type) where
  heap : ArtHeap V
  root : Option ArtRef

/-- `art_init_cleared`: src/art/art.c:1797-1805. -/
def ArtT.init : ArtT V := ⟨ArtHeap.empty, none⟩

/-- `art_insert`: src/art/art.c:1829-1837: with the pointer to the leaf whose value the function returns a pointer to. -/
def ArtT.insert (a : ArtT V) (key : List Nat) (val : V) : Out (ArtT V × ArtPtr) := do
  let l ← a.heap.createLeaf key val
  match a.root with
  | none => .ok (⟨l.1, some l.2⟩, l.1.deref l.2)
  | some root => do
    let r ← ArtHeap.insertAt key l.2 LEVELS l.1 root 0
    .ok (⟨r.1, some r.2⟩, r.1.deref l.2)

/-- `art_erase`: src/art/art.c:1839-1854. -/
def ArtT.erase (a : ArtT V) (key : List Nat) : Out (ArtT V × Option V) :=
  match a.root with
  | none => .ok (a, none)
  | some root => do
    let r ← ArtHeap.eraseAt key LEVELS a.heap root 0
    match r.2 with
    | none => .ok (⟨r.1, a.root⟩, none)
    | some e => .ok (⟨r.1, e.2⟩, some e.1)

/-- `art_find`: src/art/art.c:1856-1861. -/
def ArtT.find (a : ArtT V) (key : List Nat) : Out (Option ArtPtr) :=
  match a.root with
  | none => .ok none
  | some root => a.heap.findAt key LEVELS root 0

/-- The value that a pointer from `art_insert` or `art_find` points to. -/
def ArtT.load (a : ArtT V) (p : ArtPtr) : Out V := do
  let l ← a.heap.peekLeaf p
  .ok l.2

/-- A store through a pointer from `art_insert` or `art_find`. -/
def ArtT.store (a : ArtT V) (p : ArtPtr) (val : V) : Out (ArtT V) := do
  let l ← a.heap.peekLeaf p
  let H ← a.heap.poke p (.leaf l.1 val)
  .ok ⟨H, a.root⟩

end
end CRoaring
