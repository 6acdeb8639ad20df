import Verif.Model.Bits
/-
Model of the adaptive radix tree that maps 48-bit keys to values: src/art/art.c, include/roaring/art/art.h.

A key is the list of its six bytes.  The tree is a value: a reference (`art_ref_t`) to a node is the node itself, and a
null reference is `none`.  Simplification: the arrays of nodes and their free lists are not
represented here (`Model/ArtHeap.lean` has them), so the creation of a node always gives a fresh one, and a node that is freed is never seen again.
A pointer to the value of a leaf is represented by the key of the leaf.  An iterator frame is the position of a child
within its node; the node of a frame is found from the root.  Loops that follow the tree downwards carry a counter of
remaining levels; a tree has at most six levels of inner nodes (proved in `Lemmas/Art*.lean`), so seven is enough.
-/
namespace CRoaring

/-- `ART_KEY_BYTES`: include/roaring/art/art.h:27. -/
def KEY_BYTES : Nat := 6
/-- `CROARING_ART_NODE48_EMPTY_VAL`: src/art/art.c:22. -/
def NODE48_EMPTY : Nat := 48
/-- `CROARING_NODE48_AVAILABLE_CHILDREN_MASK`: src/art/art.c:23. -/
def NODE48_MASK : Word := 281474976710655#64

/-- `art_node48_t`: src/art/art.c:93-107, without the prefix. -/
structure N48 (α : Type) where
  count : Nat
  avail : Word
  keys : List Nat
  children : List (Option α)

/-- `art_node256_t`: src/art/art.c:111-120, without the prefix. -/
structure N256 (α : Type) where
  count : Nat
  children : List (Option α)

/-- The four layouts of an inner node: `art_node4_t` and `art_node16_t` (src/art/art.c:65-88; the first `count` keys,
each with its child), `art_node48_t`, `art_node256_t`. -/
inductive Node (α : Type) where
  | n4 (ks : List (Nat × α))
  | n16 (ks : List (Nat × α))
  | n48 (n : N48 α)
  | n256 (n : N256 α)

/-- A leaf (`art_leaf_t`: src/art/art.c:44-52) or an inner node with its prefix (`art_inner_node_t`:
src/art/art.c:57-60). -/
inductive Art (V : Type) where
  | leaf (key : List Nat) (val : V)
  | inner (pfx : List Nat) (node : Node (Art V))

/-! ### Single nodes -/

section nodes
variable {α : Type}

/-- `art_node4_find_child`, `art_node16_find_child`: src/art/art.c:280-288, 487-495. -/
def findKs (ks : List (Nat × α)) (key : Nat) : Option α := (ks.find? (fun p => p.1 == key)).map (·.2)

/-- `art_node48_find_child`: src/art/art.c:676-683. -/
def N48.find (n : N48 α) (key : Nat) : Option α :=
  if n.keys.getD key NODE48_EMPTY ≠ NODE48_EMPTY then n.children.getD (n.keys.getD key NODE48_EMPTY) none else none

/-- `art_node256_find_child`: src/art/art.c:884-887. -/
def N256.find (n : N256 α) (key : Nat) : Option α := n.children.getD key none

/-- `art_find_child`: src/art/art.c:1021-1037. -/
def Node.find (n : Node α) (key : Nat) : Option α :=
  match n with
  | .n4 ks => findKs ks key
  | .n16 ks => findKs ks key
  | .n48 n => n.find key
  | .n256 n => n.find key

/-- The insertion of a key before the first greater key: src/art/art.c:293-309, 500-516. -/
def insertKs (ks : List (Nat × α)) (child : α) (key : Nat) : List (Nat × α) :=
  ks.takeWhile (fun p => decide (p.1 ≤ key)) ++ (key, child) :: ks.dropWhile (fun p => decide (p.1 ≤ key))

/-- `art_node256_create`: src/art/art.c:865-877. -/
def N256.create : N256 α := ⟨0, List.replicate 256 none⟩

/-- `art_node256_insert`: src/art/art.c:889-894. -/
def N256.insert (n : N256 α) (child : Option α) (key : Nat) : N256 α := ⟨n.count + 1, n.children.set key child⟩

/-- `art_node48_create`: src/art/art.c:656-669. -/
def N48.create : N48 α := ⟨0, NODE48_MASK, List.replicate 256 NODE48_EMPTY, List.replicate 48 none⟩

/-- `art_node48_insert` when there is room: src/art/art.c:687-695. -/
def N48.put (n : N48 α) (child : Option α) (key : Nat) : N48 α :=
  let val_idx := ctz n.avail
  ⟨n.count + 1, n.avail &&& ~~~(oneBit val_idx), n.keys.set key val_idx, n.children.set val_idx child⟩

/-- The loop that copies a node48 into a new node256: src/art/art.c:699-704. -/
def N48.grow (n : N48 α) : N256 α :=
  (List.range 256).foldl
    (fun m i => if n.keys.getD i NODE48_EMPTY ≠ NODE48_EMPTY
      then m.insert (n.children.getD (n.keys.getD i NODE48_EMPTY) none) i else m) N256.create

/-- `art_node48_insert`: src/art/art.c:685-707. -/
def N48.insert (n : N48 α) (child : α) (key : Nat) : Node α :=
  if n.count < 48 then .n48 (n.put (some child) key) else .n256 (n.grow.insert (some child) key)

/-- `art_node16_insert`: src/art/art.c:497-525.  The sixteen insertions into the new node48 find room. -/
def node16Insert (ks : List (Nat × α)) (child : α) (key : Nat) : Node α :=
  if ks.length < 16 then .n16 (insertKs ks child key)
  else ((ks.take 16).foldl (fun m p => m.put (some p.2) p.1) N48.create).insert child key

/-- `art_node4_insert`: src/art/art.c:290-320.  The four insertions into the new node16 find room. -/
def node4Insert (ks : List (Nat × α)) (child : α) (key : Nat) : Node α :=
  if ks.length < 4 then .n4 (insertKs ks child key)
  else node16Insert ((ks.take 4).foldl (fun m p => insertKs m p.2 p.1) []) child key

/-- `art_node_insert_leaf`: src/art/art.c:1082-1102. -/
def Node.insert (n : Node α) (child : α) (key : Nat) : Node α :=
  match n with
  | .n4 ks => node4Insert ks child key
  | .n16 ks => node16Insert ks child key
  | .n48 n => n.insert child key
  | .n256 n => .n256 (n.insert (some child) key)

/-- `art_node16_erase`: src/art/art.c:527-553. -/
def node16Erase (ks : List (Nat × α)) (key : Nat) : Node α :=
  let ks := match ks.findIdx? (fun p => p.1 == key) with
    | some i => ks.eraseIdx i
    | none => ks
  if ks.length > 4 then .n16 ks
  else .n4 ((ks.take 4).foldl (fun m p => insertKs m p.2 p.1) [])

/-- The loop that copies a node48 into a new node16: src/art/art.c:725-730 (the insertions find room). -/
def N48.shrink (n : N48 α) : List (Nat × α) :=
  (List.range 256).foldl
    (fun m i => if n.keys.getD i NODE48_EMPTY ≠ NODE48_EMPTY then
      match n.children.getD (n.keys.getD i NODE48_EMPTY) none with
      | some c => insertKs m c i
      | none => m
      else m) []

/-- `art_node48_erase`: src/art/art.c:709-732. -/
def N48.erase (n : N48 α) (key : Nat) : Node α :=
  let val_idx := n.keys.getD key NODE48_EMPTY
  if val_idx = NODE48_EMPTY then .n48 n
  else
    let n : N48 α := ⟨n.count - 1, n.avail ||| oneBit val_idx, n.keys.set key NODE48_EMPTY, n.children⟩
    if n.count > 16 then .n48 n else .n16 n.shrink

/-- The loop that copies a node256 into a new node48: src/art/art.c:906-910. -/
def N256.shrink (n : N256 α) : N48 α :=
  (List.range 256).foldl
    (fun m i => match n.children.getD i none with
      | some c => m.put (some c) i
      | none => m) N48.create

/-- `art_node256_erase`: src/art/art.c:896-913. -/
def N256.erase (n : N256 α) (key : Nat) : Node α :=
  let n : N256 α := ⟨n.count - 1, n.children.set key none⟩
  if n.count > 48 then .n256 n else .n48 n.shrink

/-- `art_node4_replace`, `art_node16_replace`: src/art/art.c:363-372, 555-564. -/
def replaceKs : List (Nat × α) → Nat → α → List (Nat × α)
  | [], _, _ => []
  | (k, c) :: t, key, new => if k = key then (k, new) :: t else (k, c) :: replaceKs t key new

/-- `art_replace`: src/art/art.c:1040-1058, with `art_node48_replace` (734-740) and `art_node256_replace` (915-919). -/
def Node.replace (n : Node α) (key : Nat) (new : α) : Node α :=
  match n with
  | .n4 ks => .n4 (replaceKs ks key new)
  | .n16 ks => .n16 (replaceKs ks key new)
  | .n48 n => .n48 { n with children := n.children.set (n.keys.getD key NODE48_EMPTY) (some new) }
  | .n256 n => .n256 { n with children := n.children.set key (some new) }

/-- `art_indexed_child_t`: src/art/art.c:133-137.  A null child is `none` in the functions below. -/
structure Indexed (α : Type) where
  index : Nat
  chunk : Nat
  child : α

/-- `art_node4_child_at`, `art_node16_child_at`: src/art/art.c:405-416, 597-608, for an index that is not negative. -/
def childAtKs (ks : List (Nat × α)) (index : Nat) : Option (Indexed α) := (ks[index]?).map (fun p => ⟨index, p.1, p.2⟩)

/-- `art_node48_child_at`: src/art/art.c:777-788. -/
def N48.childAt (n : N48 α) (index : Nat) : Option (Indexed α) :=
  if index ≥ 256 then none
  else (n.children.getD (n.keys.getD index NODE48_EMPTY) none).map (fun c => ⟨index, index, c⟩)

/-- `art_node256_child_at`: src/art/art.c:956-967. -/
def N256.childAt (n : N256 α) (index : Nat) : Option (Indexed α) :=
  if index ≥ 256 then none else (n.children.getD index none).map (fun c => ⟨index, index, c⟩)

/-- `art_node_child_at` on an inner node: src/art/art.c:1211-1233. -/
def Node.childAt (n : Node α) (index : Nat) : Option (Indexed α) :=
  match n with
  | .n4 ks => childAtKs ks index
  | .n16 ks => childAtKs ks index
  | .n48 n => n.childAt index
  | .n256 n => n.childAt index

/-- The loops `for (i = from; i < 256; ++i)` that stop at a present child of a node48. -/
def N48.scanUp (n : N48 α) (start : Nat) : Option (Indexed α) :=
  (List.range' start (256 - start)).findSome? (fun i =>
    if n.keys.getD i NODE48_EMPTY ≠ NODE48_EMPTY
    then (n.children.getD (n.keys.getD i NODE48_EMPTY) none).map (fun c => ⟨i, i, c⟩) else none)

/-- The loop `for (i = from - 1; i >= 0; --i)` that stops at a present child of a node48. -/
def N48.scanDown (n : N48 α) (start : Nat) : Option (Indexed α) :=
  (List.range start).reverse.findSome? (fun i =>
    if n.keys.getD i NODE48_EMPTY ≠ NODE48_EMPTY
    then (n.children.getD (n.keys.getD i NODE48_EMPTY) none).map (fun c => ⟨i, i, c⟩) else none)

/-- The loops `for (i = from; i < 256; ++i)` that stop at a present child of a node256. -/
def N256.scanUp (n : N256 α) (start : Nat) : Option (Indexed α) :=
  (List.range' start (256 - start)).findSome? (fun i => (n.children.getD i none).map (fun c => ⟨i, i, c⟩))

/-- The loop `for (i = from - 1; i >= 0; --i)` that stops at a present child of a node256. -/
def N256.scanDown (n : N256 α) (start : Nat) : Option (Indexed α) :=
  (List.range start).reverse.findSome? (fun i => (n.children.getD i none).map (fun c => ⟨i, i, c⟩))

/-- `art_node_next_child` on an inner node: src/art/art.c:1158-1180, with the functions of the four layouts
(374-386, 566-578, 742-756, 921-935).  `start` is `index + 1`: 0 stands for the index -1. -/
def Node.nextFrom (n : Node α) (start : Nat) : Option (Indexed α) :=
  match n with
  | .n4 ks => if start ≥ ks.length then none else childAtKs ks start
  | .n16 ks => if start ≥ ks.length then none else childAtKs ks start
  | .n48 n => n.scanUp start
  | .n256 n => n.scanUp start

/-- `art_node_prev_child` on an inner node: src/art/art.c:1184-1206, with the functions of the four layouts
(388-403, 580-595, 758-775, 937-954). -/
def Node.prevFrom (n : Node α) (index : Nat) : Option (Indexed α) :=
  match n with
  | .n4 ks =>
    let index := if index > ks.length then ks.length else index
    if index = 0 then none else childAtKs ks (index - 1)
  | .n16 ks =>
    let index := if index > ks.length then ks.length else index
    if index = 0 then none else childAtKs ks (index - 1)
  | .n48 n => n.scanDown (if index > 256 then 256 else index)
  | .n256 n => n.scanDown (if index > 256 then 256 else index)

/-- `art_node4_lower_bound`, `art_node16_lower_bound`: src/art/art.c:418-431, 610-623, with `i` cells passed. -/
def lowerBoundKs (key : Nat) (i : Nat) : List (Nat × α) → Option (Indexed α)
  | [] => none
  | (k, c) :: t => if k ≥ key then some ⟨i, k, c⟩ else lowerBoundKs key (i + 1) t

/-- `art_node_lower_bound` on an inner node: src/art/art.c:1237-1259, with `art_node48_lower_bound` (790-803) and
`art_node256_lower_bound` (969-982). -/
def Node.lowerBound (n : Node α) (key : Nat) : Option (Indexed α) :=
  match n with
  | .n4 ks => lowerBoundKs key 0 ks
  | .n16 ks => lowerBoundKs key 0 ks
  | .n48 n => n.scanUp key
  | .n256 n => n.scanUp key

end nodes

/-! ### Keys -/

/-- `memcmp` of two byte sequences of equal length: the sign of the result. -/
def memcmp : List Nat → List Nat → Int
  | a :: s, b :: t => if a < b then -1 else if b < a then 1 else memcmp s t
  | _, _ => 0

/-- `art_compare_prefix`: src/art/art.c:1267-1272. -/
def artComparePrefix (key1 : List Nat) (from1 : Nat) (key2 : List Nat) (from2 length : Nat) : Int :=
  memcmp ((key1.drop from1).take length) ((key2.drop from2).take length)

/-- `art_compare_keys`: src/art/art.c:1275-1278. -/
def artCompareKeys (key1 key2 : List Nat) : Int := artComparePrefix key1 0 key2 0 KEY_BYTES

/-- The loop of `art_common_prefix`: src/art/art.c:1289-1296: the number of equal bytes at the start. -/
def commonLen : List Nat → List Nat → Nat
  | a :: s, b :: t => if a ≠ b then 0 else commonLen s t + 1
  | _, _ => 0

/-- `art_common_prefix`: src/art/art.c:1281-1297. -/
def artCommonPrefix (key1 : List Nat) (from1 to1 : Nat) (key2 : List Nat) (from2 to2 : Nat) : Nat :=
  commonLen ((key1.drop from1).take (to1 - from1)) ((key2.drop from2).take (to2 - from2))

/-! ### Searches and updates -/

section tree
variable {V : Type}

/-- `art_insert_at`: src/art/art.c:1354-1436; `new_leaf` is the leaf with `key` and `val`. -/
def artInsertAt : Nat → Art V → List Nat → Nat → V → Art V
  | _, .leaf lkey lval, key, depth, val =>
    let common_prefix := artCommonPrefix lkey depth KEY_BYTES key depth KEY_BYTES
    let node : Node (Art V) := .n4 []
    let node := node.insert (.leaf lkey lval) (lkey.getD (depth + common_prefix) 0)
    let node := node.insert (.leaf key val) (key.getD (depth + common_prefix) 0)
    .inner ((key.drop depth).take common_prefix) node
  | 0, t, _, _, _ => t
  | fuel + 1, .inner pfx node, key, depth, val =>
    let common_prefix := artCommonPrefix pfx 0 pfx.length key depth KEY_BYTES
    if common_prefix ≠ pfx.length then
      let node4 : Node (Art V) := .n4 []
      let node4 := node4.insert (.inner (pfx.drop (common_prefix + 1)) node) (pfx.getD common_prefix 0)
      .inner (pfx.take common_prefix) (node4.insert (.leaf key val) (key.getD (common_prefix + depth) 0))
    else
      let key_chunk := key.getD (depth + common_prefix) 0
      match node.find key_chunk with
      | some child => .inner pfx (node.replace key_chunk (artInsertAt fuel child key (depth + common_prefix + 1) val))
      | none => .inner pfx (node.insert (.leaf key val) key_chunk)

/-- `art_node4_erase`: src/art/art.c:322-361.  (The search does not stop at the first match; keys are distinct.) -/
def node4Erase (pfx : List Nat) (ks : List (Nat × Art V)) (key : Nat) : Art V :=
  match ks.findIdx? (fun p => p.1 == key) with
  | none => .inner pfx (.n4 ks)
  | some idx =>
    if ks.length = 2 then
      match ks[idx ^^^ 1]? with
      | some (_, .leaf k v) => .leaf k v
      | some (rkey, .inner p n) => .inner (pfx ++ rkey :: p) n
      | none => .inner pfx (.n4 ks)
    else .inner pfx (.n4 (ks.eraseIdx idx))

/-- `art_node_erase`: src/art/art.c:1062-1078. -/
def nodeErase (pfx : List Nat) (n : Node (Art V)) (key : Nat) : Art V :=
  match n with
  | .n4 ks => node4Erase pfx ks key
  | .n16 ks => .inner pfx (node16Erase ks key)
  | .n48 n => .inner pfx (n.erase key)
  | .n256 n => .inner pfx (n.erase key)

/-- `art_erase_at`: src/art/art.c:1453-1512: `none` if nothing is erased, else the erased value and the new node, if one
is left. -/
def artEraseAt : Nat → Art V → List Nat → Nat → Option (V × Option (Art V))
  | _, .leaf lkey lval, key, _ =>
    if artCommonPrefix lkey 0 KEY_BYTES key 0 KEY_BYTES ≠ KEY_BYTES then none else some (lval, none)
  | 0, _, _, _ => none
  | fuel + 1, .inner pfx node, key, depth =>
    let common_prefix := artCommonPrefix pfx 0 pfx.length key depth KEY_BYTES
    if common_prefix ≠ pfx.length then none
    else
      let key_chunk := key.getD (depth + common_prefix) 0
      match node.find key_chunk with
      | none => none
      | some child =>
        match artEraseAt fuel child key (depth + common_prefix + 1) with
        | none => none
        | some (v, none) => some (v, some (nodeErase pfx node key_chunk))
        | some (v, some child') => some (v, some (.inner pfx (node.replace key_chunk child')))

/-- `art_find_at`: src/art/art.c:1516-1545. -/
def artFindAt : Nat → Art V → List Nat → Nat → Option V
  | _, .leaf lkey lval, key, depth =>
    if depth ≥ KEY_BYTES then some lval
    else if artCommonPrefix lkey 0 KEY_BYTES key 0 KEY_BYTES = KEY_BYTES then some lval else none
  | 0, _, _, _ => none
  | fuel + 1, .inner pfx node, key, depth =>
    if artCommonPrefix pfx 0 pfx.length key depth KEY_BYTES ≠ pfx.length then none
    else
      match node.find (key.getD (depth + pfx.length) 0) with
      | none => none
      | some child => artFindAt fuel child key (depth + (pfx.length + 1))

/-- The levels that the downward loops may pass. -/
def LEVELS : Nat := 7

/-- `art_insert`: src/art/art.c:1829-1837 (the pointer it returns is represented by `key`). -/
def artInsert (root : Option (Art V)) (key : List Nat) (val : V) : Option (Art V) :=
  match root with
  | none => some (.leaf key val)
  | some t => some (artInsertAt LEVELS t key 0 val)

/-- `art_erase`: src/art/art.c:1839-1854: the erased value, if there is one, and the new root. -/
def artErase (root : Option (Art V)) (key : List Nat) : Option V × Option (Art V) :=
  match root with
  | none => (none, none)
  | some t =>
    match artEraseAt LEVELS t key 0 with
    | none => (none, some t)
    | some (v, r) => (some v, r)

/-- `art_find`: src/art/art.c:1856-1861. -/
def artFind (root : Option (Art V)) (key : List Nat) : Option V :=
  match root with
  | none => none
  | some t => artFindAt LEVELS t key 0

/-- `art_is_empty`: src/art/art.c:1863-1865. -/
def artIsEmpty (root : Option (Art V)) : Bool := root.isNone

/-- A store through a pointer to the value of the leaf with the given key: follows the path of `art_find_at`. -/
def artStoreAt : Nat → Art V → List Nat → Nat → V → Art V
  | _, .leaf lkey lval, key, depth, val =>
    if depth ≥ KEY_BYTES then .leaf lkey val
    else if artCommonPrefix lkey 0 KEY_BYTES key 0 KEY_BYTES = KEY_BYTES then .leaf lkey val else .leaf lkey lval
  | 0, t, _, _, _ => t
  | fuel + 1, .inner pfx node, key, depth, val =>
    let chunk := key.getD (depth + pfx.length) 0
    match node.find chunk with
    | none => .inner pfx node
    | some child => .inner pfx (node.replace chunk (artStoreAt fuel child key (depth + (pfx.length + 1)) val))

/-- A store through a pointer to the value of the leaf with the given key. -/
def artStore (root : Option (Art V)) (key : List Nat) (val : V) : Option (Art V) :=
  root.map (fun t => artStoreAt LEVELS t key 0 val)

/-! ### Iterators -/

/-- `art_iterator_t`: include/roaring/art/art.h:132-153.  `stack` holds `index_in_node` of the frames above the current one,
innermost first, `idx` that of the current frame.  `value` is what the pointer `value` points to, `none` if it is
null. -/
structure ArtIt (V : Type) where
  stack : List Nat
  idx : Nat
  depth : Nat
  key : List Nat
  value : Option V

/-- The node that is reached from `t` by the given child positions. -/
def artDescend : Art V → List Nat → Option (Art V)
  | t, [] => some t
  | .leaf _ _, _ :: _ => none
  | .inner _ n, i :: is => match n.childAt i with
    | some c => artDescend c.child is
    | none => none

/-- `art_iterator_ref` / `art_iterator_node`: src/art/art.c:1883-1885, 1888-1890. -/
def itNode (root : Option (Art V)) (stack : List Nat) : Option (Art V) :=
  match root with
  | none => none
  | some t => artDescend t stack.reverse

/-- `art_iterator_valid_loc`: src/art/art.c:1894-1902, on a leaf. -/
def itValid (it : ArtIt V) (key : List Nat) (val : V) : ArtIt V := { it with idx := 0, key := key, value := some val }

/-- `art_iterator_invalid_loc`: src/art/art.c:1906-1910. -/
def itInvalid (it : ArtIt V) : ArtIt V := { it with key := List.replicate KEY_BYTES 0, value := none }

/-- `art_iterator_down`: src/art/art.c:1916-1927, from a node with the given prefix. -/
def itDown (it : ArtIt V) (pfx : List Nat) (index : Nat) : ArtIt V :=
  { it with stack := index :: it.stack, idx := 0, depth := it.depth + (pfx.length + 1) }

/-- `art_node_init_iterator`: src/art/art.c:1974-1993. -/
def nodeInitIterator (first : Bool) : Nat → Art V → ArtIt V → ArtIt V
  | _, .leaf k v, it => itValid it k v
  | 0, _, it => itInvalid it
  | fuel + 1, .inner pfx n, it =>
    match (if first then n.nextFrom 0 else n.prevFrom 256) with
    | some c => nodeInitIterator first fuel c.child (itDown it pfx c.index)
    | none => itInvalid it

/-- The prefix size of the node at the given frame. -/
def prefixSizeAt (root : Option (Art V)) (stack : List Nat) : Nat :=
  match itNode root stack with
  | some (.inner pfx _) => pfx.length
  | _ => 0

/-- `art_iterator_neighbor_child` and the descent to a leaf, at an inner node: src/art/art.c:1931-1947, 2003-2009. -/
def itNeighbor (root : Option (Art V)) (forward : Bool) (it : ArtIt V) : Option (ArtIt V) :=
  match itNode root it.stack with
  | some (.inner pfx n) =>
    match (if forward then n.nextFrom (it.idx + 1) else n.prevFrom it.idx) with
    | some c => some (nodeInitIterator forward LEVELS c.child (itDown it pfx c.index))
    | none => none
  | _ => none

/-- `art_iterator_move` from an inner node and `art_iterator_up_and_move`: src/art/art.c:1951-1970, 1995-2012, where
`stack` are the frames above the current one. -/
def itMoveInner (root : Option (Art V)) (forward : Bool) : List Nat → ArtIt V → ArtIt V
  | [], it =>
    match itNeighbor root forward it with
    | some it' => it'
    | none => itInvalid it
  | i :: st, it =>
    match itNeighbor root forward it with
    | some it' => it'
    | none => itMoveInner root forward st { it with stack := st, idx := i, depth := it.depth - (prefixSizeAt root st + 1) }

/-- `art_iterator_up_and_move`: src/art/art.c:1964-1970. -/
def itUpAndMove (root : Option (Art V)) (forward : Bool) (it : ArtIt V) : ArtIt V :=
  match it.stack with
  | [] => itInvalid it
  | i :: st => itMoveInner root forward st { it with stack := st, idx := i, depth := it.depth - (prefixSizeAt root st + 1) }

/-- `art_iterator_move`: src/art/art.c:1995-2012. -/
def itMove (root : Option (Art V)) (forward : Bool) (it : ArtIt V) : ArtIt V :=
  match itNode root it.stack with
  | some (.leaf _ _) => itUpAndMove root forward it
  | _ => itMoveInner root forward it.stack it

/-- `art_node_iterator_lower_bound`: src/art/art.c:2016-2061. -/
def nodeLowerBound (root : Option (Art V)) (key : List Nat) : Nat → Art V → ArtIt V → ArtIt V
  | _, .leaf k v, it => if artCompareKeys k key ≥ 0 then itValid it k v else itUpAndMove root true it
  | 0, _, it => itInvalid it
  | fuel + 1, .inner pfx n, it =>
    let prefix_comparison := artComparePrefix pfx 0 key it.depth pfx.length
    if prefix_comparison < 0 then itUpAndMove root true it
    else if prefix_comparison > 0 then nodeInitIterator true LEVELS (.inner pfx n) it
    else
      let key_chunk := key.getD (it.depth + pfx.length) 0
      match n.lowerBound key_chunk with
      | none => itUpAndMove root true it
      | some c =>
        if c.chunk > key_chunk then nodeInitIterator true LEVELS c.child (itDown it pfx c.index)
        else nodeLowerBound root key fuel c.child (itDown it pfx c.index)

/-- `CROARING_ZERO_INITIALIZER` for an iterator. -/
def itZero : ArtIt V := ⟨[], 0, 0, List.replicate KEY_BYTES 0, none⟩

/-- `art_init_iterator`: src/art/art.c:2063-2071. -/
def artInitIterator (root : Option (Art V)) (first : Bool) : ArtIt V :=
  match root with
  | none => itZero
  | some t => nodeInitIterator first LEVELS t itZero

/-- `art_iterator_next`, `art_iterator_prev`: src/art/art.c:2073-2075, 2077-2079. -/
def itNext (root : Option (Art V)) (it : ArtIt V) : ArtIt V := itMove root true it
def itPrev (root : Option (Art V)) (it : ArtIt V) : ArtIt V := itMove root false it

/-- The loop of `art_iterator_lower_bound`: src/art/art.c:2096-2121, and what follows it, where `stack` are the frames
above the current one. -/
def itLowerLoop (root : Option (Art V)) (key : List Nat) : List Nat → Int → ArtIt V → ArtIt V
  | [], cmp, it =>
    if cmp ≠ 0 then
      if cmp < 0 then itInvalid it
      else match itNode root it.stack with
        | some t => nodeInitIterator true LEVELS t it
        | none => itInvalid it
    else match itNode root it.stack with
      | some t => nodeLowerBound root key LEVELS t it
      | none => itInvalid it
  | i :: st, cmp, it =>
    if cmp ≠ 0 then
      let ps := prefixSizeAt root st
      let depth := it.depth - (ps + 1)
      itLowerLoop root key st (artComparePrefix it.key 0 key 0 (depth + ps)) { it with stack := st, idx := i, depth := depth }
    else match itNode root it.stack with
      | some t => nodeLowerBound root key LEVELS t it
      | none => itInvalid it

/-- `art_iterator_lower_bound`: src/art/art.c:2081-2122.  Simplification: for an iterator without a value, the code
starts from `frames[0].ref`; this is the root for every iterator that `art_init_iterator` made, and null if the tree was
empty then. -/
def itLowerBound (root : Option (Art V)) (it : ArtIt V) (key : List Nat) : ArtIt V :=
  match it.value with
  | none =>
    match root with
    | none => it
    | some t => nodeLowerBound root key LEVELS t { it with stack := [], depth := 0 }
  | some _ => itLowerLoop root key it.stack (artComparePrefix it.key 0 key 0 KEY_BYTES) it

/-- `art_lower_bound`: src/art/art.c:2124-2131. -/
def artLowerBound (root : Option (Art V)) (key : List Nat) : ArtIt V :=
  match root with
  | none => itZero
  | some t => nodeLowerBound root key LEVELS t itZero

/-- `art_upper_bound`: src/art/art.c:2133-2143. -/
def artUpperBound (root : Option (Art V)) (key : List Nat) : ArtIt V :=
  match root with
  | none => itZero
  | some t =>
    let it := nodeLowerBound root key LEVELS t itZero
    if it.value.isSome = true ∧ artCompareKeys it.key key = 0 then itNext root it else it

/-- `art_iterator_insert`: src/art/art.c:2145-2153: the new root and the iterator. -/
def itInsert (root : Option (Art V)) (it : ArtIt V) (key : List Nat) (val : V) : Option (Art V) × ArtIt V :=
  let root := artInsert root key val
  match root with
  | none => (root, it)
  | some t => (root, nodeLowerBound root key LEVELS t { it with stack := [], depth := 0 })

/-- A store of the node `new` in the place that is reached from `t` by the given child positions, where the last step
goes through `art_replace` with the key chunk of the parent. -/
def artPlace : Art V → List Nat → List Nat → Nat → Art V → Art V
  | _, [], _, _, new => new
  | .leaf k v, _ :: _, _, _, _ => .leaf k v
  | .inner pfx n, i :: is, key, depth, new =>
    match n.childAt i with
    | some c =>
      .inner pfx (n.replace (key.getD (depth + pfx.length) 0) (artPlace c.child is key (depth + (pfx.length + 1)) new))
    | none => .inner pfx n

/-- `art_iterator_erase`: src/art/art.c:2155-2214: the erased value, the new root and the iterator.  The new parent
node takes the place of the old one (in its parent, or as the root). -/
def itErase (root : Option (Art V)) (it : ArtIt V) : Option V × Option (Art V) × ArtIt V :=
  match it.value, root with
  | none, _ => (none, root, it)
  | some _, none => (none, root, it)
  | some v, some t =>
    match it.stack with
    | [] => (some v, none, itInvalid it)
    | _ :: st =>
      match artDescend t st.reverse with
      | some (.inner pfx n) =>
        let depth := it.depth - (pfx.length + 1)
        let new_parent := nodeErase pfx n (it.key.getD (depth + pfx.length) 0)
        let root' := artPlace t st.reverse it.key 0 new_parent
        (some v, some root',
          nodeLowerBound (some root') it.key LEVELS root' { it with stack := [], depth := 0 })
      | _ => (none, root, it)

end tree
end CRoaring
