import Verif.Model.ArtHeap
/-
Iterators over the radix tree in its arrays of nodes: src/art/art.c:1880-2214.  An iterator holds references to the nodes on the way from the root to
its leaf, and a pointer into the array of leaves.  A reference to a place that holds no such node, a pointer from before its array was moved, a frame
outside the array of frames and a byte outside a key are the outcome `oob`.  (`Model/Art.lean` has iterators over the tree as a value.)
-/
namespace CRoaring

section
variable {V : Type}

/-- `art_iterator_frame_t`: include/roaring/art/art.h:132-135. -/
structure HFrame where
  ref : Option ArtRef
  idx : Nat

/-- `art_iterator_t`: include/roaring/art/art.h:141-153, without the pointer to the tree, which the functions below take as an argument. -/
structure HIt where
  key : List Nat
  value : Option ArtPtr
  depth : Nat
  frame : Nat
  frames : List HFrame

/-- `CROARING_ZERO_INITIALIZER` for an iterator: src/art/art.c:2064, 2125, 2134. -/
def HIt.zero : HIt := ⟨List.replicate KEY_BYTES 0, none, 0, 0, List.replicate (KEY_BYTES + 1) ⟨none, 0⟩⟩

/-- `iterator->frames[iterator->frame]`. -/
def HIt.cur (it : HIt) : Out HFrame :=
  match it.frames[it.frame]? with
  | some f => .ok f
  | none => .oob

/-- `art_iterator_ref`: src/art/art.c:1882-1884; a null reference is not used. -/
def HIt.ref (it : HIt) : Out ArtRef := do
  let f ← it.cur
  match f.ref with
  | some r => .ok r
  | none => .oob

/-- A store to `iterator->frames[iterator->frame]`. -/
def HIt.setCur (it : HIt) (f : HFrame) : Out HIt :=
  if it.frame < it.frames.length then .ok { it with frames := it.frames.set it.frame f } else .oob

/-- The byte of a key at an index. -/
def chunkAt (key : List Nat) (i : Nat) : Out Nat :=
  match key[i]? with
  | some b => .ok b
  | none => .oob

/-- `art_compare_prefix`: src/art/art.c:1267-1272, within its arguments. -/
def comparePrefixIn (key1 : List Nat) (from1 : Nat) (key2 : List Nat) (from2 length : Nat) : Out Int :=
  if from1 + length ≤ key1.length ∧ from2 + length ≤ key2.length then .ok (artComparePrefix key1 from1 key2 from2 length) else .oob

/-- `art_iterator_valid_loc`: src/art/art.c:1893-1902. -/
def HIt.validLoc (H : ArtHeap V) (it : HIt) (leaf_ref : ArtRef) : Out HIt := do
  let it ← it.setCur ⟨some leaf_ref, 0⟩
  let leaf ← H.peekLeaf (H.deref leaf_ref)
  .ok { it with key := leaf.1, value := some (H.deref leaf_ref) }

/-- `art_iterator_invalid_loc`: src/art/art.c:1906-1910. -/
def HIt.invalidLoc (it : HIt) : HIt := { it with key := List.replicate KEY_BYTES 0, value := none }

/-- `art_iterator_down`: src/art/art.c:1916-1928; the fields `index_in_node` and `depth` have eight bits. -/
def HIt.down (H : ArtHeap V) (it : HIt) (ref : ArtRef) (index_in_node : Nat) : Out HIt := do
  let it ← it.setCur ⟨some ref, index_in_node % 256⟩
  let it := { it with frame := it.frame + 1 }
  let node ← H.peekInner (H.deref ref)
  match node.2.childAt (index_in_node % 256) with
  | none => .oob
  | some indexed_child => do
    let f ← it.cur
    let it ← it.setCur ⟨some indexed_child.child, f.idx⟩
    .ok { it with depth := (it.depth + (node.1.length + 1)) % 256 }

/-- `art_iterator_neighbor_child`: src/art/art.c:1932-1948: the iterator and the child moved to, if there is one. -/
def HIt.neighborChild (H : ArtHeap V) (forward : Bool) (it : HIt) : Out (Option (HIt × ArtRef)) := do
  let frame ← it.cur
  let ref ← it.ref
  let node ← H.peekInner (H.deref ref)
  match (if forward then node.2.nextFrom (frame.idx + 1) else node.2.prevFrom frame.idx) with
  | none => .ok none
  | some indexed_child => do
    let it ← it.down H ref indexed_child.index
    .ok (some (it, indexed_child.child))

/-- `art_iterator_up`: src/art/art.c:1952-1961; none if the iterator is at the root. -/
def HIt.up (H : ArtHeap V) (it : HIt) : Out (Option HIt) :=
  if it.frame = 0 then .ok none
  else do
    let it := { it with frame := it.frame - 1 }
    let ref ← it.ref
    let node ← H.peekInner (H.deref ref)
    .ok (some { it with depth := (it.depth + 256 - (node.1.length + 1)) % 256 })

/-- The end of `art_node_init_iterator`: src/art/art.c:1990-1992. -/
def HIt.initLeaf (H : ArtHeap V) (ref : ArtRef) (it : HIt) : Out HIt := do
  let it ← it.setCur ⟨some ref, 0⟩
  it.validLoc H ref

/-- `art_node_init_iterator`: src/art/art.c:1974-1993.  The number is a bound on the levels below. -/
def HIt.nodeInit (H : ArtHeap V) (first : Bool) : Nat → ArtRef → HIt → Out HIt
  | 0, ref, it => if ref.ty = .leaf then it.initLeaf H ref else .oob
  | fuel + 1, ref, it =>
    if ref.ty = .leaf then it.initLeaf H ref
    else do
      let node ← H.peekInner (H.deref ref)
      match (if first then node.2.nextFrom 0 else node.2.prevFrom 256) with
      | none => .oob
      | some indexed_child => do
        let it ← it.down H ref indexed_child.index
        HIt.nodeInit H first fuel indexed_child.child it

/-- `art_iterator_move`: src/art/art.c:1995-2012, with `art_iterator_up_and_move` (1965-1971) at its end.  The number is a bound on the frames. -/
def HIt.move (H : ArtHeap V) (forward : Bool) : Nat → HIt → Out HIt
  | 0, _ => .oob
  | fuel + 1, it => do
    let ref ← it.ref
    let u ← (if ref.ty = .leaf then it.up H else .ok (some it))
    match u with
    | none => .ok it.invalidLoc
    | some it => do
      let n ← it.neighborChild H forward
      match n with
      | some p => HIt.nodeInit H forward LEVELS p.2 p.1
      | none => do
        let w ← it.up H
        match w with
        | none => .ok it.invalidLoc
        | some it => HIt.move H forward fuel it

/-- `art_iterator_up_and_move`: src/art/art.c:1965-1971. -/
def HIt.upAndMove (H : ArtHeap V) (forward : Bool) (it : HIt) : Out HIt := do
  let w ← it.up H
  match w with
  | none => .ok it.invalidLoc
  | some it => HIt.move H forward (it.frame + 1) it

/-- The end of `art_node_iterator_lower_bound`: src/art/art.c:2052-2060. -/
def HIt.lowerLeaf (H : ArtHeap V) (key : List Nat) (ref : ArtRef) (it : HIt) : Out HIt := do
  let leaf ← H.peekLeaf (H.deref ref)
  if artCompareKeys leaf.1 key ≥ 0 then it.validLoc H ref else it.upAndMove H true

/-- `art_node_iterator_lower_bound`: src/art/art.c:2016-2061.  The number is a bound on the levels below. -/
def HIt.nodeLower (H : ArtHeap V) (key : List Nat) : Nat → ArtRef → HIt → Out HIt
  | 0, ref, it => if ref.ty = .leaf then it.lowerLeaf H key ref else .oob
  | fuel + 1, ref, it =>
    if ref.ty = .leaf then it.lowerLeaf H key ref
    else do
      let inner_node ← H.peekInner (H.deref ref)
      let prefix_comparison ← comparePrefixIn inner_node.1 0 key it.depth inner_node.1.length
      if prefix_comparison < 0 then it.upAndMove H true
      else if prefix_comparison > 0 then HIt.nodeInit H true LEVELS ref it
      else do
        let key_chunk ← chunkAt key (it.depth + inner_node.1.length)
        match inner_node.2.lowerBound key_chunk with
        | none => it.upAndMove H true
        | some indexed_child => do
          let it ← it.down H ref indexed_child.index
          if indexed_child.chunk > key_chunk then HIt.nodeInit H true LEVELS indexed_child.child it
          else HIt.nodeLower H key fuel indexed_child.child it

/-- `art_init_iterator`: src/art/art.c:2063-2071. -/
def ArtT.initIterator (a : ArtT V) (first : Bool) : Out HIt :=
  match a.root with
  | none => .ok HIt.zero
  | some root => HIt.nodeInit a.heap first LEVELS root HIt.zero

/-- `art_iterator_next`: src/art/art.c:2073-2075. -/
def ArtT.itNext (a : ArtT V) (it : HIt) : Out HIt := it.move a.heap true (it.frame + 1)

/-- `art_iterator_prev`: src/art/art.c:2077-2079. -/
def ArtT.itPrev (a : ArtT V) (it : HIt) : Out HIt := it.move a.heap false (it.frame + 1)

/-- The loop of `art_iterator_lower_bound` and what follows it: src/art/art.c:2098-2121.  The number is a bound on the frames. -/
def HIt.lowerLoop (H : ArtHeap V) (key : List Nat) : Nat → Int → HIt → Out HIt
  | 0, _, _ => .oob
  | fuel + 1, compare_result, it =>
    if compare_result ≠ 0 then do
      let u ← it.up H
      match u with
      | none =>
        if compare_result < 0 then .ok it.invalidLoc
        else do
          let ref ← it.ref
          HIt.nodeInit H true LEVELS ref it
      | some it => do
        let ref ← it.ref
        let inner_node ← H.peekInner (H.deref ref)
        let c ← comparePrefixIn it.key 0 key 0 (it.depth + inner_node.1.length)
        HIt.lowerLoop H key fuel c it
    else do
      let ref ← it.ref
      HIt.nodeLower H key LEVELS ref it

/-- `art_iterator_lower_bound`: src/art/art.c:2081-2122. -/
def ArtT.itLowerBound (a : ArtT V) (it : HIt) (key : List Nat) : Out HIt :=
  match it.value with
  | none => do
    let it := { it with frame := 0, depth := 0 }
    let f ← it.cur
    match f.ref with
    | none => .ok it
    | some root => HIt.nodeLower a.heap key LEVELS root it
  | some _ => do
    let c ← comparePrefixIn it.key 0 key 0 KEY_BYTES
    HIt.lowerLoop a.heap key (it.frame + 1) c it

/-- `art_lower_bound`: src/art/art.c:2124-2131. -/
def ArtT.lowerBound (a : ArtT V) (key : List Nat) : Out HIt :=
  match a.root with
  | none => .ok HIt.zero
  | some root => HIt.nodeLower a.heap key LEVELS root HIt.zero

/-- `art_upper_bound`: src/art/art.c:2133-2143. -/
def ArtT.upperBound (a : ArtT V) (key : List Nat) : Out HIt :=
  match a.root with
  | none => .ok HIt.zero
  | some root => do
    let it ← HIt.nodeLower a.heap key LEVELS root HIt.zero
    if it.value.isSome = true ∧ artCompareKeys it.key key = 0 then a.itNext it else .ok it

/-- `art_iterator_insert`: src/art/art.c:2145-2153. -/
def ArtT.itInsert (a : ArtT V) (it : HIt) (key : List Nat) (val : V) : Out (ArtT V × HIt) := do
  let r ← a.insert key val
  match r.1.root with
  | none => .oob
  | some root => do
    let it ← HIt.nodeLower r.1.heap key LEVELS root { it with frame := 0, depth := 0 }
    .ok (r.1, it)

/-- The end of `art_iterator_erase`: src/art/art.c:2207-2213. -/
def ArtT.afterItErase (a : ArtT V) (it : HIt) (initial_key : List Nat) : Out (ArtT V × HIt) :=
  match a.root with
  | none => .oob
  | some root => do
    let it ← HIt.nodeLower a.heap initial_key LEVELS root { it with frame := 0, depth := 0 }
    .ok (a, it)

/-- The new parent in the place of the old one: src/art/art.c:2187-2205. -/
def ArtT.replaceParent (a : ArtT V) (it : HIt) (parent_ref new_parent_ref : ArtRef) : Out (ArtT V × HIt) :=
  if new_parent_ref ≠ parent_ref then do
    let f ← it.cur
    let it ← it.setCur ⟨some new_parent_ref, f.idx⟩
    let u ← it.up a.heap
    match u with
    | some it => do
      let grandparent_ref ← it.ref
      let grandparent_node ← a.heap.peekInner (a.heap.deref grandparent_ref)
      let key_chunk_in_grandparent ← chunkAt it.key (it.depth + grandparent_node.1.length)
      let H ← a.heap.nodeReplace (a.heap.deref grandparent_ref) key_chunk_in_grandparent new_parent_ref
      .ok (⟨H, a.root⟩, it)
    | none => .ok (⟨a.heap, some new_parent_ref⟩, it)
  else .ok (a, it)

/-- `art_iterator_erase`: src/art/art.c:2155-2214: the value erased, if any. -/
def ArtT.itErase (a : ArtT V) (it : HIt) : Out (Option V × ArtT V × HIt) :=
  match it.value with
  | none => .ok (none, a, it)
  | some p => do
    let initial_key := it.key
    let erased_val ← a.load p
    let ref ← it.ref
    let H ← a.heap.release (a.heap.deref ref)
    let u ← it.up H
    match u with
    | none => .ok (some erased_val, ⟨H, none⟩, it.invalidLoc)
    | some it => do
      let parent_ref ← it.ref
      let parent_node ← H.peekInner (H.deref parent_ref)
      let key_chunk_in_parent ← chunkAt it.key (it.depth + parent_node.1.length)
      let e ← H.nodeErase (H.deref parent_ref) key_chunk_in_parent
      let q ← ArtT.replaceParent ⟨e.1, a.root⟩ it parent_ref e.2
      let z ← q.1.afterItErase q.2 initial_key
      .ok (some erased_val, z.1, z.2)

end
end CRoaring
