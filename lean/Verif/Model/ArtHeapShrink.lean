import Verif.Model.ArtHeap
/-
`art_shrink_to_fit`: src/art/art.c:1647-1827.  Nodes are moved to earlier unused places, then the arrays are cut.
-/
namespace CRoaring

/-- The typecodes in the order of the loops at src/art/art.c:1702-1703, 1732-1733, 1820-1821. -/
def artTypes : List ArtTy := [.leaf, .n4, .n16, .n48, .n256]

/-- `ART_NODE_SIZES`: src/art/art.c:123-130; the sizes of the structures on x86-64. -/
def ArtTy.size : ArtTy → Nat
  | .leaf => 16
  | .n4 => 48
  | .n16 => 152
  | .n48 => 656
  | .n256 => 2056

/-- The positions that the loops at src/art/art.c:1756, 1764, 1772, 1783 visit, each named by its byte. -/
def Node.bytes {α : Type} : Node α → List Nat
  | .n4 ks => ks.map Prod.fst
  | .n16 ks => ks.map Prod.fst
  | .n48 _ => List.range 256
  | .n256 _ => List.range 256

section
variable {V : Type}

/-- `art_node_get_next_free`: src/art/art.c:1104-1122. -/
def ArtHeap.nextFree (H : ArtHeap V) (t : ArtTy) (i : Nat) : Out Nat := do
  match ← H.peek (H.deref ⟨t, i⟩) with
  | .free next => .ok next
  | _ => .oob

/-- The loop at src/art/art.c:1683-1687: `current` and `next_free`.  (An unused place is visited once at most, so its rounds are bounded by the capacity.) -/
def ArtHeap.freeBefore (H : ArtHeap V) (t : ArtTy) (from_ : Nat) : Nat → Nat → Nat → Out (Nat × Nat)
  | 0, _, _ => .oob
  | fuel + 1, current, next_free =>
    if next_free < from_ then do
      let n ← H.nextFree t next_free
      freeBefore H t from_ fuel next_free n
    else .ok (current, next_free)

/-- The place that was left is named by the unused place before it: src/art/art.c:1689-1692. -/
def ArtHeap.linkFrom (H : ArtHeap V) (t : ArtTy) (current from_ : Nat) : Out (ArtHeap V) :=
  if current < from_ then H.poke (H.deref ⟨t, current⟩) (.free from_) else .ok H

/-- `art_move_node_to_shrink`: src/art/art.c:1652-1696. -/
def ArtHeap.moveToShrink (H : ArtHeap V) (ref : ArtRef) : Out (ArtHeap V × ArtRef) :=
  if ref.idx < H.first ref.ty then .ok (H, ref)
  else do
    let next_free ← H.nextFree ref.ty (H.first ref.ty)
    let node ← H.peek (H.deref ref)
    let H1 ← H.poke (H.deref ⟨ref.ty, H.first ref.ty⟩) node
    let c ← H1.freeBefore ref.ty ref.idx ((H1.nodes ref.ty).length + 1) next_free next_free
    let H2 ← H1.poke (H1.deref ref) (.free c.2)
    let H3 ← H2.linkFrom ref.ty c.1 ref.idx
    .ok ({ H3 with first := updTy H3.first ref.ty (if ref.idx < next_free then ref.idx else next_free) }, ⟨ref.ty, H.first ref.ty⟩)

/-- The indices that `free_indices` marks: src/art/art.c:1707-1710. -/
def ArtHeap.freeMarks (H : ArtHeap V) (t : ArtTy) : Nat → Nat → Out (List Nat)
  | 0, _ => .oob
  | fuel + 1, i =>
    if i < (H.nodes t).length then do
      let n ← H.nextFree t i
      let l ← freeMarks H t fuel n
      .ok (i :: l)
    else .ok []

/-- The loop at src/art/art.c:1712-1720, downwards from `i`, with `first_free`. -/
def ArtHeap.relink (t : ArtTy) (marks : List Nat) : Nat → ArtHeap V → Nat → Out (ArtHeap V × Nat)
  | 0, H, first_free => .ok (H, first_free)
  | i + 1, H, first_free =>
    if i ∈ marks then do
      let H ← H.poke (H.deref ⟨t, i⟩) (.free first_free)
      relink t marks i H i
    else relink t marks i H first_free

/-- The body of the loop of `art_sort_free_lists`: src/art/art.c:1704-1722. -/
def ArtHeap.sortFree (H : ArtHeap V) (t : ArtTy) : Out (ArtHeap V) := do
  let marks ← H.freeMarks t ((H.nodes t).length + 1) (H.first t)
  let r ← ArtHeap.relink t marks (H.nodes t).length H (H.nodes t).length
  .ok { r.1 with first := updTy r.1.first t r.2 }

/-- `art_sort_free_lists`: src/art/art.c:1701-1724. -/
def ArtHeap.sortFreeLists (H : ArtHeap V) : Out (ArtHeap V) := artTypes.foldlM (fun H t => H.sortFree t) H

/-- `art_shrink_at`: src/art/art.c:1749-1795.  The node is read and written through the pointer that was obtained at first. -/
def ArtHeap.shrinkAt : Nat → ArtHeap V → ArtRef → Out (ArtHeap V)
  | 0, H, ref => if ref.ty = .leaf then .ok H else .oob
  | fuel + 1, H, ref =>
    if ref.ty = .leaf then .ok H
    else do
      let n ← H.peekInner (H.deref ref)
      n.2.bytes.foldlM (fun H' c => do
        let i ← H'.peekInner (H.deref ref)
        match i.2.find c with
        | none => .ok H'
        | some child => do
          let m ← H'.moveToShrink child
          let H'' ← m.1.nodeReplace (H.deref ref) c m.2
          shrinkAt fuel H'' m.2) H

/-- The body of the loop of `art_shrink_node_arrays`: src/art/art.c:1734-1740. -/
def ArtHeap.cutArray (H : ArtHeap V) (t : ArtTy) : ArtHeap V × Nat :=
  if H.first t < (H.nodes t).length then
    ({ H with nodes := updTy H.nodes t ((H.nodes t).take (H.first t)), gen := updTy H.gen t (H.gen t + 1) },
      ((H.nodes t).length - H.first t) * t.size)
  else (H, 0)

/-- `art_shrink_node_arrays`: src/art/art.c:1730-1743. -/
def ArtHeap.cutArrays (H : ArtHeap V) : ArtHeap V × Nat :=
  artTypes.foldl (fun p t => ((p.1.cutArray t).1, p.2 + (p.1.cutArray t).2)) (H, 0)

/-- `art_is_shrunken`: src/art/art.c:1819-1827. -/
def ArtHeap.isShrunken (H : ArtHeap V) : Bool := artTypes.all (fun t => decide (H.first t = (H.nodes t).length))

/-- `art_shrink_to_fit`: src/art/art.c:1807-1817, with the number of bytes it returns. -/
def ArtT.shrinkToFit (a : ArtT V) : Out (ArtT V × Nat) :=
  if a.heap.isShrunken then .ok (a, 0)
  else
    match a.root with
    | none => .ok (⟨a.heap.cutArrays.1, none⟩, a.heap.cutArrays.2)
    | some root => do
      let H ← a.heap.sortFreeLists
      let m ← H.moveToShrink root
      let H ← ArtHeap.shrinkAt LEVELS m.1 m.2
      .ok (⟨H.cutArrays.1, some m.2⟩, H.cutArrays.2)

end
end CRoaring
