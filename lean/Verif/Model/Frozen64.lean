import Verif.Model.Store64
/-
The frozen format of 64-bit bitmaps: src/art/art.c:2309-2418 and src/roaring64.c:2180-2526.  The format is the memory of the bitmap: the arrays of nodes
as they are, and then the data of the containers.  A view points into the buffer.

A buffer is a list of bytes; an access outside of it is the outcome `oob`, a null result is `fail`.  Structures are laid out as on x86-64 (little-endian,
fields aligned to their size).  Bytes of a node that belong to no field, and fields that are not in use, are whatever was in memory before: the argument
`old` gives them.  Simplifications: allocation succeeds; a view has the nodes and containers that its pointers denote while the buffer is unchanged; a
reference to a place behind the end of its array is `oob` even if that is still inside the buffer; addresses do not wrap, but sizes computed in 64 bits do.
-/
namespace CRoaring

/-- `align_size`: src/roaring64.c:2220-2222; also `CROARING_ALIGN_BUF` (src/roaring64.c:20-22), `CROARING_ART_ALIGN_BUF` and
`CROARING_ART_ALIGN_SIZE_RELATIVE` (src/art/art.c:25-34), for a buffer whose address is a multiple of the alignment. -/
def alignSize (size alignment : Nat) : Nat := (size + alignment - 1) / alignment * alignment

/-- The typecodes: src/art/art.c:12-16. -/
def ArtTy.code : ArtTy → Nat
  | .leaf => 1
  | .n4 => 2
  | .n16 => 3
  | .n48 => 4
  | .n256 => 5

/-- `art_to_ref`: src/art/art.c:155-157. -/
def refWord (r : ArtRef) : Nat := r.idx * 65536 + r.ty.code

/-- A reference that may be null. -/
def optWord : Option ArtRef → Nat
  | none => 0
  | some r => refWord r

/-- `art_ref_index`, `art_ref_typecode`: src/art/art.c:159-165.  With another typecode there is no array to look into (src/art/art.c:172-177): the
place given here does not exist. -/
def wordRef (w : Nat) : ArtRef :=
  match w % 256 with
  | 1 => ⟨.leaf, w / 65536⟩
  | 2 => ⟨.n4, w / 65536⟩
  | 3 => ⟨.n16, w / 65536⟩
  | 4 => ⟨.n48, w / 65536⟩
  | 5 => ⟨.n256, w / 65536⟩
  | _ => ⟨.leaf, 18446744073709551616⟩

/-- `CROARING_ART_NULL_REF` is 0: src/art/art.c:10. -/
def wordOpt (w : Nat) : Option ArtRef := if w = 0 then none else some (wordRef w)

/-! ### The bytes of a node -/

/-- A store into a structure of `old.length` bytes. -/
def storeAt (off : Nat) (bs old : List UInt8) : List UInt8 :=
  if off + bs.length ≤ old.length then old.take off ++ bs ++ old.drop (off + bs.length) else old

/-- Bytes. -/
def byteList (l : List Nat) : List UInt8 := l.map UInt8.ofNat

/-- The fields of an inner node after the prefix: `art_node4_t`, `art_node16_t`, `art_node48_t`, `art_node256_t`, src/art/art.c:65-120. -/
def nodeImage (old : List UInt8) : Node ArtRef → List UInt8
  | .n4 ks => storeAt 16 (ks.flatMap fun p => leBytes 8 (refWord p.2)) (storeAt 7 (byteList (ks.map Prod.fst)) (storeAt 6 [UInt8.ofNat ks.length] old))
  | .n16 ks => storeAt 24 (ks.flatMap fun p => leBytes 8 (refWord p.2)) (storeAt 7 (byteList (ks.map Prod.fst)) (storeAt 6 [UInt8.ofNat ks.length] old))
  | .n48 n =>
    storeAt 272 ((List.range 48).flatMap fun i =>
        match n.children.getD i none with
        | some r => leBytes 8 (refWord r)
        | none => leBytes 8 (leVal ((old.drop (272 + 8 * i)).take 8)))
      (storeAt 16 (byteList n.keys) (storeAt 8 (leBytes 8 n.avail.toNat) (storeAt 6 [UInt8.ofNat n.count] old)))
  | .n256 n => storeAt 8 (n.children.flatMap fun o => leBytes 8 (optWord o)) (storeAt 6 (leBytes 2 n.count) old)

/-- The bytes of a place: `art_leaf_t` (src/art/art.c:44-52), an inner node (`art_inner_node_t`: src/art/art.c:57-60), or an unused place. -/
def ArtSlot.image (old : List UInt8) : ArtSlot Nat → List UInt8
  | .leaf key val => storeAt 8 (leBytes 8 val) (storeAt 0 (byteList key) old)
  | .inner pfx n => nodeImage (storeAt 1 (byteList pfx) (storeAt 0 [UInt8.ofNat pfx.length] old)) n
  | .free next => storeAt 0 (leBytes 8 next) old

/-- The byte at an offset. -/
def byteAt (b : List UInt8) (off : Nat) : Nat := (b.getD off 0).toNat

/-- The 64-bit field at an offset. -/
def wordAt (b : List UInt8) (off : Nat) : Nat := leVal ((b.drop off).take 8)

/-- The fields of an inner node after the prefix, read from its bytes: src/art/art.c:65-120.  (If `count` is larger than the arrays, the C code reads
past them.) -/
def nodeOf (b : List UInt8) : ArtTy → Node ArtRef
  | .leaf => .n4 []
  | .n4 => .n4 ((List.range (byteAt b 6)).map fun i => (byteAt b (7 + i), wordRef (wordAt b (16 + 8 * i))))
  | .n16 => .n16 ((List.range (byteAt b 6)).map fun i => (byteAt b (7 + i), wordRef (wordAt b (24 + 8 * i))))
  | .n48 => .n48 ⟨byteAt b 6, BitVec.ofNat 64 (wordAt b 8), (List.range 256).map fun i => byteAt b (16 + i),
      (List.range 48).map fun i => wordOpt (wordAt b (272 + 8 * i))⟩
  | .n256 => .n256 ⟨leVal ((b.drop 6).take 2), (List.range 256).map fun i => wordOpt (wordAt b (8 + 8 * i))⟩

/-- A place of the array of a type, read from its bytes: src/art/art.c:44-120.  In a view every place is read as a node. -/
def slotOf (t : ArtTy) (b : List UInt8) : ArtSlot Nat :=
  match t with
  | .leaf => .leaf ((b.take 6).map UInt8.toNat) (wordAt b 8)
  | t => .inner (((b.drop 1).take (byteAt b 0)).map UInt8.toNat) (nodeOf b t)

/-! ### The radix tree -/

/-- The array of nodes of a type: the `memcpy` at src/art/art.c:2365. -/
def arrayImage (old : ArtRef → List UInt8) (a : ArtT Nat) (t : ArtTy) : List UInt8 :=
  (List.range (a.heap.nodes t).length).flatMap fun i => ((a.heap.nodes t).getD i (.free 0)).image (old ⟨t, i⟩)

/-- `art_size_in_bytes`: src/art/art.c:2320-2336. -/
def ArtT.sizeInBytes (a : ArtT Nat) : Nat :=
  if a.heap.isShrunken = false then 0
  else artTypes.foldl (fun size t => size + (a.heap.nodes t).length * t.size) (alignSize (8 + 48) 8)

/-- `art_serialize`: src/art/art.c:2338-2371; the entry 0 of `capacities` is not used. -/
def ArtT.serialize (old : ArtRef → List UInt8) (a : ArtT Nat) (st : WSt) : Out WSt :=
  if a.heap.isShrunken = false then .ok st
  else do
    let st ← put st (leBytes 8 (optWord a.root))
    let st ← put st (leBytes 8 0 ++ artTypes.flatMap fun t => leBytes 8 (a.heap.nodes t).length)
    let st ← put st (List.replicate (alignSize (8 + 48) 8 - (8 + 48)) 0)
    artTypes.foldlM (fun st t => if (a.heap.nodes t).length > 0 then put st (arrayImage old a t) else .ok st) st

/-- The places of an array of nodes at an offset: those that lie entirely inside the buffer. -/
def viewNodes (buf : List UInt8) (off size : Nat) (t : ArtTy) : List (ArtSlot Nat) :=
  (List.range (min size (buf.length - off) / t.size)).map fun i => slotOf t ((buf.drop (off + i * t.size)).take t.size)

/-- The loop of `art_frozen_view`: src/art/art.c:2405-2416; with the offset at the end, or none if the function fails there. -/
def artViewLoop (buf : List UInt8) (capacities : ArtTy → Nat) : List ArtTy → ArtHeap Nat → Nat → Nat → ArtHeap Nat × Option Nat
  | [], H, off, _ => (H, some off)
  | t :: ts, H, off, maxbytes =>
    if capacities t > 0 then
      let size := capacities t * t.size % 18446744073709551616
      if maxbytes < size then (H, none)
      else artViewLoop buf capacities ts { H with nodes := updTy H.nodes t (viewNodes buf off size t) } (off + size) (maxbytes - size)
    else artViewLoop buf capacities ts H off maxbytes

/-- `art_frozen_view`: src/art/art.c:2373-2418.  The tree is changed even if the function fails, which the result 0 tells. -/
def artFrozenView (buf : List UInt8) (off maxbytes : Nat) : Out (ArtT Nat × Nat) :=
  if maxbytes < 8 then .ok (ArtT.init, 0)
  else do
    let root ← readLE buf off 8
    if maxbytes - 8 < 48 then .ok (⟨ArtHeap.empty, wordOpt root⟩, 0)
    else do
      let caps ← memRead buf (off + 8) 48
      let capacities : ArtTy → Nat := fun t => wordAt caps (8 * t.code)
      let H : ArtHeap Nat := ⟨fun _ => [], capacities, fun _ => 0⟩
      let nodes := alignSize (off + 56) 8
      if maxbytes - 56 < nodes - (off + 56) then .ok (⟨H, wordOpt root⟩, 0)
      else
        let v := artViewLoop buf capacities artTypes H nodes (maxbytes - 56 - (nodes - (off + 56)))
        .ok (⟨v.1, wordOpt root⟩, match v.2 with
          | none => 0
          | some last => last - off)

/-! ### The leaves -/

/-- The leaves below a node in the order of their keys.  Simplification: the iterator (`art_init_iterator`, `art_iterator_next`: src/art/art.c:2063-2071,
2073-2075) is replaced by a traversal; none of the loops below changes the tree. -/
def ArtHeap.leavesAt {V : Type} (H : ArtHeap V) : Nat → ArtRef → Out (List ArtRef)
  | 0, ref => if ref.ty = .leaf then .ok [ref] else .oob
  | fuel + 1, ref =>
    if ref.ty = .leaf then .ok [ref]
    else do
      let n ← H.peekInner (H.deref ref)
      (n.2.bytes.filterMap n.2.find).foldlM (fun l s => do
        let l' ← leavesAt H fuel s
        .ok (l ++ l')) []

/-- The leaves of the tree. -/
def ArtT.leaves {V : Type} (a : ArtT V) : Out (List ArtRef) :=
  match a.root with
  | none => .ok []
  | some root => a.heap.leavesAt LEVELS root

/-- One round of `roaring64_bitmap_copy`: src/roaring64.c:263-271.  The copy and its objects are apart from those of `r`. -/
def R64M.copyLeaf (r result : R64M) (ref : ArtRef) : Out R64M := do
  let l ← r.art.heap.peekLeaf (r.art.heap.deref ref)
  let x ← r.look (r.art.heap.deref ref)
  let y ← result.put l.1 x.2.2
  .ok y.1

/-- `roaring64_bitmap_copy` of a view: src/roaring64.c:259-274, with the traversal instead of the iterator (`R64M.copy` has the iterator). -/
def R64M.copyWalk (r : R64M) : Out R64M := do
  let l ← r.art.leaves
  l.foldlM (fun result ref => r.copyLeaf result ref) R64M.create

/-! ### The bitmap -/

/-- `is_shrunken`: src/roaring64.c:967-969. -/
def R64M.isShrunken (r : R64M) : Bool := r.art.heap.isShrunken && decide (r.first = r.containers.length)

/-- The containers in the order of the iterator: `get_container` in the loops at src/roaring64.c:2242-2249, 2324-2336, 2363-2371. -/
def R64M.lookAll (r : R64M) : List ArtRef → Out (List Container)
  | [] => .ok []
  | x :: l => do
    let c ← r.look (r.art.heap.deref x)
    let cs ← lookAll r l
    .ok (c.2.2 :: cs)

/-- `total_sizes[BITSET_CONTAINER_TYPE]`, `[RUN_CONTAINER_TYPE]`, `[ARRAY_CONTAINER_TYPE]`: src/roaring64.c:2239-2249, 2321-2336, with
`container_get_frozen_size`, src/roaring64.c:2200-2218. -/
def totalSizes (cs : List Container) : Nat × Nat × Nat := cs.foldl zoneStep (0, 0, 0)

/-- `roaring64_bitmap_frozen_size_in_bytes`: src/roaring64.c:2224-2260. -/
def R64M.frozenSize (r : R64M) : Out Nat :=
  if r.isShrunken = false then .ok 0
  else do
    let l ← r.art.leaves
    let cs ← r.lookAll l
    let z := totalSizes cs
    let size := alignSize (1 + 8 + r.containers.length * 2 + 3 * 8) 8 + r.art.sizeInBytes
    let size := alignSize size 64 + z.1
    let size := alignSize size 2 + z.2.2
    let size := alignSize size 2 + z.2.1
    .ok (alignSize size 64)

/-- `compressed_elem_count`: `container_get_element_count` (src/roaring64.c:2180-2198) minus one, in 16 bits (src/roaring64.c:2329-2330). -/
def elemCount : Container → Nat
  | .bitset b => ((b.card - 1) % 65536).toNat
  | .array l => (((l.length : Int) - 1) % 65536).toNat
  | .run rs => (((rs.length : Int) - 1) % 65536).toNat

/-- `pad_align`: src/roaring64.c:2294-2300; the buffer starts at offset 0. -/
def padAlign (st : WSt) (alignment : Nat) : Out WSt := put st (List.replicate (alignSize st.2 alignment - st.2) 0)

/-- The last loop of `roaring64_bitmap_frozen_serialize`, with `container_frozen_serialize`: src/roaring64.c:2262-2292, 2363-2371. -/
def frozenWrite64 : List Container → Nat → Nat → Nat → List UInt8 → Out (List UInt8)
  | [], _, _, _, mem => .ok mem
  | .bitset b :: t, bitsets, runs, arrays, mem => do
    let mem ← memWrite mem bitsets (wordBytes b.words)
    frozenWrite64 t (bitsets + NWORDS * 8) runs arrays mem
  | .run rs :: t, bitsets, runs, arrays, mem => do
    let mem ← memWrite mem runs (rs.flatMap fun p => leBytes 2 p.1 ++ leBytes 2 p.2)
    frozenWrite64 t bitsets (runs + rs.length * 4) arrays mem
  | .array l :: t, bitsets, runs, arrays, mem => do
    let mem ← memWrite mem arrays (l.flatMap (leBytes 2))
    frozenWrite64 t bitsets runs (arrays + l.length * 2) mem

/-- `roaring64_bitmap_frozen_serialize` into the buffer `mem`: src/roaring64.c:2302-2377; with the number of bytes returned. -/
def r64FrozenSerialize (old : ArtRef → List UInt8) (flags : Nat) (r : R64M) (mem : List UInt8) : Out (List UInt8 × Nat) :=
  if r.isShrunken = false then .ok (mem, 0)
  else do
    let st ← put (mem, 0) [UInt8.ofNat flags]
    let st ← put st (leBytes 8 r.containers.length)
    let l ← r.art.leaves
    let cs ← r.lookAll l
    let st ← put st (cs.flatMap fun c => leBytes 2 (elemCount c))
    let z := totalSizes cs
    let st ← put st (leBytes 8 z.1)
    let st ← put st (leBytes 8 z.2.1)
    let st ← put st (leBytes 8 z.2.2)
    let st ← padAlign st 8
    let st ← r.art.serialize old st
    let st ← padAlign st 64
    let bitsets := st.2
    let st ← padAlign (st.1, st.2 + z.1) 2
    let runs := st.2
    let st ← padAlign (st.1, st.2 + z.2.1) 2
    let arrays := st.2
    let mem ← frozenWrite64 cs bitsets runs arrays st.1
    let st ← padAlign (mem, arrays + z.2.2) 64
    .ok st

/-- `container_frozen_view`: src/roaring64.c:2379-2416: the container that the new object denotes (none if its data are not inside the buffer), and
where the data of the next container of each type begin. -/
def containerFrozenView (buf : List UInt8) (type elem_count bitsets runs arrays : Nat) : Out (Option Container × Nat × Nat × Nat) :=
  if type = BITSET_TYPE then
    .ok (match readWords buf bitsets NWORDS with
      | .ok ws => some (.bitset ⟨elem_count, ws⟩)
      | _ => none, bitsets + NWORDS * 8, runs, arrays)
  else if type = ARRAY_TYPE then
    .ok (match readU16s buf arrays elem_count with
      | .ok l => some (.array l)
      | _ => none, bitsets, runs, arrays + elem_count * 2)
  else if type = RUN_TYPE then
    .ok (match readRles buf runs elem_count with
      | .ok l => some (.run l)
      | _ => none, bitsets, runs + elem_count * 4, arrays)
  else .oob

/-- The loop of `roaring64_bitmap_frozen_view`: src/roaring64.c:2503-2520; the element counts are at offset 9. -/
def viewLoop64 (buf : List UInt8) : List ArtRef → Nat → Nat → Nat → Nat → R64M → Out R64M
  | [], _, _, _, _, r => .ok r
  | x :: l, i, bitsets, runs, arrays, r => do
    let leaf ← r.art.load (r.art.heap.deref x)
    let c ← readLE buf (9 + 2 * i) 2
    let v ← containerFrozenView buf (leafType leaf) (c + 1) bitsets runs arrays
    let r ← R64M.setSlot { r with mem := r.mem ++ [v.1] } (leafIndex leaf) (some r.mem.length)
    viewLoop64 buf l (i + 1) v.2.1 v.2.2.1 v.2.2.2 r

/-- `roaring64_bitmap_free` on a frozen bitmap: src/roaring64.c:240-250: the objects that are freed; to free one twice is `oob`. -/
def R64M.freeView (r : R64M) : Out (List Nat) := do
  let l ← r.art.leaves
  l.foldlM (fun freed x => do
    let leaf ← r.art.load (r.art.heap.deref x)
    let a ← r.getContainer leaf
    if a ∈ freed then .oob else .ok (freed ++ [a])) []

/-- A failure of `roaring64_bitmap_frozen_view`: the bitmap is freed, and the result is null. -/
def R64M.dropView (r : R64M) : Out R64M := do
  let _ ← r.freeView
  .fail

/-- `roaring64_bitmap_frozen_view`: src/roaring64.c:2418-2526, for a buffer at the address `addr`; `maxbytes` is the length that the caller gives.
In the array of containers that has just been allocated, `none` stands for memory that was not initialised. -/
def r64FrozenView (addr : Nat) (buf : List UInt8) (maxbytes : Nat) : Out R64M :=
  if addr % 64 ≠ 0 then .fail
  else if maxbytes < 1 then R64M.create.dropView
  else do
    let _ ← readLE buf 0 1
    if maxbytes - 1 < 8 then R64M.create.dropView
    else do
      let capacity ← readLE buf 1 8
      let containers : List (Option Nat) := List.replicate (capacity * 8 % 18446744073709551616 / 8) none
      let counts := capacity * 2 % 18446744073709551616
      if maxbytes - 9 < counts then R64M.dropView ⟨ArtT.init, containers, 0, []⟩
      else if maxbytes - 9 - counts < 24 then R64M.dropView ⟨ArtT.init, containers, 0, []⟩
      else do
        let b ← readLE buf (9 + counts) 8
        let r ← readLE buf (9 + counts + 8) 8
        let a ← readLE buf (9 + counts + 16) 8
        let off := alignSize (9 + counts + 24) 8
        let art ← artFrozenView buf off (maxbytes - (9 + counts + 24))
        if art.2 = 0 then R64M.dropView ⟨art.1, containers, 0, []⟩
        else
          let before_containers := off + art.2
          let bitsets := alignSize before_containers 64
          let runs := alignSize (bitsets + b) 2
          let arrays := alignSize (runs + r) 2
          if maxbytes - (9 + counts + 24) - art.2 < arrays + a - before_containers then R64M.dropView ⟨art.1, containers, 0, []⟩
          else do
            let l ← art.1.leaves
            viewLoop64 buf l 0 bitsets runs arrays ⟨art.1, containers, 0, []⟩

end CRoaring
