import Verif.Lemmas.Frozen64d
import Verif.Props.C108
/-
C109, C110: the frozen format of 64-bit bitmaps.
-/
namespace CRoaring.Props
open CRoaring

theorem r64_reqs_append : ∀ (qs qs' : List Req64) (r : R64M), r.reqs (qs ++ qs') = (do
    let x ← r.reqs qs
    let y ← x.1.reqs qs'
    .ok (y.1, x.2 ++ y.2))
  | [], qs', r => by
    simp only [List.nil_append, R64M.reqs, ok_bind]
    cases r.reqs qs' <;> rfl
  | q :: qs, qs', r => by
    simp only [List.cons_append, R64M.reqs]
    cases r.req q with
    | oob => rfl
    | fail => rfl
    | ok x =>
      simp only [ok_bind, r64_reqs_append qs qs']
      cases x.1.reqs qs with
      | oob => rfl
      | fail => rfl
      | ok y =>
        simp only [ok_bind]
        cases y.1.reqs qs' <;> rfl

/-- The view has the values of the set `s`; a copy of it is a bitmap of its own with these values; and freeing it frees every object that was allocated
for it, once. -/
structure GoodView (v : R64M) (s : NSet) : Prop where
  contains : ∀ x, x < 2 ^ 64 → v.contains x = .ok (s x)
  copy : ∃ d, v.copyWalk = .ok d ∧ Owned d s
  free : ∃ objects, v.freeView = .ok objects ∧ objects.Nodup ∧ ∀ a, a ∈ objects ↔ a < v.mem.length

/-- What the property theorems below are taken from. -/
theorem frozen_core {qs : List Req64} (hq : ∀ q ∈ qs, q.Ok) {r : R64M} {outs : List (Option Bool)} (h : R64M.create.reqs qs = .ok (r, outs))
    (hs : r.isShrunken = true) (old : ArtRef → List UInt8) (ho : ∀ x, (old x).length = x.ty.size) (flags : Nat) :
    ∃ (cs : List Container) (art : List UInt8), cs.length = r.containers.length ∧ 56 ≤ art.length ∧
      r.frozenSize = .ok (frozen64 flags cs.length cs art).length ∧
      (∀ mem : List UInt8, (frozen64 flags cs.length cs art).length ≤ mem.length → r64FrozenSerialize old flags r mem =
        .ok (frozen64 flags cs.length cs art ++ mem.drop (frozen64 flags cs.length cs art).length, (frozen64 flags cs.length cs art).length)) ∧
      (r.bytes < 2 ^ 48 → ∀ (addr : Nat) (buf : List UInt8) (maxbytes : Nat), addr % 64 = 0 → At buf 0 (front64 flags cs.length cs art ++ zones64 cs) →
        (front64 flags cs.length cs art ++ zones64 cs).length ≤ maxbytes →
        ∃ v, r64FrozenView addr buf maxbytes = .ok v ∧ GoodView v (setReqs Spec.empty qs).1 ∧ v.first = 0 ∧ v.containers.length = r.containers.length) := by
  obtain ⟨L, R, hsim, hR⟩ := reached hq h
  obtain ⟨d, hd1, hd2⟩ := copyWalk_ok hsim
  have hcont := fun x => contains_ok hsim x
  obtain ⟨F, m, hst⟩ := hsim
  obtain ⟨es, e1, e2, e3, e4, e5⟩ := hst.entries
  have hfull : r.first = r.containers.length := by
    unfold R64M.isShrunken at hs
    rw [Bool.and_eq_true] at hs
    simpa using hs.2
  have hn := hst.count hfull e3 e4 e5
  have hne : ∀ e ∈ es, CNe e.c := by
    intro e he
    obtain ⟨k, a, k1, k2⟩ := e4 e he
    have hk : IsKey k := k2.ptr.key
    rcases hR.at_key hk with ⟨c, f1, f2, _⟩ | ⟨f1, _⟩
    · rw [k2.here] at f1; cases f1; exact f2
    · rw [k2.here] at f1; cases f1
  have hc : r.lookAll (es.map FLeaf.ref) = .ok (es.map FLeaf.c) := lookAll_eq es (fun e he => by
    obtain ⟨k, a, k1, k2⟩ := e4 e he; exact ⟨a, k2.look⟩)
  have ht : ∀ c ∈ es.map FLeaf.c, CTyped c := by
    intro c hc
    obtain ⟨e, he, rfl⟩ := List.mem_map.1 hc
    exact (hne e he).1.typed
  have hcn : (es.map FLeaf.c).length = r.containers.length := by rw [List.length_map]; exact hn
  refine ⟨es.map FLeaf.c, artBytes old r.art, hcn, by rw [artBytes_length]; omega, frozenSize_eq ho hs e1 hc ht hcn, fun mem hm => r64FrozenSerialize_eq hs e1 hc ht hcn hm, ?_⟩
  intro hb addr buf maxbytes ha hbuf hm
  obtain ⟨v, v1, v2, v3, v4⟩ := r64FrozenView_eq ho hst e1 e3 e4 hne hn hb ha hbuf hm
  refine ⟨v, v1, ⟨fun x hx => ?_, ⟨d, by rw [v2.copy hst e1 e4, hd1], owned_of_sim hd2 hR⟩, ⟨_, v2.free hst e1 e4, List.nodup_range, fun a => List.mem_range⟩⟩, v3, v4⟩
  rw [v2.contains hst e4 e5, hcont, hR.contains hx]

/-- C109: after `roaring64_bitmap_shrink_to_fit` the bitmap is in the state that the frozen format asks for. -/
theorem C109_shrunken (qs : List Req64) (hq : ∀ q ∈ qs, q.Ok) : ∃ r outs, R64M.create.reqs (qs ++ [.shrink]) = .ok (r, outs) ∧ r.isShrunken = true := by
  obtain ⟨r, L, R, h1, h2, h3⟩ := reqs_ok qs sim64_create rep64_empty hq
  obtain ⟨d, f, g1, g2⟩ := shrinkToFit_shrunken h2
  refine ⟨d, (setReqs Spec.empty qs).2 ++ [none], ?_, g2⟩
  rw [r64_reqs_append, h1, ok_bind]
  simp only [R64M.reqs, R64M.req, g1, ok_bind]

/-- C109: a bitmap in that state, after any history: `roaring64_bitmap_frozen_size_in_bytes` gives a multiple of 64; `roaring64_bitmap_frozen_serialize`
writes that many bytes into a buffer that has room for them, returns their number, and leaves the rest of the buffer as it is, whatever the bytes `old` are
that the nodes of the tree have at places that no field is written to; and `roaring64_bitmap_frozen_view` of these bytes, at an address that is a multiple
of 64, is a bitmap with the same values. -/
theorem C109_frozen (qs : List Req64) (hq : ∀ q ∈ qs, q.Ok) {r : R64M} {outs : List (Option Bool)} (h : R64M.create.reqs qs = .ok (r, outs))
    (hs : r.isShrunken = true) (old : ArtRef → List UInt8) (ho : ∀ x, (old x).length = x.ty.size) (flags : Nat) :
    ∃ bytes : List UInt8, r.frozenSize = .ok bytes.length ∧ bytes.length % 64 = 0 ∧
      (∀ mem : List UInt8, bytes.length ≤ mem.length → r64FrozenSerialize old flags r mem = .ok (bytes ++ mem.drop bytes.length, bytes.length)) ∧
      (r.bytes < 2 ^ 48 → ∀ (addr : Nat) (tail : List UInt8) (maxbytes : Nat), addr % 64 = 0 → bytes.length ≤ maxbytes →
        ∃ v, r64FrozenView addr (bytes ++ tail) maxbytes = .ok v ∧ GoodView v (setReqs Spec.empty qs).1) := by
  obtain ⟨cs, art, h1, h0, h2, h3, h4⟩ := frozen_core hq h hs old ho flags
  refine ⟨frozen64 flags cs.length cs art, h2, by rw [frozen64_length]; exact alignSize_mod _ _, h3, fun hb addr tail maxbytes ha hm => ?_⟩
  have hbuf : At (frozen64 flags cs.length cs art ++ tail) 0 (front64 flags cs.length cs art ++ zones64 cs) := by
    unfold frozen64
    exact ⟨[], padBytes (alignSize (alignSize (33 + 2 * cs.length) 8 + art.length) 64 + (zones64 cs).length) 64 ++ tail, by simp only [List.nil_append, List.append_assoc], rfl⟩
  have hl : (front64 flags cs.length cs art ++ zones64 cs).length ≤ (frozen64 flags cs.length cs art).length := by
    unfold frozen64
    rw [List.length_append (as := _ ++ _)]
    omega
  obtain ⟨v, v1, v2, _⟩ := h4 hb addr _ maxbytes ha hbuf (by omega)
  exact ⟨v, v1, v2⟩

/-- C109: a bitmap that is not in that state: no bytes, and the buffer is left as it is. -/
theorem C109_not_shrunken {r : R64M} (hs : r.isShrunken = false) (old : ArtRef → List UInt8) (flags : Nat) (mem : List UInt8) :
    r.frozenSize = .ok 0 ∧ r64FrozenSerialize old flags r mem = .ok (mem, 0) := by
  constructor
  · unfold R64M.frozenSize; rw [hs]; rfl
  · unfold r64FrozenSerialize; rw [hs]; rfl

/-- C110, what holds of it: a buffer that ends before the root of the tree is complete is refused, and one that has lost bytes only from the padding at its
end is viewed as the bitmap that was written.  Missing: the prefixes in between, of which `C110_truncated_false` shows that the claim is false for at least one,
whatever the bitmap. -/
theorem C110_truncated_partial (qs : List Req64) (hq : ∀ q ∈ qs, q.Ok) {r : R64M} {outs : List (Option Bool)} (h : R64M.create.reqs qs = .ok (r, outs))
    (hs : r.isShrunken = true) (old : ArtRef → List UInt8) (ho : ∀ x, (old x).length = x.ty.size) (flags : Nat) (hb : r.bytes < 2 ^ 48) :
    ∃ (bytes : List UInt8) (used : Nat), (∀ mem : List UInt8, bytes.length ≤ mem.length → r64FrozenSerialize old flags r mem = .ok (bytes ++ mem.drop bytes.length, bytes.length)) ∧
      used ≤ bytes.length ∧ bytes.length < used + 64 ∧ ∀ (addr k : Nat), addr % 64 = 0 → k ≤ bytes.length →
        (k < 41 + 2 * r.containers.length → r64FrozenView addr (bytes.take k) k = .fail) ∧
        (used ≤ k → ∃ v, r64FrozenView addr (bytes.take k) k = .ok v ∧ GoodView v (setReqs Spec.empty qs).1) := by
  obtain ⟨cs, art, h1, h0, h2, h3, h4⟩ := frozen_core hq h hs old ho flags
  have hN : cs.length < 35184372088832 := by
    have hb' := hb
    unfold R64M.bytes at hb'
    omega
  have hl := frozen64_length flags cs.length cs art
  have hfl := front64_length flags cs.length cs art
  have hle := alignSize_le (alignSize (alignSize (33 + 2 * cs.length) 8 + art.length) 64 + (zones64 cs).length) (k := 64) (by omega)
  refine ⟨frozen64 flags cs.length cs art, (front64 flags cs.length cs art ++ zones64 cs).length, h3, ?_, ?_, fun addr k ha hk => ⟨fun hk2 => ?_, fun hk2 => ?_⟩⟩
  · rw [hl, List.length_append, hfl]; exact hle
  · rw [hl, List.length_append, hfl]
    unfold alignSize
    omega
  · have e : frozen64 flags cs.length cs art = front64 flags cs.length cs art ++
        (zones64 cs ++ padBytes (alignSize (alignSize (33 + 2 * cs.length) 8 + art.length) 64 + (zones64 cs).length) 64) := by
      unfold frozen64; rw [List.append_assoc]
    rw [e] at hk ⊢
    exact r64FrozenView_cut hN ha (by omega) hk
  · have hbuf : At ((frozen64 flags cs.length cs art).take k) 0 (front64 flags cs.length cs art ++ zones64 cs) := by
      unfold frozen64
      rw [List.take_append, List.take_of_length_le hk2]
      exact ⟨[], _, rfl, rfl⟩
    obtain ⟨v, v1, v2, _⟩ := h4 hb addr _ k ha hbuf hk2
    exact ⟨v, v1, v2⟩

/-- C110 is false: whatever the bitmap, there is a prefix of what was written that `roaring64_bitmap_frozen_view` reads past the end of, given its length. -/
theorem C110_truncated_false (qs : List Req64) (hq : ∀ q ∈ qs, q.Ok) {r : R64M} {outs : List (Option Bool)} (h : R64M.create.reqs qs = .ok (r, outs))
    (hs : r.isShrunken = true) (old : ArtRef → List UInt8) (ho : ∀ x, (old x).length = x.ty.size) (flags : Nat) (hb : r.bytes < 2 ^ 48) :
    ∃ bytes : List UInt8, (∀ mem : List UInt8, bytes.length ≤ mem.length → r64FrozenSerialize old flags r mem = .ok (bytes ++ mem.drop bytes.length, bytes.length)) ∧
      ∀ addr, addr % 64 = 0 → ∃ k, k < bytes.length ∧ r64FrozenView addr (bytes.take k) k = .oob := by
  obtain ⟨cs, art, h1, h0, h2, h3, h4⟩ := frozen_core hq h hs old ho flags
  have hN : cs.length < 35184372088832 := by
    have hb' := hb
    unfold R64M.bytes at hb'
    omega
  have hl := frozen64_length flags cs.length cs art
  have hle := alignSize_le (alignSize (alignSize (33 + 2 * cs.length) 8 + art.length) 64 + (zones64 cs).length) (k := 64) (by omega)
  have hl1 := alignSize_le (33 + 2 * cs.length) (k := 8) (by omega)
  have hl2 := alignSize_le (alignSize (33 + 2 * cs.length) 8 + art.length) (k := 64) (by omega)
  have hlt : 41 + 2 * cs.length < (frozen64 flags cs.length cs art).length := by omega
  refine ⟨frozen64 flags cs.length cs art, h3, fun addr ha => ⟨41 + 2 * cs.length, hlt, ?_⟩⟩
  have e : frozen64 flags cs.length cs art = front64 flags cs.length cs art ++
      (zones64 cs ++ padBytes (alignSize (alignSize (33 + 2 * cs.length) 8 + art.length) 64 + (zones64 cs).length) 64) := by
    unfold frozen64; rw [List.append_assoc]
  rw [e] at hlt ⊢
  exact r64FrozenView_past hN ha (by omega)

/-- C110 is false: a view of a bitmap that is not empty cannot be written again, although nothing was changed since
`roaring64_bitmap_shrink_to_fit`: its size is said to be 0, and no byte is written. -/
theorem C110_again_false (qs : List Req64) (hq : ∀ q ∈ qs, q.Ok) {r : R64M} {outs : List (Option Bool)} (h : R64M.create.reqs qs = .ok (r, outs))
    (hs : r.isShrunken = true) (hne : ∃ x, (setReqs Spec.empty qs).1 x = true) (old : ArtRef → List UInt8) (ho : ∀ x, (old x).length = x.ty.size) (flags : Nat)
    (hb : r.bytes < 2 ^ 48) (old2 : ArtRef → List UInt8) (flags2 : Nat) (mem2 : List UInt8) :
    ∃ bytes : List UInt8, (∀ mem : List UInt8, bytes.length ≤ mem.length → r64FrozenSerialize old flags r mem = .ok (bytes ++ mem.drop bytes.length, bytes.length)) ∧
      ∀ addr, addr % 64 = 0 → ∃ v, r64FrozenView addr bytes bytes.length = .ok v ∧ v.frozenSize = .ok 0 ∧ r64FrozenSerialize old2 flags2 v mem2 = .ok (mem2, 0) := by
  obtain ⟨cs, art, h1, h0, h2, h3, h4⟩ := frozen_core hq h hs old ho flags
  refine ⟨frozen64 flags cs.length cs art, h3, fun addr ha => ?_⟩
  have hbuf : At (frozen64 flags cs.length cs art) 0 (front64 flags cs.length cs art ++ zones64 cs) := by
    unfold frozen64
    exact ⟨[], _, rfl, rfl⟩
  have hl : (front64 flags cs.length cs art ++ zones64 cs).length ≤ (frozen64 flags cs.length cs art).length := by
    unfold frozen64
    rw [List.length_append (as := _ ++ _)]
    omega
  obtain ⟨v, v1, v2, v3, v4⟩ := h4 hb addr _ _ ha hbuf hl
  obtain ⟨L, R, hsim, hR⟩ := reached hq h
  have ho' := owned_of_sim hsim hR
  obtain ⟨x, hx⟩ := hne
  obtain ⟨hx2, leaf, hleaf⟩ := ho'.value x hx
  have hk := splitKey_isKey x
  obtain ⟨a, c, e1, _⟩ := ho'.leaf _ _ ⟨hk.len, hk.byte⟩ hleaf
  have hlt := slot_lt e1
  have hns : v.isShrunken = false := by
    unfold R64M.isShrunken
    rw [v3, v4, Bool.and_eq_false_iff]
    right
    simp only [decide_eq_false_iff_not]
    omega
  exact ⟨v, v1, C109_not_shrunken hns old2 flags2 mem2⟩

/-! ### A case -/

/-- Four containers, of arrays and runs, with 48-bit keys that differ at the third byte and at the last. -/
def c109calls : List Req64 := [.add 5, .addRange 100000 170000, .runOptimize, .add 1099511627776, .add 1099511627779, .shrink]

example : ∀ q ∈ c109calls, q.Ok := by simp [c109calls, Req64.Ok]

/-- Memory that was filled with zeros. -/
def zeros (x : ArtRef) : List UInt8 := List.replicate x.ty.size 0

example : ∀ x, (zeros x).length = x.ty.size := by simp [zeros]

/-- It is shrunken, and small. -/
example : (do let x ← R64M.create.reqs c109calls
              let n ← x.1.frozenSize
              Out.ok (x.1.isShrunken, x.1.bytes, x.1.containers.length, n)) = .ok (true, 192, 4, 384) := by decide +kernel

/-- Before `roaring64_bitmap_shrink_to_fit` it is not. -/
example : (do let x ← R64M.create.reqs (c109calls.take 2)
              let n ← x.1.frozenSize
              Out.ok (x.1.isShrunken, n)) = .ok (false, 0) := by decide +kernel

/-- Written, and viewed at the address 128; the view answers, and is freed. -/
example : (do let x ← R64M.create.reqs c109calls
              let w ← r64FrozenSerialize zeros 0 x.1 (List.replicate 500 255)
              let v ← r64FrozenView 128 w.1 500
              let y ← v.contains 150000
              let z ← v.contains 1099511627778
              let f ← v.freeView
              Out.ok (w.2, w.1.drop 384 == List.replicate 116 255, y, z, f)) = .ok (384, true, true, false, [0, 1, 2, 3]) := by decide +kernel

/-- C110: cut inside the tree: the function that frees the partial view walks through arrays of nodes that were not set. -/
example : (do let x ← R64M.create.reqs [.add 5, .shrink]
              let w ← r64FrozenSerialize zeros 0 x.1 (List.replicate 192 255)
              let v ← r64FrozenView 0 (w.1.take 60) 60
              Out.ok v.first) = .oob := by decide +kernel

/-- C110: a buffer of 192 bytes with one value at the offset 128, cut to 125: the view is made, and reads outside the buffer. -/
example : (do let x ← R64M.create.reqs [.add 5, .shrink]
              let w ← r64FrozenSerialize zeros 0 x.1 (List.replicate 192 255)
              let v ← r64FrozenView 0 (w.1.take 125) 125
              Out.ok (w.2, v.mem)) = .ok (192, [none]) ∧
    (do let x ← R64M.create.reqs [.add 5, .shrink]
        let w ← r64FrozenSerialize zeros 0 x.1 (List.replicate 192 255)
        let v ← r64FrozenView 0 (w.1.take 125) 125
        v.contains 5) = .oob := by decide +kernel

/-- C110: one byte less is refused, with the same function reading an array of containers that was not initialised. -/
example : (do let x ← R64M.create.reqs [.add 5, .shrink]
              let w ← r64FrozenSerialize zeros 0 x.1 (List.replicate 192 255)
              let v ← r64FrozenView 0 (w.1.take 124) 124
              Out.ok v.first) = .oob := by decide +kernel

/-! ### Bytes that were not written by the library -/

/-- A buffer of 128 bytes in the frozen format: the flags, the number of containers (8 bytes), no element counts and empty zones, padding up to the offset 40,
the root, the five capacities (behind one that is not used), and 32 bytes more for nodes. -/
def c110bytes (containers root leaves node4s : Nat) (nodes : List UInt8) : List UInt8 :=
  [0] ++ leBytes 8 containers ++ List.replicate 31 0 ++ leBytes 8 root ++ (leBytes 8 0 ++ leBytes 8 leaves ++ leBytes 8 node4s ++ List.replicate 24 0) ++
    (nodes ++ List.replicate 32 0).take 32

/-- C110 for bytes that were not written by `roaring64_bitmap_frozen_serialize` (which its documentation excludes): the view is made from them without a look
at the references and with sizes that wrap.  1: the root refers to the leaf 0 of no leaves, and the view reads it.  2: 2^63 containers need no bytes in 64 bits,
and the pointer to the first one is stored behind the array. 3: two leaves under no node: with the root at the second, which asks for the container 5 of none. -/
theorem C110_other_bytes_false (addr : Nat) (ha : addr % 64 = 0) :
    r64FrozenView addr (c110bytes 0 (refWord ⟨.leaf, 0⟩) 0 0 []) 128 = .oob ∧
    r64FrozenView addr (c110bytes (2 ^ 63) (refWord ⟨.leaf, 0⟩) 1 0 (List.replicate 8 0 ++ leBytes 8 ARRAY_TYPE)) 128 = .oob ∧
    r64FrozenView addr (c110bytes 0 (refWord ⟨.leaf, 1⟩) 2 0 (List.replicate 24 0 ++ leBytes 8 (5 * 256 + ARRAY_TYPE))) 128 = .oob := by
  have h : ∀ b n, r64FrozenView addr b n = r64FrozenView 0 b n := by
    intro b n
    unfold r64FrozenView
    simp only [ha, Nat.zero_mod]
  have o : ∀ x : Out R64M, (match x with | .oob => true | _ => false) = true → x = .oob := by
    intro x hx
    cases x <;> simp_all
  rw [h, h, h]
  exact ⟨o _ (by decide +kernel), o _ (by decide +kernel), o _ (by decide +kernel)⟩

/-- With a null root the same bytes are an empty bitmap. -/
example : (c110bytes 0 0 0 0 []).length = 128 ∧ (do let v ← r64FrozenView 64 (c110bytes 0 0 0 0 []) 128; v.contains 5) = .ok false := by decide +kernel

end CRoaring.Props
