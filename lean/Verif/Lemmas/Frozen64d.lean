import Verif.Lemmas.Frozen64c
import Verif.Store64Spec
/-
Frozen 64-bit bitmaps: the whole buffer.
-/
set_option linter.unusedSimpArgs false
set_option linter.unusedVariables false
namespace CRoaring
open Spec

theorem alignSize_le (n : Nat) {k : Nat} (h : 0 < k) : n ≤ alignSize n k := by
  unfold alignSize
  have h1 := Nat.div_add_mod (n + k - 1) k
  have h2 := Nat.mod_lt (n + k - 1) h
  rw [Nat.mul_comm] at h1
  omega

theorem alignSize_mod (n k : Nat) : alignSize n k % k = 0 := by unfold alignSize; exact Nat.mul_mod_left _ _

theorem alignSize_even {n : Nat} (h : n % 2 = 0) : alignSize n 2 = n := by unfold alignSize; omega

/-- Bytes for alignment. -/
def padBytes (n k : Nat) : List UInt8 := List.replicate (alignSize n k - n) 0

theorem padBytes_length (n k : Nat) : (padBytes n k).length = alignSize n k - n := by simp [padBytes]

/-- The part before the tree. -/
def hdr64 (flags n : Nat) (cs : List Container) : List UInt8 :=
  [UInt8.ofNat flags] ++ (leBytes 8 n ++ (ecBytes cs ++ (leBytes 8 (cs.flatMap bzC).length ++ (leBytes 8 (cs.flatMap rzC).length ++
    leBytes 8 (cs.flatMap azC).length))))

theorem hdr64_length (flags n : Nat) (cs : List Container) : (hdr64 flags n cs).length = 33 + 2 * cs.length := by
  unfold hdr64
  simp only [List.length_append, leBytes_length, ecBytes_length, List.length_singleton]
  omega

/-- What comes before the containers. -/
def front64 (flags n : Nat) (cs : List Container) (art : List UInt8) : List UInt8 :=
  hdr64 flags n cs ++ padBytes (33 + 2 * cs.length) 8 ++ art ++ padBytes (alignSize (33 + 2 * cs.length) 8 + art.length) 64

theorem front64_length (flags n : Nat) (cs : List Container) (art : List UInt8) :
    (front64 flags n cs art).length = alignSize (alignSize (33 + 2 * cs.length) 8 + art.length) 64 := by
  unfold front64
  have h1 := alignSize_le (33 + 2 * cs.length) (k := 8) (by omega)
  have h2 := alignSize_le (alignSize (33 + 2 * cs.length) 8 + art.length) (k := 64) (by omega)
  simp only [List.length_append, hdr64_length, padBytes_length]
  omega

/-- The bytes of the containers. -/
def zones64 (cs : List Container) : List UInt8 := cs.flatMap bzC ++ (cs.flatMap rzC ++ cs.flatMap azC)

/-- The whole. -/
def frozen64 (flags n : Nat) (cs : List Container) (art : List UInt8) : List UInt8 :=
  front64 flags n cs art ++ zones64 cs ++ padBytes (alignSize (alignSize (33 + 2 * cs.length) 8 + art.length) 64 + (zones64 cs).length) 64

theorem frozen64_length (flags n : Nat) (cs : List Container) (art : List UInt8) :
    (frozen64 flags n cs art).length = alignSize (alignSize (alignSize (33 + 2 * cs.length) 8 + art.length) 64 + (zones64 cs).length) 64 := by
  unfold frozen64
  have h2 := alignSize_le (alignSize (alignSize (33 + 2 * cs.length) 8 + art.length) 64 + (zones64 cs).length) (k := 64) (by omega)
  simp only [List.length_append, front64_length, padBytes_length]
  omega

theorem bzC_even {cs : List Container} (h : ∀ c ∈ cs, CTyped c) : (cs.flatMap bzC).length % 2 = 0 ∧ (cs.flatMap rzC).length % 2 = 0 ∧ (cs.flatMap azC).length % 2 = 0 := by
  induction cs with
  | nil => simp
  | cons c t ih =>
    have h2 := ih (fun d hd => h d (by simp [hd]))
    have hc := h c (by simp)
    simp only [List.flatMap_cons, List.length_append]
    cases c with
    | bitset b => simp only [bzC, rzC, azC, wordBytes_length, List.length_nil]; omega
    | run rs => simp only [bzC, rzC, azC, rles_length, List.length_nil]; omega
    | array l => simp only [bzC, rzC, azC, u16s_length, List.length_nil]; omega

theorem padAlign_wst {mem d : List UInt8} {k : Nat} (h : d.length + (padBytes d.length k).length ≤ mem.length) :
    padAlign (wst mem 0 d) k = .ok (wst mem 0 (d ++ padBytes d.length k)) := by
  unfold padAlign
  have e : (wst mem 0 d).2 = d.length := by simp [wst]
  rw [e]
  exact put_wst (by show 0 + d.length + (padBytes d.length k).length ≤ _; omega)

theorem put_nil {mem : List UInt8} {o : Nat} (h : o ≤ mem.length) : put (mem, o) [] = .ok (mem, o) := by
  unfold put memWrite
  simp only [List.length_nil, Nat.add_zero, if_pos h, ok_bind, pure_ok, List.append_nil, List.take_append_drop]

theorem artSerialize_wst {old : ArtRef → List UInt8} {a : ArtT Nat} (hs : a.heap.isShrunken = true) {mem d : List UInt8}
    (h : d.length + (artBytes old a).length ≤ mem.length) : a.serialize old (wst mem 0 d) = .ok (wst mem 0 (d ++ artBytes old a)) := by
  have hl := artBytes_length (old := old) a
  unfold ArtT.serialize
  rw [hs, if_neg (by simp)]
  rw [put_wst (by rw [leBytes_length]; omega), ok_bind]
  have hcl : (leBytes 8 0 ++ artTypes.flatMap fun t => leBytes 8 (a.heap.nodes t).length).length = 48 := capBytes_length a
  rw [put_wst (by rw [hcl, List.length_append, leBytes_length]; omega), ok_bind]
  rw [show List.replicate (alignSize (8 + 48) 8 - (8 + 48)) (0 : UInt8) = [] from rfl]
  rw [put_wst (by rw [List.length_append, List.length_append, hcl, leBytes_length, List.length_nil]; omega), ok_bind]
  have loop : ∀ (ts : List ArtTy) (d : List UInt8), d.length + (ts.flatMap (arrayImage old a)).length ≤ mem.length →
      ts.foldlM (fun st t => if (a.heap.nodes t).length > 0 then put st (arrayImage old a t) else .ok st) (wst mem 0 d) =
        .ok (wst mem 0 (d ++ ts.flatMap (arrayImage old a))) := by
    intro ts
    induction ts with
    | nil => intro d _; simp [pure_ok]
    | cons t ts ih =>
      intro d hd
      rw [List.flatMap_cons, List.length_append] at hd
      rw [List.foldlM_cons, List.flatMap_cons]
      by_cases h0 : (a.heap.nodes t).length > 0
      · rw [if_pos h0, put_wst (by omega), ok_bind, ih _ (by rw [List.length_append]; omega), List.append_assoc]
      · have e : arrayImage old a t = [] := by
          unfold arrayImage
          rw [show (a.heap.nodes t).length = 0 by omega]; rfl
        rw [if_neg h0, ok_bind, ih _ (by omega), e, List.nil_append]
  rw [loop _ _ (by simp only [List.length_append, hcl, leBytes_length, List.length_nil]; omega)]
  congr 2
  rw [artBytes]
  simp only [List.append_assoc, List.append_nil]

theorem artSize_eq {old : ArtRef → List UInt8} (ho : OldOk old) {a : ArtT Nat} (hs : a.heap.isShrunken = true) : a.sizeInBytes = (artBytes old a).length := by
  rw [artBytes_length]
  unfold ArtT.sizeInBytes
  rw [hs, if_neg (by simp)]
  have : ∀ (ts : List ArtTy) (z : Nat), ts.foldl (fun size t => size + (a.heap.nodes t).length * t.size) z = z + (ts.flatMap (arrayImage old a)).length := by
    intro ts
    induction ts with
    | nil => intro z; rfl
    | cons t ts ih => intro z; rw [List.foldl_cons, ih, List.flatMap_cons, List.length_append, arrayImage_length ho]; omega
  rw [this]
  rfl

theorem take_wst {mem d X : List UInt8} (h : d.length + X.length ≤ mem.length) : wst mem 0 (d ++ X) = (d ++ (X ++ mem.drop (d.length + X.length)), d.length + X.length) := by
  simp [wst]

/-- `roaring64_bitmap_frozen_serialize` -/
theorem r64FrozenSerialize_eq {old : ArtRef → List UInt8} {flags : Nat} {r : R64M} {l : List ArtRef} {cs : List Container}
    (hs : r.isShrunken = true) (hl : r.art.leaves = .ok l) (hc : r.lookAll l = .ok cs) (ht : ∀ c ∈ cs, CTyped c) (hn : cs.length = r.containers.length)
    {mem : List UInt8} (hm : (frozen64 flags cs.length cs (artBytes old r.art)).length ≤ mem.length) :
    r64FrozenSerialize old flags r mem = .ok (frozen64 flags cs.length cs (artBytes old r.art) ++ mem.drop (frozen64 flags cs.length cs (artBytes old r.art)).length,
      (frozen64 flags cs.length cs (artBytes old r.art)).length) := by
  have hsa : r.art.heap.isShrunken = true := by
    unfold R64M.isShrunken at hs
    rw [Bool.and_eq_true] at hs
    exact hs.1
  obtain ⟨ev1, ev2, ev3⟩ := bzC_even ht
  have hl1 := alignSize_le (33 + 2 * cs.length) (k := 8) (by omega)
  have hl2 := alignSize_le (alignSize (33 + 2 * cs.length) 8 + (artBytes old r.art).length) (k := 64) (by omega)
  have hl3 := alignSize_le (alignSize (alignSize (33 + 2 * cs.length) 8 + (artBytes old r.art).length) 64 + (zones64 cs).length) (k := 64) (by omega)
  have hfl := front64_length flags cs.length cs (artBytes old r.art)
  have hlen := frozen64_length flags cs.length cs (artBytes old r.art)
  have hz : (zones64 cs).length = (cs.flatMap bzC).length + ((cs.flatMap rzC).length + (cs.flatMap azC).length) := by
    unfold zones64; simp only [List.length_append]
  have hel := ecBytes_length cs
  have hhl := hdr64_length flags cs.length cs
  have hp1 := padBytes_length (33 + 2 * cs.length) 8
  have hp2 := padBytes_length (alignSize (33 + 2 * cs.length) 8 + (artBytes old r.art).length) 64
  have hp3 := padBytes_length (alignSize (alignSize (33 + 2 * cs.length) 8 + (artBytes old r.art).length) 64 + (zones64 cs).length) 64
  have hmod := alignSize_mod (alignSize (33 + 2 * cs.length) 8 + (artBytes old r.art).length) 64
  rw [hlen] at hm
  unfold r64FrozenSerialize
  rw [hs, if_neg (by simp)]
  rw [show ((mem, 0) : WSt) = wst mem 0 [] by simp [wst]]
  rw [put_wst (by simp only [List.length_nil, List.length_singleton]; omega), ok_bind]
  rw [put_wst (by simp only [List.length_append, List.length_nil, List.length_singleton, leBytes_length]; omega), ok_bind]
  rw [hl, ok_bind, hc, ok_bind]
  rw [put_wst (by
    show _ + (ecBytes cs).length ≤ _
    simp only [List.length_append, List.length_nil, List.length_singleton, leBytes_length]; omega), ok_bind]
  rw [totalSizes_eq ht]
  simp only
  rw [put_wst (by
    show 0 + (_ ++ ecBytes cs).length + _ ≤ _
    simp only [List.length_append, List.length_nil, List.length_singleton, leBytes_length]; omega), ok_bind]
  rw [put_wst (by
    show 0 + (_ ++ ecBytes cs ++ _).length + _ ≤ _
    simp only [List.length_append, List.length_nil, List.length_singleton, leBytes_length]; omega), ok_bind]
  rw [put_wst (by
    show 0 + (_ ++ ecBytes cs ++ _ ++ _).length + _ ≤ _
    simp only [List.length_append, List.length_nil, List.length_singleton, leBytes_length]; omega), ok_bind]
  have eh : ([] ++ [UInt8.ofNat flags] ++ leBytes 8 r.containers.length ++ (cs.flatMap fun c => leBytes 2 (elemCount c)) ++ leBytes 8 (cs.flatMap bzC).length ++
      leBytes 8 (cs.flatMap rzC).length ++ leBytes 8 (cs.flatMap azC).length) = hdr64 flags cs.length cs := by
    rw [← hn]
    unfold hdr64 ecBytes
    simp only [List.nil_append, List.append_assoc]
  rw [eh, padAlign_wst (by rw [hhl, hp1]; omega), ok_bind, hhl]
  rw [artSerialize_wst hsa (by rw [List.length_append, hhl, hp1]; omega), ok_bind]
  have ef : (hdr64 flags cs.length cs ++ padBytes (33 + 2 * cs.length) 8 ++ artBytes old r.art).length =
      alignSize (33 + 2 * cs.length) 8 + (artBytes old r.art).length := by
    simp only [List.length_append, hhl, hp1]; omega
  rw [padAlign_wst (by rw [ef, hp2]; omega), ok_bind, ef]
  have efront : hdr64 flags cs.length cs ++ padBytes (33 + 2 * cs.length) 8 ++ artBytes old r.art ++
      padBytes (alignSize (33 + 2 * cs.length) 8 + (artBytes old r.art).length) 64 = front64 flags cs.length cs (artBytes old r.art) := rfl
  rw [efront]
  generalize hD : front64 flags cs.length cs (artBytes old r.art) = D at *
  have e2 : (wst mem 0 D).2 = D.length := by simp [wst]
  have e1 : (wst mem 0 D).1 = D ++ mem.drop D.length := by simp [wst]
  rw [e2, e1]
  have hDe : D.length % 2 = 0 := by rw [hfl]; omega
  have hml : (D ++ mem.drop D.length).length = mem.length := by simp; omega
  have pad2 : ∀ {m : List UInt8} {o : Nat}, o % 2 = 0 → o ≤ m.length → padAlign (m, o) 2 = .ok (m, o) := by
    intro m o h1 h2
    unfold padAlign
    rw [alignSize_even h1, Nat.sub_self, List.replicate_zero, put_nil h2]
  rw [pad2 (by omega) (by rw [hml]; omega), ok_bind]
  simp only
  rw [pad2 (by omega) (by rw [hml]; omega), ok_bind]
  simp only
  obtain ⟨X, m2, x1, x2, x3⟩ := cut (x := mem.drop D.length) (m := (cs.flatMap bzC).length) (n := (mem.drop D.length).length - (cs.flatMap bzC).length)
    (by rw [List.length_drop]; omega)
  obtain ⟨Y, m3, y1, y2, y3⟩ := cut (x := m2) (m := (cs.flatMap rzC).length) (n := m2.length - (cs.flatMap rzC).length)
    (by rw [List.length_drop] at x3; omega)
  obtain ⟨Z, m4, z1, z2, z3⟩ := cut (x := m3) (m := (cs.flatMap azC).length) (n := m3.length - (cs.flatMap azC).length)
    (by rw [List.length_drop] at x3; omega)
  have hw := frozenWrite64_eq cs (A := D) (X := X) (B := []) (Y := Y) (C := []) (Z := Z) (D := m4) (bz := D.length) (rz := D.length + (cs.flatMap bzC).length)
    (az := D.length + (cs.flatMap bzC).length + (cs.flatMap rzC).length) ht x2 y2 z2 rfl (by simp only [List.length_nil]; omega)
    (by simp only [List.length_nil]; omega)
  simp only [List.nil_append] at hw
  rw [x1, y1, z1, hw, ok_bind]
  have em4 : m4 = mem.drop (D.length + (zones64 cs).length) := by
    rw [← List.drop_drop, x1, y1, z1, hz]
    rw [show (X ++ (Y ++ (Z ++ m4))) = (X ++ Y ++ Z) ++ m4 by simp]
    rw [show (cs.flatMap bzC).length + ((cs.flatMap rzC).length + (cs.flatMap azC).length) = (X ++ Y ++ Z).length by simp only [List.length_append]; omega]
    rw [List.drop_left]
  have ew : ((D ++ (cs.flatMap bzC ++ (cs.flatMap rzC ++ (cs.flatMap azC ++ m4))), D.length + (cs.flatMap bzC).length + (cs.flatMap rzC).length + (cs.flatMap azC).length) : WSt) =
      wst mem 0 (D ++ zones64 cs) := by
    unfold wst
    rw [em4]
    simp only [zones64, List.take_zero, List.nil_append, List.append_assoc, Nat.zero_add, List.length_append, Nat.add_assoc]
  rw [ew, padAlign_wst (by
    rw [List.length_append, hfl, hp3]; omega), ok_bind]
  rw [List.length_append, hfl]
  have efin : D ++ zones64 cs ++ padBytes (alignSize (alignSize (33 + 2 * cs.length) 8 + (artBytes old r.art).length) 64 + (zones64 cs).length) 64 =
      frozen64 flags cs.length cs (artBytes old r.art) := by unfold frozen64; rw [hD]
  rw [efin]
  simp [wst]

theorem frozenSize_eq {old : ArtRef → List UInt8} (ho : OldOk old) {flags : Nat} {r : R64M} {l : List ArtRef} {cs : List Container}
    (hs : r.isShrunken = true) (hl : r.art.leaves = .ok l) (hc : r.lookAll l = .ok cs) (ht : ∀ c ∈ cs, CTyped c) (hn : cs.length = r.containers.length) :
    r.frozenSize = .ok (frozen64 flags cs.length cs (artBytes old r.art)).length := by
  have hsa : r.art.heap.isShrunken = true := by
    unfold R64M.isShrunken at hs
    rw [Bool.and_eq_true] at hs
    exact hs.1
  obtain ⟨ev1, ev2, ev3⟩ := bzC_even ht
  have hz : (zones64 cs).length = (cs.flatMap bzC).length + ((cs.flatMap rzC).length + (cs.flatMap azC).length) := by
    unfold zones64; simp only [List.length_append]
  have hmod := alignSize_mod (alignSize (33 + 2 * cs.length) 8 + (artBytes old r.art).length) 64
  rw [frozen64_length, hz]
  unfold R64M.frozenSize
  rw [hs, if_neg (by simp), hl, ok_bind, hc, ok_bind, totalSizes_eq ht, artSize_eq ho hsa, ← hn]
  simp only
  rw [show 1 + 8 + cs.length * 2 + 3 * 8 = 33 + 2 * cs.length by omega]
  generalize alignSize (alignSize (33 + 2 * cs.length) 8 + (artBytes old r.art).length) 64 = n at *
  rw [alignSize_even (n := n + (cs.flatMap bzC).length) (by omega), alignSize_even (by omega)]
  congr 2
  omega

/-- `roaring64_bitmap_frozen_view` of a bitmap that was written. -/
theorem r64FrozenView_eq {old : ArtRef → List UInt8} (ho : OldOk old) {flags : Nat} {r : R64M} {L F : ArtRef → Prop} {m : List Nat → Option Nat}
    {C : List Nat → Option Container} (h : St r L F m C) {es : List FLeaf} (hl : r.art.leaves = .ok (es.map FLeaf.ref))
    (hnd : (es.map fun e => leafIndex e.leaf).Nodup)
    (hes : ∀ e ∈ es, ∃ k a, LeafOf r.art F k e.ref ∧ Leads r L F m C k (r.art.heap.deref e.ref) e.leaf a e.c)
    (hne : ∀ e ∈ es, CNe e.c) (hn : es.length = r.containers.length) (hb : r.bytes < 281474976710656) {addr : Nat} (ha : addr % 64 = 0)
    {buf : List UInt8} (hbuf : At buf 0 (front64 flags (es.map FLeaf.c).length (es.map FLeaf.c) (artBytes old r.art) ++ zones64 (es.map FLeaf.c))) {maxbytes : Nat}
    (hm : (front64 flags (es.map FLeaf.c).length (es.map FLeaf.c) (artBytes old r.art) ++ zones64 (es.map FLeaf.c)).length ≤ maxbytes) :
    ∃ v, r64FrozenView addr buf maxbytes = .ok v ∧ SameView r v F es ∧ v.first = 0 ∧ v.containers.length = r.containers.length := by
  have hcn : (es.map FLeaf.c).length = r.containers.length := by rw [List.length_map]; exact hn
  have hneC : ∀ c ∈ es.map FLeaf.c, CNe c := by
    intro c hc
    obtain ⟨e, he, rfl⟩ := List.mem_map.1 hc
    exact hne e he
  have ht : ∀ c ∈ es.map FLeaf.c, CTyped c := fun c hc => (hneC c hc).1.typed
  have hzl := zones_le hneC
  obtain ⟨ev1, ev2, ev3⟩ := bzC_even ht
  -- the sizes
  have hbytes := hb
  unfold R64M.bytes ArtT.bytes at hbytes
  have hN : r.containers.length < 35184372088832 := by omega
  have hsz : ∀ t, (r.art.heap.nodes t).length * t.size < 18446744073709551616 := by
    intro t; cases t <;> simp only [ArtTy.size] <;> omega
  have hcap : ∀ t, (r.art.heap.nodes t).length ≤ 281474976710656 := by
    intro t; cases t <;> omega
  obtain ⟨hcl1, hcl2, hcl3⟩ := h.map.closed
  have hroot : ∀ x, r.art.root = some x → x.idx < 281474976710656 := by
    intro x hx
    have := hcl3 x (hcl2 x hx)
    have := hcap x.ty
    omega
  have hleaf : ∀ x k v, F x → r.art.heap.get x = some (.leaf k v) → v < 18446744073709551616 := by
    intro x k v hx hg
    have hk : LeafOf r.art F k x := ⟨hx, v, hg⟩
    obtain ⟨j, a, c, hA⟩ := h.at (h.map.ptr hk)
    have hv : j = v := by
      have h1 := hA.load
      unfold ArtT.load at h1
      rw [peekLeaf_ok (deref_valid _ x) hg, ok_bind] at h1
      cases h1; rfl
    subst hv
    have := slot_lt hA.slot
    omega
  have hlike := like_view (old := old) ho h.map hcap hleaf
  -- the parts of the buffer
  generalize hcs : es.map FLeaf.c = cs at *
  have hal := artBytes_length (old := old) r.art
  have hfl := front64_length flags cs.length cs (artBytes old r.art)
  have hl1 := alignSize_le (33 + 2 * cs.length) (k := 8) (by omega)
  have hm1 := alignSize_mod (33 + 2 * cs.length) 8
  have hl2 := alignSize_le (alignSize (33 + 2 * cs.length) 8 + (artBytes old r.art).length) (k := 64) (by omega)
  have hm2 := alignSize_mod (alignSize (33 + 2 * cs.length) 8 + (artBytes old r.art).length) 64
  have hz : (zones64 cs).length = (cs.flatMap bzC).length + ((cs.flatMap rzC).length + (cs.flatMap azC).length) := by
    unfold zones64; simp only [List.length_append]
  rw [List.length_append, hfl] at hm
  have hfront := hbuf.left
  have hzones := hbuf.right' hfl
  unfold front64 at hfront
  have hhdr := hfront.left.left.left
  have hart : At buf (alignSize (33 + 2 * cs.length) 8) (artBytes old r.art) := by
    have := hfront.left.right' (n := alignSize (33 + 2 * cs.length) 8) (by
      rw [List.length_append, hdr64_length, padBytes_length]; omega)
    rwa [Nat.zero_add] at this
  unfold hdr64 at hhdr
  have p1 := hhdr.right' (n := 1) rfl
  have p2 := p1.right' (leBytes_length 8 _)
  have p3 := p2.right' (ecBytes_length cs)
  have p4 := p3.right' (leBytes_length 8 _)
  have p5 := p4.right' (leBytes_length 8 _)
  simp only [Nat.zero_add] at p1 p2 p3 p4 p5 hzones
  have r0 : readLE buf 0 1 = .ok (UInt8.ofNat flags).toNat := by
    refine readLE_at (n := (UInt8.ofNat flags).toNat) ?_ (UInt8.toNat_lt _)
    have := hhdr.left
    have e : leBytes 1 (UInt8.ofNat flags).toNat = [UInt8.ofNat flags] := by simp only [leBytes, UInt8.ofNat_toNat]
    rw [e]; exact this
  have r1 : readLE buf 1 8 = .ok cs.length := readLE_at p1.left (by omega)
  have r2 : readLE buf (9 + 2 * cs.length) 8 = .ok (cs.flatMap bzC).length := readLE_at p3.left (by omega)
  have r3 : readLE buf (9 + 2 * cs.length + 8) 8 = .ok (cs.flatMap rzC).length := readLE_at p4.left (by omega)
  have r4 : readLE buf (9 + 2 * cs.length + 16) 8 = .ok (cs.flatMap azC).length := readLE_at p5 (by omega)
  have q1 := hzones.left
  have q2 := hzones.right.left
  have q3 := hzones.right.right
  have hview := artFrozenView_at ho hsz hroot hm1 hart (maxbytes := maxbytes - (33 + 2 * cs.length)) (by omega)
  have hleaves := like_leaves (b := ⟨viewHeap old r.art, r.art.root⟩) hlike hcl1 rfl hcl2 hl
  obtain ⟨v, g1, g2, g3, g4, g5, g6, g7⟩ := viewLoop64_at p2.left es (pre := [])
    (r := ⟨⟨viewHeap old r.art, r.art.root⟩, List.replicate r.containers.length none, 0, []⟩) (by rw [hcs]; rfl) hne
    (fun e he => by obtain ⟨k, a, k1, k2⟩ := hes e he; exact like_load (b := ⟨viewHeap old r.art, r.art.root⟩) hlike k1.1 k2.load)
    (fun e he => by obtain ⟨k, a, k1, k2⟩ := hes e he; exact k2.type.symm)
    (fun e he => by obtain ⟨k, a, k1, k2⟩ := hes e he; have := slot_lt k2.slot; simpa [leafIndex] using this) hnd
    (by rw [hcs]; exact q1) (by rw [hcs]; exact q2) (by rw [hcs]; exact q3)
  refine ⟨v, ?_, ⟨by rw [g2]; exact hlike, by rw [g2], fun j e hj => by rw [g6 j e hj]; simp, by rw [g4]; simp⟩, g3, by rw [g5]; simp⟩
  have c1 : cs.length * 8 % 18446744073709551616 / 8 = r.containers.length := by omega
  have c2 : cs.length * 2 % 18446744073709551616 = 2 * cs.length := by omega
  have c3 : 9 + 2 * cs.length + 24 = 33 + 2 * cs.length := by omega
  unfold r64FrozenView
  rw [if_neg (by omega), if_neg (by omega), r0, ok_bind, if_neg (by omega), r1, ok_bind]
  simp only [c1, c2, c3]
  rw [if_neg (by omega), if_neg (by omega), r2, ok_bind, r3, ok_bind, r4, ok_bind, hview, ok_bind]
  simp only
  have hev : alignSize (alignSize (alignSize (33 + 2 * cs.length) 8 + (artBytes old r.art).length) 64 + (cs.flatMap bzC).length) 2 =
      alignSize (alignSize (33 + 2 * cs.length) 8 + (artBytes old r.art).length) 64 + (cs.flatMap bzC).length := alignSize_even (by omega)
  have hev2 : alignSize (alignSize (alignSize (33 + 2 * cs.length) 8 + (artBytes old r.art).length) 64 + (cs.flatMap bzC).length + (cs.flatMap rzC).length) 2 =
      alignSize (alignSize (33 + 2 * cs.length) 8 + (artBytes old r.art).length) 64 + (cs.flatMap bzC).length + (cs.flatMap rzC).length := alignSize_even (by omega)
  rw [if_neg (by omega), hev, hev2, if_neg (by omega), hleaves, ok_bind]
  exact g1

theorem readLE_some {buf : List UInt8} {off k : Nat} (h : off + k ≤ buf.length) : ∃ n, readLE buf off k = .ok n := by
  unfold readLE memRead
  rw [if_pos h, ok_bind]
  exact ⟨_, rfl⟩

theorem readLE_past {buf : List UInt8} {off k : Nat} (h : buf.length < off + k) : readLE buf off k = .oob := by
  unfold readLE memRead
  rw [if_neg (by omega)]
  rfl

theorem hdr64_cap {flags n : Nat} {cs : List Container} {art tail : List UInt8} (hN : n < 35184372088832) {k : Nat} (hk : 9 ≤ k)
    (hf : k ≤ (front64 flags n cs art ++ tail).length) : readLE ((front64 flags n cs art ++ tail).take k) 1 8 = .ok n := by
  refine readLE_at ?_ (by omega)
  have h1 : At (front64 flags n cs art ++ tail) 1 (leBytes 8 n) := by
    refine ⟨[UInt8.ofNat flags], ?_, ?_, rfl⟩
    rotate_left
    · unfold front64 hdr64
      simp only [List.append_assoc]
      rfl
  rw [at_iff] at h1 ⊢
  obtain ⟨h1, h2⟩ := h1
  rw [leBytes_length] at h1 h2 ⊢
  refine ⟨by rw [List.length_take]; omega, fun i hi => ?_⟩
  rw [List.getElem?_take, if_pos (by omega)]
  exact h2 i hi

/-- A buffer that ends before the root of the tree. -/
theorem r64FrozenView_cut {flags n : Nat} {cs : List Container} (hN : n < 35184372088832) {addr : Nat} (ha : addr % 64 = 0) {art tail : List UInt8}
    {k : Nat} (hk : k < 41 + 2 * n) (hf : k ≤ (front64 flags n cs art ++ tail).length) :
    r64FrozenView addr ((front64 flags n cs art ++ tail).take k) k = .fail := by
  have hempty : ∀ cont : List (Option Nat), R64M.dropView ⟨ArtT.init, cont, 0, []⟩ = .fail := fun _ => rfl
  have hl : ((front64 flags n cs art ++ tail).take k).length = k := by rw [List.length_take]; omega
  have hcap := fun h => hdr64_cap hN (k := k) h hf
  generalize (front64 flags n cs art ++ tail).take k = buf at *
  unfold r64FrozenView
  rw [if_neg (by omega)]
  by_cases k1 : k < 1
  · rw [if_pos k1]; rfl
  rw [if_neg k1]
  obtain ⟨_, r0⟩ := readLE_some (buf := buf) (off := 0) (k := 1) (by omega)
  rw [r0, ok_bind]
  by_cases k2 : k - 1 < 8
  · rw [if_pos k2]; rfl
  rw [if_neg k2, hcap (by omega), ok_bind]
  have c1 : n * 2 % 18446744073709551616 = 2 * n := by omega
  simp only [c1]
  by_cases k3 : k - 9 < 2 * n
  · rw [if_pos k3]; exact hempty _
  rw [if_neg k3]
  by_cases k4 : k - 9 - 2 * n < 24
  · rw [if_pos k4]; exact hempty _
  rw [if_neg k4]
  obtain ⟨_, r1⟩ := readLE_some (buf := buf) (off := 9 + 2 * n) (k := 8) (by omega)
  obtain ⟨_, r2⟩ := readLE_some (buf := buf) (off := 9 + 2 * n + 8) (k := 8) (by omega)
  obtain ⟨_, r3⟩ := readLE_some (buf := buf) (off := 9 + 2 * n + 16) (k := 8) (by omega)
  rw [r1, ok_bind, r2, ok_bind, r3, ok_bind]
  unfold artFrozenView
  rw [if_pos (by omega), ok_bind, if_pos rfl]
  exact hempty _

/-- A buffer that ends eight bytes after the header: the root of the tree, which is aligned, is not inside. -/
theorem r64FrozenView_past {flags n : Nat} {cs : List Container} (hN : n < 35184372088832) {addr : Nat} (ha : addr % 64 = 0) {art tail : List UInt8}
    (hf : 41 + 2 * n ≤ (front64 flags n cs art ++ tail).length) :
    r64FrozenView addr ((front64 flags n cs art ++ tail).take (41 + 2 * n)) (41 + 2 * n) = .oob := by
  have hl : ((front64 flags n cs art ++ tail).take (41 + 2 * n)).length = 41 + 2 * n := by rw [List.length_take]; omega
  have hcap := hdr64_cap hN (k := 41 + 2 * n) (by omega) hf
  generalize (front64 flags n cs art ++ tail).take (41 + 2 * n) = buf at *
  have c1 : n * 2 % 18446744073709551616 = 2 * n := by omega
  obtain ⟨_, r0⟩ := readLE_some (buf := buf) (off := 0) (k := 1) (by omega)
  obtain ⟨_, r1⟩ := readLE_some (buf := buf) (off := 9 + 2 * n) (k := 8) (by omega)
  obtain ⟨_, r2⟩ := readLE_some (buf := buf) (off := 9 + 2 * n + 8) (k := 8) (by omega)
  obtain ⟨_, r3⟩ := readLE_some (buf := buf) (off := 9 + 2 * n + 16) (k := 8) (by omega)
  have ha1 := alignSize_le (9 + 2 * n + 24) (k := 8) (by omega)
  have ha2 := alignSize_mod (9 + 2 * n + 24) 8
  unfold r64FrozenView
  rw [if_neg (by omega), if_neg (by omega), r0, ok_bind, if_neg (by omega), hcap, ok_bind]
  simp only [c1]
  rw [if_neg (by omega), if_neg (by omega), r1, ok_bind, r2, ok_bind, r3, ok_bind]
  unfold artFrozenView
  rw [if_neg (by omega), readLE_past (by omega)]
  rfl

/-- After `roaring64_bitmap_shrink_to_fit` the bitmap is shrunken. -/
theorem shrinkToFit_shrunken {r : R64M} {L : ArtRef → Prop} {R : R64} (h : Sim64 r L R) :
    ∃ r' f, r.shrinkToFit = .ok (r', f) ∧ r'.isShrunken = true := by
  obtain ⟨F, m, h⟩ := h
  obtain ⟨b, f, s1, s2, s3, L', s4, s5⟩ := amap_shrink h.map.map
  obtain ⟨F', s6⟩ := s4.withF
  have hst : St { r with art := b } L' F' m (artFind R) := ⟨s6, h.slots, h.first⟩
  obtain ⟨it, r', F2, m', h1, g1, g2, g4, g6, g7, g8, g9⟩ := hst.shrink
  have hsh : r'.art.heap.isShrunken = true := by rw [g7]; exact isShrunken_iff.2 s2
  have hle := g2.first.le
  have hcut : ∃ d z, r'.cutContainers f = (d, z) ∧ d.isShrunken = true := by
    unfold R64M.cutContainers R64M.isShrunken
    split
    · next e => exact ⟨_, _, rfl, by rw [hsh, e.2]; simp⟩
    · split
      · next e => exact ⟨_, _, rfl, by simp only [hsh, List.length_take, Nat.min_eq_left hle]; simp⟩
      · exact ⟨_, _, rfl, by rw [hsh, show r'.first = r'.containers.length by omega]; simp⟩
  obtain ⟨d, z, e1, e2⟩ := hcut
  refine ⟨d, z, ?_, e2⟩
  unfold R64M.shrinkToFit
  rw [s1, ok_bind]
  simp only at h1 ⊢
  rw [h1, ok_bind, g1, ok_bind, e1]

end CRoaring
