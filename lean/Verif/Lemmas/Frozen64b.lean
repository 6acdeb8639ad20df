import Verif.Lemmas.Frozen64
/-
The radix tree in a buffer: `art_serialize` and `art_frozen_view`.
-/
set_option linter.unusedSimpArgs false
set_option linter.unusedVariables false
namespace CRoaring
open Spec

/-- The bytes before are given for each place. -/
def OldOk (old : ArtRef → List UInt8) : Prop := ∀ x, (old x).length = x.ty.size

theorem ty_size_pos (t : ArtTy) : 0 < t.size := by cases t <;> simp [ArtTy.size]

/-- The nodes of a view. -/
def viewHeap (old : ArtRef → List UInt8) (a : ArtT Nat) : ArtHeap Nat :=
  ⟨fun t => (List.range (a.heap.nodes t).length).map fun i => slotOf t (((a.heap.nodes t).getD i (.free 0)).image (old ⟨t, i⟩)),
    fun t => (a.heap.nodes t).length, fun _ => 0⟩

/-- What `art_serialize` writes. -/
def artBytes (old : ArtRef → List UInt8) (a : ArtT Nat) : List UInt8 :=
  leBytes 8 (optWord a.root) ++ ((leBytes 8 0 ++ artTypes.flatMap fun t => leBytes 8 (a.heap.nodes t).length) ++ artTypes.flatMap (arrayImage old a))

theorem arrayImage_length {old : ArtRef → List UInt8} (ho : OldOk old) (a : ArtT Nat) (t : ArtTy) : (arrayImage old a t).length = (a.heap.nodes t).length * t.size := by
  unfold arrayImage
  rw [flatMap_length_const (k := t.size) (fun i => by rw [ArtSlot.image_length, ho])]
  simp

theorem viewNodes_at {old : ArtRef → List UInt8} (ho : OldOk old) {a : ArtT Nat} {t : ArtTy} {buf : List UInt8} {off : Nat} (h : At buf off (arrayImage old a t)) :
    viewNodes buf off ((a.heap.nodes t).length * t.size) t = (viewHeap old a).nodes t := by
  have hle := h.le
  rw [arrayImage_length ho] at hle
  unfold viewNodes viewHeap
  simp only
  rw [Nat.min_eq_left (by omega), Nat.mul_div_cancel _ (ty_size_pos t)]
  refine List.map_congr_left (fun i hi => ?_)
  rw [List.mem_range] at hi
  unfold arrayImage at h
  have hl : ∀ i, (((a.heap.nodes t).getD i (.free 0)).image (old ⟨t, i⟩)).length = t.size := fun i => by rw [ArtSlot.image_length, ho]
  have := At.nth hl h (i := i) (by simpa using hi)
  rw [List.getElem_range] at this
  have e := this.drop_take
  rw [hl, Nat.mul_comm] at e
  rw [e]

theorem artViewLoop_at {old : ArtRef → List UInt8} (ho : OldOk old) {a : ArtT Nat} {buf : List UInt8} {caps : ArtTy → Nat}
    (hc : ∀ t, caps t = (a.heap.nodes t).length) (hb : ∀ t, (a.heap.nodes t).length * t.size < 18446744073709551616) :
    ∀ (ts : List ArtTy) (H : ArtHeap Nat) (off maxbytes : Nat), ts.Nodup → (∀ t ∈ ts, H.nodes t = []) → At buf off (ts.flatMap (arrayImage old a)) →
    (ts.flatMap (arrayImage old a)).length ≤ maxbytes →
    ∃ H', artViewLoop buf caps ts H off maxbytes = (H', some (off + (ts.flatMap (arrayImage old a)).length)) ∧ H'.first = H.first ∧ H'.gen = H.gen ∧
      ∀ t, H'.nodes t = if t ∈ ts then (viewHeap old a).nodes t else H.nodes t
  | [], H, off, maxbytes, _, _, _, _ => ⟨H, by simp [artViewLoop], rfl, rfl, by simp⟩
  | t :: ts, H, off, maxbytes, hn, hH, h, hm => by
    rw [List.nodup_cons] at hn
    rw [List.flatMap_cons] at h hm ⊢
    have hl := arrayImage_length ho a t
    rw [List.length_append] at hm ⊢
    by_cases h0 : (a.heap.nodes t).length > 0
    · obtain ⟨H', g1, g2, g3, g4⟩ := artViewLoop_at ho hc hb ts { H with nodes := updTy H.nodes t ((viewHeap old a).nodes t) } (off + (a.heap.nodes t).length * t.size)
        (maxbytes - (a.heap.nodes t).length * t.size) hn.2 (fun u hu => by
          show updTy H.nodes t _ u = []
          rw [updTy_ne _ _ (fun e => hn.1 (by rw [← e]; exact hu))]; exact hH u (List.mem_cons_of_mem _ hu)) (h.right' hl) (by omega)
      refine ⟨H', ?_, g2, g3, fun u => ?_⟩
      · unfold artViewLoop
        rw [hc, if_pos h0, Nat.mod_eq_of_lt (hb t)]
        simp only
        rw [if_neg (by omega), viewNodes_at ho h.left, g1]
        congr 2; omega
      · rw [g4 u]
        by_cases hu : u = t
        · subst hu
          rw [if_neg hn.1, if_pos (List.mem_cons_self ..)]
          exact updTy_same _ _ _
        · rw [show ({ H with nodes := updTy H.nodes t ((viewHeap old a).nodes t) } : ArtHeap Nat).nodes u = H.nodes u from updTy_ne _ _ hu]; simp [hu]
    · have e0 : (a.heap.nodes t).length = 0 := by omega
      have l0 : (arrayImage old a t).length = 0 := by rw [hl, e0, Nat.zero_mul]
      obtain ⟨H', g1, g2, g3, g4⟩ := artViewLoop_at ho hc hb ts H off maxbytes hn.2 (fun u hu => hH u (List.mem_cons_of_mem _ hu))
        (by have := h.right' l0; simpa using this) (by omega)
      refine ⟨H', ?_, g2, g3, fun u => ?_⟩
      · unfold artViewLoop
        rw [hc, if_neg h0, g1]
        congr 2; omega
      · rw [g4 u]
        by_cases hu : u = t
        · subst hu
          rw [if_neg hn.1, if_pos (List.mem_cons_self ..), hH _ (List.mem_cons_self ..)]
          unfold viewHeap
          simp only [e0]; rfl
        · simp [hu]

theorem artBytes_length {old : ArtRef → List UInt8} (a : ArtT Nat) : (artBytes old a).length = 56 + (artTypes.flatMap (arrayImage old a)).length := by
  unfold artBytes
  simp only [List.length_append, leBytes_length, flatMap_length_const (k := 8) (fun t => leBytes_length 8 _)]
  have : artTypes.length = 5 := rfl
  rw [this]
  omega

/-- The capacities. -/
def capBytes (a : ArtT Nat) : List UInt8 := leBytes 8 0 ++ artTypes.flatMap fun t => leBytes 8 (a.heap.nodes t).length

theorem capBytes_length (a : ArtT Nat) : (capBytes a).length = 48 := by
  unfold capBytes
  rw [List.length_append, leBytes_length, flatMap_length_const (k := 8) (fun t => leBytes_length 8 _)]; rfl

theorem capBytes_word (a : ArtT Nat) (hb : ∀ t, (a.heap.nodes t).length * t.size < 18446744073709551616) (t : ArtTy) :
    wordAt (capBytes a) (8 * t.code) = (a.heap.nodes t).length := by
  have hself : At (capBytes a) 0 (capBytes a) := by
    have := At.self [] (capBytes a) []
    simpa using this
  have h3 : At (capBytes a) (0 + 8) (artTypes.flatMap fun t => leBytes 8 (a.heap.nodes t).length) := by
    unfold capBytes at hself ⊢
    exact hself.right' (leBytes_length 8 _)
  have hlt : (a.heap.nodes t).length < 18446744073709551616 := by
    have := hb t
    have := Nat.le_mul_of_pos_right (a.heap.nodes t).length (ty_size_pos t)
    omega
  have key : ∀ i (hi : i < artTypes.length), artTypes[i] = t → 8 * t.code = 0 + 8 + 8 * i → wordAt (capBytes a) (8 * t.code) = (a.heap.nodes t).length := by
    intro i hi e1 e2
    have := At.nth (f := fun t => leBytes 8 (a.heap.nodes t).length) (fun t => leBytes_length 8 _) h3 hi
    rw [e1] at this
    rw [e2]
    exact this.word hlt
  cases t with
  | leaf => exact key 0 (by decide) rfl rfl
  | n4 => exact key 1 (by decide) rfl rfl
  | n16 => exact key 2 (by decide) rfl rfl
  | n48 => exact key 3 (by decide) rfl rfl
  | n256 => exact key 4 (by decide) rfl rfl

theorem artBytes_eq (old : ArtRef → List UInt8) (a : ArtT Nat) :
    artBytes old a = leBytes 8 (optWord a.root) ++ (capBytes a ++ artTypes.flatMap (arrayImage old a)) := rfl

/-- The view of a tree that was written. -/
theorem artFrozenView_at {old : ArtRef → List UInt8} (ho : OldOk old) {a : ArtT Nat} {buf : List UInt8} {off maxbytes : Nat}
    (hb : ∀ t, (a.heap.nodes t).length * t.size < 18446744073709551616) (hr : ∀ r, a.root = some r → r.idx < 281474976710656) (h8 : off % 8 = 0)
    (h : At buf off (artBytes old a)) (hm : (artBytes old a).length ≤ maxbytes) :
    artFrozenView buf off maxbytes = .ok (⟨viewHeap old a, a.root⟩, (artBytes old a).length) := by
  rw [artBytes_length] at hm ⊢
  rw [artBytes_eq] at h
  have hroot : readLE buf off 8 = .ok (optWord a.root) := readLE_at h.left (by have := optWord_lt hr; omega)
  have h1 := h.right' (leBytes_length 8 _)
  have hcaps := memRead_at h1.left
  rw [capBytes_length] at hcaps
  have h2 := h1.right' (capBytes_length a)
  have hal : alignSize (off + 56) 8 = off + 56 := by unfold alignSize; omega
  have hw := capBytes_word a hb
  generalize capBytes a = caps at hcaps hw
  have hz : maxbytes - 56 - (off + 56 - (off + 56)) = maxbytes - 56 := by omega
  obtain ⟨H', g1, g2, g3, g4⟩ := artViewLoop_at ho (caps := fun t => wordAt caps (8 * t.code)) hw hb artTypes
    ⟨fun _ => [], fun t => wordAt caps (8 * t.code), fun _ => 0⟩ (off + 56)
    (maxbytes - 56) (by decide) (fun _ _ => rfl) (by rw [show off + 56 = off + 8 + 48 by omega]; exact h2) (by omega)
  have hH : H' = viewHeap old a := by
    obtain ⟨n', f', gn'⟩ := H'
    simp only at g2 g3 g4
    unfold viewHeap at g4 ⊢
    simp only at g4
    congr 1
    · funext t
      rw [g4 t, if_pos (by cases t <;> simp [artTypes])]
    · rw [g2]; funext t; exact hw t
  generalize artTypes.flatMap (arrayImage old a) = arrs at hm g1 ⊢
  unfold artFrozenView
  rw [if_neg (by omega), hroot, ok_bind, if_neg (by omega), hcaps, ok_bind]
  simp only [hal]
  rw [if_neg (by omega), hz, g1, wordOpt_optWord, hH]
  simp only
  congr 2
  omega

/-! ### The same tree -/

/-- The nodes in use are the same. -/
def Like (H H' : ArtHeap Nat) (F : ArtRef → Prop) : Prop := ∀ x, F x → ∀ s, H.get x = some s → ∃ s', H'.get x = some s' ∧ SlotLike s s'

/-- A child of a node in use is in use. -/
def ClosedF (H : ArtHeap Nat) (F : ArtRef → Prop) : Prop := ∀ x, F x → ∀ pfx n c s, H.get x = some (.inner pfx n) → n.find c = some s → F s

theorem HRep.closed {H : ArtHeap Nat} {r : ArtRef} {t : Art Nat} {F : ArtRef → Prop} (h : HRep H r t F) : ClosedF H F := by
  induction h with
  | leaf ht hg hF =>
    intro x hx pfx n c s h1
    rw [hF] at hx
    subst hx
    rw [hg] at h1; cases h1
  | @inner r pfx nr n Fs F ht hg hk hs hc he hd hr hF ih =>
    intro x hx pfx' n' c s h1 h2
    rcases (hF x).1 hx with rfl | ⟨d, hx'⟩
    · rw [hg] at h1
      cases h1
      obtain ⟨t, h3⟩ := shape_some hs h2
      exact (hF s).2 (Or.inr ⟨c, (hc c s t h2 h3).root⟩)
    · cases e : nr.find d with
      | none => exact absurd hx' (he d e x)
      | some y =>
        obtain ⟨t, h3⟩ := shape_some hs e
        exact (hF s).2 (Or.inr ⟨d, ih d y t e h3 x hx' pfx' n' c s h1 h2⟩)

theorem like_peekLeaf {H H' : ArtHeap Nat} {F : ArtRef → Prop} (hl : Like H H' F) {x : ArtRef} (hx : F x) {y : List Nat × Nat}
    (h : H.peekLeaf (H.deref x) = .ok y) : H'.peekLeaf (H'.deref x) = .ok y := by
  unfold ArtHeap.peekLeaf ArtHeap.peek ArtHeap.deref at h ⊢
  simp only [if_true] at h ⊢
  cases e : H.get x with
  | none => simp [e, oob_bind] at h
  | some s =>
    obtain ⟨s', e', hs⟩ := hl x hx s e
    simp only [e, e', ok_bind] at h ⊢
    cases s with
    | leaf k v =>
      have hs : s' = .leaf k v := hs
      rw [hs]; exact h
    | inner _ _ => simp at h
    | free _ => simp at h

theorem like_peekInner {H H' : ArtHeap Nat} {F : ArtRef → Prop} (hl : Like H H' F) {x : ArtRef} (hx : F x) {pfx : List Nat} {n : Node ArtRef}
    (h : H.peekInner (H.deref x) = .ok (pfx, n)) :
    H.get x = some (.inner pfx n) ∧ ∃ n', H'.peekInner (H'.deref x) = .ok (pfx, n') ∧ (∀ c, n'.find c = n.find c) ∧ n'.bytes = n.bytes := by
  unfold ArtHeap.peekInner ArtHeap.peek ArtHeap.deref at h ⊢
  simp only [if_true] at h ⊢
  cases e : H.get x with
  | none => simp [e, oob_bind] at h
  | some s =>
    obtain ⟨s', e', hs⟩ := hl x hx s e
    simp only [e, e', ok_bind] at h ⊢
    cases s with
    | leaf k v => simp at h
    | free _ => simp at h
    | inner pfx2 n2 =>
      obtain ⟨n', rfl, g1, g2, g3⟩ := hs
      simp only at h ⊢
      split at h
      · rename_i ht
        cases h
        refine ⟨rfl, n', ?_, g2, g3⟩
        rw [g1, if_pos ht]
      · cases h

theorem like_findLeaf {H H' : ArtHeap Nat} {F : ArtRef → Prop} (hl : Like H H' F) {x : ArtRef} (hx : F x) {key : List Nat} {depth : Nat} {o : Option ArtPtr}
    (h : H.findAtLeaf x key depth = .ok o) : H'.findAtLeaf x key depth = .ok (o.map fun p => H'.deref p.ref) ∧ ∀ p, o = some p → F p.ref := by
  unfold ArtHeap.findAtLeaf at h ⊢
  obtain ⟨y, h1, h2⟩ := out_bind h
  rw [like_peekLeaf hl hx h1, ok_bind]
  split at h2
  · cases h2; rename_i hd; rw [if_pos hd]; exact ⟨rfl, fun p e => by cases e; exact hx⟩
  · rename_i hd
    rw [if_neg hd]
    split at h2
    · cases h2; rename_i hd; rw [if_pos hd]; exact ⟨rfl, fun p e => by cases e; exact hx⟩
    · cases h2; rename_i hd; rw [if_neg hd]; exact ⟨rfl, fun p e => by cases e⟩

theorem like_findAt {H H' : ArtHeap Nat} {F : ArtRef → Prop} (hl : Like H H' F) (hc : ClosedF H F) {key : List Nat} : ∀ (fuel : Nat) {x : ArtRef} {depth : Nat}
    {o : Option ArtPtr}, F x → H.findAt key fuel x depth = .ok o →
    H'.findAt key fuel x depth = .ok (o.map fun p => H'.deref p.ref) ∧ ∀ p, o = some p → F p.ref
  | 0, x, depth, o, hx, h => by
    unfold ArtHeap.findAt at h ⊢
    split at h
    · rename_i ht; rw [if_pos ht]; exact like_findLeaf hl hx h
    · cases h
  | fuel + 1, x, depth, o, hx, h => by
    unfold ArtHeap.findAt at h ⊢
    split at h
    · rename_i ht; rw [if_pos ht]; exact like_findLeaf hl hx h
    · rename_i ht
      rw [if_neg ht]
      obtain ⟨⟨pfx, n⟩, h1, h2⟩ := out_bind h
      obtain ⟨hg, n', g1, g2, g3⟩ := like_peekInner hl hx h1
      rw [g1, ok_bind]
      simp only at h2 ⊢
      split at h2
      · cases h2; rename_i hp; rw [if_pos hp]; exact ⟨rfl, fun p e => by cases e⟩
      · rename_i hp
        rw [if_neg hp, g2]
        cases e : n.find (key.getD (depth + pfx.length) 0) with
        | none => rw [e] at h2; cases h2; exact ⟨rfl, fun p e => by cases e⟩
        | some s =>
          rw [e] at h2
          exact like_findAt hl hc fuel (hc x hx pfx n _ s hg e) h2

theorem like_leavesAt {H H' : ArtHeap Nat} {F : ArtRef → Prop} (hl : Like H H' F) (hc : ClosedF H F) : ∀ (fuel : Nat) {x : ArtRef} {l : List ArtRef},
    F x → H.leavesAt fuel x = .ok l → H'.leavesAt fuel x = .ok l
  | 0, x, l, hx, h => by
    unfold ArtHeap.leavesAt at h ⊢
    split at h
    · rename_i ht; rw [if_pos ht]; exact h
    · cases h
  | fuel + 1, x, l, hx, h => by
    unfold ArtHeap.leavesAt at h ⊢
    split at h
    · rename_i ht; rw [if_pos ht]; exact h
    · rename_i ht
      rw [if_neg ht]
      obtain ⟨⟨pfx, n⟩, h1, h2⟩ := out_bind h
      obtain ⟨hg, n', g1, g2, g3⟩ := like_peekInner hl hx h1
      rw [g1, ok_bind]
      simp only at h2 ⊢
      rw [g3, show n'.find = n.find from funext g2]
      have hF : ∀ s ∈ n.bytes.filterMap n.find, F s := by
        intro s hs
        obtain ⟨c, -, e⟩ := List.mem_filterMap.1 hs
        exact hc x hx pfx n c s hg e
      clear h h1 g1 g2 g3 hg
      generalize n.bytes.filterMap n.find = ss at h2 hF ⊢
      generalize ([] : List ArtRef) = acc at h2 ⊢
      induction ss generalizing acc with
      | nil => exact h2
      | cons s ss ih =>
        rw [List.foldlM_cons] at h2 ⊢
        obtain ⟨acc', k1, k2⟩ := out_bind h2
        obtain ⟨l', k3, k4⟩ := out_bind k1
        cases k4
        rw [like_leavesAt hl hc fuel (hF s (List.mem_cons_self ..)) k3, ok_bind, ok_bind]
        exact ih (fun s hs => hF s (List.mem_cons_of_mem _ hs)) _ k2

/-- A tree whose nodes in use are the same. -/
theorem like_leaves {a b : ArtT Nat} {F : ArtRef → Prop} (hl : Like a.heap b.heap F) (hc : ClosedF a.heap F) (hr : b.root = a.root)
    (hF : ∀ r, a.root = some r → F r) {l : List ArtRef} (h : a.leaves = .ok l) : b.leaves = .ok l := by
  unfold ArtT.leaves at h ⊢
  rw [hr]
  cases e : a.root with
  | none => rw [e] at h; exact h
  | some r => rw [e] at h; exact like_leavesAt hl hc _ (hF r e) h

theorem like_find {a b : ArtT Nat} {F : ArtRef → Prop} (hl : Like a.heap b.heap F) (hc : ClosedF a.heap F) (hr : b.root = a.root)
    (hF : ∀ r, a.root = some r → F r) {key : List Nat} {o : Option ArtPtr} (h : a.find key = .ok o) :
    b.find key = .ok (o.map fun p => b.heap.deref p.ref) ∧ ∀ p, o = some p → F p.ref := by
  unfold ArtT.find at h ⊢
  rw [hr]
  cases e : a.root with
  | none => rw [e] at h; cases h; exact ⟨rfl, fun p e => by cases e⟩
  | some r => rw [e] at h; exact like_findAt hl hc _ (hF r e) h

theorem like_load {a b : ArtT Nat} {F : ArtRef → Prop} (hl : Like a.heap b.heap F) {x : ArtRef} (hx : F x) {v : Nat} (h : a.load (a.heap.deref x) = .ok v) :
    b.load (b.heap.deref x) = .ok v := by
  unfold ArtT.load at h ⊢
  obtain ⟨y, h1, h2⟩ := out_bind h
  rw [like_peekLeaf hl hx h1]
  exact h2

/-! ### A tree whose values fit -/

theorem AMapF.closed {a : ArtT Nat} {L F : ArtRef → Prop} {m : List Nat → Option Nat} (h : AMapF a L F m) : ClosedF a.heap F ∧ (∀ r, a.root = some r → F r) ∧
    ∀ x, F x → x.idx < (a.heap.nodes x.ty).length := by
  obtain ⟨root, h1, h2, h3⟩ := h
  cases root with
  | none => exact ⟨fun x hx => absurd hx (h1.2.2 x), fun r e => (by rw [h1.1] at e; cases e), fun x hx => absurd hx (h1.2.2 x)⟩
  | some t =>
    obtain ⟨r, g1, g2, g3, g4⟩ := h1
    exact ⟨g2.closed, fun r' e => (by rw [g1] at e; cases e; exact g2.root), fun x hx => g3.used x (Or.inl hx)⟩

theorem HRep.fits {H : ArtHeap Nat} {r : ArtRef} {t : Art Nat} {F : ArtRef → Prop} (h : HRep H r t F) {path : List Nat} (hi : Inv path t)
    (hidx : ∀ x, F x → x.idx < 281474976710656) (hv : ∀ x k v, F x → H.get x = some (.leaf k v) → v < 18446744073709551616) :
    ∀ x, F x → ∃ s, H.get x = some s ∧ SlotFits s ∧ SlotTy x.ty s := by
  induction h generalizing path with
  | @leaf r k v F ht hg hF =>
    intro x hx
    have hx' := hx
    rw [hF] at hx'
    subst hx'
    cases hi with
    | leaf hk hp => exact ⟨_, hg, ⟨hk, hv _ k v hx hg⟩, ht⟩
  | @inner r pfx nr n Fs F ht hg hk hs hc he hd hr hF ih =>
    intro x hx
    cases hi with
    | @inner _ _ _ hok hll hb hcs =>
      rcases (hF x).1 hx with rfl | ⟨c, hx'⟩
      · refine ⟨_, hg, ⟨by omega, hb, hk, fun c s e => ?_⟩, ht.symm⟩
        obtain ⟨t, h3⟩ := shape_some hs e
        exact hidx s ((hF s).2 (Or.inr ⟨c, (hc c s t e h3).root⟩))
      · cases e : nr.find c with
        | none => exact absurd hx' (he c e x)
        | some y =>
          obtain ⟨t, h3⟩ := shape_some hs e
          exact ih c y t e h3 (hcs c t h3) (fun z hz => hidx z ((hF z).2 (Or.inr ⟨c, hz⟩))) (fun z k v hz => hv z k v ((hF z).2 (Or.inr ⟨c, hz⟩))) x hx'

/-- A view has the same nodes. -/
theorem like_view {old : ArtRef → List UInt8} (ho : OldOk old) {a : ArtT Nat} {L F : ArtRef → Prop} {m : List Nat → Option Nat} (h : AMapF a L F m)
    (hidx : ∀ t, (a.heap.nodes t).length ≤ 281474976710656) (hv : ∀ x k v, F x → a.heap.get x = some (.leaf k v) → v < 18446744073709551616) :
    Like a.heap (viewHeap old a) F := by
  have hcl := h.closed.2.2
  obtain ⟨root, h1, h2, h3⟩ := h
  cases root with
  | none => exact fun x hx => absurd hx (h1.2.2 x)
  | some t =>
    obtain ⟨r, g1, g2, g3, g4⟩ := h1
    intro x hx s hs
    obtain ⟨s2, e1, e2, e3⟩ := g2.fits (h2 t rfl) (fun x hx => by have := hcl x hx; have := hidx x.ty; omega) hv x hx
    rw [hs] at e1
    cases e1
    have hi := hcl x hx
    refine ⟨slotOf x.ty (s.image (old x)), ?_, slotOf_image (ho x) e3 e2⟩
    unfold ArtHeap.get viewHeap
    simp only
    unfold ArtHeap.get at hs
    rw [List.getElem?_map, List.getElem?_range hi]
    simp only [Option.map_some]
    rw [List.getD_eq_getElem?_getD, hs]
    rfl

end CRoaring
