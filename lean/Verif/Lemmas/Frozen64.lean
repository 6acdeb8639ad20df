import Verif.Model.Frozen64
import Verif.Lemmas.Store64d
import Verif.Lemmas.Frozen
/-
The bytes of a node, read back.
-/
set_option linter.unusedSimpArgs false
set_option linter.unusedVariables false
namespace CRoaring
open Spec

theorem at_iff {b : List UInt8} {o : Nat} {x : List UInt8} : At b o x ↔ o + x.length ≤ b.length ∧ ∀ i, i < x.length → b[o + i]? = x[i]? := by
  constructor
  · intro h
    refine ⟨h.le, fun i hi => ?_⟩
    obtain ⟨a, c, rfl, rfl⟩ := h
    rw [List.getElem?_append_right (by omega), List.getElem?_append_left (by omega)]
    congr 1; omega
  · rintro ⟨h1, h2⟩
    refine ⟨b.take o, b.drop (o + x.length), ?_, by simp; omega⟩
    refine List.ext_getElem? (fun j => ?_)
    by_cases hj : j < o
    · rw [List.getElem?_append_left (by simp; omega), List.getElem?_take_of_lt hj]
    · rw [List.getElem?_append_right (by simp; omega)]
      have e : (b.take o).length = o := by simp; omega
      rw [e]
      by_cases hj2 : j < o + x.length
      · rw [List.getElem?_append_left (by omega), ← h2 (j - o) (by omega)]
        congr 1; omega
      · rw [List.getElem?_append_right (by omega), List.getElem?_drop]
        congr 1; omega

theorem At.drop_take {b : List UInt8} {o : Nat} {x : List UInt8} (h : At b o x) : (b.drop o).take x.length = x := by
  obtain ⟨a, c, rfl, rfl⟩ := h
  simp

theorem At.word {b : List UInt8} {o n : Nat} (h : At b o (leBytes 8 n)) (hn : n < 18446744073709551616) : wordAt b o = n := by
  have e := h.drop_take
  rw [leBytes_length] at e
  unfold wordAt
  rw [e, leVal_leBytes 8 (by omega)]

theorem At.byte {b : List UInt8} {o n : Nat} (h : At b o [UInt8.ofNat n]) (hn : n < 256) : byteAt b o = n := by
  have e := (at_iff.1 h).2 0 (by simp)
  unfold byteAt
  rw [List.getD_eq_getElem?_getD, show b[o]? = some (UInt8.ofNat n) by simpa using e]
  simp; omega

theorem storeAt_length (off : Nat) (bs old : List UInt8) : (storeAt off bs old).length = old.length := by
  unfold storeAt
  split
  · simp; omega
  · rfl

theorem storeAt_get {off : Nat} {bs old : List UInt8} (h : off + bs.length ≤ old.length) (j : Nat) :
    (storeAt off bs old)[j]? = if off ≤ j ∧ j < off + bs.length then bs[j - off]? else old[j]? := by
  unfold storeAt
  rw [if_pos h, List.append_assoc]
  by_cases h1 : j < off
  · rw [List.getElem?_append_left (by simp; omega), List.getElem?_take_of_lt h1, if_neg (by omega)]
  · have e : (old.take off).length = off := by simp; omega
    rw [List.getElem?_append_right (by omega), e]
    by_cases h2 : j < off + bs.length
    · rw [List.getElem?_append_left (by omega), if_pos ⟨by omega, h2⟩]
    · rw [List.getElem?_append_right (by omega), List.getElem?_drop, if_neg (by omega)]
      congr 1; omega

theorem storeAt_at {off : Nat} {bs old : List UInt8} (h : off + bs.length ≤ old.length) : At (storeAt off bs old) off bs := by
  rw [at_iff, storeAt_length]
  refine ⟨h, fun i hi => ?_⟩
  rw [storeAt_get h, if_pos ⟨by omega, by omega⟩]
  congr 1; omega

theorem storeAt_keep {off o : Nat} {bs old x : List UInt8} (h : At old o x) (hd : o + x.length ≤ off ∨ off + bs.length ≤ o) : At (storeAt off bs old) o x := by
  by_cases hg : off + bs.length ≤ old.length
  · rw [at_iff] at h ⊢
    rw [storeAt_length]
    refine ⟨h.1, fun i hi => ?_⟩
    rw [storeAt_get hg, if_neg (by omega)]
    exact h.2 i hi
  · unfold storeAt; rw [if_neg hg]; exact h

theorem byteList_length (l : List Nat) : (byteList l).length = l.length := by simp [byteList]

theorem toNat_byteList {l : List Nat} (h : ∀ b ∈ l, b < 256) : (byteList l).map UInt8.toNat = l := by
  unfold byteList
  rw [List.map_map]
  conv => rhs; rw [← List.map_id l]
  refine List.map_congr_left (fun b hb => ?_)
  have := h b hb
  simp; omega

/-- An entry of a sequence of entries of the same length. -/
theorem At.nth {α : Type} {buf : List UInt8} {o k : Nat} {f : α → List UInt8} (hf : ∀ a, (f a).length = k) {l : List α} (h : At buf o (l.flatMap f)) {i : Nat}
    (hi : i < l.length) : At buf (o + k * i) (f l[i]) := by
  have e : l = l.take i ++ l[i] :: l.drop (i + 1) := by
    rw [List.getElem_cons_drop, List.take_append_drop]
  rw [e] at h
  have := At.entry hf h
  rwa [List.length_take, Nat.min_eq_left (by omega)] at this

/-- A byte of a sequence of bytes. -/
theorem At.bytes {buf : List UInt8} {o : Nat} {l : List Nat} (h : At buf o (byteList l)) (hl : ∀ b ∈ l, b < 256) {i : Nat} (hi : i < l.length) :
    byteAt buf (o + i) = l[i] := by
  have hi' : i < (byteList l).length := by rw [byteList_length]; exact hi
  have e := (at_iff.1 h).2 i hi'
  unfold byteAt
  have := hl l[i] (List.getElem_mem _)
  rw [List.getD_eq_getElem?_getD, e]
  simp [byteList, hi]; omega

theorem refWord_lt {r : ArtRef} (h : r.idx < 281474976710656) : refWord r < 18446744073709551616 := by
  unfold refWord
  cases r.ty <;> simp only [ArtTy.code] <;> omega

theorem wordRef_refWord {r : ArtRef} : wordRef (refWord r) = r := by
  obtain ⟨t, i⟩ := r
  unfold wordRef refWord
  cases t <;> simp only [ArtTy.code]
  · rw [show (i * 65536 + 1) % 256 = 1 by omega, show (i * 65536 + 1) / 65536 = i by omega]
    try rfl
  · rw [show (i * 65536 + 2) % 256 = 2 by omega, show (i * 65536 + 2) / 65536 = i by omega]
    try rfl
  · rw [show (i * 65536 + 3) % 256 = 3 by omega, show (i * 65536 + 3) / 65536 = i by omega]
    try rfl
  · rw [show (i * 65536 + 4) % 256 = 4 by omega, show (i * 65536 + 4) / 65536 = i by omega]
    try rfl
  · rw [show (i * 65536 + 5) % 256 = 5 by omega, show (i * 65536 + 5) / 65536 = i by omega]
    try rfl

theorem wordOpt_optWord (o : Option ArtRef) : wordOpt (optWord o) = o := by
  cases o with
  | none => rfl
  | some r =>
    unfold wordOpt
    rw [if_neg, optWord, wordRef_refWord]
    show ¬ refWord r = 0
    unfold refWord
    cases r.ty <;> simp only [ArtTy.code] <;> omega

theorem optWord_lt {o : Option ArtRef} (h : ∀ r, o = some r → r.idx < 281474976710656) : optWord o < 18446744073709551616 := by
  cases o with
  | none => simp [optWord]
  | some r => exact refWord_lt (h r rfl)

/-- The same node, as far as it is looked at. -/
def SlotLike : ArtSlot Nat → ArtSlot Nat → Prop
  | .leaf k v, s' => s' = .leaf k v
  | .inner pfx n, s' => ∃ n', s' = .inner pfx n' ∧ n'.ty = n.ty ∧ (∀ c, n'.find c = n.find c) ∧ n'.bytes = n.bytes
  | .free _, _ => True

/-- What of a slot fits into the fields of its structure. -/
def SlotFits : ArtSlot Nat → Prop
  | .leaf k v => IsKey k ∧ v < 18446744073709551616
  | .inner pfx n => pfx.length < 6 ∧ Bytes pfx ∧ KOk n ∧ (∀ c r, n.find c = some r → r.idx < 281474976710656)
  | .free _ => True

/-- The type of the array where a slot is. -/
def SlotTy (t : ArtTy) : ArtSlot Nat → Prop
  | .leaf _ _ => t = .leaf
  | .inner _ n => t = n.ty
  | .free _ => True

theorem ArtSlot.image_length (old : List UInt8) (s : ArtSlot Nat) : (s.image old).length = old.length := by
  unfold ArtSlot.image nodeImage
  cases s with
  | leaf => simp [storeAt_length]
  | free => simp [storeAt_length]
  | inner pfx n => cases n <;> simp [storeAt_length]

theorem ksOf_at {b : List UInt8} {o : Nat} {ks : List (Nat × ArtRef)} (hk : KsOk ks) (hr : ∀ p ∈ ks, p.2.idx < 281474976710656) (hn : ks.length < 256)
    (h6 : At b 6 [UInt8.ofNat ks.length]) (h7 : At b 7 (byteList (ks.map Prod.fst))) (hc : At b o (ks.flatMap fun p => leBytes 8 (refWord p.2))) :
    ((List.range (byteAt b 6)).map fun i => (byteAt b (7 + i), wordRef (wordAt b (o + 8 * i)))) = ks := by
  rw [h6.byte hn]
  refine List.ext_getElem (by simp) (fun i h1 h2 => ?_)
  simp only [List.getElem_map, List.getElem_range]
  have hb : ∀ x ∈ ks.map Prod.fst, x < 256 := by
    intro x hx
    obtain ⟨p, hp, rfl⟩ := List.mem_map.1 hx
    exact hk.byte p hp
  rw [h7.bytes hb (by simpa using h2)]
  have := (At.nth (fun a => leBytes_length 8 _) hc h2).word (refWord_lt (hr _ (List.getElem_mem _)))
  rw [this, wordRef_refWord]
  simp

theorem findKs_mem {ks : List (Nat × ArtRef)} (hk : KsOk ks) {p : Nat × ArtRef} (hp : p ∈ ks) : findKs ks p.1 = some p.2 := by
  rw [findKs_eq_some hk]; exact hp

/-- The fields of an inner node read back. -/
theorem nodeOf_image {old : List UInt8} {n : Node ArtRef} (hl : old.length = n.ty.size) (hk : KOk n) (hr : ∀ c r, n.find c = some r → r.idx < 281474976710656) :
    (nodeOf (nodeImage old n) n.ty).ty = n.ty ∧ (∀ c, (nodeOf (nodeImage old n) n.ty).find c = n.find c) ∧
      (nodeOf (nodeImage old n) n.ty).bytes = n.bytes := by
  match n, hl, hk, hr with
  | .n4 ks, hl, hk, hr =>
    have hl : old.length = 48 := hl
    have k3 := hk.2.2
    have hfl : (ks.flatMap fun p => leBytes 8 (refWord p.2)).length = ks.length * 8 := flatMap_length_const (fun a => leBytes_length 8 _) ks
    have hbl : (byteList (ks.map Prod.fst)).length = ks.length := by rw [byteList_length]; simp
    have e : nodeOf (nodeImage old (.n4 ks)) .n4 = .n4 ks := by
      simp only [nodeOf]
      rw [ksOf_at hk.1 (fun p hp => hr p.1 p.2 (findKs_mem hk.1 hp)) (by omega)]
      · exact storeAt_keep (storeAt_keep (storeAt_at (by simp; omega)) (by simp)) (by simp)
      · exact storeAt_keep (storeAt_at (by rw [hbl, storeAt_length]; omega)) (by rw [hbl]; omega)
      · exact storeAt_at (by rw [hfl, storeAt_length, storeAt_length]; omega)
    show (nodeOf (nodeImage old (.n4 ks)) .n4).ty = _ ∧ _
    rw [show Node.ty (.n4 ks) = .n4 from rfl, e]
    exact ⟨rfl, fun _ => rfl, rfl⟩
  | .n16 ks, hl, hk, hr =>
    have hl : old.length = 152 := hl
    have k3 := hk.2.2
    have hfl : (ks.flatMap fun p => leBytes 8 (refWord p.2)).length = ks.length * 8 := flatMap_length_const (fun a => leBytes_length 8 _) ks
    have hbl : (byteList (ks.map Prod.fst)).length = ks.length := by rw [byteList_length]; simp
    have e : nodeOf (nodeImage old (.n16 ks)) .n16 = .n16 ks := by
      simp only [nodeOf]
      rw [ksOf_at hk.1 (fun p hp => hr p.1 p.2 (findKs_mem hk.1 hp)) (by omega)]
      · exact storeAt_keep (storeAt_keep (storeAt_at (by simp; omega)) (by simp)) (by simp)
      · exact storeAt_keep (storeAt_at (by rw [hbl, storeAt_length]; omega)) (by rw [hbl]; omega)
      · exact storeAt_at (by rw [hfl, storeAt_length, storeAt_length]; omega)
    rw [show Node.ty (.n16 ks) = .n16 from rfl, e]
    exact ⟨rfl, fun _ => rfl, rfl⟩
  | .n48 n, hl, hk, hr =>
    have hl : old.length = 656 := hl
    have kk := hk.1
    have hbl : (byteList n.keys).length = 256 := by rw [byteList_length]; exact kk.kl
    have hb : ∀ x ∈ n.keys, x < 256 := by
      intro x hx
      obtain ⟨i, hi, rfl⟩ := List.getElem_of_mem hx
      have := kk.kb i
      unfold N48.K at this
      rw [List.getD_eq_getElem?_getD, List.getElem?_eq_getElem hi] at this
      simp at this; omega
    let f : Nat → List UInt8 := fun i =>
        match n.children.getD i none with
        | some r => leBytes 8 (refWord r)
        | none => leBytes 8 (leVal ((old.drop (272 + 8 * i)).take 8))
    have hf : ∀ i, (f i).length = 8 := by
      intro i; show (match n.children.getD i none with | some r => _ | none => _ : List UInt8).length = 8
      split <;> exact leBytes_length 8 _
    have hfl : ((List.range 48).flatMap f).length = 384 := by rw [flatMap_length_const hf]; simp
    let b := nodeImage old (.n48 n)
    have hb16 : At b 16 (byteList n.keys) := storeAt_keep (storeAt_at (by rw [hbl]; simp only [storeAt_length]; omega)) (by rw [hbl]; omega)
    have hb272 : At b 272 ((List.range 48).flatMap f) := storeAt_at (show 272 + ((List.range 48).flatMap f).length ≤ _ by rw [hfl]; simp only [storeAt_length]; omega)
    have hkeys : ((List.range 256).map fun i => byteAt b (16 + i)) = n.keys := by
      refine List.ext_getElem (by simp [kk.kl]) (fun i h1 h2 => ?_)
      simp only [List.getElem_map, List.getElem_range]
      exact hb16.bytes hb h2
    refine ⟨rfl, fun c => ?_, rfl⟩
    show N48.find ⟨_, _, (List.range 256).map fun i => byteAt b (16 + i), (List.range 48).map fun i => wordOpt (wordAt b (272 + 8 * i))⟩ c = n.find c
    rw [hkeys]
    unfold N48.find
    by_cases hc : n.keys.getD c NODE48_EMPTY ≠ NODE48_EMPTY
    · rw [if_pos hc, if_pos hc]
      simp only
      have h48 : n.keys.getD c NODE48_EMPTY < 48 := by
        have h1 : n.keys.getD c NODE48_EMPTY ≤ 48 := kk.kb c
        have h2 : NODE48_EMPTY = 48 := rfl
        omega
      obtain ⟨r, hr1⟩ := Option.isSome_iff_exists.1 (kk.ch c hc)
      have hr1 : n.children.getD (n.keys.getD c NODE48_EMPTY) none = some r := hr1
      have hfind : (Node.n48 n).find c = some r := by
        show N48.find n c = some r
        unfold N48.find
        rw [if_pos hc, hr1]
      have := At.nth hf hb272 (i := n.keys.getD c NODE48_EMPTY) (by simpa using h48)
      rw [List.getElem_range] at this
      have e : f (n.keys.getD c NODE48_EMPTY) = leBytes 8 (refWord r) := by
        show (match n.children.getD (n.keys.getD c NODE48_EMPTY) none with | some r => _ | none => _ : List UInt8) = _
        rw [hr1]
      rw [e] at this
      have hw := this.word (refWord_lt (hr c r hfind))
      rw [hr1, List.getD_eq_getElem?_getD, List.getElem?_map, List.getElem?_range h48]
      show wordOpt (wordAt b _) = some r
      rw [hw]
      exact wordOpt_optWord (some r)
    · rw [if_neg hc, if_neg hc]
  | .n256 n, hl, hk, hr =>
    have hl : old.length = 2056 := hl
    have kk := hk.1
    have hfl : (n.children.flatMap fun o => leBytes 8 (optWord o)).length = 2048 := by rw [flatMap_length_const (fun a => leBytes_length 8 _), kk.cl]
    let b := nodeImage old (.n256 n)
    have hb8 : At b 8 (n.children.flatMap fun o => leBytes 8 (optWord o)) := storeAt_at (by rw [hfl]; simp only [storeAt_length]; omega)
    have hch : ((List.range 256).map fun i => wordOpt (wordAt b (8 + 8 * i))) = n.children := by
      refine List.ext_getElem (by simp [kk.cl]) (fun i h1 h2 => ?_)
      simp only [List.getElem_map, List.getElem_range]
      have hlt : optWord n.children[i] < 18446744073709551616 := optWord_lt (fun r e => hr i r (by
        show n.children.getD i none = some r
        rw [List.getD_eq_getElem?_getD, List.getElem?_eq_getElem h2, e]; rfl))
      rw [(At.nth (fun a => leBytes_length 8 _) hb8 h2).word hlt, wordOpt_optWord]
    refine ⟨rfl, fun c => ?_, rfl⟩
    show N256.find ⟨_, (List.range 256).map fun i => wordOpt (wordAt b (8 + 8 * i))⟩ c = n.find c
    rw [hch]; rfl

/-- A place read back. -/
theorem slotOf_image {t : ArtTy} {old : List UInt8} {s : ArtSlot Nat} (hl : old.length = t.size) (ht : SlotTy t s) (hs : SlotFits s) :
    SlotLike s (slotOf t (s.image old)) := by
  cases s with
  | free => trivial
  | leaf k v =>
    have ht : t = .leaf := ht
    subst ht
    obtain ⟨hk, hv⟩ := hs
    have hl : old.length = 16 := hl
    have kl := hk.len
    have hbl : (byteList k).length = 6 := by rw [byteList_length]; exact kl
    have h0 : At (ArtSlot.image old (.leaf k v)) 0 (byteList k) := storeAt_keep (storeAt_at (by rw [hbl]; omega)) (by rw [hbl]; omega)
    have h8 : At (ArtSlot.image old (.leaf k v)) 8 (leBytes 8 v) := storeAt_at (by rw [leBytes_length, storeAt_length]; omega)
    show slotOf .leaf _ = _
    unfold slotOf
    simp only
    rw [h8.word hv]
    have := h0.drop_take
    rw [hbl, List.drop_zero] at this
    rw [this, toNat_byteList hk.byte]
  | inner pfx n =>
    have ht : t = n.ty := ht
    subst ht
    obtain ⟨h1, h2, h3, h4⟩ := hs
    have hsz : 8 ≤ old.length := by rw [hl]; cases n <;> simp [Node.ty, ArtTy.size]
    have hbl : (byteList pfx).length = pfx.length := byteList_length _
    let old' := storeAt 1 (byteList pfx) (storeAt 0 [UInt8.ofNat pfx.length] old)
    have hl' : old'.length = n.ty.size := by simp only [old', storeAt_length]; exact hl
    have a0 : At old' 0 [UInt8.ofNat pfx.length] := storeAt_keep (storeAt_at (by simp; omega)) (by simp)
    have a1 : At old' 1 (byteList pfx) := storeAt_at (by rw [storeAt_length, hbl]; omega)
    have keep : ∀ o x, At old' o x → o + x.length ≤ 6 → At (nodeImage old' n) o x := by
      intro o x h hx
      cases n with
      | n4 ks => exact storeAt_keep (storeAt_keep (storeAt_keep h (.inl hx)) (.inl (by omega))) (.inl (by omega))
      | n16 ks => exact storeAt_keep (storeAt_keep (storeAt_keep h (.inl hx)) (.inl (by omega))) (.inl (by omega))
      | n48 n => exact storeAt_keep (storeAt_keep (storeAt_keep (storeAt_keep h (.inl hx)) (.inl (by omega))) (.inl (by omega))) (.inl (by omega))
      | n256 n => exact storeAt_keep (storeAt_keep h (.inl hx)) (.inl (by omega))
    have b0 := (keep 0 _ a0 (by simp)).byte (by omega)
    have b1 := (keep 1 _ a1 (by rw [hbl]; omega)).drop_take
    obtain ⟨c1, c2, c3⟩ := nodeOf_image hl' h3 h4
    refine ⟨nodeOf (nodeImage old' n) n.ty, ?_, c1, c2, c3⟩
    have e : slotOf n.ty (ArtSlot.image old (.inner pfx n)) =
        .inner ((((nodeImage old' n).drop 1).take (byteAt (nodeImage old' n) 0)).map UInt8.toNat) (nodeOf (nodeImage old' n) n.ty) := by
      cases n <;> rfl
    rw [e, b0]
    rw [hbl] at b1
    rw [b1, toNat_byteList h2]

end CRoaring
