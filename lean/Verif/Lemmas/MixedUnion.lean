import Verif.Model.MixedUnion
import Verif.Lemmas.Convert3
set_option linter.unusedSimpArgs false
set_option linter.unusedVariables false

namespace CRoaring
open Spec

/-- A container in the middle of a lazy computation: like `CInv`, but a bitset's cached cardinality
may be unknown, or known and small. -/
def LInv : Container → Prop
  | .bitset b => b.words.length = 1024 ∧ (b.card = UNKNOWN_CARD ∨ b.card = card 65536 (bitAt b.words))
  | .array l => ArrOK l ∧ l.length ≤ 4096
  | .run rs => RunOK rs

structure LRep (c : Container) (s : NSet) : Prop where
  inv : LInv c
  has : ∀ x, chas c x = s x

theorem CInv.linv {c : Container} (h : CInv c) : LInv c := by
  cases c with
  | bitset b => exact ⟨h.1.len, Or.inr h.1.card⟩
  | array l => exact h
  | run rs => exact h

theorem Rep.lrep {c : Container} {s : NSet} (h : Rep c s) : LRep c s := ⟨h.inv.linv, h.has⟩

theorem LRep.congr {c : Container} {s t : NSet} (h : LRep c s) (e : ∀ x, s x = t x) : LRep c t :=
  ⟨h.inv, fun x => (h.has x).trans (e x)⟩

theorem rep_bit_iff {b : Bitset} {s : NSet} (h : Rep (.bitset b) s) :
    BitOK b ∧ 4096 < b.card ∧ (∀ x, bitAt b.words x = s x) ∧ b.card = card 65536 s :=
  ⟨h.inv.1, h.inv.2, h.has, h.inv.1.card.trans (card_int_congr fun x _ => h.has x)⟩

theorem rep_run_iff {rs : List Rle} {s : NSet} (h : Rep (.run rs) s) : RunOK rs ∧ ∀ x, runHas rs x = s x :=
  ⟨h.inv, h.has⟩

theorem lrep_bitset {ws : List Word} {s : NSet} (hl : ws.length = 1024) (hs : ∀ x, bitAt ws x = s x) :
    LRep (.bitset ⟨UNKNOWN_CARD, ws⟩) s := ⟨⟨hl, Or.inl rfl⟩, hs⟩

theorem arr_lt64 {l : List Nat} (h : ArrOK l) {ws : List Word} (hw : ws.length = 1024) :
    ∀ p ∈ l, p < 64 * ws.length := by
  intro p hp
  have := h.lt p hp
  omega

theorem run_lt64 {rs : List Rle} (h : RunOK rs) {ws : List Word} (hw : ws.length = 1024) :
    ∀ r ∈ rs, r.1 + r.2 < 64 * ws.length := by
  intro p hp
  have := h.lt p hp
  omega

theorem mem_dec {l : List Nat} {s : NSet} (h : ∀ x, x ∈ l ↔ s x = true) (x : Nat) : decide (x ∈ l) = s x := by
  rw [Bool.eq_iff_iff, decide_eq_true_eq]; exact h x

/-- setting a list of bits with the cardinality tracked -/
theorem setListWithcard_spec {ws : List Word} {c : Int} {l : List Nat} (hw : ws.length = 1024) (h : ArrOK l)
    (hc : c = card 65536 (bitAt ws)) :
    (bitsetSetListWithcard ws c l).1.length = 1024 ∧
    (∀ x, bitAt (bitsetSetListWithcard ws c l).1 x = (decide (x ∈ l) || bitAt ws x)) ∧
    (bitsetSetListWithcard ws c l).2 = card 65536 (bitAt (bitsetSetListWithcard ws c l).1) := by
  have h1 : (bitsetSetList ws l).length = 1024 := by rw [bitsetSetList_length, hw]
  refine ⟨by rw [setListWithcard_fst, h1], fun x => ?_, ?_⟩
  · rw [setListWithcard_fst, bitAt_setList _ _ _ (arr_lt64 h hw)]
  · rw [setListWithcard_snd _ _ _ (arr_lt64 h hw), setListWithcard_fst, popAll_1024 hw, popAll_1024 h1, hc]
    omega

theorem flipListWithcard_spec {ws : List Word} {c : Int} {l : List Nat} (hw : ws.length = 1024) (h : ArrOK l)
    (hc : c = card 65536 (bitAt ws)) :
    (bitsetFlipListWithcard ws c l).1.length = 1024 ∧
    (∀ x, bitAt (bitsetFlipListWithcard ws c l).1 x = (decide (x ∈ l) != bitAt ws x)) ∧
    (bitsetFlipListWithcard ws c l).2 = card 65536 (bitAt (bitsetFlipListWithcard ws c l).1) := by
  have h1 : (bitsetFlipList ws l).length = 1024 := by rw [bitsetFlipList_length, hw]
  refine ⟨by rw [flipListWithcard_fst, h1], fun x => ?_, ?_⟩
  · rw [flipListWithcard_fst, bitAt_flipList _ _ _ h.sorted (arr_lt64 h hw)]
  · rw [flipListWithcard_snd _ _ _ (arr_lt64 h hw), flipListWithcard_fst, popAll_1024 hw, popAll_1024 h1, hc]
    omega

theorem clearList_spec {ws : List Word} {c : Int} {l : List Nat} (hw : ws.length = 1024) (h : ArrOK l)
    (hc : c = card 65536 (bitAt ws)) :
    (bitsetClearList ws c l).1.length = 1024 ∧
    (∀ x, bitAt (bitsetClearList ws c l).1 x = (!decide (x ∈ l) && bitAt ws x)) ∧
    (bitsetClearList ws c l).2 = card 65536 (bitAt (bitsetClearList ws c l).1) := by
  have h1 : (bitsetClearList ws c l).1.length = 1024 := by rw [clearList_length, hw]
  refine ⟨h1, fun x => ?_, ?_⟩
  · rw [bitAt_clearList _ _ _ _ (arr_lt64 h hw)]; simp
  · rw [clearList_snd _ _ _ (arr_lt64 h hw), popAll_1024 hw, popAll_1024 h1, hc]
    omega

theorem arrayBitsetUnion_spec {l : List Nat} {b : Bitset} {s t : NSet} (h1 : Rep (.array l) s)
    (h2 : Rep (.bitset b) t) : Rep (.bitset (arrayBitsetUnion l b)) (union s t) := by
  obtain ⟨a1, a2, a3⟩ := rep_arr_iff h1
  obtain ⟨b1, b2, b3, b4⟩ := rep_bit_iff h2
  obtain ⟨c1, c2, c3⟩ := setListWithcard_spec b1.len a1 b1.card
  have e : ∀ x, bitAt (bitsetSetListWithcard b.words b.card l).1 x = union s t x := by
    intro x; rw [c2, mem_dec a2, b3]; rfl
  refine rep_bitset c1 e (c3.trans (card_int_congr fun x _ => e x)) ?_
  rw [c3]
  have : card 65536 (bitAt b.words) ≤ card 65536 (bitAt (bitsetSetListWithcard b.words b.card l).1) := by
    apply card_mono; intro x _ hx; rw [c2, hx]; simp
  have := b1.card; omega

theorem LInv.bit {b : Bitset} (h : LInv (.bitset b)) : b.words.length = 1024 := h.1

theorem arrayBitsetLazyUnion_spec {l : List Nat} {b : Bitset} {s t : NSet} (h1 : LRep (.array l) s)
    (h2 : LRep (.bitset b) t) : LRep (.bitset (arrayBitsetLazyUnion l b)) (union s t) := by
  have hw := h2.inv.1
  refine lrep_bitset (by rw [bitsetSetList_length]; exact hw) fun x => ?_
  rw [bitAt_setList _ _ _ (arr_lt64 h1.inv.1 hw)]
  rw [show decide (x ∈ l) = s x from h1.has x, show bitAt b.words x = t x from h2.has x]; rfl

theorem runBitsetUnion_spec {rs : List Rle} {b : Bitset} {s t : NSet} (h1 : Rep (.run rs) s)
    (h2 : Rep (.bitset b) t) : Rep (.bitset (runBitsetUnion rs b)) (union s t) := by
  obtain ⟨a1, a2⟩ := rep_run_iff h1
  obtain ⟨b1, b2, b3, b4⟩ := rep_bit_iff h2
  have e : ∀ x, bitAt (setRuns b.words rs) x = union s t x := by
    intro x; rw [bitAt_setRuns _ _ _ (run_lt64 a1 b1.len), a2, b3]; rfl
  have hc : ((computeCard (setRuns b.words rs) : Nat) : Int) = card 65536 (union s t) := by
    rw [computeCard_eq]; exact card_int_congr fun x _ => e x
  refine rep_bitset (by rw [setRuns_length, b1.len]) e hc ?_
  rw [hc]
  have : card 65536 t ≤ card 65536 (union s t) := by
    apply card_mono; intro x _ hx; simp [union, hx]
  omega

theorem runBitsetLazyUnion_spec {rs : List Rle} {b : Bitset} {s t : NSet} (h1 : LRep (.run rs) s)
    (h2 : LRep (.bitset b) t) : LRep (.bitset (runBitsetLazyUnion rs b)) (union s t) := by
  have hw := h2.inv.1
  refine lrep_bitset (by rw [setRuns_length]; exact hw) fun x => ?_
  rw [bitAt_setRuns _ _ _ (run_lt64 h1.inv hw)]
  rw [show runHas rs x = s x from h1.has x, show bitAt b.words x = t x from h2.has x]; rfl

theorem arrayRunUnionLoop_spec (l : List Nat) (rs acc : List Rle) (h1 : ArrOK l) (h2 : RunOK rs)
    (h : RunOK acc.reverse) (hle : ∀ p ∈ acc.head?, (∀ q ∈ l, p.1 ≤ q) ∧ ∀ q ∈ rs, p.1 ≤ q.1) :
    RunOK (arrayRunUnionLoop l rs acc).reverse ∧
    ∀ y, runHas (arrayRunUnionLoop l rs acc) y = (runHas acc y || decide (y ∈ l) || runHas rs y) := by
  fun_induction arrayRunUnionLoop l rs acc with
  | case1 acc => exact ⟨h, fun y => by simp [runHas]⟩
  | case2 r rs acc ih =>
    obtain ⟨hr, hrs, hok⟩ := runOK_cons.1 h2
    obtain ⟨e1, e2, e3⟩ := runAppend_spec h hr (fun p hp => (hle p hp).2 r (by simp))
    have := ih h1 hok e1 (fun p hp => ⟨by simp, fun q hq => by have := e3 p hp; have := hrs q hq; omega⟩)
    refine ⟨this.1, fun y => ?_⟩
    rw [this.2, e2, runHas_cons]
    cases runHas acc y <;> simp
  | case3 v l acc ih =>
    have hv := h1.lt v (by simp)
    obtain ⟨e1, e2, e3⟩ := runAppendValue_spec h hv (fun p hp => (hle p hp).1 v (by simp))
    have hs := List.pairwise_cons.1 h1.sorted
    have := ih h1.tail h2 e1 (fun p hp => ⟨fun q hq => by have := e3 p hp; have := hs.1 q hq; omega, by simp⟩)
    refine ⟨this.1, fun y => ?_⟩
    rw [this.2, e2]
    simp only [List.mem_cons]
    cases runHas acc y <;> simp
  | case4 v l r rs acc hc ih =>
    obtain ⟨hr, hrs, hok⟩ := runOK_cons.1 h2
    obtain ⟨e1, e2, e3⟩ := runAppend_spec h hr (fun p hp => (hle p hp).2 r (by simp))
    have hs := List.pairwise_cons.1 h1.sorted
    have := ih h1 hok e1 (fun p hp => ⟨fun q hq => ?_, fun q hq => by have := e3 p hp; have := hrs q hq; omega⟩)
    · refine ⟨this.1, fun y => ?_⟩
      rw [this.2, e2, runHas_cons]
      ac_rfl
    · have := e3 p hp
      rcases List.mem_cons.1 hq with rfl | hq
      · omega
      · have := hs.1 q hq; omega
  | case5 v l r rs acc hc ih =>
    have hv := h1.lt v (by simp)
    obtain ⟨e1, e2, e3⟩ := runAppendValue_spec h hv (fun p hp => (hle p hp).1 v (by simp))
    have hs := List.pairwise_cons.1 h1.sorted
    obtain ⟨hr, hrs, hok⟩ := runOK_cons.1 h2
    have := ih h1.tail h2 e1 (fun p hp => ⟨fun q hq => by have := e3 p hp; have := hs.1 q hq; omega, fun q hq => ?_⟩)
    · refine ⟨this.1, fun y => ?_⟩
      rw [this.2, e2]
      simp only [List.mem_cons]
      cases runHas acc y <;> simp
    · have := e3 p hp
      rcases List.mem_cons.1 hq with rfl | hq
      · omega
      · have := hrs q hq; omega

theorem arrayRunUnion_spec {l : List Nat} {rs : List Rle} (h1 : ArrOK l) (h2 : RunOK rs) :
    RunOK (arrayRunUnion l rs) ∧ ∀ y, runHas (arrayRunUnion l rs) y = (decide (y ∈ l) || runHas rs y) := by
  unfold arrayRunUnion
  split
  · rename_i hf
    rw [runIsFull_iff] at hf
    refine ⟨h2, fun y => ?_⟩
    rw [hf, runHas_full, Bool.eq_iff_iff]
    simp only [Bool.or_eq_true, decide_eq_true_eq]
    exact ⟨fun h => Or.inr h, fun h => h.elim (fun h => h1.lt y h) id⟩
  · obtain ⟨e1, e2⟩ := arrayRunUnionLoop_spec l rs [] h1 h2 runOKr_nil (by simp)
    refine ⟨e1, fun y => ?_⟩
    rw [runHas_reverse, e2]; simp [runHas]

/-- The bitset branch shared by the array/array unions. -/
theorem arrays_to_bitset {l1 l2 : List Nat} {s t : NSet} (h1 : Rep (.array l1) s) (h2 : Rep (.array l2) t) :
    Rep (let r := bitsetSetListWithcard (bitsetSetList zeros l1) l1.length l2
      if r.2 ≤ (4096 : Nat) then .array (arrayFromBitset ⟨r.2, r.1⟩) else .bitset ⟨r.2, r.1⟩) (union s t) := by
  obtain ⟨a1, a2, a3⟩ := rep_arr_iff h1
  obtain ⟨b1, b2, b3⟩ := rep_arr_iff h2
  have hw : (bitsetSetList zeros l1).length = 1024 := by rw [bitsetSetList_length, zeros_length]
  have hb : ∀ x, bitAt (bitsetSetList zeros l1) x = decide (x ∈ l1) := by
    intro x; rw [bitAt_setList _ _ _ (arr_lt64 a1 zeros_length), bitAt_zeros, Bool.or_false]
  have hc : ((l1.length : Nat) : Int) = card 65536 (bitAt (bitsetSetList zeros l1)) := by
    rw [← h1.card_array]
    exact card_int_congr fun x _ => by rw [hb, mem_dec a2]
  obtain ⟨c1, c2, c3⟩ := setListWithcard_spec hw b1 hc
  have e : ∀ x, bitAt (bitsetSetListWithcard (bitsetSetList zeros l1) l1.length l2).1 x = union s t x := by
    intro x; rw [c2, mem_dec b2, hb, mem_dec a2]; simp [union, Bool.or_comm]
  exact rep_shrink c1 e (c3.trans (card_int_congr fun x _ => e x))

theorem rep_union_array {l1 l2 l : List Nat} {s t : NSet} (h1 : Rep (.array l1) s) (h2 : Rep (.array l2) t)
    (h : ArrOK l) (hm : ∀ x, x ∈ l ↔ x ∈ l1 ∨ x ∈ l2) (hl : l1.length + l2.length ≤ 4096) :
    Rep (.array l) (union s t) := by
  obtain ⟨a1, a2, a3⟩ := rep_arr_iff h1
  obtain ⟨b1, b2, b3⟩ := rep_arr_iff h2
  refine rep_array' h (fun x => by rw [hm, a2, b2]; simp [union]) ?_
  have := card_incl_excl 65536 s t
  rw [h1.card_array, h2.card_array] at this
  omega

theorem unionU16_ok {l1 l2 : List Nat} (h1 : ArrOK l1) (h2 : ArrOK l2) : ArrOK (unionU16 l1 l2) :=
  ⟨unionU16_sorted h1.sorted h2.sorted, fun x hx => by
    rw [mem_unionU16] at hx
    exact hx.elim (h1.lt x) (h2.lt x)⟩

theorem arrayArrayUnion_spec {l1 l2 : List Nat} {s t : NSet} (h1 : Rep (.array l1) s) (h2 : Rep (.array l2) t) :
    Rep (arrayArrayUnion l1 l2) (union s t) := by
  unfold arrayArrayUnion DEFAULT_MAX_SIZE
  split
  · obtain ⟨e1, e2⟩ := arrayUnion_spec (rep_arr_iff h1).1 (rep_arr_iff h2).1
    exact rep_union_array h1 h2 e1 e2 ‹_›
  · exact arrays_to_bitset h1 h2

theorem arrayArrayInplaceUnion_spec (cap : Nat) {l1 l2 : List Nat} {s t : NSet} (h1 : Rep (.array l1) s)
    (h2 : Rep (.array l2) t) : Rep (arrayArrayInplaceUnion cap l1 l2) (union s t) := by
  unfold arrayArrayInplaceUnion DEFAULT_MAX_SIZE
  split
  · split
    · obtain ⟨e1, e2⟩ := arrayUnion_spec (rep_arr_iff h1).1 (rep_arr_iff h2).1
      exact rep_union_array h1 h2 e1 e2 ‹_›
    · exact rep_union_array h1 h2 (unionU16_ok (rep_arr_iff h1).1 (rep_arr_iff h2).1) (mem_unionU16 _ _) ‹_›
  · exact arrays_to_bitset h1 h2

theorem lrep_arr {l : List Nat} {s : NSet} (h : LRep (.array l) s) : Rep (.array l) s := ⟨h.inv, h.has⟩
theorem lrep_run {rs : List Rle} {s : NSet} (h : LRep (.run rs) s) : Rep (.run rs) s := ⟨h.inv, h.has⟩

theorem arrays_lazy_bitset {l1 l2 : List Nat} {s t : NSet} (h1 : Rep (.array l1) s) (h2 : Rep (.array l2) t) :
    LRep (.bitset ⟨UNKNOWN_CARD, bitsetSetList (bitsetSetList zeros l1) l2⟩) (union s t) := by
  obtain ⟨a1, a2, a3⟩ := rep_arr_iff h1
  obtain ⟨b1, b2, b3⟩ := rep_arr_iff h2
  have hw : (bitsetSetList zeros l1).length = 1024 := by rw [bitsetSetList_length, zeros_length]
  refine lrep_bitset (by rw [bitsetSetList_length, hw]) fun x => ?_
  rw [bitAt_setList _ _ _ (arr_lt64 b1 hw), bitAt_setList _ _ _ (arr_lt64 a1 zeros_length), bitAt_zeros,
    mem_dec a2, mem_dec b2]
  simp [union, Bool.or_comm]

theorem arrayArrayLazyUnion_spec {l1 l2 : List Nat} {s t : NSet} (h1 : LRep (.array l1) s)
    (h2 : LRep (.array l2) t) : LRep (arrayArrayLazyUnion l1 l2) (union s t) := by
  have h1 := lrep_arr h1
  have h2 := lrep_arr h2
  unfold arrayArrayLazyUnion ARRAY_LAZY_LOWERBOUND
  split
  · obtain ⟨e1, e2⟩ := arrayUnion_spec (rep_arr_iff h1).1 (rep_arr_iff h2).1
    exact (rep_union_array h1 h2 e1 e2 (by omega)).lrep
  · exact arrays_lazy_bitset h1 h2

theorem arrayArrayLazyInplaceUnion_spec (cap : Nat) {l1 l2 : List Nat} {s t : NSet} (h1 : LRep (.array l1) s)
    (h2 : LRep (.array l2) t) : LRep (arrayArrayLazyInplaceUnion cap l1 l2) (union s t) := by
  have h1 := lrep_arr h1
  have h2 := lrep_arr h2
  unfold arrayArrayLazyInplaceUnion ARRAY_LAZY_LOWERBOUND
  split
  · obtain ⟨e1, e2⟩ := arrayUnion_spec (rep_arr_iff h1).1 (rep_arr_iff h2).1
    split
    · exact (rep_union_array h1 h2 e1 e2 (by omega)).lrep
    · exact (rep_union_array h1 h2 e1 e2 (by omega)).lrep
  · exact arrays_lazy_bitset h1 h2

end CRoaring
