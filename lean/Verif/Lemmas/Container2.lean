import Verif.Lemmas.Container

/-! Specifications of the binary container operations. -/

set_option linter.unusedSimpArgs false
set_option linter.unusedVariables false

namespace CRoaring
open Spec

/-! ### Intersection -/

theorem arrayIntersection_rep {l1 l2 : List Nat} {s t : NSet} (h1 : Rep (.array l1) s) (h2 : Rep (.array l2) t) :
    Rep (.array (arrayIntersection l1 l2)) (inter s t) := by
  rw [arrayIntersection_eq (rep_arr_iff h1).1 (rep_arr_iff h2).1]
  exact rep_filter h1 (mem_dec (rep_arr_iff h2).2.1)

theorem arrayBitsetIntersection_rep {l : List Nat} {b : Bitset} {s t : NSet} (h1 : Rep (.array l) s)
    (h2 : Rep (.bitset b) t) : Rep (.array (arrayBitsetIntersection l b)) (inter s t) :=
  rep_filter h1 fun x => by rw [bitsetGet_eq]; exact h2.has x

theorem arrayRunIntersection_rep {l : List Nat} {rs : List Rle} {s t : NSet} (h1 : Rep (.array l) s)
    (h2 : Rep (.run rs) t) : Rep (.array (arrayRunIntersection l rs)) (inter s t) := by
  rw [arrayRunIntersection_eq (rep_arr_iff h1).1 (rep_run_iff h2).1]
  exact rep_filter h1 (rep_run_iff h2).2

theorem containerAnd_spec {c1 c2 : Container} {s t : NSet} (h1 : Rep c1 s) (h2 : Rep c2 t) :
    Rep (containerAnd c1 c2) (inter s t) := by
  cases c1 with
  | bitset b1 =>
    cases c2 with
    | bitset b2 => simp only [containerAnd]; exact bitsetBitsetIntersection_spec h1 h2
    | array l2 => exact (arrayBitsetIntersection_rep h2 h1).comm_inter
    | run r2 => exact (runBitsetIntersection_spec h2 h1).comm_inter
  | array l1 =>
    cases c2 with
    | bitset b2 => exact arrayBitsetIntersection_rep h1 h2
    | array l2 => exact arrayIntersection_rep h1 h2
    | run r2 => exact arrayRunIntersection_rep h1 h2
  | run r1 =>
    cases c2 with
    | bitset b2 => exact runBitsetIntersection_spec h1 h2
    | array l2 => exact (arrayRunIntersection_rep h2 h1).comm_inter
    | run r2 =>
      have a1 := rep_run_iff h1; have a2 := rep_run_iff h2
      have a3 := runIntersection_spec a1.1 a2.1
      exact convertRunToEfficient_spec a3.1 fun x => by rw [a3.2, a1.2, a2.2]; rfl

theorem containerIand_eq (c1 c2 : Container) : containerIand c1 c2 = containerAnd c1 c2 := by
  cases c1 <;> cases c2 <;> rfl

theorem containerIand_spec {c1 c2 : Container} {s t : NSet} (h1 : Rep c1 s) (h2 : Rep c2 t) :
    Rep (containerIand c1 c2) (inter s t) := by
  rw [containerIand_eq]; exact containerAnd_spec h1 h2

theorem card_inter_comm (s t : NSet) : card 65536 (inter t s) = card 65536 (inter s t) :=
  card_congr fun x _ => inter_comm' s t x

theorem arrayBitsetIntersectionCard_rep {l : List Nat} {b : Bitset} {s t : NSet} (h1 : Rep (.array l) s)
    (h2 : Rep (.bitset b) t) : arrayBitsetIntersectionCard l b = card 65536 (inter s t) := by
  unfold arrayBitsetIntersectionCard
  rw [foldl_count, Nat.zero_add]
  exact h1.card_filter fun x => by rw [bitsetGet_eq]; exact h2.has x

theorem arrayRunIntersectionCard_rep {l : List Nat} {rs : List Rle} {s t : NSet} (h1 : Rep (.array l) s)
    (h2 : Rep (.run rs) t) : arrayRunIntersectionCard l rs = card 65536 (inter s t) := by
  rw [arrayRunIntersectionCard_eq (rep_arr_iff h1).1 (rep_run_iff h2).1]
  exact h1.card_filter (rep_run_iff h2).2

theorem containerAndCard_eq {c1 c2 : Container} {s t : NSet} (h1 : Rep c1 s) (h2 : Rep c2 t) :
    containerAndCard c1 c2 = card 65536 (inter s t) := by
  cases c1 with
  | bitset b1 =>
    cases c2 with
    | bitset b2 =>
      have a1 := rep_bit_iff h1; have a2 := rep_bit_iff h2
      simp only [containerAndCard]
      rw [bitsetOpJustcard_eq, (bitsetOp_ok wAnd a1.1.len a2.1.len).card]
      exact card_int_congr fun x _ => by
        show bitAt (List.zipWith wAnd b1.words b2.words) x = _
        rw [bitAt_wAnd (by rw [a1.1.len, a2.1.len]), a1.2.2.1, a2.2.2.1]; rfl
    | array l2 =>
      simp only [containerAndCard]
      rw [arrayBitsetIntersectionCard_rep h2 h1, card_inter_comm]
    | run r2 =>
      simp only [containerAndCard]
      rw [runBitsetIntersectionCard_eq h2 h1, card_inter_comm]
  | array l1 =>
    cases c2 with
    | bitset b2 => simp only [containerAndCard]; rw [arrayBitsetIntersectionCard_rep h1 h2]
    | array l2 =>
      simp only [containerAndCard]
      rw [arrayIntersectionCard_eq (rep_arr_iff h1).1 (rep_arr_iff h2).1,
        h1.card_filter (mem_dec (rep_arr_iff h2).2.1)]
    | run r2 => simp only [containerAndCard]; rw [arrayRunIntersectionCard_rep h1 h2]
  | run r1 =>
    cases c2 with
    | bitset b2 => simp only [containerAndCard]; rw [runBitsetIntersectionCard_eq h1 h2]
    | array l2 =>
      simp only [containerAndCard]
      rw [arrayRunIntersectionCard_rep h2 h1, card_inter_comm]
    | run r2 =>
      have a1 := rep_run_iff h1; have a2 := rep_run_iff h2
      simp only [containerAndCard]
      rw [runIntersectionCard_eq a1.1 a2.1]
      exact card_int_congr fun x _ => by simp only [inter, a1.2, a2.2]

theorem arrayBitsetIntersect_rep {l : List Nat} {b : Bitset} {s t : NSet} (h1 : Rep (.array l) s)
    (h2 : Rep (.bitset b) t) : arrayBitsetIntersect l b = true ↔ ∃ x, s x = true ∧ t x = true := by
  unfold arrayBitsetIntersect
  rw [any_filter]
  exact h1.filter_nonempty fun x => by rw [bitsetGet_eq]; exact h2.has x

theorem arrayRunIntersect_rep {l : List Nat} {rs : List Rle} {s t : NSet} (h1 : Rep (.array l) s)
    (h2 : Rep (.run rs) t) : arrayRunIntersect l rs = true ↔ ∃ x, s x = true ∧ t x = true := by
  rw [arrayRunIntersect_eq (rep_arr_iff h1).1 (rep_run_iff h2).1]
  exact h1.filter_nonempty (rep_run_iff h2).2

theorem ex_comm {s t : NSet} : (∃ x, t x = true ∧ s x = true) ↔ ∃ x, s x = true ∧ t x = true :=
  ⟨fun ⟨x, a, b⟩ => ⟨x, b, a⟩, fun ⟨x, a, b⟩ => ⟨x, b, a⟩⟩

theorem containerIntersect_iff {c1 c2 : Container} {s t : NSet} (h1 : Rep c1 s) (h2 : Rep c2 t) :
    containerIntersect c1 c2 = true ↔ ∃ x, s x = true ∧ t x = true := by
  cases c1 with
  | bitset b1 =>
    cases c2 with
    | bitset b2 =>
      have a1 := rep_bit_iff h1; have a2 := rep_bit_iff h2
      simp only [containerIntersect]
      rw [bitsetIntersect_iff a1.1.len a2.1.len]
      simp only [a1.2.2.1, a2.2.2.1]
    | array l2 => simp only [containerIntersect]; rw [arrayBitsetIntersect_rep h2 h1, ex_comm]
    | run r2 => simp only [containerIntersect]; rw [runBitsetIntersect_iff h2 h1, ex_comm]
  | array l1 =>
    cases c2 with
    | bitset b2 => exact arrayBitsetIntersect_rep h1 h2
    | array l2 =>
      simp only [containerIntersect]
      rw [arrayIntersect_eq (rep_arr_iff h1).1 (rep_arr_iff h2).1, any_filter]
      exact h1.filter_nonempty (mem_dec (rep_arr_iff h2).2.1)
    | run r2 => exact arrayRunIntersect_rep h1 h2
  | run r1 =>
    cases c2 with
    | bitset b2 => exact runBitsetIntersect_iff h1 h2
    | array l2 => simp only [containerIntersect]; rw [arrayRunIntersect_rep h2 h1, ex_comm]
    | run r2 =>
      have a1 := rep_run_iff h1; have a2 := rep_run_iff h2
      simp only [containerIntersect]
      rw [runIntersect_iff a1.1 a2.1]
      simp only [a1.2, a2.2]

/-! ### Union -/

theorem rep_run_full {s : NSet} (h : ∀ x, s x = decide (x < 65536)) : Rep (.run [(0, 65535)]) s :=
  rep_run (runOK_cons.2 ⟨by decide, by simp, RunOK.nil⟩) fun x => by rw [runHas_full, h]

theorem runCreateRange_full : runCreateRange 0 65536 = [(0, 65535)] := by decide

theorem union_full {rs : List Rle} {s t : NSet} (h1 : Rep (.run rs) s) (ht : ∀ x, t x = true → x < 65536)
    (hf : runIsFull rs = true) : Rep (.run rs) (union s t) := by
  refine h1.congr fun x => ?_
  have hs := rep_run_iff h1
  have := runIsFull_iff.1 hf
  subst this
  simp only [union]
  rw [← hs.2, runHas_full]
  by_cases hx : x < 65536
  · simp [hx]
  · have : t x = false := by
      cases hh : t x
      · rfl
      · exact absurd (ht x hh) hx
    simp [this]

theorem LRep.lt {c : Container} {s : NSet} (h : LRep c s) {x : Nat} (hx : s x = true) : x < 65536 := by
  cases c with
  | bitset b => exact bitAt_lt h.inv.1 (by rw [show bitAt b.words x = s x from h.has x]; exact hx)
  | array l => exact (lrep_arr h).lt hx
  | run rs => exact (lrep_run h).lt hx

theorem bitsetOr_lrep {b1 b2 : Bitset} {s t : NSet} (h1 : LRep (.bitset b1) s) (h2 : LRep (.bitset b2) t) :
    BitOK (bitsetOp wOr b1 b2) ∧ ∀ x, bitAt (bitsetOp wOr b1 b2).words x = union s t x := by
  refine ⟨bitsetOp_ok wOr h1.inv.1 h2.inv.1, fun x => ?_⟩
  show bitAt (List.zipWith wOr b1.words b2.words) x = _
  rw [bitAt_wOr (by rw [h1.inv.1, h2.inv.1]), show bitAt b1.words x = s x from h1.has x,
    show bitAt b2.words x = t x from h2.has x]; rfl

theorem bitsetOr_rep {b1 b2 : Bitset} {s t : NSet} (h1 : Rep (.bitset b1) s) (h2 : Rep (.bitset b2) t) :
    Rep (.bitset (bitsetOp wOr b1 b2)) (union s t) := by
  have ⟨e1, e2⟩ := bitsetOr_lrep h1.lrep h2.lrep
  have a1 := rep_bit_iff h1
  refine ⟨⟨e1, ?_⟩, e2⟩
  rw [e1.card]
  have : ((card 65536 (bitAt (bitsetOp wOr b1 b2).words) : Nat) : Int) = card 65536 (union s t) :=
    card_int_congr fun x _ => e2 x
  rw [this]
  have := card_le_of_subset (s := s) (t := union s t) fun x hx => by simp [union, hx]
  omega

theorem arrayRunUnion_rep {l : List Nat} {rs : List Rle} {s t : NSet} (h1 : Rep (.array l) s)
    (h2 : Rep (.run rs) t) : Rep (.run (arrayRunUnion l rs)) (union s t) := by
  have a1 := rep_arr_iff h1; have a2 := rep_run_iff h2
  have a3 := arrayRunUnion_spec a1.1 a2.1
  exact rep_run a3.1 fun x => by rw [a3.2, mem_dec a1.2.1, a2.2]; rfl

theorem runUnion_rep {r1 r2 : List Rle} {s t : NSet} (h1 : Rep (.run r1) s)
    (h2 : Rep (.run r2) t) : Rep (.run (runUnion r1 r2)) (union s t) := by
  have a1 := rep_run_iff h1; have a2 := rep_run_iff h2
  have a3 := runUnion_spec a1.1 a2.1
  exact rep_run a3.1 fun x => by rw [a3.2, a1.2, a2.2]; rfl

theorem rep_efficient {rs : List Rle} {s : NSet} (h : Rep (.run rs) s) : Rep (convertRunToEfficient rs) s :=
  convertRunToEfficient_spec (rep_run_iff h).1 (rep_run_iff h).2

theorem runBitsetOr_rep {rs : List Rle} {b : Bitset} {s t : NSet} (h1 : Rep (.run rs) s) (h2 : Rep (.bitset b) t) :
    Rep (if runIsFull rs then .run rs else .bitset (runBitsetUnion rs b)) (union s t) := by
  split
  · rename_i h; exact union_full h1 (fun x hx => h2.lt hx) h
  · exact runBitsetUnion_spec h1 h2

theorem runBitsetLazyOr_rep {rs : List Rle} {b : Bitset} {s t : NSet} (h1 : LRep (.run rs) s) (h2 : LRep (.bitset b) t) :
    LRep (if runIsFull rs then .run rs else .bitset (runBitsetLazyUnion rs b)) (union s t) := by
  split
  · rename_i h; exact (union_full (lrep_run h1) (fun x hx => h2.lt hx) h).lrep
  · exact runBitsetLazyUnion_spec h1 h2

theorem containerOr_spec {c1 c2 : Container} {s t : NSet} (h1 : Rep c1 s) (h2 : Rep c2 t) :
    Rep (containerOr c1 c2) (union s t) := by
  cases c1 with
  | bitset b1 =>
    cases c2 with
    | bitset b2 => exact bitsetOr_rep h1 h2
    | array l2 => exact (arrayBitsetUnion_spec h2 h1).comm_union
    | run r2 => exact (runBitsetOr_rep h2 h1).comm_union
  | array l1 =>
    cases c2 with
    | bitset b2 => exact arrayBitsetUnion_spec h1 h2
    | array l2 => exact arrayArrayUnion_spec h1 h2
    | run r2 => exact rep_efficient (arrayRunUnion_rep h1 h2)
  | run r1 =>
    cases c2 with
    | bitset b2 => exact runBitsetOr_rep h1 h2
    | array l2 => exact (rep_efficient (arrayRunUnion_rep h2 h1)).comm_union
    | run r2 => exact rep_efficient (runUnion_rep h1 h2)

theorem full_or_bitset {b : Bitset} {s : NSet} (h1 : BitOK b) (h2 : ∀ x, bitAt b.words x = s x) (hc : b.card = 65536) :
    Rep (.run (runCreateRange 0 65536)) s := by
  rw [runCreateRange_full]
  have hc2 : card 65536 s = 65536 := by
    have : ((card 65536 (bitAt b.words) : Nat) : Int) = card 65536 s := card_int_congr fun x _ => h2 x
    rw [← h1.card, hc] at this
    omega
  rw [card_eq_n] at hc2
  refine rep_run_full fun x => ?_
  by_cases hx : x < 65536
  · rw [hc2 x hx]; simp [hx]
  · rw [← h2]
    cases hh : bitAt b.words x
    · simp [hx]
    · exact absurd (bitAt_lt h1.len hh) hx

theorem containerIor_spec (capacity : Nat) {c1 c2 : Container} {s t : NSet} (h1 : Rep c1 s) (h2 : Rep c2 t) :
    Rep (containerIor capacity c1 c2) (union s t) := by
  cases c1 with
  | bitset b1 =>
    cases c2 with
    | bitset b2 =>
      have ⟨e1, e2⟩ := bitsetOr_lrep h1.lrep h2.lrep
      simp only [containerIor]
      split
      · rename_i hc; exact full_or_bitset e1 e2 hc
      · exact bitsetOr_rep h1 h2
    | array l2 => exact (arrayBitsetUnion_spec h2 h1).comm_union
    | run r2 => exact (runBitsetOr_rep h2 h1).comm_union
  | array l1 =>
    cases c2 with
    | bitset b2 => exact arrayBitsetUnion_spec h1 h2
    | array l2 => exact arrayArrayInplaceUnion_spec capacity h1 h2
    | run r2 => exact rep_efficient (arrayRunUnion_rep h1 h2)
  | run r1 =>
    cases c2 with
    | bitset b2 => exact runBitsetOr_rep h1 h2
    | array l2 => exact (rep_efficient (arrayRunUnion_rep h2 h1)).comm_union
    | run r2 => exact rep_efficient (runUnion_rep h1 h2)

theorem containerLazyOr_spec {c1 c2 : Container} {s t : NSet} (h1 : LRep c1 s) (h2 : LRep c2 t) :
    LRep (containerLazyOr c1 c2) (union s t) := by
  cases c1 with
  | bitset b1 =>
    cases c2 with
    | bitset b2 =>
      have ⟨e1, e2⟩ := bitsetOr_lrep h1 h2
      exact lrep_bitset e1.len e2
    | array l2 => exact (arrayBitsetLazyUnion_spec h2 h1).comm_union
    | run r2 => exact (runBitsetLazyOr_rep h2 h1).comm_union
  | array l1 =>
    cases c2 with
    | bitset b2 => exact arrayBitsetLazyUnion_spec h1 h2
    | array l2 => exact arrayArrayLazyUnion_spec h1 h2
    | run r2 => exact (arrayRunUnion_rep (lrep_arr h1) (lrep_run h2)).lrep
  | run r1 =>
    cases c2 with
    | bitset b2 => exact runBitsetLazyOr_rep h1 h2
    | array l2 => exact (arrayRunUnion_rep (lrep_arr h2) (lrep_run h1)).lrep.comm_union
    | run r2 => exact (rep_efficient (runUnion_rep (lrep_run h1) (lrep_run h2))).lrep

theorem lrep_bitOK {b : Bitset} {s : NSet} (h : BitOK b) (hs : ∀ x, bitAt b.words x = s x) : LRep (.bitset b) s :=
  ⟨⟨h.len, Or.inr h.card⟩, hs⟩

theorem containerLazyIor_spec (capacity : Nat) {c1 c2 : Container} {s t : NSet} (h1 : LRep c1 s) (h2 : LRep c2 t) :
    LRep (containerLazyIor capacity c1 c2) (union s t) := by
  cases c1 with
  | bitset b1 =>
    cases c2 with
    | bitset b2 =>
      have ⟨e1, e2⟩ := bitsetOr_lrep h1 h2
      simp only [containerLazyIor]
      split
      · rename_i hc; exact (full_or_bitset e1 e2 hc).lrep
      · exact lrep_bitOK e1 e2
    | array l2 => exact (arrayBitsetLazyUnion_spec h2 h1).comm_union
    | run r2 => exact (runBitsetLazyOr_rep h2 h1).comm_union
  | array l1 =>
    cases c2 with
    | bitset b2 => exact arrayBitsetLazyUnion_spec h1 h2
    | array l2 => exact arrayArrayLazyInplaceUnion_spec capacity h1 h2
    | run r2 => exact (arrayRunUnion_rep (lrep_arr h1) (lrep_run h2)).lrep
  | run r1 =>
    cases c2 with
    | bitset b2 => exact runBitsetLazyOr_rep h1 h2
    | array l2 => exact (arrayRunUnion_rep (lrep_arr h2) (lrep_run h1)).lrep.comm_union
    | run r2 => exact (rep_efficient (runUnion_rep (lrep_run h1) (lrep_run h2))).lrep

theorem containerRepair_spec {c : Container} {s : NSet} (h : LRep c s) : Rep (containerRepair c) s := by
  cases c with
  | bitset b =>
    have hs : ∀ x, bitAt b.words x = s x := h.has
    simp only [containerRepair]
    refine rep_shrink h.inv.1 hs ?_
    rw [computeCard_eq]
    exact card_int_congr fun x _ => hs x
  | array l => exact lrep_arr h
  | run rs => exact rep_efficient (lrep_run h)

/-! ### Symmetric difference -/

theorem containerXor_spec {c1 c2 : Container} {s t : NSet} (h1 : Rep c1 s) (h2 : Rep c2 t) :
    Rep (containerXor c1 c2) (symm s t) := by
  cases c1 with
  | bitset b1 =>
    cases c2 with
    | bitset b2 => exact bitsetBitsetXor_spec h1 h2
    | array l2 => exact (arrayBitsetXor_spec h2 h1).comm_symm
    | run r2 => exact (runBitsetXor_spec h2 h1).comm_symm
  | array l1 =>
    cases c2 with
    | bitset b2 => exact arrayBitsetXor_spec h1 h2
    | array l2 => exact arrayArrayXor_spec h1 h2
    | run r2 => exact arrayRunXor_spec h1 h2
  | run r1 =>
    cases c2 with
    | bitset b2 => exact runBitsetXor_spec h1 h2
    | array l2 => exact (arrayRunXor_spec h2 h1).comm_symm
    | run r2 => exact runRunXor_spec h1 h2

theorem containerIxor_eq (c1 c2 : Container) : containerIxor c1 c2 = containerXor c1 c2 := by
  cases c1 <;> cases c2 <;> rfl

theorem containerIxor_spec {c1 c2 : Container} {s t : NSet} (h1 : Rep c1 s) (h2 : Rep c2 t) :
    Rep (containerIxor c1 c2) (symm s t) := by
  rw [containerIxor_eq]; exact containerXor_spec h1 h2

theorem bitsetXor_lrep {b1 b2 : Bitset} {s t : NSet} (h1 : LRep (.bitset b1) s) (h2 : LRep (.bitset b2) t) :
    LRep (.bitset (bitsetOpNocard wXor b1 b2)) (symm s t) := by
  refine lrep_bitset (by rw [List.length_zipWith, h1.inv.1, h2.inv.1]; rfl) fun x => ?_
  rw [bitAt_wXor (by rw [h1.inv.1, h2.inv.1]), show bitAt b1.words x = s x from h1.has x,
    show bitAt b2.words x = t x from h2.has x]; rfl

theorem containerLazyXor_spec {c1 c2 : Container} {s t : NSet} (h1 : LRep c1 s) (h2 : LRep c2 t) :
    LRep (containerLazyXor c1 c2) (symm s t) := by
  cases c1 with
  | bitset b1 =>
    cases c2 with
    | bitset b2 => exact bitsetXor_lrep h1 h2
    | array l2 => exact (arrayBitsetLazyXor_spec h2 h1).comm_symm
    | run r2 => exact (runBitsetLazyXor_spec h2 h1).comm_symm
  | array l1 =>
    cases c2 with
    | bitset b2 => exact arrayBitsetLazyXor_spec h1 h2
    | array l2 => exact arrayArrayLazyXor_spec h1 h2
    | run r2 => exact (arrayRunLazyXor_spec (lrep_arr h1) (lrep_run h2)).lrep
  | run r1 =>
    cases c2 with
    | bitset b2 => exact runBitsetLazyXor_spec h1 h2
    | array l2 => exact (arrayRunLazyXor_spec (lrep_arr h2) (lrep_run h1)).lrep.comm_symm
    | run r2 => exact (runRunXor_spec (lrep_run h1) (lrep_run h2)).lrep

theorem lazyIxor_bit {b : Bitset} {s : NSet} (h : LRep (.bitset b) s) :
    BitOK (if b.card = UNKNOWN_CARD then ⟨computeCard b.words, b.words⟩ else b) ∧
      ∀ x, bitAt (if b.card = UNKNOWN_CARD then (⟨computeCard b.words, b.words⟩ : Bitset) else b).words x = s x := by
  split
  · exact ⟨BitOK.mk' h.inv.1, h.has⟩
  · rename_i hc
    exact ⟨⟨h.inv.1, h.inv.2.resolve_left hc⟩, h.has⟩

/-- The second operand of `container_lazy_ixor` must have a correct cardinality. -/
theorem containerLazyIxor_spec {c1 c2 : Container} {s t : NSet} (h1 : LRep c1 s) (h2 : Rep c2 t) :
    LRep (containerLazyIxor c1 c2) (symm s t) := by
  cases c1 with
  | bitset b1 =>
    have ⟨e1, e2⟩ := lazyIxor_bit h1
    cases c2 with
    | bitset b2 => exact bitsetXor_lrep h1 h2.lrep
    | array l2 => exact (arrayBitsetXor_ok h2 e1 e2).comm_symm.lrep
    | run r2 =>
      have a1 := rep_run_iff h2
      simp only [containerLazyIxor, containerIxor]
      generalize (if b1.card = UNKNOWN_CARD then (⟨computeCard b1.words, b1.words⟩ : Bitset) else b1) = b at *
      have ⟨f1, f2⟩ := flipRuns_spec b.words r2 e1.len a1.1
      refine Rep.lrep (bitsetOrArray_compute f1 fun x => ?_)
      rw [f2, a1.2, e2]
      exact symm_comm' s t x
  | array l1 =>
    have h := containerIxor_spec (lrep_arr h1) h2
    cases c2 <;> exact h.lrep
  | run r1 =>
    have h := containerIxor_spec (lrep_run h1) h2
    cases c2 <;> exact h.lrep

/-! ### Difference -/

theorem diff_full {rs : List Rle} {s t : NSet} (hs : ∀ x, s x = true → x < 65536) (h2 : Rep (.run rs) t)
    (hf : runIsFull rs = true) : Rep (.array []) (diff s t) := by
  refine rep_array ArrOK.nil (fun x => ?_) (Nat.zero_le _)
  have ht := rep_run_iff h2
  have := runIsFull_iff.1 hf
  subst this
  simp only [diff, List.not_mem_nil, false_iff, Bool.and_eq_true, not_and, Bool.not_eq_true', Bool.not_eq_false]
  intro hx
  rw [← ht.2, runHas_full]
  simpa using hs x hx

theorem containerIandnot_spec {c1 c2 : Container} {s t : NSet} (h1 : Rep c1 s) (h2 : Rep c2 t) :
    Rep (containerIandnot c1 c2) (diff s t) := by
  cases c1 with
  | bitset b1 =>
    cases c2 with
    | bitset b2 => simp only [containerIandnot]; exact bitsetBitsetAndnot_spec h1 h2
    | array l2 => exact bitsetArrayAndnot_spec h1 h2
    | run r2 => exact bitsetRunAndnot_spec h1 h2
  | array l1 =>
    cases c2 with
    | bitset b2 => exact arrayBitsetAndnot_spec h1 h2
    | array l2 => exact arrayAndnot_rep h1 h2
    | run r2 => exact arrayRunAndnot_spec h1 h2
  | run r1 =>
    cases c2 with
    | bitset b2 => exact runBitsetAndnot_spec h1 h2
    | array l2 => exact runArrayAndnot_spec h1 h2
    | run r2 => exact runRunAndnot_spec h1 h2

theorem containerAndnot_spec {c1 c2 : Container} {s t : NSet} (h1 : Rep c1 s) (h2 : Rep c2 t) :
    Rep (containerAndnot c1 c2) (diff s t) := by
  have h3 := containerIandnot_spec h1 h2
  cases c2 with
  | run r2 =>
    cases c1 <;> simp only [containerAndnot] <;> simp only [containerIandnot] at h3 <;> by_cases hf : runIsFull r2 = true
    all_goals first
      | (rw [if_pos hf]; exact diff_full (fun x hx => h1.lt hx) h2 hf)
      | (rw [if_neg hf]; exact h3)
  | bitset b2 => cases c1 <;> simp only [containerAndnot] <;> simp only [containerIandnot] at h3 <;> exact h3
  | array l2 => cases c1 <;> simp only [containerAndnot] <;> simp only [containerIandnot] at h3 <;> exact h3

end CRoaring
