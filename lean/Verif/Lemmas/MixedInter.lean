import Verif.Lemmas.MixedUnion
set_option linter.unusedSimpArgs false
set_option linter.unusedVariables false

namespace CRoaring
open Spec

theorem drop_cons_rdL {l : List Nat} {p : Nat} (h : p < l.length) : l.drop p = rdL l p :: l.drop (p + 1) := by
  rw [rdL_eq h]; exact List.drop_eq_getElem_cons h

theorem drop_ge {l : List Nat} (hs : SSorted l) {p : Nat} (hp : p < l.length) {y : Nat} (hy : y ∈ l.drop p) :
    rdL l p ≤ y := by
  have h1 : SSorted (l.drop p) := hs.sublist (List.drop_sublist _ _)
  rw [drop_cons_rdL hp] at hy h1
  rcases List.mem_cons.1 hy with rfl | h
  · exact Nat.le_refl _
  · exact Nat.le_of_lt ((List.pairwise_cons.1 h1).1 y h)

theorem filter_skip {l : List Nat} (hs : SSorted l) {p x : Nat} (hp : p < l.length) (hv : rdL l p < x)
    (f : Nat → Bool) (hf : ∀ y, y < x → f y = false) :
    (l.drop (advanceUntil (rdL l) p l.length x)).filter f = (l.drop p).filter f := by
  rw [advanceUntil_list hs]
  have h1 := (rdL_lt_iff hs x hp).1 hv
  rw [show max (p + 1) (lb l x) = lb l x by omega]
  have : l.drop p = (l.drop p).take (lb l x - p) ++ l.drop (lb l x) := by
    conv => lhs; rw [← List.take_append_drop (lb l x - p) (l.drop p)]
    rw [List.drop_drop, show p + (lb l x - p) = lb l x by omega]
  rw [this, List.filter_append]
  have e : ((l.drop p).take (lb l x - p)).filter f = [] := by
    rw [List.filter_eq_nil_iff]
    intro y hy
    have : y ∈ l.take (lb l x) := by
      have h2 : (l.drop p).take (lb l x - p) = (l.take (lb l x)).drop p := by rw [List.drop_take]
      rw [h2] at hy
      exact List.mem_of_mem_drop hy
    rw [mem_take_lb hs] at this
    simp [hf y this.2]
  rw [e]; rfl

theorem arrayRunInterLoop_eq {l : List Nat} (hs : SSorted l) (p : Nat) (r : Rle) (rs : List Rle)
    (h : RunOK (r :: rs)) : arrayRunInterLoop l p r rs = (l.drop p).filter (runHas (r :: rs)) := by
  fun_induction arrayRunInterLoop l p r rs with
  | case1 p r hp v hlt =>
    symm; rw [List.filter_eq_nil_iff]
    intro y hy
    have := drop_ge hs hp hy
    simp [runHas]; omega
  | case2 p r hp v hlt r' rs' ih =>
    rw [ih (RunOK.tail h)]
    apply List.filter_congr
    intro y hy
    have := drop_ge hs hp hy
    rw [runHas_cons r, decide_eq_false (by omega), Bool.false_or]
  | case3 p r rs hp v h1 h2 ih =>
    rw [ih h]
    apply filter_skip hs hp h2
    intro y hy
    obtain ⟨a, b, c⟩ := runOK_cons.1 h
    rw [Bool.eq_false_iff]
    intro hh
    rw [runHas_cons, Bool.or_eq_true, decide_eq_true_eq] at hh
    rcases hh with hh | hh
    · omega
    · have := has_gt (v := r.1) (fun q hq => by have := b q hq; omega) hh; omega
  | case4 p r rs hp v h1 h2 ih =>
    rw [ih h, drop_cons_rdL hp, List.filter_cons, if_pos]
    rw [runHas_cons, decide_eq_true (by omega), Bool.true_or]
  | case5 p r rs hp => rw [List.drop_eq_nil_of_le (by omega)]; rfl

theorem arrayRunInterCardLoop_eq (l : List Nat) (p n : Nat) (r : Rle) (rs : List Rle) :
    arrayRunInterCardLoop l p n r rs = n + (arrayRunInterLoop l p r rs).length := by
  fun_induction arrayRunInterCardLoop l p n r rs with
  | case1 p n r hp v hlt => rw [arrayRunInterLoop.eq_def, if_pos hp]; simp only; rw [if_pos hlt]; rfl
  | case2 p n r hp v hlt r' rs' ih => rw [arrayRunInterLoop.eq_def, if_pos hp]; simp only; rw [if_pos hlt, ih]
  | case3 p n r rs hp v h1 h2 ih =>
    rw [arrayRunInterLoop.eq_def l p, if_pos hp]; simp only; rw [if_neg h1, if_pos h2, ih]
  | case4 p n r rs hp v h1 h2 ih =>
    rw [arrayRunInterLoop.eq_def l p, if_pos hp]; simp only; rw [if_neg h1, if_neg h2, ih, List.length_cons]; omega
  | case5 p n r rs hp => rw [arrayRunInterLoop.eq_def, if_neg hp]; rfl

theorem arrayRunIntersectLoop_eq (l : List Nat) (p : Nat) (r : Rle) (rs : List Rle) :
    arrayRunIntersectLoop l p r rs = !(arrayRunInterLoop l p r rs).isEmpty := by
  fun_induction arrayRunIntersectLoop l p r rs with
  | case1 p r hp v hlt => rw [arrayRunInterLoop.eq_def, if_pos hp]; simp only; rw [if_pos hlt]; rfl
  | case2 p r hp v hlt r' rs' ih => rw [arrayRunInterLoop.eq_def, if_pos hp]; simp only; rw [if_pos hlt, ih]
  | case3 p r rs hp v h1 h2 ih =>
    rw [arrayRunInterLoop.eq_def l p, if_pos hp]; simp only; rw [if_neg h1, if_pos h2, ih]
  | case4 p r rs hp v h1 h2 =>
    rw [arrayRunInterLoop.eq_def l p, if_pos hp]; simp only; rw [if_neg h1, if_neg h2]; rfl
  | case5 p r rs hp => rw [arrayRunInterLoop.eq_def, if_neg hp]; rfl

theorem filter_full {l : List Nat} (h : ArrOK l) : l.filter (runHas [(0, 65535)]) = l := by
  rw [List.filter_eq_self]
  intro x hx; rw [runHas_full]; simpa using h.lt x hx

theorem arrayRunIntersection_eq {l : List Nat} {rs : List Rle} (h1 : ArrOK l) (h2 : RunOK rs) :
    arrayRunIntersection l rs = l.filter (runHas rs) := by
  unfold arrayRunIntersection
  split
  · rename_i hf; rw [runIsFull_iff] at hf; rw [hf, filter_full h1]
  · cases rs with
    | nil => symm; rw [List.filter_eq_nil_iff]; simp
    | cons r rs => exact (arrayRunInterLoop_eq h1.sorted 0 r rs h2).trans (by simp)

theorem arrayRunIntersectionCard_eq {l : List Nat} {rs : List Rle} (h1 : ArrOK l) (h2 : RunOK rs) :
    arrayRunIntersectionCard l rs = (l.filter (runHas rs)).length := by
  rw [← arrayRunIntersection_eq h1 h2]
  unfold arrayRunIntersection arrayRunIntersectionCard
  split
  · rfl
  · cases rs with
    | nil => rfl
    | cons r rs => simp [arrayRunInterCardLoop_eq]

theorem arrayRunIntersect_eq {l : List Nat} {rs : List Rle} (h1 : ArrOK l) (h2 : RunOK rs) :
    arrayRunIntersect l rs = !(l.filter (runHas rs)).isEmpty := by
  rw [← arrayRunIntersection_eq h1 h2]
  unfold arrayRunIntersection arrayRunIntersect
  split
  · rfl
  · cases rs with
    | nil => rfl
    | cons r rs => simp [arrayRunIntersectLoop_eq]

/-- A filtered array represents the intersection. -/
theorem rep_filter {l : List Nat} {s t : NSet} {f : Nat → Bool} (h : Rep (.array l) s) (hf : ∀ x, f x = t x) :
    Rep (.array (l.filter f)) (inter s t) := by
  obtain ⟨a1, a2, a3⟩ := rep_arr_iff h
  refine rep_array (a1.filter f) (fun x => ?_) ?_
  · rw [List.mem_filter, a2, hf]; simp [inter]
  · exact Nat.le_trans (List.length_filter_le _ _) a3

theorem Rep.card_filter {l : List Nat} {s t : NSet} {f : Nat → Bool} (h : Rep (.array l) s)
    (hf : ∀ x, f x = t x) : (l.filter f).length = card 65536 (inter s t) :=
  (rep_filter h hf).card_array.symm

theorem Rep.filter_nonempty {l : List Nat} {s t : NSet} {f : Nat → Bool} (h : Rep (.array l) s)
    (hf : ∀ x, f x = t x) : (!(l.filter f).isEmpty) = true ↔ ∃ x, s x = true ∧ t x = true := by
  obtain ⟨a1, a2, a3⟩ := rep_arr_iff h
  constructor
  · intro hh
    cases hq : l.filter f with
    | nil => rw [hq] at hh; simp at hh
    | cons y ys =>
      have : y ∈ l.filter f := by rw [hq]; simp
      rw [List.mem_filter, a2, hf] at this
      exact ⟨y, this⟩
  · rintro ⟨x, hx, ht⟩
    have : x ∈ l.filter f := by rw [List.mem_filter, a2, hf]; exact ⟨hx, ht⟩
    cases hq : l.filter f with
    | nil => rw [hq] at this; simp at this
    | cons => simp

theorem foldl_count (l : List Nat) (f : Nat → Bool) (n : Nat) :
    l.foldl (fun n key => n + (f key).toNat) n = n + (l.filter f).length := by
  induction l generalizing n with
  | nil => rfl
  | cons a l ih =>
    rw [List.foldl_cons, ih, List.filter_cons]
    cases f a <;> simp <;> omega

theorem any_filter (l : List Nat) (f : Nat → Bool) : l.any f = !(l.filter f).isEmpty := by
  induction l with
  | nil => rfl
  | cons a l ih => rw [List.any_cons, List.filter_cons, ih]; cases f a <;> simp

/-! run / bitset -/

theorem resetGaps_length (ws : List Word) (st : Nat) (rs : List Rle) : (resetGaps ws st rs).length = ws.length := by
  induction rs generalizing ws st with
  | nil => simp [resetGaps, bitsetResetRange_length]
  | cons r rs ih => simp [resetGaps, ih, bitsetResetRange_length]

theorem bitAt_resetGaps (ws : List Word) (st : Nat) (rs : List Rle) (hw : ws.length = 1024) (h : RunOK rs)
    (h0 : st ≤ 65536) (hst : ∀ r ∈ rs, st ≤ r.1) (x : Nat) :
    bitAt (resetGaps ws st rs) x = (bitAt ws x && (decide (x < st) || runHas rs x)) := by
  induction rs generalizing ws st with
  | nil =>
    rw [resetGaps, bitAt_resetRange _ _ _ _ h0 (by omega)]
    have : 65536 ≤ x → bitAt ws x = false := fun hx => bitAt_ge (by omega)
    by_cases h1 : x < st
    · have h2 : ¬ (st ≤ x ∧ x < 65536) := by omega
      rw [decide_eq_false h2]; simp [h1]
    · by_cases h2 : x < 65536
      · rw [decide_eq_true (show st ≤ x ∧ x < 65536 by omega)]; simp [h1]
      · rw [this (by omega)]; simp
  | cons r rs ih =>
    obtain ⟨a, b, c⟩ := runOK_cons.1 h
    have h1 := hst r (by simp)
    rw [resetGaps, ih _ _ (by rw [bitsetResetRange_length, hw]) c (by omega) (fun q hq => by have := b q hq; omega),
      bitAt_resetRange _ _ _ _ h1 (by omega), runHas_cons]
    have hgt : runHas rs x = true → r.1 + r.2 + 1 < x := fun hh => has_gt (fun q hq => b q hq) hh
    cases bitAt ws x with
    | false => simp
    | true =>
      rw [Bool.eq_iff_iff]
      simp only [Bool.and_eq_true, Bool.or_eq_true, decide_eq_true_eq, Bool.not_eq_true', decide_eq_false_iff_not,
        eq_self, and_true, true_and]
      by_cases hh : runHas rs x = true
      · have := hgt hh
        simp only [hh, or_true, and_true, iff_true]; omega
      · simp [hh]; omega

theorem runBitsetIntersection_spec {rs : List Rle} {b : Bitset} {s t : NSet} (h1 : Rep (.run rs) s)
    (h2 : Rep (.bitset b) t) : Rep (runBitsetIntersection rs b) (inter s t) := by
  obtain ⟨a1, a2⟩ := rep_run_iff h1
  obtain ⟨b1, b2, b3, b4⟩ := rep_bit_iff h2
  unfold runBitsetIntersection DEFAULT_MAX_SIZE
  split
  · rename_i hf
    rw [runIsFull_iff] at hf
    refine h2.congr fun x => ?_
    have : t x = true → s x = true := fun hx => by
      rw [← a2, hf, runHas_full]; simpa using h2.lt hx
    simp only [inter]
    cases ht : t x
    · simp
    · simp [this ht]
  · split
    · rename_i hc
      have e : ((rs.flatMap fun (r : Rle) => (List.range' r.1 (r.2 + 1)).filter (bitsetGet b)).map (· % 65536))
          = (runValues rs).filter (bitsetGet b) := by
        have e1 : (rs.flatMap fun (r : Rle) => (List.range' r.1 (r.2 + 1)).filter (bitsetGet b)) =
            (runValues rs).filter (bitsetGet b) := by
          unfold runValues; rw [List.filter_flatMap]
        rw [e1]
        conv => rhs; rw [← List.map_id ((runValues rs).filter (bitsetGet b))]
        apply List.map_congr_left
        intro x hx
        have := (runValues_arrOK a1).lt x ((List.mem_filter.1 hx).1)
        simp; omega
      rw [e]
      exact rep_filter (rep_runValues a1 a2 hc) (fun x => by rw [bitsetGet_eq, b3])
    · have hw : (resetGaps b.words 0 rs).length = 1024 := by rw [resetGaps_length, b1.len]
      have e : ∀ x, bitAt (resetGaps b.words 0 rs) x = inter s t x := by
        intro x
        rw [bitAt_resetGaps _ _ _ b1.len a1 (by omega) (by simp), b3, a2]
        simp [inter, Bool.and_comm]
      have hc : ((computeCard (resetGaps b.words 0 rs) : Nat) : Int) = card 65536 (inter s t) := by
        rw [computeCard_eq]; exact card_int_congr fun x _ => e x
      simp only
      split
      · exact rep_bitset hw e hc (by omega)
      · exact rep_arrayFromBitset hw e hc (by omega)

theorem foldl_sum (rs : List Rle) (f : Rle → Nat) (n : Nat) :
    rs.foldl (fun n r => n + f r) n = n + (rs.map f).sum := by
  induction rs generalizing n with
  | nil => rfl
  | cons r rs ih => rw [List.foldl_cons, ih, List.map_cons, List.sum_cons]; omega

theorem card_run_inter {rs : List Rle} (h : RunOK rs) (t : NSet) :
    (rs.map fun (r : Rle) => card (r.2 + 1) (fun x => t (r.1 + x))).sum =
      card 65536 (inter (runHas rs) t) := by
  induction rs with
  | nil => symm; exact card_eq_zero.2 (fun x _ => by simp [inter])
  | cons r rs ih =>
    obtain ⟨a, b, c⟩ := runOK_cons.1 h
    rw [List.map_cons, List.sum_cons, ih c]
    have h1 := card_inter_range (s := t) (a := r.1) (b := r.1 + r.2) (by omega) a
    rw [show r.1 + r.2 - r.1 + 1 = r.2 + 1 by omega] at h1
    rw [← h1]
    have h2 := card_incl_excl 65536 (fun x => t x && decide (r.1 ≤ x ∧ x ≤ r.1 + r.2)) (inter (runHas rs) t)
    have h3 : card 65536 (inter (fun x => t x && decide (r.1 ≤ x ∧ x ≤ r.1 + r.2)) (inter (runHas rs) t)) = 0 := by
      rw [card_eq_zero]; intro x _
      rw [Bool.eq_false_iff]; intro hh
      simp only [inter, Bool.and_eq_true, decide_eq_true_eq] at hh
      have := has_gt (fun q hq => b q hq) hh.2.1
      omega
    rw [h3] at h2
    rw [← h2, Nat.add_zero]
    apply card_congr; intro x _
    simp only [union, inter, runHas_cons]
    cases t x <;> simp

theorem runBitsetIntersectionCard_eq {rs : List Rle} {b : Bitset} {s t : NSet} (h1 : Rep (.run rs) s)
    (h2 : Rep (.bitset b) t) : runBitsetIntersectionCard rs b = card 65536 (inter s t) := by
  obtain ⟨a1, a2⟩ := rep_run_iff h1
  obtain ⟨b1, b2, b3, b4⟩ := rep_bit_iff h2
  unfold runBitsetIntersectionCard
  split
  · rename_i hf
    rw [runIsFull_iff] at hf
    rw [b4]
    apply card_int_congr
    intro x hx
    have : s x = true := by rw [← a2, hf, runHas_full]; simpa using hx
    simp [inter, this]
  · rw [foldl_sum]
    have : (rs.map fun (r : Rle) => bitsetLenrangeCardinality b.words r.1 r.2).sum
        = card 65536 (inter (runHas rs) (bitAt b.words)) := by
      rw [← card_run_inter a1]
      simp only [lenrangeCardinality_eq]
    rw [this, Nat.zero_add]
    exact card_int_congr fun x _ => by simp only [inter, a2, b3]

theorem runBitsetIntersect_iff {rs : List Rle} {b : Bitset} {s t : NSet} (h1 : Rep (.run rs) s)
    (h2 : Rep (.bitset b) t) : runBitsetIntersect rs b = true ↔ ∃ x, s x = true ∧ t x = true := by
  obtain ⟨a1, a2⟩ := rep_run_iff h1
  obtain ⟨b1, b2, b3, b4⟩ := rep_bit_iff h2
  unfold runBitsetIntersect
  split
  · rename_i hf
    rw [runIsFull_iff] at hf
    have hE := bitsetEmpty_iff b1.len (Or.inr b1.card)
    have hs : ∀ x, t x = true → s x = true := fun x hx => by
      rw [← a2, hf, runHas_full]; simpa using h2.lt hx
    rw [Bool.not_eq_true', Bool.eq_false_iff, Ne, hE, Classical.not_forall]
    constructor
    · rintro ⟨x, hx⟩; rw [b3, Bool.not_eq_false] at hx; exact ⟨x, hs x hx, hx⟩
    · rintro ⟨x, _, hx⟩; exact ⟨x, by rw [b3, hx]; simp⟩
  · rw [List.any_eq_true]
    constructor
    · rintro ⟨r, hr, hx⟩
      rw [Bool.not_eq_true', Bool.eq_false_iff, Ne, lenrangeEmpty_eq] at hx
      obtain ⟨x, hx⟩ := Classical.not_forall.1 hx
      refine ⟨x, ?_, ?_⟩
      · rw [← a2, runHas_iff]; exact ⟨r, hr, by grind⟩
      · rw [← b3]; grind
    · rintro ⟨x, hs, ht⟩
      rw [← a2, runHas_iff] at hs
      obtain ⟨r, hr, hx⟩ := hs
      refine ⟨r, hr, ?_⟩
      rw [Bool.not_eq_true', Bool.eq_false_iff, Ne, lenrangeEmpty_eq]
      intro hh
      have := hh x hx.1 hx.2
      rw [b3, ht] at this; simp at this

theorem bitsetBitsetIntersection_spec {b1 b2 : Bitset} {s t : NSet} (h1 : Rep (.bitset b1) s)
    (h2 : Rep (.bitset b2) t) : Rep (bitsetBitsetIntersection b1 b2) (inter s t) := by
  obtain ⟨a1, a2, a3, a4⟩ := rep_bit_iff h1
  obtain ⟨c1, c2, c3, c4⟩ := rep_bit_iff h2
  have hl : b1.words.length = b2.words.length := by rw [a1.len, c1.len]
  have hw : (List.zipWith wAnd b1.words b2.words).length = 1024 := by rw [List.length_zipWith, a1.len, c1.len]; rfl
  have e : ∀ x, bitAt (List.zipWith wAnd b1.words b2.words) x = inter s t x := fun x => by
    rw [bitAt_wAnd hl, a3, c3]; rfl
  have hc : (bitsetOpJustcard wAnd b1 b2 : Int) = card 65536 (inter s t) := by
    rw [bitsetOpJustcard_eq, (bitsetOp_ok wAnd a1.len c1.len).card]
    exact card_int_congr fun x _ => e x
  unfold bitsetBitsetIntersection DEFAULT_MAX_SIZE
  simp only
  split
  · exact rep_bitset hw e hc (by omega)
  · have := rep_arrayFromBitset hw e hc (by omega)
    unfold arrayFromBitset at this
    rw [extractIntersection_eq]
    exact this

end CRoaring
