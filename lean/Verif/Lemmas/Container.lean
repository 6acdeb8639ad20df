import Verif.Lemmas.MixedRel
import Verif.Model.Container

/-! Specifications of the container dispatch functions. -/

set_option linter.unusedSimpArgs false
set_option linter.unusedVariables false

namespace CRoaring
open Spec

theorem union_comm' (s t : NSet) (x : Nat) : union t s x = union s t x := by
  simp only [union, Bool.or_comm]

theorem inter_comm' (s t : NSet) (x : Nat) : inter t s x = inter s t x := by
  simp only [inter, Bool.and_comm]

theorem symm_comm' (s t : NSet) (x : Nat) : symm t s x = symm s t x := by
  simp only [symm]; cases s x <;> cases t x <;> rfl

theorem Rep.comm_union {c : Container} {s t : NSet} (h : Rep c (union t s)) : Rep c (union s t) :=
  h.congr (union_comm' s t)

theorem Rep.comm_inter {c : Container} {s t : NSet} (h : Rep c (inter t s)) : Rep c (inter s t) :=
  h.congr (inter_comm' s t)

theorem Rep.comm_symm {c : Container} {s t : NSet} (h : Rep c (symm t s)) : Rep c (symm s t) :=
  h.congr (symm_comm' s t)

theorem LRep.comm_union {c : Container} {s t : NSet} (h : LRep c (union t s)) : LRep c (union s t) :=
  h.congr (union_comm' s t)

theorem LRep.comm_symm {c : Container} {s t : NSet} (h : LRep c (symm t s)) : LRep c (symm s t) :=
  h.congr (symm_comm' s t)

theorem Rep.zero {c : Container} {s : NSet} (h : Rep c s) {x : Nat} (hx : 65536 ≤ x) : s x = false := by
  cases hh : s x
  · rfl
  · have := h.lt hh; omega

/-! ### Cardinality -/

theorem containerCard_eq {c : Container} {s : NSet} (h : Rep c s) : containerCard c = card 65536 s := by
  cases c with
  | bitset b => exact (rep_bit_iff h).2.2.2
  | array l => simp only [containerCard, h.card_array]
  | run rs =>
    have := rep_run_iff h
    simp only [containerCard, card_of_run this.1 this.2]

theorem runOK_ext {a b : List Rle} (ha : RunOK a) (hb : RunOK b) (h : ∀ x, runHas a x = runHas b x) : a = b := by
  induction a generalizing b with
  | nil =>
    cases b with
    | nil => rfl
    | cons q b =>
      have := h q.1
      rw [runHas_head] at this
      cases this
  | cons p a ih =>
    cases b with
    | nil =>
      have := h p.1
      rw [runHas_head] at this
      cases this
    | cons q b =>
      have a1 := runOK_cons.1 ha
      have b1 := runOK_cons.1 hb
      have ga : ∀ y, runHas a y = true → p.1 + p.2 + 1 < y := fun y hy => has_gt a1.2.1 hy
      have gb : ∀ y, runHas b y = true → q.1 + q.2 + 1 < y := fun y hy => has_gt b1.2.1 hy
      simp only [runHas_cons] at h
      have e1 : p.1 = q.1 := by
        have hp := h p.1
        have hq := h q.1
        have := ga q.1
        have := gb p.1
        rw [decide_eq_true (by omega : p.1 ≤ p.1 ∧ p.1 ≤ p.1 + p.2), Bool.true_or] at hp
        rw [decide_eq_true (by omega : q.1 ≤ q.1 ∧ q.1 ≤ q.1 + q.2), Bool.true_or] at hq
        have hp := hp.symm
        simp only [Bool.or_eq_true, decide_eq_true_eq] at hp hq
        rcases hp with hp | hp <;> rcases hq with hq | hq <;> grind
      have e2 : p.2 = q.2 := by
        have hp := h (p.1 + p.2 + 1)
        have hq := h (q.1 + q.2 + 1)
        have := ga (p.1 + p.2 + 1)
        have := gb (q.1 + q.2 + 1)
        rw [Bool.eq_iff_iff] at hp hq
        simp only [Bool.or_eq_true, decide_eq_true_eq] at hp hq
        have hp' := h (p.1 + p.2)
        have hq' := h (q.1 + q.2)
        have := ga (q.1 + q.2)
        have := gb (p.1 + p.2)
        rw [Bool.eq_iff_iff] at hp' hq'
        simp only [Bool.or_eq_true, decide_eq_true_eq] at hp' hq'
        grind
      have e : p = q := Prod.ext e1 e2
      subst e
      refine congrArg (p :: ·) (ih a1.2.2 b1.2.2 fun x => ?_)
      have hx := h x
      have := ga x
      have := gb x
      rw [Bool.eq_iff_iff] at hx ⊢
      simp only [Bool.or_eq_true, decide_eq_true_eq] at hx
      grind

theorem containerNonzero_iff {c : Container} {s : NSet} (h : LRep c s) :
    containerNonzero c = true ↔ ∃ x, s x = true := by
  cases c with
  | bitset b =>
    have h1 := h.inv
    have h2 : ∀ x, bitAt b.words x = s x := h.has
    have := bitsetEmpty_iff h1.1 h1.2
    simp only [containerNonzero, Bool.not_eq_true']
    rw [← Bool.not_eq_true, this]
    constructor
    · intro hn
      obtain ⟨x, hx⟩ := Classical.not_forall.1 hn
      exact ⟨x, by rw [← h2]; simpa using hx⟩
    · rintro ⟨x, hx⟩ hn
      rw [← h2, hn x] at hx
      cases hx
  | array l =>
    have h2 := (rep_arr_iff (lrep_arr h)).2.1
    simp only [containerNonzero, decide_eq_true_eq]
    constructor
    · intro hl
      obtain ⟨x, hx⟩ := List.exists_mem_of_length_pos hl
      exact ⟨x, (h2 x).1 hx⟩
    · rintro ⟨x, hx⟩
      exact List.length_pos_of_mem ((h2 x).2 hx)
  | run rs =>
    have h2 := (rep_run_iff (lrep_run h)).2
    simp only [containerNonzero, decide_eq_true_eq]
    rw [gt_iff_lt, List.length_pos_iff, ← runHas_exists]
    simp only [h2]

theorem containerNonzero_iff_card {c : Container} {s : NSet} (h : Rep c s) :
    containerNonzero c = true ↔ 0 < card 65536 s := by
  rw [containerNonzero_iff h.lrep, card_pos]
  exact ⟨fun ⟨x, hx⟩ => ⟨x, h.lt hx, hx⟩, fun ⟨x, _, hx⟩ => ⟨x, hx⟩⟩

theorem containerIsFull_iff {c : Container} {s : NSet} (h : Rep c s) :
    containerIsFull c = true ↔ ∀ x, x < 65536 → s x = true := by
  rw [← card_eq_n]
  cases c with
  | bitset b =>
    have := (rep_bit_iff h).2.2.2
    simp only [containerIsFull, beq_iff_eq, this]
    omega
  | array l =>
    rw [h.card_array]
    simp only [containerIsFull, beq_iff_eq]
  | run rs =>
    have h2 := rep_run_iff h
    simp only [containerIsFull, runIsFull_iff]
    constructor
    · rintro rfl
      rw [card_eq_n]
      intro x hx
      rw [← h2.2, runHas_full]
      simpa using hx
    · intro hc
      rw [card_eq_n] at hc
      refine runOK_ext h2.1 (runOK_cons.2 ⟨by decide, by simp, RunOK.nil⟩) fun x => ?_
      rw [runHas_full, h2.2]
      by_cases hx : x < 65536
      · simp [hx, hc x hx]
      · simp [hx, h.zero (x := x) (by omega)]

/-! ### Membership -/

theorem containerContains_eq {c : Container} {s : NSet} (h : LRep c s) (x : Nat) :
    containerContains x c = s x := by
  cases c with
  | bitset b => simp only [containerContains, bitsetGet_eq]; exact h.has x
  | array l =>
    have h2 := rep_arr_iff (lrep_arr h)
    simp only [containerContains]
    rw [arrayContains_eq h2.1.sorted]
    exact mem_dec h2.2.1 x
  | run rs =>
    have h2 := rep_run_iff (lrep_run h)
    simp only [containerContains]
    rw [runContains_eq h2.1, h2.2]

theorem containerContainsRange_iff {c : Container} {s : NSet} (h : Rep c s) {a b : Nat} (hab : a < b) (hb : b ≤ 65536) :
    containerContainsRange a b c = true ↔ ∀ x, a ≤ x → x < b → s x = true := by
  cases c with
  | bitset bs =>
    have h2 := rep_bit_iff h
    simp only [containerContainsRange]
    rw [bitsetContainsRange_iff h2.1.len a b hab hb]
    simp only [h2.2.2.1]
  | array l =>
    have h2 := rep_arr_iff h
    simp only [containerContainsRange]
    rw [arrayContainsRange_eq h2.1 a b hb]
    simp only [h2.2.1]
  | run rs =>
    have h2 := rep_run_iff h
    simp only [containerContainsRange]
    rw [runContainsRange_iff h2.1 hab hb]
    simp only [h2.2]

/-! ### Point updates -/

theorem containerAdd_spec {c : Container} {s : NSet} (h : Rep c s) {v : Nat} (hv : v < 65536) :
    Rep (containerAdd v c) (Spec.insert s v) := by
  cases c with
  | bitset b =>
    have h2 := rep_bit_iff h
    have h3 := bitsetAdd_spec h2.1 hv
    refine ⟨⟨h3.1, ?_⟩, fun x => ?_⟩
    · show 4096 < (bitsetSet b v).card
      rw [bitsetSet_eq, h3.2.2.2]; split <;> omega
    · show bitAt (bitsetSet b v).words x = _
      rw [bitsetSet_eq, h3.2.1, h2.2.2.1]; rfl
  | array l =>
    have h2 := rep_arr_iff h
    have h3 := arrayAdd_spec h2.1 hv
    have hD : ((DEFAULT_MAX_SIZE : Nat) : Int) = 4096 := rfl
    simp only [containerAdd]
    rcases arrayTryAdd_spec h2.1.sorted v DEFAULT_MAX_SIZE with ⟨a1, a2⟩ | ⟨a1, a2, a3, a4⟩ | ⟨a1, a2, a3⟩
    · rw [a2]
      simp only [ne_eq, Int.reduceNeg, reduceCtorEq, not_false_eq_true, if_true]
      refine rep_array h2.1 (fun x => ?_) h2.2.2
      rw [h2.2.1 x]
      have := (h2.2.1 v).1 a1
      simp only [Spec.insert, Bool.or_eq_true, beq_iff_eq]
      exact ⟨Or.inr, fun hx => hx.elim (fun e => e ▸ this) id⟩
    · rw [a3, a4]
      simp only [ne_eq, Int.reduceNeg, reduceCtorEq, not_false_eq_true, if_true]
      refine rep_array ⟨sorted_insert h2.1.sorted v a1, fun x hx => ?_⟩ (fun x => ?_) ?_
      · rcases (mem_insert_lb l v x _).1 hx with rfl | hx
        · exact hv
        · exact h2.1.lt x hx
      · rw [mem_insert_lb, h2.2.1]
        simp only [Spec.insert, Bool.or_eq_true, beq_iff_eq]
      · have := lb_le l v
        simp only [List.length_append, List.length_take, List.length_cons, List.length_drop]
        omega
    · rw [a3]
      simp only [ne_eq, not_true_eq_false, if_false]
      have b1 := bitsetFromArray_spec (l := l) h2.1.lt
      have b2 := bitsetAdd_spec b1.1 hv
      have b3 : (bitsetFromArray l).card = l.length := by
        rw [b1.1.card, ← h2.1.card]
        exact card_int_congr fun x _ => by rw [b1.2]; rfl
      refine ⟨⟨b2.1, ?_⟩, fun x => ?_⟩
      · rw [b2.2.2.2, b3, b1.2, decide_eq_false a1]
        simp only [Bool.false_eq_true, if_false]
        omega
      · show bitAt (bitsetAdd (bitsetFromArray l) v).1.words x = _
        rw [b2.2.1, b1.2, mem_dec h2.2.1]; rfl
  | run rs =>
    have h2 := rep_run_iff h
    have h3 := runAdd_spec h2.1 hv
    refine rep_run h3.1 fun x => ?_
    rw [h3.2.1, h2.2]; rfl

theorem containerRemove_spec {c : Container} {s : NSet} (h : Rep c s) {v : Nat} (hv : v < 65536) :
    Rep (containerRemove v c) (Spec.erase s v) := by
  cases c with
  | bitset b =>
    have h2 := rep_bit_iff h
    have h3 := bitsetRemove_spec h2.1 hv
    have he : ∀ x, bitAt (bitsetRemove b v).1.words x = Spec.erase s v x := by
      intro x
      rw [h3.2.1, h2.2.2.1]
      simp only [Spec.erase]
      by_cases hx : x = v <;> simp [hx]
    have hc : (bitsetRemove b v).1.card = card 65536 (Spec.erase s v) := by
      rw [h3.1.card]; exact card_int_congr fun x _ => he x
    have hD : ((DEFAULT_MAX_SIZE : Nat) : Int) = 4096 := rfl
    simp only [containerRemove]
    generalize bitsetRemove b v = r at h3 he hc ⊢
    obtain ⟨⟨rc, rw⟩, ch⟩ := r
    simp only at h3 he hc ⊢
    split
    · rename_i h4
      exact rep_arrayFromBitset h3.1.len he hc (by rw [← hD]; exact h4.2)
    · rename_i h4
      refine rep_bitset h3.1.len he hc ?_
      rw [hD] at h4
      by_cases hr : ch = true
      · have : ¬rc ≤ 4096 := fun hh => h4 ⟨hr, hh⟩
        omega
      · rw [h3.2.2.1] at hr
        rw [h3.2.2.2, if_neg hr]
        omega
  | array l =>
    have h2 := rep_arr_iff h
    have h3 := arrayRemove_spec h2.1 v
    refine rep_array h3.1 (fun x => ?_) ?_
    · rw [h3.2.1, h2.2.1]
      simp only [Spec.erase, Bool.and_eq_true, bne_iff_ne]
    · have := h3.2.2.2; omega
  | run rs =>
    have h2 := rep_run_iff h
    have h3 := runRemove_spec h2.1 hv
    refine rep_run h3.1 fun x => ?_
    rw [h3.2.1, h2.2]
    simp only [Spec.erase]
    by_cases hx : x = v <;> simp [hx]

/-! ### Comparison -/

theorem containerEquals_iff {c1 c2 : Container} {s t : NSet} (h1 : Rep c1 s) (h2 : Rep c2 t) :
    containerEquals c1 c2 = true ↔ ∀ x, s x = t x := by
  have sw : (∀ x, t x = s x) ↔ ∀ x, s x = t x := ⟨fun h x => (h x).symm, fun h x => (h x).symm⟩
  cases c1 with
  | bitset b1 =>
    cases c2 with
    | bitset b2 =>
      have a1 := rep_bit_iff h1; have a2 := rep_bit_iff h2
      simp only [containerEquals]
      rw [bitsetEquals_iff a1.1 a2.1]
      simp only [a1.2.2.1, a2.2.2.1]
    | array l2 => simp only [containerEquals]; rw [arrayEqualBitset_iff h2 h1, sw]
    | run r2 => simp only [containerEquals]; rw [runEqualsBitset_iff h2 h1, sw]
  | array l1 =>
    cases c2 with
    | bitset b2 => exact arrayEqualBitset_iff h1 h2
    | array l2 =>
      have a1 := rep_arr_iff h1; have a2 := rep_arr_iff h2
      simp only [containerEquals]
      rw [arrayEquals_iff]
      constructor
      · rintro rfl x
        rw [Bool.eq_iff_iff, ← a1.2.1, ← a2.2.1]
      · intro h
        exact sorted_ext a1.1.sorted a2.1.sorted fun x => by rw [a1.2.1, a2.2.1, h]
    | run r2 => simp only [containerEquals]; rw [runEqualsArray_iff h2 h1, sw]
  | run r1 =>
    cases c2 with
    | bitset b2 => exact runEqualsBitset_iff h1 h2
    | array l2 => exact runEqualsArray_iff h1 h2
    | run r2 =>
      have a1 := rep_run_iff h1; have a2 := rep_run_iff h2
      simp only [containerEquals, runEquals]
      constructor
      · intro h x
        have : r1 = r2 := by
          split at h
          · cases h
          · simpa using h
        subst this
        rw [← a1.2, ← a2.2]
      · intro h
        have : r1 = r2 := runOK_ext a1.1 a2.1 fun x => by rw [a1.2, a2.2, h]
        simp [this]

theorem containerIsSubset_iff {c1 c2 : Container} {s t : NSet} (h1 : Rep c1 s) (h2 : Rep c2 t) :
    containerIsSubset c1 c2 = true ↔ ∀ x, s x = true → t x = true := by
  cases c1 with
  | bitset b1 =>
    have a1 := rep_bit_iff h1
    cases c2 with
    | bitset b2 =>
      have a2 := rep_bit_iff h2
      simp only [containerIsSubset]
      rw [bitsetIsSubset_iff a1.1 a2.1]
      simp only [a1.2.2.1, a2.2.2.1]
    | array l2 =>
      simp only [containerIsSubset, Bool.false_eq_true, false_iff]
      intro h
      have := card_le_of_subset h
      have a2 := h2.card_array
      have a3 := (rep_arr_iff h2).2.2
      omega
    | run r2 => exact bitsetIsSubsetRun_iff h1 h2
  | array l1 =>
    cases c2 with
    | bitset b2 => exact arrayIsSubsetBitset_iff h1 h2
    | array l2 =>
      have a1 := rep_arr_iff h1; have a2 := rep_arr_iff h2
      simp only [containerIsSubset]
      rw [arrayIsSubset_iff a1.1 a2.1]
      simp only [a1.2.1, a2.2.1]
    | run r2 => exact arrayIsSubsetRun_iff h1 h2
  | run r1 =>
    cases c2 with
    | bitset b2 => exact runIsSubsetBitset_iff h1 h2
    | array l2 => exact runIsSubsetArray_iff h1 h2
    | run r2 =>
      have a1 := rep_run_iff h1; have a2 := rep_run_iff h2
      simp only [containerIsSubset]
      rw [runIsSubset_iff _ _ a1.1 a2.1]
      simp only [a1.2, a2.2]

end CRoaring
