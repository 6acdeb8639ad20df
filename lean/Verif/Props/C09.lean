import Verif.Props.Common
/-
C09-C12: cardinalities, equality and inclusion.  `Spec.card n s` is the number of values below `n` in `s`.
-/
namespace CRoaring.Props
open CRoaring

/-- C09: `get_cardinality` is the number of contained 32-bit values. -/
theorem C09_cardinality {r : Bitmap} (h : Valid r) :
    rbCardinality r = Spec.card (2 ^ 32) (fun v => rbContains r v) := by
  rw [rbCardinality_eq h.inv]
  exact card_congr fun v _ => (rbContains_eq h.inv v).symm

/-- C09: `is_empty` holds exactly when nothing is contained, and exactly when the cardinality is 0. -/
theorem C09_is_empty {r : Bitmap} (h : Valid r) :
    (rbIsEmpty r = true ↔ ∀ v, rbContains r v = false) ∧ (rbIsEmpty r = true ↔ rbCardinality r = 0) := by
  have h1 : rbIsEmpty r = true ↔ ∀ v, rbContains r v = false := by
    rw [rbIsEmpty_iff h.inv]
    constructor <;> intro hh v
    · rw [rbContains_eq h.inv]; exact hh v
    · rw [← rbContains_eq h.inv]; exact hh v
  refine ⟨h1, ?_⟩
  rw [h1, rbCardinality_eq h.inv, card_eq_zero]
  constructor <;> intro hh v
  · intro _; rw [← rbContains_eq h.inv]; exact hh v
  · rw [rbContains_eq h.inv]
    cases hx : bhas r v with
    | false => rfl
    | true => rw [← hx]; exact hh v (bhas_lt h.inv hx)

/-- C10: `and_cardinality`. -/
theorem C10_and_cardinality {a b : Bitmap} (ha : Valid a) (hb : Valid b) :
    rbAndCardinality a b = Spec.card (2 ^ 32) (fun v => rbContains a v && rbContains b v) := by
  rw [rbAndCardinality_eq ha.inv hb.inv]
  exact card_congr fun v _ => by rw [rbContains_eq ha.inv, rbContains_eq hb.inv]; rfl

/-- C10: `or_cardinality`. -/
theorem C10_or_cardinality {a b : Bitmap} (ha : Valid a) (hb : Valid b) :
    rbOrCardinality a b = Spec.card (2 ^ 32) (fun v => rbContains a v || rbContains b v) := by
  rw [rbOrCardinality_eq ha.inv hb.inv]
  exact card_congr fun v _ => by rw [rbContains_eq ha.inv, rbContains_eq hb.inv]; rfl

/-- C10: `andnot_cardinality`. -/
theorem C10_andnot_cardinality {a b : Bitmap} (ha : Valid a) (hb : Valid b) :
    rbAndnotCardinality a b = Spec.card (2 ^ 32) (fun v => rbContains a v && !rbContains b v) := by
  rw [rbAndnotCardinality_eq ha.inv hb.inv]
  exact card_congr fun v _ => by rw [rbContains_eq ha.inv, rbContains_eq hb.inv]; rfl

/-- C10: `xor_cardinality`. -/
theorem C10_xor_cardinality {a b : Bitmap} (ha : Valid a) (hb : Valid b) :
    rbXorCardinality a b = Spec.card (2 ^ 32) (fun v => rbContains a v != rbContains b v) := by
  rw [rbXorCardinality_eq ha.inv hb.inv]
  exact card_congr fun v _ => by rw [rbContains_eq ha.inv, rbContains_eq hb.inv]; rfl

/-- C10: the cardinality functions agree with materialising the operation. -/
theorem C10_agree {a b : Bitmap} (ha : Valid a) (hb : Valid b) :
    rbAndCardinality a b = rbCardinality (rbAnd a b) ∧ rbOrCardinality a b = rbCardinality (rbOr a b) ∧
      rbAndnotCardinality a b = rbCardinality (rbAndnot a b) ∧
      rbXorCardinality a b = rbCardinality (rbXor a b) := by
  have h1 := rbAnd_spec ha.inv hb.inv
  have h2 := rbOr_spec ha.inv hb.inv
  have h3 := rbAndnot_spec ha.inv hb.inv
  have h4 := rbXor_spec ha.inv hb.inv
  rw [rbAndCardinality_eq ha.inv hb.inv, rbOrCardinality_eq ha.inv hb.inv, rbAndnotCardinality_eq ha.inv hb.inv,
    rbXorCardinality_eq ha.inv hb.inv, rbCardinality_eq h1.1, rbCardinality_eq h2.1, rbCardinality_eq h3.1,
    rbCardinality_eq h4.1]
  exact ⟨card_congr fun x _ => (h1.2 x).symm, card_congr fun x _ => (h2.2 x).symm,
    card_congr fun x _ => (h3.2 x).symm, card_congr fun x _ => (h4.2 x).symm⟩

/-- C10: `intersect` tells whether there is a common value. -/
theorem C10_intersect {a b : Bitmap} (ha : Valid a) (hb : Valid b) :
    rbIntersect a b = true ↔ ∃ v, rbContains a v = true ∧ rbContains b v = true := by
  rw [rbIntersect_iff ha.inv hb.inv]
  simp only [rbContains_eq ha.inv, rbContains_eq hb.inv]

/-- C10: the two integers divided by `jaccard_index` are the sizes of the intersection and of the union. -/
theorem C10_jaccard {a b : Bitmap} (ha : Valid a) (hb : Valid b) :
    rbJaccard a b = (Spec.card (2 ^ 32) (fun v => rbContains a v && rbContains b v),
      Spec.card (2 ^ 32) (fun v => rbContains a v || rbContains b v)) := by
  rw [← C10_and_cardinality ha hb, ← C10_or_cardinality ha hb]; rfl

/-- C11: `equals` is extensional equality. -/
theorem C11_equals {a b : Bitmap} (ha : Valid a) (hb : Valid b) :
    rbEquals a b = true ↔ ∀ v, rbContains a v = rbContains b v := by
  rw [rbEquals_iff ha.inv hb.inv]
  simp only [rbContains_eq ha.inv, rbContains_eq hb.inv]

/-- C12: `is_subset` is inclusion. -/
theorem C12_is_subset {a b : Bitmap} (ha : Valid a) (hb : Valid b) :
    rbIsSubset a b = true ↔ ∀ v, rbContains a v = true → rbContains b v = true := by
  rw [rbIsSubset_iff ha.inv hb.inv]
  simp only [rbContains_eq ha.inv, rbContains_eq hb.inv]

/-- C12: `is_strict_subset` is strict inclusion. -/
theorem C12_is_strict_subset {a b : Bitmap} (ha : Valid a) (hb : Valid b) :
    rbIsStrictSubset a b = true ↔
      (∀ v, rbContains a v = true → rbContains b v = true) ∧
        ∃ v, rbContains b v = true ∧ rbContains a v = false := by
  rw [rbIsStrictSubset_iff ha.inv hb.inv]
  simp only [rbContains_eq ha.inv, rbContains_eq hb.inv]

example : Valid exS ∧ Valid exT ∧ Valid exB := ⟨exS_valid, exT_valid, exB_valid⟩
example : rbCardinality exS = 25 ∧ rbAndCardinality exS exT = 4 ∧ rbXorCardinality exS exT = 33 ∧
    rbIntersect exS exT = true ∧ rbEquals exS exT = false ∧ rbIsStrictSubset exS exF = true := by decide +kernel
/-- Two different representations of the same set are equal. -/
example : Valid [(0, .run [(3, 2)])] ∧ Valid [(0, .array [3, 4, 5])] ∧
    rbEquals [(0, .run [(3, 2)])] [(0, .array [3, 4, 5])] = true := by decide +kernel

end CRoaring.Props
