import Verif.Props.Common
import Verif.Props.C09
import Verif.Props.C04
import Verif.Lemmas.Flip
/-
C13 - C17: operations on ranges of values, and the law of C43 that uses `flip`.
-/
namespace CRoaring.Props
open CRoaring

/-- C13: `add_range_closed(r, lo, hi)` adds exactly the values of `[lo, hi]`. -/
theorem C13_add_range_closed {r : Bitmap} (h : Valid r) (lo : Nat) {hi : Nat} (hhi : hi < 2 ^ 32) :
    Valid (rbAddRangeClosed r lo hi) ∧
      ∀ v, rbContains (rbAddRangeClosed r lo hi) v = true ↔ (lo ≤ v ∧ v ≤ hi) ∨ rbContains r v = true := by
  have h1 := rbAddRangeClosed_spec h.inv (min := lo) hhi
  refine ⟨h1.1.valid, fun v => ?_⟩
  rw [rbContains_eq h1.1, rbContains_eq h.inv, h1.2]; simp

/-- C13: `remove_range_closed(r, lo, hi)` removes exactly the values of `[lo, hi]`. -/
theorem C13_remove_range_closed {r : Bitmap} (h : Valid r) (lo hi : Nat) :
    Valid (rbRemoveRangeClosed r lo hi) ∧
      ∀ v, rbContains (rbRemoveRangeClosed r lo hi) v = true ↔ ¬ (lo ≤ v ∧ v ≤ hi) ∧ rbContains r v = true := by
  have h1 := rbRemoveRangeClosed_spec h.inv lo hi
  refine ⟨h1.1.valid, fun v => ?_⟩
  rw [rbContains_eq h1.1, rbContains_eq h.inv, h1.2, Bool.and_eq_true, Bool.not_eq_true', decide_eq_false_iff_not]
  exact and_comm

/-- C15: `contains_range_closed(r, lo, hi)` holds exactly when every value of `[lo, hi]` is contained. -/
theorem C15_contains_range_closed {r : Bitmap} (h : Valid r) (lo hi : Nat) :
    rbContainsRangeClosed r lo hi = true ↔ ∀ v, lo ≤ v → v ≤ hi → rbContains r v = true := by
  rw [rbContainsRangeClosed_iff h.inv]
  simp only [rbContains_eq h.inv]

/-- C16: `range_cardinality_closed(r, lo, hi)` counts the contained values of `[lo, hi]`. -/
theorem C16_range_cardinality_closed {r : Bitmap} (h : Valid r) (lo hi : Nat) :
    rbRangeCardinalityClosed r lo hi =
      Spec.card (2 ^ 32) (fun v => decide (lo ≤ v ∧ v ≤ hi) && rbContains r v) := by
  rw [rbRangeCardinalityClosed_eq h.inv]
  simp only [rbContains_eq h.inv]

/-- C17: `flip_closed(r, lo, hi)` toggles exactly the values of `[lo, hi]`. -/
theorem C17_flip_closed {r : Bitmap} (h : Valid r) (lo : Nat) {hi : Nat} (hhi : hi < 2 ^ 32) :
    Valid (rbFlipClosed r lo hi) ∧
      ∀ v, rbContains (rbFlipClosed r lo hi) v = if lo ≤ v ∧ v ≤ hi then !rbContains r v else rbContains r v := by
  have h1 := rbFlipClosed_spec h.inv (rs := lo) hhi
  refine ⟨h1.1.valid, fun v => ?_⟩
  rw [rbContains_eq h1.1, rbContains_eq h.inv, h1.2]
  split
  · rename_i hh; rw [decide_eq_true hh]; simp
  · rename_i hh; rw [decide_eq_false hh]; simp

/-- C17: `flip_inplace_closed(r, lo, hi)` toggles exactly the values of `[lo, hi]`. -/
theorem C17_flip_inplace_closed {r : Bitmap} (h : Valid r) (lo : Nat) {hi : Nat} (hhi : hi < 2 ^ 32) :
    Valid (rbFlipInplaceClosed r lo hi) ∧
      ∀ v, rbContains (rbFlipInplaceClosed r lo hi) v =
        if lo ≤ v ∧ v ≤ hi then !rbContains r v else rbContains r v := by
  have h1 := rbFlipInplaceClosed_spec h.inv (rs := lo) hhi
  refine ⟨h1.1.valid, fun v => ?_⟩
  rw [rbContains_eq h1.1, rbContains_eq h.inv, h1.2]
  split
  · rename_i hh; rw [decide_eq_true hh]; simp
  · rename_i hh; rw [decide_eq_false hh]; simp

/-- C17: flipping the same range twice, with either function, restores the set. -/
theorem C17_flip_twice {r : Bitmap} (h : Valid r) (lo : Nat) {hi : Nat} (hhi : hi < 2 ^ 32) :
    rbEquals (rbFlipClosed (rbFlipClosed r lo hi) lo hi) r = true ∧
      rbEquals (rbFlipInplaceClosed (rbFlipInplaceClosed r lo hi) lo hi) r = true := by
  have h1 := C17_flip_closed h lo hhi
  have h2 := C17_flip_closed h1.1 lo hhi
  have h3 := C17_flip_inplace_closed h lo hhi
  have h4 := C17_flip_inplace_closed h3.1 lo hhi
  refine ⟨(C11_equals h2.1 h).2 fun v => ?_, (C11_equals h4.1 h).2 fun v => ?_⟩
  · rw [h2.2, h1.2]; split <;> simp
  · rw [h4.2, h3.2]; split <;> simp

/-- C43: `andnot(a, b)` is `and(a, flip(b))`, flipping over all 32-bit values. -/
theorem C43_andnot_flip {a b : Bitmap} (ha : Valid a) (hb : Valid b) :
    rbEquals (rbAndnot a b) (rbAnd a (rbFlipClosed b 0 (2 ^ 32 - 1))) = true := by
  have h1 := C17_flip_closed hb 0 (hi := 2 ^ 32 - 1) (by omega)
  have h2 := C05_and ha h1.1
  have h3 := C06_andnot ha hb
  refine (C11_equals h3.1 h2.1).2 fun v => ?_
  rw [h3.2, h2.2, h1.2]
  by_cases hv : 0 ≤ v ∧ v ≤ 2 ^ 32 - 1
  · rw [if_pos hv]
  · rw [if_neg hv]
    cases e : rbContains a v
    · rfl
    · rw [rbContains_eq ha.inv] at e
      have := bhas_lt ha.inv e
      omega

/-! ### Half-open ranges with 64-bit bounds -/

theorem half_open {lo hi : Nat} (h1 : ¬ (hi ≤ lo ∨ lo > 4294967296)) (h2 : hi ≤ 2 ^ 32) :
    (hi - 1) % 4294967296 < 2 ^ 32 ∧
      ∀ v, (lo % 4294967296 ≤ v ∧ v ≤ (hi - 1) % 4294967296) ↔ (lo ≤ v ∧ v < hi) := ⟨by omega, fun v => by omega⟩

/-- C14, restricted to the ranges the functions handle: an end of at most 2^32, or a range that is empty or starts
above 2^32.  Missing: `lo ≤ 2^32 < hi`, where the functions truncate the bounds and the claim is false (see below). -/
theorem C14_add_range_partial {r : Bitmap} (h : Valid r) {lo hi : Nat} (hr : hi ≤ 2 ^ 32 ∨ hi ≤ lo ∨ 2 ^ 32 < lo) :
    Valid (rbAddRange r lo hi) ∧ ∀ v, v < 2 ^ 32 →
      (rbContains (rbAddRange r lo hi) v = true ↔ (lo ≤ v ∧ v < hi) ∨ rbContains r v = true) := by
  unfold rbAddRange
  split
  · exact ⟨h, fun v hv => ⟨Or.inr, fun g => g.resolve_left (by omega)⟩⟩
  · rename_i hh
    obtain ⟨e1, e2⟩ := half_open hh (by omega)
    have h1 := C13_add_range_closed h (lo % 4294967296) e1
    exact ⟨h1.1, fun v _ => by rw [h1.2, e2]⟩

theorem C14_remove_range_partial {r : Bitmap} (h : Valid r) {lo hi : Nat} (hr : hi ≤ 2 ^ 32 ∨ hi ≤ lo ∨ 2 ^ 32 < lo) :
    Valid (rbRemoveRange r lo hi) ∧ ∀ v, v < 2 ^ 32 →
      (rbContains (rbRemoveRange r lo hi) v = true ↔ ¬ (lo ≤ v ∧ v < hi) ∧ rbContains r v = true) := by
  unfold rbRemoveRange
  split
  · exact ⟨h, fun v hv => ⟨fun g => ⟨by omega, g⟩, fun g => g.2⟩⟩
  · rename_i hh
    obtain ⟨e1, e2⟩ := half_open hh (by omega)
    have h1 := C13_remove_range_closed h (lo % 4294967296) ((hi - 1) % 4294967296)
    exact ⟨h1.1, fun v _ => by rw [h1.2, e2]⟩

theorem C14_contains_range_partial {r : Bitmap} (h : Valid r) {lo hi : Nat} (hr : hi ≤ 2 ^ 32 ∨ hi ≤ lo ∨ 2 ^ 32 < lo) :
    rbContainsRange r lo hi = true ↔ ∀ v, v < 2 ^ 32 → lo ≤ v → v < hi → rbContains r v = true := by
  unfold rbContainsRange
  split
  · exact ⟨fun _ v hv h1 h2 => by omega, fun _ => rfl⟩
  · rename_i hh
    obtain ⟨e1, e2⟩ := half_open (show ¬ (hi ≤ lo ∨ lo > 4294967296) by omega) (by omega)
    rw [C15_contains_range_closed h]
    constructor
    · intro g v _ h1 h2
      have := (e2 v).2 ⟨h1, h2⟩
      exact g v this.1 this.2
    · intro g v h1 h2
      have := (e2 v).1 ⟨h1, h2⟩
      exact g v (by omega) this.1 this.2

theorem C14_range_cardinality_partial {r : Bitmap} (h : Valid r) {lo hi : Nat} (hr : hi ≤ 2 ^ 32 ∨ hi ≤ lo ∨ 2 ^ 32 < lo) :
    rbRangeCardinality r lo hi = Spec.card (2 ^ 32) (fun v => decide (lo ≤ v ∧ v < hi) && rbContains r v) := by
  unfold rbRangeCardinality
  split
  · symm
    exact card_eq_zero.2 fun v hv => by rw [decide_eq_false (by omega)]; rfl
  · rename_i hh
    obtain ⟨e1, e2⟩ := half_open (show ¬ (hi ≤ lo ∨ lo > 4294967296) by omega) (by omega)
    rw [C16_range_cardinality_closed h]
    refine card_congr fun v _ => ?_
    rw [decide_eq_decide.2 (e2 v)]

theorem C14_flip_partial {r : Bitmap} (h : Valid r) {lo hi : Nat} (hr : hi ≤ 2 ^ 32 ∨ hi ≤ lo ∨ 2 ^ 32 < lo) :
    Valid (rbFlip r lo hi) ∧ Valid (rbFlipInplace r lo hi) ∧ ∀ v, v < 2 ^ 32 →
      (rbContains (rbFlip r lo hi) v = (if lo ≤ v ∧ v < hi then !rbContains r v else rbContains r v)) ∧
      (rbContains (rbFlipInplace r lo hi) v = (if lo ≤ v ∧ v < hi then !rbContains r v else rbContains r v)) := by
  unfold rbFlip rbFlipInplace
  split
  · refine ⟨h, h, fun v hv => ?_⟩
    rw [if_neg (by omega)]
    exact ⟨rfl, rfl⟩
  · rename_i hh
    obtain ⟨e1, e2⟩ := half_open (show ¬ (hi ≤ lo ∨ lo > 4294967296) by omega) (by omega)
    have h1 := C17_flip_closed h (lo % 4294967296) e1
    have h2 := C17_flip_inplace_closed h (lo % 4294967296) e1
    refine ⟨h1.1, h2.1, fun v _ => ?_⟩
    rw [h1.2, h2.2]
    simp only [e2 v]
    exact ⟨trivial, trivial⟩

/-- C14 is false in general: with an end of 2^32 + 1 only the value 0 of `[0, 2^32 + 1)` is handled, and a start of
2^32 is taken for 0. -/
theorem C14_false :
    rbContains (rbAddRange [] 0 (2 ^ 32 + 1)) 5 = false ∧
    rbContains (rbAddRange [] (2 ^ 32) (2 ^ 32 + 6)) 5 = true ∧
    rbContains (rbRemoveRange exS 0 (2 ^ 32 + 1)) 5 = true ∧
    (rbContainsRange [(0, .array [0])] 0 (2 ^ 32 + 1) = true ∧ rbContains [(0, .array [0])] 5 = false) ∧
    rbRangeCardinality exS 0 (2 ^ 32 + 2) = 1 ∧
    rbContains (rbFlip [] 0 (2 ^ 32 + 1)) 5 = false ∧
    rbContains (rbFlipInplace [] 0 (2 ^ 32 + 1)) 5 = false := by
  decide +kernel

/-! ### The hypotheses can be met -/

example : Valid exB ∧ 70000 ≤ 4294901999 ∧ 4294901999 < 2 ^ 32 := ⟨exB_valid, by omega, by omega⟩
example : rbContainsRangeClosed exS 131082 131102 = true ∧ rbContainsRangeClosed exS 131082 131103 = false ∧
    rbRangeCardinalityClosed exS 4 131090 = 11 := by decide +kernel
example : rbContains (rbAddRangeClosed exT 65530 131080) 70000 = true ∧ rbContains exT 70000 = false :=
  ⟨((C13_add_range_closed exT_valid 65530 (by omega)).2 _).2 (Or.inl (by omega)), by decide +kernel⟩
example : rbRemoveRangeClosed exS 5 131090 = [(0, .array [1]), (2, .run [(19, 11), (100, 0)])] := by decide +kernel
example : rbFlipClosed exS 65534 131085 =
    [(0, .array [1, 5, 65534]), (1, .run [(0, 65535)]), (2, .run [(0, 9), (14, 16), (100, 0)])] := by decide +kernel
example : rbFlipInplaceClosed exS 65534 131085 = rbFlipClosed exS 65534 131085 := by decide +kernel

end CRoaring.Props
