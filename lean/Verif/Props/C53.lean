import Verif.Props.Common64
/-
C53, C55 - C59: 64-bit bitmaps: point updates, set operations, cardinalities, comparisons.

As in C04, the in-place operations have arguments for everything the C code may look at besides the two sets.
-/
namespace CRoaring.Props
open CRoaring

/-! ### Point updates -/

/-- C53: a new bitmap is valid and empty. -/
theorem C53_create : Valid64 r64Create ∧ ∀ y, y < 2 ^ 64 → r64Contains r64Create y = false := fin64 rep64_empty

/-- C53: after `add(r, x)`, exactly `x` and the former values are contained. -/
theorem C53_add {r : R64} (h : Valid64 r) {x : Nat} (hx : x < 2 ^ 64) :
    Valid64 (r64Add r x) ∧ ∀ y, y < 2 ^ 64 → (r64Contains (r64Add r x) y = true ↔ y = x ∨ r64Contains r y = true) := by
  obtain ⟨h1, h2⟩ := fin64 (r64Add_spec h.rep (v := x) (by unfold TOP64; omega))
  refine ⟨h1, fun y hy => ?_⟩
  rw [h2 y hy]
  simp [Spec.insert, has64_of hy]

/-- C53: after `remove(r, x)`, exactly the former values other than `x` are contained. -/
theorem C53_remove {r : R64} (h : Valid64 r) {x : Nat} (hx : x < 2 ^ 64) :
    Valid64 (r64Remove r x) ∧ ∀ y, y < 2 ^ 64 → (r64Contains (r64Remove r x) y = true ↔ y ≠ x ∧ r64Contains r y = true) := by
  obtain ⟨h1, h2⟩ := fin64 (r64Remove_spec h.rep (v := x) (by unfold TOP64; omega))
  refine ⟨h1, fun y hy => ?_⟩
  rw [h2 y hy]
  simp [Spec.erase, has64_of hy]

/-- C53: `add_checked` answers whether the value was absent, and has the effect of `add`. -/
theorem C53_add_checked {r : R64} (h : Valid64 r) {x : Nat} (hx : x < 2 ^ 64) :
    ((r64AddChecked r x).2 = true ↔ r64Contains r x = false) ∧ Valid64 (r64AddChecked r x).1 ∧
      ∀ y, y < 2 ^ 64 → (r64Contains (r64AddChecked r x).1 y = true ↔ y = x ∨ r64Contains r y = true) := by
  obtain ⟨h1, h2⟩ := r64AddChecked_spec h.rep (v := x) (by unfold TOP64; omega)
  rw [h1, h2, has64_of hx]
  exact ⟨by simp, C53_add h hx⟩

/-- C53: `remove_checked` answers whether the value was present, and has the effect of `remove`. -/
theorem C53_remove_checked {r : R64} (h : Valid64 r) {x : Nat} (hx : x < 2 ^ 64) :
    ((r64RemoveChecked r x).2 = true ↔ r64Contains r x = true) ∧ Valid64 (r64RemoveChecked r x).1 ∧
      ∀ y, y < 2 ^ 64 → (r64Contains (r64RemoveChecked r x).1 y = true ↔ y ≠ x ∧ r64Contains r y = true) := by
  obtain ⟨h1, h2⟩ := r64RemoveChecked_spec h.rep (v := x) (by unfold TOP64; omega)
  rw [h1, h2, has64_of hx]
  exact ⟨Iff.rfl, C53_remove h hx⟩

/-- C53: a copy has the same values; `clear` leaves none. -/
theorem C53_copy_clear {r : R64} (h : Valid64 r) :
    (Valid64 (r64Copy r) ∧ ∀ y, y < 2 ^ 64 → r64Contains (r64Copy r) y = r64Contains r y) ∧
    (Valid64 (r64Clear r) ∧ ∀ y, y < 2 ^ 64 → r64Contains (r64Clear r) y = false) := by
  obtain ⟨h1, h2⟩ := fin64 (r64Copy_spec h.rep)
  obtain ⟨h3, h4⟩ := fin64 (r64RemoveRangeClosed_spec h.rep (min := 0) (max := TOP64 - 1) (by unfold TOP64; omega))
  refine ⟨⟨h1, fun y hy => by rw [h2 y hy, has64_of hy]⟩, h3, fun y hy => ?_⟩
  show r64Contains (r64RemoveRangeClosed r 0 (TOP64 - 1)) y = false
  rw [h4 y hy]
  simp only [Spec.diff, Spec.range]
  rw [decide_eq_true (Nat.zero_le y), decide_eq_true (by unfold TOP64; omega)]
  simp

example : Valid64 exS64 ∧ 9223372036854775815 < 2 ^ 64 := ⟨exS64_valid, by omega⟩
example : r64Contains exS64 5 = true ∧ r64Contains exS64 6 = false ∧ r64Contains exS64 70000 = true ∧
    (r64AddChecked exS64 6).2 = true ∧ (r64RemoveChecked exS64 131080).2 = true ∧ (r64RemoveChecked exS64 131081).2 = false := by
  decide +kernel

/-! ### Set operations -/

/-- C55: union. -/
theorem C55_or {a b : R64} (ha : Valid64 a) (hb : Valid64 b) :
    Valid64 (r64Or a b) ∧ ∀ y, y < 2 ^ 64 → r64Contains (r64Or a b) y = (r64Contains a y || r64Contains b y) := by
  obtain ⟨h1, h2⟩ := fin64 (r64Or_spec ha.rep hb.rep)
  exact ⟨h1, fun y hy => by rw [h2 y hy, Spec.union, has64_of hy, has64_of hy]⟩

/-- C55: intersection. -/
theorem C55_and {a b : R64} (ha : Valid64 a) (hb : Valid64 b) :
    Valid64 (r64And a b) ∧ ∀ y, y < 2 ^ 64 → r64Contains (r64And a b) y = (r64Contains a y && r64Contains b y) := by
  obtain ⟨h1, h2⟩ := fin64 (r64And_spec ha.rep hb.rep)
  exact ⟨h1, fun y hy => by rw [h2 y hy, Spec.inter, has64_of hy, has64_of hy]⟩

/-- C55: difference. -/
theorem C55_andnot {a b : R64} (ha : Valid64 a) (hb : Valid64 b) :
    Valid64 (r64Andnot a b) ∧ ∀ y, y < 2 ^ 64 → r64Contains (r64Andnot a b) y = (r64Contains a y && !r64Contains b y) := by
  obtain ⟨h1, h2⟩ := fin64 (r64Andnot_spec ha.rep hb.rep)
  exact ⟨h1, fun y hy => by rw [h2 y hy, Spec.diff, has64_of hy, has64_of hy]⟩

/-- C55: symmetric difference. -/
theorem C55_xor {a b : R64} (ha : Valid64 a) (hb : Valid64 b) :
    Valid64 (r64Xor a b) ∧ ∀ y, y < 2 ^ 64 → r64Contains (r64Xor a b) y = (r64Contains a y != r64Contains b y) := by
  obtain ⟨h1, h2⟩ := fin64 (r64Xor_spec ha.rep hb.rep)
  exact ⟨h1, fun y hy => by rw [h2 y hy, Spec.symm, has64_of hy, has64_of hy]⟩

/-- C56: union in place; both arguments may be the same object. -/
theorem C56_or_inplace {a b : R64} (ha : Valid64 a) (hb : Valid64 b) (same : Bool) (hs : same = true → a = b)
    (shared : List Nat → Bool) (caps : List Nat → Nat) :
    Valid64 (r64OrInplace same shared caps a b) ∧
      ∀ y, y < 2 ^ 64 → r64Contains (r64OrInplace same shared caps a b) y = (r64Contains a y || r64Contains b y) := by
  obtain ⟨h1, h2⟩ := fin64 (r64OrInplace_spec same shared caps ha.rep hb.rep hs)
  exact ⟨h1, fun y hy => by rw [h2 y hy, Spec.union, has64_of hy, has64_of hy]⟩

/-- C56: intersection in place; both arguments may be the same object. -/
theorem C56_and_inplace {a b : R64} (ha : Valid64 a) (hb : Valid64 b) (same : Bool) (hs : same = true → a = b)
    (shared : List Nat → Bool) :
    Valid64 (r64AndInplace same shared a b) ∧
      ∀ y, y < 2 ^ 64 → r64Contains (r64AndInplace same shared a b) y = (r64Contains a y && r64Contains b y) := by
  obtain ⟨h1, h2⟩ := fin64 (r64AndInplace_spec same shared ha.rep hb.rep hs)
  exact ⟨h1, fun y hy => by rw [h2 y hy, Spec.inter, has64_of hy, has64_of hy]⟩

/-- C56: difference in place. -/
theorem C56_andnot_inplace {a b : R64} (ha : Valid64 a) (hb : Valid64 b) (shared : List Nat → Bool) :
    Valid64 (r64AndnotInplace shared a b) ∧
      ∀ y, y < 2 ^ 64 → r64Contains (r64AndnotInplace shared a b) y = (r64Contains a y && !r64Contains b y) := by
  obtain ⟨h1, h2⟩ := fin64 (r64AndnotInplace_spec shared ha.rep hb.rep)
  exact ⟨h1, fun y hy => by rw [h2 y hy, Spec.diff, has64_of hy, has64_of hy]⟩

/-- C56: symmetric difference in place. -/
theorem C56_xor_inplace {a b : R64} (ha : Valid64 a) (hb : Valid64 b) (shared : List Nat → Bool) :
    Valid64 (r64XorInplace shared a b) ∧
      ∀ y, y < 2 ^ 64 → r64Contains (r64XorInplace shared a b) y = (r64Contains a y != r64Contains b y) := by
  obtain ⟨h1, h2⟩ := fin64 (r64XorInplace_spec shared ha.rep hb.rep)
  exact ⟨h1, fun y hy => by rw [h2 y hy, Spec.symm, has64_of hy, has64_of hy]⟩

example : Valid64 exS64 ∧ Valid64 exT64 ∧ Valid64 exFull64 := ⟨exS64_valid, exT64_valid, exFull64_valid⟩
example : r64Contains (r64And exS64 exT64) 131000 = true ∧ r64Contains (r64Andnot exS64 exT64) 131000 = false ∧
    r64Contains (r64XorInplace (fun _ => false) exS64 exT64) 131090 = true := by decide +kernel

/-! ### Cardinalities -/

/-- C57: the cardinality, a 64-bit number, is the number of contained values, unless all 2^64 values are contained, and
then it is 0; `is_empty` is exact. -/
theorem C57_cardinality {r : R64} (h : Valid64 r) :
    r64Cardinality r = Spec.card (2 ^ 64) (r64Contains r) % 2 ^ 64 ∧
    ((∃ y, y < 2 ^ 64 ∧ r64Contains r y = false) → r64Cardinality r = Spec.card (2 ^ 64) (r64Contains r)) ∧
    ((∀ y, y < 2 ^ 64 → r64Contains r y = true) → r64Cardinality r = 0) ∧
    (r64IsEmpty r = true ↔ ∀ y, y < 2 ^ 64 → r64Contains r y = false) := by
  have e : r64Cardinality r = Spec.card (2 ^ 64) (r64Contains r) % 2 ^ 64 := by
    rw [r64Cardinality_eq h.rep, ← card_has64 (Nat.le_refl _)]
    rfl
  refine ⟨e, fun ⟨y, hy, hh⟩ => ?_, fun hh => ?_, ?_⟩
  · rw [e, Nat.mod_eq_of_lt (card_lacks hy hh)]
  · rw [e, card_all hh, Nat.mod_self]
  · rw [r64IsEmpty_iff h.rep]
    constructor
    · intro hh y hy; rw [← has64_of hy]; exact hh y
    · intro hh y
      by_cases hy : y < 2 ^ 64
      · rw [has64_of hy]; exact hh y hy
      · cases hc : has64 r y with
        | false => rfl
        | true => exact absurd (has64_lt hc).1 hy

theorem card_op {a b : R64} (f : NSet → NSet → NSet) (hf : ∀ s t s' t' x, s x = s' x → t x = t' x → f s t x = f s' t' x) :
    Spec.card TOP64 (f (has64 a) (has64 b)) % TOP64 = Spec.card (2 ^ 64) (f (r64Contains a) (r64Contains b)) % 2 ^ 64 := by
  have : Spec.card TOP64 (f (has64 a) (has64 b)) = Spec.card (2 ^ 64) (f (r64Contains a) (r64Contains b)) :=
    card_congr' fun x hx => hf _ _ _ _ _ (has64_of hx) (has64_of hx)
  rw [this]
  rfl

/-- C57: the cardinality functions of the set operations count without building the result; `jaccard_index` is the quotient
of the sizes of intersection and union, given here as a pair. -/
theorem C57_op_cardinality {a b : R64} (ha : Valid64 a) (hb : Valid64 b) :
    r64AndCardinality a b = Spec.card (2 ^ 64) (Spec.inter (r64Contains a) (r64Contains b)) % 2 ^ 64 ∧
    r64OrCardinality a b = Spec.card (2 ^ 64) (Spec.union (r64Contains a) (r64Contains b)) % 2 ^ 64 ∧
    r64AndnotCardinality a b = Spec.card (2 ^ 64) (Spec.diff (r64Contains a) (r64Contains b)) % 2 ^ 64 ∧
    r64XorCardinality a b = Spec.card (2 ^ 64) (Spec.symm (r64Contains a) (r64Contains b)) % 2 ^ 64 ∧
    r64Jaccard a b = (Spec.card (2 ^ 64) (Spec.inter (r64Contains a) (r64Contains b)) % 2 ^ 64,
      Spec.card (2 ^ 64) (Spec.union (r64Contains a) (r64Contains b)) % 2 ^ 64) := by
  have e1 := card_op (a := a) (b := b) Spec.inter (fun s t s' t' x h1 h2 => by simp [Spec.inter, h1, h2])
  have e2 := card_op (a := a) (b := b) Spec.union (fun s t s' t' x h1 h2 => by simp [Spec.union, h1, h2])
  have e3 := card_op (a := a) (b := b) Spec.diff (fun s t s' t' x h1 h2 => by simp [Spec.diff, h1, h2])
  have e4 := card_op (a := a) (b := b) Spec.symm (fun s t s' t' x h1 h2 => by simp [Spec.symm, h1, h2])
  rw [r64AndCardinality_eq ha.rep hb.rep, r64OrCardinality_eq ha.rep hb.rep, r64AndnotCardinality_eq ha.rep hb.rep,
    r64XorCardinality_eq ha.rep hb.rep, r64Jaccard_eq ha.rep hb.rep, e1, e2, e3, e4]
  exact ⟨rfl, rfl, rfl, rfl, rfl⟩

/-- C57: `intersect` says whether a common value exists. -/
theorem C57_intersect {a b : R64} (ha : Valid64 a) (hb : Valid64 b) :
    r64Intersect a b = true ↔ ∃ y, y < 2 ^ 64 ∧ r64Contains a y = true ∧ r64Contains b y = true := by
  rw [r64Intersect_iff ha.rep hb.rep]
  constructor
  · rintro ⟨y, h1, h2⟩; exact ⟨y, (has64_lt h1).1, (has64_lt h1).2, (has64_lt h2).2⟩
  · rintro ⟨y, hy, h1, h2⟩; exact ⟨y, has64_iff.2 ⟨hy, h1⟩, has64_iff.2 ⟨hy, h2⟩⟩

example : r64Cardinality exS64 = 65553 ∧ r64AndCardinality exS64 exT64 = 82 ∧ r64XorCardinality exS64 exT64 = 65553 + 105 - 2 * 82 ∧
    r64Intersect exS64 exT64 = true := by decide +kernel
example : ∃ y, y < 2 ^ 64 ∧ r64Contains exS64 y = false := ⟨6, by omega, by decide +kernel⟩
example : ∀ y, y < 2 ^ 64 → r64Contains exFull64 y = true := fun _ => exFull64_has

/-! ### Comparisons -/

/-- C58: `equals` is equality of the sets. -/
theorem C58_equals {a b : R64} (ha : Valid64 a) (hb : Valid64 b) :
    r64Equals a b = true ↔ ∀ y, y < 2 ^ 64 → r64Contains a y = r64Contains b y := by
  rw [r64Equals_iff ha.rep hb.rep]
  constructor
  · intro h y hy; rw [← has64_of hy, ← has64_of hy]; exact h y
  · intro h y
    unfold has64
    by_cases hy : y < TOP64
    · rw [h y (by unfold TOP64 at hy; omega)]
    · rw [decide_eq_false hy, Bool.false_and, Bool.false_and]

/-- C58: `is_subset` is inclusion. -/
theorem C58_is_subset {a b : R64} (ha : Valid64 a) (hb : Valid64 b) :
    r64IsSubset a b = true ↔ ∀ y, y < 2 ^ 64 → r64Contains a y = true → r64Contains b y = true := by
  rw [r64IsSubset_iff ha.rep hb.rep]
  constructor
  · intro h y hy h1; exact (has64_lt (h y (has64_iff.2 ⟨hy, h1⟩))).2
  · intro h y h1
    obtain ⟨hy, h1⟩ := has64_lt h1
    exact has64_iff.2 ⟨hy, h y hy h1⟩

/-- C59: `is_strict_subset` is strict inclusion, provided the second bitmap lacks some value.  Missing: the second bitmap
has all 2^64 values, where the claim is false (`C59_is_strict_subset_false`). -/
theorem C59_is_strict_subset_partial {a b : R64} (ha : Valid64 a) (hb : Valid64 b) (hlack : ∃ y, y < 2 ^ 64 ∧ r64Contains b y = false) :
    r64IsStrictSubset a b = true ↔
      (∀ y, y < 2 ^ 64 → r64Contains a y = true → r64Contains b y = true) ∧
      ∃ y, y < 2 ^ 64 ∧ r64Contains b y = true ∧ r64Contains a y = false := by
  obtain ⟨z, hz, hz'⟩ := hlack
  have hc : Spec.card TOP64 (has64 b) < TOP64 := card_lacks (y := z) (by unfold TOP64; omega) (by rw [has64_of hz]; exact hz')
  rw [r64IsStrictSubset_iff ha.rep hb.rep hc]
  constructor
  · rintro ⟨h, y, h1, h2⟩
    obtain ⟨hy, h1⟩ := has64_lt h1
    rw [has64_of hy] at h2
    exact ⟨fun y hy h1 => (has64_lt (h y (has64_iff.2 ⟨hy, h1⟩))).2, y, hy, h1, h2⟩
  · rintro ⟨h, y, hy, h1, h2⟩
    refine ⟨fun y h1 => ?_, y, has64_iff.2 ⟨hy, h1⟩, by rw [has64_of hy]; exact h2⟩
    obtain ⟨hy, h1⟩ := has64_lt h1
    exact has64_iff.2 ⟨hy, h y hy h1⟩

/-- The comparison goes by the 64-bit cardinalities, and that of the full set is 0: the empty set is said not to be a
strict subset of it. -/
theorem C59_is_strict_subset_false :
    ∃ a b, Valid64 a ∧ Valid64 b ∧ r64IsStrictSubset a b = false ∧
      (∀ y, y < 2 ^ 64 → r64Contains a y = true → r64Contains b y = true) ∧
      ∃ y, y < 2 ^ 64 ∧ r64Contains b y = true ∧ r64Contains a y = false := by
  refine ⟨r64Create, exFull64, C53_create.1, exFull64_valid, ?_, fun y hy _ => exFull64_has hy, 0, by omega, exFull64_has (by omega), rfl⟩
  have h0 := (C57_cardinality exFull64_valid).2.2.1 fun y => exFull64_has
  unfold r64IsStrictSubset
  rw [h0]
  rfl

example : ∃ y, y < 2 ^ 64 ∧ r64Contains exT64 y = false := ⟨7, by omega, by decide +kernel⟩
example : r64Equals (r64Or exS64 exT64) (r64Or exT64 exS64) = true ∧ r64IsSubset (r64And exS64 exT64) exT64 = true ∧
    r64IsStrictSubset (r64And exS64 exT64) exT64 = true ∧ r64IsStrictSubset exT64 exT64 = false := by decide +kernel

end CRoaring.Props
