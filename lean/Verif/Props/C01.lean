import Verif.Props.Common
/-
C01, C02: point updates.  `rbContains`, `rbAdd`, `rbRemove`, `rbAddChecked`, `rbRemoveChecked`, `rbCreate` are
the models of the API functions (Verif/Model/Bitmap.lean).
-/
namespace CRoaring.Props
open CRoaring

/-- C01: a new bitmap is valid and contains nothing. -/
theorem C01_create : Valid rbCreate ∧ ∀ y, rbContains rbCreate y = false := by
  have h : BInv rbCreate := trivial
  exact ⟨h.valid, fun y => by rw [rbContains_eq h]; rfl⟩

/-- C01: after `add(r, x)`, exactly `x` and the former values are contained. -/
theorem C01_add {r : Bitmap} (h : Valid r) {x : Nat} (hx : x < 2 ^ 32) :
    Valid (rbAdd r x) ∧ ∀ y, rbContains (rbAdd r x) y = true ↔ y = x ∨ rbContains r y = true := by
  have h1 := rbAdd_spec h.inv (v := x) (by omega)
  refine ⟨h1.1.valid, fun y => ?_⟩
  rw [rbContains_eq h1.1, rbContains_eq h.inv, h1.2]
  simp [Spec.insert]

/-- C01: after `remove(r, x)`, exactly the former values other than `x` are contained. -/
theorem C01_remove {r : Bitmap} (h : Valid r) {x : Nat} (hx : x < 2 ^ 32) :
    Valid (rbRemove r x) ∧ ∀ y, rbContains (rbRemove r x) y = true ↔ y ≠ x ∧ rbContains r y = true := by
  have h1 := rbRemove_spec h.inv (v := x) (by omega)
  refine ⟨h1.1.valid, fun y => ?_⟩
  rw [rbContains_eq h1.1, rbContains_eq h.inv, h1.2]
  simp [Spec.erase]

/-- C02: `add_checked` answers whether the value was absent and has the effect of `add`. -/
theorem C02_add_checked {r : Bitmap} (h : Valid r) {x : Nat} (hx : x < 2 ^ 32) :
    ((rbAddChecked r x).2 = true ↔ rbContains r x = false) ∧
      Valid (rbAddChecked r x).1 ∧
      ∀ y, rbContains (rbAddChecked r x).1 y = true ↔ y = x ∨ rbContains r y = true := by
  have h1 := rbAddChecked_spec h.inv (v := x) (by omega)
  rw [h1.1, h1.2]
  refine ⟨?_, C01_add h hx⟩
  rw [rbContains_eq h.inv]; simp

/-- C02: `remove_checked` answers whether the value was present and has the effect of `remove`. -/
theorem C02_remove_checked {r : Bitmap} (h : Valid r) {x : Nat} (hx : x < 2 ^ 32) :
    ((rbRemoveChecked r x).2 = true ↔ rbContains r x = true) ∧
      Valid (rbRemoveChecked r x).1 ∧
      ∀ y, rbContains (rbRemoveChecked r x).1 y = true ↔ y ≠ x ∧ rbContains r y = true := by
  have h1 := rbRemoveChecked_spec h.inv (v := x) (by omega)
  rw [h1.1, h1.2]
  refine ⟨?_, C01_remove h hx⟩
  rw [rbContains_eq h.inv]

example : Valid exB ∧ 65536 * 65535 + 64 < 2 ^ 32 := ⟨exB_valid, by omega⟩
example : rbContains exS 5 = true ∧ rbContains exS 6 = false ∧ rbContains exS 131090 = true := by decide +kernel
example : (rbAddChecked exS 6).2 = true ∧ (rbAddChecked exS 5).2 = false ∧
    (rbRemoveChecked exS 131090).2 = true ∧ (rbRemoveChecked exS 131110).2 = false := by decide +kernel

end CRoaring.Props
