import Verif.Lemmas.Bitmap3
/-
Concrete bitmaps used to show that the hypotheses of the property theorems can be met.

`Valid r` (Verif/Lemmas/Bitmap.lean) says that the fields of `r` are in the range of their C types and that the
modelled `roaring_bitmap_internal_validate` accepts `r`.
-/
namespace CRoaring.Props
open CRoaring

instance (c : Container) : Decidable (CTyped c) := by
  cases c <;> (unfold CTyped; infer_instance)
instance (r : Bitmap) : Decidable (Typed r) := by unfold Typed; infer_instance
instance (r : Bitmap) : Decidable (Valid r) := by unfold Valid; infer_instance

/-- Small bitmap with an array and a run container: {1, 5, 65535, 131082, ..., 131102, 131172}. -/
def exS : Bitmap := [(0, .array [1, 5, 65535]), (2, .run [(10, 20), (100, 0)])]

/-- Another small bitmap, overlapping `exS` in part: {5, 7, 131072+[0..12], 2^32-1}. -/
def exT : Bitmap := [(0, .array [5, 7]), (2, .run [(0, 12)]), (65535, .array [65535])]

/-- Array, run and (full) bitset container. -/
def exF : Bitmap :=
  [(0, .array [1, 5, 65535]), (2, .run [(10, 20), (100, 0)]), (65535, .bitset bitsetSetAll)]

theorem exS_valid : Valid exS := by decide +kernel
theorem exT_valid : Valid exT := by decide +kernel

theorem rep_setAll : Rep (.bitset bitsetSetAll) (fun x => decide (x < 65536)) :=
  rep_bitset bitsetSetAll_ok.len bitAt_setAll
    (by rw [card_int_congr (t := fun _ => true) fun x hx => decide_eq_true hx, card_true]; rfl)
    (by decide)

theorem exF_valid : Valid exF := by
  have h : BInv exF := by
    have hs := exS_valid.inv
    refine ⟨by omega, hs.2.1, ?_, by omega, hs.2.2.2.2.1, ?_, by omega, ⟨?_, 0, ?_⟩, by simp, trivial⟩
    · simp
    · simp
    · exact (rep_setAll).inv
    · rw [rep_setAll.has]; rfl
  exact h.valid

/-- `exF` without the value 65535 * 65536 + 64: its last container is a bitset that is not full. -/
def exB : Bitmap := rbRemove exF 4294901824

theorem exB_valid : Valid exB := (rbRemove_spec exF_valid.inv (by omega)).1.valid

end CRoaring.Props
