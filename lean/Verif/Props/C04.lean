import Verif.Props.Common
/-
C04-C08: the binary set operations, allocating and in place.

The in-place operations have extra arguments that range over everything the C code may look at besides the two
sets: `shared k` says that the container with key `k` of the first operand is reference-counted, `caps k` is the
allocated capacity of the array container with key `k`, and `same` says that both arguments are the same object.
-/
namespace CRoaring.Props
open CRoaring

/-- C04: union. -/
theorem C04_or {a b : Bitmap} (ha : Valid a) (hb : Valid b) :
    Valid (rbOr a b) ∧ ∀ v, rbContains (rbOr a b) v = (rbContains a v || rbContains b v) := by
  have h := rbOr_spec ha.inv hb.inv
  exact ⟨h.1.valid, fun v => by rw [rbContains_eq h.1, h.2, rbContains_eq ha.inv, rbContains_eq hb.inv]⟩

/-- C05: intersection. -/
theorem C05_and {a b : Bitmap} (ha : Valid a) (hb : Valid b) :
    Valid (rbAnd a b) ∧ ∀ v, rbContains (rbAnd a b) v = (rbContains a v && rbContains b v) := by
  have h := rbAnd_spec ha.inv hb.inv
  exact ⟨h.1.valid, fun v => by rw [rbContains_eq h.1, h.2, rbContains_eq ha.inv, rbContains_eq hb.inv]⟩

/-- C06: difference. -/
theorem C06_andnot {a b : Bitmap} (ha : Valid a) (hb : Valid b) :
    Valid (rbAndnot a b) ∧ ∀ v, rbContains (rbAndnot a b) v = (rbContains a v && !rbContains b v) := by
  have h := rbAndnot_spec ha.inv hb.inv
  exact ⟨h.1.valid, fun v => by rw [rbContains_eq h.1, h.2, rbContains_eq ha.inv, rbContains_eq hb.inv]⟩

/-- C07: symmetric difference. -/
theorem C07_xor {a b : Bitmap} (ha : Valid a) (hb : Valid b) :
    Valid (rbXor a b) ∧ ∀ v, rbContains (rbXor a b) v = (rbContains a v != rbContains b v) := by
  have h := rbXor_spec ha.inv hb.inv
  exact ⟨h.1.valid, fun v => by rw [rbContains_eq h.1, h.2, rbContains_eq ha.inv, rbContains_eq hb.inv]⟩

/-- C08: union in place. -/
theorem C08_or_inplace {a b : Bitmap} (ha : Valid a) (hb : Valid b) (shared : Nat → Bool) (caps : Nat → Nat) :
    Valid (rbOrInplace shared caps a b) ∧
      ∀ v, rbContains (rbOrInplace shared caps a b) v = (rbContains a v || rbContains b v) := by
  have h := rbOrInplace_spec shared caps ha.inv hb.inv
  exact ⟨h.1.valid, fun v => by rw [rbContains_eq h.1, h.2, rbContains_eq ha.inv, rbContains_eq hb.inv]⟩

/-- C08: intersection in place; both arguments may be the same object. -/
theorem C08_and_inplace {a b : Bitmap} (ha : Valid a) (hb : Valid b) (same : Bool) (hsame : same = true → a = b)
    (shared : Nat → Bool) :
    Valid (rbAndInplace same shared a b) ∧
      ∀ v, rbContains (rbAndInplace same shared a b) v = (rbContains a v && rbContains b v) := by
  have h := rbAndInplace_spec same shared ha.inv hb.inv hsame
  exact ⟨h.1.valid, fun v => by rw [rbContains_eq h.1, h.2, rbContains_eq ha.inv, rbContains_eq hb.inv]⟩

/-- C08: difference in place. -/
theorem C08_andnot_inplace {a b : Bitmap} (ha : Valid a) (hb : Valid b) (shared : Nat → Bool) :
    Valid (rbAndnotInplace shared a b) ∧
      ∀ v, rbContains (rbAndnotInplace shared a b) v = (rbContains a v && !rbContains b v) := by
  have h := rbAndnotInplace_spec shared ha.inv hb.inv
  exact ⟨h.1.valid, fun v => by rw [rbContains_eq h.1, h.2, rbContains_eq ha.inv, rbContains_eq hb.inv]⟩

/-- C08: symmetric difference in place. -/
theorem C08_xor_inplace {a b : Bitmap} (ha : Valid a) (hb : Valid b) (shared : Nat → Bool) :
    Valid (rbXorInplace shared a b) ∧
      ∀ v, rbContains (rbXorInplace shared a b) v = (rbContains a v != rbContains b v) := by
  have h := rbXorInplace_spec shared ha.inv hb.inv
  exact ⟨h.1.valid, fun v => by rw [rbContains_eq h.1, h.2, rbContains_eq ha.inv, rbContains_eq hb.inv]⟩

example : Valid exS ∧ Valid exT ∧ Valid exB := ⟨exS_valid, exT_valid, exB_valid⟩
example : keysOf (rbOr exS exT) = [0, 2, 65535] ∧ keysOf (rbAndnot exT exS) = [0, 2, 65535] := by decide +kernel

end CRoaring.Props
