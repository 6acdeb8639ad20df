import Verif.Props.C09
import Verif.Props.C04
/-
C43: algebraic laws, as observed through `roaring_bitmap_equals`.
-/
namespace CRoaring.Props
open CRoaring

section
variable {a b c : Bitmap}

theorem C43_or_comm (ha : Valid a) (hb : Valid b) : rbEquals (rbOr a b) (rbOr b a) = true := by
  have h1 := C04_or ha hb
  have h2 := C04_or hb ha
  rw [C11_equals h1.1 h2.1]
  intro v
  rw [h1.2, h2.2, Bool.or_comm]

theorem C43_and_comm (ha : Valid a) (hb : Valid b) : rbEquals (rbAnd a b) (rbAnd b a) = true := by
  have h1 := C05_and ha hb
  have h2 := C05_and hb ha
  rw [C11_equals h1.1 h2.1]
  intro v
  rw [h1.2, h2.2, Bool.and_comm]

theorem C43_xor_comm (ha : Valid a) (hb : Valid b) : rbEquals (rbXor a b) (rbXor b a) = true := by
  have h1 := C07_xor ha hb
  have h2 := C07_xor hb ha
  rw [C11_equals h1.1 h2.1]
  intro v
  rw [h1.2, h2.2]
  cases rbContains a v <;> cases rbContains b v <;> rfl

theorem C43_or_assoc (ha : Valid a) (hb : Valid b) (hc : Valid c) :
    rbEquals (rbOr (rbOr a b) c) (rbOr a (rbOr b c)) = true := by
  have h1 := C04_or ha hb
  have h2 := C04_or hb hc
  have h3 := C04_or h1.1 hc
  have h4 := C04_or ha h2.1
  rw [C11_equals h3.1 h4.1]
  intro v
  rw [h3.2, h4.2, h1.2, h2.2, Bool.or_assoc]

theorem C43_and_assoc (ha : Valid a) (hb : Valid b) (hc : Valid c) :
    rbEquals (rbAnd (rbAnd a b) c) (rbAnd a (rbAnd b c)) = true := by
  have h1 := C05_and ha hb
  have h2 := C05_and hb hc
  have h3 := C05_and h1.1 hc
  have h4 := C05_and ha h2.1
  rw [C11_equals h3.1 h4.1]
  intro v
  rw [h3.2, h4.2, h1.2, h2.2, Bool.and_assoc]

theorem C43_idem (ha : Valid a) : rbEquals (rbOr a a) a = true ∧ rbEquals (rbAnd a a) a = true ∧
    rbIsEmpty (rbXor a a) = true ∧ rbIsEmpty (rbAndnot a a) = true := by
  have h1 := C04_or ha ha
  have h2 := C05_and ha ha
  have h3 := C07_xor ha ha
  have h4 := C06_andnot ha ha
  refine ⟨(C11_equals h1.1 ha).2 fun v => ?_, (C11_equals h2.1 ha).2 fun v => ?_,
    (C09_is_empty h3.1).1.2 fun v => ?_, (C09_is_empty h4.1).1.2 fun v => ?_⟩
  · rw [h1.2, Bool.or_self]
  · rw [h2.2, Bool.and_self]
  · rw [h3.2]; simp
  · rw [h4.2]; simp

theorem C43_distrib (ha : Valid a) (hb : Valid b) (hc : Valid c) :
    rbEquals (rbAnd a (rbOr b c)) (rbOr (rbAnd a b) (rbAnd a c)) = true ∧
      rbEquals (rbOr a (rbAnd b c)) (rbAnd (rbOr a b) (rbOr a c)) = true := by
  have o1 := C04_or hb hc
  have o2 := C05_and ha o1.1
  have o3 := C05_and ha hb
  have o4 := C05_and ha hc
  have o5 := C04_or o3.1 o4.1
  have n1 := C05_and hb hc
  have n2 := C04_or ha n1.1
  have n3 := C04_or ha hb
  have n4 := C04_or ha hc
  have n5 := C05_and n3.1 n4.1
  refine ⟨(C11_equals o2.1 o5.1).2 fun v => ?_, (C11_equals n2.1 n5.1).2 fun v => ?_⟩
  · rw [o2.2, o1.2, o5.2, o3.2, o4.2]
    cases rbContains a v <;> cases rbContains b v <;> cases rbContains c v <;> rfl
  · rw [n2.2, n1.2, n5.2, n3.2, n4.2]
    cases rbContains a v <;> cases rbContains b v <;> cases rbContains c v <;> rfl

/-- xor is the union minus the intersection; and andnot is `a xor (a and b)`. -/
theorem C43_xor_def (ha : Valid a) (hb : Valid b) :
    rbEquals (rbXor a b) (rbAndnot (rbOr a b) (rbAnd a b)) = true ∧
      rbEquals (rbAndnot a b) (rbXor a (rbAnd a b)) = true := by
  have h1 := C07_xor ha hb
  have h2 := C04_or ha hb
  have h3 := C05_and ha hb
  have h4 := C06_andnot h2.1 h3.1
  have h5 := C06_andnot ha hb
  have h6 := C07_xor ha h3.1
  refine ⟨(C11_equals h1.1 h4.1).2 fun v => ?_, (C11_equals h5.1 h6.1).2 fun v => ?_⟩
  · rw [h1.2, h4.2, h2.2, h3.2]
    cases rbContains a v <;> cases rbContains b v <;> rfl
  · rw [h5.2, h6.2, h3.2]
    cases rbContains a v <;> cases rbContains b v <;> rfl

end

example : Valid exS ∧ Valid exT ∧ Valid exB := ⟨exS_valid, exT_valid, exB_valid⟩
example : rbEquals (rbXor exS exT) (rbAndnot (rbOr exS exT) (rbAnd exS exT)) = true ∧ rbIsEmpty (rbAnd exS exT) = false := by
  decide +kernel

end CRoaring.Props
