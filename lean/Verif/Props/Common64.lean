import Verif.Lemmas.Validate64
import Verif.Lemmas.R64h
import Verif.Lemmas.R64i
/-
What the property theorems about 64-bit bitmaps share.

`Valid64 r` (Verif/Lemmas/Validate64.lean) says that the fields of `r` are in the range of their C types and that the
modelled `roaring64_bitmap_internal_validate` accepts `r`.  `r64Contains r v` is the modelled
`roaring64_bitmap_contains`.
-/
namespace CRoaring.Props
open CRoaring

/-- What the lemmas say about a result, in terms of the API. -/
theorem fin64 {r : R64} {s : NSet} (h : Rep64 r s) : Valid64 r ∧ ∀ y, y < 2 ^ 64 → r64Contains r y = s y :=
  ⟨h.inv.valid, fun y hy => h.contains (by unfold TOP64; omega)⟩

theorem has64_of {r : R64} {y : Nat} (hy : y < 2 ^ 64) : has64 r y = r64Contains r y := by
  unfold has64
  rw [decide_eq_true (by unfold TOP64; omega), Bool.true_and]

theorem has64_lt {r : R64} {y : Nat} (h : has64 r y = true) : y < 2 ^ 64 ∧ r64Contains r y = true := by
  unfold has64 TOP64 at h
  simp only [Bool.and_eq_true, decide_eq_true_eq] at h
  exact ⟨by omega, h.2⟩

theorem has64_iff {r : R64} {y : Nat} : has64 r y = true ↔ y < 2 ^ 64 ∧ r64Contains r y = true :=
  ⟨has64_lt, fun h => (has64_of h.1).trans h.2⟩

theorem _root_.CRoaring.Valid64.rep {r : R64} (h : Valid64 r) : Rep64 r (has64 r) := h.inv.rep

theorem enum_congr' {n : Nat} {s t : NSet} (h : ∀ x, x < n → s x = t x) : Spec.enum n s = Spec.enum n t := by
  unfold Spec.enum
  exact List.filter_congr fun x hx => h x (List.mem_range.1 hx)

theorem card_congr' {n : Nat} {s t : NSet} (h : ∀ x, x < n → s x = t x) : Spec.card n s = Spec.card n t := by
  unfold Spec.card
  rw [enum_congr' h]

theorem enum_has64 {n : Nat} (hn : n ≤ 2 ^ 64) (r : R64) : Spec.enum n (has64 r) = Spec.enum n (r64Contains r) :=
  enum_congr' fun x hx => has64_of (by omega)

theorem card_has64 {n : Nat} (hn : n ≤ 2 ^ 64) (r : R64) : Spec.card n (has64 r) = Spec.card n (r64Contains r) :=
  card_congr' fun x hx => has64_of (by omega)

/-! ### Concrete bitmaps -/

/-- {5} ∪ [65530, 131080] ∪ {2^63 + 7}: an array, runs, and a key that differs in the first byte. -/
def exS64 : R64 := r64Add (r64AddRangeClosed (r64Add r64Create 5) 65530 131080) 9223372036854775815

/-- {5, 6} ∪ [131000, 131100] ∪ {2^63 + 8, 2^64 - 1}. -/
def exT64 : R64 :=
  r64Add (r64Add (r64AddRangeClosed (r64Add (r64Add r64Create 5) 6) 131000 131100) 9223372036854775816) 18446744073709551615

/-- All 2^64 values. -/
def exFull64 : R64 := r64AddRangeClosed r64Create 0 18446744073709551615

theorem exS64_rep : Rep64 exS64 (Spec.insert (Spec.union (Spec.insert Spec.empty 5) (Spec.range 65530 131081)) 9223372036854775815) :=
  r64Add_spec (r64AddRangeClosed_spec (r64Add_spec rep64_empty (by unfold TOP64; omega)) (by unfold TOP64; omega)) (by unfold TOP64; omega)

theorem exT64_rep : Rep64 exT64 (Spec.insert (Spec.insert (Spec.union (Spec.insert (Spec.insert Spec.empty 5) 6) (Spec.range 131000 131101))
    9223372036854775816) 18446744073709551615) :=
  r64Add_spec (r64Add_spec (r64AddRangeClosed_spec (r64Add_spec (r64Add_spec rep64_empty (by unfold TOP64; omega)) (by unfold TOP64; omega))
    (by unfold TOP64; omega)) (by unfold TOP64; omega)) (by unfold TOP64; omega)

theorem exFull64_rep : Rep64 exFull64 (Spec.union Spec.empty (Spec.range 0 (18446744073709551615 + 1))) :=
  r64AddRangeClosed_spec rep64_empty (by unfold TOP64; omega)

theorem exS64_valid : Valid64 exS64 := exS64_rep.inv.valid
theorem exT64_valid : Valid64 exT64 := exT64_rep.inv.valid
theorem exFull64_valid : Valid64 exFull64 := exFull64_rep.inv.valid

theorem exFull64_has {y : Nat} (hy : y < 2 ^ 64) : r64Contains exFull64 y = true := by
  rw [(fin64 exFull64_rep).2 y hy]
  simp only [Spec.union, Spec.empty, Spec.range, Bool.false_or, Bool.and_eq_true, decide_eq_true_eq]
  omega

/-- The set of all values below `n` has `n` members. -/
theorem card_all {n : Nat} {s : NSet} (h : ∀ x, x < n → s x = true) : Spec.card n s = n := by
  unfold Spec.card Spec.enum
  rw [List.filter_eq_self.2 (fun x hx => h x (List.mem_range.1 hx)), List.length_range]

/-- A set that lacks a value below `n` has fewer than `n` members below `n`. -/
theorem card_lacks {n : Nat} {s : NSet} {y : Nat} (hy : y < n) (h : s y = false) : Spec.card n s < n := by
  unfold Spec.card Spec.enum
  have h1 := List.length_filter_lt_length_iff_exists (p := s) (l := List.range n)
  rw [List.length_range] at h1
  exact h1.2 ⟨y, List.mem_range.2 hy, by simp [h]⟩

theorem card_le' (n : Nat) (s : NSet) : Spec.card n s ≤ n := by
  unfold Spec.card Spec.enum
  have := List.length_filter_le s (List.range n)
  rwa [List.length_range] at this

end CRoaring.Props
