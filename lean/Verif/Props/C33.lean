import Verif.Props.Common
import Verif.Lemmas.Offset
/-
C33, C34, C37: lazy operations and their repair, many-way operations, the shift by an offset.
-/
namespace CRoaring.Props
open CRoaring

/-- An expression over bitmaps with the lazy unions.  Each call carries its `bitsetconversion` flag; an in-place call
also carries the capacities of the array containers of its first operand. -/
inductive OrTerm where
  | leaf (r : Bitmap)
  | lazyOr (conv : Bool) (a b : OrTerm)
  | lazyOrInplace (conv : Bool) (caps : Nat → Nat) (a b : OrTerm)

/-- The bitmap that the calls of an expression produce, before the repair. -/
def OrTerm.run : OrTerm → Bitmap
  | .leaf r => r
  | .lazyOr conv a b => rbLazyOr conv a.run b.run
  | .lazyOrInplace conv caps a b => rbLazyOrInplace conv caps a.run b.run

/-- The bitmaps an expression is built from. -/
def OrTerm.leaves : OrTerm → List Bitmap
  | .leaf r => [r]
  | .lazyOr _ a b => a.leaves ++ b.leaves
  | .lazyOrInplace _ _ a b => a.leaves ++ b.leaves

theorem OrTerm.run_spec (t : OrTerm) (h : ∀ r ∈ t.leaves, BInv r) :
    LBInv t.run ∧ ∀ v, bhas t.run v = t.leaves.any (fun r => bhas r v) := by
  induction t with
  | leaf r => exact ⟨(h r (by simp [leaves])).lazy, fun v => by simp [leaves, run]⟩
  | lazyOr conv a b iha ihb =>
    have ha := iha fun r hr => h r (by simp [leaves, hr])
    have hb := ihb fun r hr => h r (by simp [leaves, hr])
    have := rbLazyOr_spec conv ha.1 hb.1
    exact ⟨this.1, fun v => by rw [run, this.2, ha.2, hb.2, leaves, List.any_append]⟩
  | lazyOrInplace conv caps a b iha ihb =>
    have ha := iha fun r hr => h r (by simp [leaves, hr])
    have hb := ihb fun r hr => h r (by simp [leaves, hr])
    have := rbLazyOrInplace_spec conv caps ha.1 hb.1
    exact ⟨this.1, fun v => by rw [run, this.2, ha.2, hb.2, leaves, List.any_append]⟩

/-- C33: any expression of lazy unions over valid bitmaps, then repaired, is valid and contains exactly the values of
its bitmaps. -/
theorem C33_lazy_or (t : OrTerm) (h : ∀ r ∈ t.leaves, Valid r) :
    Valid (rbRepair t.run) ∧
      ∀ v, rbContains (rbRepair t.run) v = true ↔ ∃ r ∈ t.leaves, rbContains r v = true := by
  have h1 := t.run_spec fun r hr => (h r hr).inv
  have h2 := rbRepair_spec h1.1
  refine ⟨h2.1.valid, fun v => ?_⟩
  rw [rbContains_eq h2.1, h2.2, h1.2, List.any_eq_true]
  constructor
  · rintro ⟨r, hr, hv⟩; exact ⟨r, hr, by rw [rbContains_eq (h r hr).inv]; exact hv⟩
  · rintro ⟨r, hr, hv⟩; exact ⟨r, hr, by rw [rbContains_eq (h r hr).inv] at hv; exact hv⟩

/-- An expression with the lazy symmetric differences.  The second operand of an in-place call is a valid bitmap, not
the unrepaired result of another lazy call: the code uses its cardinalities (the documentation only allows repeated
in-place calls on the first operand, `roaring.h:891-896`). -/
inductive XorTerm where
  | leaf (r : Bitmap)
  | lazyXor (a b : XorTerm)
  | lazyXorInplace (shared : Nat → Bool) (a : XorTerm) (r : Bitmap)

def XorTerm.run : XorTerm → Bitmap
  | .leaf r => r
  | .lazyXor a b => rbLazyXor a.run b.run
  | .lazyXorInplace shared a r => rbLazyXorInplace shared a.run r

def XorTerm.leaves : XorTerm → List Bitmap
  | .leaf r => [r]
  | .lazyXor a b => a.leaves ++ b.leaves
  | .lazyXorInplace _ a r => a.leaves ++ [r]

/-- The number of bitmaps of a list that contain a value. -/
def howMany (xs : List Bitmap) (v : Nat) : Nat := (xs.filter (fun r => rbContains r v)).length

theorem howMany_append (xs ys : List Bitmap) (v : Nat) : howMany (xs ++ ys) v = howMany xs v + howMany ys v := by
  simp [howMany, List.filter_append]

theorem howMany_single (r : Bitmap) (v : Nat) : howMany [r] v = if rbContains r v then 1 else 0 := by
  cases h : rbContains r v <;> simp [howMany, h]

theorem odd_add (a b : Nat) : decide ((a + b) % 2 = 1) = (decide (a % 2 = 1) != decide (b % 2 = 1)) := by
  rw [Bool.eq_iff_iff, bne_iff_ne, ne_eq, decide_eq_decide, decide_eq_true_eq]
  omega

theorem odd_single {r : Bitmap} (h : BInv r) (v : Nat) : decide (howMany [r] v % 2 = 1) = bhas r v := by
  rw [howMany_single, rbContains_eq h]
  cases bhas r v <;> simp

theorem XorTerm.run_spec (t : XorTerm) (h : ∀ r ∈ t.leaves, BInv r) :
    LBInv t.run ∧ ∀ v, bhas t.run v = decide (howMany t.leaves v % 2 = 1) := by
  induction t with
  | leaf r =>
    have hr := h r (by simp [leaves])
    exact ⟨hr.lazy, fun v => by rw [leaves, odd_single hr]; rfl⟩
  | lazyXor a b iha ihb =>
    have ha := iha fun r hr => h r (by simp [leaves, hr])
    have hb := ihb fun r hr => h r (by simp [leaves, hr])
    have := rbLazyXor_spec ha.1 hb.1
    exact ⟨this.1, fun v => by rw [run, this.2, ha.2, hb.2, leaves, howMany_append, odd_add]⟩
  | lazyXorInplace shared a r iha =>
    have ha := iha fun r hr => h r (by simp [leaves, hr])
    have hb := h r (by simp [leaves])
    have := rbLazyXorInplace_spec shared ha.1 hb
    exact ⟨this.1, fun v => by rw [run, this.2, ha.2, leaves, howMany_append, odd_add, odd_single hb]⟩

/-- C33: any expression of lazy symmetric differences over valid bitmaps, then repaired, is valid and contains exactly
the values that an odd number of its bitmaps contain. -/
theorem C33_lazy_xor (t : XorTerm) (h : ∀ r ∈ t.leaves, Valid r) :
    Valid (rbRepair t.run) ∧ ∀ v, rbContains (rbRepair t.run) v = true ↔ howMany t.leaves v % 2 = 1 := by
  have h1 := t.run_spec fun r hr => (h r hr).inv
  have h2 := rbRepair_spec h1.1
  refine ⟨h2.1.valid, fun v => ?_⟩
  rw [rbContains_eq h2.1, h2.2, h1.2, decide_eq_true_eq]

example : Valid (rbRepair (OrTerm.run (.lazyOrInplace false (fun _ => 8) (.lazyOr true (.leaf exS) (.leaf exT)) (.leaf exB)))) :=
  (C33_lazy_or (.lazyOrInplace false (fun _ => 8) (.lazyOr true (.leaf exS) (.leaf exT)) (.leaf exB)) (by
    intro r hr
    simp only [OrTerm.leaves, List.mem_append, List.mem_singleton] at hr
    rcases hr with (rfl | rfl) | rfl
    · exact exS_valid
    · exact exT_valid
    · exact exB_valid)).1

example : Valid (rbRepair (XorTerm.run (.lazyXorInplace (fun k => k == 2) (.lazyXor (.leaf exS) (.leaf exT)) exB))) :=
  (C33_lazy_xor (.lazyXorInplace (fun k => k == 2) (.lazyXor (.leaf exS) (.leaf exT)) exB) (by
    intro r hr
    simp only [XorTerm.leaves, List.mem_append, List.mem_singleton] at hr
    rcases hr with (rfl | rfl) | rfl
    · exact exS_valid
    · exact exT_valid
    · exact exB_valid)).1

/-- C34: `or_many` contains a value exactly when one of the bitmaps does; it is empty for no bitmaps. -/
theorem C34_or_many (caps : Nat → Nat → Nat) {xs : List Bitmap} (h : ∀ r ∈ xs, Valid r) :
    Valid (rbOrMany caps xs) ∧
      ∀ v, rbContains (rbOrMany caps xs) v = true ↔ ∃ r ∈ xs, rbContains r v = true := by
  have h1 := rbOrMany_spec caps fun r hr => (h r hr).inv
  refine ⟨h1.1.valid, fun v => ?_⟩
  rw [rbContains_eq h1.1, h1.2, List.any_eq_true]
  constructor
  · rintro ⟨r, hr, hv⟩; exact ⟨r, hr, by rw [rbContains_eq (h r hr).inv]; exact hv⟩
  · rintro ⟨r, hr, hv⟩; exact ⟨r, hr, by rw [rbContains_eq (h r hr).inv] at hv; exact hv⟩

/-- C34: `or_many_heap` contains a value exactly when one of the bitmaps does, whatever sizes the priority queue
compares and in whichever order the bitmaps are therefore combined. -/
theorem C34_or_many_heap (sz : Bitmap → Nat) (caps : Nat → Nat → Nat) {xs : List Bitmap} (h : ∀ r ∈ xs, Valid r) :
    Valid (rbOrManyHeap sz caps xs) ∧
      ∀ v, rbContains (rbOrManyHeap sz caps xs) v = true ↔ ∃ r ∈ xs, rbContains r v = true := by
  have h1 := rbOrManyHeap_spec sz caps fun r hr => (h r hr).inv
  refine ⟨h1.1.valid, fun v => ?_⟩
  rw [rbContains_eq h1.1, h1.2, List.any_eq_true]
  constructor
  · rintro ⟨r, hr, hv⟩; exact ⟨r, hr, by rw [rbContains_eq (h r hr).inv]; exact hv⟩
  · rintro ⟨r, hr, hv⟩; exact ⟨r, hr, by rw [rbContains_eq (h r hr).inv] at hv; exact hv⟩

theorem xorAll_odd {xs : List Bitmap} (h : ∀ r ∈ xs, BInv r) (v : Nat) : xorAll xs v = decide (howMany xs v % 2 = 1) := by
  induction xs with
  | nil => rfl
  | cons r xs ih =>
    rw [show r :: xs = [r] ++ xs from rfl, howMany_append, odd_add, odd_single (h r (by simp)),
      ← ih fun r hr => h r (by simp [hr])]
    rfl

/-- C34: `xor_many` contains a value exactly when an odd number of the bitmaps do. -/
theorem C34_xor_many (shared : Nat → Nat → Bool) {xs : List Bitmap} (h : ∀ r ∈ xs, Valid r) :
    Valid (rbXorMany shared xs) ∧ ∀ v, rbContains (rbXorMany shared xs) v = true ↔ howMany xs v % 2 = 1 := by
  have h1 := rbXorMany_spec shared fun r hr => (h r hr).inv
  refine ⟨h1.1.valid, fun v => ?_⟩
  rw [rbContains_eq h1.1, h1.2, xorAll_odd fun r hr => (h r hr).inv, decide_eq_true_eq]

/-- C34: no bitmaps give the empty bitmap. -/
theorem C34_none (sz : Bitmap → Nat) (caps : Nat → Nat → Nat) (shared : Nat → Nat → Bool) :
    rbIsEmpty (rbOrMany caps []) = true ∧ rbIsEmpty (rbOrManyHeap sz caps []) = true ∧
      rbIsEmpty (rbXorMany shared []) = true := ⟨rfl, rfl, rfl⟩

theorem exList_valid : ∀ r ∈ [exS, exT, exB, exS], Valid r := by
  intro r hr
  simp only [List.mem_cons, List.not_mem_nil, or_false] at hr
  rcases hr with rfl | rfl | rfl | rfl
  · exact exS_valid
  · exact exT_valid
  · exact exB_valid
  · exact exS_valid

example : Valid (rbOrMany (fun _ _ => 16) [exS, exT, exB, exS]) := (C34_or_many _ exList_valid).1
example : Valid (rbOrManyHeap List.length (fun _ _ => 16) [exS, exT, exB, exS]) := (C34_or_many_heap _ _ exList_valid).1
example : Valid (rbXorMany (fun _ _ => true) [exS, exT, exB, exS]) := (C34_xor_many _ exList_valid).1

/-- C37: for every signed `d`, `add_offset(r, d)` contains `v` exactly when `v` is a 32-bit value and `r` contains
`v - d`. -/
theorem C37_add_offset (caps : Nat → Nat) {r : Bitmap} (h : Valid r) (d : Int) :
    Valid (rbAddOffset caps r d) ∧
      ∀ v : Nat, rbContains (rbAddOffset caps r d) v = true ↔
        v < 2 ^ 32 ∧ ∃ w : Nat, (v : Int) = w + d ∧ rbContains r w = true := by
  have h1 := rbAddOffset_spec caps h.inv d
  refine ⟨h1.1.valid, fun v => ?_⟩
  rw [rbContains_eq h1.1, h1.2, shifted, Bool.and_eq_true, decide_eq_true_eq]
  constructor
  · rintro ⟨⟨h2, h3⟩, h4⟩
    exact ⟨by omega, ((v : Int) - d).toNat, by omega, by rw [rbContains_eq h.inv]; exact h4⟩
  · rintro ⟨h2, w, h3, h4⟩
    rw [rbContains_eq h.inv] at h4
    exact ⟨⟨by omega, by omega⟩, by rw [show ((v : Int) - d).toNat = w by omega]; exact h4⟩

example : Valid (rbAddOffset (fun _ => 0) exB (-65537)) := (C37_add_offset _ exB_valid _).1
example : rbContains (rbAddOffset (fun _ => 0) exS 65530) 65535 = true :=
  ((C37_add_offset _ exS_valid 65530).2 65535).2 ⟨by omega, 5, by omega, by decide +kernel⟩

end CRoaring.Props
