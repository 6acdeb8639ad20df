import Verif.Props.Common
/-
C30: `roaring_bitmap_internal_validate` accepts exactly the well-formed structures.

`WellFormed` below is the specification; it does not use the model's functions.
-/
namespace CRoaring.Props
open CRoaring

/-- The values stored in a container, read off its representation. -/
def Stored : Container → Nat → Prop
  | .array l, x => x ∈ l
  | .run rs, x => ∃ r ∈ rs, r.1 ≤ x ∧ x ≤ r.1 + r.2
  | .bitset b, x => (b.words.getD (x / 64) 0#64).getLsbD (x % 64) = true

/-- A well-formed container: arrays hold between 1 and 4096 16-bit values, strictly increasing; runs are non-empty
lists of intervals inside [0, 65536), sorted and separated by at least one missing value; bitsets have 1024 words,
a cardinality field that counts the set bits, and more than 4096 of them. -/
def WellFormedC : Container → Prop
  | .array l => l ≠ [] ∧ l.length ≤ 4096 ∧ l.Pairwise (· < ·) ∧ ∀ x ∈ l, x < 65536
  | .run rs => rs ≠ [] ∧ rs.Pairwise (fun a b => a.1 + a.2 + 1 < b.1) ∧ ∀ r ∈ rs, r.1 + r.2 < 65536
  | .bitset b => b.words.length = 1024 ∧ 4096 < b.card ∧
      b.card = Spec.card 65536 (fun x => (b.words.getD (x / 64) 0#64).getLsbD (x % 64))

/-- A well-formed bitmap: 16-bit keys, strictly increasing, all containers well formed. -/
def WellFormed (r : Bitmap) : Prop :=
  (r.map (·.1)).Pairwise (· < ·) ∧ ∀ p ∈ r, p.1 < 65536 ∧ WellFormedC p.2

theorem wellFormedC_iff (c : Container) : WellFormedC c ↔ CNe c := by
  cases c with
  | array l =>
    simp only [WellFormedC, CNe, CInv, chas, decide_eq_true_eq]
    constructor
    · rintro ⟨h1, h2, h3, h4⟩
      obtain ⟨x, hx⟩ := List.exists_mem_of_ne_nil l h1
      exact ⟨⟨⟨h3, h4⟩, h2⟩, x, hx⟩
    · rintro ⟨⟨⟨h3, h4⟩, h2⟩, x, hx⟩
      exact ⟨List.ne_nil_of_mem hx, h2, h3, h4⟩
  | run rs =>
    simp only [WellFormedC, CNe, CInv, chas]
    constructor
    · rintro ⟨h1, h2, h3⟩
      obtain ⟨r, hr⟩ := List.exists_mem_of_ne_nil rs h1
      exact ⟨⟨h2, h3⟩, r.1, by simp only [runHas, List.any_eq_true]; exact ⟨r, hr, by simp⟩⟩
    · rintro ⟨⟨h2, h3⟩, x, hx⟩
      refine ⟨?_, h2, h3⟩
      rintro rfl
      simp at hx
  | bitset b =>
    simp only [WellFormedC, CNe, CInv, chas]
    constructor
    · rintro ⟨h1, h2, h3⟩
      have h4 : BitOK b := ⟨h1, h3⟩
      refine ⟨⟨h4, h2⟩, ?_⟩
      have : 0 < Spec.card 65536 (bitAt b.words) := by have := h4.card; omega
      obtain ⟨x, _, hx⟩ := card_pos.1 this
      exact ⟨x, hx⟩
    · rintro ⟨⟨h1, h2⟩, _⟩
      exact ⟨h1.len, h2, h1.card⟩

theorem wellFormed_iff (r : Bitmap) : WellFormed r ↔ BInv r := by
  unfold BInv
  rw [bp_iff]
  simp only [WellFormed, wellFormedC_iff]
  constructor
  · rintro ⟨h1, h2⟩
    exact ⟨h1, fun p hp => (h2 p hp).1, fun p hp => (h2 p hp).2⟩
  · rintro ⟨h1, h2, h3⟩
    exact ⟨h1, fun p hp => ⟨h2 p hp, h3 p hp⟩⟩

/-- C30: on structures whose fields are in the range of their C types (as every deserialized structure is), the
validation function accepts exactly the well-formed ones. -/
theorem C30_validate_exact {r : Bitmap} (ht : Typed r) : rbInternalValidate r = true ↔ WellFormed r := by
  rw [wellFormed_iff, ← valid_iff]
  exact ⟨fun h => ⟨ht, h⟩, fun h => h.2⟩

theorem stored_iff (c : Container) (x : Nat) : chas c x = true ↔ Stored c x := by
  cases c with
  | array l => simp [chas, Stored]
  | run rs => simp [chas, Stored, runHas]
  | bitset b => exact Iff.rfl

/-- C30: on an accepted structure, `contains` answers membership in the stored containers. -/
theorem C30_contains {r : Bitmap} (h : Valid r) (v : Nat) :
    rbContains r v = true ↔ ∃ p ∈ r, p.1 = v / 65536 ∧ Stored p.2 (v % 65536) := by
  rw [rbContains_eq h.inv]
  simp only [bhas, List.any_eq_true, Bool.and_eq_true, beq_iff_eq]
  simp only [stored_iff]

example : Typed exB ∧ WellFormed exB := ⟨exB_valid.1, (C30_validate_exact exB_valid.1).1 exB_valid.2⟩
/-- Rejected: mergeable runs, an unsorted array, an empty container, keys out of order. -/
example : rbInternalValidate [(0, .run [(1, 2), (4, 1)])] = false ∧ rbInternalValidate [(0, .array [2, 1])] = false ∧
    rbInternalValidate [(0, .array [])] = false ∧ rbInternalValidate [(1, .array [2]), (0, .array [1])] = false := by
  decide +kernel

end CRoaring.Props
