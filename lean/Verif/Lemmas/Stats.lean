import Verif.Model.Stats
import Verif.Lemmas.Query
import Verif.Lemmas.Serial2
import Verif.Model.Lazy
/-! Lemmas on `roaring_bitmap_statistics`. -/
set_option linter.unusedSimpArgs false
set_option linter.unusedVariables false

namespace CRoaring
open Spec

def isArray : Container → Bool
  | .array _ => true
  | _ => false

/-- The part of the bitmap whose containers satisfy `q`. -/
def part (q : Container → Bool) (r : Bitmap) : Bitmap := r.filter (fun p => q p.2)

theorem part_cons (q : Container → Bool) (k : Nat) (c : Container) (t : Bitmap) :
    part q ((k, c) :: t) = if q c then (k, c) :: part q t else part q t := by
  simp only [part, List.filter_cons]

theorem part_inv {q : Container → Bool} {r : Bitmap} (h : BInv r) : BInv (part q r) := by
  induction r with
  | nil => trivial
  | cons p t ih =>
    obtain ⟨k, c⟩ := p
    rw [part_cons]
    split
    · exact ⟨h.1, h.2.1, fun p hp => h.2.2.1 p ((List.mem_filter.1 hp).1), ih h.2.2.2⟩
    · exact ih h.2.2.2

/-- Everything the loop accumulates. -/
structure StatSum (st st' : Stats) (r : Bitmap) : Prop where
  n : st'.n_containers = st.n_containers
  mx : st'.max_value = st.max_value
  mn : st'.min_value = st.min_value
  card : st'.cardinality = (st.cardinality + bcard r) % 18446744073709551616
  na : st'.n_array_containers = (st.n_array_containers + (part isArray r).length) % 4294967296
  nr : st'.n_run_containers = (st.n_run_containers + (part isRun r).length) % 4294967296
  nb : st'.n_bitset_containers = (st.n_bitset_containers + (part isBitset r).length) % 4294967296
  va : st'.n_values_array_containers = (st.n_values_array_containers + bcard (part isArray r)) % 4294967296
  vr : st'.n_values_run_containers = (st.n_values_run_containers + bcard (part isRun r)) % 4294967296
  vb : st'.n_values_bitset_containers = (st.n_values_bitset_containers + bcard (part isBitset r)) % 4294967296
  ba : st'.n_bytes_array_containers = (st.n_bytes_array_containers + 2 * bcard (part isArray r)) % 4294967296
  bb : st'.n_bytes_bitset_containers =
    (st.n_bytes_bitset_containers + 8192 * (part isBitset r).length) % 4294967296

/-- All counters are in range. -/
structure StatOK (st : Stats) : Prop where
  card : st.cardinality < 18446744073709551616
  na : st.n_array_containers < 4294967296
  nr : st.n_run_containers < 4294967296
  nb : st.n_bitset_containers < 4294967296
  va : st.n_values_array_containers < 4294967296
  vr : st.n_values_run_containers < 4294967296
  vb : st.n_values_bitset_containers < 4294967296
  ba : st.n_bytes_array_containers < 4294967296
  bb : st.n_bytes_bitset_containers < 4294967296

theorem u32_lt (x : Int) : u32 x < 4294967296 := by unfold u32; omega
theorem u64_lt (x : Int) : u64 x < 18446744073709551616 := by unfold u64; omega

theorem statStep_ok {st : Stats} (h : StatOK st) (p : Nat × Container) : StatOK (statStep st p) := by
  obtain ⟨k, c⟩ := p
  obtain ⟨h1, h2, h3, h4, h5, h6, h7, h8, h9⟩ := h
  cases c <;> unfold statStep <;> constructor <;> simp only [u64_lt, u32_lt] <;> assumption

theorem statLoop_spec (r : Bitmap) (h : BInv r) {st : Stats} (hs : StatOK st) :
    StatSum st (r.foldl statStep st) r := by
  induction r generalizing st with
  | nil =>
    constructor <;> simp only [List.foldl_nil, part, List.filter_nil, bcard, List.length_nil, Nat.add_zero, Nat.mul_zero]
    · exact (Nat.mod_eq_of_lt hs.card).symm
    · exact (Nat.mod_eq_of_lt hs.na).symm
    · exact (Nat.mod_eq_of_lt hs.nr).symm
    · exact (Nat.mod_eq_of_lt hs.nb).symm
    · exact (Nat.mod_eq_of_lt hs.va).symm
    · exact (Nat.mod_eq_of_lt hs.vr).symm
    · exact (Nat.mod_eq_of_lt hs.vb).symm
    · exact (Nat.mod_eq_of_lt hs.ba).symm
    · exact (Nat.mod_eq_of_lt hs.bb).symm
  | cons p t ih =>
    have hi := ih h.2.2.2 (statStep_ok hs p)
    obtain ⟨k, c⟩ := p
    rw [List.foldl_cons]
    have hc := containerCard_eq h.2.1.1.rep
    have hle := card_le 65536 (chas c)
    generalize hcd : card 65536 (chas c) = cd at *
    have hu : u32 (containerCard c) = cd := by rw [hc]; unfold u32; omega
    have hb := hi.n
    obtain ⟨i1, i2, i3, i4, i5, i6, i7, i8, i9, i10, i11, i12⟩ := hi
    have hl : 2 * cd < 4294967296 := by omega
    cases c with
    | bitset b =>
      simp only [statStep, hu] at i1 i2 i3 i4 i5 i6 i7 i8 i9 i10 i11 i12 ⊢
      constructor <;> try simp only [part_cons, isArray, isRun, isBitset, bcard, hcd, if_true, if_false,
        List.length_cons, Bool.false_eq_true]
      all_goals first
          | with_reducible assumption
          | (rw [i4]; simp only [u64]; omega)
          | (rw [i7]; simp only [u32]; omega)
          | (rw [i10]; simp only [u32]; omega)
          | (rw [i12]; simp only [u32, containerSizeInBytes, NWORDS]; omega)
    | array l =>
      have hlen : (l.length : Int) = cd := hc
      simp only [statStep, hu] at i1 i2 i3 i4 i5 i6 i7 i8 i9 i10 i11 i12 ⊢
      constructor <;> try simp only [part_cons, isArray, isRun, isBitset, bcard, hcd, if_true, if_false,
        List.length_cons, Bool.false_eq_true]
      all_goals first
          | with_reducible assumption
          | (rw [i4]; simp only [u64]; omega)
          | (rw [i5]; simp only [u32]; omega)
          | (rw [i8]; simp only [u32]; omega)
          | (rw [i11]; simp only [u32, containerSizeInBytes, NWORDS]; omega)
    | run rs =>
      simp only [statStep, hu] at i1 i2 i3 i4 i5 i6 i7 i8 i9 i10 i11 i12 ⊢
      constructor <;> try simp only [part_cons, isArray, isRun, isBitset, bcard, hcd, if_true, if_false,
        List.length_cons, Bool.false_eq_true]
      all_goals first
          | with_reducible assumption
          | (rw [i4]; simp only [u64]; omega)
          | (rw [i6]; simp only [u32]; omega)
          | (rw [i9]; simp only [u32]; omega)

theorem part_split (r : Bitmap) :
    (part isArray r).length + (part isRun r).length + (part isBitset r).length = r.length ∧
    bcard (part isArray r) + bcard (part isRun r) + bcard (part isBitset r) = bcard r := by
  induction r with
  | nil => exact ⟨rfl, rfl⟩
  | cons p t ih =>
    obtain ⟨k, c⟩ := p
    rw [part_cons, part_cons, part_cons]
    cases c <;> simp only [isArray, isRun, isBitset, if_true, if_false, Bool.false_eq_true, List.length_cons, bcard] <;>
      omega

/-- Values in array containers. -/
theorem bcard_part_array {r : Bitmap} (h : BInv r) : bcard (part isArray r) ≤ 4096 * (part isArray r).length := by
  induction r with
  | nil => exact Nat.le_refl _
  | cons p t ih =>
    obtain ⟨k, c⟩ := p
    have hi := ih h.2.2.2
    rw [part_cons]
    split
    · rename_i hq
      cases c with
      | array l =>
        have hc := containerCard_eq h.2.1.1.rep
        have hlen : l.length ≤ 4096 := h.2.1.1.2
        have : (l.length : Int) = card 65536 (chas (.array l)) := hc
        rw [bcard, List.length_cons]
        omega
      | bitset b => cases hq
      | run rs => cases hq
    · exact hi

theorem rbStatistics_spec {r : Bitmap} (h : BInv r) :
    (rbStatistics r).n_containers = r.length ∧
    (rbStatistics r).min_value = rbMinimum r ∧ (rbStatistics r).max_value = rbMaximum r ∧
    (rbStatistics r).cardinality = bcard r ∧
    (rbStatistics r).n_array_containers = (part isArray r).length ∧
    (rbStatistics r).n_run_containers = (part isRun r).length ∧
    (rbStatistics r).n_bitset_containers = (part isBitset r).length ∧
    (rbStatistics r).n_values_array_containers = bcard (part isArray r) ∧
    (rbStatistics r).n_values_run_containers = bcard (part isRun r) % 4294967296 ∧
    (rbStatistics r).n_values_bitset_containers = bcard (part isBitset r) % 4294967296 ∧
    (rbStatistics r).n_bytes_array_containers = 2 * bcard (part isArray r) ∧
    (rbStatistics r).n_bytes_bitset_containers = 8192 * (part isBitset r).length := by
  have hs := statLoop_spec r h (st := {
      n_containers := u32 r.length, n_array_containers := 0, n_run_containers := 0, n_bitset_containers := 0
      n_values_array_containers := 0, n_values_run_containers := 0, n_values_bitset_containers := 0
      n_bytes_array_containers := 0, n_bytes_run_containers := 0, n_bytes_bitset_containers := 0
      max_value := rbMaximum r, min_value := rbMinimum r, cardinality := 0 }) (by constructor <;> simp only [] <;> omega)
  obtain ⟨i1, i2, i3, i4, i5, i6, i7, i8, i9, i10, i11, i12⟩ := hs
  have hlen := h.length_le
  have hcard : bcard r ≤ 4294967296 := by rw [← card_bhas h]; exact card_le _ _
  have hp := part_split r
  have ha := bcard_part_array h
  simp only [Nat.zero_add] at *
  unfold rbStatistics
  refine ⟨?_, ?_, ?_, ?_, ?_, ?_, ?_, ?_, ?_, ?_, ?_, ?_⟩
  · rw [i1]; simp only [u32]; omega
  · exact i3
  · exact i2
  · rw [i4]; omega
  · rw [i5]; omega
  · rw [i6]; omega
  · rw [i7]; omega
  · rw [i8]; omega
  · exact i9
  · exact i10
  · rw [i11]; omega
  · rw [i12]; omega

end CRoaring
