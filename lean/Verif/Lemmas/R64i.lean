import Verif.Lemmas.R64e
import Verif.Lemmas.Stats
/-
The statistics of a 64-bit bitmap.
-/
set_option linter.unusedSimpArgs false
set_option linter.unusedVariables false
namespace CRoaring
open Spec

/-- The number of bytes of the runs in run containers. -/
def runBytes : Bitmap → Nat
  | [] => 0
  | (_, .run rs) :: t => (2 + 4 * rs.length) + runBytes t
  | (_, _) :: t => runBytes t

/-- Everything the loop accumulates. -/
structure StatSum64 (st st' : Stats) (r : Bitmap) : Prop where
  n : st'.n_containers = (st.n_containers + r.length) % TOP64
  mx : st'.max_value = st.max_value
  mn : st'.min_value = st.min_value
  card : st'.cardinality = (st.cardinality + bcard r) % TOP64
  na : st'.n_array_containers = (st.n_array_containers + (part isArray r).length) % TOP64
  nr : st'.n_run_containers = (st.n_run_containers + (part isRun r).length) % TOP64
  nb : st'.n_bitset_containers = (st.n_bitset_containers + (part isBitset r).length) % TOP64
  va : st'.n_values_array_containers = (st.n_values_array_containers + bcard (part isArray r)) % TOP64
  vr : st'.n_values_run_containers = (st.n_values_run_containers + bcard (part isRun r)) % TOP64
  vb : st'.n_values_bitset_containers = (st.n_values_bitset_containers + bcard (part isBitset r)) % TOP64
  ba : st'.n_bytes_array_containers = (st.n_bytes_array_containers + 2 * bcard (part isArray r)) % TOP64
  bb : st'.n_bytes_bitset_containers = (st.n_bytes_bitset_containers + 8192 * (part isBitset r).length) % TOP64
  br : st'.n_bytes_run_containers = (st.n_bytes_run_containers + runBytes r) % TOP64

/-- All counters are in range. -/
structure StatOK64 (st : Stats) : Prop where
  n : st.n_containers < TOP64
  card : st.cardinality < TOP64
  na : st.n_array_containers < TOP64
  nr : st.n_run_containers < TOP64
  nb : st.n_bitset_containers < TOP64
  va : st.n_values_array_containers < TOP64
  vr : st.n_values_run_containers < TOP64
  vb : st.n_values_bitset_containers < TOP64
  ba : st.n_bytes_array_containers < TOP64
  bb : st.n_bytes_bitset_containers < TOP64
  br : st.n_bytes_run_containers < TOP64

theorem u64_lt' (x : Int) : u64 x < TOP64 := by unfold u64 TOP64; omega

theorem statStep64_ok {st : Stats} (h : StatOK64 st) (c : Container) : StatOK64 (statStep64 st c) := by
  obtain ⟨h1, h2, h3, h4, h5, h6, h7, h8, h9, h10, h11⟩ := h
  cases c <;> unfold statStep64 <;> constructor <;> simp only [u64_lt'] <;> assumption

theorem u64_addm (a b : Nat) : u64 ((a : Int) + (b : Int)) = (a + b) % TOP64 := by unfold u64 TOP64; omega
theorem u64_add1 (a : Nat) : u64 ((a : Int) + 1) = (a + 1) % TOP64 := by unfold u64 TOP64; omega

theorem stat64_loop {r : R64} (fuel : Nat) {it : AIt} {l : Bitmap} (hi : IL r it l) (hl : BQ CNe l) {st : Stats}
    (hf : l.length < fuel) (hs : StatOK64 st) : StatSum64 st (stat64Loop r fuel it st) l := by
  induction fuel generalizing it l st with
  | zero => omega
  | succ fuel ih =>
    unfold stat64Loop
    cases l with
    | nil =>
      rw [hi.nil]
      simp only
      constructor <;> simp only [part, List.filter_nil, bcard, List.length_nil, Nat.add_zero, Nat.mul_zero, runBytes]
      · exact (Nat.mod_eq_of_lt hs.n).symm
      · exact (Nat.mod_eq_of_lt hs.card).symm
      · exact (Nat.mod_eq_of_lt hs.na).symm
      · exact (Nat.mod_eq_of_lt hs.nr).symm
      · exact (Nat.mod_eq_of_lt hs.nb).symm
      · exact (Nat.mod_eq_of_lt hs.va).symm
      · exact (Nat.mod_eq_of_lt hs.vr).symm
      · exact (Nat.mod_eq_of_lt hs.vb).symm
      · exact (Nat.mod_eq_of_lt hs.ba).symm
      · exact (Nat.mod_eq_of_lt hs.bb).symm
      · exact (Nat.mod_eq_of_lt hs.br).symm
    | cons p t =>
      obtain ⟨k, c⟩ := p
      have hci := hi.cons
      rw [hci.value]
      simp only
      have hrec := ih hci.next hl.2.2.2 (st := statStep64 st c) (by simp at hf; omega) (statStep64_ok hs c)
      have hc := containerCard_eq hl.2.1.1.rep
      have hle := card_le 65536 (chas c)
      generalize hcd : card 65536 (chas c) = cd at *
      have hu : u32 (containerCard c) = cd := by rw [hc]; unfold u32; omega
      obtain ⟨i1, i2, i3, i4, i5, i6, i7, i8, i9, i10, i11, i12, i13⟩ := hrec
      cases c with
      | bitset b =>
        have hz : u32 (containerSizeInBytes (.bitset b)) = 8192 := rfl
        simp only [statStep64, hu, hz, u64_addm, u64_add1] at i1 i2 i3 i4 i5 i6 i7 i8 i9 i10 i11 i12 i13 ⊢
        constructor <;> try simp only [part_cons, isArray, isRun, isBitset, bcard, hcd, if_true, if_false,
          List.length_cons, Bool.false_eq_true, runBytes]
        all_goals first
          | with_reducible assumption
          | (rw [i1]; unfold TOP64; omega)
          | (rw [i4]; unfold TOP64; omega)
          | (rw [i7]; unfold TOP64; omega)
          | (rw [i10]; unfold TOP64; omega)
          | (rw [i12, show ((8192 : Nat) : Int) = 8192 from rfl]; unfold u64 TOP64; omega)
          | (rw [i12]; unfold TOP64; omega)
      | array l =>
        have hlen : (l.length : Int) = cd := hc
        have hz : u32 (containerSizeInBytes (.array l)) = 2 * cd := by simp only [containerSizeInBytes, u32]; omega
        simp only [statStep64, hu, hz, u64_addm, u64_add1] at i1 i2 i3 i4 i5 i6 i7 i8 i9 i10 i11 i12 i13 ⊢
        constructor <;> try simp only [part_cons, isArray, isRun, isBitset, bcard, hcd, if_true, if_false,
          List.length_cons, Bool.false_eq_true, runBytes]
        all_goals first
          | with_reducible assumption
          | (rw [i1]; unfold TOP64; omega)
          | (rw [i4]; unfold TOP64; omega)
          | (rw [i5]; unfold TOP64; omega)
          | (rw [i8]; unfold TOP64; omega)
          | (rw [i11]; unfold TOP64; omega)
      | run rs =>
        have hlen : rs.length ≤ 65536 := by have := RunOK.length_le (rs := rs) hl.2.1.1; omega
        have hz : u32 (containerSizeInBytes (.run rs)) = 2 + 4 * rs.length := by simp only [containerSizeInBytes, runSerializedSize, u32]; omega
        simp only [statStep64, hu, hz, u64_addm, u64_add1] at i1 i2 i3 i4 i5 i6 i7 i8 i9 i10 i11 i12 i13 ⊢
        constructor <;> try simp only [part_cons, isArray, isRun, isBitset, bcard, hcd, if_true, if_false,
          List.length_cons, Bool.false_eq_true, runBytes]
        all_goals first
          | with_reducible assumption
          | (rw [i1]; unfold TOP64; omega)
          | (rw [i4]; unfold TOP64; omega)
          | (rw [i6]; unfold TOP64; omega)
          | (rw [i9]; unfold TOP64; omega)
          | (rw [i13]; unfold TOP64; omega)

theorem bcard_partArray {r : Bitmap} (h : BQ CNe r) : bcard (part isArray r) ≤ 4096 * (part isArray r).length := by
  induction r with
  | nil => exact Nat.le_refl _
  | cons p t ih =>
    obtain ⟨k, c⟩ := p
    have hi := ih h.2.2.2
    rw [part_cons]
    split
    · rename_i hq
      cases c with
      | array l =>
        have hc := containerCard_eq h.2.1.1.rep
        have hlen : l.length ≤ 4096 := h.2.1.1.2
        have : (l.length : Int) = card 65536 (chas (.array l)) := hc
        rw [bcard, List.length_cons]
        omega
      | bitset b => cases hq
      | run rs => cases hq
    · exact hi

theorem r64Statistics_spec {r : R64} {l : Bitmap} (h : B64 r l) :
    (r64Statistics r).n_containers = l.length ∧
    (r64Statistics r).min_value = r64Minimum r ∧ (r64Statistics r).max_value = r64Maximum r ∧
    (r64Statistics r).cardinality = r64Cardinality r ∧
    (r64Statistics r).n_array_containers = (part isArray l).length ∧
    (r64Statistics r).n_run_containers = (part isRun l).length ∧
    (r64Statistics r).n_bitset_containers = (part isBitset l).length ∧
    (r64Statistics r).n_values_array_containers = bcard (part isArray l) ∧
    (r64Statistics r).n_values_run_containers = bcard (part isRun l) % TOP64 ∧
    (r64Statistics r).n_values_bitset_containers = bcard (part isBitset l) % TOP64 ∧
    (r64Statistics r).n_bytes_array_containers = 2 * bcard (part isArray l) ∧
    (r64Statistics r).n_bytes_bitset_containers = 8192 * (part isBitset l).length ∧
    (r64Statistics r).n_bytes_run_containers = runBytes l % TOP64 := by
  have hs := stat64_loop FUEL h.rl.init h.bq h.rl.fuel (st := {
      n_containers := 0, n_array_containers := 0, n_run_containers := 0, n_bitset_containers := 0
      n_values_array_containers := 0, n_values_run_containers := 0, n_values_bitset_containers := 0
      n_bytes_array_containers := 0, n_bytes_run_containers := 0, n_bytes_bitset_containers := 0
      max_value := r64Maximum r, min_value := r64Minimum r, cardinality := 0 })
    (by constructor <;> simp only [] <;> unfold TOP64 <;> omega)
  obtain ⟨i1, i2, i3, i4, i5, i6, i7, i8, i9, i10, i11, i12, i13⟩ := hs
  have hlen := h.rl.length
  have hp := part_split l
  have ha := bcard_partArray h.bq
  have hc : r64Cardinality r = bcard l % TOP64 := by
    unfold r64Cardinality
    rw [card64_loop FUEL h.rl.init h.bq 0 h.rl.fuel (by unfold TOP64; omega), Nat.zero_add]
  simp only [Nat.zero_add] at *
  unfold r64Statistics
  rw [hc]
  unfold P48 at hlen
  refine ⟨?_, ?_, ?_, ?_, ?_, ?_, ?_, ?_, ?_, ?_, ?_, ?_, ?_⟩
  · rw [i1]; unfold TOP64; omega
  · exact i3
  · exact i2
  · exact i4
  · rw [i5]; unfold TOP64; omega
  · rw [i6]; unfold TOP64; omega
  · rw [i7]; unfold TOP64; omega
  · rw [i8]; unfold TOP64; omega
  · exact i9
  · exact i10
  · rw [i11]; unfold TOP64; omega
  · rw [i12]; unfold TOP64; omega
  · exact i13

end CRoaring
