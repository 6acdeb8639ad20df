import Verif.Model.BitmapMemOpen
import Verif.Props.C116
/-!
C134: the functions of half-open ranges, whose ends are 64-bit numbers, and the constructors from lists of values, on memory.  With any
ends they stay inside the blocks of the bitmap and leave a well-formed bitmap.  They do what their names say for ranges that end at 2^32 at
most, that are empty, or that begin beyond 2^32.  Missing (`_partial`): other ranges that end beyond 2^32, where the ends are cut to 32 bits
and the claim is false (`C134_false`; C14).
-/
namespace CRoaring.Props
open CRoaring.Spec (IsBitmapSet SlotIs Allocates)

/-- A range that the functions do not cut. -/
abbrev Uncut (lo hi : Nat) : Prop := hi ≤ 4294967296 ∨ hi ≤ lo ∨ 4294967296 < lo

/-- The ends as the functions pass them on. -/
theorem uncut_ends {lo hi : Nat} (hn : ¬ (hi ≤ lo ∨ lo > 4294967296)) (hu : Uncut lo hi) :
    lo % 4294967296 = lo ∧ (hi - 1) % 4294967296 + 1 = hi := by
  unfold Uncut at hu; omega

section
variable {E : RbEnv} (hE : Allocates E) {b : RaBuf} {s : NSet} (h : IsBitmapSet b s)
include hE h

theorem C134_add_range_partial (lo hi : Nat) : ∃ o t, rbAddRangeBuf E b lo hi = .ok o ∧ IsBitmapSet o t ∧
    (Uncut lo hi → ∀ v < 4294967296, t v = (s v || decide (lo ≤ v ∧ v < hi))) := by
  unfold rbAddRangeBuf
  split
  · exact ⟨b, s, rfl, h, fun _ v hv => by rw [decide_eq_false (by omega), Bool.or_false]⟩
  · rename_i hn
    obtain ⟨o, e, g⟩ := C115_add_range_closed hE h (lo % 4294967296) (hi := (hi - 1) % 4294967296) (by omega)
    refine ⟨o, _, e, g, fun hu v hv => ?_⟩
    obtain ⟨e1, e2⟩ := uncut_ends hn hu
    rw [e1, e2]
    simp [Spec.union, Spec.range]

theorem C134_remove_range_partial (lo hi : Nat) : ∃ o t, rbRemoveRangeBuf E b lo hi = .ok o ∧ IsBitmapSet o t ∧
    (Uncut lo hi → ∀ v < 4294967296, t v = (s v && !decide (lo ≤ v ∧ v < hi))) := by
  unfold rbRemoveRangeBuf
  split
  · exact ⟨b, s, rfl, h, fun _ v hv => by rw [decide_eq_false (by omega), Bool.not_false, Bool.and_true]⟩
  · rename_i hn
    obtain ⟨o, e, g⟩ := C115_remove_range_closed hE h (lo % 4294967296) ((hi - 1) % 4294967296)
    refine ⟨o, _, e, g, fun hu v hv => ?_⟩
    obtain ⟨e1, e2⟩ := uncut_ends hn hu
    rw [e1, e2]
    simp [Spec.diff, Spec.range]

theorem C134_flip_partial (lo hi : Nat) : ∃ o t, rbFlipBuf E b lo hi = .ok o ∧ IsBitmapSet o t ∧
    (Uncut lo hi → ∀ v < 4294967296, t v = if lo ≤ v ∧ v < hi then !s v else s v) := by
  unfold rbFlipBuf
  split
  · obtain ⟨o, e, g⟩ := C115_copy hE h
    exact ⟨o, s, e, g, fun _ v hv => by rw [if_neg (by omega)]⟩
  · rename_i hn
    obtain ⟨o, e, g⟩ := C115_flip_closed hE h (lo % 4294967296) (hi := (hi - 1) % 4294967296) (by omega)
    refine ⟨o, _, e, g, fun hu v hv => ?_⟩
    obtain ⟨e1, e2⟩ := uncut_ends (by omega) hu
    rw [e1, e2]
    simp only [Spec.symm, Spec.range, ← Bool.decide_and]
    by_cases hr : lo ≤ v ∧ v < hi
    · rw [if_pos hr, decide_eq_true hr]; cases s v <;> rfl
    · rw [if_neg hr, decide_eq_false hr]; cases s v <;> rfl

theorem C134_flip_inplace_partial (lo hi : Nat) : ∃ o t, rbFlipInplaceBuf E b lo hi = .ok o ∧ IsBitmapSet o t ∧
    (Uncut lo hi → ∀ v < 4294967296, t v = if lo ≤ v ∧ v < hi then !s v else s v) := by
  unfold rbFlipInplaceBuf
  split
  · exact ⟨b, s, rfl, h, fun _ v hv => by rw [if_neg (by omega)]⟩
  · rename_i hn
    obtain ⟨o, e, g⟩ := C115_flip_inplace_closed hE h (lo % 4294967296) (hi := (hi - 1) % 4294967296) (by omega)
    refine ⟨o, _, e, g, fun hu v hv => ?_⟩
    obtain ⟨e1, e2⟩ := uncut_ends (by omega) hu
    rw [e1, e2]
    simp only [Spec.symm, Spec.range, ← Bool.decide_and]
    by_cases hr : lo ≤ v ∧ v < hi
    · rw [if_pos hr, decide_eq_true hr]; cases s v <;> rfl
    · rw [if_neg hr, decide_eq_false hr]; cases s v <;> rfl

end

section
variable {b : RaBuf} {s : NSet} (h : IsBitmapSet b s)
include h

theorem C134_contains_range_partial (lo hi : Nat) : ∃ a, rbContainsRangeBuf b lo hi = .ok a ∧
    (Uncut lo hi → (a = true ↔ ∀ v < 4294967296, lo ≤ v → v < hi → s v = true)) := by
  unfold rbContainsRangeBuf
  split
  · exact ⟨true, rfl, fun _ => ⟨fun _ v hv h1 h2 => by omega, fun _ => rfl⟩⟩
  · rename_i hn
    obtain ⟨a, e, g⟩ := C116_contains_range_closed h (lo % 4294967296) ((hi - 1) % 4294967296)
    refine ⟨a, e, fun hu => ?_⟩
    obtain ⟨e1, e2⟩ := uncut_ends (by omega) hu
    rw [g, e1]
    exact ⟨fun k v hv h1 h2 => k v h1 (by omega), fun k v h1 h2 => k v (by omega) h1 (by omega)⟩

theorem C134_range_cardinality_partial (lo hi : Nat) : ∃ a, rbRangeCardinalityBuf b lo hi = .ok a ∧
    (Uncut lo hi → a = Spec.card 4294967296 fun x => decide (lo ≤ x ∧ x < hi) && s x) := by
  unfold rbRangeCardinalityBuf
  split
  · refine ⟨0, rfl, fun _ => ?_⟩
    symm
    exact card_eq_zero.2 fun v hv => by rw [decide_eq_false (by omega)]; rfl
  · rename_i hn
    refine ⟨_, C116_range_cardinality_closed h (lo % 4294967296) ((hi - 1) % 4294967296), fun hu => ?_⟩
    obtain ⟨e1, e2⟩ := uncut_ends (by omega) hu
    have : ∀ x, (x ≤ (hi - 1) % 4294967296) = (x < hi) := fun x => propext (by omega)
    simp only [e1, this]

end

/-- `roaring_bitmap_of_ptr` and `roaring_bitmap_of` build the set of the given values. -/
theorem C134_of {E : RbEnv} (hE : Allocates E) {vs : List Nat} (hv : ∀ v ∈ vs, v < 4294967296) :
    (∃ o, rbOfPtrBuf E vs = .ok o ∧ IsBitmapSet o (Spec.ofList vs)) ∧ ∃ o, rbOfBuf E vs = .ok o ∧ IsBitmapSet o (Spec.ofList vs) := by
  have hc := C115_create hE 0
  constructor
  · obtain ⟨o, e, g⟩ := C115_add_many hE hc hv
    refine ⟨o, e, ?_⟩
    rwa [show Spec.union (Spec.ofList vs) Spec.empty = Spec.ofList vs from funext fun x => by simp [Spec.union, Spec.empty]] at g
  · obtain ⟨r, hb, hr, e⟩ := isBitmapSet_iff.1 hc
    obtain ⟨o, e1, g⟩ := rbAddManyLoopBuf_spec hE.ok vs hb hr (CtxOK.none r) hv
    have hs := rbAddManyLoop_spec vs hr (CtxOK.none r) hv
    exact ⟨o, e1, isBitmapSet_of g hs.1 fun x => by rw [hs.2, e]; simp [Spec.empty, Spec.ofList]⟩

/-! ### The hypotheses are met

`twoCells`, in Props/C115, is the bitmap {5, 65536, 65537, 65538} in a block with a cell that is not in use; `sevens` gives out blocks that
are full of sevens. -/

example : rbContainsRangeBuf twoCells 65536 65539 = .ok true ∧ rbContainsRangeBuf twoCells 65536 65540 = .ok false ∧
    rbRangeCardinalityBuf twoCells 0 4294967296 = .ok 4 ∧ rbRangeCardinalityBuf twoCells 5 65537 = .ok 2 ∧
    (rbOfBuf sevens [7, 70000, 7] >>= rbCardinalityBuf) = .ok 2 ∧ (rbOfPtrBuf sevens [7, 70000, 7] >>= rbCardinalityBuf) = .ok 2 ∧
    (rbAddRangeBuf sevens twoCells 3 8 >>= rbCardinalityBuf) = .ok 8 ∧ (rbRemoveRangeBuf sevens twoCells 5 65537 >>= rbCardinalityBuf) = .ok 2 ∧
    (rbFlipBuf sevens twoCells 4 7 >>= rbCardinalityBuf) = .ok 5 ∧ (rbFlipInplaceBuf sevens twoCells 4 7 >>= rbCardinalityBuf) = .ok 5 := by
  decide +kernel

/-- Ranges that end just beyond 2^32: the end is cut to 32 bits, so that only the value 0 is looked at. -/
theorem C134_false : rbRangeCardinalityBuf twoCells 0 (2 ^ 32 + 1) = .ok 0 ∧
    (rbAddRangeBuf sevens twoCells 0 (2 ^ 32 + 1) >>= rbCardinalityBuf) = .ok 5 ∧
    (rbRemoveRangeBuf sevens twoCells 0 (2 ^ 32 + 1) >>= rbCardinalityBuf) = .ok 4 ∧
    (rbFlipBuf sevens twoCells 0 (2 ^ 32 + 1) >>= rbCardinalityBuf) = .ok 5 ∧
    (rbFlipInplaceBuf sevens twoCells 0 (2 ^ 32 + 1) >>= rbCardinalityBuf) = .ok 5 ∧
    (rbAddRangeBuf sevens twoCells 0 (2 ^ 32 + 1) >>= fun b => rbContainsRangeBuf b 0 (2 ^ 32 + 1)) = .ok true := by
  decide +kernel

end CRoaring.Props
