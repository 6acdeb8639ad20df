import Verif.Lemmas.BitmapMem12
import Verif.Props.C115
/-!
C116: questions about bitmaps stay inside their memory and are answered from their values alone.  Whatever the capacities and the unused
parts of the blocks, the functions that ask about one or two bitmaps read only cells that exist (the model answers `.oob` otherwise), they
terminate (the model answers `.fail` otherwise), and the answer is the one for the sets of values.
-/
namespace CRoaring.Props
open CRoaring.Spec (IsBitmapSet SlotIs Allocates)

section
variable {b : RaBuf} {s : NSet} (h : IsBitmapSet b s)
include h

theorem C116_is_empty : rbIsEmptyBuf b = true ↔ ∀ v, s v = false := by
  obtain ⟨r, hb, hr, e⟩ := isBitmapSet_iff.1 h
  rw [rbIsEmptyBuf_spec hb, rbIsEmpty_iff hr]
  simp only [e]

theorem C116_cardinality : rbCardinalityBuf b = .ok (Spec.card 4294967296 s) := by
  obtain ⟨r, hb, hr, e⟩ := isBitmapSet_iff.1 h
  rw [rbCardinalityBuf_spec hb, rbCardinality_eq hr, bhas_ext e]

/-- How many values are at most `x`. -/
theorem C116_rank {x : Nat} (hx : x < 4294967296) : rbRankBuf b x = .ok (Spec.card (x + 1) s) := by
  obtain ⟨r, hb, hr, e⟩ := isBitmapSet_iff.1 h
  rw [rbRankBuf_spec hb, rbRank_eq hr hx, bhas_ext e]

/-- How many values are below `x`, if it is one of them. -/
theorem C116_get_index {x : Nat} (hx : x < 4294967296) : rbGetIndexBuf b x = .ok (if s x then (Spec.card x s : Int) else -1) := by
  obtain ⟨r, hb, hr, e⟩ := isBitmapSet_iff.1 h
  rw [rbGetIndexBuf_spec hb hr, rbGetIndex_eq hr hx, bhas_ext e]

/-- The value at position `k` of the increasing list of the values; the condition is that of `C19_select_partial`: not all 2^32 values
and a position in the last container at the same time. -/
theorem C116_select {k : Nat} (hk : k < 4294967296) (hs : Spec.card 4294967296 s < 4294967296 ∨ k < 4294901760) :
    rbSelectBuf b k = .ok ((Spec.enum 4294967296 s)[k]?) := by
  obtain ⟨r, hb, hr, e⟩ := isBitmapSet_iff.1 h
  rw [← bhas_ext e, card_bhas hr] at hs
  rw [rbSelectBuf_spec hb, rbSelect_eq' hr hk hs, bhas_ext e]

theorem C116_minimum : ∃ m, rbMinimumBuf b = .ok m ∧ ((∀ v, s v = false) → m = 4294967295) ∧
    ((∃ v, s v = true) → s m = true ∧ ∀ v, s v = true → m ≤ v) := by
  obtain ⟨r, hb, hr, e⟩ := isBitmapSet_iff.1 h
  have hn : r = [] ↔ ∀ v, s v = false := by
    rw [← funext e, ← rbIsEmpty_iff hr, rbIsEmpty]
    simp
  refine ⟨_, rbMinimumBuf_spec hb, fun q => (rbMinimum_spec hr).1 (hn.2 q), fun ⟨v, hv⟩ => ?_⟩
  have := (rbMinimum_spec hr).2 (fun q => by rw [hn.1 q v] at hv; cases hv)
  simpa only [e] using this

theorem C116_maximum : ∃ m, rbMaximumBuf b = .ok m ∧ ((∀ v, s v = false) → m = 0) ∧
    ((∃ v, s v = true) → s m = true ∧ ∀ v, s v = true → v ≤ m) := by
  obtain ⟨r, hb, hr, e⟩ := isBitmapSet_iff.1 h
  have hn : r = [] ↔ ∀ v, s v = false := by
    rw [← funext e, ← rbIsEmpty_iff hr, rbIsEmpty]
    simp
  refine ⟨_, rbMaximumBuf_spec hb, fun q => (rbMaximum_spec hr).1 (hn.2 q), fun ⟨v, hv⟩ => ?_⟩
  have := (rbMaximum_spec hr).2 (fun q => by rw [hn.1 q v] at hv; cases hv)
  simpa only [e] using this

/-- The caller's block needs room for the values and no more: the values are written to its front in increasing order, and the rest of
it stays as it was.  This holds with and without the vector instructions. -/
theorem C116_to_uint32_array (hw : Hw) (ans : List Nat) (ha : Spec.card 4294967296 s ≤ ans.length) :
    rbToArrayBuf hw b ans = .ok (Spec.enum 4294967296 s ++ ans.drop (Spec.card 4294967296 s)) := by
  obtain ⟨r, hb, hr, e⟩ := isBitmapSet_iff.1 h
  have hv : rbToUint32 r = Spec.enum 4294967296 s := by rw [rbToUint32_eq hr, vals_eq hr, bhas_ext e]
  have hl : (rbToUint32 r).length = Spec.card 4294967296 s := by rw [hv, Spec.card]
  have := rbToArrayLoopBuf_spec hw r (A := []) ans 0 (by simpa using hb)
  rw [List.length_nil] at this
  rw [rbToArrayBuf, hb.size, this, rbToMem_over hw r hr ans 0 (by omega), ok_bind]
  show Out.ok (over ans 0 (rbToUint32 r)) = _
  rw [over, hl, hv, List.take_zero, List.nil_append, Nat.zero_add]

theorem C116_contains_range_closed (lo hi : Nat) : ∃ a, rbContainsRangeClosedBuf b lo hi = .ok a ∧ (a = true ↔ ∀ v, lo ≤ v → v ≤ hi → s v = true) := by
  obtain ⟨r, hb, hr, e⟩ := isBitmapSet_iff.1 h
  refine ⟨_, rbContainsRangeClosedBuf_spec hb hr lo hi, ?_⟩
  rw [rbContainsRangeClosed_iff hr]
  simp only [e]

theorem C116_range_cardinality_closed (lo hi : Nat) :
    rbRangeCardinalityClosedBuf b lo hi = .ok (Spec.card 4294967296 fun x => decide (lo ≤ x ∧ x ≤ hi) && s x) := by
  obtain ⟨r, hb, hr, e⟩ := isBitmapSet_iff.1 h
  rw [rbRangeCardinalityClosedBuf_spec hb hr, rbRangeCardinalityClosed_eq hr, bhas_ext e]

end

section
variable {b c : RaBuf} {s t : NSet} (h : IsBitmapSet b s) (h' : IsBitmapSet c t)
include h h'

theorem C116_equals : ∃ a, rbEqualsBuf b c = .ok a ∧ (a = true ↔ ∀ v, s v = t v) := by
  obtain ⟨r, hb, hr, e⟩ := isBitmapSet_iff.1 h
  obtain ⟨r', hb', hr', e'⟩ := isBitmapSet_iff.1 h'
  refine ⟨_, rbEqualsBuf_spec hb hb', ?_⟩
  rw [rbEquals_iff hr hr']
  simp only [e, e']

theorem C116_is_subset : ∃ a, rbIsSubsetBuf b c = .ok a ∧ (a = true ↔ ∀ v, s v = true → t v = true) := by
  obtain ⟨r, hb, hr, e⟩ := isBitmapSet_iff.1 h
  obtain ⟨r', hb', hr', e'⟩ := isBitmapSet_iff.1 h'
  refine ⟨_, rbIsSubsetBuf_spec hb hr hb' hr', ?_⟩
  rw [rbIsSubset_iff hr hr']
  simp only [e, e']

theorem C116_is_strict_subset : ∃ a, rbIsStrictSubsetBuf b c = .ok a ∧
    (a = true ↔ (∀ v, s v = true → t v = true) ∧ ∃ v, t v = true ∧ s v = false) := by
  obtain ⟨r, hb, hr, e⟩ := isBitmapSet_iff.1 h
  obtain ⟨r', hb', hr', e'⟩ := isBitmapSet_iff.1 h'
  refine ⟨_, rbIsStrictSubsetBuf_spec hb hr hb' hr', ?_⟩
  rw [rbIsStrictSubset_iff hr hr']
  simp only [e, e']

theorem C116_intersect : ∃ a, rbIntersectBuf b c = .ok a ∧ (a = true ↔ ∃ v, s v = true ∧ t v = true) := by
  obtain ⟨r, hb, hr, e⟩ := isBitmapSet_iff.1 h
  obtain ⟨r', hb', hr', e'⟩ := isBitmapSet_iff.1 h'
  refine ⟨_, rbIntersectBuf_spec hb hr hb' hr', ?_⟩
  rw [rbIntersect_iff hr hr']
  simp only [e, e']

theorem C116_and_cardinality : rbAndCardinalityBuf b c = .ok (Spec.card 4294967296 (Spec.inter s t)) := by
  obtain ⟨r, hb, hr, e⟩ := isBitmapSet_iff.1 h
  obtain ⟨r', hb', hr', e'⟩ := isBitmapSet_iff.1 h'
  rw [rbAndCardinalityBuf_spec hb hr hb' hr', rbAndCardinality_eq hr hr', bhas_ext e, bhas_ext e']

theorem C116_or_cardinality : rbOrCardinalityBuf b c = .ok (Spec.card 4294967296 (Spec.union s t)) := by
  obtain ⟨r, hb, hr, e⟩ := isBitmapSet_iff.1 h
  obtain ⟨r', hb', hr', e'⟩ := isBitmapSet_iff.1 h'
  rw [rbOrCardinalityBuf_spec hb hr hb' hr', rbOrCardinality_eq hr hr', bhas_ext e, bhas_ext e']

theorem C116_andnot_cardinality : rbAndnotCardinalityBuf b c = .ok (Spec.card 4294967296 (Spec.diff s t)) := by
  obtain ⟨r, hb, hr, e⟩ := isBitmapSet_iff.1 h
  obtain ⟨r', hb', hr', e'⟩ := isBitmapSet_iff.1 h'
  rw [rbAndnotCardinalityBuf_spec hb hr hb' hr', rbAndnotCardinality_eq hr hr', bhas_ext e, bhas_ext e']

theorem C116_xor_cardinality : rbXorCardinalityBuf b c = .ok (Spec.card 4294967296 (Spec.symm s t)) := by
  obtain ⟨r, hb, hr, e⟩ := isBitmapSet_iff.1 h
  obtain ⟨r', hb', hr', e'⟩ := isBitmapSet_iff.1 h'
  rw [rbXorCardinalityBuf_spec hb hr hb' hr', rbXorCardinality_eq hr hr', bhas_ext e, bhas_ext e']

end

/-- After any sequence of calls that the rules allow, every bitmap that was not freed answers these questions from its values. -/
theorem C116_after_history (calls : List (Op × RbEnv)) (hE : ∀ c ∈ calls, Allocates c.2)
    {p : History.Pool} (hp : History.run false [] (calls.map (·.1)) = some p) :
    ∃ q, bufRun [] calls = .ok q ∧ ∀ (i : Nat) (s : NSet), p[i]? = some (some s) → ∃ b, q[i]? = some (some b) ∧
      rbCardinalityBuf b = .ok (Spec.card 4294967296 s) ∧
      (∀ x < 4294967296, rbRankBuf b x = .ok (Spec.card (x + 1) s)) ∧
      ∀ (j : Nat) (t : NSet), p[j]? = some (some t) → ∃ c, q[j]? = some (some c) ∧ ∃ a, rbEqualsBuf b c = .ok a ∧ (a = true ↔ ∀ v, s v = t v) := by
  obtain ⟨q, e, hq⟩ := C115_history calls hE hp
  have key : ∀ (i : Nat) (s : NSet), p[i]? = some (some s) → ∃ b, q[i]? = some (some b) ∧ IsBitmapSet b s := by
    intro i s hi
    have hl := hq.length_eq
    have hlt : i < p.length := (List.getElem?_eq_some_iff.1 hi).1
    have hlq : i < q.length := by omega
    have := List.forall₂_iff_get.1 hq |>.2 i hlq hlt
    have hpi : p.get ⟨i, hlt⟩ = some s := by
      have := List.getElem?_eq_some_iff.1 hi
      exact this.2
    rw [hpi] at this
    cases hqi : q.get ⟨i, hlq⟩ with
    | none => rw [hqi] at this; exact this.elim
    | some b =>
      rw [hqi] at this
      refine ⟨b, ?_, this⟩
      rw [List.getElem?_eq_getElem hlq]
      exact congrArg some hqi
  refine ⟨q, e, fun i s hi => ?_⟩
  obtain ⟨b, hb, h⟩ := key i s hi
  refine ⟨b, hb, C116_cardinality h, fun x hx => C116_rank h hx, fun j t hj => ?_⟩
  obtain ⟨c, hc, h'⟩ := key j t hj
  exact ⟨c, hc, C116_equals h h'⟩

/-! ### The hypotheses are met

`twoCells`, in Props/C115, is the bitmap {5, 65536, 65537, 65538} in a block with a cell that is not in use. -/

example : rbCardinalityBuf twoCells = .ok 4 ∧ rbRankBuf twoCells 65536 = .ok 2 ∧ rbGetIndexBuf twoCells 65537 = .ok 2 ∧
    rbMinimumBuf twoCells = .ok 5 ∧ rbMaximumBuf twoCells = .ok 65538 ∧ rbSelectBuf twoCells 3 = .ok (some 65538) ∧ rbSelectBuf twoCells 4 = .ok none ∧
    rbContainsRangeClosedBuf twoCells 65536 65538 = .ok true ∧ rbContainsRangeClosedBuf twoCells 65535 65538 = .ok false ∧
    rbRangeCardinalityClosedBuf twoCells 6 65537 = .ok 2 ∧ rbEqualsBuf twoCells twoCells = .ok true ∧
    rbToArrayBuf ⟨true, true⟩ twoCells [0, 0, 0, 0, 8] = .ok [5, 65536, 65537, 65538, 8] := by decide +kernel

/-- A counter beyond the block is an access outside it. -/
example : rbCardinalityBuf ⟨1, [(0, .array ⟨3, [5, 99]⟩)]⟩ = .oob := by decide

/-- An array that is too short for the values is left. -/
example : rbToArrayBuf ⟨false, false⟩ twoCells [0, 0, 0] = .oob := by decide +kernel

end CRoaring.Props
