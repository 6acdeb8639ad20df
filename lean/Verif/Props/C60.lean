import Verif.Props.C53
import Verif.Lemmas.Iter64b
/-
C60 - C66: 64-bit bitmaps: ranges, flips, ranks, selection, extrema.
-/
namespace CRoaring.Props
open CRoaring

/-! ### Ranges -/

/-- C60: `add_range_closed` and `add_range` add exactly the values of `[lo, hi]` and of `[lo, hi)`. -/
theorem C60_add_range {r : R64} (h : Valid64 r) (lo : Nat) {hi : Nat} (hhi : hi < 2 ^ 64) :
    (Valid64 (r64AddRangeClosed r lo hi) ∧ ∀ y, y < 2 ^ 64 →
      (r64Contains (r64AddRangeClosed r lo hi) y = true ↔ (lo ≤ y ∧ y ≤ hi) ∨ r64Contains r y = true)) ∧
    (Valid64 (r64AddRange r lo hi) ∧ ∀ y, y < 2 ^ 64 →
      (r64Contains (r64AddRange r lo hi) y = true ↔ (lo ≤ y ∧ y < hi) ∨ r64Contains r y = true)) := by
  obtain ⟨h1, h2⟩ := fin64 (r64AddRangeClosed_spec h.rep (min := lo) (max := hi) (by unfold TOP64; omega))
  obtain ⟨h3, h4⟩ := fin64 (r64AddRange_spec h.rep (min := lo) (max := hi) (by unfold TOP64; omega))
  refine ⟨⟨h1, fun y hy => ?_⟩, h3, fun y hy => ?_⟩
  · rw [h2 y hy]
    simp only [Spec.union, Spec.range, has64_of hy, Bool.or_eq_true, Bool.and_eq_true, decide_eq_true_eq]
    rw [or_comm, Nat.lt_succ_iff]
  · rw [h4 y hy]
    simp only [Spec.union, Spec.range, has64_of hy, Bool.or_eq_true, Bool.and_eq_true, decide_eq_true_eq]
    rw [or_comm]

/-- C60: `remove_range_closed` and `remove_range` remove exactly the values of `[lo, hi]` and of `[lo, hi)`. -/
theorem C60_remove_range {r : R64} (h : Valid64 r) (lo : Nat) {hi : Nat} (hhi : hi < 2 ^ 64) :
    (Valid64 (r64RemoveRangeClosed r lo hi) ∧ ∀ y, y < 2 ^ 64 →
      (r64Contains (r64RemoveRangeClosed r lo hi) y = true ↔ ¬ (lo ≤ y ∧ y ≤ hi) ∧ r64Contains r y = true)) ∧
    (Valid64 (r64RemoveRange r lo hi) ∧ ∀ y, y < 2 ^ 64 →
      (r64Contains (r64RemoveRange r lo hi) y = true ↔ ¬ (lo ≤ y ∧ y < hi) ∧ r64Contains r y = true)) := by
  obtain ⟨h1, h2⟩ := fin64 (r64RemoveRangeClosed_spec h.rep (min := lo) (max := hi) (by unfold TOP64; omega))
  obtain ⟨h3, h4⟩ := fin64 (r64RemoveRange_spec h.rep (min := lo) (max := hi) (by unfold TOP64; omega))
  refine ⟨⟨h1, fun y hy => ?_⟩, h3, fun y hy => ?_⟩
  · rw [h2 y hy]
    simp only [Spec.diff, Spec.range, has64_of hy, Bool.not_eq_true', Bool.and_eq_true, ← Bool.decide_and, decide_eq_false_iff_not]
    rw [and_comm, Nat.lt_succ_iff]
  · rw [h4 y hy]
    simp only [Spec.diff, Spec.range, has64_of hy, Bool.not_eq_true', Bool.and_eq_true, ← Bool.decide_and, decide_eq_false_iff_not]
    rw [and_comm]

example : Valid64 exS64 ∧ 18446744073709551615 < 2 ^ 64 := ⟨exS64_valid, by omega⟩
example : r64Cardinality (r64AddRange exT64 131050 262144) = 4 + 131144 ∧
    r64Cardinality (r64RemoveRangeClosed exS64 65531 131080) = 3 := by decide +kernel

/-- C61: whenever all values of `[lo, hi)` are contained, `contains_range` says so; and it is right if the bitmap has a
value in the block of 2^16 values in which the range ends, or no value behind that block.  Missing: the other bitmaps, for
which the claim is false (`C61_contains_range_false`). -/
theorem C61_contains_range_partial {r : R64} (h : Valid64 r) (lo : Nat) {hi : Nat} (hhi : hi < 2 ^ 64) :
    ((∀ y, lo ≤ y → y < hi → r64Contains r y = true) → r64ContainsRange r lo hi = true) ∧
    (((∃ y, y < 2 ^ 64 ∧ y / 65536 = (hi - 1) / 65536 ∧ r64Contains r y = true) ∨
        (∀ y, y < 2 ^ 64 → r64Contains r y = true → y / 65536 ≤ (hi - 1) / 65536)) →
      (r64ContainsRange r lo hi = true ↔ ∀ y, lo ≤ y → y < hi → r64Contains r y = true)) := by
  constructor
  · intro hh
    exact r64ContainsRange_complete h.rep (by unfold TOP64; omega) fun y h1 h2 => by rw [has64_of (by omega)]; exact hh y h1 h2
  · intro hs
    rw [r64ContainsRange_iff h.rep (by unfold TOP64; omega)]
    · constructor
      · intro hh y h1 h2; rw [← has64_of (by omega)]; exact hh y h1 h2
      · intro hh y h1 h2; rw [has64_of (by omega)]; exact hh y h1 h2
    · rcases hs with ⟨y, hy, h1, h2⟩ | hs
      · exact .inl ⟨y, h1, has64_iff.2 ⟨hy, h2⟩⟩
      · exact .inr fun y hy => hs y (has64_lt hy).1 (has64_lt hy).2

/-- The bitmap {0, ..., 65535, 327680} is said to contain [0, 131072), though it lacks 65536. -/
theorem C61_contains_range_false :
    ∃ r, Valid64 r ∧ r64ContainsRange r 0 131072 = true ∧ r64Contains r 65536 = false := by
  refine ⟨r64Add (r64AddRangeClosed r64Create 0 65535) 327680, ?_, by decide +kernel, by decide +kernel⟩
  exact (C53_add (C60_add_range C53_create.1 0 (hi := 65535) (by omega)).1.1 (by omega)).1

example : ∃ y, y < 2 ^ 64 ∧ y / 65536 = (131081 - 1) / 65536 ∧ r64Contains exS64 y = true := ⟨131080, by omega, by omega, by decide +kernel⟩
example : r64ContainsRange exS64 65530 131081 = true ∧ r64ContainsRange exS64 65530 131082 = false := by decide +kernel

/-- C62: the range cardinalities count the contained values of `[lo, hi]` and of `[lo, hi)`; as a 64-bit number, for
the closed form of the full range. -/
theorem C62_range_cardinality {r : R64} (h : Valid64 r) (lo : Nat) {hi : Nat} (hhi : hi < 2 ^ 64) :
    r64RangeCardinalityClosed r lo hi = Spec.card (2 ^ 64) (fun y => decide (lo ≤ y ∧ y ≤ hi) && r64Contains r y) % 2 ^ 64 ∧
    r64RangeCardinality r lo hi = Spec.card (2 ^ 64) (fun y => decide (lo ≤ y ∧ y < hi) && r64Contains r y) := by
  have key : ∀ {a b : Nat}, a ≤ b → b ≤ 2 ^ 64 → Spec.card b (has64 r) - Spec.card a (has64 r) =
      Spec.card (2 ^ 64) (fun y => decide (a ≤ y ∧ y < b) && r64Contains r y) := by
    intro a b hab hb
    have := card_between (s := has64 r) hab hb
    rw [← this, Nat.add_sub_cancel]
    exact card_congr' fun x hx => by rw [has64_of hx]
  have e1 : ∀ {a : Nat}, (fun y => decide (a ≤ y ∧ y < hi + 1) && r64Contains r y) = (fun y => decide (a ≤ y ∧ y ≤ hi) && r64Contains r y) := by
    intro a; funext y; congr 1; simp only [Nat.lt_succ_iff]
  constructor
  · by_cases hle : lo ≤ hi
    · rw [r64RangeCardinalityClosed_eq h.rep (by unfold TOP64; omega) hle, key (by omega) (by omega), e1]
      rfl
    · unfold r64RangeCardinalityClosed
      rw [if_pos (by omega), card_eq_zero.2 fun y _ => ?_]
      have : ¬ (lo ≤ y ∧ y ≤ hi) := by omega
      simp [this]
  · rw [r64RangeCardinality_eq h.rep (by unfold TOP64; omega)]
    by_cases hle : lo ≤ hi
    · rw [key hle (by omega)]
      refine Nat.mod_eq_of_lt ?_
      refine card_lacks (y := hi) hhi ?_
      simp
    · have hm : Spec.card hi (has64 r) ≤ Spec.card lo (has64 r) := by
        have := card_between (n := lo) (s := has64 r) (show hi ≤ lo by omega) (Nat.le_refl _)
        omega
      have hz : Spec.card (2 ^ 64) (fun y => decide (lo ≤ y ∧ y < hi) && r64Contains r y) = 0 := by
        refine card_eq_zero.2 fun y _ => ?_
        have : ¬ (lo ≤ y ∧ y < hi) := by omega
        simp [this]
      rw [Nat.sub_eq_zero_of_le hm, hz]
      rfl

/-- C62: `intersect_with_range` says whether a value of `[lo, hi)` is contained. -/
theorem C62_intersect_with_range {r : R64} (h : Valid64 r) (lo : Nat) {hi : Nat} (hhi : hi < 2 ^ 64) (junk : Iter64) :
    r64IntersectWithRange r lo hi junk = true ↔ ∃ y, lo ≤ y ∧ y < hi ∧ r64Contains r y = true := by
  rw [r64IntersectWithRange_iff h.rep (by unfold TOP64; omega) junk]
  constructor
  · rintro ⟨y, h1, h2, h3⟩; exact ⟨y, h1, h2, (has64_lt h3).2⟩
  · rintro ⟨y, h1, h2, h3⟩; exact ⟨y, h1, h2, has64_iff.2 ⟨by omega, h3⟩⟩

example : r64RangeCardinalityClosed exS64 5 65531 = 3 ∧ r64RangeCardinality exS64 6 65531 = 1 := by decide +kernel

/-! ### Flips -/

theorem flip_fin {r : R64} {t : NSet} {P : Nat → Prop} [DecidablePred P] {y : Nat} (hy : y < 2 ^ 64)
    (e : t y = (decide (P y) != has64 r y)) : t y = if P y then !r64Contains r y else r64Contains r y := by
  rw [e, has64_of hy]
  split
  · rename_i hh; rw [decide_eq_true hh]; simp
  · rename_i hh; rw [decide_eq_false hh]; simp

/-- C63: the four flip functions toggle exactly the values of the range. -/
theorem C63_flip {r : R64} (h : Valid64 r) (lo : Nat) {hi : Nat} (hhi : hi < 2 ^ 64) :
    (Valid64 (r64FlipClosed r lo hi) ∧ ∀ y, y < 2 ^ 64 →
      r64Contains (r64FlipClosed r lo hi) y = if lo ≤ y ∧ y ≤ hi then !r64Contains r y else r64Contains r y) ∧
    (Valid64 (r64FlipClosedInplace r lo hi) ∧ ∀ y, y < 2 ^ 64 →
      r64Contains (r64FlipClosedInplace r lo hi) y = if lo ≤ y ∧ y ≤ hi then !r64Contains r y else r64Contains r y) ∧
    (Valid64 (r64Flip r lo hi) ∧ ∀ y, y < 2 ^ 64 →
      r64Contains (r64Flip r lo hi) y = if lo ≤ y ∧ y < hi then !r64Contains r y else r64Contains r y) ∧
    (Valid64 (r64FlipInplace r lo hi) ∧ ∀ y, y < 2 ^ 64 →
      r64Contains (r64FlipInplace r lo hi) y = if lo ≤ y ∧ y < hi then !r64Contains r y else r64Contains r y) := by
  have hT : hi < TOP64 := by unfold TOP64; omega
  obtain ⟨h1, e1⟩ := fin64 (r64FlipClosed_spec h.rep (min := lo) hT)
  obtain ⟨h2, e2⟩ := fin64 (r64FlipClosedInplace_spec h.rep (min := lo) hT)
  obtain ⟨h3, e3⟩ := fin64 (r64Flip_spec h.rep (min := lo) hT)
  obtain ⟨h4, e4⟩ := fin64 (r64FlipInplace_spec h.rep (min := lo) hT)
  refine ⟨⟨h1, fun y hy => ?_⟩, ⟨h2, fun y hy => ?_⟩, ⟨h3, fun y hy => ?_⟩, h4, fun y hy => ?_⟩
  · rw [e1 y hy]; exact flip_fin (P := fun y => lo ≤ y ∧ y ≤ hi) hy (by simp only [flipR, Nat.lt_succ_iff])
  · rw [e2 y hy]; exact flip_fin (P := fun y => lo ≤ y ∧ y ≤ hi) hy (by simp only [flipR, Nat.lt_succ_iff])
  · rw [e3 y hy]; exact flip_fin (P := fun y => lo ≤ y ∧ y < hi) hy rfl
  · rw [e4 y hy]; exact flip_fin (P := fun y => lo ≤ y ∧ y < hi) hy rfl

/-- C63: flipping the same range twice restores the set. -/
theorem C63_flip_twice {r : R64} (h : Valid64 r) (lo : Nat) {hi : Nat} (hhi : hi < 2 ^ 64) :
    r64Equals (r64FlipClosed (r64FlipClosed r lo hi) lo hi) r = true ∧
    r64Equals (r64FlipClosedInplace (r64FlipClosedInplace r lo hi) lo hi) r = true := by
  obtain ⟨⟨a1, a2⟩, ⟨b1, b2⟩, _⟩ := C63_flip h lo hhi
  obtain ⟨⟨c1, c2⟩, _⟩ := C63_flip a1 lo hhi
  obtain ⟨_, ⟨d1, d2⟩, _⟩ := C63_flip b1 lo hhi
  refine ⟨(C58_equals c1 h).2 fun y hy => ?_, (C58_equals d1 h).2 fun y hy => ?_⟩
  · rw [c2 y hy, a2 y hy]; split <;> simp
  · rw [d2 y hy, b2 y hy]; split <;> simp

example : r64Cardinality (r64FlipClosed exT64 0 131050) = 131051 - 2 - 51 + 50 + 2 := by decide +kernel

/-! ### Ranks -/

/-- C64: `rank` counts the contained values up to `x`, as a 64-bit number; `get_index` is the position of a contained value
and fails on others. -/
theorem C64_rank_get_index {r : R64} (h : Valid64 r) {x : Nat} (hx : x < 2 ^ 64) :
    r64Rank r x = Spec.card (2 ^ 64) (fun y => decide (y ≤ x) && r64Contains r y) % 2 ^ 64 ∧
    r64GetIndex r x = if r64Contains r x = true then some (Spec.card (2 ^ 64) fun y => decide (y < x) && r64Contains r y) else none := by
  have key : ∀ {b : Nat}, b ≤ 2 ^ 64 → Spec.card b (has64 r) = Spec.card (2 ^ 64) (fun y => decide (y < b) && r64Contains r y) := by
    intro b hb
    have := card_between (s := has64 r) (Nat.zero_le b) hb
    have h0 : Spec.card 0 (has64 r) = 0 := rfl
    rw [h0, Nat.add_zero] at this
    rw [← this]
    exact card_congr' fun x hx => by rw [has64_of hx]; simp
  have hT : x < TOP64 := by unfold TOP64; omega
  rw [r64Rank_eq h.rep hT, r64GetIndex_eq h.rep hT, has64_of hx, key (by omega), key (by omega)]
  simp only [Nat.lt_succ_iff]
  exact ⟨rfl, trivial⟩

/-- C65: `select(r, k)` is the contained value with exactly `k` contained values below it, and fails iff there is none;
for bitmaps that lack some value, and for the ranks below 2^64 - 2^16.  Missing: the last 2^16 ranks of the set of all
values, where the claim is false (`C65_select_false`). -/
theorem C65_select_partial {r : R64} (h : Valid64 r) {k : Nat} (hk : k < 2 ^ 64)
    (hb : (∃ y, y < 2 ^ 64 ∧ r64Contains r y = false) ∨ k < 2 ^ 64 - 65536) :
    (r64Select r k = none ↔ Spec.card (2 ^ 64) (r64Contains r) ≤ k) ∧
    ∀ v, r64Select r k = some v ↔ v < 2 ^ 64 ∧ r64Contains r v = true ∧ Spec.card v (r64Contains r) = k := by
  have hb' : Spec.card TOP64 (has64 r) < TOP64 ∨ k < TOP64 - 65536 := by
    rcases hb with ⟨y, hy, hh⟩ | hb
    · exact .inl (card_lacks (y := y) (by unfold TOP64; omega) (by rw [has64_of hy]; exact hh))
    · exact .inr (by unfold TOP64; omega)
  rw [r64Select_eq h.rep (by unfold TOP64; omega) hb', ← card_has64 (Nat.le_refl _)]
  constructor
  · have hg : ∀ n, (Spec.enum n (has64 r))[k]? = none ↔ Spec.card n (has64 r) ≤ k := fun n => List.getElem?_eq_none_iff
    exact hg TOP64
  · intro v
    have hg : ∀ n, (Spec.enum n (has64 r))[k]? = some v ↔ v < n ∧ has64 r v = true ∧ Spec.card v (has64 r) = k := by
      intro n
      constructor
      · intro e
        obtain ⟨hk', e'⟩ := List.getElem?_eq_some_iff.1 e
        obtain ⟨x, h1, h2, h3, h4⟩ := enum_getElem_lt (n := n) (k := k) (s := has64 r) hk'
        rw [h1] at e
        cases e
        exact ⟨h2, h3, h4⟩
      · rintro ⟨h1, h2, h3⟩
        obtain ⟨x, g1, g2, g3, g4⟩ := enum_getElem_lt (n := n) (k := k) (s := has64 r) (by rw [← h3]; exact card_lt_of_mem h1 h2)
        rw [g1]
        rcases Nat.lt_trichotomy x v with hlt | rfl | hlt
        · have := card_lt_of_mem hlt g3; omega
        · rfl
        · have := card_lt_of_mem hlt h2; omega
    rw [hg]
    constructor
    · rintro ⟨h1, h2, h3⟩
      have hv : v < 2 ^ 64 := by unfold TOP64 at h1; omega
      rw [card_has64 (by omega)] at h3
      exact ⟨hv, (has64_lt h2).2, h3⟩
    · rintro ⟨h1, h2, h3⟩
      rw [card_has64 (by omega)]
      exact ⟨by unfold TOP64; omega, has64_iff.2 ⟨h1, h2⟩, h3⟩

/-- The set of all values has a value of rank 2^64 - 1, but `select` does not find it. -/
theorem C65_select_false : ∃ r, Valid64 r ∧ (∀ y, y < 2 ^ 64 → r64Contains r y = true) ∧ r64Select r (2 ^ 64 - 1) = none := by
  refine ⟨exFull64, exFull64_valid, fun y => exFull64_has, ?_⟩
  exact r64Select_full exFull64_valid.rep (card_all fun x hx => by rw [has64_of hx]; exact exFull64_has hx)

/-- C66: `minimum` and `maximum`; 2^64 - 1 and 0 for the empty bitmap. -/
theorem C66_extrema {r : R64} (h : Valid64 r) :
    ((∀ y, y < 2 ^ 64 → r64Contains r y = false) → r64Minimum r = 2 ^ 64 - 1 ∧ r64Maximum r = 0) ∧
    ∀ v, v < 2 ^ 64 → r64Contains r v = true →
      r64Contains r (r64Minimum r) = true ∧ r64Contains r (r64Maximum r) = true ∧ r64Minimum r ≤ v ∧ v ≤ r64Maximum r ∧
        r64Maximum r < 2 ^ 64 := by
  obtain ⟨a1, a2⟩ := r64Minimum_spec h.rep
  obtain ⟨b1, b2⟩ := r64Maximum_spec h.rep
  constructor
  · intro hh
    have hz : ∀ y, has64 r y = false := by
      intro y
      cases hc : has64 r y with
      | false => rfl
      | true => have := has64_lt hc; rw [hh y this.1] at this; cases this.2
    exact ⟨a1 hz, b1 hz⟩
  · intro v hv hh
    have hv' := has64_iff.2 ⟨hv, hh⟩
    obtain ⟨m1, m2⟩ := a2 ⟨v, hv'⟩
    obtain ⟨m3, m4⟩ := b2 ⟨v, hv'⟩
    exact ⟨(has64_lt m1).2, (has64_lt m3).2, m2 v hv', m4 v hv', (has64_lt m3).1⟩

example : r64Rank exS64 131080 = 65552 ∧ r64GetIndex exS64 131080 = some 65551 ∧ r64GetIndex exS64 131081 = none ∧
    r64Select exS64 65552 = some 9223372036854775815 ∧ r64Select exS64 65553 = none ∧
    r64Minimum exS64 = 5 ∧ r64Maximum exS64 = 9223372036854775815 := by decide +kernel

end CRoaring.Props
