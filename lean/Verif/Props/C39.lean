import Verif.Props.C18
import Verif.Lemmas.BitsetT3
import Verif.Lemmas.Stats
/-
C39, C42, C48 - C52: the standalone bitset (`bitset_t`), conversion to it, statistics.

`BSOK b` (Verif/Lemmas/BitsetT.lean) says that the words in use are allocated and that there are at most `SIZE_MAX / 64`
of them; `C48_reachable` shows it of every bitset that the operations can build.  The argument `junk` gives the contents
of freshly allocated, uninitialised words: the theorems hold for all of them.
-/
namespace CRoaring.Props
open CRoaring

/-- The number of members does not depend on the bound that is used to count. -/
theorem card_two_bounds {n m : Nat} {s : NSet} (h1 : ∀ x, s x = true → x < 64 * n)
    (h2 : ∀ x, s x = true → x < m) : Spec.card (64 * n) s = Spec.card m s := by
  rcases Nat.le_total (64 * n) m with h | h
  · exact (card_words_pad h1 h).symm
  · have e : 64 * n = m + (64 * n - m) := by omega
    rw [e, card_add m, card_eq_zero (n := 64 * n - m) |>.2, Nat.add_zero]
    intro x _
    cases hh : s (m + x) with
    | false => rfl
    | true => have := h2 _ hh; omega

/-- C39: `roaring_bitmap_to_bitset`, into any bitset without set bits, sets exactly the contained values. -/
theorem C39_to_bitset (junk : Nat → Word) {r : Bitmap} (h : Valid r) {b : BSet} (hb : BSOK b)
    (he : ∀ x, bsGet b x = false) :
    (rbToBitset junk r b).2 = true ∧ BSOK (rbToBitset junk r b).1 ∧
    (∀ x, bsGet (rbToBitset junk r b).1 x = rbContains r x) ∧
    bsCount (rbToBitset junk r b).1 = rbCardinality r := by
  have hs := rbToBitset_spec junk h.inv hb he
  refine ⟨hs.1, hs.2.1, fun x => by rw [hs.2.2, rbContains_eq h.inv], ?_⟩
  rw [bsCount_eq, rbCardinality_eq h.inv]
  have hlt : ∀ x, bhas r x = true → x < 64 * (rbToBitset junk r b).1.size := fun x hx =>
    bsGet_lt (by rw [hs.2.2, hx])
  generalize hN : (rbToBitset junk r b).1.size = N at *
  rw [card_congr (fun x _ => hs.2.2 x)]
  exact card_two_bounds hlt fun x hx => bhas_lt h.inv hx

example : Valid exS ∧ BSOK (bsCreateWithCapacity 100) ∧ ∀ x, bsGet (bsCreateWithCapacity 100) x = false :=
  ⟨exS_valid, bsCreateWithCapacity_spec 100⟩

/-- The containers of one kind. -/
def kind (q : Container → Bool) (r : Bitmap) : Bitmap := r.filter fun p => q p.2

/-- C42: all of the statistics: the cardinality, the extrema, and for each kind of container the number of such
containers, of the values in them and of their bytes.  Missing: run and bitset containers that hold all 2^32 values
together, where the 32-bit counter of the values wraps around (`C42_false`). -/
theorem C42_statistics_partial {r : Bitmap} (h : Valid r) (hall : ∃ v, v < 2 ^ 32 ∧ rbContains r v = false) :
    (rbStatistics r).cardinality = rbCardinality r ∧
    (rbStatistics r).min_value = rbMinimum r ∧ (rbStatistics r).max_value = rbMaximum r ∧
    (rbStatistics r).n_containers = r.length ∧
    (rbStatistics r).n_array_containers = (kind isArray r).length ∧
    (rbStatistics r).n_run_containers = (kind isRun r).length ∧
    (rbStatistics r).n_bitset_containers = (kind isBitset r).length ∧
    (rbStatistics r).n_values_array_containers = rbCardinality (kind isArray r) ∧
    (rbStatistics r).n_values_run_containers = rbCardinality (kind isRun r) ∧
    (rbStatistics r).n_values_bitset_containers = rbCardinality (kind isBitset r) ∧
    (rbStatistics r).n_array_containers + (rbStatistics r).n_run_containers + (rbStatistics r).n_bitset_containers =
      (rbStatistics r).n_containers ∧
    (rbStatistics r).n_values_array_containers + (rbStatistics r).n_values_run_containers +
      (rbStatistics r).n_values_bitset_containers = (rbStatistics r).cardinality ∧
    (rbStatistics r).n_bytes_array_containers = 2 * (rbStatistics r).n_values_array_containers ∧
    (rbStatistics r).n_bytes_bitset_containers = 8192 * (rbStatistics r).n_bitset_containers := by
  have hlt : bcard r < 4294967296 := by
    obtain ⟨v, hv, hf⟩ := hall
    refine Nat.lt_of_le_of_ne (bcard_le h.inv) fun e => ?_
    rw [← card_bhas h.inv, card_eq_n] at e
    rw [rbContains_eq h.inv, e v hv] at hf
    exact absurd hf (by simp)
  obtain ⟨i1, i2, i3, i4, i5, i6, i7, i8, i9, i10, i11, i12⟩ := rbStatistics_spec h.inv
  have hp := part_split r
  show _ ∧ _ ∧ _ ∧ _ ∧ _ = (part isArray r).length ∧ _ = (part isRun r).length ∧ _ = (part isBitset r).length ∧
    _ = rbCardinality (part isArray r) ∧ _ = rbCardinality (part isRun r) ∧ _ = rbCardinality (part isBitset r) ∧ _
  rw [rbCardinality_bcard h.inv, rbCardinality_bcard (part_inv h.inv), rbCardinality_bcard (part_inv h.inv),
    rbCardinality_bcard (part_inv h.inv), i1, i2, i3, i4, i5, i6, i7, i8, i9, i10, i11, i12]
  refine ⟨rfl, rfl, rfl, rfl, rfl, rfl, rfl, rfl, ?_, ?_, ?_, ?_, rfl, rfl⟩ <;> omega

example : Valid exF ∧ rbContains exF 0 = false :=
  ⟨exF_valid, by rw [rbContains_eq exF_valid.inv, exF, bhas_cons, bhas_cons, bhas_cons, bhas_nil]; rfl⟩

/-- The bitmap of all values, in run containers. -/
def exAllRuns : Bitmap := cellsFrom 0 65536 (fun _ => .run [(0, 65535)])

theorem exAllRuns_valid : Valid exAllRuns := by
  have h : BInv exAllRuns := bp_cellsFrom (by omega) fun _ _ _ => rep_fullRun.cne (x := 0) (by decide)
  exact h.valid

theorem part_all {q : Container → Bool} {r : Bitmap} (h : ∀ p ∈ r, q p.2 = true) : part q r = r := by
  unfold part; exact List.filter_eq_self.2 h

/-- C42 is false in general: for the bitmap of all values in run containers the counter of the values in run
containers is 0, although the cardinality is 2^32 and there are no other containers. -/
theorem C42_false : Valid exAllRuns ∧ (rbStatistics exAllRuns).cardinality = 2 ^ 32 ∧
    (rbStatistics exAllRuns).n_run_containers = (rbStatistics exAllRuns).n_containers ∧
    (rbStatistics exAllRuns).n_values_run_containers = 0 := by
  have h := exAllRuns_valid
  have hc : bcard exAllRuns = 4294967296 := by
    rw [← card_bhas h.inv]
    refine card_eq_n.2 fun v hv => ?_
    rw [exAllRuns, bhas_cellsFrom, rep_fullRun.has]
    have h1 : v % 65536 < 65536 := by omega
    have h2 : v / 65536 < 65536 := by omega
    simp [h1, h2]
  have hpt : part isRun exAllRuns = exAllRuns := part_all fun p hp => by
    have := mem_cellsFrom.1 hp
    rw [this.2.2]; rfl
  obtain ⟨i1, i2, i3, i4, i5, i6, i7, i8, i9, i10, i11, i12⟩ := rbStatistics_spec h.inv
  rw [i1, i4, i6, i9, hpt, hc]
  exact ⟨h, by omega, rfl, by omega⟩

/-- The bitsets that the operations can build (with any uninitialised memory). -/
inductive BSBuilt : BSet → Prop
  | create : BSBuilt bsCreate
  | withCapacity (n : Nat) : BSBuilt (bsCreateWithCapacity n)
  | copy (b : BSet) : BSBuilt b → BSBuilt (bsCopy b)
  | clear (b : BSet) : BSBuilt b → BSBuilt (bsClear b)
  | fill (b : BSet) : BSBuilt b → BSBuilt (bsFill b)
  | resize (junk : Nat → Word) (b : BSet) (n : Nat) (pad : Bool) : BSBuilt b → BSBuilt (bsResize junk b n pad).1
  | grow (junk : Nat → Word) (b : BSet) (n : Nat) : BSBuilt b → BSBuilt (bsGrow junk b n).1
  | set (junk : Nat → Word) (b : BSet) (i : Nat) : BSBuilt b → BSBuilt (bsSet junk b i)
  | setTo (junk : Nat → Word) (b : BSet) (i : Nat) (v : Bool) : BSBuilt b → BSBuilt (bsSetToValue junk b i v)
  | union (junk : Nat → Word) (b c : BSet) : BSBuilt b → BSBuilt c → BSBuilt (bsInplaceUnion junk b c).1
  | inter (b c : BSet) : BSBuilt b → BSBuilt c → BSBuilt (bsInplaceIntersection b c)
  | diff (b c : BSet) : BSBuilt b → BSBuilt c → BSBuilt (bsInplaceDifference b c)
  | symm (junk : Nat → Word) (b c : BSet) : BSBuilt b → BSBuilt c → BSBuilt (bsInplaceSymmetricDifference junk b c).1
  | trim (b b' : BSet) (ok : Bool) : BSBuilt b → bsTrim b = some (b', ok) → BSBuilt b'
  | shl (junk : Nat → Word) (b b' : BSet) (s : Nat) : BSBuilt b → b.size + s / 64 + 1 ≤ MAXWORDS →
      (b.size ≠ 0 ∨ s % 64 = 0) → bsShiftLeft junk b s = some b' → BSBuilt b'
  | shr (junk : Nat → Word) (b b' : BSet) (s : Nat) : BSBuilt b → (s / 64 < b.size ∨ (s / 64 = b.size ∧ s % 64 = 0)) →
      bsShiftRight junk b s = some b' → BSBuilt b'
  | toBitset (junk : Nat → Word) (r : Bitmap) (b : BSet) : BSBuilt b → Valid r → (∀ x, bsGet b x = false) →
      BSBuilt (rbToBitset junk r b).1

/-- C48: every bitset that a history of operations builds satisfies `BSOK`. -/
theorem C48_reachable {b : BSet} (h : BSBuilt b) : BSOK b := by
  induction h with
  | create => exact bsCreate_spec.1
  | withCapacity n => exact (bsCreateWithCapacity_spec n).1
  | copy b _ ih => exact (bsCopy_spec ih).1
  | clear b _ ih => exact (bsClear_spec ih).1
  | fill b _ ih => exact (bsFill_spec ih).1
  | resize junk b n pad _ ih =>
    by_cases hn : n ≤ MAXWORDS
    · exact (bsResize_spec junk ih pad hn).2.1
    · rw [bsResize, if_pos (by omega)]; exact ih
  | grow junk b n _ ih =>
    by_cases hn : MAXWORDS < n ∨ n < b.size
    · rw [bsGrow_fail junk hn]; exact ih
    · exact (bsGrow_spec junk ih (n := n) (by omega) (by omega)).2.1
  | set junk b i _ ih =>
    by_cases hi : i / 64 < MAXWORDS
    · exact (bsSet_spec junk ih hi).1
    · have hle := ih.max
      have : bsSet junk b i = b := by
        unfold bsSet
        simp only []
        rw [if_pos (by omega : i / 64 ≥ b.size), bsGrow_fail junk (by omega)]
        exact if_pos rfl
      rw [this]; exact ih
  | setTo junk b i v _ ih =>
    by_cases hi : i / 64 < MAXWORDS
    · exact (bsSetToValue_spec junk ih v hi).1
    · have hle := ih.max
      have : bsSetToValue junk b i v = b := by
        unfold bsSetToValue
        simp only []
        rw [if_pos (by omega : i / 64 ≥ b.size), bsGrow_fail junk (by omega)]
        exact if_pos rfl
      rw [this]; exact ih
  | union junk b c _ _ ih1 ih2 => exact (bsInplaceUnion_spec junk ih1 ih2).2.1
  | inter b c _ _ ih1 ih2 => exact (bsInplaceIntersection_spec ih1).1
  | diff b c _ _ ih1 ih2 => exact (bsInplaceDifference_spec ih1).1
  | symm junk b c _ _ ih1 ih2 => exact (bsInplaceSymm_spec junk ih1 ih2).2.1
  | trim b b' ok _ e ih =>
    by_cases hx : ∃ x, bsGet b x = true
    · obtain ⟨b'', e', h', _⟩ := bsTrim_spec ih hx
      rw [e'] at e
      cases e
      exact h'
    · by_cases hc : b.mem.length = 0
      · have hsz := ih.le
        have : bsTrim b = some (b, true) := by
          unfold bsTrim
          have := (trimLoop_spec b b.size (Nat.le_refl _)).1
          rw [if_pos (by omega)]
        rw [this] at e
        cases e
        exact ih
      · rw [bsTrim_none (fun x => by simpa using fun hh => hx ⟨x, hh⟩) hc] at e
        exact absurd e (by simp)
  | shl junk b b' s _ hs hz e ih =>
    obtain ⟨b'', e', h', _⟩ := bsShiftLeft_spec junk ih hs hz
    rw [e'] at e
    cases e
    exact h'
  | shr junk b b' s _ hs e ih =>
    obtain ⟨b'', e', h', _⟩ := bsShiftRight_spec junk ih hs
    rw [e'] at e
    cases e
    exact h'
  | toBitset junk r b _ hr he ih => exact (rbToBitset_spec junk hr.inv ih he).2.1

/-- C48: a new bitset, with or without capacity, has no bits. -/
theorem C48_create (n i : Nat) : bsGet bsCreate i = false ∧ bsGet (bsCreateWithCapacity n) i = false :=
  ⟨bsCreate_spec.2 i, (bsCreateWithCapacity_spec n).2 i⟩

/-- C48: `set` adds one bit, growing the bitset if needed. -/
theorem C48_set (junk : Nat → Word) {b : BSet} (h : BSOK b) {i : Nat} (hi : i / 64 < MAXWORDS) (x : Nat) :
    bsGet (bsSet junk b i) x = Spec.insert (bsGet b) i x := (bsSet_spec junk h hi).2.2 x

/-- C48: `set_to_value` changes exactly one bit. -/
theorem C48_set_to_value (junk : Nat → Word) {b : BSet} (h : BSOK b) {i : Nat} (v : Bool) (hi : i / 64 < MAXWORDS)
    (x : Nat) : bsGet (bsSetToValue junk b i v) x = if x = i then v else bsGet b x :=
  (bsSetToValue_spec junk h v hi).2.2 x

/-- C48: `bitset_grow` succeeds for every size from the current one to the limit, and changes no bit; otherwise it
refuses and changes nothing. -/
theorem C48_grow (junk : Nat → Word) {b : BSet} (h : BSOK b) (n : Nat) :
    ((bsGrow junk b n).2 = true ↔ b.size ≤ n ∧ n ≤ MAXWORDS) ∧ ((bsGrow junk b n).2 = true → (bsGrow junk b n).1.size = n) ∧
    ∀ x, bsGet (bsGrow junk b n).1 x = bsGet b x := by
  by_cases hn : MAXWORDS < n ∨ n < b.size
  · rw [bsGrow_fail junk hn]
    exact ⟨⟨fun e => absurd e (by simp), fun e => absurd e (by omega)⟩, fun e => absurd e (by simp), fun x => rfl⟩
  · have hs := bsGrow_spec junk h (n := n) (by omega) (by omega)
    exact ⟨⟨fun _ => by omega, fun _ => hs.1⟩, fun _ => hs.2.2.1, fun x => by rw [bsGet_eq, bsGet_eq, hs.2.2.2]⟩

/-- C48: `bitset_resize` keeps the bits that fit, and with padding the new bits are clear. -/
theorem C48_resize (junk : Nat → Word) {b : BSet} (h : BSOK b) {n : Nat} (hn : n ≤ MAXWORDS) (x : Nat) :
    (bsResize junk b n true).2 = true ∧ bsGet (bsResize junk b n true).1 x = (decide (x < 64 * n) && bsGet b x) := by
  have hs := bsResize_spec junk h true hn
  refine ⟨hs.1, ?_⟩
  rw [bsGet_eq, bsGet_eq, bword, bword, hs.2.2.1]
  by_cases h1 : x / 64 < n
  · rw [if_pos h1, decide_eq_true (by omega), Bool.true_and]
    by_cases h2 : x / 64 < b.size
    · rw [if_pos h2, hs.2.2.2.1 _ h1 h2]
    · rw [if_neg h2, hs.2.2.2.2.1 rfl _ h1 (by omega)]
  · rw [if_neg h1, decide_eq_false (by omega), Bool.false_and]
    simp

/-- C48: a copy has the same bits; clearing leaves none; filling sets all the bits in use. -/
theorem C48_copy_clear_fill {b : BSet} (h : BSOK b) (x : Nat) :
    bsGet (bsCopy b) x = bsGet b x ∧ bsGet (bsClear b) x = false ∧ bsGet (bsFill b) x = decide (x < 64 * b.size) :=
  ⟨(bsCopy_spec h).2 x, (bsClear_spec h).2 x, (bsFill_spec h).2 x⟩

/-- Sample bitset: {3, 64, 200} in 4 words, with 7 allocated. -/
def exBS : BSet := ⟨[8#64, 1#64, 0#64, 256#64, 5#64, 6#64, 7#64], 4⟩
/-- Sample bitset: {3, 65}. -/
def exBS2 : BSet := ⟨[8#64, 2#64], 2⟩

theorem exBS_ok : BSOK exBS := ⟨by decide, by decide⟩
theorem exBS2_ok : BSOK exBS2 := ⟨by decide, by decide⟩

example : BSOK exBS ∧ 1000 / 64 < MAXWORDS := ⟨exBS_ok, by decide⟩
example : bsGet exBS 200 = true ∧ bsGet exBS 201 = false ∧ bsGet exBS 256 = false := by decide +kernel

/-- C49: the in-place operations compute the set operations. -/
theorem C49_inplace (junk : Nat → Word) {b1 b2 : BSet} (h1 : BSOK b1) (h2 : BSOK b2) (x : Nat) :
    ((bsInplaceUnion junk b1 b2).2 = true ∧
      bsGet (bsInplaceUnion junk b1 b2).1 x = Spec.union (bsGet b1) (bsGet b2) x) ∧
    bsGet (bsInplaceIntersection b1 b2) x = Spec.inter (bsGet b1) (bsGet b2) x ∧
    bsGet (bsInplaceDifference b1 b2) x = Spec.diff (bsGet b1) (bsGet b2) x ∧
    ((bsInplaceSymmetricDifference junk b1 b2).2 = true ∧
      bsGet (bsInplaceSymmetricDifference junk b1 b2).1 x = Spec.symm (bsGet b1) (bsGet b2) x) :=
  ⟨⟨(bsInplaceUnion_spec junk h1 h2).1, (bsInplaceUnion_spec junk h1 h2).2.2 x⟩, (bsInplaceIntersection_spec h1).2 x,
    (bsInplaceDifference_spec h1).2 x, (bsInplaceSymm_spec junk h1 h2).1, (bsInplaceSymm_spec junk h1 h2).2.2 x⟩

/-- C49: the counting operations give the number of members of the set operations (below any bound `n` that exceeds
all the bits of the operands). -/
theorem C49_counts {b1 b2 : BSet} {n : Nat} (h1 : 64 * b1.size ≤ n) (h2 : 64 * b2.size ≤ n) :
    bsCount b1 = Spec.card n (bsGet b1) ∧
    bsUnionCount b1 b2 = Spec.card n (Spec.union (bsGet b1) (bsGet b2)) ∧
    bsIntersectionCount b1 b2 = Spec.card n (Spec.inter (bsGet b1) (bsGet b2)) ∧
    bsDifferenceCount b1 b2 = Spec.card n (Spec.diff (bsGet b1) (bsGet b2)) ∧
    bsSymmetricDifferenceCount b1 b2 = Spec.card n (Spec.symm (bsGet b1) (bsGet b2)) := by
  have g1 : ∀ x, bsGet b1 x = true → x < 64 * b1.size := fun _ h => bsGet_lt h
  have g2 : ∀ x, bsGet b2 x = true → x < 64 * b2.size := fun _ h => bsGet_lt h
  rw [bsCount_eq, bsUnionCount_eq, bsIntersectionCount_eq, bsDifferenceCount_eq, bsSymmCount_eq]
  refine ⟨(card_words_pad g1 h1).symm, (card_words_pad ?_ ?_).symm, (card_words_pad ?_ ?_).symm,
    (card_words_pad ?_ h1).symm, (card_words_pad ?_ ?_).symm⟩
  · intro x hx
    simp only [Spec.union, Bool.or_eq_true] at hx
    rcases hx with hx | hx
    · have := g1 x hx; omega
    · have := g2 x hx; omega
  · omega
  · intro x hx
    simp only [Spec.inter, Bool.and_eq_true] at hx
    have := g1 x hx.1; have := g2 x hx.2; omega
  · omega
  · intro x hx
    simp only [Spec.diff, Bool.and_eq_true] at hx
    exact g1 x hx.1
  · intro x hx
    cases e1 : bsGet b1 x with
    | true => have := g1 x e1; omega
    | false =>
      cases e2 : bsGet b2 x with
      | true => have := g2 x e2; omega
      | false => rw [Spec.symm, e1, e2] at hx; exact absurd hx (by decide)
  · omega

/-- C49: the predicates. -/
theorem C49_predicates (b1 b2 : BSet) :
    (bsIntersect b1 b2 = true ↔ ∃ x, bsGet b1 x = true ∧ bsGet b2 x = true) ∧
    (bsDisjoint b1 b2 = true ↔ ¬ ∃ x, bsGet b1 x = true ∧ bsGet b2 x = true) ∧
    (bsContainsAll b1 b2 = true ↔ ∀ x, bsGet b2 x = true → bsGet b1 x = true) ∧
    (bsEmpty b1 = true ↔ ∀ x, bsGet b1 x = false) := by
  refine ⟨bsIntersect_iff b1 b2, ?_, bsContainsAll_iff b1 b2, bsEmpty_iff b1⟩
  rw [← bsIntersect_iff, bsDisjoint_eq]
  cases bsIntersect b1 b2 <;> simp

example : 64 * exBS.size ≤ 256 ∧ 64 * exBS2.size ≤ 256 ∧ bsUnionCount exBS exBS2 = 4 ∧ bsIntersect exBS exBS2 = true ∧
    bsContainsAll exBS exBS2 = false := by decide +kernel

/-- C50: `bitset_shift_left` moves every bit up by `s`.  Missing: a bitset without words, unless `s` is a multiple of
64 (`C50_false_left`). -/
theorem C50_shift_left_partial (junk : Nat → Word) {b : BSet} (h : BSOK b) {s : Nat}
    (hs : b.size + s / 64 + 1 ≤ MAXWORDS) (hz : b.size ≠ 0 ∨ s % 64 = 0) :
    ∃ b', bsShiftLeft junk b s = some b' ∧ BSOK b' ∧ (∀ x, bsGet b' (x + s) = bsGet b x) ∧
      ∀ x, x < s → bsGet b' x = false := by
  obtain ⟨b', e, ok, hg⟩ := bsShiftLeft_spec junk h hs hz
  refine ⟨b', e, ok, fun x => ?_, fun x hx => ?_⟩
  · rw [hg, decide_eq_true (by omega), Bool.true_and, Nat.add_sub_cancel]
  · rw [hg, decide_eq_false (by omega), Bool.false_and]

/-- C50: `bitset_shift_right` moves every bit down by `s` and drops the `s` lowest ones.  Missing: shifts beyond the
words in use (`C50_false_right`). -/
theorem C50_shift_right_partial (junk : Nat → Word) {b : BSet} (h : BSOK b) {s : Nat}
    (hs : s / 64 < b.size ∨ (s / 64 = b.size ∧ s % 64 = 0)) :
    ∃ b', bsShiftRight junk b s = some b' ∧ BSOK b' ∧ ∀ x, bsGet b' x = bsGet b (x + s) :=
  bsShiftRight_spec junk h hs

example : exBS.size + 70 / 64 + 1 ≤ MAXWORDS ∧ exBS.size ≠ 0 ∧ 70 / 64 < exBS.size := by decide +kernel

theorem doubleUntil_le (cap n : Nat) : doubleUntil cap n ≤ max cap (2 * n) := by
  fun_induction doubleUntil cap n <;> omega

theorem ite_length {c : Prop} [Decidable c] {a b : List Word} (h : a.length = b.length) :
    (if c then a else b).length = b.length := by
  split
  · exact h
  · rfl

theorem bsResize_length (junk : Nat → Word) (b : BSet) (n : Nat) (pad : Bool) :
    (bsResize junk b n pad).1.mem.length ≤ max (2 * min n MAXWORDS + 1) (2 * b.mem.length) := by
  unfold bsResize
  by_cases h : n > MAXWORDS
  · rw [if_pos h]
    show b.mem.length ≤ _
    omega
  · rw [if_neg h]
    simp only []
    rw [ite_length (fillWords_length' _ _ _ _)]
    by_cases h2 : b.mem.length < n
    · rw [if_pos h2, reallocWords_length]
      have := doubleUntil_le (if b.mem.length = 0 then 1 else b.mem.length) n
      split at this <;> split <;> omega
    · rw [if_neg h2]; omega

theorem bsShiftLeft_none (junk : Nat → Word) {b : BSet} {s : Nat} (hs : s % 64 ≠ 0)
    (hl : (bsResize junk b (b.size + s / 64 + 1) true).1.mem.length ≤ szSub b.size 1) :
    bsShiftLeft junk b s = none := by
  unfold bsShiftLeft
  simp only [if_neg hs]
  rw [List.getElem?_eq_none hl]

/-- C50 is false for a new bitset: shifting it left by a number that is not a multiple of 64 reads `array[-1]`. -/
theorem C50_false_left (junk : Nat → Word) {s : Nat} (hs : s % 64 ≠ 0) : bsShiftLeft junk bsCreate s = none := by
  have hm := maxwords_eq
  refine bsShiftLeft_none junk hs ?_
  have h0 : bsCreate.size = 0 := rfl
  have h1 : bsCreate.mem.length = 0 := rfl
  generalize bsCreate = b at *
  have := bsResize_length junk b (b.size + s / 64 + 1) true
  rw [szSub]
  omega

theorem shrMove_none (extra n i : Nat) (mem : List Word) (hn : 0 < n) (h : mem.length < i + n + extra) :
    shrMove extra i n mem = none := by
  induction n generalizing i mem with
  | zero => omega
  | succ n ih =>
    rw [shrMove]
    by_cases hi : i + extra < mem.length
    · rw [getElem?_wd hi]
      simp only []
      rw [wordStore_ok (by omega)]
      exact ih _ _ (by omega) (by rw [List.length_set]; omega)
    · rw [List.getElem?_eq_none (by omega)]

theorem wordStore_none {mem : List Word} {i : Nat} (h : ¬ i < mem.length) (w : Word) : wordStore mem i w = none :=
  if_neg h

attribute [local irreducible] szSub wordStore in
theorem bsShiftRight_none (junk : Nat → Word) {b : BSet} {s : Nat} (h0 : s % 64 ≠ 0) (h3 : b.size - (s / 64 + 1) = 0)
    (h : b.mem.length ≤ szSub b.size 1 ∨ ¬ szSub (szSub b.size (s / 64)) 1 < b.mem.length) :
    bsShiftRight junk b s = none := by
  unfold bsShiftRight
  simp only []
  rw [if_neg h0, h3, shrLoop]
  simp only []
  cases hg : b.mem[szSub b.size 1]? with
  | none => rfl
  | some w =>
    rcases h with h | h
    · rw [List.getElem?_eq_none h] at hg
      exact absurd hg (by simp)
    · have h2 := wordStore_none h
      generalize wordStore b.mem (szSub (szSub b.size (s / 64)) 1) = f at h2 ⊢
      have : f = fun _ => none := funext h2
      rw [this]

attribute [local irreducible] szSub in
theorem bsShiftRight_none' (junk : Nat → Word) {b : BSet} {s : Nat} (h0 : s % 64 = 0) (h1 : 0 < szSub b.size (s / 64))
    (h2 : b.mem.length < 0 + szSub b.size (s / 64) + s / 64) : bsShiftRight junk b s = none := by
  unfold bsShiftRight
  simp only []
  rw [if_pos h0, shrMove_none _ _ _ _ h1 h2]

/-- C50 is false for every right shift beyond the words in use, such as the shift of a new bitset by 1: the code
accesses words far outside of the array. -/
theorem C50_false_right (junk : Nat → Word) {b : BSet} (h : BSOK b) (hm : b.mem.length < 2 ^ 60) {s : Nat}
    (hs : s < 2 ^ 64) (hz : ¬ (s / 64 < b.size ∨ (s / 64 = b.size ∧ s % 64 = 0))) : bsShiftRight junk b s = none := by
  have hle := h.le
  have hx := maxwords_eq
  by_cases h0 : s % 64 = 0
  · exact bsShiftRight_none' junk h0 (by rw [szSub]; omega) (by rw [szSub]; omega)
  · refine bsShiftRight_none junk h0 (by omega) ?_
    by_cases hb : b.size = 0
    · left; rw [szSub]; omega
    · right; rw [szSub, szSub]; omega

example : BSOK exBS2 ∧ exBS2.mem.length < 2 ^ 60 ∧ ¬ (129 / 64 < exBS2.size ∨ (129 / 64 = exBS2.size ∧ 129 % 64 = 0)) :=
  ⟨exBS2_ok, by decide, by decide⟩

/-- C51: `next_set_bit(b, &i)` finds the least set bit that is at least `i`, and fails exactly when there is none. -/
theorem C51_next_set_bit (b : BSet) (i : Nat) :
    (bsNextSetBit b i = none ↔ ∀ x, i ≤ x → bsGet b x = false) ∧
    ∀ v, bsNextSetBit b i = some v ↔ i ≤ v ∧ bsGet b v = true ∧ ∀ x, i ≤ x → x < v → bsGet b x = false := by
  rw [bsNextSetBit_eq]
  have hm : ∀ x, x ∈ bitsAbove b i ↔ i ≤ x ∧ bsGet b x = true := fun x => by
    rw [bitsAbove, mem_enum]
    simp only [Bool.and_eq_true, decide_eq_true_eq]
    exact ⟨fun h => h.2, fun h => ⟨bsGet_lt h.2, h⟩⟩
  have hs : (bitsAbove b i).Pairwise (· < ·) := enum_sorted _ _
  generalize bitsAbove b i = l at *
  cases l with
  | nil =>
    have hn : ∀ x, i ≤ x → bsGet b x = false := fun x hx => by
      cases hh : bsGet b x with
      | false => rfl
      | true => exact absurd ((hm x).2 ⟨hx, hh⟩) (by simp)
    refine ⟨⟨fun _ => hn, fun _ => rfl⟩, fun v => ⟨fun e => absurd e (by simp), fun h => ?_⟩⟩
    rw [hn v h.1] at h
    exact absurd h.2.1 (by simp)
  | cons w t =>
    have hw := (hm w).1 (by simp)
    rw [List.pairwise_cons] at hs
    have hmin : ∀ x, i ≤ x → x < w → bsGet b x = false := fun x hx hlt => by
      cases hh : bsGet b x with
      | false => rfl
      | true =>
        rcases List.mem_cons.1 ((hm x).2 ⟨hx, hh⟩) with e | e
        · omega
        · have := hs.1 x e; omega
    simp only [List.head?_cons, Option.some.injEq]
    refine ⟨⟨fun e => absurd e (by simp), fun h => ?_⟩, fun v => ⟨?_, fun h => ?_⟩⟩
    · rw [h w hw.1] at hw; exact absurd hw.2 (by simp)
    · rintro rfl; exact ⟨hw.1, hw.2, hmin⟩
    · rcases Nat.lt_trichotomy v w with e | e | e
      · rw [hmin v h.1 e] at h; exact absurd h.2.1 (by simp)
      · exact e.symm
      · rw [h.2.2 w hw.1 e] at hw; exact absurd hw.2 (by simp)

/-- The loop of the documentation (include/roaring/bitset/bitset.h:222-230): read batches of at most `cap` bits until
one is empty.  The list of all the bits read, in at most `fuel` batches. -/
def drain (b : BSet) (cap : Nat) : Nat → Nat → List Nat
  | 0, _ => []
  | fuel + 1, start =>
    let r := bsNextSetBits b cap start
    if r.1 = [] then [] else r.1 ++ drain b cap fuel (r.2 + 1)

theorem bitsAbove_step (b : BSet) {cap : Nat} (hc : 0 < cap) (start : Nat) (hne : bitsAbove b start ≠ []) :
    (bsNextSetBits b cap start).1 ≠ [] ∧
    bitsAbove b start = (bsNextSetBits b cap start).1 ++ bitsAbove b ((bsNextSetBits b cap start).2 + 1) := by
  obtain ⟨e1, e2⟩ := bsNextSetBits_eq b cap start
  rw [e1, e2]
  have hm : ∀ i x, x ∈ bitsAbove b i ↔ i ≤ x ∧ bsGet b x = true := fun i x => by
    rw [bitsAbove, mem_enum]
    simp only [Bool.and_eq_true, decide_eq_true_eq]
    exact ⟨fun h => h.2, fun h => ⟨bsGet_lt h.2, h⟩⟩
  have hs : (bitsAbove b start).Pairwise (· < ·) := enum_sorted _ _
  have hne2 : (bitsAbove b start).take cap ≠ [] := by
    cases hl : bitsAbove b start with
    | nil => exact absurd hl hne
    | cons a t =>
      cases cap with
      | zero => omega
      | succ n => simp
  refine ⟨hne2, ?_⟩
  obtain ⟨t, v, ht⟩ : ∃ t v, (bitsAbove b start).take cap = t ++ [v] :=
    ⟨_, _, (List.dropLast_concat_getLast hne2).symm⟩
  rw [ht, List.getLast?_append]
  simp only [List.getLast?_singleton, Option.some_or, Option.getD_some]
  have hd := List.take_append_drop cap (bitsAbove b start)
  rw [ht] at hd
  conv => lhs; rw [← hd]
  congr 1
  rw [← hd] at hs
  rw [List.pairwise_append] at hs
  obtain ⟨s1, s2, s3⟩ := hs
  have hv : v ∈ bitsAbove b start := by rw [← hd]; simp
  refine sorted_ext s2 (enum_sorted _ _) fun x => ?_
  show _ ↔ x ∈ bitsAbove b (v + 1)
  rw [hm]
  constructor
  · intro hx
    have h1 := s3 v (by simp) x hx
    have h2 : x ∈ bitsAbove b start := by rw [← hd]; exact List.mem_append_right _ hx
    exact ⟨h1, ((hm _ _).1 h2).2⟩
  · rintro ⟨h1, h2⟩
    have h3 : x ∈ bitsAbove b start := (hm _ _).2 ⟨by have := ((hm _ _).1 hv).1; omega, h2⟩
    rw [← hd, List.mem_append, List.mem_append] at h3
    rcases h3 with (h3 | h3) | h3
    · rw [List.pairwise_append] at s1
      have := s1.2.2 x h3 v (by simp)
      omega
    · simp only [List.mem_singleton] at h3; omega
    · exact h3

/-- C51: reading batches with `next_set_bits` yields every set bit exactly once, in increasing order, whatever the
size of the buffer; more batches than set bits are never needed. -/
theorem C51_next_set_bits (b : BSet) {cap : Nat} (hc : 0 < cap) {fuel : Nat} (hf : bsCount b < fuel) :
    (drain b cap fuel 0).Pairwise (· < ·) ∧ ∀ x, x ∈ drain b cap fuel 0 ↔ bsGet b x = true := by
  have key : ∀ fuel start, (bitsAbove b start).length < fuel → drain b cap fuel start = bitsAbove b start := by
    intro fuel
    induction fuel with
    | zero => intro start h; omega
    | succ fuel ih =>
      intro start h
      rw [drain]
      by_cases hne : bitsAbove b start = []
      · have := (bsNextSetBits_eq b cap start).1
        rw [hne, List.take_nil] at this
        simp only [this, if_true, hne]
      · obtain ⟨h1, h2⟩ := bitsAbove_step b hc start hne
        simp only [if_neg h1]
        rw [ih _ ?_, ← h2]
        rw [h2, List.length_append] at h
        have := List.length_pos_iff.2 h1
        omega
  have e0 : bitsAbove b 0 = Spec.enum (64 * b.size) (bsGet b) := by
    rw [bitsAbove]; exact enum_congr fun x _ => by simp
  rw [key fuel 0 (by rw [e0]; rw [bsCount_eq] at hf; exact hf), e0]
  exact ⟨enum_sorted _ _, fun x => by rw [mem_enum]; exact ⟨fun h => h.2, fun h => ⟨bsGet_lt h, h⟩⟩⟩

example : bsCount exBS < 4 ∧ drain exBS 2 4 0 = [3, 64, 200] := by decide +kernel

/-- C51: `bitset_for_each` calls the callback on the set bits in increasing order until it answers `false`, and answers
whether it never did. -/
theorem C51_for_each {σ : Type} (f : σ → Nat → σ × Bool) (s : σ) (b : BSet) :
    ∃ l, l.Pairwise (· < ·) ∧ (∀ v, v ∈ l ↔ bsGet b v = true) ∧ calls f s l (bsForEach f b s).1 (bsForEach f b s).2 := by
  refine ⟨Spec.enum (64 * b.size) (bsGet b), enum_sorted _ _, fun x => ?_, ?_⟩
  · rw [mem_enum]; exact ⟨fun h => h.2, fun h => ⟨bsGet_lt h, h⟩⟩
  · rw [bsForEach_eq]
    generalize Spec.enum (64 * b.size) (bsGet b) = l
    induction l generalizing s with
    | nil => exact calls.done s
    | cons v l ih =>
      rw [callUntil]
      split
      · rename_i hh
        exact calls.go s (f s v).1 _ v l _ (by rw [← hh]) (ih _)
      · rename_i hh
        exact calls.stop s (f s v).1 v l (by rw [← Bool.not_eq_true _ |>.mp hh])

/-- C51: `bitset_minimum` and `bitset_maximum` are the least and the greatest set bit; for a bitset without set bits
they answer `SIZE_MAX` and 0. -/
theorem C51_extrema (b : BSet) :
    ((∃ x, bsGet b x = true) → bsGet b (bsMinimum b) = true ∧ bsGet b (bsMaximum b) = true ∧
      ∀ x, bsGet b x = true → bsMinimum b ≤ x ∧ x ≤ bsMaximum b) ∧
    ((∀ x, bsGet b x = false) → bsMinimum b = 2 ^ 64 - 1 ∧ bsMaximum b = 0) := by
  have hmin := bsMinLoop_spec (b := b) 0 b.size (by omega)
  have hmax := bsMaxLoop_spec b b.size (Nat.le_refl _)
  have emin : bsMinLoop b.mem 0 b.size = bsMinimum b := rfl
  have emax : bsMaxLoop b.mem b.size = bsMaximum b := rfl
  rw [emin] at hmin
  rw [emax] at hmax
  constructor
  · rintro ⟨x, hx⟩
    rcases hmin with ⟨_, h⟩ | ⟨_, m1, m2⟩
    · rw [h x (by omega)] at hx; exact absurd hx (by simp)
    rcases hmax with ⟨_, h⟩ | ⟨_, m3, m4⟩
    · rw [h x (bsGet_lt hx)] at hx; exact absurd hx (by simp)
    refine ⟨m1, m3, fun y hy => ⟨?_, ?_⟩⟩
    · apply Nat.le_of_not_lt
      intro hlt
      rw [m2 y (by omega) hlt] at hy; exact absurd hy (by simp)
    · apply Nat.le_of_not_lt
      intro hlt
      rw [m4 y hlt (bsGet_lt hy)] at hy; exact absurd hy (by simp)
  · intro h
    rcases hmin with ⟨e1, _⟩ | ⟨_, m1, m2⟩
    · rcases hmax with ⟨e2, _⟩ | ⟨_, m3, m4⟩
      · exact ⟨e1, e2⟩
      · rw [h] at m3; exact absurd m3 (by simp)
    · rw [h] at m1; exact absurd m1 (by simp)

/-- C52: `bitset_trim` keeps the bits and gives all the unused memory back.  Missing: bitsets with allocated memory but
without set bits (`C52_false`). -/
theorem C52_trim_partial {b : BSet} (h : BSOK b) (hx : ∃ x, bsGet b x = true) :
    ∃ b', bsTrim b = some (b', true) ∧ BSOK b' ∧ (∀ x, bsGet b' x = bsGet b x) ∧ b'.size = b'.mem.length ∧
      b'.size ≤ b.size := by
  obtain ⟨b', e, ok, e1, e2, e3⟩ := bsTrim_spec h hx
  exact ⟨b', e, ok, e2, e1, e3⟩

example : bsGet exBS 200 = true ∧ bsTrim exBS = some (⟨[8#64, 1#64, 0#64, 256#64], 4⟩, true) := by decide +kernel

/-- C52 is false in general: trimming a bitset with allocated memory but without set bits (for example a new bitset
with some capacity) calls `realloc` with size 0. -/
theorem C52_false {b : BSet} (h : ∀ x, bsGet b x = false) (hc : b.mem.length ≠ 0) : bsTrim b = none := bsTrim_none h hc

example : (∀ x, bsGet (bsCreateWithCapacity 100) x = false) ∧ (bsCreateWithCapacity 100).mem.length ≠ 0 :=
  ⟨(bsCreateWithCapacity_spec 100).2, by decide +kernel⟩

end CRoaring.Props
