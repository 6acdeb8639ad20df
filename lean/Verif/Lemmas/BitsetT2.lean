import Verif.Lemmas.BitsetT
import Verif.Lemmas.Query
/-! Lemmas on the standalone bitset: counts of combinations, predicates, extrema, iteration, trimming. -/
set_option linter.unusedSimpArgs false
set_option linter.unusedVariables false

namespace CRoaring
open Spec

theorem bs_wd_bit {b : BSet} {k i : Nat} (hk : k < b.size) (hi : i < 64) :
    (wd b.mem k).getLsbD i = bsGet b (64 * k + i) := by
  rw [← bword_bit _ _ _ hi, bword, if_pos hk]

theorem bsGet_ge {b : BSet} {k i : Nat} (hk : b.size ≤ k) (hi : i < 64) : bsGet b (64 * k + i) = false := by
  rw [← bword_bit _ _ _ hi, bword_ge (by omega)]; simp

theorem sum_words {f : Nat → Nat} {s : NSet} {k n : Nat}
    (h : ∀ i, k ≤ i → i < k + n → f i = card 64 (fun j => s (64 * i + j))) :
    sumN f k n = sumN (fun i => card 64 (fun j => s (64 * i + j))) k n := sumN_congr _ _ h

theorem bsUnionCount_eq (b1 b2 : BSet) :
    bsUnionCount b1 b2 = card (64 * max b1.size b2.size) (Spec.union (bsGet b1) (bsGet b2)) := by
  unfold bsUnionCount
  simp only []
  rw [unroll41_eq _ _ _ _ (Nat.zero_le _)]
  generalize hb : (if b2.size > b1.size then b2 else b1) = b
  have hsz : b.size = max b1.size b2.size := by subst hb; split <;> omega
  simp only []
  rw [unroll41_eq _ _ _ _ (by rw [minLength_eq]; omega), card_words]
  simp only []
  rw [minLength_eq, ← hsz]
  generalize hm : min b1.size b2.size = m
  rw [show b.size = m + (b.size - m) by omega, sumN_add, Nat.zero_add, Nat.zero_add,
    show m + (b.size - m) = b.size by omega, Nat.sub_zero]
  congr 1
  · apply sum_words
    intro i _ hi
    apply popcount_word
    intro j hj
    rw [BitVec.getLsbD_or, bs_wd_bit (by omega) hj, bs_wd_bit (by omega) hj]; rfl
  · apply sum_words
    intro i hi1 hi2
    apply popcount_word
    intro j hj
    rw [bs_wd_bit (by omega) hj, Spec.union]
    by_cases hc : b2.size > b1.size
    · rw [if_pos hc] at hb; subst hb
      rw [bsGet_ge (b := b1) (by omega) hj]; simp
    · rw [if_neg hc] at hb; subst hb
      rw [bsGet_ge (b := b2) (by omega) hj]; simp

theorem bsSymmCount_eq (b1 b2 : BSet) :
    bsSymmetricDifferenceCount b1 b2 = card (64 * max b1.size b2.size) (Spec.symm (bsGet b1) (bsGet b2)) := by
  unfold bsSymmetricDifferenceCount
  simp only []
  rw [unroll1_eq _ _ _ _ (Nat.zero_le _)]
  generalize hb : (if b2.size > b1.size then b2 else b1) = b
  have hsz : b.size = max b1.size b2.size := by subst hb; split <;> omega
  simp only []
  rw [unroll1_eq _ _ _ _ (by rw [minLength_eq]; omega), card_words]
  simp only []
  rw [minLength_eq, ← hsz]
  generalize hm : min b1.size b2.size = m
  rw [show b.size = m + (b.size - m) by omega, sumN_add, Nat.zero_add, Nat.zero_add,
    show m + (b.size - m) = b.size by omega, Nat.sub_zero]
  congr 1
  · apply sum_words
    intro i _ hi
    apply popcount_word
    intro j hj
    rw [BitVec.getLsbD_xor, bs_wd_bit (by omega) hj, bs_wd_bit (by omega) hj, Spec.symm]
  · apply sum_words
    intro i hi1 hi2
    apply popcount_word
    intro j hj
    rw [bs_wd_bit (by omega) hj, Spec.symm]
    by_cases hc : b2.size > b1.size
    · rw [if_pos hc] at hb; subst hb
      rw [bsGet_ge (b := b1) (by omega) hj]; simp
    · rw [if_neg hc] at hb; subst hb
      rw [bsGet_ge (b := b2) (by omega) hj]; simp

theorem bsDifferenceCount_eq (b1 b2 : BSet) :
    bsDifferenceCount b1 b2 = card (64 * b1.size) (Spec.diff (bsGet b1) (bsGet b2)) := by
  unfold bsDifferenceCount
  simp only []
  rw [unroll1_eq _ _ _ _ (Nat.zero_le _)]
  simp only []
  rw [unroll1_eq _ _ _ _ (by rw [minLength_eq]; omega), card_words]
  simp only []
  rw [minLength_eq]
  generalize hm : min b1.size b2.size = m
  rw [show b1.size = m + (b1.size - m) by omega, sumN_add, Nat.zero_add, Nat.zero_add,
    show m + (b1.size - m) = b1.size by omega, Nat.sub_zero]
  congr 1
  · apply sum_words
    intro i _ hi
    apply popcount_word
    intro j hj
    rw [BitVec.getLsbD_and, BitVec.getLsbD_not, bs_wd_bit (by omega) hj, bs_wd_bit (by omega) hj, Spec.diff]
    simp [hj]
  · apply sum_words
    intro i hi1 hi2
    apply popcount_word
    intro j hj
    rw [bs_wd_bit (by omega) hj, Spec.diff, bsGet_ge (b := b2) (by omega) hj]; simp

theorem bsIntersectionCount_eq (b1 b2 : BSet) :
    bsIntersectionCount b1 b2 = card (64 * min b1.size b2.size) (Spec.inter (bsGet b1) (bsGet b2)) := by
  unfold bsIntersectionCount
  rw [unroll1_eq _ _ _ _ (Nat.zero_le _), card_words, minLength_eq]
  simp only [Nat.zero_add, Nat.sub_zero]
  apply sum_words
  intro i _ hi
  apply popcount_word
  intro j hj
  rw [BitVec.getLsbD_and, bs_wd_bit (by omega) hj, bs_wd_bit (by omega) hj]; rfl

/-! ### Predicates -/

theorem zero_iff_get {b : BSet} {k : Nat} (hk : k < b.size) :
    wd b.mem k = 0#64 ↔ ∀ i, i < 64 → bsGet b (64 * k + i) = false := by
  rw [word_eq_zero_iff]
  constructor
  · intro h i hi; rw [← bs_wd_bit hk hi]; exact h i hi
  · intro h i hi; rw [bs_wd_bit hk hi]; exact h i hi

theorem bsEmpty_iff (b : BSet) : bsEmpty b = true ↔ ∀ x, bsGet b x = false := by
  unfold bsEmpty
  rw [zeroWords_iff]
  constructor
  · intro h x
    by_cases hx : x / 64 < b.size
    · have := (zero_iff_get hx).1 (h _ (Nat.zero_le _) (by omega)) (x % 64) (Nat.mod_lt _ (by decide))
      rwa [Nat.div_add_mod] at this
    · cases hg : bsGet b x
      · rfl
      · have := bsGet_lt hg; omega
  · intro h k _ hk
    exact (zero_iff_get (by omega)).2 fun i _ => h _

theorem commonLoop_iff (w1 w2 : List Word) (k n : Nat) :
    commonLoop w1 w2 k n = true ↔ ∃ j, k ≤ j ∧ j < k + n ∧ wd w1 j &&& wd w2 j ≠ 0#64 := by
  induction n generalizing k with
  | zero => simp [commonLoop]; intro j h1 h2; omega
  | succ n ih =>
    rw [commonLoop]
    by_cases h : (wd w1 k &&& wd w2 k) ≠ 0#64
    · rw [if_pos h]
      exact ⟨fun _ => ⟨k, by omega, by omega, h⟩, fun _ => rfl⟩
    · rw [if_neg h, ih]
      constructor
      · rintro ⟨j, h1, h2, h3⟩; exact ⟨j, by omega, by omega, h3⟩
      · rintro ⟨j, h1, h2, h3⟩
        rcases Nat.eq_or_lt_of_le h1 with rfl | h4
        · exact absurd h3 h
        · exact ⟨j, by omega, by omega, h3⟩

theorem bsIntersect_iff (b1 b2 : BSet) :
    bsIntersect b1 b2 = true ↔ ∃ x, bsGet b1 x = true ∧ bsGet b2 x = true := by
  unfold bsIntersect
  rw [commonLoop_iff, minLength_eq]
  constructor
  · rintro ⟨k, _, h2, h3⟩
    have : ∃ i, i < 64 ∧ (wd b1.mem k &&& wd b2.mem k).getLsbD i = true := by
      apply Classical.byContradiction
      intro hn
      apply h3
      rw [word_eq_zero_iff]
      intro i hi
      cases hb : (wd b1.mem k &&& wd b2.mem k).getLsbD i
      · rfl
      · exact absurd ⟨i, hi, hb⟩ hn
    obtain ⟨i, hi, h4⟩ := this
    rw [BitVec.getLsbD_and, bs_wd_bit (by omega) hi, bs_wd_bit (by omega) hi, Bool.and_eq_true] at h4
    exact ⟨_, h4⟩
  · rintro ⟨x, h1, h2⟩
    have l1 := bsGet_lt h1
    have l2 := bsGet_lt h2
    refine ⟨x / 64, Nat.zero_le _, by omega, fun h0 => ?_⟩
    have := word_eq_zero_iff.1 h0 (x % 64) (Nat.mod_lt _ (by decide))
    rw [BitVec.getLsbD_and, bs_wd_bit (by omega) (Nat.mod_lt _ (by decide)), bs_wd_bit (by omega) (Nat.mod_lt _ (by decide)),
      Nat.div_add_mod, h1, h2] at this
    exact absurd this (by decide)

theorem bsDisjoint_eq (b1 b2 : BSet) : bsDisjoint b1 b2 = !bsIntersect b1 b2 := rfl

theorem containsLoop_iff (w1 w2 : List Word) (k n : Nat) :
    containsLoop w1 w2 k n = true ↔ ∀ j, k ≤ j → j < k + n → wd w1 j &&& wd w2 j = wd w2 j := by
  induction n generalizing k with
  | zero => simp [containsLoop]; intro j h1 h2; omega
  | succ n ih =>
    rw [containsLoop]
    by_cases h : (wd w1 k &&& wd w2 k) ≠ wd w2 k
    · rw [if_pos h]
      exact ⟨fun hf => absurd hf (by decide), fun hf => absurd (hf k (by omega) (by omega)) h⟩
    · rw [if_neg h, ih]
      have h' : wd w1 k &&& wd w2 k = wd w2 k := Classical.byContradiction h
      constructor
      · intro hf j h1 h2
        rcases Nat.eq_or_lt_of_le h1 with rfl | h4
        · exact h'
        · exact hf j (by omega) (by omega)
      · intro hf j h1 h2; exact hf j (by omega) (by omega)

theorem bsContainsAll_iff (b1 b2 : BSet) :
    bsContainsAll b1 b2 = true ↔ ∀ x, bsGet b2 x = true → bsGet b1 x = true := by
  unfold bsContainsAll bsAnyBitsSet
  simp only []
  have hmin : (if b1.size > b2.size then b2.size else b1.size) = min b1.size b2.size := by split <;> omega
  rw [hmin]
  have hloop : containsLoop b1.mem b2.mem 0 (min b1.size b2.size) = true ↔
      ∀ x, x < 64 * min b1.size b2.size → bsGet b2 x = true → bsGet b1 x = true := by
    rw [containsLoop_iff]
    constructor
    · intro h x hx h2
      have := and_eq_mask.1 (h (x / 64) (Nat.zero_le _) (by omega)) (x % 64) (Nat.mod_lt _ (by decide))
      rw [bs_wd_bit (by omega) (Nat.mod_lt _ (by decide)), bs_wd_bit (by omega) (Nat.mod_lt _ (by decide)),
        Nat.div_add_mod] at this
      exact this h2
    · intro h k _ hk
      rw [and_eq_mask]
      intro i hi
      rw [bs_wd_bit (by omega) hi, bs_wd_bit (by omega) hi]
      exact h _ (by omega)
  have htail : (!(if b1.size ≥ b2.size then false else !zeroWords b2.mem b1.size (b2.size - b1.size))) = true ↔
      ∀ x, 64 * b1.size ≤ x → bsGet b2 x = false := by
    by_cases hc : b1.size ≥ b2.size
    · rw [if_pos hc]
      refine ⟨fun _ x hx => ?_, fun _ => rfl⟩
      cases hg : bsGet b2 x
      · rfl
      · have := bsGet_lt hg; omega
    · rw [if_neg hc, Bool.not_not, zeroWords_iff]
      constructor
      · intro h x hx
        by_cases hx2 : x / 64 < b2.size
        · have := (zero_iff_get hx2).1 (h _ (by omega) (by omega)) (x % 64) (Nat.mod_lt _ (by decide))
          rwa [Nat.div_add_mod] at this
        · cases hg : bsGet b2 x
          · rfl
          · have := bsGet_lt hg; omega
      · intro h k h1 h2
        exact (zero_iff_get (by omega)).2 fun i _ => h _ (by omega)
  cases hl : containsLoop b1.mem b2.mem 0 (min b1.size b2.size)
  · rw [if_pos rfl]
    refine ⟨fun h => absurd h (by decide), fun h => ?_⟩
    have := hloop.2 fun x _ => h x
    rw [hl] at this; exact this
  · rw [if_neg (by decide)]
    have h1 := hloop.1 hl
    by_cases hc : b2.size > b1.size
    · rw [if_pos hc, htail]
      constructor
      · intro h x h2
        by_cases hx : x < 64 * b1.size
        · exact h1 x (by omega) h2
        · rw [h x (by omega)] at h2; cases h2
      · intro h x hx
        cases hg : bsGet b2 x
        · rfl
        · have := bsGet_lt (h x hg); omega
    · rw [if_neg hc]
      refine ⟨fun _ x h2 => ?_, fun _ => rfl⟩
      have := bsGet_lt h2
      exact h1 x (by omega) h2

/-! ### Extrema -/

theorem bsMinLoop_spec {b : BSet} (k n : Nat) (h : k + n = b.size) :
    (bsMinLoop b.mem k n = 18446744073709551615 ∧ ∀ x, 64 * k ≤ x → bsGet b x = false) ∨
    (64 * k ≤ bsMinLoop b.mem k n ∧ bsGet b (bsMinLoop b.mem k n) = true ∧
      ∀ x, 64 * k ≤ x → x < bsMinLoop b.mem k n → bsGet b x = false) := by
  induction n generalizing k with
  | zero =>
    left
    refine ⟨rfl, fun x hx => ?_⟩
    cases hg : bsGet b x
    · rfl
    · have := bsGet_lt hg; omega
  | succ n ih =>
    rw [bsMinLoop]
    by_cases hw : wd b.mem k ≠ 0#64
    · rw [if_pos hw]
      obtain ⟨c1, c2, c3⟩ := ctz_spec hw
      right
      refine ⟨by omega, ?_, fun x h1 h2 => ?_⟩
      · rw [bs_wd_bit (by omega) c1] at c2
        rwa [Nat.add_comm, Nat.mul_comm k 64]
      · have := c3 (x - 64 * k) (by omega)
        rw [bs_wd_bit (by omega) (by omega), show 64 * k + (x - 64 * k) = x by omega] at this
        exact this
    · rw [if_neg hw]
      have hz := (zero_iff_get (b := b) (k := k) (by omega)).1 (Classical.byContradiction hw)
      have hz' : ∀ x, 64 * k ≤ x → x < 64 * (k + 1) → bsGet b x = false := fun x h1 h2 => by
        have := hz (x - 64 * k) (by omega)
        rwa [show 64 * k + (x - 64 * k) = x by omega] at this
      rcases ih (k + 1) (by omega) with ⟨e, h1⟩ | ⟨e, h1, h2⟩
      · left
        refine ⟨e, fun x hx => ?_⟩
        by_cases hc : x < 64 * (k + 1)
        · exact hz' x hx hc
        · exact h1 x (by omega)
      · right
        refine ⟨by omega, h1, fun x hx hx2 => ?_⟩
        by_cases hc : x < 64 * (k + 1)
        · exact hz' x hx hc
        · exact h2 x (by omega) hx2

theorem bsMaxLoop_spec (b : BSet) (n : Nat) (h : n ≤ b.size) :
    (bsMaxLoop b.mem n = 0 ∧ ∀ x, x < 64 * n → bsGet b x = false) ∨
    (bsMaxLoop b.mem n < 64 * n ∧ bsGet b (bsMaxLoop b.mem n) = true ∧
      ∀ x, bsMaxLoop b.mem n < x → x < 64 * n → bsGet b x = false) := by
  induction n with
  | zero => left; exact ⟨rfl, fun x hx => by omega⟩
  | succ k ih =>
    rw [bsMaxLoop]
    by_cases hw : wd b.mem k ≠ 0#64
    · rw [if_pos hw]
      obtain ⟨c1, c2, c3⟩ := clz_spec hw
      right
      refine ⟨by omega, ?_, fun x h1 h2 => ?_⟩
      · rw [bs_wd_bit (by omega) (by omega)] at c2
        rwa [Nat.add_comm, Nat.mul_comm k 64]
      · have := c3 (x - 64 * k) (by omega)
        rw [bs_wd_bit (by omega) (by omega), show 64 * k + (x - 64 * k) = x by omega] at this
        exact this
    · rw [if_neg hw]
      have hz := (zero_iff_get (b := b) (k := k) (by omega)).1 (Classical.byContradiction hw)
      have hz' : ∀ x, 64 * k ≤ x → x < 64 * (k + 1) → bsGet b x = false := fun x h1 h2 => by
        have := hz (x - 64 * k) (by omega)
        rwa [show 64 * k + (x - 64 * k) = x by omega] at this
      rcases ih (by omega) with ⟨e, h1⟩ | ⟨e, h1, h2⟩
      · left
        refine ⟨e, fun x hx => ?_⟩
        by_cases hc : 64 * k ≤ x
        · exact hz' x hc hx
        · exact h1 x (by omega)
      · right
        refine ⟨by omega, h1, fun x hx hx2 => ?_⟩
        by_cases hc : 64 * k ≤ x
        · exact hz' x hc hx2
        · exact h2 x hx (by omega)

/-! ### Whole-bitset updates -/

theorem bsCreate_spec : BSOK bsCreate ∧ ∀ x, bsGet bsCreate x = false := by
  refine ⟨⟨by decide, by decide⟩, fun x => ?_⟩
  cases hg : bsGet bsCreate x
  · rfl
  · have h := bsGet_lt hg
    have e : bsCreate.size = 0 := rfl
    omega

theorem bsCreateWithCapacity_spec (n : Nat) :
    BSOK (bsCreateWithCapacity n) ∧ ∀ x, bsGet (bsCreateWithCapacity n) x = false := by
  have hsz : (bsCreateWithCapacity n).size = (n + 63) % 18446744073709551616 / 64 := rfl
  refine ⟨⟨by simp [bsCreateWithCapacity], by rw [maxwords_eq, hsz]; omega⟩, fun x => ?_⟩
  rw [bsGet_eq, bword]
  split
  · simp only [bsCreateWithCapacity, wd, List.getD_eq_getElem?_getD, List.getElem?_replicate]
    split <;> simp
  · simp

theorem wd_take (ws : List Word) (n k : Nat) (h : k < n) : wd (ws.take n) k = wd ws k := by
  simp only [wd, List.getD_eq_getElem?_getD, List.getElem?_take, if_pos h]

theorem bsCopy_spec {b : BSet} (h : BSOK b) : BSOK (bsCopy b) ∧ ∀ x, bsGet (bsCopy b) x = bsGet b x := by
  have hl := h.le
  refine ⟨⟨by simp only [bsCopy, List.length_take]; omega, h.max⟩, fun x => ?_⟩
  rw [bsGet_eq, bsGet_eq]
  unfold bword bsCopy
  simp only []
  split
  · rw [wd_take _ _ _ ‹_›]
  · rfl

theorem bsClear_spec {b : BSet} (h : BSOK b) : BSOK (bsClear b) ∧ ∀ x, bsGet (bsClear b) x = false := by
  have hl := h.le
  refine ⟨⟨by simp only [bsClear, fillWords_length']; omega, h.max⟩, fun x => ?_⟩
  rw [bsGet_eq]
  unfold bword bsClear
  simp only []
  rw [wd_fillWords _ _ _ _ _ (by omega)]
  by_cases hx : x / 64 < b.size
  · rw [if_pos hx, if_pos (by omega)]; simp
  · rw [if_neg hx]; simp

theorem bsFill_spec {b : BSet} (h : BSOK b) :
    BSOK (bsFill b) ∧ ∀ x, bsGet (bsFill b) x = decide (x < 64 * b.size) := by
  have hl := h.le
  refine ⟨⟨by simp only [bsFill, fillWords_length']; omega, h.max⟩, fun x => ?_⟩
  rw [bsGet_eq]
  unfold bword bsFill
  simp only []
  rw [wd_fillWords _ _ _ _ _ (by omega)]
  by_cases hx : x / 64 < b.size
  · rw [if_pos hx, if_pos (by omega), ones_getLsbD]
    rw [decide_eq_decide]; omega
  · rw [if_neg hx]
    simp; omega

theorem trimLoop_spec (b : BSet) (n : Nat) (h : n ≤ b.size) :
    trimLoop b.mem n ≤ n ∧ (∀ x, 64 * trimLoop b.mem n ≤ x → x < 64 * n → bsGet b x = false) ∧
      (0 < trimLoop b.mem n → ∃ x, bsGet b x = true ∧ x < 64 * n) := by
  induction n with
  | zero => exact ⟨Nat.le_refl _, fun x _ h => by omega, fun h => by simp [trimLoop] at h⟩
  | succ n ih =>
    rw [trimLoop]
    by_cases hw : wd b.mem n = 0#64
    · rw [if_pos hw]
      obtain ⟨h1, h2, h3⟩ := ih (by omega)
      have hz := (zero_iff_get (b := b) (k := n) (by omega)).1 hw
      refine ⟨by omega, fun x hx hx2 => ?_, fun hp => ?_⟩
      · by_cases hc : x < 64 * n
        · exact h2 x hx hc
        · have := hz (x - 64 * n) (by omega)
          rwa [show 64 * n + (x - 64 * n) = x by omega] at this
      · obtain ⟨x, hx, hx2⟩ := h3 hp
        exact ⟨x, hx, by omega⟩
    · rw [if_neg hw]
      refine ⟨Nat.le_refl _, fun x hx hx2 => by omega, fun _ => ?_⟩
      obtain ⟨c1, c2, c3⟩ := ctz_spec hw
      rw [bs_wd_bit (by omega) c1] at c2
      exact ⟨_, c2, by omega⟩

theorem bsTrim_spec {b : BSet} (h : BSOK b) (hx : ∃ x, bsGet b x = true) :
    ∃ b', bsTrim b = some (b', true) ∧ BSOK b' ∧ b'.size = b'.mem.length ∧ (∀ x, bsGet b' x = bsGet b x) ∧
      b'.size ≤ b.size := by
  have hl := h.le
  obtain ⟨h1, h2, h3⟩ := trimLoop_spec b b.size (Nat.le_refl _)
  unfold bsTrim
  simp only []
  generalize trimLoop b.mem b.size = n at *
  by_cases hc : b.mem.length = n
  · rw [if_pos hc]
    exact ⟨b, rfl, h, by omega, fun _ => rfl, Nat.le_refl _⟩
  · rw [if_neg hc]
    have hn : n ≠ 0 := by
      intro hn
      obtain ⟨x, hx⟩ := hx
      rw [h2 x (by omega) (bsGet_lt hx)] at hx
      cases hx
    rw [if_neg hn]
    refine ⟨_, rfl, ⟨by simp only [List.length_take]; omega, by simp only []; have := h.max; omega⟩,
      by simp only [List.length_take]; omega, fun x => ?_, h1⟩
    rw [bsGet_eq]
    by_cases hxn : x / 64 < n
    · rw [bword, if_pos hxn, bsGet_eq, bword, if_pos (by omega)]
      simp only []
      rw [wd_take _ _ _ hxn]
    · rw [bword_ge (b := ⟨b.mem.take n, n⟩) hxn]
      by_cases hx2 : x < 64 * b.size
      · rw [h2 x (by omega) hx2]; simp
      · cases hg : bsGet b x
        · simp
        · have := bsGet_lt hg; omega

/-- The bitsets on which `bitset_trim` calls `realloc` with size 0. -/
theorem bsTrim_none {b : BSet} (h : ∀ x, bsGet b x = false) (hc : b.mem.length ≠ 0) : bsTrim b = none := by
  obtain ⟨h1, h2, h3⟩ := trimLoop_spec b b.size (Nat.le_refl _)
  unfold bsTrim
  simp only []
  generalize trimLoop b.mem b.size = n at *
  have hn : n = 0 := by
    rcases Nat.eq_zero_or_pos n with h0 | h0
    · exact h0
    · obtain ⟨x, hx, _⟩ := h3 h0
      rw [h x] at hx; cases hx
  subst hn
  rw [if_neg hc, if_pos rfl]

/-! ### Iteration -/

/-- The set bits of `n` words from `k`, in increasing order. -/
def bitsFrom (ws : List Word) (k : Nat) : Nat → List Nat
  | 0 => []
  | n + 1 => extractWord (wd ws k) (k * 64) ++ bitsFrom ws (k + 1) n

theorem mem_bitsFrom (ws : List Word) (k n x : Nat) :
    x ∈ bitsFrom ws k n ↔ 64 * k ≤ x ∧ x < 64 * (k + n) ∧ bitAt ws x = true := by
  induction n generalizing k with
  | zero => simp [bitsFrom]; omega
  | succ n ih =>
    rw [bitsFrom, List.mem_append, ih, mem_extractWord]
    constructor
    · rintro (⟨h1, h2, h3⟩ | ⟨h1, h2, h3⟩)
      · refine ⟨by omega, by omega, ?_⟩
        rw [bitAt, show x / 64 = k by omega, show x % 64 = x - k * 64 by omega]; exact h3
      · exact ⟨by omega, by omega, h3⟩
    · rintro ⟨h1, h2, h3⟩
      by_cases hc : x < 64 * (k + 1)
      · left
        refine ⟨by omega, by omega, ?_⟩
        rw [bitAt, show x / 64 = k by omega, show x % 64 = x - k * 64 by omega] at h3; exact h3
      · right; exact ⟨by omega, by omega, h3⟩

theorem bitsFrom_sorted (ws : List Word) (k n : Nat) : SSorted (bitsFrom ws k n) := by
  induction n generalizing k with
  | zero => exact List.Pairwise.nil
  | succ n ih =>
    rw [bitsFrom]
    refine List.pairwise_append.2 ⟨extractWord_sorted _ _, ih _, fun a ha b hb => ?_⟩
    rw [mem_extractWord] at ha
    rw [mem_bitsFrom] at hb
    omega

theorem bsGet_bitAt {b : BSet} {x : Nat} (h : x < 64 * b.size) : bsGet b x = bitAt b.mem x := by
  rw [bsGet_eq, bword, if_pos (by omega), bitAt]

theorem bitsFrom_all (b : BSet) : bitsFrom b.mem 0 b.size = enum (64 * b.size) (bsGet b) := by
  apply sorted_eq_enum (bitsFrom_sorted _ _ _)
  intro x
  rw [mem_bitsFrom]
  constructor
  · rintro ⟨_, h2, h3⟩; exact ⟨by omega, by rw [bsGet_bitAt (by omega)]; exact h3⟩
  · rintro ⟨h2, h3⟩; exact ⟨by omega, by omega, by rw [← bsGet_bitAt (by omega)]; exact h3⟩

theorem forEachWord_eq {σ : Type} (f : σ → Nat → σ × Bool) (s : σ) (w : Word) (base : Nat) :
    forEachWord f s w base = callUntil f s (extractWord w base) := by
  fun_induction forEachWord f s w base with
  | case1 s => rw [extractWord, dif_pos rfl]; rfl
  | case2 s w h r hr ih =>
    rw [extractWord, dif_neg h, callUntil, if_pos hr, ih, xor_isolate_eq h]
  | case3 s w h r hr =>
    rw [extractWord, dif_neg h, callUntil, if_neg hr]

theorem forEachLoop_eq {σ : Type} (f : σ → Nat → σ × Bool) (ws : List Word) (s : σ) (k n : Nat) :
    forEachLoop f ws s k (k * 64) n = callUntil f s (bitsFrom ws k n) := by
  induction n generalizing s k with
  | zero => rfl
  | succ n ih =>
    rw [forEachLoop, bitsFrom, callUntil_append, forEachWord_eq, show k * 64 + 64 = (k + 1) * 64 by omega]
    simp only [ih]
    by_cases h : (callUntil f s (extractWord (wd ws k) (k * 64))).2 = true
    · rw [if_pos h, if_pos h]
    · rw [if_neg h, if_neg h, ← Bool.not_eq_true _ |>.mp h]

theorem bsForEach_eq {σ : Type} (f : σ → Nat → σ × Bool) (b : BSet) (s : σ) :
    bsForEach f b s = callUntil f s (enum (64 * b.size) (bsGet b)) := by
  rw [← bitsFrom_all, ← forEachLoop_eq]; rfl

theorem nextBitsWord_eq (cap base h : Nat) (w : Word) (hlt : h < cap) :
    nextBitsWord cap base h w = (extractWord w base).take (cap - h) := by
  fun_induction nextBitsWord cap base h w with
  | case1 h => rw [extractWord, dif_pos rfl]; simp
  | case2 h w hw ih =>
    rw [extractWord, dif_neg hw, show cap - h = (cap - (h + 1)) + 1 by omega, List.take_succ_cons]
    by_cases hc : h + 1 = cap
    · rw [if_pos hc, show cap - (h + 1) = 0 by omega, List.take_zero]
    · rw [if_neg hc, ih (by omega), xor_isolate_eq hw]

theorem nextBitsLoop_eq (ws : List Word) (cap h : Nat) (w : Word) (x n : Nat) (hlt : h < cap) :
    nextBitsLoop ws cap h w x n = (extractWord w (x * 64) ++ bitsFrom ws (x + 1) n).take (cap - h) := by
  induction n generalizing h w x with
  | zero => rw [nextBitsLoop, if_pos hlt, nextBitsWord_eq _ _ _ _ hlt, bitsFrom, List.append_nil]
  | succ n ih =>
    rw [nextBitsLoop, if_pos hlt]
    simp only []
    rw [nextBitsWord_eq _ _ _ _ hlt, List.take_append]
    have hlen : ((extractWord w (x * 64)).take (cap - h)).length = min (cap - h) (extractWord w (x * 64)).length :=
      List.length_take
    by_cases hc : h + ((extractWord w (x * 64)).take (cap - h)).length = cap
    · rw [if_pos hc, show cap - h - (extractWord w (x * 64)).length = 0 by omega, List.take_zero, List.append_nil]
    · rw [if_neg hc]
      have hle : (extractWord w (x * 64)).length < cap - h := by omega
      rw [ih _ _ _ (by omega), bitsFrom]
      congr 2
      omega

/-- The set bits at or above `i`, in increasing order. -/
def bitsAbove (b : BSet) (i : Nat) : List Nat := enum (64 * b.size) (fun x => decide (i ≤ x) && bsGet b x)

theorem bitsAbove_nil {b : BSet} {i : Nat} (h : b.size ≤ i / 64) : bitsAbove b i = [] := by
  rw [List.eq_nil_iff_forall_not_mem]
  intro x hx
  rw [bitsAbove, mem_enum, Bool.and_eq_true, decide_eq_true_eq] at hx
  omega

theorem bitsAbove_split {b : BSet} {i : Nat} (h : i / 64 < b.size) (w : Word)
    (hw : ∀ j, j < 64 → w.getLsbD j = (decide (i % 64 ≤ j) && (wd b.mem (i / 64)).getLsbD j)) :
    bitsAbove b i = extractWord w (i / 64 * 64) ++ bitsFrom b.mem (i / 64 + 1) (b.size - (i / 64 + 1)) := by
  symm
  apply sorted_eq_enum
  · refine List.pairwise_append.2 ⟨extractWord_sorted _ _, bitsFrom_sorted _ _ _, fun a ha c hc => ?_⟩
    rw [mem_extractWord] at ha
    rw [mem_bitsFrom] at hc
    omega
  · intro x
    rw [List.mem_append, mem_extractWord, mem_bitsFrom, Bool.and_eq_true, decide_eq_true_eq]
    constructor
    · rintro (⟨h1, h2, h3⟩ | ⟨h1, h2, h3⟩)
      · rw [hw _ (by omega), Bool.and_eq_true, decide_eq_true_eq, bs_wd_bit h (by omega),
          show 64 * (i / 64) + (x - i / 64 * 64) = x by omega] at h3
        exact ⟨by omega, by omega, h3.2⟩
      · exact ⟨by omega, by omega, by rw [bsGet_bitAt (by omega)]; exact h3⟩
    · rintro ⟨h1, h2, h3⟩
      by_cases hc : x < 64 * (i / 64 + 1)
      · left
        refine ⟨by omega, by omega, ?_⟩
        rw [hw _ (by omega), Bool.and_eq_true, decide_eq_true_eq, bs_wd_bit h (by omega),
          show 64 * (i / 64) + (x - i / 64 * 64) = x by omega]
        exact ⟨by omega, h3⟩
      · right
        exact ⟨by omega, by omega, by rw [← bsGet_bitAt (by omega)]; exact h3⟩

theorem bsNextSetBits_eq (b : BSet) (cap start : Nat) :
    (bsNextSetBits b cap start).1 = (bitsAbove b start).take cap ∧
    (bsNextSetBits b cap start).2 = (((bitsAbove b start).take cap).getLast?).getD start := by
  unfold bsNextSetBits
  by_cases h0 : cap = 0
  · rw [if_pos h0, h0]; simp
  · rw [if_neg h0]
    simp only []
    by_cases hx : start / 64 ≥ b.size
    · rw [if_pos hx, bitsAbove_nil hx]; simp
    · rw [if_neg hx]
      have e := bitsAbove_split (b := b) (i := start) (by omega)
        (wd b.mem (start / 64) &&& ~~~(oneBit (start % 64) - 1#64)) (fun j hj => by
          rw [BitVec.getLsbD_and, BitVec.getLsbD_not, oneBit_sub_one _ _ (Nat.mod_lt _ (by decide)) hj, Bool.and_comm]
          congr 1
          rw [← decide_not]; simp [hj])
      rw [nextBitsLoop_eq _ _ _ _ _ _ (by omega), ← e, Nat.sub_zero]
      refine ⟨rfl, ?_⟩
      generalize (bitsAbove b start).take cap = l
      simp only []
      rw [List.getLast?_eq_getElem?]
      cases l with
      | nil => rfl
      | cons a l => simp [List.getD_eq_getElem?_getD]

theorem extractWord_head {w : Word} (h : w ≠ 0#64) (base : Nat) : (extractWord w base).head? = some (ctz w + base) := by
  rw [extractWord, dif_neg h]; rfl

theorem nextLoop_eq (ws : List Word) (k n : Nat) : nextLoop ws k n = (bitsFrom ws k n).head? := by
  induction n generalizing k with
  | zero => rfl
  | succ n ih =>
    rw [nextLoop, bitsFrom]
    by_cases h : wd ws k ≠ 0#64
    · rw [if_pos h, List.head?_append, extractWord_head h, Nat.add_comm]; rfl
    · rw [if_neg h]
      have h0 : wd ws k = 0#64 := Classical.byContradiction h
      rw [h0, extractWord, dif_pos rfl, List.nil_append, ih]

theorem bsNextSetBit_eq (b : BSet) (i : Nat) : bsNextSetBit b i = (bitsAbove b i).head? := by
  unfold bsNextSetBit
  simp only []
  by_cases hx : i / 64 ≥ b.size
  · rw [if_pos hx, bitsAbove_nil hx]; rfl
  · rw [if_neg hx]
    have hm : i % 64 < 64 := Nat.mod_lt _ (by decide)
    have hsh : ∀ j, (wd b.mem (i / 64) >>> (i % 64)).getLsbD j = (wd b.mem (i / 64)).getLsbD (i % 64 + j) :=
      fun j => by rw [BitVec.getLsbD_ushiftRight]
    have e := bitsAbove_split (b := b) (i := i) (by omega)
        (wd b.mem (i / 64) &&& ~~~(oneBit (i % 64) - 1#64)) (fun j hj => by
          rw [BitVec.getLsbD_and, BitVec.getLsbD_not, oneBit_sub_one _ _ hm hj, Bool.and_comm]
          congr 1
          rw [← decide_not]; simp [hj])
    rw [e, nextLoop_eq]
    by_cases hw : (wd b.mem (i / 64) >>> (i % 64)) ≠ 0#64
    · rw [if_pos hw]
      obtain ⟨c1, c2, c3⟩ := ctz_spec hw
      rw [hsh] at c2
      have hlt : i % 64 + ctz (wd b.mem (i / 64) >>> (i % 64)) < 64 := by
        apply Classical.byContradiction
        intro hn
        rw [getLsbD_ge (by omega)] at c2; cases c2
      have hbit : ∀ j, j < 64 → (wd b.mem (i / 64) &&& ~~~(oneBit (i % 64) - 1#64)).getLsbD j =
          ((wd b.mem (i / 64)).getLsbD j && decide (i % 64 ≤ j)) := fun j hj => by
        rw [BitVec.getLsbD_and, BitVec.getLsbD_not, oneBit_sub_one _ _ hm hj]
        congr 1
        rw [← decide_not]; simp [hj]
      have hct : ctz (wd b.mem (i / 64) &&& ~~~(oneBit (i % 64) - 1#64)) =
          i % 64 + ctz (wd b.mem (i / 64) >>> (i % 64)) := by
        apply ctz_unique
        · rw [hbit _ hlt, c2]; simp
        · intro j hj
          rw [hbit _ (by omega)]
          by_cases hji : i % 64 ≤ j
          · have := c3 (j - i % 64) (by omega)
            rw [hsh, show i % 64 + (j - i % 64) = j by omega] at this
            rw [this]; rfl
          · simp [hji]
      have hne : wd b.mem (i / 64) &&& ~~~(oneBit (i % 64) - 1#64) ≠ 0#64 := by
        intro h0
        have := word_eq_zero_iff.1 h0 _ hlt
        rw [hbit _ hlt, c2] at this
        simp at this
      rw [List.head?_append, extractWord_head hne, hct]
      show some _ = some _
      congr 1
      omega
    · rw [if_neg hw]
      have h0 : wd b.mem (i / 64) >>> (i % 64) = 0#64 := Classical.byContradiction hw
      have hz : wd b.mem (i / 64) &&& ~~~(oneBit (i % 64) - 1#64) = 0#64 := by
        rw [word_eq_zero_iff]
        intro j hj
        rw [BitVec.getLsbD_and, BitVec.getLsbD_not, oneBit_sub_one _ _ hm hj]
        by_cases hji : i % 64 ≤ j
        · have := word_eq_zero_iff.1 h0 (j - i % 64) (by omega)
          rw [hsh, show i % 64 + (j - i % 64) = j by omega] at this
          rw [this]; rfl
        · simp [hj]; intro _; omega
      rw [hz, extractWord, dif_pos rfl, List.nil_append]

end CRoaring
