import Verif.Model.Bits
import Verif.Lemmas.Count

set_option linter.unusedSimpArgs false
set_option linter.unusedVariables false

namespace CRoaring
open Spec

/-- Bit `x` of a word array. -/
def bitAt (ws : List Word) (x : Nat) : Bool := (wd ws (x / 64)).getLsbD (x % 64)

theorem ones_getLsbD (i : Nat) : ones.getLsbD i = decide (i < 64) := by
  simp only [ones, BitVec.getLsbD_allOnes]

theorem ones_shl_getLsbD (s i : Nat) : (ones <<< s).getLsbD i = (decide (i < 64) && decide (s ≤ i)) := by
  rw [BitVec.getLsbD_shiftLeft, ones_getLsbD]
  by_cases h1 : i < 64 <;> by_cases h2 : i < s <;> simp [h1, h2] <;> omega

theorem ones_shr_getLsbD (s i : Nat) : (ones >>> s).getLsbD i = decide (s + i < 64) := by
  rw [BitVec.getLsbD_ushiftRight, ones_getLsbD]

theorem oneBit_getLsbD (s i : Nat) : (oneBit s).getLsbD i = (decide (i < 64) && decide (i = s)) := by
  unfold oneBit
  rw [BitVec.getLsbD_shiftLeft, BitVec.getLsbD_one]
  by_cases h1 : i < 64 <;> by_cases h2 : i < s <;> by_cases h3 : i = s <;> simp [h1, h2, h3] <;> omega

theorem getLsbD_ge {w : Word} {i : Nat} (h : 64 ≤ i) : w.getLsbD i = false := BitVec.getLsbD_of_ge w i h

theorem word_ext {a b : Word} (h : ∀ i, i < 64 → a.getLsbD i = b.getLsbD i) : a = b := by
  apply BitVec.eq_of_getLsbD_eq
  intro i hi
  exact h i hi

theorem word_eq_zero_iff {w : Word} : w = 0#64 ↔ ∀ i, i < 64 → w.getLsbD i = false := by
  constructor
  · rintro rfl i _; simp
  · intro h; exact word_ext (fun i hi => by rw [h i hi]; simp)

/-! ### wd and bitAt -/

theorem wd_set (ws : List Word) (k i : Nat) (w : Word) :
    wd (ws.set k w) i = if k = i ∧ k < ws.length then w else wd ws i := by
  simp only [wd, List.getD_eq_getElem?_getD, List.getElem?_set]
  by_cases h : k = i
  · subst h
    by_cases h2 : k < ws.length <;> simp [h2]
  · simp [h]

theorem wd_set_self (ws : List Word) (k : Nat) (w : Word) (h : k < ws.length) :
    wd (ws.set k w) k = w := by simp [wd_set, h]

theorem wd_set_ne (ws : List Word) (k i : Nat) (w : Word) (h : k ≠ i) :
    wd (ws.set k w) i = wd ws i := by simp [wd_set, h]

theorem wd_ge {ws : List Word} {i : Nat} (h : ws.length ≤ i) : wd ws i = 0#64 := by
  simp [wd, List.getD_eq_getElem?_getD, h]

theorem wd_getElem {ws : List Word} {i : Nat} (h : i < ws.length) : wd ws i = ws[i] := by
  simp [wd, List.getD_eq_getElem?_getD, h]

theorem words_ext {a b : List Word} (hl : a.length = b.length) (h : ∀ i, i < a.length → wd a i = wd b i) :
    a = b := by
  apply List.ext_getElem hl
  intro i h1 h2
  rw [← wd_getElem h1, ← wd_getElem h2]; exact h i h1

theorem bitAt_set (ws : List Word) (k x : Nat) (w : Word) (h : k < ws.length) :
    bitAt (ws.set k w) x = if x / 64 = k then w.getLsbD (x % 64) else bitAt ws x := by
  unfold bitAt
  rw [wd_set]
  by_cases h2 : x / 64 = k
  · subst h2; simp [h]
  · rw [if_neg h2, if_neg (by omega)]

theorem bitAt_ge {ws : List Word} {x : Nat} (h : 64 * ws.length ≤ x) : bitAt ws x = false := by
  unfold bitAt; rw [wd_ge (by omega)]; simp

theorem words_ext_bit {a b : List Word} (hl : a.length = b.length)
    (h : ∀ x, x < 64 * a.length → bitAt a x = bitAt b x) : a = b := by
  apply words_ext hl
  intro i hi
  apply word_ext
  intro j hj
  have := h (64 * i + j) (by omega)
  unfold bitAt at this
  rwa [show (64 * i + j) / 64 = i by omega, show (64 * i + j) % 64 = j by omega] at this

@[simp] theorem fillWords_length (ws : List Word) (v : Word) (i n : Nat) :
    (fillWords ws v i n).length = ws.length := by
  induction n generalizing ws i with
  | zero => rfl
  | succ n ih => simp [fillWords, ih]

theorem wd_fillWords (ws : List Word) (v : Word) (i n j : Nat) (h : i + n ≤ ws.length) :
    wd (fillWords ws v i n) j = if i ≤ j ∧ j < i + n then v else wd ws j := by
  induction n generalizing ws i with
  | zero => simp [fillWords]; omega
  | succ n ih =>
    rw [fillWords, ih _ _ (by simp; omega), wd_set]
    by_cases h1 : i + 1 ≤ j ∧ j < i + 1 + n
    · rw [if_pos h1, if_pos (by omega)]
    · rw [if_neg h1]
      by_cases h2 : i = j
      · rw [if_pos (by omega), if_pos (by omega)]
      · rw [if_neg (by omega), if_neg (by omega)]

@[simp] theorem flipWords_length (ws : List Word) (i n : Nat) :
    (flipWords ws i n).length = ws.length := by
  induction n generalizing ws i with
  | zero => rfl
  | succ n ih => simp [flipWords, ih]

theorem wd_flipWords (ws : List Word) (i n j : Nat) (h : i + n ≤ ws.length) :
    wd (flipWords ws i n) j = if i ≤ j ∧ j < i + n then ~~~ wd ws j else wd ws j := by
  induction n generalizing ws i with
  | zero => simp [flipWords]
  | succ n ih =>
    rw [flipWords, ih _ _ (by simp; omega), wd_set]
    by_cases h1 : i + 1 ≤ j ∧ j < i + 1 + n
    · rw [if_pos h1, if_neg (by omega), if_pos (by omega)]
    · rw [if_neg h1]
      by_cases h2 : i = j
      · subst h2; rw [if_pos (by omega), if_pos (by omega)]
      · rw [if_neg (by omega), if_neg (by omega)]

@[simp] theorem fillPairs_length (ws : List Word) (i e : Nat) : (fillPairs ws i e).length = ws.length := by
  fun_induction fillPairs ws i e with
  | case1 ws i h ih => simpa using ih
  | case2 => rfl

theorem wd_fillPairs (ws : List Word) (i e j : Nat) (h : e < ws.length) (hj : j ≠ e) :
    wd (fillPairs ws i e) j = if i ≤ j ∧ j < e then ones else wd ws j := by
  fun_induction fillPairs ws i e with
  | case1 ws i hlt ih =>
    rw [ih (by simpa using h), wd_set, wd_set]
    simp only [List.length_set]
    by_cases h1 : i + 2 ≤ j ∧ j < e
    · rw [if_pos h1, if_pos (by omega)]
    · rw [if_neg h1]
      by_cases h2 : i = j
      · rw [if_pos (by omega), if_pos (by omega)]
      · rw [if_neg (by omega)]
        by_cases h3 : i + 1 = j
        · rw [if_pos (by omega), if_pos (by omega)]
        · rw [if_neg (by omega), if_neg (by omega)]
  | case2 ws i hge => rw [if_neg (by omega)]

theorem zeroWords_iff (ws : List Word) (i n : Nat) :
    zeroWords ws i n = true ↔ ∀ j, i ≤ j → j < i + n → wd ws j = 0#64 := by
  induction n generalizing i with
  | zero => simp [zeroWords]; omega
  | succ n ih =>
    unfold zeroWords
    split
    · rename_i h
      simp only [Bool.false_eq_true, false_iff]
      intro h2; exact h (h2 i (by omega) (by omega))
    · rename_i h
      rw [ih]
      constructor
      · intro h2 j h3 h4
        by_cases h5 : j = i
        · subst h5; simpa using h
        · exact h2 j (by omega) (by omega)
      · intro h2 j h3 h4; exact h2 j (by omega) (by omega)

/-! ### Range updates -/

theorem u32_neg_mod (e : Nat) : u32 (-(e : Int)) % 64 = (64 - e % 64) % 64 := by
  unfold u32; omega

theorem u32_negsub_mod (s l : Nat) : u32 (-(s : Int) - l - 1) % 64 = 63 - (s + l) % 64 := by
  unfold u32; omega

theorem u32_63_mod (l : Nat) (h : l < 64) : u32 (63 - (l : Int)) % 64 = 63 - l := by
  unfold u32; omega

@[simp] theorem bitsetSetRange_length (ws : List Word) (s e : Nat) :
    (bitsetSetRange ws s e).length = ws.length := by
  unfold bitsetSetRange; simp only; split
  · rfl
  · split <;> simp

theorem bitAt_setRange (ws : List Word) (s e x : Nat) (hse : s ≤ e) (he : e ≤ 64 * ws.length) :
    bitAt (bitsetSetRange ws s e) x = (decide (s ≤ x ∧ x < e) || bitAt ws x) := by
  unfold bitsetSetRange
  simp only [u32_neg_mod]
  split
  · have : ¬(s ≤ x ∧ x < e) := by omega
    simp [this]
  · rename_i hne
    split
    · rename_i hw
      rw [bitAt_set _ _ _ _ (by omega)]
      split
      · rename_i hx
        simp only [BitVec.getLsbD_or, BitVec.getLsbD_and, ones_shl_getLsbD, ones_shr_getLsbD, bitAt, hx]
        rw [Bool.or_comm]
        congr 1
        rw [← Bool.decide_and, ← Bool.decide_and]
        apply decide_eq_decide.2
        omega
      · have : ¬(s ≤ x ∧ x < e) := by omega
        simp [this]
    · rename_i hw
      rw [bitAt_set _ _ _ _ (by simp; omega)]
      split
      · rename_i hx
        rw [wd_fillWords _ _ _ _ _ (by simp; omega), if_neg (by omega), wd_set_ne _ _ _ _ (by omega)]
        simp only [BitVec.getLsbD_or, ones_shr_getLsbD, bitAt, hx]
        rw [Bool.or_comm]
        congr 1
        apply decide_eq_decide.2
        omega
      · rename_i hx
        unfold bitAt
        rw [wd_fillWords _ _ _ _ _ (by simp; omega)]
        split
        · have : (s ≤ x ∧ x < e) := by omega
          simp [ones_getLsbD, this]; omega
        · rw [wd_set]
          split
          · rename_i h1 h2
            simp only [BitVec.getLsbD_or, ones_shl_getLsbD, h2.1]
            rw [Bool.or_comm]
            congr 1
            rw [← Bool.decide_and]
            apply decide_eq_decide.2
            omega
          · have : ¬(s ≤ x ∧ x < e) := by omega
            simp [this]

@[simp] theorem bitsetResetRange_length (ws : List Word) (s e : Nat) :
    (bitsetResetRange ws s e).length = ws.length := by
  unfold bitsetResetRange; simp only; split
  · rfl
  · split <;> simp

theorem bitAt_resetRange (ws : List Word) (s e x : Nat) (hse : s ≤ e) (he : e ≤ 64 * ws.length) :
    bitAt (bitsetResetRange ws s e) x = (!decide (s ≤ x ∧ x < e) && bitAt ws x) := by
  unfold bitsetResetRange
  simp only [u32_neg_mod]
  have hx64 : x % 64 < 64 := by omega
  split
  · have : ¬(s ≤ x ∧ x < e) := by omega
    simp [this]
  · rename_i hne
    split
    · rename_i hw
      rw [bitAt_set _ _ _ _ (by omega)]
      split
      · rename_i hx
        simp only [BitVec.getLsbD_not, BitVec.getLsbD_and, ones_shl_getLsbD, ones_shr_getLsbD, bitAt, hx, hx64, decide_true, Bool.true_and]
        rw [Bool.and_comm]
        congr 1
        rw [← Bool.decide_and]
        congr 1
        apply decide_eq_decide.2
        omega
      · have : ¬(s ≤ x ∧ x < e) := by omega
        simp [this]
    · rename_i hw
      rw [bitAt_set _ _ _ _ (by simp; omega)]
      split
      · rename_i hx
        rw [wd_fillWords _ _ _ _ _ (by simp; omega), if_neg (by omega), wd_set_ne _ _ _ _ (by omega)]
        simp only [BitVec.getLsbD_not, BitVec.getLsbD_and, ones_shr_getLsbD, bitAt, hx, hx64, decide_true, Bool.true_and]
        rw [Bool.and_comm]
        congr 2
        apply decide_eq_decide.2
        omega
      · rename_i hx
        unfold bitAt
        rw [wd_fillWords _ _ _ _ _ (by simp; omega)]
        split
        · have : (s ≤ x ∧ x < e) := by omega
          simp [this]
        · rw [wd_set]
          split
          · rename_i h1 h2
            simp only [BitVec.getLsbD_not, BitVec.getLsbD_and, ones_shl_getLsbD, h2.1, hx64, decide_true, Bool.true_and]
            rw [Bool.and_comm]
            congr 2
            apply decide_eq_decide.2
            omega
          · have : ¬(s ≤ x ∧ x < e) := by omega
            simp [this]

@[simp] theorem bitsetFlipRange_length (ws : List Word) (s e : Nat) :
    (bitsetFlipRange ws s e).length = ws.length := by
  unfold bitsetFlipRange; simp only; split <;> simp

theorem bitAt_flipRange (ws : List Word) (s e x : Nat) (hse : s ≤ e) (he : e ≤ 64 * ws.length) :
    bitAt (bitsetFlipRange ws s e) x = (decide (s ≤ x ∧ x < e) != bitAt ws x) := by
  unfold bitsetFlipRange
  simp only [u32_neg_mod]
  have hx64 : x % 64 < 64 := by omega
  split
  · have : ¬(s ≤ x ∧ x < e) := by omega
    simp [this]
  · rename_i hne
    rw [bitAt_set _ _ _ _ (by simp; omega)]
    split
    · rename_i hx
      rw [wd_flipWords _ _ _ _ (by simp; omega), if_neg (by omega), wd_set]
      split
      · rename_i h2
        simp only [BitVec.getLsbD_not, BitVec.getLsbD_xor, ones_shl_getLsbD, ones_shr_getLsbD, bitAt, hx, hx64, h2.1, decide_true, Bool.true_and]
        by_cases h3 : s % 64 ≤ x % 64 <;> by_cases h4 : (64 - e % 64) % 64 + x % 64 < 64
        · have : (s ≤ x ∧ x < e) := by omega
          simp [h3, h4, this]
        · have : ¬(s ≤ x ∧ x < e) := by omega
          simp [h3, h4, this]
        · have : ¬(s ≤ x ∧ x < e) := by omega
          simp [h3, h4, this]
        · omega
      · simp only [BitVec.getLsbD_xor, ones_shr_getLsbD, bitAt, hx]
        rw [bne_comm]
        congr 1
        apply decide_eq_decide.2
        omega
    · rename_i hx
      unfold bitAt
      rw [wd_flipWords _ _ _ _ (by simp; omega), wd_set]
      split
      · rename_i h1
        split
        · rename_i h2
          simp only [BitVec.getLsbD_not, BitVec.getLsbD_xor, ones_shl_getLsbD, hx64, h2.1, decide_true, Bool.true_and]
          by_cases h3 : s % 64 ≤ x % 64
          · have : (s ≤ x ∧ x < e) := by omega
            simp [h3, this]
          · have : ¬(s ≤ x ∧ x < e) := by omega
            simp [h3, this]
        · have : (s ≤ x ∧ x < e) := by omega
          simp [BitVec.getLsbD_not, hx64, this]
      · have : ¬(s ≤ x ∧ x < e) := by omega
        rw [if_neg (by omega)]
        simp [this]

@[simp] theorem bitsetSetLenrange_length (ws : List Word) (s l : Nat) :
    (bitsetSetLenrange ws s l).length = ws.length := by
  unfold bitsetSetLenrange; simp only; split <;> simp

theorem bitAt_setLenrange (ws : List Word) (s l x : Nat) (he : s + l < 64 * ws.length) :
    bitAt (bitsetSetLenrange ws s l) x = (decide (s ≤ x ∧ x ≤ s + l) || bitAt ws x) := by
  unfold bitsetSetLenrange
  simp only [u32_negsub_mod]
  have hx64 : x % 64 < 64 := by omega
  split
  · rename_i hw
    rw [bitAt_set _ _ _ _ (by omega), u32_63_mod _ (by omega)]
    split
    · rename_i hx
      simp only [BitVec.getLsbD_or, BitVec.getLsbD_shiftLeft, ones_shr_getLsbD, bitAt, hx, hx64, decide_true, Bool.true_and]
      rw [Bool.or_comm]
      congr 1
      by_cases h3 : x % 64 < s % 64
      · have : ¬(s ≤ x ∧ x ≤ s + l) := by omega
        simp [h3, this]
      · simp only [h3, decide_false, Bool.not_false, Bool.true_and]
        apply decide_eq_decide.2
        omega
    · have : ¬(s ≤ x ∧ x ≤ s + l) := by omega
      simp [this]
  · rename_i hw
    rw [bitAt_set _ _ _ _ (by simp; omega)]
    split
    · rename_i hx
      simp only [BitVec.getLsbD_or, ones_shr_getLsbD, bitAt, hx]
      rw [Bool.or_comm]
      congr 1
      apply decide_eq_decide.2
      omega
    · rename_i hx
      unfold bitAt
      rw [wd_fillPairs _ _ _ _ (by simp; omega) hx]
      split
      · have : (s ≤ x ∧ x ≤ s + l) := by omega
        simp [ones_getLsbD, hx64, this]
      · rw [wd_set]
        split
        · rename_i h1 h2
          simp only [BitVec.getLsbD_or, ones_shl_getLsbD, h2.1, hx64, decide_true, Bool.true_and]
          rw [Bool.or_comm]
          congr 1
          apply decide_eq_decide.2
          omega
        · have : ¬(s ≤ x ∧ x ≤ s + l) := by omega
          simp [this]

/-! ### Popcounts -/

theorem popcount_eq_card (w : Word) : popcount w = card 64 (fun i => w.getLsbD i) := by
  simp [popcount, card, enum, List.countP_eq_length_filter]

/-- Population count of all words. -/
def popAll (ws : List Word) : Nat := (ws.map popcount).sum

theorem bitAt_cons_lt (w : Word) (ws : List Word) {x : Nat} (h : x < 64) :
    bitAt (w :: ws) x = w.getLsbD x := by
  unfold bitAt wd
  rw [show x / 64 = 0 by omega, show x % 64 = x by omega]; rfl

theorem bitAt_cons_add (w : Word) (ws : List Word) (x : Nat) :
    bitAt (w :: ws) (64 + x) = bitAt ws x := by
  unfold bitAt wd
  rw [show (64 + x) / 64 = x / 64 + 1 by omega, show (64 + x) % 64 = x % 64 by omega]; rfl

theorem popAll_eq_card (ws : List Word) : popAll ws = card (64 * ws.length) (bitAt ws) := by
  induction ws with
  | nil => rfl
  | cons w ws ih =>
    rw [List.length_cons, show 64 * (ws.length + 1) = 64 + 64 * ws.length by omega, card_add,
      card_congr (t := fun i => w.getLsbD i) (fun x hx => bitAt_cons_lt w ws hx),
      ← popcount_eq_card, card_congr (t := bitAt ws) (fun x _ => bitAt_cons_add w ws x), ← ih]
    simp [popAll]

theorem popWords_eq_card (ws : List Word) (i n : Nat) :
    popWords ws i n = card (64 * n) (fun x => bitAt ws (64 * i + x)) := by
  induction n generalizing i with
  | zero => rfl
  | succ n ih =>
    rw [popWords, ih, show 64 * (n + 1) = 64 + 64 * n by omega, card_add, popcount_eq_card]
    congr 1
    · apply card_congr
      intro x hx
      unfold bitAt
      rw [show (64 * i + x) / 64 = i by omega, show (64 * i + x) % 64 = x by omega]
    · apply card_congr
      intro x _
      rw [show 64 * (i + 1) + x = 64 * i + (64 + x) by omega]

theorem popWords_zero_eq (ws : List Word) (n : Nat) : popWords ws 0 n = card (64 * n) (bitAt ws) := by
  rw [popWords_eq_card]; simp

theorem popcount_le (w : Word) : popcount w ≤ 64 := by rw [popcount_eq_card]; exact card_le _ _

/-- Counting the members of an interval. -/
def cardBetween (s : NSet) (lo n : Nat) : Nat := card n (fun x => s (lo + x))

theorem lenrangeCardinality_eq (ws : List Word) (s l : Nat) :
    bitsetLenrangeCardinality ws s l = card (l + 1) (fun x => bitAt ws (s + x)) := by
  unfold bitsetLenrangeCardinality
  simp only [u32_negsub_mod, popcount_eq_card, popWords_eq_card]
  split
  · rename_i hw
    rw [u32_63_mod _ (by omega)]
    apply card_window (a := s % 64) (by omega)
    · intro x hx
      simp only [BitVec.getLsbD_and, BitVec.getLsbD_shiftLeft]
      simp [hx]
    · intro x hx hx2
      simp only [BitVec.getLsbD_and, BitVec.getLsbD_shiftLeft, ones_shr_getLsbD]
      have e3 : ¬ 63 - l + (x - s % 64) < 64 := by omega
      simp only [e3, decide_false, Bool.and_false]
    · intro x hx
      unfold bitAt
      simp only [BitVec.getLsbD_and, BitVec.getLsbD_shiftLeft, ones_shr_getLsbD]
      rw [show (s + x) / 64 = s / 64 by omega, show (s + x) % 64 = s % 64 + x by omega]
      have e1 : s % 64 + x < 64 := by omega
      have e2 : ¬ s % 64 + x < s % 64 := by omega
      have e3 : 63 - l + (s % 64 + x - s % 64) < 64 := by omega
      simp only [e1, e2, e3, decide_false, decide_true, Bool.and_true, Bool.not_false]
  · rename_i hw
    have hn : l + 1 = (64 - s % 64) + (64 * ((s + l) / 64 - (s / 64 + 1)) + ((s + l) % 64 + 1)) := by omega
    rw [hn, card_add, card_add, ← Nat.add_assoc]
    congr 1
    · congr 1
      · apply card_window (a := s % 64) (by omega)
        · intro x hx
          simp only [BitVec.getLsbD_and, ones_shl_getLsbD]
          have : ¬ (s % 64 ≤ x) := by omega
          simp [this]
        · intro x hx hx2; omega
        · intro x hx
          simp only [BitVec.getLsbD_and, ones_shl_getLsbD, bitAt]
          rw [show (s + x) / 64 = s / 64 by omega, show (s + x) % 64 = s % 64 + x by omega]
          have e1 : s % 64 + x < 64 := by omega
          simp [e1]
      · apply card_congr
        intro x _
        congr 1; omega
    · apply card_window (a := 0) (by omega)
      · intro x hx; omega
      · intro x hx hx2
        simp only [BitVec.getLsbD_and, ones_shr_getLsbD]
        have : ¬ (63 - (s + l) % 64 + x < 64) := by omega
        simp [this]
      · intro x hx
        simp only [BitVec.getLsbD_and, ones_shr_getLsbD, bitAt]
        have e2 : s + (64 - s % 64 + (64 * ((s + l) / 64 - (s / 64 + 1)) + x)) = 64 * ((s + l) / 64) + x := by omega
        have e1 : 63 - (s + l) % 64 + (0 + x) < 64 := by omega
        rw [e2, show (64 * ((s + l) / 64) + x) / 64 = (s + l) / 64 by omega,
          show (64 * ((s + l) / 64) + x) % 64 = 0 + x by omega]
        simp only [e1, decide_true, Bool.and_true]

theorem popcount_eq_zero {w : Word} : popcount w = 0 ↔ w = 0#64 := by
  rw [popcount_eq_card, card_eq_zero, word_eq_zero_iff]

theorem popWords_eq_zero (ws : List Word) (i n : Nat) : popWords ws i n = 0 ↔ zeroWords ws i n = true := by
  induction n generalizing i with
  | zero => simp [popWords, zeroWords]
  | succ n ih =>
    unfold popWords zeroWords
    have := popcount_eq_zero (w := wd ws i)
    split
    · rename_i h; simp [this, h]
    · rename_i h
      rw [← ih]; simp at h
      rw [h] at this
      simp only [iff_true] at this
      rw [h, this, Nat.zero_add]

theorem lenrangeEmpty_eq_card (ws : List Word) (s l : Nat) :
    bitsetLenrangeEmpty ws s l = decide (bitsetLenrangeCardinality ws s l = 0) := by
  unfold bitsetLenrangeEmpty bitsetLenrangeCardinality
  simp only
  split
  · rw [Bool.eq_iff_iff, beq_iff_eq, decide_eq_true_eq, popcount_eq_zero]
  · rw [Bool.eq_iff_iff, decide_eq_true_eq]
    have e : ∀ a b c : Nat, a + b + c = 0 ↔ a = 0 ∧ b = 0 ∧ c = 0 := by omega
    rw [e, popcount_eq_zero, popcount_eq_zero, popWords_eq_zero]
    split
    · rename_i h; simp [h]
    · rename_i h
      split
      · rename_i h2; simp [h2]
      · rename_i h2
        split
        · rename_i h3; simp [h3]
        · rename_i h3
          simp only [ne_eq, Decidable.not_not, Bool.not_eq_false] at h h2 h3
          simp [h, h2, h3]

theorem lenrangeEmpty_eq (ws : List Word) (s l : Nat) :
    bitsetLenrangeEmpty ws s l = true ↔ ∀ x, s ≤ x → x ≤ s + l → bitAt ws x = false := by
  rw [lenrangeEmpty_eq_card, lenrangeCardinality_eq, decide_eq_true_eq, card_eq_zero]
  constructor
  · intro h x h1 h2
    have := h (x - s) (by omega)
    rwa [show s + (x - s) = x by omega] at this
  · intro h x hx; exact h _ (by omega) (by omega)

/-! ### Lowest set bit -/

theorem find?_range_spec {n : Nat} {p : Nat → Bool} {i : Nat} (h : (List.range n).find? p = some i) :
    i < n ∧ p i = true ∧ ∀ j, j < i → p j = false := by
  rw [List.find?_range_eq_some] at h
  refine ⟨by simpa using h.2.1, h.1, fun j hj => ?_⟩
  simpa using h.2.2 j hj

theorem ctz_spec {w : Word} (h : w ≠ 0#64) :
    ctz w < 64 ∧ w.getLsbD (ctz w) = true ∧ ∀ j, j < ctz w → w.getLsbD j = false := by
  unfold ctz
  cases hf : (List.range 64).find? (fun i => w.getLsbD i) with
  | none =>
    rw [List.find?_eq_none] at hf
    exact absurd (word_eq_zero_iff.2 (fun i hi => by simpa using hf i (by simpa using hi))) h
  | some i => simpa using find?_range_spec hf

theorem clz_spec {w : Word} (h : w ≠ 0#64) :
    clz w < 64 ∧ w.getLsbD (63 - clz w) = true ∧ ∀ j, 63 - clz w < j → w.getLsbD j = false := by
  unfold clz
  cases hf : (List.range 64).find? (fun i => w.getLsbD (63 - i)) with
  | none =>
    rw [List.find?_eq_none] at hf
    refine absurd (word_eq_zero_iff.2 (fun i hi => ?_)) h
    have := hf (63 - i) (by simp; omega)
    rw [show 63 - (63 - i) = i by omega] at this
    simpa using this
  | some i =>
    obtain ⟨h1, h2, h3⟩ := find?_range_spec hf
    refine ⟨by simpa using h1, by simpa using h2, fun j hj => ?_⟩
    simp only [Option.getD_some] at hj
    by_cases h4 : j < 64
    · have := h3 (63 - j) (by omega)
      rwa [show 63 - (63 - j) = j by omega] at this
    · exact getLsbD_ge (by omega)

theorem ctz_unique {w : Word} {k : Nat} (h : w.getLsbD k = true) (h2 : ∀ j, j < k → w.getLsbD j = false) :
    ctz w = k := by
  have hw : w ≠ 0#64 := by rintro rfl; simp at h
  obtain ⟨a, b, c⟩ := ctz_spec hw
  rcases Nat.lt_trichotomy (ctz w) k with h3 | h3 | h3
  · rw [h2 _ h3] at b; cases b
  · exact h3
  · rw [c _ h3] at h; cases h

/-- `w - 1`: bits below the lowest set bit become 1, that bit becomes 0, the others stay. -/
theorem getLsbD_sub_one {w : Word} (h : w ≠ 0#64) (i : Nat) (hi : i < 64) :
    (w - 1#64).getLsbD i = if i < ctz w then true else if i = ctz w then false else w.getLsbD i := by
  obtain ⟨h1, h2, h3⟩ := ctz_spec h
  generalize ctz w = k at *
  have e1 : w = (w &&& ~~~(oneBit k)) ||| oneBit k := by
    apply word_ext
    intro j hj
    simp only [BitVec.getLsbD_or, BitVec.getLsbD_and, BitVec.getLsbD_not, oneBit_getLsbD, hj, decide_true, Bool.true_and]
    by_cases hk : j = k
    · subst hk; simp [h2]
    · simp [hk]
  have d1 : (w &&& ~~~(oneBit k)) &&& oneBit k = 0#64 := by
    apply word_ext
    intro j hj
    simp only [BitVec.getLsbD_and, BitVec.getLsbD_not, oneBit_getLsbD, hj, decide_true, Bool.true_and, BitVec.getLsbD_zero]
    by_cases hk : j = k <;> simp [hk]
  have hk2 : (oneBit k - 1#64).getLsbD = fun i => decide (i < k) := by
    funext j
    have e : (oneBit k - 1#64).toNat = 2 ^ k - 1 := by
      have hlt : 2 ^ k < 2 ^ 64 := Nat.pow_lt_pow_right (by omega) h1
      have hpos : 0 < 2 ^ k := Nat.two_pow_pos k
      have e1 : (oneBit k).toNat = 2 ^ k := by
        unfold oneBit
        rw [BitVec.toNat_shiftLeft]
        simp only [BitVec.toNat_ofNat]
        rw [Nat.shiftLeft_eq, show 1 % 2 ^ 64 = 1 by decide, Nat.one_mul, Nat.mod_eq_of_lt hlt]
      rw [BitVec.toNat_sub, e1]
      simp only [BitVec.toNat_ofNat]
      omega
    rw [← BitVec.testBit_toNat, e, Nat.testBit_two_pow_sub_one]
  have d2 : (w &&& ~~~(oneBit k)) &&& (oneBit k - 1#64) = 0#64 := by
    apply word_ext
    intro j hj
    simp only [BitVec.getLsbD_and, hk2, BitVec.getLsbD_zero]
    by_cases hk : j < k
    · simp [h3 j hk]
    · simp [hk]
  have e2 : w - 1#64 = (w &&& ~~~(oneBit k)) ||| (oneBit k - 1#64) := by
    rw [← BitVec.add_eq_or_of_and_eq_zero _ _ d2]
    conv => lhs; rw [e1, ← BitVec.add_eq_or_of_and_eq_zero _ _ d1]
    rw [BitVec.sub_eq_add_neg, BitVec.sub_eq_add_neg, BitVec.add_assoc]
  rw [e2]
  simp only [BitVec.getLsbD_or, BitVec.getLsbD_and, BitVec.getLsbD_not, oneBit_getLsbD, hi, decide_true, Bool.true_and, hk2]
  split
  · rename_i h4; simp [h4]
  · rename_i h4
    split
    · rename_i h5; simp [h5]
    · rename_i h5; simp [h4, h5]

theorem getLsbD_clearLowest {w : Word} (h : w ≠ 0#64) (i : Nat) :
    (w &&& (w - 1#64)).getLsbD i = (w.getLsbD i && decide (i ≠ ctz w)) := by
  by_cases hi : i < 64
  · rw [BitVec.getLsbD_and, getLsbD_sub_one h i hi]
    obtain ⟨h1, h2, h3⟩ := ctz_spec h
    split
    · rename_i h4; simp [h3 i h4]
    · split
      · rename_i h5; simp [h5]
      · rename_i h5; simp [h5]
  · simp [getLsbD_ge (by omega : 64 ≤ i)]

theorem getLsbD_isolateLowest {w : Word} (h : w ≠ 0#64) (i : Nat) (hi : i < 64) :
    (w &&& (~~~w + 1#64)).getLsbD i = decide (i = ctz w) := by
  have e : ~~~w + 1#64 = ~~~(w - 1#64) := by
    apply BitVec.eq_of_toNat_eq
    have := w.isLt
    have h0 : w.toNat ≠ 0 := fun hh => h (BitVec.eq_of_toNat_eq (by simpa using hh))
    simp only [BitVec.toNat_add, BitVec.toNat_not, BitVec.toNat_sub, BitVec.toNat_ofNat]
    omega
  rw [e, BitVec.getLsbD_and, BitVec.getLsbD_not, getLsbD_sub_one h i hi]
  obtain ⟨h1, h2, h3⟩ := ctz_spec h
  split
  · rename_i h4; have : i ≠ ctz w := by omega
    simp [this]
  · split
    · rename_i h5; simp [h5, h2, hi, h1]
    · rename_i h5; simp [h5, hi]

/-- `w ^ (w & (~w + 1))` is `w & (w - 1)`. -/
theorem xor_isolate_eq {w : Word} (h : w ≠ 0#64) : w ^^^ (w &&& (~~~w + 1#64)) = w &&& (w - 1#64) := by
  apply word_ext
  intro i hi
  rw [BitVec.getLsbD_xor, getLsbD_isolateLowest h i hi, getLsbD_clearLowest h]
  obtain ⟨h1, h2, h3⟩ := ctz_spec h
  by_cases h4 : i = ctz w
  · subst h4; simp [h2]
  · simp [h4]

/-! ### Extraction -/

theorem mem_extractWord (w : Word) (base x : Nat) :
    x ∈ extractWord w base ↔ base ≤ x ∧ x < base + 64 ∧ w.getLsbD (x - base) = true := by
  fun_induction extractWord w base with
  | case1 => simp
  | case2 w h ih =>
    obtain ⟨h1, h2, h3⟩ := ctz_spec h
    rw [List.mem_cons, ih, getLsbD_clearLowest h]
    constructor
    · rintro (h4 | h4)
      · refine ⟨by omega, by omega, ?_⟩
        rw [show x - base = ctz w by omega]; exact h2
      · exact ⟨h4.1, h4.2.1, by simpa using (by simpa using h4.2.2 : _ ∧ _).1⟩
    · rintro ⟨h4, h5, h6⟩
      by_cases h7 : x - base = ctz w
      · left; omega
      · right; exact ⟨h4, h5, by simp [h6, h7]⟩

theorem extractWord_sorted (w : Word) (base : Nat) : SSorted (extractWord w base) := by
  fun_induction extractWord w base with
  | case1 => exact List.Pairwise.nil
  | case2 w h ih =>
    obtain ⟨h1, h2, h3⟩ := ctz_spec h
    refine List.pairwise_cons.2 ⟨fun x hx => ?_, ih⟩
    rw [mem_extractWord, getLsbD_clearLowest h] at hx
    obtain ⟨h4, h5, h6⟩ := hx
    simp only [Bool.and_eq_true, decide_eq_true_eq] at h6
    rcases Nat.lt_trichotomy (x - base) (ctz w) with h7 | h7 | h7
    · rw [h3 _ h7] at h6; exact absurd h6.1 (by simp)
    · exact absurd h7 h6.2
    · omega

theorem mem_extractSetbits (ws : List Word) (base x : Nat) :
    x ∈ extractSetbits ws base ↔ base ≤ x ∧ bitAt ws (x - base) = true := by
  induction ws generalizing base with
  | nil => simp [extractSetbits, bitAt, wd]
  | cons w ws ih =>
    rw [extractSetbits, List.mem_append, mem_extractWord, ih]
    by_cases h : x - base < 64
    · rw [bitAt_cons_lt _ _ h]
      constructor
      · rintro (h1 | h1)
        · exact ⟨h1.1, h1.2.2⟩
        · omega
      · rintro ⟨h1, h2⟩; exact Or.inl ⟨h1, by omega, h2⟩
    · obtain ⟨k, hk⟩ := Nat.exists_eq_add_of_le (by omega : 64 ≤ x - base)
      rw [hk, bitAt_cons_add, show x - (base + 64) = k by omega]
      constructor
      · rintro (h1 | h1)
        · omega
        · exact ⟨by omega, h1.2⟩
      · rintro ⟨h1, h2⟩; exact Or.inr ⟨by omega, h2⟩

theorem extractSetbits_sorted (ws : List Word) (base : Nat) : SSorted (extractSetbits ws base) := by
  induction ws generalizing base with
  | nil => exact List.Pairwise.nil
  | cons w ws ih =>
    rw [extractSetbits]
    refine List.pairwise_append.2 ⟨extractWord_sorted w base, ih _, fun a ha b hb => ?_⟩
    rw [mem_extractWord] at ha
    rw [mem_extractSetbits] at hb
    omega

theorem extractIntersection_eq (ws1 ws2 : List Word) (base : Nat) :
    extractIntersectionSetbits ws1 ws2 base = extractSetbits (List.zipWith (· &&& ·) ws1 ws2) base := by
  induction ws1 generalizing ws2 base with
  | nil => simp [extractIntersectionSetbits, extractSetbits]
  | cons w ws ih =>
    cases ws2 with
    | nil => simp [extractIntersectionSetbits, extractSetbits]
    | cons w2 ws2 => simp [extractIntersectionSetbits, extractSetbits, ih]

theorem wd_zipWith (f : Word → Word → Word) {ws1 ws2 : List Word} (hl : ws1.length = ws2.length)
    (i : Nat) (hi : i < ws1.length) : wd (List.zipWith f ws1 ws2) i = f (wd ws1 i) (wd ws2 i) := by
  rw [wd_getElem (by simp; omega), wd_getElem hi, wd_getElem (by omega), List.getElem_zipWith]

theorem extractSetbits_enum (ws : List Word) : extractSetbits ws 0 = enum (64 * ws.length) (bitAt ws) := by
  apply sorted_eq_enum (extractSetbits_sorted ws 0)
  intro x
  rw [mem_extractSetbits]
  simp only [Nat.zero_le, true_and, Nat.sub_zero]
  constructor
  · intro h
    refine ⟨?_, h⟩
    rcases Nat.lt_or_ge x (64 * ws.length) with h1 | h1
    · exact h1
    · rw [bitAt_ge h1] at h; cases h
  · exact fun h => h.2

/-! ### Single-bit updates and lists -/

theorem bitAt_or_oneBit (ws : List Word) (p x : Nat) (h : p < 64 * ws.length) :
    bitAt (ws.set (p / 64) (wd ws (p / 64) ||| oneBit (p % 64))) x = (decide (x = p) || bitAt ws x) := by
  rw [bitAt_set _ _ _ _ (by omega)]
  split
  · rename_i hx
    simp only [BitVec.getLsbD_or, oneBit_getLsbD, bitAt, hx, show x % 64 < 64 by omega, decide_true, Bool.true_and]
    rw [Bool.or_comm]; congr 1
    apply decide_eq_decide.2; omega
  · have : x ≠ p := by rintro rfl; omega
    simp [this]

theorem bitAt_and_not_oneBit (ws : List Word) (p x : Nat) (h : p < 64 * ws.length) :
    bitAt (ws.set (p / 64) (wd ws (p / 64) &&& ~~~(oneBit (p % 64)))) x = (decide (x ≠ p) && bitAt ws x) := by
  rw [bitAt_set _ _ _ _ (by omega)]
  split
  · rename_i hx
    simp only [BitVec.getLsbD_and, BitVec.getLsbD_not, oneBit_getLsbD, bitAt, hx, show x % 64 < 64 by omega, decide_true, Bool.true_and]
    rw [Bool.and_comm]; congr 1
    rw [← decide_not]
    apply decide_eq_decide.2; omega
  · have : x ≠ p := by rintro rfl; omega
    simp [this]

theorem bitAt_xor_oneBit (ws : List Word) (p x : Nat) (h : p < 64 * ws.length) :
    bitAt (ws.set (p / 64) (wd ws (p / 64) ^^^ oneBit (p % 64))) x = (decide (x = p) != bitAt ws x) := by
  rw [bitAt_set _ _ _ _ (by omega)]
  split
  · rename_i hx
    simp only [BitVec.getLsbD_xor, oneBit_getLsbD, bitAt, hx, show x % 64 < 64 by omega, decide_true, Bool.true_and]
    rw [bne_comm]; congr 1
    apply decide_eq_decide.2; omega
  · have : x ≠ p := by rintro rfl; omega
    simp [this]

/-- A word with at most bit `i` set, shifted right by `i`. -/
theorem shr_single (v : Word) (i : Nat) (hi : i < 64) (h : ∀ j, j < 64 → j ≠ i → v.getLsbD j = false) :
    (v >>> i).toNat = if v.getLsbD i then 1 else 0 := by
  have : v >>> i = if v.getLsbD i then 1#64 else 0#64 := by
    apply word_ext
    intro j hj
    rw [BitVec.getLsbD_ushiftRight]
    by_cases hj0 : j = 0
    · subst hj0
      cases hv : v.getLsbD i <;> simp [hv]
    · have : v.getLsbD (i + j) = false := by
        by_cases h2 : i + j < 64
        · exact h _ h2 (by omega)
        · exact getLsbD_ge (by omega)
      rw [this]
      split <;> simp [BitVec.getLsbD_one, hj0]
  rw [this]; split <;> rfl

theorem incr_or (w : Word) (i : Nat) (hi : i < 64) :
    ((w ^^^ (w ||| oneBit i)) >>> i).toNat = if w.getLsbD i then 0 else 1 := by
  rw [shr_single _ i hi]
  · simp only [BitVec.getLsbD_xor, BitVec.getLsbD_or, oneBit_getLsbD, hi, decide_true]
    cases w.getLsbD i <;> simp
  · intro j hj hne
    simp [BitVec.getLsbD_xor, BitVec.getLsbD_or, oneBit_getLsbD, hne]

theorem incr_and_not (w : Word) (i : Nat) (hi : i < 64) :
    ((w ^^^ (w &&& ~~~(oneBit i))) >>> i).toNat = if w.getLsbD i then 1 else 0 := by
  rw [shr_single _ i hi]
  · simp only [BitVec.getLsbD_xor, BitVec.getLsbD_and, BitVec.getLsbD_not, oneBit_getLsbD, hi, decide_true]
    cases w.getLsbD i <;> simp
  · intro j hj hne
    simp only [BitVec.getLsbD_xor, BitVec.getLsbD_and, BitVec.getLsbD_not, oneBit_getLsbD, hne, hj]
    simp

theorem incr_and (w : Word) (i : Nat) (hi : i < 64) :
    ((oneBit i &&& w) >>> i).toNat = if w.getLsbD i then 1 else 0 := by
  rw [shr_single _ i hi]
  · simp only [BitVec.getLsbD_and, oneBit_getLsbD, hi, decide_true]
    cases w.getLsbD i <;> simp
  · intro j hj hne
    simp [BitVec.getLsbD_and, oneBit_getLsbD, hne]

/-- Adding one member. -/
theorem card_insert {n p : Nat} {s t : NSet} (hp : p < n) (h : ∀ x, x < n → t x = (decide (x = p) || s x)) :
    card n t = card n s + if s p then 0 else 1 := by
  have h1 : card n t = card n (union (range p (p + 1)) s) := by
    apply card_congr
    intro x hx
    rw [h x hx]
    simp only [union, range, ← Bool.decide_and]
    congr 1
    apply decide_eq_decide.2; omega
  have h2 := card_incl_excl n (range p (p + 1)) s
  rw [card_range] at h2
  have h3 : card n (inter (range p (p + 1)) s) = if s p then 1 else 0 := by
    cases hs : s p with
    | true =>
      simp only [if_true]
      rw [card_congr (t := range p (p + 1)), card_range]
      · omega
      · intro x _
        simp only [inter, range, ← Bool.decide_and]
        by_cases hx : x = p
        · subst hx; simp [hs]
        · have : ¬ (p ≤ x ∧ x < p + 1) := by omega
          simp [this]
    | false =>
      simp only [Bool.false_eq_true, if_false]
      rw [card_eq_zero]
      intro x _
      simp only [inter, range, ← Bool.decide_and]
      by_cases hx : x = p
      · subst hx; simp [hs]
      · have : ¬ (p ≤ x ∧ x < p + 1) := by omega
        simp [this]
  cases hs : s p <;> simp only [hs, if_true, if_false, Bool.false_eq_true] at * <;> omega

/-- Removing one member. -/
theorem card_erase {n p : Nat} {s t : NSet} (hp : p < n) (h : ∀ x, x < n → t x = (decide (x ≠ p) && s x)) :
    card n t + (if s p then 1 else 0) = card n s := by
  cases hs : s p with
  | true =>
    have := card_insert (s := t) (t := s) hp (fun x hx => by
      rw [h x hx]
      by_cases hxp : x = p
      · subst hxp; simp [hs]
      · simp [hxp])
    rw [h p hp] at this
    simp at this
    simp [this]
  | false =>
    simp only [Bool.false_eq_true, if_false, Nat.add_zero]
    apply card_congr
    intro x hx
    rw [h x hx]
    by_cases hxp : x = p
    · subst hxp; simp [hs]
    · simp [hxp]

@[simp] theorem bitsetSetList_length (ws : List Word) (l : List Nat) : (bitsetSetList ws l).length = ws.length := by
  induction l generalizing ws with
  | nil => rfl
  | cons p l ih => simp [bitsetSetList, ih]

theorem bitAt_setList (ws : List Word) (l : List Nat) (x : Nat) (h : ∀ p ∈ l, p < 64 * ws.length) :
    bitAt (bitsetSetList ws l) x = (decide (x ∈ l) || bitAt ws x) := by
  induction l generalizing ws with
  | nil => simp [bitsetSetList]
  | cons p l ih =>
    rw [bitsetSetList, ih _ (by simpa using fun q hq => h q (by simp [hq])), bitAt_or_oneBit _ _ _ (h p (by simp))]
    by_cases h1 : x = p <;> by_cases h2 : x ∈ l <;> simp [h1, h2]

@[simp] theorem bitsetFlipList_length (ws : List Word) (l : List Nat) : (bitsetFlipList ws l).length = ws.length := by
  induction l generalizing ws with
  | nil => rfl
  | cons p l ih => simp [bitsetFlipList, ih]

theorem bitAt_flipList (ws : List Word) (l : List Nat) (x : Nat) (hs : SSorted l) (h : ∀ p ∈ l, p < 64 * ws.length) :
    bitAt (bitsetFlipList ws l) x = (decide (x ∈ l) != bitAt ws x) := by
  induction l generalizing ws with
  | nil => simp [bitsetFlipList]
  | cons p l ih =>
    have hs' := List.pairwise_cons.1 hs
    rw [bitsetFlipList, ih _ hs'.2 (by simpa using fun q hq => h q (by simp [hq])), bitAt_xor_oneBit _ _ _ (h p (by simp))]
    by_cases h1 : x = p
    · subst h1
      have : x ∉ l := fun hm => by have := hs'.1 x hm; omega
      simp [this]
    · by_cases h2 : x ∈ l <;> simp [h1, h2]

theorem setListWithcard_fst (ws : List Word) (c : Int) (l : List Nat) :
    (bitsetSetListWithcard ws c l).1 = bitsetSetList ws l := by
  induction l generalizing ws c with
  | nil => rfl
  | cons p l ih => simp [bitsetSetListWithcard, bitsetSetList, ih]

theorem setListWithcard_snd (ws : List Word) (c : Int) (l : List Nat) (h : ∀ p ∈ l, p < 64 * ws.length) :
    (bitsetSetListWithcard ws c l).2 = c + popAll (bitsetSetList ws l) - popAll ws := by
  induction l generalizing ws c with
  | nil => simp [bitsetSetListWithcard, bitsetSetList]
  | cons p l ih =>
    have hp := h p (by simp)
    rw [bitsetSetListWithcard, bitsetSetList]
    rw [ih _ _ (by simpa using fun q hq => h q (by simp [hq])), incr_or _ _ (by omega)]
    rw [popAll_eq_card ws, popAll_eq_card (ws.set _ _)]
    simp only [List.length_set]
    have := card_insert (s := bitAt ws) hp (fun x _ => bitAt_or_oneBit ws p x hp)
    rw [this]
    unfold bitAt
    split <;> omega

theorem clearList_length (ws : List Word) (c : Int) (l : List Nat) :
    (bitsetClearList ws c l).1.length = ws.length := by
  induction l generalizing ws c with
  | nil => rfl
  | cons p l ih => simp [bitsetClearList, ih]

theorem bitAt_clearList (ws : List Word) (c : Int) (l : List Nat) (x : Nat) (h : ∀ p ∈ l, p < 64 * ws.length) :
    bitAt (bitsetClearList ws c l).1 x = (decide (x ∉ l) && bitAt ws x) := by
  induction l generalizing ws c with
  | nil => simp [bitsetClearList]
  | cons p l ih =>
    rw [bitsetClearList]
    rw [ih _ _ (by simpa using fun q hq => h q (by simp [hq])), bitAt_and_not_oneBit _ _ _ (h p (by simp))]
    by_cases h1 : x = p <;> by_cases h2 : x ∈ l <;> simp [h1, h2]

theorem clearList_snd (ws : List Word) (c : Int) (l : List Nat) (h : ∀ p ∈ l, p < 64 * ws.length) :
    (bitsetClearList ws c l).2 = c + popAll (bitsetClearList ws c l).1 - popAll ws := by
  induction l generalizing ws c with
  | nil => simp [bitsetClearList]
  | cons p l ih =>
    have hp := h p (by simp)
    rw [bitsetClearList]
    rw [ih _ _ (by simpa using fun q hq => h q (by simp [hq])), incr_and_not _ _ (by omega)]
    rw [popAll_eq_card ws, popAll_eq_card (ws.set _ _)]
    simp only [List.length_set]
    have := card_erase (s := bitAt ws) hp (fun x _ => bitAt_and_not_oneBit ws p x hp)
    rw [← this]
    unfold bitAt
    split <;> omega

theorem flipListWithcard_fst (ws : List Word) (c : Int) (l : List Nat) :
    (bitsetFlipListWithcard ws c l).1 = bitsetFlipList ws l := by
  induction l generalizing ws c with
  | nil => rfl
  | cons p l ih => simp [bitsetFlipListWithcard, bitsetFlipList, ih]

theorem flipListWithcard_snd (ws : List Word) (c : Int) (l : List Nat) (h : ∀ p ∈ l, p < 64 * ws.length) :
    (bitsetFlipListWithcard ws c l).2 = c + popAll (bitsetFlipList ws l) - popAll ws := by
  induction l generalizing ws c with
  | nil => simp [bitsetFlipListWithcard, bitsetFlipList]
  | cons p l ih =>
    have hp := h p (by simp)
    rw [bitsetFlipListWithcard, bitsetFlipList]
    rw [ih _ _ (by simpa using fun q hq => h q (by simp [hq])), incr_and _ _ (by omega)]
    rw [popAll_eq_card ws, popAll_eq_card (ws.set _ _)]
    simp only [List.length_set]
    cases hb : bitAt ws p with
    | true =>
      have := card_erase (s := bitAt ws) hp (t := bitAt (ws.set (p / 64) (wd ws (p / 64) ^^^ oneBit (p % 64))))
        (fun x _ => by
          rw [bitAt_xor_oneBit ws p x hp]
          by_cases hx : x = p
          · subst hx; simp [hb]
          · simp [hx])
      rw [← this, hb]
      unfold bitAt at hb
      simp only [hb, if_true]
      omega
    | false =>
      have := card_insert (s := bitAt ws) hp (t := bitAt (ws.set (p / 64) (wd ws (p / 64) ^^^ oneBit (p % 64))))
        (fun x _ => by
          rw [bitAt_xor_oneBit ws p x hp]
          by_cases hx : x = p
          · subst hx; simp [hb]
          · simp [hx])
      rw [this, hb]
      unfold bitAt at hb
      simp only [hb, if_false, Bool.false_eq_true]
      omega

end CRoaring
