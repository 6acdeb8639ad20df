import Verif.Lemmas.Bitset2
set_option linter.unusedSimpArgs false
set_option linter.unusedVariables false
/- Correctness of the bitset container: number of runs, ranges with a step, shifting. -/
namespace CRoaring
open Spec

/-! ### Number of runs -/

/-- The number of maximal runs of a set below `n`: its members whose successor is not a member. -/
def runEnds (n : Nat) (s : NSet) : Nat := card n (fun x => s x && !s (x + 1))

theorem popcount_ends (w : Word) :
    popcount (~~~w &&& (w <<< 1)) = card 63 (fun x => w.getLsbD x && !w.getLsbD (x + 1)) := by
  rw [popcount_eq_card]
  have : ∀ s : NSet, card 64 s = card 1 s + card 63 (fun x => s (1 + x)) := fun s => by rw [← card_add]
  rw [this]
  have h0 : card 1 (fun i => (~~~w &&& w <<< 1).getLsbD i) = 0 := by
    rw [card_eq_zero]; intro x hx
    have : x = 0 := by omega
    subst this; simp
  rw [h0, Nat.zero_add]
  apply card_congr
  intro x hx
  rw [BitVec.getLsbD_and, BitVec.getLsbD_not, BitVec.getLsbD_shiftLeft]
  have h1 : 1 + x < 64 := by omega
  have h2 : ¬ 1 + x < 1 := by omega
  have h3 : x + 1 < 64 := by omega
  rw [show 1 + x - 1 = x by omega]
  simp [h3, show 1 + x = x + 1 by omega, Bool.and_comm]

theorem carry_toNat (w v : Word) :
    ((w >>> 63) &&& ~~~v).toNat = if w.getLsbD 63 && !v.getLsbD 0 then 1 else 0 := by
  have : (w >>> 63) &&& ~~~v = if w.getLsbD 63 && !v.getLsbD 0 then 1#64 else 0#64 := by
    apply word_ext
    intro i hi
    rw [BitVec.getLsbD_and, BitVec.getLsbD_ushiftRight, BitVec.getLsbD_not]
    by_cases h0 : i = 0
    · subst h0
      cases w.getLsbD 63 <;> cases v.getLsbD 0 <;> simp
    · have : w.getLsbD (63 + i) = false := getLsbD_ge (by omega)
      rw [this]
      cases w.getLsbD 63 && !v.getLsbD 0 <;> simp [BitVec.getLsbD_one, h0]
  rw [this]; split <;> simp

theorem topbit_iff (w : Word) : (w &&& 0x8000000000000000#64 ≠ 0#64) ↔ w.getLsbD 63 = true := by
  have hm : ∀ i, i < 64 → (0x8000000000000000#64).getLsbD i = decide (i = 63) := by
    have : ∀ i : Fin 64, (0x8000000000000000#64).getLsbD i.val = decide (i.val = 63) := by decide +kernel
    intro i hi; exact this ⟨i, hi⟩
  rw [ne_eq, word_eq_zero_iff]
  constructor
  · intro h
    cases hw : w.getLsbD 63
    · exact absurd (fun i hi => by
        rw [BitVec.getLsbD_and, hm i hi]
        by_cases h63 : i = 63
        · subst h63; rw [hw]; rfl
        · simp [h63]) h
    · rfl
  · intro h h2
    have := h2 63 (by omega)
    rw [BitVec.getLsbD_and, hm 63 (by omega), h] at this
    simp at this

theorem numberOfRunsLoop_eq (w : Word) (ws : List Word) :
    numberOfRunsLoop w ws = runEnds (64 * (ws.length + 1)) (bitAt (w :: ws)) := by
  induction ws generalizing w with
  | nil =>
    unfold numberOfRunsLoop runEnds
    rw [popcount_ends]
    have : ∀ s : NSet, card (64 * ([] : List Word).length.succ) s = card 63 s + card 1 (fun x => s (63 + x)) :=
      fun s => by rw [← card_add]; rfl
    rw [show ([] : List Word).length + 1 = ([] : List Word).length.succ from rfl, this]
    have hA : card 63 (fun x => w.getLsbD x && !w.getLsbD (x + 1)) =
        card 63 (fun x => bitAt [w] x && !bitAt [w] (x + 1)) := by
      apply card_congr
      intro x hx
      rw [bitAt_cons_lt _ _ (by omega), bitAt_cons_lt _ _ (by omega)]
    rw [hA]
    refine congrArg _ ?_
    · rw [card_succ]
      have h1 : bitAt [w] 64 = false := bitAt_ge (by simp)
      have h2 : bitAt [w] 63 = w.getLsbD 63 := bitAt_cons_lt _ _ (by omega)
      simp only [Nat.add_zero, h1, h2, Bool.not_false, Bool.and_true]
      rw [show card 0 _ = 0 from rfl]
      have := topbit_iff w
      split <;> simp_all
  | cons v ws ih =>
    unfold numberOfRunsLoop
    rw [ih, popcount_ends, carry_toNat]
    unfold runEnds
    have h64 : ∀ s : NSet, card (64 * ((v :: ws).length + 1)) s =
        card 63 s + card 1 (fun x => s (63 + x)) + card (64 * (ws.length + 1)) (fun x => s (64 + x)) := fun s => by
      have e1 : card 63 s + card 1 (fun x => s (63 + x)) = card 64 s := by rw [← card_add]
      rw [e1, ← card_add]; congr 1; simp; omega
    rw [h64]
    congr 1
    · have hA : card 63 (fun x => w.getLsbD x && !w.getLsbD (x + 1)) =
          card 63 (fun x => bitAt (w :: v :: ws) x && !bitAt (w :: v :: ws) (x + 1)) := by
        apply card_congr
        intro x hx
        rw [bitAt_cons_lt _ _ (by omega), bitAt_cons_lt _ _ (by omega)]
      rw [hA]
      refine congrArg _ ?_
      · rw [card_succ]
        have h1 : bitAt (w :: v :: ws) (63 + 1) = v.getLsbD 0 := by
          rw [show 63 + 1 = 64 + 0 from rfl, bitAt_cons_add, bitAt_cons_lt _ _ (by omega)]
        have h2 : bitAt (w :: v :: ws) 63 = w.getLsbD 63 := bitAt_cons_lt _ _ (by omega)
        rw [show card 0 _ = 0 from rfl]
        simp only [Nat.add_zero, h1, h2, Nat.zero_add]
    · apply card_congr
      intro x hx
      rw [bitAt_cons_add, show 64 + x + 1 = 64 + (x + 1) by omega, bitAt_cons_add]

theorem bitsetNumberOfRuns_eq {b : Bitset} (h : b.words.length = 1024) :
    bitsetNumberOfRuns b = runEnds 65536 (bitAt b.words) := by
  unfold bitsetNumberOfRuns
  cases hw : b.words with
  | nil => rw [hw] at h; simp at h
  | cons w ws =>
    simp only
    rw [numberOfRunsLoop_eq]
    rw [hw] at h
    simp only [List.length_cons] at h
    rw [h]

/-! ### Ranges with a step -/

theorem stepMask_bit (step : Nat) (hs : 0 < step) (v : Nat) (m : Word) (i : Nat) (hi : i < 64) :
    (stepMask step v m).getLsbD i = (m.getLsbD i || decide (v ≤ i ∧ (i - v) % step = 0)) := by
  fun_induction stepMask step v m with
  | case1 v m h ih =>
    rw [ih, BitVec.getLsbD_or, oneBit_getLsbD, Bool.or_assoc]
    congr 1
    rw [Bool.eq_iff_iff]
    simp only [hi, decide_true, Bool.true_and, Bool.or_eq_true, decide_eq_true_eq]
    constructor
    · rintro (rfl | ⟨h1, h2⟩)
      · simp
      · refine ⟨by omega, ?_⟩
        rw [show i - v = (i - (v + step)) + step by omega, Nat.add_mod_right]; exact h2
    · rintro ⟨h1, h2⟩
      rcases Nat.lt_or_ge i (v + step) with h3 | h3
      · left
        rw [Nat.mod_eq_of_lt (by omega)] at h2; omega
      · right
        refine ⟨h3, ?_⟩
        rw [show i - v = (i - (v + step)) + step by omega, Nat.add_mod_right] at h2; exact h2
  | case2 v m h =>
    have : ¬ v ≤ i := by omega
    simp [this]

theorem bitsetAddStep_spec (b : Bitset) (h : BitOK b) (v mx step : Nat) (hs : 0 < step) (hm : mx ≤ 65536) :
    BitOK (bitsetAddStep b v mx step) ∧
      ∀ x, bitAt (bitsetAddStep b v mx step).words x =
        (decide (v ≤ x ∧ x < mx ∧ (x - v) % step = 0) || bitAt b.words x) := by
  fun_induction bitsetAddStep b v mx step with
  | case1 b v h1 ih =>
    obtain ⟨a1, a2, _, _⟩ := bitsetAdd_spec h (p := v % 65536) (by omega)
    obtain ⟨i1, i2⟩ := ih a1
    refine ⟨i1, fun x => ?_⟩
    rw [i2, a2, ← Bool.or_assoc]
    congr 1
    rw [Bool.eq_iff_iff]
    simp only [Bool.or_eq_true, decide_eq_true_eq]
    rw [Nat.mod_eq_of_lt (show v < 65536 by omega)]
    constructor
    · rintro (⟨h2, h3, h4⟩ | rfl)
      · refine ⟨by omega, h3, ?_⟩
        rw [show x - v = (x - (v + step)) + step by omega, Nat.add_mod_right]; exact h4
      · exact ⟨by omega, h1.1, by simp⟩
    · rintro ⟨h2, h3, h4⟩
      rcases Nat.lt_or_ge x (v + step) with h5 | h5
      · right
        rw [Nat.mod_eq_of_lt (by omega)] at h4; omega
      · left
        refine ⟨h5, h3, ?_⟩
        rw [show x - v = (x - (v + step)) + step by omega, Nat.add_mod_right] at h4; exact h4
  | case2 b v h1 =>
    refine ⟨h, fun x => ?_⟩
    have : ¬ (v ≤ x ∧ x < mx ∧ (x - v) % step = 0) := by rintro ⟨h2, h3, _⟩; omega
    simp [this]

/-- Counting the multiples of `step` at or above `a` and below `b`. -/
theorem card_step (n a b step : Nat) (hs : 0 < step) (hb : b ≤ n) :
    card n (fun x => decide (a ≤ x ∧ x < b ∧ (x - a) % step = 0)) = (b - a + step - 1) / step := by
  have key : ∀ d, a + d ≤ n → card n (fun x => decide (a ≤ x ∧ x < a + d ∧ (x - a) % step = 0)) = (d + step - 1) / step := by
    intro d
    induction d with
    | zero =>
      intro _
      have h0 : card n (fun x => decide (a ≤ x ∧ x < a + 0 ∧ (x - a) % step = 0)) = 0 := by
        rw [card_eq_zero]; intro x _; simp; omega
      rw [h0]
      symm
      apply Nat.div_eq_of_lt; omega
    | succ d ih =>
      intro hd
      have ih := ih (by omega)
      have hdiv : (d + 1 + step - 1) / step = (d + step - 1) / step + if d % step = 0 then 1 else 0 := by
        have e1 : d + 1 + step - 1 = d + step := by omega
        rw [e1, Nat.add_div_right _ hs]
        obtain ⟨q, r, hr, hq⟩ : ∃ q r, r < step ∧ d = step * q + r := ⟨d / step, d % step, Nat.mod_lt _ hs, by
          rw [Nat.div_add_mod]⟩
        subst hq
        have e2 : (step * q + r) % step = r := by rw [Nat.mul_add_mod, Nat.mod_eq_of_lt hr]
        have e3 : (step * q + r) / step = q := by rw [Nat.mul_add_div hs, Nat.div_eq_of_lt hr]; rfl
        rw [e2, e3]
        split
        · rename_i h; subst h
          rw [show step * q + 0 + step - 1 = step * q + (step - 1) by omega, Nat.mul_add_div hs,
            Nat.div_eq_of_lt (show step - 1 < step by omega)]
        · rename_i h
          rw [show step * q + r + step - 1 = step * (q + 1) + (r - 1) by rw [Nat.mul_add]; omega, Nat.mul_add_div hs,
            Nat.div_eq_of_lt (show r - 1 < step by omega)]
      rw [hdiv, ← ih]
      by_cases hz : d % step = 0
      · simp only [hz, if_true]
        rw [card_insert (p := a + d) (s := fun x => decide (a ≤ x ∧ x < a + d ∧ (x - a) % step = 0)) (by omega)]
        · have : ¬ (a + d < a + d) := by omega
          simp
        · intro x hx
          rw [Bool.eq_iff_iff]
          simp only [Bool.or_eq_true, decide_eq_true_eq]
          constructor
          · rintro ⟨h1, h2, h3⟩
            rcases Nat.lt_or_ge x (a + d) with h4 | h4
            · exact .inr ⟨h1, h4, h3⟩
            · left; omega
          · rintro (rfl | ⟨h1, h2, h3⟩)
            · exact ⟨by omega, by omega, by rw [Nat.add_sub_cancel_left]; exact hz⟩
            · exact ⟨h1, by omega, h3⟩
      · simp only [hz, if_false, Nat.add_zero]
        apply card_congr
        intro x hx
        rw [Bool.eq_iff_iff]
        simp only [decide_eq_true_eq]
        constructor
        · rintro ⟨h1, h2, h3⟩
          refine ⟨h1, ?_, h3⟩
          rcases Nat.lt_or_ge x (a + d) with h4 | h4
          · exact h4
          · exfalso
            have : x = a + d := by omega
            subst this
            rw [Nat.add_sub_cancel_left] at h3; exact hz h3
        · rintro ⟨h1, h2, h3⟩; exact ⟨h1, by omega, h3⟩
  rcases Nat.le_total a b with h | h
  · have := key (b - a) (by omega)
    rw [show a + (b - a) = b by omega] at this; exact this
  · have h0 : card n (fun x => decide (a ≤ x ∧ x < b ∧ (x - a) % step = 0)) = 0 := by
      rw [card_eq_zero]; intro x _; simp; omega
    rw [h0, show b - a = 0 by omega]
    symm; apply Nat.div_eq_of_lt; omega

theorem mod_congr_step {step a x : Nat} (hs : 64 % step = 0) (hpos : 0 < step) (h : a ≤ x) :
    (a % step ≤ x % 64 ∧ (x % 64 - a % step) % step = 0) ↔ (x - a) % step = 0 := by
  obtain ⟨k, hk⟩ := Nat.dvd_of_mod_eq_zero hs
  have h1 : x % 64 % step = x % step := by rw [hk, Nat.mod_mul_right_mod]
  have h2 : (x - a) % step = 0 ↔ x % step = a % step := by
    constructor
    · intro h3
      obtain ⟨q, hq⟩ := Nat.dvd_of_mod_eq_zero h3
      rw [show x = a + step * q by omega, Nat.add_mul_mod_self_left]
    · intro h3; exact Nat.sub_mod_eq_zero_of_mod_eq h3
  rw [h2]
  constructor
  · rintro ⟨h3, h4⟩
    obtain ⟨q, hq⟩ := Nat.dvd_of_mod_eq_zero h4
    rw [← h1, show x % 64 = a % step + step * q by omega, Nat.add_mul_mod_self_left, Nat.mod_mod]
  · intro h3
    have h5 : x % 64 % step ≤ x % 64 := Nat.mod_le _ _
    refine ⟨by omega, ?_⟩
    apply Nat.sub_mod_eq_zero_of_mod_eq
    rw [h1, h3, Nat.mod_mod]

theorem bitsetAddFromRange_spec (mn mx step : Nat) (hs : 0 < step) (hlt : mn < mx) (hm : mx ≤ 65536) :
    BitOK (bitsetAddFromRange bitsetCreate mn mx step) ∧
      ∀ x, bitAt (bitsetAddFromRange bitsetCreate mn mx step).words x =
        decide (mn ≤ x ∧ x < mx ∧ (x - mn) % step = 0) := by
  unfold bitsetAddFromRange
  have hl : bitsetCreate.words.length = 1024 := bitsetCreate_ok.len
  have hz : ∀ x, bitAt bitsetCreate.words x = false := bitAt_zeros
  rw [if_neg (by omega)]
  split
  · rename_i h64
    -- words of the result
    suffices key : ∀ ws : List Word, ws.length = 1024 →
        (∀ x, bitAt ws x = decide (mn ≤ x ∧ x < mx ∧ (x - mn) % step = 0)) →
        BitOK ⟨((mx - mn + step - 1) / step : Nat), ws⟩ ∧
          ∀ x, bitAt ws x = decide (mn ≤ x ∧ x < mx ∧ (x - mn) % step = 0) by
      have hmask : ∀ i, i < 64 → (stepMask step (mn % step) 0#64).getLsbD i =
          decide (mn % step ≤ i ∧ (i - mn % step) % step = 0) := fun i hi => by
        rw [stepMask_bit _ hs _ _ _ hi]; simp
      have hmx : u32 (-(mx : Int)) % 64 = (64 - mx % 64) % 64 := u32_neg_mod mx
      simp only [hmx]
      split
      · rename_i hEq
        apply key
        · rw [List.length_set]; exact hl
        · intro x
          rw [bitAt_set _ _ _ _ (by omega)]
          have hx64 : x % 64 < 64 := by omega
          split
          · rename_i hx
            have hz0 : (wd bitsetCreate.words (mn / 64)).getLsbD (x % 64) = false := by
              have := hz x; unfold bitAt at this; rw [hx] at this; exact this
            rw [BitVec.getLsbD_or, hz0, BitVec.getLsbD_and, BitVec.getLsbD_and, hmask _ hx64, ones_shl_getLsbD,
              ones_shr_getLsbD, Bool.false_or, Bool.eq_iff_iff]
            simp only [Bool.and_eq_true, decide_eq_true_eq]
            constructor
            · rintro ⟨h1, ⟨_, h2⟩, h3⟩
              have h4 : mn ≤ x := by omega
              exact ⟨h4, by omega, (mod_congr_step h64 hs h4).1 h1⟩
            · rintro ⟨h1, h2, h3⟩
              exact ⟨(mod_congr_step h64 hs h1).2 h3, ⟨hx64, by omega⟩, by omega⟩
          · rename_i hx
            rw [hz]; symm; simp; omega
      · rename_i hne
        apply key
        · simp only [List.length_set, fillWords_length]; exact hl
        · intro x
          have hx64 : x % 64 < 64 := by omega
          have hbound : (mx - 1) / 64 < 1024 := by omega
          have hlf : (fillWords (bitsetCreate.words.set (mn / 64) (stepMask step (mn % step) 0#64 &&& ones <<< (mn % 64)))
              (stepMask step (mn % step) 0#64) (mn / 64 + 1) ((mx - 1) / 64 - (mn / 64 + 1))).length = 1024 := by
            simp only [List.length_set, fillWords_length]; exact hl
          rw [bitAt_set _ _ _ _ (by omega)]
          split
          · rename_i hx
            rw [BitVec.getLsbD_and, hmask _ hx64, ones_shr_getLsbD, Bool.eq_iff_iff]
            simp only [Bool.and_eq_true, decide_eq_true_eq]
            constructor
            · rintro ⟨h1, h3⟩
              have h4 : mn ≤ x := by omega
              exact ⟨h4, by omega, (mod_congr_step h64 hs h4).1 h1⟩
            · rintro ⟨h1, h2, h3⟩
              exact ⟨(mod_congr_step h64 hs h1).2 h3, by omega⟩
          · rename_i hx
            unfold bitAt
            rw [wd_fillWords _ _ _ _ _ (by rw [List.length_set]; omega)]
            split
            · rename_i hmid
              rw [hmask _ hx64, Bool.eq_iff_iff]
              simp only [decide_eq_true_eq]
              have h4 : mn ≤ x := by omega
              rw [mod_congr_step h64 hs h4]
              constructor
              · intro h5; exact ⟨h4, by omega, h5⟩
              · intro h5; exact h5.2.2
            · rename_i hmid
              rw [wd_set]
              split
              · rename_i hx2
                rw [BitVec.getLsbD_and, hmask _ hx64, ones_shl_getLsbD, Bool.eq_iff_iff]
                simp only [Bool.and_eq_true, decide_eq_true_eq]
                constructor
                · rintro ⟨h1, _, h3⟩
                  have h4 : mn ≤ x := by omega
                  exact ⟨h4, by omega, (mod_congr_step h64 hs h4).1 h1⟩
                · rintro ⟨h1, h2, h3⟩
                  exact ⟨(mod_congr_step h64 hs h1).2 h3, hx64, by omega⟩
              · rename_i hx2
                have := hz x
                unfold bitAt at this
                rw [this]; symm; simp
                intro h1 h2
                exfalso
                have : mn / 64 < bitsetCreate.words.length := by omega
                have : ¬ mn / 64 = x / 64 := fun h => hx2 ⟨h, this⟩
                omega
    intro ws h1 h2
    refine ⟨⟨h1, ?_⟩, h2⟩
    simp only
    rw [card_congr (fun x _ => h2 x), card_step _ _ _ _ hs hm]
  · obtain ⟨h1, h2⟩ := bitsetAddStep_spec bitsetCreate bitsetCreate_ok mn mx step hs hm
    refine ⟨h1, fun x => ?_⟩
    rw [h2, hz, Bool.or_false]

/-! ### Shifting -/

theorem wd_map_range (f : Nat → Word) (n j : Nat) : wd ((List.range n).map f) j = if j < n then f j else 0#64 := by
  split
  · rename_i h; rw [wd_getElem (by simpa using h)]; simp
  · rename_i h; exact wd_ge (by simp; omega)

theorem offsetWord_bit (ws : List Word) (i k m : Nat) (hi : i < 64) (hm : m < 64) :
    (offsetWord ws i k).getLsbD m = (decide (i ≤ k * 64 + m) && bitAt ws (k * 64 + m - i)) := by
  unfold offsetWord
  split
  · rename_i h; subst h
    unfold bitAt
    rw [show (k * 64 + m - 0) / 64 = k by omega, show (k * 64 + m - 0) % 64 = m by omega]; simp
  · rename_i h
    split
    · rename_i hk; subst hk
      rw [BitVec.getLsbD_shiftLeft]
      by_cases h1 : m < i
      · have : ¬ i ≤ 0 * 64 + m := by omega
        simp only [h1, hm, this, decide_true, decide_false, Bool.not_true, Bool.and_false, Bool.false_and]
      · have : i ≤ 0 * 64 + m := by omega
        unfold bitAt
        rw [show (0 * 64 + m - i) / 64 = 0 by omega, show (0 * 64 + m - i) % 64 = m - i by omega]
        simp [h1, hm]
        omega
    · rename_i hk
      have h0 : i ≤ k * 64 + m := by omega
      rw [BitVec.getLsbD_or, BitVec.getLsbD_shiftLeft, BitVec.getLsbD_ushiftRight]
      unfold bitAt
      by_cases h1 : m < i
      · rw [show (k * 64 + m - i) / 64 = k - 1 by omega, show (k * 64 + m - i) % 64 = 64 - i + m by omega]
        simp [h1, hm, h0]
      · rw [show (k * 64 + m - i) / 64 = k by omega, show (k * 64 + m - i) % 64 = m - i by omega,
          getLsbD_ge (show 64 ≤ 64 - i + m by omega)]
        simp [h1, hm, h0]

theorem offsetLo_length (ws : List Word) (off : Nat) : (offsetLo ws off).length = 1024 := by
  unfold offsetLo NWORDS; rw [List.length_map, List.length_range]
theorem offsetHi_length (ws : List Word) (off : Nat) : (offsetHi ws off).length = 1024 := by
  unfold offsetHi NWORDS; rw [List.length_map, List.length_range]

theorem bitAt_offsetLo (ws : List Word) (off x : Nat) (ho : off < 65536) :
    bitAt (offsetLo ws off) x = (decide (x < 65536 ∧ off ≤ x) && bitAt ws (x - off)) := by
  have hm : x % 64 < 64 := by omega
  rw [bitAt.eq_1 (offsetLo ws off)]
  unfold offsetLo NWORDS
  simp only
  rw [wd_map_range]
  split
  · rename_i h
    split
    · rename_i h2
      have : ¬ (x < 65536 ∧ off ≤ x) := by omega
      simp [this]
    · rename_i h2
      rw [offsetWord_bit _ _ _ _ (by omega) hm]
      have e1 : (x / 64 - off / 64) * 64 + x % 64 - off % 64 = x - off := by omega
      rw [e1]
      congr 1
      rw [decide_eq_decide]; omega
  · rename_i h
    have : ¬ (x < 65536 ∧ off ≤ x) := by omega
    simp [this]

theorem bitAt_offsetHi {ws : List Word} (hl : ws.length = 1024) (off x : Nat) (ho : off < 65536) :
    bitAt (offsetHi ws off) x = (decide (x < 65536) && bitAt ws (x + 65536 - off)) := by
  have hm : x % 64 < 64 := by omega
  rw [bitAt.eq_1 (offsetHi ws off)]
  unfold offsetHi NWORDS
  simp only
  rw [wd_map_range]
  split
  · rename_i h
    have hx : x < 65536 := by omega
    simp only [hx, decide_true, Bool.true_and]
    split
    · rename_i h2
      rw [offsetWord_bit _ _ _ _ (by omega) hm]
      have e1 : (1024 - off / 64 + x / 64) * 64 + x % 64 - off % 64 = x + 65536 - off := by omega
      rw [e1]
      have : off % 64 ≤ (1024 - off / 64 + x / 64) * 64 + x % 64 := by omega
      simp [this]
    · rename_i h2
      split
      · rename_i h3
        rw [BitVec.getLsbD_ushiftRight]
        rcases Nat.lt_or_ge (x % 64) (off % 64) with h4 | h4
        · rw [bitAt.eq_1 ws, show (x + 65536 - off) / 64 = 1023 by omega,
            show (x + 65536 - off) % 64 = 64 - off % 64 + x % 64 by omega]
        · rw [getLsbD_ge (by omega), bitAt_ge (by omega)]
      · rename_i h3
        rw [bitAt_ge (by omega)]; simp
  · rename_i h
    have : ¬ x < 65536 := by omega
    simp [this]

theorem card_offset {ws : List Word} (hl : ws.length = 1024) (off : Nat) (ho : off < 65536) :
    card 65536 (bitAt (offsetLo ws off)) + card 65536 (bitAt (offsetHi ws off)) = card 65536 (bitAt ws) := by
  have h1 : card 65536 (bitAt (offsetLo ws off)) = card (65536 - off) (bitAt ws) := by
    have : card 65536 (bitAt (offsetLo ws off)) = card (off + (65536 - off)) (bitAt (offsetLo ws off)) :=
      congrArg (fun n => card n (bitAt (offsetLo ws off))) (show 65536 = off + (65536 - off) by omega)
    rw [this, card_add]
    have h0 : card off (bitAt (offsetLo ws off)) = 0 := by
      rw [card_eq_zero]; intro x hx
      rw [bitAt_offsetLo _ _ _ ho]; simp; omega
    rw [h0, Nat.zero_add]
    apply card_congr
    intro x hx
    rw [bitAt_offsetLo _ _ _ ho, show off + x - off = x by omega]
    have : off + x < 65536 ∧ off ≤ off + x := by omega
    simp [this]
  have h2 : card 65536 (bitAt (offsetHi ws off)) = card off (fun x => bitAt ws (65536 - off + x)) := by
    have : card 65536 (bitAt (offsetHi ws off)) = card (off + (65536 - off)) (bitAt (offsetHi ws off)) :=
      congrArg (fun n => card n (bitAt (offsetHi ws off))) (show 65536 = off + (65536 - off) by omega)
    rw [this, card_add]
    have h0 : card (65536 - off) (fun x => bitAt (offsetHi ws off) (off + x)) = 0 := by
      rw [card_eq_zero]; intro x hx
      rw [bitAt_offsetHi hl _ _ ho, bitAt_ge (by omega)]; simp
    rw [h0, Nat.add_zero]
    apply card_congr
    intro x hx
    rw [bitAt_offsetHi hl _ _ ho, show x + 65536 - off = 65536 - off + x by omega]
    have : x < 65536 := by omega
    simp [this]
  rw [h1, h2, ← card_add]
  exact congrArg (fun n => card n (bitAt ws)) (show 65536 - off + off = 65536 by omega)

/-- `loc`/`hic` say which halves are requested; both halves come out when requested. -/
theorem bitsetOffset_spec {b : Bitset} (h : BitOK b) (loc hic : Bool) (off : Nat) (ho : off < 65536) :
    (∀ c, (bitsetOffset b loc hic off).1 = some c → loc = true ∧ BitOK c ∧ 0 < c.card ∧
        ∀ x, bitAt c.words x = (decide (x < 65536 ∧ off ≤ x) && bitAt b.words (x - off))) ∧
    (∀ c, (bitsetOffset b loc hic off).2 = some c → hic = true ∧ BitOK c ∧ 0 < c.card ∧
        ∀ x, bitAt c.words x = (decide (x < 65536) && bitAt b.words (x + 65536 - off))) ∧
    ((bitsetOffset b loc hic off).1 = none → loc = true → ∀ x, bitAt b.words x = true → 65536 ≤ x + off) ∧
    ((bitsetOffset b loc hic off).2 = none → hic = true → ∀ x, bitAt b.words x = true → x + off < 65536) := by
  have hl := h.len
  have hsum := card_offset hl off ho
  have hc := h.card
  have hzlo : computeCard (offsetLo b.words off) = 0 → ∀ x, bitAt b.words x = true → 65536 ≤ x + off := by
    intro h0 x hx
    rw [computeCard_eq, card_eq_zero] at h0
    rcases Nat.lt_or_ge (x + off) 65536 with h1 | h1
    · have := h0 (x + off) h1
      rw [bitAt_offsetLo _ _ _ ho, show x + off - off = x by omega, hx] at this
      simp at this; omega
    · exact h1
  have hzhi : card 65536 (bitAt (offsetHi b.words off)) = 0 → ∀ x, bitAt b.words x = true → x + off < 65536 := by
    intro h0 x hx
    rw [card_eq_zero] at h0
    have hlt := bitAt_lt hl hx
    rcases Nat.lt_or_ge (x + off) 65536 with h1 | h1
    · exact h1
    · have := h0 (x + off - 65536) (by omega)
      rw [bitAt_offsetHi hl _ _ ho, show x + off - 65536 + 65536 - off = x by omega, hx] at this
      simp at this; omega
  have hlo1 : ∀ c, (if loc = true ∧ computeCard (offsetLo b.words off) ≠ 0 then
        some (⟨computeCard (offsetLo b.words off), offsetLo b.words off⟩ : Bitset) else none) = some c →
      loc = true ∧ BitOK c ∧ 0 < c.card ∧
        ∀ x, bitAt c.words x = (decide (x < 65536 ∧ off ≤ x) && bitAt b.words (x - off)) := by
    intro c hc'
    split at hc'
    · rename_i h1
      simp only [Option.some.injEq] at hc'
      subst hc'
      exact ⟨h1.1, BitOK.mk' (offsetLo_length _ _), Int.natCast_pos.2 (Nat.pos_of_ne_zero h1.2), fun x => by
        simp only; exact bitAt_offsetLo b.words off x ho⟩
    · simp at hc'
  have hlo2 : (if loc = true ∧ computeCard (offsetLo b.words off) ≠ 0 then
        some (⟨computeCard (offsetLo b.words off), offsetLo b.words off⟩ : Bitset) else none) = none →
      loc = true → ∀ x, bitAt b.words x = true → 65536 ≤ x + off := by
    intro h1 h2
    split at h1
    · simp at h1
    · rename_i h3
      exact hzlo (Classical.not_not.1 (not_and.1 h3 h2))
  unfold bitsetOffset
  simp only
  split
  · rename_i h1
    refine ⟨hlo1, by simp, hlo2, fun _ _ => hzhi ?_⟩
    rw [computeCard_eq] at h1; omega
  · split
    · rename_i h2
      refine ⟨hlo1, by simp, hlo2, fun _ h3 => ?_⟩
      rw [h2] at h3; simp at h3
    · rename_i h2
      refine ⟨hlo1, ?_, hlo2, ?_⟩
      · intro c hc'
        by_cases h3 : computeCard (offsetHi b.words off) = 0
        · simp only [h3, if_true] at hc'; simp at hc'
        · simp only [h3, if_false, Option.some.injEq] at hc'
          subst hc'
          exact ⟨by simpa using h2, BitOK.mk' (offsetHi_length _ _), Int.natCast_pos.2 (Nat.pos_of_ne_zero h3),
            fun x => by simp only; exact bitAt_offsetHi hl off x ho⟩
      · intro h3 _
        by_cases h4 : computeCard (offsetHi b.words off) = 0
        · rw [computeCard_eq] at h4; exact hzhi h4
        · simp only [h4, if_false] at h3; simp at h3

end CRoaring
