import Verif.Model.Bitset
import Verif.Lemmas.Bits
import Verif.Lemmas.Array
import Verif.Lemmas.Run3
set_option linter.unusedSimpArgs false
set_option linter.unusedVariables false
/- Correctness of the bitset container. -/
namespace CRoaring
open Spec

/-- A bitset container whose cached cardinality is exact. -/
structure BitOK (b : Bitset) : Prop where
  len : b.words.length = 1024
  card : b.card = card 65536 (bitAt b.words)

theorem computeCard_eq (ws : List Word) : computeCard ws = card 65536 (bitAt ws) := by
  unfold computeCard NWORDS; rw [popWords_zero_eq]

theorem popAll_1024 {ws : List Word} (h : ws.length = 1024) : popAll ws = card 65536 (bitAt ws) := by
  rw [popAll_eq_card, h]

theorem bitAt_lt {ws : List Word} (h : ws.length = 1024) {x : Nat} (hx : bitAt ws x = true) : x < 65536 := by
  rcases Nat.lt_or_ge x 65536 with h1 | h1
  · exact h1
  · rw [bitAt_ge (by omega)] at hx; simp at hx

theorem BitOK.mk' {ws : List Word} (h : ws.length = 1024) : BitOK ⟨computeCard ws, ws⟩ :=
  ⟨h, by simp only; rw [computeCard_eq]⟩

theorem bitAt_replicate (n : Nat) (w : Word) (x : Nat) :
    bitAt (List.replicate n w) x = (decide (x < 64 * n) && w.getLsbD (x % 64)) := by
  unfold bitAt
  rcases Nat.lt_or_ge (x / 64) n with h | h
  · rw [wd_getElem (by simpa using h), List.getElem_replicate]; simp; intro _; omega
  · rw [wd_ge (by simpa using h)]; simp; omega

theorem bitAt_zeros (x : Nat) : bitAt zeros x = false := by
  unfold zeros; rw [bitAt_replicate]; simp

theorem bitsetCreate_ok : BitOK bitsetCreate := by
  refine ⟨List.length_replicate, ?_⟩
  show (0 : Int) = card 65536 (bitAt zeros)
  rw [card_congr (t := fun _ => false) (fun x _ => bitAt_zeros x), card_false]; rfl

theorem bitAt_setAll (x : Nat) : bitAt bitsetSetAll.words x = decide (x < 65536) := by
  unfold bitsetSetAll NWORDS
  simp only
  rw [bitAt_replicate, ones_getLsbD]
  have : x % 64 < 64 := by omega
  simp [this]

theorem bitsetSetAll_ok : BitOK bitsetSetAll := by
  refine ⟨List.length_replicate, ?_⟩
  show (65536 : Int) = _
  rw [card_congr (t := fun _ => true) (fun x hx => by rw [bitAt_setAll]; simpa using hx), card_true]; rfl

theorem bitsetAdd_spec {b : Bitset} (h : BitOK b) {p : Nat} (hp : p < 65536) :
    BitOK (bitsetAdd b p).1 ∧ (∀ x, bitAt (bitsetAdd b p).1.words x = (decide (x = p) || bitAt b.words x)) ∧
      (bitsetAdd b p).2 = !bitAt b.words p ∧
      (bitsetAdd b p).1.card = b.card + if bitAt b.words p then 0 else 1 := by
  have hl := h.len
  have hb : ∀ x, bitAt (bitsetAdd b p).1.words x = (decide (x = p) || bitAt b.words x) := fun x => by
    simp only [bitsetAdd]; exact bitAt_or_oneBit _ _ _ (by omega)
  have hi : ((wd b.words (p / 64) ^^^ (wd b.words (p / 64) ||| oneBit (p % 64))) >>> (p % 64)).toNat =
      if bitAt b.words p then 0 else 1 := incr_or _ _ (by omega)
  have hc : (bitsetAdd b p).1.card = b.card + if bitAt b.words p then 0 else 1 := by
    simp only [bitsetAdd]; rw [hi]; split <;> simp
  refine ⟨⟨by simpa [bitsetAdd] using hl, ?_⟩, hb, ?_, hc⟩
  · rw [hc, card_insert hp (fun x _ => hb x), h.card]; split <;> simp
  · simp only [bitsetAdd]; rw [hi]; cases bitAt b.words p <;> simp

theorem bitsetSet_eq (b : Bitset) (p : Nat) : bitsetSet b p = (bitsetAdd b p).1 := rfl

theorem bitsetRemove_spec {b : Bitset} (h : BitOK b) {p : Nat} (hp : p < 65536) :
    BitOK (bitsetRemove b p).1 ∧ (∀ x, bitAt (bitsetRemove b p).1.words x = (decide (x ≠ p) && bitAt b.words x)) ∧
      (bitsetRemove b p).2 = bitAt b.words p ∧
      (bitsetRemove b p).1.card = b.card - if bitAt b.words p then 1 else 0 := by
  have hl := h.len
  have hb : ∀ x, bitAt (bitsetRemove b p).1.words x = (decide (x ≠ p) && bitAt b.words x) := fun x => by
    simp only [bitsetRemove]; exact bitAt_and_not_oneBit _ _ _ (by omega)
  have hi : ((wd b.words (p / 64) ^^^ (wd b.words (p / 64) &&& ~~~(oneBit (p % 64)))) >>> (p % 64)).toNat =
      if bitAt b.words p then 1 else 0 := incr_and_not _ _ (by omega)
  have hc : (bitsetRemove b p).1.card = b.card - if bitAt b.words p then 1 else 0 := by
    simp only [bitsetRemove]; rw [hi]; split <;> simp
  refine ⟨⟨by simpa [bitsetRemove] using hl, ?_⟩, hb, ?_, hc⟩
  · rw [hc, h.card, ← card_erase hp (fun x _ => hb x)]; split <;> simp
  · simp only [bitsetRemove]; rw [hi]; cases bitAt b.words p <;> simp

theorem bitsetGet_eq (b : Bitset) (p : Nat) : bitsetGet b p = bitAt b.words p := by
  unfold bitsetGet bitAt
  generalize wd b.words (p / 64) = w
  have : (w >>> (p % 64) &&& 1#64) = if w.getLsbD (p % 64) then 1#64 else 0#64 := by
    apply word_ext
    intro i hi
    rw [BitVec.getLsbD_and, BitVec.getLsbD_ushiftRight, BitVec.getLsbD_one]
    by_cases h0 : i = 0
    · subst h0; cases h : w.getLsbD (p % 64) <;> simp [h]
    · cases h : w.getLsbD (p % 64) <;> simp [h0, h, BitVec.getLsbD_one]
  rw [this]
  cases w.getLsbD (p % 64) <;> simp

theorem onesWords_iff (ws : List Word) (i n : Nat) :
    onesWords ws i n = true ↔ ∀ j, i ≤ j → j < i + n → wd ws j = ones := by
  induction n generalizing i with
  | zero => simp [onesWords]; omega
  | succ n ih =>
    unfold onesWords
    split
    · rename_i h
      simp only [Bool.false_eq_true, false_iff]
      intro h1; exact h (h1 i (by omega) (by omega))
    · rename_i h
      rw [ih]
      constructor
      · intro h1 j h2 h3
        rcases Nat.eq_or_lt_of_le h2 with rfl | h4
        · simpa using h
        · exact h1 j (by omega) (by omega)
      · intro h1 j h2 h3; exact h1 j (by omega) (by omega)

theorem oneBit_sub_one (k i : Nat) (hk : k < 64) (hi : i < 64) : (oneBit k - 1#64).getLsbD i = decide (i < k) := by
  have hne : oneBit k ≠ 0#64 := fun h => by
    have := oneBit_getLsbD k k; rw [h] at this; simp [hk] at this
  have hc : ctz (oneBit k) = k := ctz_unique (by rw [oneBit_getLsbD]; simp [hk])
    (fun j hj => by rw [oneBit_getLsbD]; simp; omega)
  rw [getLsbD_sub_one hne i hi, hc, oneBit_getLsbD]
  by_cases h1 : i < k
  · simp [h1]
  · by_cases h2 : i = k
    · simp [h2]
    · simp [h1, h2]

theorem and_eq_mask {w m : Word} : w &&& m = m ↔ ∀ i, i < 64 → m.getLsbD i = true → w.getLsbD i = true := by
  constructor
  · intro h i hi hm
    rw [← h, BitVec.getLsbD_and, Bool.and_eq_true] at hm
    exact hm.1
  · intro h
    apply word_ext
    intro i hi
    rw [BitVec.getLsbD_and]
    cases hm : m.getLsbD i
    · simp
    · simp [h i hi hm]

theorem wd_eq_ones {ws : List Word} {k : Nat} :
    wd ws k = ones ↔ ∀ x, x / 64 = k → bitAt ws x = true := by
  constructor
  · intro h x hx
    unfold bitAt; rw [hx, h, ones_getLsbD]; simp; omega
  · intro h
    apply word_ext
    intro i hi
    rw [ones_getLsbD]
    have := h (k * 64 + i) (by omega)
    unfold bitAt at this
    rw [show (k * 64 + i) / 64 = k by omega, show (k * 64 + i) % 64 = i by omega] at this
    simp [this, hi]

theorem bitsetContainsRange_iff {b : Bitset} (h : b.words.length = 1024) (s e : Nat) (hse : s < e) (he : e ≤ 65536) :
    bitsetContainsRange b s e = true ↔ ∀ x, s ≤ x → x < e → bitAt b.words x = true := by
  unfold bitsetContainsRange
  have hs64 : s % 64 < 64 := by omega
  have he64 : e % 64 < 64 := by omega
  have hf : ∀ i, i < 64 → (~~~(oneBit (s % 64) - 1#64)).getLsbD i = decide (s % 64 ≤ i) := fun i hi => by
    rw [BitVec.getLsbD_not, oneBit_sub_one _ _ hs64 hi]; by_cases h : i < s % 64 <;> simp [hi, h] <;> omega
  have hl : ∀ i, i < 64 → (oneBit (e % 64) - 1#64).getLsbD i = decide (i < e % 64) := fun i hi =>
    oneBit_sub_one _ _ he64 hi
  simp only
  split
  · rename_i hEq
    rw [beq_iff_eq, BitVec.and_assoc, and_eq_mask]
    constructor
    · intro h1 x h2 h3
      have := h1 (x % 64) (by omega) (by
        rw [BitVec.getLsbD_and, hf _ (by omega), hl _ (by omega)]
        simp; omega)
      unfold bitAt
      rw [show x / 64 = e / 64 by omega]; exact this
    · intro h1 i hi hm
      rw [BitVec.getLsbD_and, hf _ hi, hl _ hi] at hm
      simp only [Bool.and_eq_true, decide_eq_true_eq] at hm
      have := h1 (e / 64 * 64 + i) (by omega) (by omega)
      unfold bitAt at this
      rwa [show (e / 64 * 64 + i) / 64 = e / 64 by omega, show (e / 64 * 64 + i) % 64 = i by omega] at this
  · rename_i hne
    have hA : wd b.words (s / 64) &&& ~~~(oneBit (s % 64) - 1#64) = ~~~(oneBit (s % 64) - 1#64) ↔
        ∀ x, x / 64 = s / 64 → s ≤ x → bitAt b.words x = true := by
      rw [and_eq_mask]
      constructor
      · intro h1 x h2 h3
        have := h1 (x % 64) (by omega) (by rw [hf _ (by omega)]; simp; omega)
        unfold bitAt; rw [h2]; exact this
      · intro h1 i hi hm
        rw [hf _ hi, decide_eq_true_eq] at hm
        have := h1 (s / 64 * 64 + i) (by omega) (by omega)
        unfold bitAt at this
        rwa [show (s / 64 * 64 + i) / 64 = s / 64 by omega, show (s / 64 * 64 + i) % 64 = i by omega] at this
    have hB : wd b.words (e / 64) &&& (oneBit (e % 64) - 1#64) = (oneBit (e % 64) - 1#64) ↔
        ∀ x, x / 64 = e / 64 → x < e → bitAt b.words x = true := by
      rw [and_eq_mask]
      constructor
      · intro h1 x h2 h3
        have := h1 (x % 64) (by omega) (by rw [hl _ (by omega)]; simp; omega)
        unfold bitAt; rw [h2]; exact this
      · intro h1 i hi hm
        rw [hl _ hi, decide_eq_true_eq] at hm
        have := h1 (e / 64 * 64 + i) (by omega) (by omega)
        unfold bitAt at this
        rwa [show (e / 64 * 64 + i) / 64 = e / 64 by omega, show (e / 64 * 64 + i) % 64 = i by omega] at this
    split
    · rename_i h1
      simp only [Bool.false_eq_true, false_iff]
      intro h2; exact h1 (hA.2 (fun x h3 h4 => h2 x h4 (by omega)))
    · rename_i h1
      have h1 := hA.1 (by simpa using h1)
      split
      · rename_i h3
        simp only [Bool.false_eq_true, false_iff]
        intro h2; exact h3.2 (hB.2 (fun x h4 h5 => h2 x (by omega) h5))
      · rename_i h3
        rw [onesWords_iff]
        unfold NWORDS at *
        constructor
        · intro h4 x h5 h6
          rcases Nat.lt_trichotomy (x / 64) (s / 64) with h7 | h7 | h7
          · omega
          · exact h1 x h7 h5
          · rcases Nat.lt_or_ge (x / 64) (e / 64) with h8 | h8
            · exact wd_eq_ones.1 (h4 (x / 64) (by omega) (by omega)) x rfl
            · have h9 : e / 64 < 1024 := by omega
              have := hB.1 (by
                have := not_and.1 h3 h9
                simpa using this)
              exact this x (by omega) h6
        · intro h4 j h5 h6
          exact wd_eq_ones.2 (fun x hx => h4 x (by omega) (by omega))

theorem bitsetEmpty_iff {b : Bitset} (h : b.words.length = 1024)
    (hc : b.card = UNKNOWN_CARD ∨ b.card = card 65536 (bitAt b.words)) :
    bitsetEmpty b = true ↔ ∀ x, bitAt b.words x = false := by
  have key : card 65536 (bitAt b.words) = 0 ↔ ∀ x, bitAt b.words x = false := by
    rw [card_eq_zero]
    constructor
    · intro h1 x
      rcases Nat.lt_or_ge x 65536 with h2 | h2
      · exact h1 x h2
      · exact bitAt_ge (by omega)
    · intro h1 x _; exact h1 x
  unfold bitsetEmpty
  split
  · rw [← popWords_eq_zero, NWORDS, popWords_zero_eq]; exact key
  · rename_i hu
    rcases hc with hc | hc
    · exact absurd hc hu
    · rw [beq_iff_eq, hc, ← key]; omega

/-! ### Word-parallel operations -/

theorem bitAt_zipWith (f : Word → Word → Word) (g : Bool → Bool → Bool)
    (hfg : ∀ a b i, i < 64 → (f a b).getLsbD i = g (a.getLsbD i) (b.getLsbD i)) (hg : g false false = false)
    {ws1 ws2 : List Word} (hl : ws1.length = ws2.length) (x : Nat) :
    bitAt (List.zipWith f ws1 ws2) x = g (bitAt ws1 x) (bitAt ws2 x) := by
  unfold bitAt
  rcases Nat.lt_or_ge (x / 64) ws1.length with h | h
  · rw [wd_zipWith f hl _ h, hfg _ _ _ (by omega)]
  · rw [wd_ge (by simp; omega), wd_ge (by omega), wd_ge (by omega)]; simp [hg]

theorem bitAt_wOr {ws1 ws2 : List Word} (hl : ws1.length = ws2.length) (x : Nat) :
    bitAt (List.zipWith wOr ws1 ws2) x = (bitAt ws1 x || bitAt ws2 x) :=
  bitAt_zipWith wOr (· || ·) (fun a b i _ => by simp [wOr]) rfl hl x
theorem bitAt_wAnd {ws1 ws2 : List Word} (hl : ws1.length = ws2.length) (x : Nat) :
    bitAt (List.zipWith wAnd ws1 ws2) x = (bitAt ws1 x && bitAt ws2 x) :=
  bitAt_zipWith wAnd (· && ·) (fun a b i _ => by simp [wAnd]) rfl hl x
theorem bitAt_wXor {ws1 ws2 : List Word} (hl : ws1.length = ws2.length) (x : Nat) :
    bitAt (List.zipWith wXor ws1 ws2) x = (bitAt ws1 x != bitAt ws2 x) :=
  bitAt_zipWith wXor (· != ·) (fun a b i _ => by simp [wXor]) rfl hl x
theorem bitAt_wAndnot {ws1 ws2 : List Word} (hl : ws1.length = ws2.length) (x : Nat) :
    bitAt (List.zipWith wAndnot ws1 ws2) x = (bitAt ws1 x && !bitAt ws2 x) :=
  bitAt_zipWith wAndnot (fun a b => a && !b) (fun a b i h => by simp [wAndnot, h]) rfl hl x

theorem bitsetOp_ok (f : Word → Word → Word) {b1 b2 : Bitset} (h1 : b1.words.length = 1024)
    (h2 : b2.words.length = 1024) : BitOK (bitsetOp f b1 b2) :=
  BitOK.mk' (by simp [h1, h2])

theorem bitsetOpJustcard_eq (f : Word → Word → Word) (b1 b2 : Bitset) :
    (bitsetOpJustcard f b1 b2 : Int) = (bitsetOp f b1 b2).card := rfl

theorem bitsetIntersect_iff {b1 b2 : Bitset} (h1 : b1.words.length = 1024) (h2 : b2.words.length = 1024) :
    bitsetIntersect b1 b2 = true ↔ ∃ x, bitAt b1.words x = true ∧ bitAt b2.words x = true := by
  unfold bitsetIntersect
  rw [List.any_eq_true]
  constructor
  · rintro ⟨p, hp, hne⟩
    obtain ⟨i, hi, rfl⟩ := List.mem_iff_getElem.1 hp
    simp only [List.length_zip] at hi
    simp only [List.getElem_zip, ne_eq, decide_not, Bool.not_eq_true', decide_eq_false_iff_not] at hne
    rw [word_eq_zero_iff] at hne
    simp only [Classical.not_forall, Bool.not_eq_false] at hne
    obtain ⟨k, hk, hb⟩ := hne
    rw [BitVec.getLsbD_and, Bool.and_eq_true] at hb
    refine ⟨i * 64 + k, ?_⟩
    unfold bitAt
    rw [show (i * 64 + k) / 64 = i by omega, show (i * 64 + k) % 64 = k by omega,
      wd_getElem (by omega), wd_getElem (by omega)]
    exact hb
  · rintro ⟨x, hx1, hx2⟩
    have hlt := bitAt_lt h1 hx1
    refine ⟨(b1.words[x / 64]'(by omega), b2.words[x / 64]'(by omega)), ?_, ?_⟩
    · apply List.mem_iff_getElem.2
      exact ⟨x / 64, by simp; omega, by simp⟩
    · simp only [ne_eq, decide_not, Bool.not_eq_true', decide_eq_false_iff_not]
      intro h0
      rw [word_eq_zero_iff] at h0
      have := h0 (x % 64) (by omega)
      unfold bitAt at hx1 hx2
      rw [wd_getElem (by omega)] at hx1 hx2
      rw [BitVec.getLsbD_and, hx1, hx2] at this
      simp at this

theorem bitsetEquals_iff {b1 b2 : Bitset} (h1 : BitOK b1) (h2 : BitOK b2) :
    bitsetEquals b1 b2 = true ↔ ∀ x, bitAt b1.words x = bitAt b2.words x := by
  have e1 := h1.card
  have e2 := h2.card
  have l1 := h1.len
  have l2 := h2.len
  have c1 : b1.card ≠ UNKNOWN_CARD := by unfold UNKNOWN_CARD; omega
  have c2 : b2.card ≠ UNKNOWN_CARD := by unfold UNKNOWN_CARD; omega
  unfold bitsetEquals
  simp only [c1, c2, ne_eq, not_false_eq_true, true_and, not_true]
  split
  · rename_i h
    simp only [Bool.false_eq_true, false_iff]
    intro hx
    exact h (by rw [e1, e2, card_congr (fun x _ => hx x)])
  · rename_i h
    have h := Classical.not_not.1 h
    split
    · rename_i hf
      simp only [true_iff]
      intro x
      rcases Nat.lt_or_ge x 65536 with hx | hx
      · have f1 : card 65536 (bitAt b1.words) = 65536 := by omega
        have f2 : card 65536 (bitAt b2.words) = 65536 := by omega
        rw [card_eq_n.1 f1 x hx, card_eq_n.1 f2 x hx]
      · rw [bitAt_ge (by omega), bitAt_ge (by omega)]
    · rw [beq_iff_eq]
      constructor
      · intro hw x; rw [hw]
      · intro hx; exact words_ext_bit (by omega) (fun x _ => hx x)

theorem bitsetIsSubset_iff {b1 b2 : Bitset} (h1 : BitOK b1) (h2 : BitOK b2) :
    bitsetIsSubset b1 b2 = true ↔ ∀ x, bitAt b1.words x = true → bitAt b2.words x = true := by
  have e1 := h1.card
  have e2 := h2.card
  have l1 := h1.len
  have l2 := h2.len
  unfold bitsetIsSubset
  split
  · rename_i h
    simp only [Bool.false_eq_true, false_iff]
    intro hx
    have := card_mono (n := 65536) (s := bitAt b1.words) (t := bitAt b2.words) (fun x _ => hx x)
    omega
  · rw [List.all_eq_true]
    constructor
    · intro h x hx
      have hlt := bitAt_lt l1 hx
      have := h (b1.words[x / 64]'(by omega), b2.words[x / 64]'(by omega)) (by
        apply List.mem_iff_getElem.2
        exact ⟨x / 64, by simp; omega, by simp⟩)
      simp only [beq_iff_eq] at this
      unfold bitAt at *
      rw [wd_getElem (by omega)] at *
      rw [← this, BitVec.getLsbD_and, Bool.and_eq_true] at hx
      exact hx.2
    · intro h p hp
      obtain ⟨i, hi, rfl⟩ := List.mem_iff_getElem.1 hp
      simp only [List.length_zip] at hi
      simp only [List.getElem_zip, beq_iff_eq]
      apply word_ext
      intro k hk
      rw [BitVec.getLsbD_and]
      have := h (i * 64 + k)
      unfold bitAt at this
      rw [show (i * 64 + k) / 64 = i by omega, show (i * 64 + k) % 64 = k by omega,
        wd_getElem (by omega), wd_getElem (by omega)] at this
      cases h3 : (b1.words[i]'(by omega)).getLsbD k
      · simp
      · simp [this h3]

theorem bitsetValidate_iff {b : Bitset} (h : b.words.length = 1024) :
    bitsetValidate b = true ↔ BitOK b ∧ 4096 < b.card := by
  unfold bitsetValidate DEFAULT_MAX_SIZE
  rw [computeCard_eq]
  split
  · rename_i h1
    simp only [Bool.false_eq_true, false_iff]
    rintro ⟨h2, _⟩; exact h1 h2.card
  · rename_i h1
    split
    · simp; intro _; omega
    · simp only [true_iff]; exact ⟨⟨h, by simpa using h1⟩, by omega⟩

theorem bitsetContainerSetRange_spec {b : Bitset} (h : b.words.length = 1024) (s e : Nat) (hse : s ≤ e) (he : e ≤ 65536) :
    BitOK (bitsetContainerSetRange b s e) ∧
      ∀ x, bitAt (bitsetContainerSetRange b s e).words x = (decide (s ≤ x ∧ x < e) || bitAt b.words x) :=
  ⟨BitOK.mk' (by simpa using h), fun x => bitAt_setRange _ _ _ _ hse (by omega)⟩

end CRoaring
