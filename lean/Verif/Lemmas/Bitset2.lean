import Verif.Lemmas.Bitset
set_option linter.unusedSimpArgs false
set_option linter.unusedVariables false
/- Correctness of the bitset container: ordering queries, iteration, selection, ranges with steps, shifts. -/
namespace CRoaring
open Spec

theorem rankMask_bit_all : ∀ k : Fin 64, ∀ i : Fin 64,
    (oneBit k.val + oneBit k.val - 1#64).getLsbD i.val = decide (i.val ≤ k.val) := by decide +kernel

theorem rankMask_bit (x i : Nat) (hi : i < 64) : (rankMask x).getLsbD i = decide (i ≤ x % 64) :=
  rankMask_bit_all ⟨x % 64, by omega⟩ ⟨i, hi⟩

theorem popcount_rankMask (ws : List Word) (x : Nat) :
    popcount (wd ws (x / 64) &&& rankMask x) = card (x % 64 + 1) (fun j => bitAt ws (64 * (x / 64) + j)) := by
  have hadd : ∀ s : NSet, card 64 s = card (x % 64 + 1) s + card (63 - x % 64) (fun y => s (x % 64 + 1 + y)) :=
    fun s => by rw [← card_add]; congr 1; omega
  rw [popcount_eq_card, hadd]
  have h0 : card (63 - x % 64) (fun y => (wd ws (x / 64) &&& rankMask x).getLsbD (x % 64 + 1 + y)) = 0 := by
    rw [card_eq_zero]
    intro y hy
    rw [BitVec.getLsbD_and, rankMask_bit _ _ (by omega)]; simp; intro _; omega
  rw [h0, Nat.add_zero]
  apply card_congr
  intro j hj
  rw [BitVec.getLsbD_and, rankMask_bit _ _ (by omega)]
  unfold bitAt
  rw [show (64 * (x / 64) + j) / 64 = x / 64 by omega, show (64 * (x / 64) + j) % 64 = j by omega]
  simp; intro _; omega

theorem bitsetRank_eq (b : Bitset) (x : Nat) : bitsetRank b x = card (x + 1) (bitAt b.words) := by
  unfold bitsetRank
  rw [popWords_zero_eq, popcount_rankMask, ← card_add]
  congr 1; omega

theorem bitsetGetIndex_eq (b : Bitset) (x : Nat) :
    bitsetGetIndex b x = if bitAt b.words x then (card x (bitAt b.words) : Int) else -1 := by
  unfold bitsetGetIndex
  rw [bitsetGet_eq]
  split
  · rename_i h
    have := bitsetRank_eq b x
    unfold bitsetRank at this
    rw [this, card_succ, h]; simp
  · rfl

theorem popWords_add (ws : List Word) (i m n : Nat) : popWords ws i (m + n) = popWords ws i m + popWords ws (i + m) n := by
  rw [popWords_eq_card, popWords_eq_card, popWords_eq_card, Nat.mul_add, card_add]
  congr 1
  apply card_congr
  intro x _
  congr 1; omega

theorem bitsetRankManyLoop_eq (ws : List Word) (sr hi i sum : Nat) (xs : List Nat)
    (hsum : sum = popWords ws 0 i)
    (hpos : ∀ x ∈ xs, x / 65536 = hi → i ≤ x % 65536 / 64)
    (hx : xs.Pairwise (· ≤ ·)) (hb : ∀ x ∈ xs, x < 4294967296) :
    bitsetRankManyLoop ws sr hi i sum xs =
      ((xs.takeWhile (fun x => x / 65536 == hi)).map (fun x => sr + card (x % 65536 + 1) (bitAt ws)),
        xs.dropWhile (fun x => x / 65536 == hi)) := by
  induction xs generalizing i sum with
  | nil => rfl
  | cons x xs ih =>
    have hxb := hb x (by simp)
    have hm : x / 65536 % 65536 = x / 65536 := by omega
    rw [bitsetRankManyLoop, hm]
    by_cases hh : x / 65536 = hi
    · have hp := hpos x (by simp) hh
      have hi' : (if i < x % 65536 / 64 then x % 65536 / 64 else i) = x % 65536 / 64 := by split <;> omega
      have hs' : sum + popWords ws i (x % 65536 / 64 - i) = popWords ws 0 (x % 65536 / 64) := by
        rw [hsum]
        have := popWords_add ws 0 i (x % 65536 / 64 - i)
        rw [Nat.zero_add] at this
        rw [← this]; congr 1; omega
      simp only [hh, ne_eq, not_true, if_false]
      rw [hi', hs', ih _ _ rfl (fun y hy hyh => by
          have := (List.pairwise_cons.1 hx).1 y hy
          omega) (List.pairwise_cons.1 hx).2 (fun y hy => hb y (by simp [hy]))]
      have hr := bitsetRank_eq ⟨0, ws⟩ (x % 65536)
      unfold bitsetRank at hr
      simp only at hr
      rw [Nat.add_assoc, hr]
      simp [hh]
    · simp [hh]

/-! ### Minimum and maximum -/

theorem bitsetMinLoop_spec (ws : List Word) (i : Nat) (h : ∃ x, bitAt ws x = true) :
    i * 64 ≤ bitsetMinLoop i ws ∧ bitAt ws (bitsetMinLoop i ws - i * 64) = true ∧
      ∀ x, bitAt ws x = true → bitsetMinLoop i ws ≤ i * 64 + x := by
  induction ws generalizing i with
  | nil => obtain ⟨x, hx⟩ := h; simp [bitAt, wd] at hx
  | cons w ws ih =>
    unfold bitsetMinLoop
    split
    · rename_i hw
      obtain ⟨h1, h2, h3⟩ := ctz_spec hw
      refine ⟨by omega, ?_, fun x hx => ?_⟩
      · rw [show ctz w + i * 64 - i * 64 = ctz w by omega, bitAt_cons_lt _ _ h1]; exact h2
      · rcases Nat.lt_or_ge x 64 with h4 | h4
        · rw [bitAt_cons_lt _ _ h4] at hx
          have : ¬ x < ctz w := fun h5 => by rw [h3 x h5] at hx; simp at hx
          omega
        · omega
    · rename_i hw
      have hw : w = 0#64 := by simpa using hw
      have hsh : ∀ x, bitAt (w :: ws) x = true → 64 ≤ x ∧ bitAt ws (x - 64) = true := fun x hx => by
        rcases Nat.lt_or_ge x 64 with h4 | h4
        · rw [bitAt_cons_lt _ _ h4, hw] at hx; simp at hx
        · refine ⟨h4, ?_⟩
          have := bitAt_cons_add w ws (x - 64)
          rw [show 64 + (x - 64) = x by omega] at this
          rw [← this]; exact hx
      obtain ⟨x, hx⟩ := h
      obtain ⟨a, b, c⟩ := ih (i + 1) ⟨_, (hsh x hx).2⟩
      refine ⟨by omega, ?_, fun y hy => ?_⟩
      · have := bitAt_cons_add w ws (bitsetMinLoop (i + 1) ws - (i + 1) * 64)
        rw [show 64 + (bitsetMinLoop (i + 1) ws - (i + 1) * 64) = bitsetMinLoop (i + 1) ws - i * 64 by omega] at this
        rw [this]; exact b
      · have := hsh y hy
        have := c _ this.2
        omega

theorem bitsetMin_spec {b : Bitset} (h : ∃ x, bitAt b.words x = true) :
    bitAt b.words (bitsetMin b) = true ∧ ∀ x, bitAt b.words x = true → bitsetMin b ≤ x := by
  have := bitsetMinLoop_spec b.words 0 h
  unfold bitsetMin
  simpa using this.2

theorem bitsetMaxLoop_spec (ws : List Word) (n : Nat) (h : ∃ x, 64 ≤ x ∧ bitAt ws x = true)
    (hn : ∀ x, bitAt ws x = true → x / 64 ≤ n) :
    bitAt ws (bitsetMaxLoop ws n) = true ∧ ∀ x, bitAt ws x = true → x ≤ bitsetMaxLoop ws n := by
  induction n with
  | zero =>
    obtain ⟨x, hx, hb⟩ := h
    have := hn x hb; omega
  | succ n ih =>
    unfold bitsetMaxLoop
    split
    · rename_i hw
      obtain ⟨h1, h2, h3⟩ := clz_spec hw
      refine ⟨?_, fun x hx => ?_⟩
      · unfold bitAt
        rw [show ((n + 1) * 64 + 63 - clz (wd ws (n + 1))) / 64 = n + 1 by omega,
          show ((n + 1) * 64 + 63 - clz (wd ws (n + 1))) % 64 = 63 - clz (wd ws (n + 1)) by omega]
        exact h2
      · have h4 := hn x hx
        rcases Nat.lt_or_ge (x / 64) (n + 1) with h5 | h5
        · omega
        · have h6 : x / 64 = n + 1 := by omega
          unfold bitAt at hx
          rw [h6] at hx
          have : ¬ 63 - clz (wd ws (n + 1)) < x % 64 := fun h7 => by rw [h3 _ h7] at hx; simp at hx
          omega
    · rename_i hw
      have hw : wd ws (n + 1) = 0#64 := by simpa using hw
      apply ih
      intro x hx
      have h4 := hn x hx
      rcases Nat.lt_or_ge (x / 64) (n + 1) with h5 | h5
      · omega
      · have h6 : x / 64 = n + 1 := by omega
        unfold bitAt at hx
        rw [h6, hw] at hx; simp at hx

theorem bitsetMax_spec {b : Bitset} (h : BitOK b) (hc : 64 < b.card) :
    bitAt b.words (bitsetMax b) = true ∧ ∀ x, bitAt b.words x = true → x ≤ bitsetMax b := by
  unfold bitsetMax NWORDS
  have hl := h.len
  apply bitsetMaxLoop_spec
  · have h1 : card 65536 (bitAt b.words) = card 64 (bitAt b.words) + card 65472 (fun x => bitAt b.words (64 + x)) := by
      rw [← card_add]
    have h2 := card_le 64 (bitAt b.words)
    have h3 := h.card
    have : 0 < card 65472 (fun x => bitAt b.words (64 + x)) := by omega
    obtain ⟨x, _, hx⟩ := card_pos.1 this
    exact ⟨64 + x, by omega, hx⟩
  · intro x hx
    have := bitAt_lt hl hx
    omega

/-! ### First value at or above a bound -/

theorem indexEqualOrLargerLoop_spec (ws : List Word) (hl : ws.length = 1024) (word : Word) (k n : Nat) (hk : k + n = 1023)
    (x : Nat) (hx : x / 64 ≤ k)
    (hword : ∀ i, i < 64 → word.getLsbD i = (bitAt ws (k * 64 + i) && decide (x ≤ k * 64 + i)))
    (hlow : ∀ y, x ≤ y → y < k * 64 → bitAt ws y = false) :
    (indexEqualOrLargerLoop ws word k n = -1 ∧ ∀ y, x ≤ y → bitAt ws y = false) ∨
    ∃ y : Nat, indexEqualOrLargerLoop ws word k n = y ∧ x ≤ y ∧ bitAt ws y = true ∧
      ∀ z, x ≤ z → z < y → bitAt ws z = false := by
  have hzero : word = 0#64 → ∀ y, x ≤ y → y < (k + 1) * 64 → bitAt ws y = false := by
    intro hw y h1 h2
    rcases Nat.lt_or_ge y (k * 64) with h3 | h3
    · exact hlow y h1 h3
    · have := hword (y - k * 64) (by omega)
      rw [hw, show k * 64 + (y - k * 64) = y by omega] at this
      simpa [h1] using this
  have hfound : word ≠ 0#64 → ∃ y : Nat, ((k * 64 + ctz word : Nat) : Int) = y ∧ x ≤ y ∧ bitAt ws y = true ∧
      ∀ z, x ≤ z → z < y → bitAt ws z = false := by
    intro hw
    obtain ⟨h1, h2, h3⟩ := ctz_spec hw
    have h4 := hword _ h1
    rw [h2] at h4
    have h4 := h4.symm
    simp only [Bool.and_eq_true, decide_eq_true_eq] at h4
    refine ⟨k * 64 + ctz word, rfl, h4.2, h4.1, fun z h5 h6 => ?_⟩
    rcases Nat.lt_or_ge z (k * 64) with h7 | h7
    · exact hlow z h5 h7
    · have h8 := hword (z - k * 64) (by omega)
      rw [h3 _ (by omega), show k * 64 + (z - k * 64) = z by omega] at h8
      simpa [h5] using h8.symm
  induction n generalizing word k with
  | zero =>
    unfold indexEqualOrLargerLoop
    split
    · rename_i hw
      left
      refine ⟨rfl, fun y hy => ?_⟩
      rcases Nat.lt_or_ge y ((k + 1) * 64) with h1 | h1
      · exact hzero hw y hy h1
      · exact bitAt_ge (by omega)
    · rename_i hw; right; exact hfound hw
  | succ n ih =>
    unfold indexEqualOrLargerLoop
    split
    · rename_i hw
      have hword' : ∀ i, i < 64 → (wd ws (k + 1)).getLsbD i =
          (bitAt ws ((k + 1) * 64 + i) && decide (x ≤ (k + 1) * 64 + i)) := fun i hi => by
        unfold bitAt
        rw [show ((k + 1) * 64 + i) / 64 = k + 1 by omega, show ((k + 1) * 64 + i) % 64 = i by omega]
        simp; intro _; omega
      have hlow' := hzero hw
      apply ih (wd ws (k + 1)) (k + 1) (by omega) (by omega) hword' hlow'
      · intro hw2 y h1 h2
        rcases Nat.lt_or_ge y ((k + 1) * 64) with h3 | h3
        · exact hlow' y h1 h3
        · have := hword' (y - (k + 1) * 64) (by omega)
          rw [hw2, show (k + 1) * 64 + (y - (k + 1) * 64) = y by omega] at this
          simpa [h1] using this
      · intro hw2
        obtain ⟨h1, h2, h3⟩ := ctz_spec hw2
        have h4 := hword' _ h1
        rw [h2] at h4
        have h4 := h4.symm
        simp only [Bool.and_eq_true, decide_eq_true_eq] at h4
        refine ⟨(k + 1) * 64 + ctz (wd ws (k + 1)), rfl, h4.2, h4.1, fun z h5 h6 => ?_⟩
        rcases Nat.lt_or_ge z ((k + 1) * 64) with h7 | h7
        · exact hlow' z h5 h7
        · have h8 := hword' (z - (k + 1) * 64) (by omega)
          rw [h3 _ (by omega), show (k + 1) * 64 + (z - (k + 1) * 64) = z by omega] at h8
          simpa [h5] using h8.symm
    · rename_i hw; right; exact hfound hw

theorem bitsetIndexEqualOrLarger_spec {b : Bitset} (hl : b.words.length = 1024) {x : Nat} (hx : x < 65536) :
    (bitsetIndexEqualOrLarger b x = -1 ∧ ∀ y, x ≤ y → bitAt b.words y = false) ∨
    ∃ y : Nat, bitsetIndexEqualOrLarger b x = y ∧ x ≤ y ∧ bitAt b.words y = true ∧
      ∀ z, x ≤ z → z < y → bitAt b.words z = false := by
  unfold bitsetIndexEqualOrLarger NWORDS
  apply indexEqualOrLargerLoop_spec _ hl _ _ _ (by omega) _ (by omega)
  · intro i hi
    rw [BitVec.getLsbD_shiftLeft, BitVec.getLsbD_ushiftRight]
    unfold bitAt
    rw [show (x / 64 * 64 + i) / 64 = x / 64 by omega, show (x / 64 * 64 + i) % 64 = i by omega]
    by_cases h : i < x - x / 64 * 64
    · simp [hi, h]; intro _; omega
    · have : x - x / 64 * 64 + (i - (x - x / 64 * 64)) = i := by omega
      rw [this]
      simp [hi, h]; intro _; omega
  · intro y h1 h2; omega

/-! ### Iteration and selection -/

theorem extractWord_shift (w : Word) (base d : Nat) : extractWord w (base + d) = (extractWord w base).map (· + d) := by
  fun_induction extractWord w base with
  | case1 => simp [extractWord]
  | case2 w h ih =>
    rw [extractWord, dif_neg h, ih]
    simp; omega

theorem iterWord_eq {σ : Type} (f : σ → Nat → σ × Bool) (s : σ) (w : Word) (base : Nat) :
    iterWord f s w base = arrayIterate f s base (extractWord w 0) := by
  fun_induction iterWord f s w base with
  | case1 => simp [extractWord, arrayIterate]
  | case2 s w h r hr ih =>
    rw [extractWord, dif_neg h, arrayIterate]
    rw [← xor_isolate_eq h]
    simp only [Nat.add_zero]
    show _ = if r.2 = true then _ else _
    rw [if_pos hr, ih]
  | case3 s w h r hr =>
    rw [extractWord, dif_neg h, arrayIterate]
    simp only [Nat.add_zero]
    show _ = if r.2 = true then _ else _
    rw [if_neg hr]

theorem arrayIterate_congr {σ : Type} (f : σ → Nat → σ × Bool) (s : σ) (b1 b2 : Nat) (l1 l2 : List Nat)
    (h : l1.map (fun v => u32 ((v : Nat) + (b1 : Nat) : Int)) = l2.map (fun v => u32 ((v : Nat) + (b2 : Nat) : Int))) :
    arrayIterate f s b1 l1 = arrayIterate f s b2 l2 := by
  induction l1 generalizing l2 s with
  | nil => cases l2 with
    | nil => rfl
    | cons _ _ => simp at h
  | cons a l1 ih => cases l2 with
    | nil => simp at h
    | cons b l2 =>
      simp only [List.map_cons, List.cons.injEq] at h
      unfold arrayIterate
      rw [h.1]
      simp only
      split
      · exact ih _ _ h.2
      · rfl

theorem bitsetIterate_off {σ : Type} (f : σ → Nat → σ × Bool) (s : σ) (base off : Nat) (ws : List Word) :
    bitsetIterate f s (u32 ((base + off : Nat) : Int)) ws = arrayIterate f s base (extractSetbits ws off) := by
  induction ws generalizing s off with
  | nil => rfl
  | cons w ws ih =>
    rw [bitsetIterate, extractSetbits, arrayIterate_append, iterWord_eq]
    have e : arrayIterate f s (u32 ((base + off : Nat) : Int)) (extractWord w 0) =
        arrayIterate f s base (extractWord w off) := by
      apply arrayIterate_congr
      have := extractWord_shift w 0 off
      rw [Nat.zero_add] at this
      rw [this, List.map_map]
      apply List.map_congr_left
      intro v _
      unfold u32
      simp only [Function.comp]
      omega
    have e2 : u32 (((u32 ((base + off : Nat) : Int) : Nat) : Int) + 64) = u32 ((base + (off + 64) : Nat) : Int) := by
      unfold u32; omega
    rw [e, e2]
    simp only [ih]
    split
    · rfl
    · rename_i h
      generalize arrayIterate f s base (extractWord w off) = q at *
      obtain ⟨a, b⟩ := q
      simp only [Bool.not_eq_true] at h
      simp [h]

theorem bitsetIterate_eq {σ : Type} (f : σ → Nat → σ × Bool) (s : σ) (base : Nat) (hb : base < 4294967296)
    {ws : List Word} (hl : ws.length = 1024) :
    bitsetIterate f s base ws = arrayIterate f s base (enum 65536 (bitAt ws)) := by
  have := bitsetIterate_off f s base 0 ws
  rw [extractSetbits_enum, hl] at this
  rw [← this]
  congr 1
  unfold u32; omega

theorem bitsetToUint32_eq {b : Bitset} (hl : b.words.length = 1024) (base : Nat) :
    bitsetToUint32 b base = (enum 65536 (bitAt b.words)).map (· + base) := by
  have hs : ∀ (ws : List Word) (o : Nat), extractSetbits ws (o + base) = (extractSetbits ws o).map (· + base) := by
    intro ws
    induction ws with
    | nil => intro o; rfl
    | cons w ws ih =>
      intro o
      rw [extractSetbits, extractSetbits, List.map_append, extractWord_shift, ← ih]
      congr 2; omega
  unfold bitsetToUint32
  have := hs b.words 0
  rw [Nat.zero_add] at this
  rw [this, extractSetbits_enum, hl]

theorem extractWord_length (w : Word) (base : Nat) : (extractWord w base).length = popcount w := by
  rw [popcount_eq_card]
  have := extractWord_shift w 0 base
  rw [Nat.zero_add] at this
  rw [this, List.length_map]
  apply sorted_length (extractWord_sorted w 0)
  intro x
  rw [mem_extractWord]
  simp

theorem selectWord_eq (w : Word) (base sr rank : Nat) (hr : sr ≤ rank) (hb : sr + popcount w < 4294967296) :
    selectWord w base sr rank =
      match (extractWord w base)[rank - sr]? with
      | some e => .inl e
      | none => .inr (sr + popcount w) := by
  rw [← extractWord_length w base] at *
  fun_induction selectWord w base sr rank with
  | case1 => simp [extractWord]
  | case2 w h => rw [extractWord, dif_neg h]; simp
  | case3 w sr h hne ih =>
    rw [extractWord, dif_neg h] at hb ⊢
    rw [xor_isolate_eq h] at ih
    have e : u32 ((sr : Int) + 1) = sr + 1 := by
      simp only [List.length_cons] at hb; unfold u32; omega
    simp only [e] at *
    simp only [List.length_cons] at hb
    rw [show rank - sr = (rank - (sr + 1)) + 1 by omega, List.getElem?_cons_succ]
    rw [xor_isolate_eq h, ih (by omega) (by omega)]
    simp only [List.length_cons]
    split <;> simp <;> omega

theorem selectWords_eq (ws : List Word) (i sr rank : Nat) (hr : sr ≤ rank) (hi : i + ws.length ≤ 1024)
    (hb : sr + popAll ws < 4294967296) :
    selectWords i sr rank ws = (extractSetbits ws (i * 64))[rank - sr]? := by
  induction ws generalizing i sr with
  | nil => rfl
  | cons w ws ih =>
    have hp : popAll (w :: ws) = popcount w + popAll ws := by simp [popAll]
    rw [hp] at hb
    simp only [List.length_cons] at hi
    have e : u32 ((sr : Int) + (popcount w : Nat)) = sr + popcount w := by unfold u32; omega
    rw [selectWords, extractSetbits, e, Nat.mod_eq_of_lt (show i * 64 < 65536 by omega)]
    rw [selectWord_eq _ _ _ _ hr (by omega)]
    have hlen := extractWord_length w (i * 64)
    have he2 : i * 64 + 64 = (i + 1) * 64 := by omega
    split
    · rename_i hle
      split
      · rename_i e' he
        have hlt : rank - sr < (extractWord w (i * 64)).length := by
          cases hq : (extractWord w (i * 64))[rank - sr]? with
          | none => rw [hq] at he; simp at he
          | some v => exact (List.getElem?_eq_some_iff.1 hq).1
        rw [List.getElem?_append_left hlt]
        rw [List.getElem?_eq_getElem hlt] at he ⊢
        simp at he; rw [he]
      · rename_i sr' he
        cases hq : (extractWord w (i * 64))[rank - sr]? with
        | some v => rw [hq] at he; simp at he
        | none =>
          rw [hq] at he
          simp only [Sum.inr.injEq] at he
          have hge := List.getElem?_eq_none_iff.1 hq
          rw [List.getElem?_append_right hge, ← he, ih _ _ (by omega) (by omega) (by omega), he2, hlen]
          congr 1; omega
    · rw [List.getElem?_append_right (by omega), ih _ _ (by omega) (by omega) (by omega), he2, hlen]
      congr 1; omega

theorem bitsetSelect_spec {b : Bitset} (h : BitOK b) {sr rank : Nat} (hr : sr ≤ rank)
    (hb : sr + card 65536 (bitAt b.words) < 4294967296) :
    bitsetSelect b sr rank =
      some (match (enum 65536 (bitAt b.words))[rank - sr]? with
        | some e => .inl e
        | none => .inr (sr + card 65536 (bitAt b.words))) := by
  unfold bitsetSelect
  have e : u32 ((sr : Int) + b.card) = sr + card 65536 (bitAt b.words) := by
    have := h.card; unfold u32; omega
  rw [e, selectWords_eq _ _ _ _ hr (by have := h.len; omega) (by rw [popAll_1024 h.len]; omega)]
  have hen := extractSetbits_enum b.words
  rw [h.len] at hen
  rw [Nat.zero_mul, hen]
  have hlen : (enum 65536 (bitAt b.words)).length = card 65536 (bitAt b.words) := rfl
  split
  · rw [List.getElem?_eq_none (by show card 65536 (bitAt b.words) ≤ _; omega)]
  · rw [List.getElem?_eq_getElem (by show _ < card 65536 (bitAt b.words); omega)]; rfl

end CRoaring
