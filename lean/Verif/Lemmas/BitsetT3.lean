import Verif.Lemmas.BitsetT2
import Verif.Lemmas.Query2
/-! Lemmas on the standalone bitset: shifts; conversion of a bitmap. -/
set_option linter.unusedSimpArgs false
set_option linter.unusedVariables false

namespace CRoaring
open Spec

theorem getElem?_wd {ws : List Word} {i : Nat} (h : i < ws.length) : ws[i]? = some (wd ws i) := by
  rw [wd_getElem h, List.getElem?_eq_getElem h]

theorem wordStore_ok {mem : List Word} {i : Nat} (h : i < mem.length) (w : Word) :
    wordStore mem i w = some (mem.set i w) := if_pos h

theorem szSub_eq {a b : Nat} (h : b ≤ a) (ha : a < 18446744073709551616) : szSub a b = a - b := by
  unfold szSub; omega

theorem shlMove_spec (extra n : Nat) (mem : List Word) (h : n + extra ≤ mem.length) :
    ∃ m, shlMove extra n mem = some m ∧ m.length = mem.length ∧
      ∀ j, wd m j = if extra ≤ j ∧ j < n + extra then wd mem (j - extra) else wd mem j := by
  induction n generalizing mem with
  | zero => exact ⟨mem, rfl, rfl, fun j => by rw [if_neg (by omega)]⟩
  | succ n ih =>
    rw [shlMove, getElem?_wd (by omega)]
    simp only []
    rw [wordStore_ok (by omega)]
    simp only []
    obtain ⟨m, e, hl, hw⟩ := ih (mem.set (n + extra) (wd mem n)) (by rw [List.length_set]; omega)
    refine ⟨m, e, by rw [hl, List.length_set], fun j => ?_⟩
    rw [hw, wd_set, wd_set]
    have : n + extra < mem.length := by omega
    by_cases hj : j = n + extra
    · subst hj
      rw [if_neg (by omega), if_pos ⟨rfl, this⟩, if_pos (by omega), Nat.add_sub_cancel]
    · grind

theorem shlLoop_spec (extra sh n : Nat) (mem : List Word) (h : n + extra < mem.length) :
    ∃ m, shlLoop extra sh n mem = some m ∧ m.length = mem.length ∧
      ∀ j, wd m j = if extra + 1 ≤ j ∧ j < n + extra + 1 then
        (wd mem (j - extra) <<< sh) ||| (wd mem (j - extra - 1) >>> (64 - sh)) else wd mem j := by
  induction n generalizing mem with
  | zero => exact ⟨mem, rfl, rfl, fun j => by rw [if_neg (by omega)]⟩
  | succ n ih =>
    rw [shlLoop, getElem?_wd (by omega), getElem?_wd (by omega)]
    simp only []
    rw [wordStore_ok (by omega)]
    simp only []
    obtain ⟨m, e, hl, hw⟩ := ih (mem.set (n + 1 + extra) ((wd mem (n + 1) <<< sh) ||| (wd mem n >>> (64 - sh))))
      (by rw [List.length_set]; omega)
    refine ⟨m, e, by rw [hl, List.length_set], fun j => ?_⟩
    rw [hw, wd_set, wd_set, wd_set]
    have : n + 1 + extra < mem.length := by omega
    by_cases hj : j = n + 1 + extra
    · subst hj
      rw [if_neg (by omega), if_pos ⟨rfl, this⟩, if_pos (by omega), Nat.add_sub_cancel, Nat.add_sub_cancel]
    · grind

theorem shrMove_spec (extra i n : Nat) (mem : List Word) (h : i + n + extra ≤ mem.length) :
    ∃ m, shrMove extra i n mem = some m ∧ m.length = mem.length ∧
      ∀ j, wd m j = if i ≤ j ∧ j < i + n then wd mem (j + extra) else wd mem j := by
  induction n generalizing mem i with
  | zero => exact ⟨mem, rfl, rfl, fun j => by rw [if_neg (by omega)]⟩
  | succ n ih =>
    rw [shrMove, getElem?_wd (by omega)]
    simp only []
    rw [wordStore_ok (by omega)]
    simp only []
    obtain ⟨m, e, hl, hw⟩ := ih (i + 1) (mem.set i (wd mem (i + extra))) (by rw [List.length_set]; omega)
    refine ⟨m, e, by rw [hl, List.length_set], fun j => ?_⟩
    rw [hw, wd_set, wd_set]
    have : i < mem.length := by omega
    by_cases hj : j = i
    · subst hj
      rw [if_neg (by omega), if_pos ⟨rfl, this⟩, if_pos (by omega)]
    · grind

theorem shrLoop_spec (extra sh i n : Nat) (mem : List Word) (h : i + n + extra + 1 ≤ mem.length) :
    ∃ m, shrLoop extra sh i n mem = some m ∧ m.length = mem.length ∧
      ∀ j, wd m j = if i ≤ j ∧ j < i + n then
        (wd mem (j + extra) >>> sh) ||| (wd mem (j + extra + 1) <<< (64 - sh)) else wd mem j := by
  induction n generalizing mem i with
  | zero => exact ⟨mem, rfl, rfl, fun j => by rw [if_neg (by omega)]⟩
  | succ n ih =>
    rw [shrLoop, getElem?_wd (by omega), getElem?_wd (by omega)]
    simp only []
    rw [wordStore_ok (by omega)]
    simp only []
    obtain ⟨m, e, hl, hw⟩ := ih (i + 1)
      (mem.set i ((wd mem (i + extra) >>> sh) ||| (wd mem (i + extra + 1) <<< (64 - sh))))
      (by rw [List.length_set]; omega)
    refine ⟨m, e, by rw [hl, List.length_set], fun j => ?_⟩
    rw [hw, wd_set, wd_set, wd_set]
    have : i < mem.length := by omega
    by_cases hj : j = i
    · subst hj
      rw [if_neg (by omega), if_pos ⟨rfl, this⟩, if_pos (by omega)]
    · grind

/-- The word of a bitset shifted to the left. -/
theorem shl_bit (w1 w0 : Word) (sh i : Nat) (hs0 : 0 < sh) (hs : sh < 64) (hi : i < 64) :
    ((w1 <<< sh) ||| (w0 >>> (64 - sh))).getLsbD i = if sh ≤ i then w1.getLsbD (i - sh) else w0.getLsbD (64 - sh + i) := by
  rw [BitVec.getLsbD_or, BitVec.getLsbD_shiftLeft, BitVec.getLsbD_ushiftRight]
  by_cases h : sh ≤ i
  · rw [if_pos h, getLsbD_ge (w := w0) (by omega)]
    have : ¬ i < sh := by omega
    simp [hi, this]
  · rw [if_neg h]
    have : i < sh := by omega
    simp [this]

theorem shr_bit (w0 w1 : Word) (sh i : Nat) (hs0 : 0 < sh) (hs : sh < 64) (hi : i < 64) :
    ((w0 >>> sh) ||| (w1 <<< (64 - sh))).getLsbD i =
      if i + sh < 64 then w0.getLsbD (i + sh) else w1.getLsbD (i + sh - 64) := by
  rw [BitVec.getLsbD_or, BitVec.getLsbD_shiftLeft, BitVec.getLsbD_ushiftRight]
  by_cases h : i + sh < 64
  · rw [if_pos h]
    have : i < 64 - sh := by omega
    rw [Nat.add_comm sh i]
    simp [this]
  · rw [if_neg h, getLsbD_ge (w := w0) (by omega)]
    have : ¬ i < 64 - sh := by omega
    simp only [Bool.false_or, hi, decide_true, this, decide_false, Bool.not_false, Bool.true_and]
    congr 1
    omega

theorem bsShiftLeft_spec (junk : Nat → Word) {b : BSet} (h : BSOK b) {s : Nat} (hs : b.size + s / 64 + 1 ≤ MAXWORDS)
    (hz : b.size ≠ 0 ∨ s % 64 = 0) :
    ∃ b', bsShiftLeft junk b s = some b' ∧ BSOK b' ∧ ∀ x, bsGet b' x = (decide (s ≤ x) && bsGet b (x - s)) := by
  have hmx := maxwords_eq
  have hle := h.le
  unfold bsShiftLeft
  simp only []
  by_cases h0 : s % 64 = 0
  · rw [if_pos h0]
    obtain ⟨_, r2, r3, r4, _, _⟩ := bsResize_spec junk h (n := b.size + s / 64) false (by omega)
    generalize (bsResize junk b (b.size + s / 64) false).1 = g at *
    have hgl := r2.le
    obtain ⟨m, e, hl, hw⟩ := shlMove_spec (s / 64) b.size g.mem (by omega)
    rw [e]
    simp only []
    rw [shlZero, if_pos (by omega)]
    refine ⟨_, rfl, ⟨by simp only [fillWords_length']; omega, r2.max⟩, fun x => ?_⟩
    rw [bsGet_eq, bword]
    simp only []
    rw [wd_fillWords _ _ _ _ _ (by omega), hw]
    by_cases hx : s ≤ x
    · rw [decide_eq_true hx, Bool.true_and]
      by_cases hx2 : x / 64 < g.size
      · rw [if_pos hx2, if_neg (by omega), if_pos (by omega), r4 _ (by omega) (by omega), bsGet_eq, bword,
          if_pos (by omega), show (x - s) / 64 = x / 64 - s / 64 by omega, show (x - s) % 64 = x % 64 by omega]
      · rw [if_neg hx2]
        cases hg : bsGet b (x - s)
        · simp
        · have := bsGet_lt hg; omega
    · rw [decide_eq_false hx, Bool.false_and, if_pos (by omega : 0 ≤ x / 64 ∧ x / 64 < 0 + s / 64)]
      split <;> simp
  · rw [if_neg h0]
    have hb0 : 0 < b.size := by omega
    obtain ⟨_, r2, r3, r4, _, _⟩ := bsResize_spec junk h (n := b.size + s / 64 + 1) true (by omega)
    generalize (bsResize junk b (b.size + s / 64 + 1) true).1 = g at *
    have hgl := r2.le
    rw [szSub_eq (by omega) (by omega), getElem?_wd (by omega)]
    simp only []
    rw [wordStore_ok (by omega)]
    simp only []
    obtain ⟨m, e, hl, hw⟩ := shlLoop_spec (s / 64) (s % 64) (b.size - 1)
      (g.mem.set (b.size + s / 64) (wd g.mem (b.size - 1) >>> (64 - s % 64))) (by rw [List.length_set]; omega)
    rw [List.length_set] at hl
    rw [e]
    simp only []
    rw [getElem?_wd (by omega)]
    simp only []
    rw [wordStore_ok (by omega)]
    simp only []
    rw [shlZero, if_pos (by rw [List.length_set]; omega)]
    refine ⟨_, rfl, ⟨by simp only [fillWords_length', List.length_set]; omega, r2.max⟩, fun x => ?_⟩
    have hm0 : wd m 0 = wd g.mem 0 := by
      rw [hw, if_neg (by omega), wd_set_ne _ _ _ _ (by omega)]
    rw [bsGet_eq, bword]
    simp only []
    rw [wd_fillWords _ _ _ _ _ (by rw [List.length_set]; omega), wd_set, hm0]
    have hsh : 0 < s % 64 ∧ s % 64 < 64 := by omega
    have hx64 : x % 64 < 64 := Nat.mod_lt _ (by decide)
    by_cases hx2 : x / 64 < g.size
    · rw [if_pos hx2]
      by_cases hx3 : x / 64 < s / 64
      · rw [if_pos (by omega), decide_eq_false (by omega)]; simp
      · rw [if_neg (by omega)]
        by_cases hx4 : s / 64 = x / 64
        · rw [if_pos ⟨hx4, by omega⟩, BitVec.getLsbD_shiftLeft, r4 _ (by omega) (by omega)]
          by_cases hx5 : x % 64 < s % 64
          · rw [decide_eq_false (by omega : ¬ s ≤ x)]; simp [hx5]
          · rw [decide_eq_true (by omega : s ≤ x), bsGet_eq, bword, if_pos (by omega),
              show (x - s) / 64 = 0 by omega, show (x - s) % 64 = x % 64 - s % 64 by omega]
            simp [hx5, hx64]
        · rw [if_neg (fun h => hx4 h.1), decide_eq_true (by omega : s ≤ x), Bool.true_and]
          by_cases hx6 : x / 64 = b.size + s / 64
          · rw [hw, if_neg (by omega), hx6, wd_set_self _ _ _ (by omega), BitVec.getLsbD_ushiftRight,
              r4 _ (by omega) (by omega)]
            by_cases hx5 : x % 64 < s % 64
            · rw [bsGet_eq, bword, if_pos (by omega), show (x - s) / 64 = b.size - 1 by omega,
                show (x - s) % 64 = 64 - s % 64 + x % 64 by omega]
            · rw [getLsbD_ge (by omega)]
              cases hg : bsGet b (x - s)
              · rfl
              · have := bsGet_lt hg; omega
          · rw [hw, if_pos (by omega), wd_set_ne _ _ _ _ (by omega), wd_set_ne _ _ _ _ (by omega),
              shl_bit _ _ _ _ hsh.1 hsh.2 hx64, r4 _ (by omega) (by omega), r4 _ (by omega) (by omega)]
            by_cases hx5 : s % 64 ≤ x % 64
            · rw [if_pos hx5, bsGet_eq, bword, if_pos (by omega), show (x - s) / 64 = x / 64 - s / 64 by omega,
                show (x - s) % 64 = x % 64 - s % 64 by omega]
            · rw [if_neg hx5, bsGet_eq, bword, if_pos (by omega), show (x - s) / 64 = x / 64 - s / 64 - 1 by omega,
                show (x - s) % 64 = 64 - s % 64 + x % 64 by omega]
    · rw [if_neg hx2]
      have : bsGet b (x - s) = false := by
        cases hg : bsGet b (x - s)
        · rfl
        · have := bsGet_lt hg; omega
      rw [this]; simp

theorem bsShiftRight_spec (junk : Nat → Word) {b : BSet} (h : BSOK b) {s : Nat}
    (hs : s / 64 < b.size ∨ (s / 64 = b.size ∧ s % 64 = 0)) :
    ∃ b', bsShiftRight junk b s = some b' ∧ BSOK b' ∧ ∀ x, bsGet b' x = bsGet b (x + s) := by
  have hmx := maxwords_eq
  have hle := h.le
  have hbm := h.max
  unfold bsShiftRight
  simp only []
  by_cases h0 : s % 64 = 0
  · rw [if_pos h0, szSub_eq (by omega) (by omega)]
    obtain ⟨m, e, hl, hw⟩ := shrMove_spec (s / 64) 0 (b.size - s / 64) b.mem (by omega)
    rw [e]
    simp only []
    have hm : BSOK ⟨m, b.size⟩ := ⟨by simp only []; omega, hbm⟩
    obtain ⟨_, r2, r3, r4, _, _⟩ := bsResize_spec junk hm (n := b.size - s / 64) false (by omega)
    generalize (bsResize junk ⟨m, b.size⟩ (b.size - s / 64) false).1 = g at *
    simp only [] at r4
    refine ⟨_, rfl, r2, fun x => ?_⟩
    rw [bsGet_eq, bsGet_eq, bword, bword, show (x + s) / 64 = x / 64 + s / 64 by omega,
      show (x + s) % 64 = x % 64 by omega]
    by_cases hx : x / 64 < g.size
    · rw [if_pos hx, r4 _ (by omega) (by omega), hw, if_pos (by omega), if_pos (by omega)]
    · rw [if_neg hx, if_neg (by omega)]
  · rw [if_neg h0, szSub_eq (a := b.size) (b := s / 64) (by omega) (by omega), szSub_eq (by omega) (by omega),
      szSub_eq (by omega) (by omega)]
    obtain ⟨m, e, hl, hw⟩ := shrLoop_spec (s / 64) (s % 64) 0 (b.size - (s / 64 + 1)) b.mem (by omega)
    rw [e]
    simp only []
    rw [getElem?_wd (by omega)]
    simp only []
    rw [wordStore_ok (by omega)]
    simp only []
    have htop : wd m (b.size - 1) = wd b.mem (b.size - 1) := by
      rw [hw, if_neg (by omega)]
    rw [htop]
    have hm : BSOK ⟨m.set (b.size - s / 64 - 1) (wd b.mem (b.size - 1) >>> (s % 64)), b.size⟩ :=
      ⟨by simp only [List.length_set]; omega, hbm⟩
    obtain ⟨_, r2, r3, r4, _, _⟩ := bsResize_spec junk hm (n := b.size - s / 64) false (by omega)
    generalize (bsResize junk ⟨m.set (b.size - s / 64 - 1) (wd b.mem (b.size - 1) >>> (s % 64)), b.size⟩
      (b.size - s / 64) false).1 = g at *
    simp only [] at r4
    refine ⟨_, rfl, r2, fun x => ?_⟩
    have hsh : 0 < s % 64 ∧ s % 64 < 64 := by omega
    have hx64 : x % 64 < 64 := Nat.mod_lt _ (by decide)
    rw [bsGet_eq, bsGet_eq, bword, bword]
    by_cases hx : x / 64 < g.size
    · rw [if_pos hx, r4 _ (by omega) (by omega), wd_set]
      by_cases hx2 : x / 64 = b.size - s / 64 - 1
      · rw [if_pos ⟨hx2.symm, by omega⟩, BitVec.getLsbD_ushiftRight]
        by_cases hx3 : x % 64 + s % 64 < 64
        · rw [if_pos (by omega), show (x + s) / 64 = b.size - 1 by omega,
            show (x + s) % 64 = s % 64 + x % 64 by omega]
        · rw [if_neg (by omega), getLsbD_ge (by omega)]; simp
      · rw [if_neg (fun h => hx2 h.1.symm), hw, if_pos (by omega), shr_bit _ _ _ _ hsh.1 hsh.2 hx64]
        by_cases hx3 : x % 64 + s % 64 < 64
        · rw [if_pos hx3, if_pos (by omega), show (x + s) / 64 = x / 64 + s / 64 by omega,
            show (x + s) % 64 = x % 64 + s % 64 by omega]
        · rw [if_neg hx3, if_pos (by omega), show (x + s) / 64 = x / 64 + s / 64 + 1 by omega,
            show (x + s) % 64 = x % 64 + s % 64 - 64 by omega]
    · rw [if_neg hx, if_neg (by omega)]; simp

/-! ### Conversion of a bitmap -/

theorem wd_append (a c : List Word) (k : Nat) : wd (a ++ c) k = if k < a.length then wd a k else wd c (k - a.length) := by
  simp only [wd, List.getD_eq_getElem?_getD, List.getElem?_append]
  split <;> rfl

theorem wd_drop (ws : List Word) (n k : Nat) : wd (ws.drop n) k = wd ws (n + k) := by
  simp only [wd, List.getD_eq_getElem?_getD, List.getElem?_drop]

theorem bitAt_drop (ws : List Word) (n x : Nat) : bitAt (ws.drop n) x = bitAt ws (64 * n + x) := by
  rw [bitAt, bitAt, wd_drop, show (64 * n + x) / 64 = n + x / 64 by omega, show (64 * n + x) % 64 = x % 64 by omega]

/-- A change of the words from `off` on. -/
theorem bitAt_splice {mem w' : List Word} {off : Nat} {p : NSet} (h : off ≤ mem.length)
    (hw : ∀ y, bitAt w' y = (p y || bitAt (mem.drop off) y)) (x : Nat) :
    bitAt (mem.take off ++ w') x = ((decide (64 * off ≤ x) && p (x - 64 * off)) || bitAt mem x) := by
  have hlen : (mem.take off).length = off := by rw [List.length_take]; omega
  rw [bitAt, wd_append, hlen]
  by_cases hx : x / 64 < off
  · rw [if_pos hx, wd_take _ _ _ hx, decide_eq_false (by omega)]
    simp [bitAt]
  · rw [if_neg hx, decide_eq_true (by omega), Bool.true_and]
    have := hw (x - 64 * off)
    rw [bitAt_drop, bitAt, show (x - 64 * off) / 64 = x / 64 - off by omega,
      show (x - 64 * off) % 64 = x % 64 by omega, show 64 * off + (x - 64 * off) = x by omega] at this
    exact this

theorem bitsetSetList_length' (ws : List Word) (l : List Nat) : (bitsetSetList ws l).length = ws.length := by
  induction l generalizing ws with
  | nil => rfl
  | cons p l ih => rw [bitsetSetList, ih, List.length_set]

theorem toBitsetStep_spec {N : Nat} {mem : List Word} {k : Nat} {c : Container} (hN : N ≤ mem.length) (hc : CNe c)
    (hb : ∀ v, chas c v = true → 65536 * k + v < 64 * N) (hN2 : N < 18446744073709551616)
    (hz : ∀ x, x < 64 * N → x / 65536 = k → bitAt mem x = false) :
    (toBitsetStep N mem (k, c)).length = mem.length ∧
    ∀ x, x < 64 * N → bitAt (toBitsetStep N mem (k, c)) x = ((k == x / 65536 && chas c (x % 65536)) || bitAt mem x) := by
  obtain ⟨hi, v, hv⟩ := hc
  have hv2 := hb v hv
  have hoff : k <<< 10 = 1024 * k := by rw [Nat.shiftLeft_eq]; omega
  have hlt : v < 65536 := hi.rep.lt hv
  have hkN : 1024 * k ≤ N := by omega
  have key : ∀ x, (decide (64 * (1024 * k) ≤ x) && chas c (x - 64 * (1024 * k))) =
      (k == x / 65536 && chas c (x % 65536)) := by
    intro x
    by_cases hx : k = x / 65536
    · rw [decide_eq_true (by omega), show x - 64 * (1024 * k) = x % 65536 by omega]
      simp [hx]
    · rw [beq_eq_false_iff_ne.2 hx, Bool.false_and]
      by_cases h2 : 64 * (1024 * k) ≤ x
      · rw [decide_eq_true h2, Bool.true_and]
        cases hg : chas c (x - 64 * (1024 * k))
        · rfl
        · have := hi.rep.lt hg
          omega
      · rw [decide_eq_false h2, Bool.false_and]
  cases c with
  | bitset b =>
    unfold toBitsetStep
    simp only [hoff]
    rw [szSub_eq hkN hN2]
    have hm : (if N - 1024 * k > 1024 then 1024 else N - 1024 * k) = min 1024 (N - 1024 * k) := by split <;> omega
    rw [hm]
    refine ⟨updWords_length _ _ _ _, fun x hx => ?_⟩
    rw [← key, bitAt, wd_updWords _ _ _ _ _ (by omega)]
    by_cases hx2 : 1024 * k ≤ x / 64 ∧ x / 64 < 1024 * k + min 1024 (N - 1024 * k)
    · rw [if_pos hx2, decide_eq_true (by omega), hz x hx (by omega), Bool.true_and, Bool.or_false]
      show _ = bitAt b.words _
      rw [bitAt, show (x - 64 * (1024 * k)) / 64 = x / 64 - 1024 * k by omega,
        show (x - 64 * (1024 * k)) % 64 = x % 64 by omega]
    · rw [if_neg hx2]
      show bitAt mem x = _
      by_cases h2 : 64 * (1024 * k) ≤ x
      · rw [decide_eq_true h2, Bool.true_and]
        cases hg : chas (.bitset b) (x - 64 * (1024 * k))
        · rfl
        · have := hi.rep.lt hg
          omega
      · rw [decide_eq_false h2]; simp
  | array l =>
    unfold toBitsetStep
    simp only [hoff]
    have hl : ∀ p ∈ l, p < 64 * (mem.drop (1024 * k)).length := fun p hp => by
      have := hb p (decide_eq_true hp)
      rw [List.length_drop]; omega
    refine ⟨by rw [List.length_append, bitsetSetList_length', List.length_take, List.length_drop]; omega, fun x hx => ?_⟩
    rw [bitAt_splice (p := chas (.array l)) (by omega) (fun y => bitAt_setList _ _ _ hl), key]
  | run rs =>
    unfold toBitsetStep
    simp only [hoff]
    have hl : ∀ r ∈ rs, r.1 + r.2 < 64 * (mem.drop (1024 * k)).length := fun r hr => by
      have := hb (r.1 + r.2) (List.any_eq_true.2 ⟨r, hr, by simp⟩)
      rw [List.length_drop]; omega
    have e : (rs.foldl (fun ws r => bitsetSetLenrange ws r.1 r.2) (mem.drop (1024 * k))) =
      setRuns (mem.drop (1024 * k)) rs := rfl
    rw [e]
    refine ⟨by rw [List.length_append, setRuns_length, List.length_take, List.length_drop]; omega, fun x hx => ?_⟩
    rw [bitAt_splice (p := chas (.run rs)) (by omega) (fun y => bitAt_setRuns _ _ _ hl), key]

theorem toBitset_fold {N : Nat} (r : Bitmap) {mem : List Word} (hN : N ≤ mem.length) (h : BInv r)
    (hb : ∀ v, bhas r v = true → v < 64 * N) (hN2 : N < 18446744073709551616)
    (hz : ∀ x, x < 64 * N → (∃ p ∈ r, p.1 = x / 65536) → bitAt mem x = false) :
    (r.foldl (toBitsetStep N) mem).length = mem.length ∧
    ∀ x, x < 64 * N → bitAt (r.foldl (toBitsetStep N) mem) x = (bhas r x || bitAt mem x) := by
  induction r generalizing mem with
  | nil => exact ⟨rfl, fun x _ => rfl⟩
  | cons p t ih =>
    obtain ⟨k, c⟩ := p
    have hs := toBitsetStep_spec (N := N) (mem := mem) (k := k) (c := c) hN h.2.1 (fun v hv => by
        have hlt := h.2.1.1.rep.lt hv
        apply hb
        rw [bhas_cons, show (65536 * k + v) / 65536 = k by omega, show (65536 * k + v) % 65536 = v by omega, hv]
        simp) hN2 (fun x hx hx2 => hz x hx ⟨_, List.mem_cons_self, hx2.symm⟩)
    have hi := ih (mem := toBitsetStep N mem (k, c)) (by omega) h.2.2.2 (fun v hv => by
        apply hb; rw [bhas_cons, hv, Bool.or_true]) (fun x hx hx2 => by
        obtain ⟨q, hq, hqe⟩ := hx2
        have := h.2.2.1 q hq
        rw [hs.2 x hx, beq_eq_false_iff_ne.2 (by omega), hz x hx ⟨q, List.mem_cons_of_mem _ hq, hqe⟩]; rfl)
    rw [List.foldl_cons]
    refine ⟨hi.1.trans hs.1, fun x hx => ?_⟩
    rw [hi.2 x hx, hs.2 x hx, bhas_cons]
    cases bhas t x <;> simp

theorem rbToBitset_spec (junk : Nat → Word) {r : Bitmap} (h : BInv r) {b : BSet} (hb : BSOK b)
    (he : ∀ x, bsGet b x = false) :
    (rbToBitset junk r b).2 = true ∧ BSOK (rbToBitset junk r b).1 ∧
      ∀ x, bsGet (rbToBitset junk r b).1 x = bhas r x := by
  have hmx := maxwords_eq
  have hmax := rbMaximum_spec h
  have hle : rbMaximum r < 4294967296 := by
    by_cases hr : r = []
    · rw [hmax.1 hr]; decide
    · exact bhas_lt h (hmax.2 hr).1
  have hub : ∀ v, bhas r v = true → v < 64 * (rbMaximum r / 64 + 1) := by
    intro v hv
    have hr : r ≠ [] := by rintro rfl; cases hv
    have := (hmax.2 hr).2 v hv
    omega
  unfold rbToBitset
  simp only []
  generalize hN : rbMaximum r / 64 + 1 = N at *
  obtain ⟨r1, r2, r3, r4, r5, _⟩ := bsResize_spec junk hb (n := N) true (by omega)
  generalize bsResize junk b N true = g at *
  have hgl := r2.le
  rw [if_neg (by rw [r1]; decide)]
  have hzero : ∀ x, x < 64 * N → bitAt g.1.mem x = false := by
    intro x hx
    rw [bitAt]
    by_cases hc : x / 64 < b.size
    · rw [r4 _ (by omega) hc, ← bitAt, ← bsGet_bitAt (b := b) (by omega)]; exact he x
    · rw [r5 rfl _ (by omega) (by omega)]; simp
  obtain ⟨f1, f2⟩ := toBitset_fold (N := N) r (mem := g.1.mem) (by omega) h hub (by omega) (fun x hx _ => hzero x hx)
  refine ⟨rfl, ⟨by simp only []; omega, r2.max⟩, fun x => ?_⟩
  by_cases hx : x < 64 * N
  · rw [bsGet_bitAt (by simp only []; omega)]
    simp only []
    rw [f2 x hx, hzero x hx, Bool.or_false]
  · cases hg : bsGet (⟨r.foldl (toBitsetStep N) g.1.mem, g.1.size⟩ : BSet) x
    · cases hh : bhas r x
      · rfl
      · exact absurd (hub x hh) hx
    · have := bsGet_lt hg
      simp only [] at this
      omega

end CRoaring
