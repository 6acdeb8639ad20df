import Verif.Model.BitsetT
import Verif.Lemmas.Bitset3
/-! Lemmas on the standalone bitset: words, sizes, point operations, counting. -/
set_option linter.unusedSimpArgs false
set_option linter.unusedVariables false

namespace CRoaring
open Spec

/-- Representation invariant of `bitset_t`. -/
structure BSOK (b : BSet) : Prop where
  le : b.size ≤ b.mem.length
  max : b.size ≤ MAXWORDS

/-- The `k`-th word in use. -/
def bword (b : BSet) (k : Nat) : Word := if k < b.size then wd b.mem k else 0#64

theorem maxwords_eq : MAXWORDS = 288230376151711743 := by decide

theorem and_oneBit_ne_zero (w : Word) (i : Nat) (hi : i < 64) : ((w &&& oneBit i) != 0#64) = w.getLsbD i := by
  by_cases h : w.getLsbD i = true
  · rw [h, bne_iff_ne]
    intro h2
    have := word_eq_zero_iff.1 h2 i hi
    rw [BitVec.getLsbD_and, h, oneBit_getLsbD] at this
    simp [hi] at this
  · have h' : w.getLsbD i = false := by simpa using h
    rw [h']
    have : w &&& oneBit i = 0#64 := by
      rw [word_eq_zero_iff]
      intro j hj
      rw [BitVec.getLsbD_and, oneBit_getLsbD]
      by_cases hji : j = i
      · subst hji; simp [h']
      · simp [hji]
    rw [this]; rfl

theorem bsGet_eq (b : BSet) (x : Nat) : bsGet b x = (bword b (x / 64)).getLsbD (x % 64) := by
  unfold bsGet bword
  by_cases h : x / 64 ≥ b.size
  · rw [if_pos h, if_neg (by omega)]; simp
  · rw [if_neg h, if_pos (by omega), and_oneBit_ne_zero _ _ (Nat.mod_lt _ (by decide))]

theorem bsGet_lt {b : BSet} {x : Nat} (h : bsGet b x = true) : x < 64 * b.size := by
  unfold bsGet at h
  by_cases h2 : x / 64 ≥ b.size
  · rw [if_pos h2] at h; cases h
  · omega

theorem bword_bit (b : BSet) (k i : Nat) (hi : i < 64) : (bword b k).getLsbD i = bsGet b (64 * k + i) := by
  rw [bsGet_eq, show (64 * k + i) / 64 = k by omega, show (64 * k + i) % 64 = i by omega]

theorem updWords_length (g : Nat → Word → Word) (ws : List Word) (i n : Nat) :
    (updWords g ws i n).length = ws.length := by
  induction n generalizing ws i with
  | zero => rfl
  | succ n ih => rw [updWords, ih, List.length_set]

theorem wd_updWords (g : Nat → Word → Word) (ws : List Word) (i n j : Nat) (h : i + n ≤ ws.length) :
    wd (updWords g ws i n) j = if i ≤ j ∧ j < i + n then g j (wd ws j) else wd ws j := by
  induction n generalizing ws i with
  | zero => rw [updWords, if_neg (by omega)]
  | succ n ih =>
    rw [updWords, ih _ _ (by rw [List.length_set]; omega), wd_set]
    by_cases hij : i = j
    · subst hij
      rw [if_neg (by omega), if_pos ⟨rfl, by omega⟩, if_pos (by omega)]
    · grind

theorem fillWords_length' (ws : List Word) (v : Word) (i n : Nat) : (fillWords ws v i n).length = ws.length := by
  induction n generalizing ws i with
  | zero => rfl
  | succ n ih => rw [fillWords, ih, List.length_set]

theorem reallocWords_length (junk : Nat → Word) (mem : List Word) (n : Nat) :
    (reallocWords junk mem n).length = n := by
  simp [reallocWords]

theorem wd_realloc (junk : Nat → Word) (mem : List Word) (n j : Nat) (hj : j < mem.length) (hn : mem.length ≤ n) :
    wd (reallocWords junk mem n) j = wd mem j := by
  rw [reallocWords, wd_map_range, if_pos (by omega), if_pos hj]

theorem doubleUntil_ge (cap n : Nat) (h : 0 < cap) : n ≤ doubleUntil cap n ∧ cap ≤ doubleUntil cap n := by
  fun_induction doubleUntil cap n with
  | case1 cap hc ih => have := ih (by omega); omega
  | case2 cap hc => omega

theorem bsResize_spec (junk : Nat → Word) {b : BSet} (h : BSOK b) {n : Nat} (pad : Bool) (hn : n ≤ MAXWORDS) :
    (bsResize junk b n pad).2 = true ∧ BSOK (bsResize junk b n pad).1 ∧ (bsResize junk b n pad).1.size = n ∧
    (∀ k, k < n → k < b.size → wd (bsResize junk b n pad).1.mem k = wd b.mem k) ∧
    (pad = true → ∀ k, k < n → b.size ≤ k → wd (bsResize junk b n pad).1.mem k = 0#64) ∧
    b.mem.length ≤ (bsResize junk b n pad).1.mem.length := by
  unfold bsResize
  rw [if_neg (by omega)]
  have hle := h.le
  generalize hm : (if b.mem.length < n then
        reallocWords junk b.mem (doubleUntil (if b.mem.length = 0 then 1 else b.mem.length) n)
      else b.mem) = mem
  have h1 : n ≤ mem.length ∧ b.mem.length ≤ mem.length ∧ ∀ k, k < b.size → wd mem k = wd b.mem k := by
    by_cases hc : b.mem.length < n
    · rw [if_pos hc] at hm
      have hd := doubleUntil_ge (if b.mem.length = 0 then 1 else b.mem.length) n (by split <;> omega)
      generalize doubleUntil (if b.mem.length = 0 then 1 else b.mem.length) n = d at *
      subst hm
      rw [reallocWords_length]
      refine ⟨by omega, by omega, fun k hk => wd_realloc _ _ _ _ (by omega) (by omega)⟩
    · rw [if_neg hc] at hm; subst hm; exact ⟨by omega, by omega, fun _ _ => rfl⟩
  obtain ⟨h2, h3, h4⟩ := h1
  have hs : (if n < b.size then n else b.size) = min n b.size := by split <;> omega
  simp only [hm]
  rw [hs]
  by_cases hp : pad = true ∧ n > min n b.size
  · rw [if_pos hp]
    have hw := fun k => wd_fillWords mem 0#64 (min n b.size) (n - min n b.size) k (by omega)
    refine ⟨trivial, ⟨by simp only [fillWords_length']; omega, by simp only []; omega⟩, trivial, fun k hk hk2 => ?_, fun _ k hk hk2 => ?_, by
      simp only [fillWords_length']; omega⟩
    · rw [hw, if_neg (by omega), h4 k hk2]
    · rw [hw, if_pos (by omega)]
  · rw [if_neg hp]
    refine ⟨trivial, ⟨h2, hn⟩, trivial, fun k hk hk2 => h4 k hk2, fun hp2 k hk hk2 => ?_, h3⟩
    exact absurd ⟨hp2, by omega⟩ hp

theorem growCap_pos {n : Nat} (h0 : 0 < n) (hn : n ≤ MAXWORDS) :
    0 < ((ones >>> clz (BitVec.ofNat 64 n)) + 1#64).toNat := by
  rw [maxwords_eq] at hn
  have hne : BitVec.ofNat 64 n ≠ 0#64 := by
    intro h
    have := congrArg BitVec.toNat h
    simp only [BitVec.toNat_ofNat] at this
    omega
  have hc : 1 ≤ clz (BitVec.ofNat 64 n) := by
    apply Nat.pos_of_ne_zero
    intro hz
    have := (clz_spec hne).2.1
    rw [hz, BitVec.getLsbD_ofNat] at this
    simp only [Bool.and_eq_true] at this
    have h2 := Nat.testBit_lt_two_pow (x := n) (i := 63 - 0) (by omega)
    rw [h2] at this
    exact absurd this.2 (by decide)
  have h1 : (ones >>> clz (BitVec.ofNat 64 n)).toNat < 2 ^ 63 := by
    rw [BitVec.toNat_ushiftRight, Nat.shiftRight_eq_div_pow]
    have h2 : ones.toNat = 2 ^ 64 - 1 := by decide
    rw [h2]
    have h3 : 2 ^ 1 ≤ 2 ^ clz (BitVec.ofNat 64 n) := Nat.pow_le_pow_right (by decide) hc
    exact Nat.lt_of_le_of_lt (Nat.div_le_div_left h3 (by decide)) (by decide)
  rw [BitVec.toNat_add]
  simp only [BitVec.toNat_ofNat]
  omega

theorem bsGrow_spec (junk : Nat → Word) {b : BSet} (h : BSOK b) {n : Nat} (hn : n ≤ MAXWORDS) (hs : b.size ≤ n) :
    (bsGrow junk b n).2 = true ∧ BSOK (bsGrow junk b n).1 ∧ (bsGrow junk b n).1.size = n ∧
    ∀ k, bword (bsGrow junk b n).1 k = bword b k := by
  unfold bsGrow
  rw [if_neg (by omega), if_neg (by omega)]
  have hle := h.le
  generalize hm : (if b.mem.length < n then
        reallocWords junk b.mem (doubleUntil ((ones >>> clz (BitVec.ofNat 64 n)) + 1#64).toNat n)
      else b.mem) = mem
  have h1 : n ≤ mem.length ∧ b.mem.length ≤ mem.length ∧ ∀ k, k < b.size → wd mem k = wd b.mem k := by
    by_cases hc : b.mem.length < n
    · rw [if_pos hc] at hm
      have hd := doubleUntil_ge _ n (growCap_pos (n := n) (by omega) hn)
      generalize doubleUntil _ n = d at *
      subst hm
      rw [reallocWords_length]
      refine ⟨by omega, by omega, fun k hk => wd_realloc _ _ _ _ (by omega) (by omega)⟩
    · rw [if_neg hc] at hm; subst hm; exact ⟨by omega, by omega, fun _ _ => rfl⟩
  obtain ⟨h2, h3, h4⟩ := h1
  simp only [hm]
  refine ⟨trivial, ⟨by simp only [fillWords_length']; omega, by simp only []; omega⟩, trivial, fun k => ?_⟩
  unfold bword
  simp only []
  rw [wd_fillWords _ _ _ _ _ (by omega)]
  by_cases hk : k < b.size
  · rw [if_pos (by omega), if_neg (by omega), if_pos hk, h4 k hk]
  · by_cases hk2 : k < n
    · rw [if_pos hk2, if_pos (by omega), if_neg hk]
    · rw [if_neg hk2, if_neg hk]

theorem bsGrow_fail (junk : Nat → Word) {b : BSet} {n : Nat} (hn : MAXWORDS < n ∨ n < b.size) :
    bsGrow junk b n = (b, false) := by
  unfold bsGrow
  by_cases h : n < b.size
  · rw [if_pos h]
  · rw [if_neg h, if_pos (by omega)]

/-- The state of the bitset before the store of `bitset_set`. -/
theorem bsGrowIf (junk : Nat → Word) {b : BSet} (h : BSOK b) {k : Nat} (hk : k < MAXWORDS) :
    ∀ g, g = (if k ≥ b.size then bsGrow junk b (k + 1) else (b, true)) →
    g.2 = true ∧ BSOK g.1 ∧ k < g.1.size ∧ g.1.size = max b.size (k + 1) ∧ ∀ j, bword g.1 j = bword b j := by
  intro g hg
  by_cases hc : k ≥ b.size
  · rw [if_pos hc] at hg
    rw [hg]
    obtain ⟨h1, h2, h3, h4⟩ := bsGrow_spec junk h (n := k + 1) (by omega) (by omega)
    exact ⟨h1, h2, by omega, by omega, h4⟩
  · rw [if_neg hc] at hg
    rw [hg]
    exact ⟨rfl, h, by simpa using hc, by simp only []; omega, fun _ => rfl⟩

theorem store_spec {b : BSet} (h : BSOK b) {k : Nat} (hk : k < b.size) (w : Word) :
    BSOK ⟨b.mem.set k w, b.size⟩ ∧ ∀ j, bword ⟨b.mem.set k w, b.size⟩ j = if j = k then w else bword b j := by
  refine ⟨⟨by rw [List.length_set]; exact h.le, h.max⟩, fun j => ?_⟩
  have := h.le
  unfold bword
  simp only []
  rw [wd_set]
  by_cases hj : j = k
  · subst hj; rw [if_pos hk, if_pos ⟨rfl, by omega⟩, if_pos rfl]
  · grind

theorem bsSet_spec (junk : Nat → Word) {b : BSet} (h : BSOK b) {i : Nat} (hi : i / 64 < MAXWORDS) :
    BSOK (bsSet junk b i) ∧ (bsSet junk b i).size = max b.size (i / 64 + 1) ∧
      ∀ x, bsGet (bsSet junk b i) x = Spec.insert (bsGet b) i x := by
  obtain ⟨h1, h2, h3, h4, h5⟩ := bsGrowIf junk h hi _ rfl
  unfold bsSet
  simp only []
  generalize (if i / 64 ≥ b.size then bsGrow junk b (i / 64 + 1) else (b, true)) = g at *
  rw [if_neg (by rw [h1]; decide)]
  obtain ⟨h6, h7⟩ := store_spec h2 h3 (wd g.1.mem (i / 64) ||| oneBit (i % 64))
  refine ⟨h6, h4, fun x => ?_⟩
  rw [bsGet_eq, h7, Spec.insert, bsGet_eq, ← h5]
  by_cases hx : x / 64 = i / 64
  · rw [if_pos hx, hx]
    have : bword g.1 (i / 64) = wd g.1.mem (i / 64) := if_pos h3
    rw [this, BitVec.getLsbD_or, oneBit_getLsbD, Bool.or_comm]
    have h64 : x % 64 < 64 := Nat.mod_lt _ (by decide)
    have : (x == i) = decide (x % 64 = i % 64) := by
      rw [Bool.eq_iff_iff]; simp only [beq_iff_eq, decide_eq_true_eq]; omega
    rw [this]; simp [h64]
  · rw [if_neg hx, beq_eq_false_iff_ne.2 (fun h => hx (by rw [h]))]; simp

theorem bsSetToValue_spec (junk : Nat → Word) {b : BSet} (h : BSOK b) {i : Nat} (v : Bool) (hi : i / 64 < MAXWORDS) :
    BSOK (bsSetToValue junk b i v) ∧ (bsSetToValue junk b i v).size = max b.size (i / 64 + 1) ∧
      ∀ x, bsGet (bsSetToValue junk b i v) x = if x = i then v else bsGet b x := by
  obtain ⟨h1, h2, h3, h4, h5⟩ := bsGrowIf junk h hi _ rfl
  unfold bsSetToValue
  simp only []
  generalize (if i / 64 ≥ b.size then bsGrow junk b (i / 64 + 1) else (b, true)) = g at *
  rw [if_neg (by rw [h1]; decide)]
  obtain ⟨h6, h7⟩ := store_spec h2 h3
    ((wd g.1.mem (i / 64) &&& ~~~oneBit (i % 64)) ||| (if v then 1#64 else 0#64) <<< (i % 64))
  refine ⟨h6, h4, fun x => ?_⟩
  rw [bsGet_eq, h7, bsGet_eq, ← h5]
  have h64 : x % 64 < 64 := Nat.mod_lt _ (by decide)
  by_cases hx : x / 64 = i / 64
  · rw [if_pos hx, hx]
    have : bword g.1 (i / 64) = wd g.1.mem (i / 64) := if_pos h3
    rw [this, BitVec.getLsbD_or, BitVec.getLsbD_and, BitVec.getLsbD_not, oneBit_getLsbD]
    have hv : ((if v then 1#64 else 0#64) <<< (i % 64)).getLsbD (x % 64) = (v && decide (x % 64 = i % 64)) := by
      cases v
      · simp
      · have := oneBit_getLsbD (i % 64) (x % 64)
        rw [oneBit] at this
        simp only [if_pos, this, h64, decide_true, Bool.true_and]
    rw [hv]
    by_cases hxi : x = i
    · subst hxi; simp [h64]
    · have : x % 64 ≠ i % 64 := by omega
      simp [hxi, this, h64]
  · rw [if_neg hx, if_neg (fun h => hx (by rw [h]))]

/-! ### Two bitsets, word by word -/

theorem minLength_eq (b1 b2 : BSet) : minLength b1 b2 = min b1.size b2.size := by
  unfold minLength; split <;> omega

theorem bsCopyTail_spec (junk : Nat → Word) {b1 b2 : BSet} (h1 : BSOK b1) (h2 : BSOK b2) :
    (bsCopyTail junk b1 b2).2 = true ∧ BSOK (bsCopyTail junk b1 b2).1 ∧
      ∀ k, bword (bsCopyTail junk b1 b2).1 k = if k < b1.size then bword b1 k else bword b2 k := by
  unfold bsCopyTail
  by_cases hc : b2.size > b1.size
  · rw [if_pos hc]
    obtain ⟨r1, r2, r3, r4, _, r6⟩ := bsResize_spec junk h1 (n := b2.size) false h2.max
    simp only []
    generalize bsResize junk b1 b2.size false = g at *
    rw [if_neg (by rw [r1]; decide)]
    have hl := r2.le
    refine ⟨rfl, ⟨by simp only [updWords_length]; exact hl, r2.max⟩, fun k => ?_⟩
    unfold bword
    simp only []
    rw [wd_updWords _ _ _ _ _ (by omega), r3]
    by_cases hk : k < b1.size
    · rw [if_pos (by omega), if_neg (by omega), if_pos hk, if_pos hk, r4 k (by omega) hk]
    · rw [if_neg hk]
      by_cases hk2 : k < b2.size
      · rw [if_pos hk2, if_pos (by omega), if_pos hk2]
      · rw [if_neg hk2, if_neg hk2]
  · rw [if_neg hc]
    refine ⟨rfl, h1, fun k => ?_⟩
    unfold bword
    grind

theorem upd_spec (f : Word → Word → Word) {b1 b2 : BSet} (h1 : BSOK b1) :
    BSOK ⟨updWords (fun k w => f w (wd b2.mem k)) b1.mem 0 (minLength b1 b2), b1.size⟩ ∧
    ∀ k, bword ⟨updWords (fun k w => f w (wd b2.mem k)) b1.mem 0 (minLength b1 b2), b1.size⟩ k =
      if k < b1.size ∧ k < b2.size then f (bword b1 k) (bword b2 k) else bword b1 k := by
  have hl := h1.le
  refine ⟨⟨by simp only [updWords_length]; exact hl, h1.max⟩, fun k => ?_⟩
  unfold bword
  simp only []
  rw [minLength_eq, wd_updWords _ _ _ _ _ (by omega)]
  grind

theorem bword_ge {b : BSet} {k : Nat} (h : ¬ k < b.size) : bword b k = 0#64 := if_neg h

theorem bsInplaceUnion_spec (junk : Nat → Word) {b1 b2 : BSet} (h1 : BSOK b1) (h2 : BSOK b2) :
    (bsInplaceUnion junk b1 b2).2 = true ∧ BSOK (bsInplaceUnion junk b1 b2).1 ∧
      ∀ x, bsGet (bsInplaceUnion junk b1 b2).1 x = Spec.union (bsGet b1) (bsGet b2) x := by
  obtain ⟨u1, u2⟩ := upd_spec (b2 := b2) (fun a b => a ||| b) h1
  unfold bsInplaceUnion
  obtain ⟨c1, c2, c3⟩ := bsCopyTail_spec junk u1 h2
  refine ⟨c1, c2, fun x => ?_⟩
  rw [bsGet_eq, c3, u2, Spec.union, bsGet_eq, bsGet_eq]
  by_cases hk : x / 64 < b1.size
  · by_cases hk2 : x / 64 < b2.size
    · simp [hk, hk2]
    · simp [hk, hk2, bword_ge hk2]
  · simp [hk, bword_ge hk]

theorem bsInplaceSymm_spec (junk : Nat → Word) {b1 b2 : BSet} (h1 : BSOK b1) (h2 : BSOK b2) :
    (bsInplaceSymmetricDifference junk b1 b2).2 = true ∧ BSOK (bsInplaceSymmetricDifference junk b1 b2).1 ∧
      ∀ x, bsGet (bsInplaceSymmetricDifference junk b1 b2).1 x = Spec.symm (bsGet b1) (bsGet b2) x := by
  obtain ⟨u1, u2⟩ := upd_spec (b2 := b2) (fun a b => a ^^^ b) h1
  unfold bsInplaceSymmetricDifference
  obtain ⟨c1, c2, c3⟩ := bsCopyTail_spec junk u1 h2
  refine ⟨c1, c2, fun x => ?_⟩
  rw [bsGet_eq, c3, u2, Spec.symm, bsGet_eq, bsGet_eq]
  by_cases hk : x / 64 < b1.size
  · by_cases hk2 : x / 64 < b2.size
    · simp [hk, hk2]
    · simp [hk, hk2, bword_ge hk2]
  · simp [hk, bword_ge hk]

theorem bsInplaceDifference_spec {b1 b2 : BSet} (h1 : BSOK b1) :
    BSOK (bsInplaceDifference b1 b2) ∧ ∀ x, bsGet (bsInplaceDifference b1 b2) x = Spec.diff (bsGet b1) (bsGet b2) x := by
  obtain ⟨u1, u2⟩ := upd_spec (b2 := b2) (fun a b => a &&& ~~~b) h1
  refine ⟨u1, fun x => ?_⟩
  unfold bsInplaceDifference
  have h64 : x % 64 < 64 := Nat.mod_lt _ (by decide)
  rw [bsGet_eq, u2, Spec.diff, bsGet_eq, bsGet_eq]
  by_cases hk : x / 64 < b1.size
  · by_cases hk2 : x / 64 < b2.size
    · simp [hk, hk2, h64]
    · simp [hk, hk2, bword_ge hk2]
  · simp [hk, bword_ge hk]

theorem bsInplaceIntersection_spec {b1 b2 : BSet} (h1 : BSOK b1) :
    BSOK (bsInplaceIntersection b1 b2) ∧
      ∀ x, bsGet (bsInplaceIntersection b1 b2) x = Spec.inter (bsGet b1) (bsGet b2) x := by
  have hl := h1.le
  unfold bsInplaceIntersection
  simp only []
  refine ⟨⟨by simp only [fillWords_length', updWords_length]; exact hl, h1.max⟩, fun x => ?_⟩
  rw [bsGet_eq, Spec.inter, bsGet_eq, bsGet_eq]
  unfold bword
  simp only []
  rw [minLength_eq, wd_fillWords _ _ _ _ _ (by rw [updWords_length]; omega), wd_updWords _ _ _ _ _ (by omega)]
  by_cases hk : x / 64 < b1.size
  · by_cases hk2 : x / 64 < b2.size
    · rw [if_pos hk, if_neg (by omega), if_pos (by omega), if_pos hk, if_pos hk2, BitVec.getLsbD_and]
    · rw [if_pos hk, if_pos (by omega), if_neg hk2]; simp
  · rw [if_neg hk, if_neg hk]; simp

/-! ### Counting -/

/-- `f k + ... + f (k + n - 1)`. -/
def sumN (f : Nat → Nat) (k : Nat) : Nat → Nat
  | 0 => 0
  | n + 1 => sumN f k n + f (k + n)

theorem sumN_add (f : Nat → Nat) (k m n : Nat) : sumN f k (m + n) = sumN f k m + sumN f (k + m) n := by
  induction n with
  | zero => rfl
  | succ n ih => rw [← Nat.add_assoc, sumN, sumN, ih, Nat.add_assoc, Nat.add_assoc k m n]

theorem sumN_congr {f g : Nat → Nat} (k n : Nat) (h : ∀ i, k ≤ i → i < k + n → f i = g i) :
    sumN f k n = sumN g k n := by
  induction n with
  | zero => rfl
  | succ n ih =>
    rw [sumN, sumN, ih (fun i h1 h2 => h i h1 (by omega)), h (k + n) (by omega) (by omega)]

theorem sumN_shift (f : Nat → Nat) (k n : Nat) : sumN f k (n + 1) = f k + sumN f (k + 1) n := by
  rw [Nat.add_comm n 1, sumN_add]; simp [sumN]

theorem unroll1_eq (f : Nat → Nat) (n k acc : Nat) (h : k ≤ n) : unroll1 f n k acc = (n, acc + sumN f k (n - k)) := by
  fun_induction unroll1 f n k acc with
  | case1 k acc hk ih =>
    rw [ih (by omega), show n - k = (n - (k + 1)) + 1 by omega, sumN_shift]
    congr 1; omega
  | case2 k acc hk =>
    have : k = n := by omega
    subst this; simp [sumN]

theorem unroll4_eq (f : Nat → Nat) (n k acc : Nat) (h : k ≤ n) :
    ∃ k', k ≤ k' ∧ k' ≤ n ∧ unroll4 f n k acc = (k', acc + sumN f k (k' - k)) := by
  fun_induction unroll4 f n k acc with
  | case1 k acc hk ih =>
    obtain ⟨k', h1, h2, h3⟩ := ih (by omega)
    refine ⟨k', by omega, h2, ?_⟩
    rw [h3, show k' - k = (k' - (k + 4)) + 1 + 1 + 1 + 1 by omega]
    simp only [sumN_shift, Nat.add_assoc]
  | case2 k acc hk => exact ⟨k, by omega, h, by simp [sumN]⟩

theorem unroll8_eq (f : Nat → Nat) (n k acc : Nat) (h : k ≤ n) :
    ∃ k', k ≤ k' ∧ k' ≤ n ∧ unroll8 f n k acc = (k', acc + sumN f k (k' - k)) := by
  fun_induction unroll8 f n k acc with
  | case1 k acc hk ih =>
    obtain ⟨k', h1, h2, h3⟩ := ih (by omega)
    refine ⟨k', by omega, h2, ?_⟩
    rw [h3, show k' - k = (k' - (k + 8)) + 1 + 1 + 1 + 1 + 1 + 1 + 1 + 1 by omega]
    simp only [sumN_shift, Nat.add_assoc]
  | case2 k acc hk => exact ⟨k, by omega, h, by simp [sumN]⟩

theorem unroll41_eq (f : Nat → Nat) (n k acc : Nat) (h : k ≤ n) :
    unroll1 f n (unroll4 f n k acc).1 (unroll4 f n k acc).2 = (n, acc + sumN f k (n - k)) := by
  obtain ⟨k', h1, h2, h3⟩ := unroll4_eq f n k acc h
  rw [h3, unroll1_eq _ _ _ _ h2, show n - k = (k' - k) + (n - k') by omega, sumN_add, show k + (k' - k) = k' by omega]
  congr 1; simp only []; omega

theorem card_words (n : Nat) (s : NSet) : card (64 * n) s = sumN (fun k => card 64 (fun i => s (64 * k + i))) 0 n := by
  induction n with
  | zero => simp [card, enum, sumN]
  | succ n ih => rw [show 64 * (n + 1) = 64 * n + 64 by omega, card_add, ih, sumN]; simp

theorem card_words_pad {n m : Nat} {s : NSet} (h : ∀ x, s x = true → x < 64 * n) (hm : 64 * n ≤ m) :
    card m s = card (64 * n) s := by
  obtain ⟨d, rfl⟩ : ∃ d, m = 64 * n + d := ⟨m - 64 * n, by omega⟩
  rw [card_add]
  have : card d (fun x => s (64 * n + x)) = 0 := by
    rw [card_eq_zero]
    intro x hx
    cases hs : s (64 * n + x)
    · rfl
    · have := h _ hs; omega
  omega

theorem popcount_word {s : NSet} {w : Word} {k : Nat} (h : ∀ i, i < 64 → w.getLsbD i = s (64 * k + i)) :
    popcount w = card 64 (fun i => s (64 * k + i)) := by
  rw [popcount_eq_card]
  exact card_congr h

theorem bsCount_eq (b : BSet) : bsCount b = card (64 * b.size) (bsGet b) := by
  unfold bsCount
  simp only []
  obtain ⟨k, h1, h2, h3⟩ := unroll8_eq (fun k => popcount (wd b.mem k)) b.size 0 0 (by omega)
  rw [h3, unroll41_eq _ _ _ _ h2, card_words]
  simp only []
  rw [show b.size = (k - 0) + (b.size - k) by omega, sumN_add]
  simp only [Nat.zero_add, Nat.sub_zero]
  have hk : ∀ i, i < b.size → popcount (wd b.mem i) = card 64 (fun j => bsGet b (64 * i + j)) := by
    intro i hi
    apply popcount_word
    intro j hj
    rw [← bword_bit _ _ _ hj, bword, if_pos hi]
  rw [show k + (b.size - k) = b.size by omega]
  congr 1
  · exact sumN_congr _ _ fun i h4 h5 => hk i (by omega)
  · exact sumN_congr _ _ fun i h4 h5 => hk i (by omega)

end CRoaring
