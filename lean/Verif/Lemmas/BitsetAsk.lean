import Verif.Lemmas.BitsetMem5
import Verif.Lemmas.BitsetT2
import Verif.Model.BitsetAsk
import Verif.BitsetAskSpec
set_option linter.unusedSimpArgs false
set_option linter.unusedVariables false
/-
Lemmas about Model/BitsetAsk.lean, for C130: every question on memory is the question on values.
-/
namespace CRoaring
open BitsetHist

theorem sum8M_eq {fM : Nat → Option Nat} {f : Nat → Nat} {n : Nat} (hf : ∀ k, k < n → fM k = some (f k)) (k acc : Nat) :
    sum8M fM n k acc = some (unroll8 f n k acc) := by
  fun_induction unroll8 f n k acc with
  | case1 k acc h ih =>
    rw [sum8M, if_pos h, hf k (by omega), hf (k + 1) (by omega), hf (k + 2) (by omega), hf (k + 3) (by omega), hf (k + 4) (by omega),
      hf (k + 5) (by omega), hf (k + 6) (by omega), hf (k + 7) (by omega)]
    exact ih
  | case2 k acc h => rw [sum8M, if_neg h]

theorem sum4M_eq {fM : Nat → Option Nat} {f : Nat → Nat} {n : Nat} (hf : ∀ k, k < n → fM k = some (f k)) (k acc : Nat) :
    sum4M fM n k acc = some (unroll4 f n k acc) := by
  fun_induction unroll4 f n k acc with
  | case1 k acc h ih =>
    rw [sum4M, if_pos h, hf k (by omega), hf (k + 1) (by omega), hf (k + 2) (by omega), hf (k + 3) (by omega)]
    exact ih
  | case2 k acc h => rw [sum4M, if_neg h]

theorem sum1M_eq {fM : Nat → Option Nat} {f : Nat → Nat} {n : Nat} (hf : ∀ k, k < n → fM k = some (f k)) (k acc : Nat) :
    sum1M fM n k acc = some (unroll1 f n k acc) := by
  fun_induction unroll1 f n k acc with
  | case1 k acc h ih =>
    rw [sum1M, if_pos h, hf k (by omega)]
    exact ih
  | case2 k acc h => rw [sum1M, if_neg h]

theorem askLd {h : BHeap} {a : Option Nat} {ws : List Word} (ha : BArr h a ws) {k : Nat} (hk : k < ws.length) :
    bmLd h a k = some (wd ws k) := by rw [bmLd_get ha, getElem?_wd hk]

theorem popLd_eq {h : BHeap} {a : Option Nat} {ws : List Word} (ha : BArr h a ws) {k : Nat} (hk : k < ws.length) :
    popLd h a k = some (popcount (wd ws k)) := by rw [popLd, askLd ha hk]; rfl

theorem popLd2_eq (f : Word → Word → Word) {h : BHeap} {a1 a2 : Option Nat} {w1 w2 : List Word} (h1 : BArr h a1 w1) (h2 : BArr h a2 w2)
    {k : Nat} (k1 : k < w1.length) (k2 : k < w2.length) :
    popLd2 f h a1 a2 k = some (popcount (f (wd w1 k) (wd w2 k))) := by rw [popLd2, askLd h1 k1, askLd h2 k2]

section
variable {h : BHeap} {p p1 p2 : Nat} {a a1 a2 : Option Nat} {b b1 b2 : BSet}

theorem bmCount_eq (hb : BAt h p a b) (hk : BSOK b) : bmCount h p = some (bsCount b) := by
  have hle := hk.le
  have hf : ∀ k, k < b.size → popLd h a k = some ((fun k => popcount (wd b.mem k)) k) := fun k hk => popLd_eq hb.arr (by omega)
  unfold bmCount bsCount
  rw [bmObj_eq hb]
  simp only []
  rw [sum8M_eq hf]
  simp only []
  rw [sum4M_eq hf]
  simp only []
  rw [sum1M_eq hf]
  rfl

theorem askEmptyLoop {ws : List Word} (ha : BArr h a ws) (k n : Nat) (hl : k + n ≤ ws.length) :
    bmEmptyLoop h a k n = some (zeroWords ws k n) := bmEmptyLoop_eq ha hl

theorem bmEmpty_eq (hb : BAt h p a b) (hk : BSOK b) : bmEmpty h p = some (bsEmpty b) := by
  have hle := hk.le
  unfold bmEmpty bsEmpty
  rw [bmObj_eq hb]
  exact askEmptyLoop hb.arr 0 b.size (by omega)

theorem bmMinLoop_eq {ws : List Word} (ha : BArr h a ws) (k n : Nat) (hl : k + n ≤ ws.length) :
    bmMinLoop h a k n = some (bsMinLoop ws k n) := by
  induction n generalizing k with
  | zero => rfl
  | succ n ih =>
    rw [bmMinLoop, bsMinLoop, askLd ha (by omega)]
    simp only []
    by_cases hw : wd ws k ≠ 0#64
    · rw [if_pos hw, if_pos hw]
    · rw [if_neg hw, if_neg hw, ih (k + 1) (by omega)]

theorem bmMinimum_eq (hb : BAt h p a b) (hk : BSOK b) : bmMinimum h p = some (bsMinimum b) := by
  have hle := hk.le
  unfold bmMinimum bsMinimum
  rw [bmObj_eq hb]
  exact bmMinLoop_eq hb.arr 0 b.size (by omega)

theorem bmMaxLoop_eq {ws : List Word} (ha : BArr h a ws) (n : Nat) (hl : n ≤ ws.length) :
    bmMaxLoop h a n = some (bsMaxLoop ws n) := by
  induction n with
  | zero => rfl
  | succ n ih =>
    rw [bmMaxLoop, bsMaxLoop, askLd ha (by omega)]
    simp only []
    by_cases hw : wd ws n ≠ 0#64
    · rw [if_pos hw, if_pos hw]
    · rw [if_neg hw, if_neg hw, ih (by omega)]

theorem bmMaximum_eq (hb : BAt h p a b) (hk : BSOK b) : bmMaximum h p = some (bsMaximum b) := by
  have hle := hk.le
  unfold bmMaximum bsMaximum
  rw [bmObj_eq hb]
  exact bmMaxLoop_eq hb.arr b.size (by omega)

theorem bmCommonLoop_eq {w1 w2 : List Word} (h1 : BArr h a1 w1) (h2 : BArr h a2 w2) (k n : Nat) (l1 : k + n ≤ w1.length)
    (l2 : k + n ≤ w2.length) : bmCommonLoop h a1 a2 k n = some (commonLoop w1 w2 k n) := by
  induction n generalizing k with
  | zero => rfl
  | succ n ih =>
    rw [bmCommonLoop, commonLoop, askLd h1 (by omega), askLd h2 (by omega)]
    simp only []
    by_cases hw : (wd w1 k &&& wd w2 k) ≠ 0#64
    · rw [if_pos hw, if_pos hw]
    · rw [if_neg hw, if_neg hw, ih (k + 1) (by omega) (by omega)]

theorem minLen_le (b1 b2 : BSet) : minLength b1 b2 ≤ b1.size ∧ minLength b1 b2 ≤ b2.size := by
  unfold minLength
  split <;> omega

theorem bmIntersect_eq (hb1 : BAt h p1 a1 b1) (hk1 : BSOK b1) (hb2 : BAt h p2 a2 b2) (hk2 : BSOK b2) :
    bmIntersect h p1 p2 = some (bsIntersect b1 b2) := by
  have h1 := hk1.le
  have h2 := hk2.le
  have hm := minLen_le b1 b2
  unfold bmIntersect bsIntersect
  rw [bmObj_eq hb1, bmObj_eq hb2]
  exact bmCommonLoop_eq hb1.arr hb2.arr 0 (minLength b1 b2) (by omega) (by omega)

theorem bmDisjoint_eq (hb1 : BAt h p1 a1 b1) (hk1 : BSOK b1) (hb2 : BAt h p2 a2 b2) (hk2 : BSOK b2) :
    bmDisjoint h p1 p2 = some (bsDisjoint b1 b2) := by
  have h1 := hk1.le
  have h2 := hk2.le
  have hm := minLen_le b1 b2
  have e : bmCommonLoop h a1 a2 0 (if b1.size < b2.size then b1.size else b2.size) = _ :=
    bmCommonLoop_eq hb1.arr hb2.arr 0 (minLength b1 b2) (by omega) (by omega)
  unfold bmDisjoint bsDisjoint
  rw [bmObj_eq hb1, bmObj_eq hb2]
  simp only []
  rw [e]
  rfl

theorem bmContainsLoop_eq {w1 w2 : List Word} (h1 : BArr h a1 w1) (h2 : BArr h a2 w2) (k n : Nat) (l1 : k + n ≤ w1.length)
    (l2 : k + n ≤ w2.length) : bmContainsLoop h a1 a2 k n = some (containsLoop w1 w2 k n) := by
  induction n generalizing k with
  | zero => rfl
  | succ n ih =>
    rw [bmContainsLoop, containsLoop, askLd h1 (by omega), askLd h2 (by omega)]
    simp only []
    by_cases hw : (wd w1 k &&& wd w2 k) ≠ wd w2 k
    · rw [if_pos hw, if_pos hw]
    · rw [if_neg hw, if_neg hw, ih (k + 1) (by omega) (by omega)]

theorem bmAnyBitsSet_eq (hb : BAt h p a b) (hk : BSOK b) (start : Nat) :
    bmAnyBitsSet h a b.size start = some (bsAnyBitsSet b start) := by
  have hle := hk.le
  unfold bmAnyBitsSet bsAnyBitsSet
  by_cases hs : start ≥ b.size
  · rw [if_pos hs, if_pos hs]
  · rw [if_neg hs, if_neg hs, askEmptyLoop hb.arr _ _ (by omega)]
    rfl

theorem bmContainsAll_eq (hb1 : BAt h p1 a1 b1) (hk1 : BSOK b1) (hb2 : BAt h p2 a2 b2) (hk2 : BSOK b2) :
    bmContainsAll h p1 p2 = some (bsContainsAll b1 b2) := by
  have h1 := hk1.le
  have h2 := hk2.le
  have hm : (if b1.size > b2.size then b2.size else b1.size) ≤ b1.size ∧ (if b1.size > b2.size then b2.size else b1.size) ≤ b2.size := by
    split <;> omega
  unfold bmContainsAll bsContainsAll
  rw [bmObj_eq hb1, bmObj_eq hb2]
  simp only []
  rw [bmContainsLoop_eq hb1.arr hb2.arr 0 _ (by omega) (by omega)]
  cases containsLoop b1.mem b2.mem 0 (if b1.size > b2.size then b2.size else b1.size) with
  | false => rfl
  | true =>
    simp only []
    by_cases hs : b2.size > b1.size
    · rw [if_pos hs, if_pos hs, bmAnyBitsSet_eq hb2 hk2]
      simp
    · rw [if_neg hs, if_neg hs]
      simp

theorem bigger (b1 b2 : BSet) (a1 a2 : Option Nat) (hb1 : BArr h a1 b1.mem) (hb2 : BArr h a2 b2.mem) (hk1 : BSOK b1) (hk2 : BSOK b2) :
    ∀ k, k < (if b2.size > b1.size then b2.size else b1.size) →
      popLd h (if b2.size > b1.size then a2 else a1) k = some ((fun k => popcount (wd (if b2.size > b1.size then b2 else b1).mem k)) k) := by
  have h1 := hk1.le
  have h2 := hk2.le
  intro k hk
  by_cases hs : b2.size > b1.size
  · simp only [if_pos hs] at hk ⊢
    exact popLd_eq hb2 (by omega)
  · simp only [if_neg hs] at hk ⊢
    exact popLd_eq hb1 (by omega)

theorem bigger_size (b1 b2 : BSet) : (if b2.size > b1.size then b2.size else b1.size) = (if b2.size > b1.size then b2 else b1).size := by
  split <;> rfl

theorem common2 (f : Word → Word → Word) (hb1 : BAt h p1 a1 b1) (hk1 : BSOK b1) (hb2 : BAt h p2 a2 b2) (hk2 : BSOK b2) :
    ∀ k, k < (if b1.size < b2.size then b1.size else b2.size) →
      popLd2 f h a1 a2 k = some ((fun k => popcount (f (wd b1.mem k) (wd b2.mem k))) k) := by
  have h1 := hk1.le
  have h2 := hk2.le
  intro k hk
  have hm := minLen_le b1 b2
  have : k < minLength b1 b2 := hk
  exact popLd2_eq f hb1.arr hb2.arr (by omega) (by omega)

theorem bmUnionCount_eq (hb1 : BAt h p1 a1 b1) (hk1 : BSOK b1) (hb2 : BAt h p2 a2 b2) (hk2 : BSOK b2) :
    bmUnionCount h p1 p2 = some (bsUnionCount b1 b2) := by
  have hf := common2 (fun x y => x ||| y) hb1 hk1 hb2 hk2
  have hg := bigger b1 b2 a1 a2 hb1.arr hb2.arr hk1 hk2
  unfold bmUnionCount bsUnionCount minLength
  rw [bmObj_eq hb1, bmObj_eq hb2]
  simp only []
  rw [sum4M_eq hf]
  simp only []
  rw [sum1M_eq hf]
  simp only []
  rw [sum4M_eq hg]
  simp only []
  rw [sum1M_eq hg, bigger_size]
  rfl

theorem bmIntersectionCount_eq (hb1 : BAt h p1 a1 b1) (hk1 : BSOK b1) (hb2 : BAt h p2 a2 b2) (hk2 : BSOK b2) :
    bmIntersectionCount h p1 p2 = some (bsIntersectionCount b1 b2) := by
  have hf := common2 (fun x y => x &&& y) hb1 hk1 hb2 hk2
  unfold bmIntersectionCount bsIntersectionCount minLength
  rw [bmObj_eq hb1, bmObj_eq hb2]
  simp only []
  rw [sum1M_eq hf]
  rfl

theorem bmDifferenceCount_eq (hb1 : BAt h p1 a1 b1) (hk1 : BSOK b1) (hb2 : BAt h p2 a2 b2) (hk2 : BSOK b2) :
    bmDifferenceCount h p1 p2 = some (bsDifferenceCount b1 b2) := by
  have h1 := hk1.le
  have hf := common2 (fun x y => x &&& ~~~y) hb1 hk1 hb2 hk2
  have hg : ∀ k, k < b1.size → popLd h a1 k = some ((fun k => popcount (wd b1.mem k)) k) := fun k hk => popLd_eq hb1.arr (by omega)
  unfold bmDifferenceCount bsDifferenceCount minLength
  rw [bmObj_eq hb1, bmObj_eq hb2]
  simp only []
  rw [sum1M_eq hf]
  simp only []
  rw [sum1M_eq hg]
  rfl

theorem bmSymmetricDifferenceCount_eq (hb1 : BAt h p1 a1 b1) (hk1 : BSOK b1) (hb2 : BAt h p2 a2 b2) (hk2 : BSOK b2) :
    bmSymmetricDifferenceCount h p1 p2 = some (bsSymmetricDifferenceCount b1 b2) := by
  have hf := common2 (fun x y => x ^^^ y) hb1 hk1 hb2 hk2
  have hg := bigger b1 b2 a1 a2 hb1.arr hb2.arr hk1 hk2
  unfold bmSymmetricDifferenceCount bsSymmetricDifferenceCount minLength
  rw [bmObj_eq hb1, bmObj_eq hb2]
  simp only []
  rw [sum1M_eq hf]
  simp only []
  rw [sum1M_eq hg, bigger_size]
  rfl

theorem bmNextLoop_eq {ws : List Word} (ha : BArr h a ws) (k n : Nat) (hl : k + n ≤ ws.length) :
    bmNextLoop h a k n = some (nextLoop ws k n) := by
  induction n generalizing k with
  | zero => rfl
  | succ n ih =>
    rw [bmNextLoop, nextLoop, askLd ha (by omega)]
    simp only []
    by_cases hw : wd ws k ≠ 0#64
    · rw [if_pos hw, if_pos hw]
    · rw [if_neg hw, if_neg hw, ih (k + 1) (by omega)]

theorem bmNextSetBit_eq (hb : BAt h p a b) (hk : BSOK b) (i : Nat) : bmNextSetBit h p i = some (bsNextSetBit b i) := by
  have hle := hk.le
  unfold bmNextSetBit bsNextSetBit
  rw [bmObj_eq hb]
  simp only []
  by_cases hx : i / 64 ≥ b.size
  · rw [if_pos hx, if_pos hx]
  · rw [if_neg hx, if_neg hx, askLd hb.arr (by omega)]
    simp only []
    by_cases hw : wd b.mem (i / 64) >>> (i % 64) ≠ 0#64
    · rw [if_pos hw, if_pos hw]
    · rw [if_neg hw, if_neg hw, bmNextLoop_eq hb.arr _ _ (by omega)]

theorem bmNextBitsLoop_eq {ws : List Word} (ha : BArr h a ws) (cap m : Nat) (w : Word) (x n : Nat) (hl : x + n + 1 ≤ ws.length) :
    bmNextBitsLoop h a cap m w x n = some (nextBitsLoop ws cap m w x n) := by
  induction n generalizing m w x with
  | zero => rw [bmNextBitsLoop, nextBitsLoop]
  | succ n ih =>
    rw [bmNextBitsLoop, nextBitsLoop]
    by_cases hm : m < cap
    · rw [if_pos hm, if_pos hm]
      simp only []
      by_cases hc : m + (nextBitsWord cap (x * 64) m w).length = cap
      · rw [if_pos hc, if_pos hc]
      · rw [if_neg hc, if_neg hc, askLd ha (by omega)]
        simp only []
        rw [ih _ _ _ (by omega)]
        rfl
    · rw [if_neg hm, if_neg hm]

theorem bmNextSetBits_eq (hb : BAt h p a b) (hk : BSOK b) (cap i : Nat) : bmNextSetBits h p cap i = some (bsNextSetBits b cap i) := by
  have hle := hk.le
  unfold bmNextSetBits bsNextSetBits
  by_cases h0 : cap = 0
  · rw [if_pos h0, if_pos h0]
  · rw [if_neg h0, if_neg h0, bmObj_eq hb]
    simp only []
    by_cases hx : i / 64 ≥ b.size
    · rw [if_pos hx, if_pos hx]
    · rw [if_neg hx, if_neg hx, askLd hb.arr (by omega)]
      simp only []
      rw [bmNextBitsLoop_eq hb.arr _ _ _ _ _ (by omega)]
      rfl

theorem bmForEachLoop_eq {σ : Type} (f : σ → Nat → σ × Bool) {ws : List Word} (ha : BArr h a ws) (s : σ) (i base n : Nat)
    (hl : i + n ≤ ws.length) : bmForEachLoop f h a s i base n = some (forEachLoop f ws s i base n) := by
  induction n generalizing s i base with
  | zero => rfl
  | succ n ih =>
    rw [bmForEachLoop, forEachLoop, askLd ha (by omega)]
    simp only []
    by_cases hr : (forEachWord f s (wd ws i) base).2 = true
    · rw [if_pos hr, if_pos hr, ih _ _ _ (by omega)]
    · rw [if_neg hr, if_neg hr]

theorem bmForEach_eq {σ : Type} (f : σ → Nat → σ × Bool) (hb : BAt h p a b) (hk : BSOK b) (s : σ) :
    bmForEach f h p s = some (bsForEach f b s) := by
  have hle := hk.le
  unfold bmForEach bsForEach
  rw [bmObj_eq hb]
  exact bmForEachLoop_eq f hb.arr s 0 0 b.size (by omega)

end

/-! ## Against the specification -/

theorem members_eq (b : BSet) : (bsBits b).members = Spec.enum (64 * b.size) (bsGet b) := rfl

theorem howMany_eq (n : Nat) (s : NSet) : howMany n s = Spec.card (64 * n) s := rfl

theorem callAll_eq {σ : Type} (f : σ → Nat → σ × Bool) (s : σ) (l : List Nat) : callAll f s l = callUntil f s l := by
  induction l generalizing s with
  | nil => rfl
  | cons v l ih => rw [callAll, callUntil, ih]

theorem above_eq (b : BSet) (i : Nat) : bitsAbove b i = (bsBits b).members.filter fun x => decide (i ≤ x) := by
  rw [members_eq, bitsAbove, Spec.enum, Spec.enum, List.filter_filter]

theorem mem_members {b : BSet} {x : Nat} : x ∈ (bsBits b).members ↔ bsGet b x = true := by
  rw [members_eq, mem_enum]
  exact ⟨fun h => h.2, fun h => ⟨bsGet_lt h, h⟩⟩

end CRoaring
