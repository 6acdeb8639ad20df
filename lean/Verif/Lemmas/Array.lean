import Verif.Model.Array
import Verif.Lemmas.ArrayUtil
import Verif.Lemmas.Bits
set_option linter.unusedSimpArgs false
set_option linter.unusedVariables false

namespace CRoaring
open Spec

/-- Strictly increasing 16-bit values. -/
structure ArrOK (l : List Nat) : Prop where
  sorted : SSorted l
  lt : ∀ x ∈ l, x < 65536

theorem ArrOK.nil : ArrOK [] := ⟨List.Pairwise.nil, by simp⟩

theorem ArrOK.length_le {l : List Nat} (h : ArrOK l) : l.length ≤ 65536 := by
  rw [← sorted_length_ofList h.sorted h.lt]; exact card_le _ _

theorem ArrOK.card {l : List Nat} (h : ArrOK l) : card 65536 (ofList l) = l.length :=
  sorted_length_ofList h.sorted h.lt

theorem ArrOK.filter {l : List Nat} (h : ArrOK l) (p : Nat → Bool) : ArrOK (l.filter p) :=
  ⟨h.sorted.filter p, fun x hx => h.lt x (List.mem_filter.1 hx).1⟩

theorem ArrOK.tail {a : Nat} {l : List Nat} (h : ArrOK (a :: l)) : ArrOK l :=
  ⟨(List.pairwise_cons.1 h.sorted).2, fun x hx => h.lt x (by simp [hx])⟩

theorem ArrOK.take {l : List Nat} (h : ArrOK l) (k : Nat) : ArrOK (l.take k) :=
  ⟨h.sorted.sublist (List.take_sublist k l), fun x hx => h.lt x (List.mem_of_mem_take hx)⟩

theorem ArrOK.drop {l : List Nat} (h : ArrOK l) (k : Nat) : ArrOK (l.drop k) :=
  ⟨h.sorted.sublist (List.drop_sublist k l), fun x hx => h.lt x (List.mem_of_mem_drop hx)⟩

theorem lb_eq_card {l : List Nat} (h : SSorted l) (x : Nat) : lb l x = card x (ofList l) := by
  have : lb l x = (l.take (lb l x)).length := by
    have := lb_le l x
    simp; omega
  rw [this]
  apply sorted_length (h.sublist (List.take_sublist _ _))
  intro y
  rw [mem_take_lb h]
  simp [ofList, and_comm]

theorem rdL_mem {l : List Nat} {i : Nat} (h : i < l.length) : rdL l i ∈ l := by
  rw [rdL_eq h]; exact List.getElem_mem h

/-- Insertion at the lower bound. -/
theorem sorted_insert {l : List Nat} (h : SSorted l) (v : Nat) (hv : v ∉ l) :
    SSorted (l.take (lb l v) ++ v :: l.drop (lb l v)) := by
  refine List.pairwise_append.2 ⟨h.sublist (List.take_sublist _ _), ?_, ?_⟩
  · refine List.pairwise_cons.2 ⟨fun y hy => ?_, h.sublist (List.drop_sublist _ _)⟩
    have := (mem_drop_lb h v y).1 hy
    have : y ≠ v := fun e => hv (e ▸ this.1)
    omega
  · intro a ha b hb
    have h1 := (mem_take_lb h v a).1 ha
    rcases List.mem_cons.1 hb with rfl | hb
    · exact h1.2
    · have := (mem_drop_lb h v b).1 hb
      omega

theorem mem_insert_lb (l : List Nat) (v x k : Nat) :
    x ∈ l.take k ++ v :: l.drop k ↔ x = v ∨ x ∈ l := by
  conv => rhs; rw [← List.take_append_drop k l]
  simp only [List.mem_append, List.mem_cons]
  grind

/-- What `array_container_try_add` does. -/
theorem arrayTryAdd_spec {l : List Nat} (h : SSorted l) (v : Nat) (m : Int) :
    (v ∈ l ∧ arrayTryAdd l v m = (l, 0)) ∨
    (v ∉ l ∧ (l.length : Int) < m ∧ (arrayTryAdd l v m).2 = 1 ∧
      (arrayTryAdd l v m).1 = l.take (lb l v) ++ v :: l.drop (lb l v)) ∨
    (v ∉ l ∧ m ≤ (l.length : Int) ∧ arrayTryAdd l v m = (l, -1)) := by
  unfold arrayTryAdd
  simp only
  split
  · rename_i hc
    right; left
    have hall : ∀ x ∈ l, x < v := by
      rcases hc.1 with h0 | h0
      · have : l = [] := List.eq_nil_of_length_eq_zero h0
        simp [this]
      · intro x hx
        obtain ⟨i, hi, rfl⟩ := List.mem_iff_getElem.1 hx
        rw [← rdL_eq hi]
        rcases Nat.lt_or_ge i (l.length - 1) with h1 | h1
        · exact Nat.lt_trans (rdL_strict h h1 (by omega)) h0
        · have : i = l.length - 1 := by omega
          rw [this]; exact h0
    have hlb : lb l v = l.length := by
      unfold lb
      rw [List.countP_eq_length]
      simpa using hall
    refine ⟨fun hm => Nat.lt_irrefl _ (hall v hm), hc.2, rfl, ?_⟩
    simp [hlb, arrayAppend]
  · rename_i hc
    rw [binarySearch_list h]
    by_cases hm : v ∈ l
    · left
      simp only [hm, if_true]
      refine ⟨trivial, ?_⟩
      rw [if_pos (by omega)]
    · right
      simp only [hm, if_false]
      rw [if_neg (by omega)]
      split
      · left
        rename_i h2
        refine ⟨by simp, h2, rfl, ?_⟩
        rw [show (-(-((lb l v : Int) + 1)) - 1).toNat = lb l v by omega]
      · right
        rename_i h2
        exact ⟨by simp, by omega, rfl⟩

theorem arrayAdd_spec {l : List Nat} (h : ArrOK l) {v : Nat} (hv : v < 65536) :
    ArrOK (arrayAdd l v).1 ∧ (∀ x, x ∈ (arrayAdd l v).1 ↔ x = v ∨ x ∈ l) ∧
      (arrayAdd l v).2 = decide (v ∉ l) ∧
      (arrayAdd l v).1.length = l.length + (if v ∈ l then 0 else 1) := by
  unfold arrayAdd
  simp only
  have hl := h.length_le
  rcases arrayTryAdd_spec h.sorted v INT32_MAX with ⟨h1, h2⟩ | ⟨h1, h2, h3, h4⟩ | ⟨h1, h2, h3⟩
  · rw [h2]
    refine ⟨h, fun x => ⟨Or.inr, ?_⟩, by simp [h1], by simp [h1]⟩
    rintro (rfl | h5)
    · exact h1
    · exact h5
  · rw [h3, h4]
    refine ⟨⟨sorted_insert h.sorted v h1, ?_⟩, fun x => mem_insert_lb l v x _, by simp [h1], ?_⟩
    · intro x hx
      rcases (mem_insert_lb l v x _).1 hx with rfl | hx
      · exact hv
      · exact h.lt x hx
    · have := lb_le l v
      simp [h1]; omega
  · unfold INT32_MAX at h2; omega

theorem arrayRemove_spec {l : List Nat} (h : ArrOK l) (v : Nat) :
    ArrOK (arrayRemove l v).1 ∧ (∀ x, x ∈ (arrayRemove l v).1 ↔ x ≠ v ∧ x ∈ l) ∧
      (arrayRemove l v).2 = decide (v ∈ l) ∧
      (arrayRemove l v).1.length + (if v ∈ l then 1 else 0) = l.length := by
  unfold arrayRemove
  simp only
  rw [binarySearch_list h.sorted]
  by_cases hm : v ∈ l
  · simp only [hm, if_true]
    rw [if_pos (by omega)]
    simp only [Int.toNat_natCast, decide_true, true_and]
    obtain ⟨h1, h2⟩ := (mem_iff_rdL_lb h.sorted v).1 hm
    have h3 : l.drop (lb l v) = v :: l.drop (lb l v + 1) := by
      rw [List.drop_eq_getElem_cons h1, ← rdL_eq h1, h2]
    have hsub : (l.take (lb l v) ++ l.drop (lb l v + 1)).Sublist l := by
      conv => rhs; rw [← List.take_append_drop (lb l v) l, h3]
      exact List.Sublist.append_left (List.sublist_cons_self _ _) _
    refine ⟨⟨h.sorted.sublist hsub, fun x hx => h.lt x (hsub.subset hx)⟩, ?_, ?_⟩
    · intro x
      have hs := h.sorted.sublist hsub
      constructor
      · intro hx
        refine ⟨?_, hsub.subset hx⟩
        rintro rfl
        rcases List.mem_append.1 hx with h4 | h4
        · have := ((mem_take_lb h.sorted x x).1 h4).2; omega
        · have h5 : SSorted (l.drop (lb l x)) := h.sorted.sublist (List.drop_sublist _ _)
          rw [h3] at h5
          have := (List.pairwise_cons.1 h5).1 x h4; omega
      · rintro ⟨h4, h5⟩
        rw [← List.take_append_drop (lb l v) l, h3] at h5
        simp only [List.mem_append, List.mem_cons, h4, false_or] at h5
        exact List.mem_append.2 h5
    · simp; omega
  · simp only [hm, if_false]
    rw [if_neg (by omega)]
    refine ⟨h, fun x => ⟨fun hx => ⟨fun e => hm (e ▸ hx), hx⟩, fun hx => hx.2⟩, by simp, by simp⟩

/-! ### contains -/

theorem arrayContainsScan_spec {rd : Nat → Nat} {len x p : Nat} (h : IsLB rd len x p) (i high : Int)
    (h0 : 0 ≤ i) (h1 : high < len) (h2 : i ≤ p) (h3 : (p : Int) ≤ high + 1)
    (h4 : (p : Int) = high + 1 → p < len → rd p ≠ x) :
    arrayContainsScan rd x i high = decide (p < len ∧ rd p = x) := by
  rw [arrayContainsScan]
  split
  · rename_i hle
    simp only
    have hi : i.toNat < len := by omega
    have := h.lt_iff _ hi
    split
    · rename_i he
      have := h.eq_imp _ hi he
      symm; rw [decide_eq_true_eq]
      exact ⟨by omega, by rw [← this]; exact he⟩
    · rename_i he
      split
      · rename_i hg
        symm; rw [decide_eq_false_iff_not]
        rintro ⟨h5, h6⟩
        have h7 : ¬ (i.toNat < p) := fun hh => by have := this.2 hh; omega
        have h8 : i.toNat = p := by omega
        rw [h8] at he; exact he h6
      · rename_i hg
        have h5 : i.toNat < p := this.1 (by omega)
        exact arrayContainsScan_spec h (i + 1) high (by omega) h1 (by omega) h3 h4
  · rename_i hle
    symm; rw [decide_eq_false_iff_not]
    rintro ⟨h5, h6⟩
    exact h4 (by omega) h5 h6
termination_by (high + 1 - i).toNat
decreasing_by omega

theorem arrayContainsLoop_spec {rd : Nat → Nat} {len x p : Nat} (h : IsLB rd len x p) (low high : Int)
    (h0 : 0 ≤ low) (h1 : high < len) (h2 : low ≤ p) (h3 : (p : Int) ≤ high + 1)
    (h4 : (p : Int) = high + 1 → p < len → rd p ≠ x) :
    arrayContainsLoop rd x low high = decide (p < len ∧ rd p = x) := by
  rw [arrayContainsLoop]
  split
  · rename_i hle
    simp only
    have hi : ((low + high) / 2).toNat < len := by omega
    have hlt := h.lt_iff _ hi
    have heq := h.eq_imp _ hi
    split
    · rename_i hc
      have := hlt.1 hc
      exact arrayContainsLoop_spec h _ _ (by omega) h1 (by omega) h3 h4
    · rename_i hc
      have h5 : ¬ ((low + high) / 2).toNat < p := fun hh => hc (hlt.2 hh)
      split
      · rename_i hg
        refine arrayContainsLoop_spec h _ _ h0 (by omega) h2 (by omega) ?_
        intro h6 h7
        have : ((low + high) / 2).toNat = p := by omega
        rw [this] at hg; omega
      · rename_i hg
        have h6 : rd ((low + high) / 2).toNat = x := by omega
        have := heq h6
        symm; rw [decide_eq_true_eq]
        exact ⟨by omega, by rw [← this]; exact h6⟩
  · exact arrayContainsScan_spec h low high h0 h1 h2 h3 h4
termination_by (high + 1 - low).toNat
decreasing_by all_goals omega

theorem arrayContains_eq {l : List Nat} (h : SSorted l) (x : Nat) : arrayContains l x = decide (x ∈ l) := by
  have hl := lb_le l x
  unfold arrayContains
  rw [arrayContainsLoop_spec (isLB_list h x) _ _ (by omega) (by omega) (by omega) (by omega) (by omega)]
  simp only [mem_iff_rdL_lb h x]

/-! ### Ranges -/

theorem lb_add_le {l : List Nat} (h : SSorted l) (x n : Nat) : lb l (x + n) ≤ lb l x + n := by
  rw [lb_eq_card h, lb_eq_card h, card_add]
  have := card_le n (fun y => ofList l (x + y))
  omega

theorem lb_add_eq {l : List Nat} (h : SSorted l) (x n : Nat) :
    lb l (x + n) = lb l x + n ↔ ∀ y, x ≤ y → y < x + n → y ∈ l := by
  rw [lb_eq_card h, lb_eq_card h, card_add, Nat.add_left_cancel_iff, card_eq_n]
  constructor
  · intro h1 y h2 h3
    have := h1 (y - x) (by omega)
    rw [show x + (y - x) = y by omega] at this
    simpa [ofList] using this
  · intro h1 y hy
    simpa [ofList] using h1 (x + y) (by omega) (by omega)

theorem rdL_lb_mem {l : List Nat} (h : SSorted l) {x : Nat} (hx : x ∈ l) : rdL l (lb l x) = x :=
  ((mem_iff_rdL_lb h x).1 hx).2

theorem lb_rdL {l : List Nat} (h : SSorted l) {i : Nat} (hi : i < l.length) : lb l (rdL l i) = i :=
  ((isLB_list h (rdL l i)).eq_imp i hi rfl).symm

theorem arrayContainsRange_eq {l : List Nat} (h : ArrOK l) (a b : Nat) (hb : b ≤ 65536) :
    arrayContainsRange l a b = true ↔ ∀ x, a ≤ x → x < b → x ∈ l := by
  unfold arrayContainsRange
  simp only
  split
  · simp; intro x h1 h2; omega
  rename_i h0
  have e1 : a % 65536 = a := by omega
  have e2 : (b - 1) % 65536 = b - 1 := by omega
  rw [e1, e2]
  have hcard : (∀ x, a ≤ x → x < b → x ∈ l) → b - a ≤ l.length := by
    intro hall
    have := (lb_add_eq h.sorted a (b - a)).2 (fun y h1 h2 => hall y h1 (by omega))
    have h2 := lb_le l (a + (b - a))
    omega
  split
  · rename_i h1
    constructor
    · simp
    · intro h2; have := hcard h2; omega
  · rename_i h1
    rw [binarySearch_list h.sorted]
    have hlast : ∀ n, a + n < 65536 → (a ∈ l → lb l a + n < l.length → (rdL l (lb l a + n) = a + n ↔ ∀ y, a ≤ y → y ≤ a + n → y ∈ l)) := by
      intro n hn hm hlen
      constructor
      · intro he
        have h5 := lb_rdL h.sorted hlen
        rw [he] at h5
        have h6 := (lb_add_eq h.sorted a n).1 h5
        intro y h7 h8
        rcases Nat.lt_or_ge y (a + n) with h9 | h9
        · exact h6 y h7 h9
        · have : y = a + n := by omega
          rw [this, ← he]; exact rdL_mem hlen
      · intro hall
        have h5 := (lb_add_eq h.sorted a n).2 (fun y h6 h7 => hall y h6 (by omega))
        rw [← h5]; exact rdL_lb_mem h.sorted (hall _ (by omega) (by omega))
    by_cases hm : a ∈ l
    · simp only [hm, if_true, Bool.and_eq_true, decide_eq_true_eq, beq_iff_eq]
      have e3 : ((lb l a : Int) + ((b : Int) - a) - 1).toNat = lb l a + (b - a - 1) := by omega
      rw [e3]
      constructor
      · rintro ⟨⟨h3, h4⟩, h5⟩ x h6 h7
        have := (hlast (b - a - 1) (by omega) hm (by omega)).1 (by omega)
        exact this x h6 (by omega)
      · intro hall
        have h5 := (lb_add_eq h.sorted a (b - a)).2 (fun y h6 h7 => hall y h6 (by omega))
        have h6 := lb_le l (a + (b - a))
        have h7 := (hlast (b - a - 1) (by omega) hm (by omega)).2 (fun y h8 h9 => hall y h8 (by omega))
        omega
    · simp only [hm, if_false]
      constructor
      · intro h3
        simp only [Bool.and_eq_true, decide_eq_true_eq] at h3
        omega
      · intro hall
        exact absurd (hall a (by omega) (by omega)) hm

theorem arrayMin_spec {l : List Nat} (h : ArrOK l) (hne : l ≠ []) :
    arrayMin l ∈ l ∧ ∀ x ∈ l, arrayMin l ≤ x := by
  cases l with
  | nil => exact absurd rfl hne
  | cons a l =>
    simp only [arrayMin, rdL]
    simp
    exact fun x hx => Nat.le_of_lt ((List.pairwise_cons.1 h.sorted).1 x hx)

theorem arrayMax_spec {l : List Nat} (h : ArrOK l) (hne : l ≠ []) :
    arrayMax l ∈ l ∧ ∀ x ∈ l, x ≤ arrayMax l := by
  have hl : 0 < l.length := List.length_pos_iff.2 hne
  unfold arrayMax
  rw [if_neg (by omega)]
  refine ⟨rdL_mem (by omega), fun x hx => ?_⟩
  obtain ⟨i, hi, rfl⟩ := List.mem_iff_getElem.1 hx
  rw [← rdL_eq hi]
  rcases Nat.lt_or_ge i (l.length - 1) with h1 | h1
  · exact Nat.le_of_lt (rdL_strict h.sorted h1 (by omega))
  · have : i = l.length - 1 := by omega
    rw [this]; exact Nat.le_refl _

theorem arrayRank_eq {l : List Nat} (h : SSorted l) (x : Nat) : arrayRank l x = card (x + 1) (ofList l) := by
  unfold arrayRank
  simp only
  rw [binarySearch_list h, card_succ, ← lb_eq_card h]
  by_cases hm : x ∈ l
  · simp only [hm, if_true, ofList, decide_true]; rw [if_pos (by omega)]; omega
  · simp only [hm, if_false, ofList, decide_false, Bool.false_eq_true]; rw [if_neg (by omega)]; omega

theorem arrayGetIndex_eq {l : List Nat} (h : SSorted l) (x : Nat) :
    arrayGetIndex l x = if x ∈ l then (card x (ofList l) : Int) else -1 := by
  unfold arrayGetIndex
  simp only
  rw [binarySearch_list h, ← lb_eq_card h]
  by_cases hm : x ∈ l
  · simp only [hm, if_true]; rw [if_pos (by omega)]
  · simp only [hm, if_false]; rw [if_neg (by omega)]

theorem arrayIndexEqualOrLarger_eq {l : List Nat} (h : SSorted l) (x : Nat) :
    arrayIndexEqualOrLarger l x = if lb l x < l.length then (lb l x : Int) else -1 := by
  unfold arrayIndexEqualOrLarger
  simp only
  rw [binarySearch_list h]
  have h1 := lb_le l x
  have h2 := (mem_iff_rdL_lb h x).1
  by_cases hm : x ∈ l
  · simp only [hm, if_true]; rw [if_pos (by omega), if_pos (h2 hm).1]
  · simp only [hm, if_false]; rw [if_neg (by omega)]
    by_cases h3 : lb l x < l.length
    · rw [if_pos (by omega), if_pos h3]; omega
    · rw [if_neg (by omega), if_neg h3]

theorem arrayRankManyLoop_eq {l : List Nat} (h : SSorted l) (sr hi : Nat) (pos : Nat) (xs : List Nat)
    (hpl : pos ≤ l.length)
    (hpos : ∀ x ∈ xs, x / 65536 = hi → pos ≤ card (x % 65536 + 1) (ofList l))
    (hx : xs.Pairwise (· ≤ ·)) (hb : ∀ x ∈ xs, x < 4294967296) :
    arrayRankManyLoop l sr hi pos xs =
      ((xs.takeWhile (fun x => x / 65536 == hi)).map (fun x => sr + card (x % 65536 + 1) (ofList l)),
        xs.dropWhile (fun x => x / 65536 == hi)) := by
  induction xs generalizing pos with
  | nil => simp [arrayRankManyLoop]
  | cons x xs ih =>
    have hxb := hb x (by simp)
    rw [arrayRankManyLoop, show x / 65536 % 65536 = x / 65536 by omega]
    have hx' := List.pairwise_cons.1 hx
    by_cases he : x / 65536 = hi
    · simp only [he, ne_eq, not_true_eq_false, if_false, List.takeWhile_cons, List.dropWhile_cons, beq_self_eq_true, if_true,
        List.map_cons]
      have hp := hpos x (by simp) he
      have hbs := binarySearch_spec (isLB_drop h (x % 65536) pos hpl)
      have hcs : card (x % 65536 + 1) (ofList l) = lb l (x % 65536) + if x % 65536 ∈ l then 1 else 0 := by
        rw [card_succ, ← lb_eq_card h]; simp [ofList]
      have hlb := lb_le l (x % 65536)
      have hmono : ∀ y ∈ xs, y / 65536 = hi → card (x % 65536 + 1) (ofList l) ≤ card (y % 65536 + 1) (ofList l) := by
        intro y hy hyh
        have := hx'.1 y hy
        exact card_mono_n _ (by omega)
      have hcond : (lb l (x % 65536) - pos < l.length - pos ∧ rdL l (pos + (lb l (x % 65536) - pos)) = x % 65536) ↔
          (x % 65536 ∈ l ∧ pos ≤ lb l (x % 65536)) := by
        constructor
        · rintro ⟨h1, h2⟩
          have hpm : pos ≤ lb l (x % 65536) := by
            rcases Nat.lt_or_ge (lb l (x % 65536)) pos with h3 | h3
            · rw [show pos + (lb l (x % 65536) - pos) = pos by omega] at h2
              have := (isLB_list h (x % 65536)).eq_imp pos (by omega) h2
              omega
            · exact h3
          rw [show pos + (lb l (x % 65536) - pos) = lb l (x % 65536) by omega] at h2
          exact ⟨(mem_iff_rdL_lb h _).2 ⟨by omega, h2⟩, hpm⟩
        · rintro ⟨h1, h2⟩
          have := (mem_iff_rdL_lb h _).1 h1
          rw [show pos + (lb l (x % 65536) - pos) = lb l (x % 65536) by omega]
          exact ⟨by omega, this.2⟩
      simp only [hcond] at hbs
      by_cases hm : x % 65536 ∈ l ∧ pos ≤ lb l (x % 65536)
      · rw [if_pos hm] at hbs
        have hlt := ((mem_iff_rdL_lb h _).1 hm.1).1
        simp only [hm.1, if_true] at hcs
        rw [hbs, if_pos (by omega)]
        rw [ih _ (by omega) (fun y hy hyh => by
            have := hmono y hy hyh
            omega) hx'.2 (fun y hy => hb y (by simp [hy]))]
        simp only [Prod.mk.injEq, List.cons.injEq, and_true]
        omega
      · rw [if_neg hm] at hbs
        rw [hbs, if_neg (by omega)]
        rw [ih _ hpl (fun y hy hyh => by
            have := hmono y hy hyh
            omega) hx'.2 (fun y hy => hb y (by simp [hy]))]
        simp only [Prod.mk.injEq, List.cons.injEq, and_true]
        by_cases hm2 : x % 65536 ∈ l
        · have : ¬ pos ≤ lb l (x % 65536) := fun hh => hm ⟨hm2, hh⟩
          simp only [hm2, if_true] at hcs
          omega
        · simp only [hm2, if_false] at hcs
          omega
    · have hne : (x / 65536 == hi) = false := by simpa using he
      simp only [he, ne_eq, not_false_eq_true, if_true, List.takeWhile_cons, List.dropWhile_cons, hne, Bool.false_eq_true, if_false,
        List.map_nil]

/-! ### Bulk construction -/

theorem range'_map_mod (a n : Nat) (h : a + n ≤ 65536) : (List.range' a n).map (· % 65536) = List.range' a n := by
  conv => rhs; rw [← List.map_id (List.range' a n)]
  apply List.map_congr_left
  intro x hx
  have := List.mem_range'_1.1 hx
  simp only [id]; omega

theorem range'_sorted (a n : Nat) : SSorted (List.range' a n) := List.pairwise_lt_range'

theorem arrayCreateRange_spec (a b : Nat) (h : b ≤ 65536) :
    ArrOK (arrayCreateRange a b) ∧ (∀ x, x ∈ arrayCreateRange a b ↔ a ≤ x ∧ x < b) ∧
      (arrayCreateRange a b).length = b - a := by
  unfold arrayCreateRange
  rcases Nat.lt_or_ge a b with h1 | h1
  · rw [range'_map_mod a (b - a) (by omega)]
    refine ⟨⟨range'_sorted _ _, ?_⟩, ?_, by simp⟩
    · intro x hx; have := List.mem_range'_1.1 hx; omega
    · intro x; rw [List.mem_range'_1]; omega
  · rw [show b - a = 0 by omega]
    refine ⟨⟨by simp [SSorted], by simp⟩, ?_, by simp⟩
    intro x; simp; omega

/-- Adding `[a, b]` between the values below `a` and those above `b`. -/
theorem arrayAddRangeNvals_spec {l : List Nat} (h : ArrOK l) (a b nl ng : Nat) (hab : a ≤ b) (hb : b < 65536)
    (hl : nl = lb l a) (hg : ng = l.length - lb l (b + 1)) :
    ArrOK (arrayAddRangeNvals l a b nl ng) ∧
      (∀ x, x ∈ arrayAddRangeNvals l a b nl ng ↔ (a ≤ x ∧ x ≤ b) ∨ x ∈ l) ∧
      (arrayAddRangeNvals l a b nl ng).length = nl + (b - a + 1) + ng := by
  unfold arrayAddRangeNvals
  rw [range'_map_mod a (b - a + 1) (by omega)]
  have hle := lb_le l (b + 1)
  have hle2 := lb_le l a
  rw [show l.length - ng = lb l (b + 1) by omega, hl]
  have hmem : ∀ x, x ∈ l.take (lb l a) ++ List.range' a (b - a + 1) ++ l.drop (lb l (b + 1)) ↔
      (a ≤ x ∧ x ≤ b) ∨ x ∈ l := by
    intro x
    rw [List.mem_append, List.mem_append, mem_take_lb h.sorted, mem_drop_lb h.sorted, List.mem_range'_1]
    by_cases hx : x ∈ l <;> simp [hx] <;> omega
  refine ⟨⟨?_, ?_⟩, hmem, ?_⟩
  · refine List.pairwise_append.2 ⟨List.pairwise_append.2 ⟨(h.take _).sorted, range'_sorted _ _, ?_⟩, (h.drop _).sorted, ?_⟩
    · intro x hx y hy
      have := (mem_take_lb h.sorted a x).1 hx
      have := List.mem_range'_1.1 hy
      omega
    · intro x hx y hy
      have h2 := (mem_drop_lb h.sorted (b + 1) y).1 hy
      rcases List.mem_append.1 hx with h3 | h3
      · have := (mem_take_lb h.sorted a x).1 h3; omega
      · have := List.mem_range'_1.1 h3; omega
  · intro x hx
    rcases (hmem x).1 hx with h3 | h3
    · omega
    · exact h.lt x h3
  · simp; omega

theorem arrayRemoveRange_spec {l : List Nat} (h : ArrOK l) (a b : Nat) (hab : a ≤ b + 1) :
    ArrOK (arrayRemoveRange l (lb l a) (lb l (b + 1) - lb l a)) ∧
      (∀ x, x ∈ arrayRemoveRange l (lb l a) (lb l (b + 1) - lb l a) ↔ ¬(a ≤ x ∧ x ≤ b) ∧ x ∈ l) ∧
      (arrayRemoveRange l (lb l a) (lb l (b + 1) - lb l a)).length = l.length - (lb l (b + 1) - lb l a) := by
  have hle := lb_le l (b + 1)
  have hmono : lb l a ≤ lb l (b + 1) := lb_mono hab
  have heq : arrayRemoveRange l (lb l a) (lb l (b + 1) - lb l a) = l.take (lb l a) ++ l.drop (lb l (b + 1)) := by
    unfold arrayRemoveRange
    rw [show lb l a + (lb l (b + 1) - lb l a) = lb l (b + 1) by omega]
    split
    · rfl
    · rename_i h1
      rw [show lb l (b + 1) = lb l a by omega, List.take_append_drop]
  rw [heq]
  have hmem : ∀ x, x ∈ l.take (lb l a) ++ l.drop (lb l (b + 1)) ↔ ¬(a ≤ x ∧ x ≤ b) ∧ x ∈ l := by
    intro x
    rw [List.mem_append, mem_take_lb h.sorted, mem_drop_lb h.sorted]
    by_cases hx : x ∈ l <;> simp [hx] <;> omega
  refine ⟨⟨?_, fun x hx => h.lt x ((hmem x).1 hx).2⟩, hmem, by simp; omega⟩
  refine List.pairwise_append.2 ⟨(h.take _).sorted, (h.drop _).sorted, ?_⟩
  intro x hx y hy
  have := (mem_take_lb h.sorted a x).1 hx
  have := (mem_drop_lb h.sorted (b + 1) y).1 hy
  omega

theorem countLess_list {l : List Nat} (h : SSorted l) (x : Nat) : countLess (rdL l) l.length x = lb l x :=
  countLess_spec (isLB_list h x)

theorem countGreater_list {l : List Nat} (h : SSorted l) (x : Nat) :
    countGreater (rdL l) l.length x = (l.length - lb l (x + 1) : Nat) := by
  rw [countGreater_spec (isLB_list h x)]
  have h1 := lb_le l (x + 1)
  have h2 : lb l (x + 1) = lb l x + if x ∈ l then 1 else 0 := by
    rw [lb_eq_card h, lb_eq_card h, card_succ]
    simp [ofList]
  simp only [← mem_iff_rdL_lb h x]
  by_cases hm : x ∈ l <;> simp only [hm, if_true, if_false] at * <;> omega

theorem foldl_arrayAdd_spec (f : Nat → Nat) (l acc : List Nat) (h : ArrOK acc) (hf : ∀ v ∈ l, f v < 65536) :
    ArrOK (l.foldl (fun acc v => (arrayAdd acc (f v)).1) acc) ∧
      ∀ x, x ∈ l.foldl (fun acc v => (arrayAdd acc (f v)).1) acc ↔ (∃ v ∈ l, f v = x) ∨ x ∈ acc := by
  induction l generalizing acc with
  | nil => exact ⟨h, by simp⟩
  | cons a l ih =>
    have h1 := arrayAdd_spec h (hf a (by simp))
    have h2 := ih _ h1.1 (fun v hv => hf v (by simp [hv]))
    refine ⟨h2.1, fun x => ?_⟩
    rw [List.foldl_cons, h2.2, h1.2.1]
    simp only [List.mem_cons, exists_eq_or_imp]
    grind

theorem arrayOffset_spec {l : List Nat} (h : ArrOK l) (off : Nat) (hoff : off < 65536) :
    (∀ c, (arrayOffset l off).1 = some c →
        ArrOK c ∧ c ≠ [] ∧ ∀ x, x ∈ c ↔ x < 65536 ∧ off ≤ x ∧ x - off ∈ l) ∧
    (∀ c, (arrayOffset l off).2 = some c →
        ArrOK c ∧ c ≠ [] ∧ ∀ x, x ∈ c ↔ x < 65536 ∧ off ≤ x + 65536 ∧ x + 65536 - off ∈ l) ∧
    ((arrayOffset l off).1 = none → ∀ x ∈ l, 65536 ≤ x + off) ∧
    ((arrayOffset l off).2 = none → ∀ x ∈ l, x + off < 65536) := by
  unfold arrayOffset
  simp only
  rw [countLess_list h.sorted]
  simp only [Int.toNat_natCast]
  have hle := lb_le l (65536 - off)
  have h1 := foldl_arrayAdd_spec (fun v => (v + off) % 65536) (l.take (lb l (65536 - off))) [] ArrOK.nil (by intros; omega)
  have h2 := foldl_arrayAdd_spec (fun v => (v + off) % 65536) (l.drop (lb l (65536 - off))) [] ArrOK.nil (by intros; omega)
  refine ⟨?_, ?_, ?_, ?_⟩
  · intro c hc
    split at hc
    · rename_i h0
      simp only [Option.some.injEq] at hc
      subst hc
      refine ⟨h1.1, ?_, ?_⟩
      · intro he
        have hpos : 0 < (l.take (lb l (65536 - off))).length := by simp; omega
        obtain ⟨y, hy⟩ := List.exists_mem_of_length_pos hpos
        have := (h1.2 ((y + off) % 65536)).2 (Or.inl ⟨y, hy, rfl⟩)
        rw [he] at this; simp at this
      · intro x
        rw [h1.2]
        simp only [mem_take_lb h.sorted, List.not_mem_nil, or_false]
        constructor
        · rintro ⟨v, ⟨h3, h4⟩, rfl⟩
          have : (v + off) % 65536 - off = v := by omega
          refine ⟨by omega, by omega, by rw [this]; exact h3⟩
        · rintro ⟨h3, h4, h5⟩
          exact ⟨x - off, ⟨h5, by omega⟩, by omega⟩
    · simp at hc
  · intro c hc
    split at hc
    · rename_i h0
      simp only [Option.some.injEq] at hc
      subst hc
      refine ⟨h2.1, ?_, ?_⟩
      · intro he
        have hpos : 0 < (l.drop (lb l (65536 - off))).length := by simp; omega
        obtain ⟨y, hy⟩ := List.exists_mem_of_length_pos hpos
        have := (h2.2 ((y + off) % 65536)).2 (Or.inl ⟨y, hy, rfl⟩)
        rw [he] at this; simp at this
      · intro x
        rw [h2.2]
        simp only [mem_drop_lb h.sorted, List.not_mem_nil, or_false]
        constructor
        · rintro ⟨v, ⟨h3, h4⟩, rfl⟩
          have := h.lt v h3
          have : (v + off) % 65536 + 65536 - off = v := by omega
          refine ⟨by omega, by omega, by rw [this]; exact h3⟩
        · rintro ⟨h3, h4, h5⟩
          have := h.lt _ h5
          exact ⟨x + 65536 - off, ⟨h5, by omega⟩, by omega⟩
    · simp at hc
  · intro hc x hx
    split at hc
    · simp at hc
    · rename_i h0
      have h3 : x ∉ l.take (lb l (65536 - off)) := by simp at h0; simp [h0]
      rw [mem_take_lb h.sorted] at h3
      have : ¬ x < 65536 - off := fun hh => h3 ⟨hx, hh⟩
      omega
  · intro hc x hx
    split at hc
    · simp at hc
    · rename_i h0
      have h3 : x ∉ l.drop (lb l (65536 - off)) := by
        rw [List.drop_eq_nil_of_le (by omega)]; simp
      rw [mem_drop_lb h.sorted] at h3
      have : ¬ 65536 - off ≤ x := fun hh => h3 ⟨hx, hh⟩
      omega

/-! ### Set operations -/

theorem arrayUnion_spec {l1 l2 : List Nat} (h1 : ArrOK l1) (h2 : ArrOK l2) :
    ArrOK (arrayUnion l1 l2) ∧ ∀ x, x ∈ arrayUnion l1 l2 ↔ x ∈ l1 ∨ x ∈ l2 := by
  refine ⟨⟨fastUnionU16_sorted h1.sorted h2.sorted, fun x hx => ?_⟩, mem_fastUnionU16 l1 l2⟩
  rcases (mem_fastUnionU16 _ _ _).1 hx with h | h
  · exact h1.lt x h
  · exact h2.lt x h

theorem arrayAndnot_eq {l1 l2 : List Nat} (h1 : ArrOK l1) (h2 : ArrOK l2) :
    arrayAndnot l1 l2 = l1.filter (fun x => decide (x ∉ l2)) := differenceU16_eq h1.sorted h2.sorted

theorem arrayXor_spec {l1 l2 : List Nat} (h1 : ArrOK l1) (h2 : ArrOK l2) :
    ArrOK (arrayXor l1 l2) ∧ ∀ x, x ∈ arrayXor l1 l2 ↔ ¬(x ∈ l1 ↔ x ∈ l2) := by
  refine ⟨⟨xorU16_sorted h1.sorted h2.sorted, fun x hx => ?_⟩, mem_xorU16 h1.sorted h2.sorted⟩
  rcases mem_xorU16_sub hx with h | h
  · exact h1.lt x h
  · exact h2.lt x h

theorem filter_comm_sorted {l1 l2 : List Nat} (h1 : SSorted l1) (h2 : SSorted l2) :
    l2.filter (fun x => decide (x ∈ l1)) = l1.filter (fun x => decide (x ∈ l2)) := by
  apply sorted_ext (h2.filter _) (h1.filter _)
  intro x
  simp [List.mem_filter, and_comm]

theorem arrayIntersection_eq {l1 l2 : List Nat} (h1 : ArrOK l1) (h2 : ArrOK l2) :
    arrayIntersection l1 l2 = l1.filter (fun x => decide (x ∈ l2)) := by
  unfold arrayIntersection
  split
  · exact intersectSkewed_eq h1.sorted h2.sorted
  · split
    · rw [intersectSkewed_eq h2.sorted h1.sorted, filter_comm_sorted h1.sorted h2.sorted]
    · exact intersectU16_eq h1.sorted h2.sorted

theorem arrayIntersectionCard_eq {l1 l2 : List Nat} (h1 : ArrOK l1) (h2 : ArrOK l2) :
    arrayIntersectionCard l1 l2 = (l1.filter (fun x => decide (x ∈ l2))).length := by
  unfold arrayIntersectionCard
  split
  · exact intersectSkewedCard_eq h1.sorted h2.sorted (by omega)
  · split
    · rw [intersectSkewedCard_eq h2.sorted h1.sorted (by omega), filter_comm_sorted h1.sorted h2.sorted]
    · rw [intersectU16Card_eq, intersectU16_eq h1.sorted h2.sorted]

theorem arrayIntersect_eq {l1 l2 : List Nat} (h1 : ArrOK l1) (h2 : ArrOK l2) :
    arrayIntersect l1 l2 = l1.any (fun x => decide (x ∈ l2)) := by
  unfold arrayIntersect
  split
  · exact intersectSkewedNonempty_eq h1.sorted h2.sorted (by omega)
  · split
    · rw [intersectSkewedNonempty_eq h2.sorted h1.sorted (by omega), Bool.eq_iff_iff]
      simp only [List.any_eq_true, decide_eq_true_eq, and_comm]
    · rw [intersectU16Nonempty_eq, intersectU16_eq h1.sorted h2.sorted, Bool.eq_iff_iff]
      simp [List.any_eq_true]

theorem arrayIncreasing_iff (prev : Nat) (l : List Nat) : arrayIncreasing prev l = true ↔ SSorted (prev :: l) := by
  induction l generalizing prev with
  | nil => simp [arrayIncreasing, SSorted]
  | cons v l ih =>
    rw [arrayIncreasing]
    split
    · rename_i h
      simp only [SSorted, Bool.false_eq_true, List.pairwise_cons, List.mem_cons, false_iff]
      intro hh
      have := hh.1 v (by simp)
      omega
    · rename_i h
      rw [ih]
      constructor
      · intro h1
        refine List.pairwise_cons.2 ⟨fun x hx => ?_, h1⟩
        rcases List.mem_cons.1 hx with rfl | hx
        · omega
        · have := (List.pairwise_cons.1 h1).1 x hx; omega
      · exact fun h1 => (List.pairwise_cons.1 h1).2

theorem arrayValidate_iff (l : List Nat) : arrayValidate l = true ↔ SSorted l ∧ 0 < l.length ∧ l.length ≤ 4096 := by
  unfold arrayValidate DEFAULT_MAX_SIZE
  split
  · rename_i h; simp; omega
  · rename_i h
    cases l with
    | nil => simp
    | cons v l =>
      simp only
      rw [arrayIncreasing_iff]
      simp at h ⊢
      omega

theorem arraySubsetLoop_iff {l1 l2 : List Nat} (h1 : SSorted l1) (h2 : SSorted l2) :
    arraySubsetLoop l1 l2 = true ↔ ∀ x ∈ l1, x ∈ l2 := by
  fun_induction arraySubsetLoop l1 l2 with
  | case1 => simp
  | case2 a as =>
    simp only [Bool.false_eq_true, false_iff]
    intro h; simpa using h a (by simp)
  | case3 a as bs ih =>
    have h1' := List.pairwise_cons.1 h1
    have h2' := List.pairwise_cons.1 h2
    rw [ih h1'.2 h2'.2]
    constructor
    · intro h x hx
      rcases List.mem_cons.1 hx with rfl | hx
      · simp
      · exact List.mem_cons_of_mem _ (h x hx)
    · intro h x hx
      rcases List.mem_cons.1 (h x (List.mem_cons_of_mem _ hx)) with rfl | h3
      · have := h1'.1 _ hx; omega
      · exact h3
  | case4 a as b bs hne hgt ih =>
    have h2' := List.pairwise_cons.1 h2
    rw [ih h1 h2'.2]
    constructor
    · intro h x hx; exact List.mem_cons_of_mem _ (h x hx)
    · intro h x hx
      rcases List.mem_cons.1 (h x hx) with rfl | h3
      · rcases List.mem_cons.1 hx with h4 | h4
        · omega
        · have := (List.pairwise_cons.1 h1).1 _ h4; omega
      · exact h3
  | case5 a as b bs hne hgt =>
    simp only [Bool.false_eq_true, false_iff]
    intro h
    rcases List.mem_cons.1 (h a (by simp)) with h3 | h3
    · exact hne h3
    · have := (List.pairwise_cons.1 h2).1 _ h3; omega

theorem sorted_length_le {l1 l2 : List Nat} (h1 : ArrOK l1) (h2 : ArrOK l2) (h : ∀ x ∈ l1, x ∈ l2) :
    l1.length ≤ l2.length := by
  rw [← h1.card, ← h2.card]
  apply card_mono
  intro x _ hx
  simp only [ofList, decide_eq_true_eq] at *
  exact h x hx

theorem arrayIsSubset_iff {l1 l2 : List Nat} (h1 : ArrOK l1) (h2 : ArrOK l2) :
    arrayIsSubset l1 l2 = true ↔ ∀ x ∈ l1, x ∈ l2 := by
  unfold arrayIsSubset
  split
  · rename_i h
    simp only [Bool.false_eq_true, false_iff]
    intro hh
    have := sorted_length_le h1 h2 hh
    omega
  · exact arraySubsetLoop_iff h1.sorted h2.sorted

theorem arrayEquals_iff {l1 l2 : List Nat} : arrayEquals l1 l2 = true ↔ l1 = l2 := by
  unfold arrayEquals
  split
  · rename_i h; simp; rintro rfl; exact h rfl
  · simp

theorem arrayAddFromRange_spec (l : List Nat) (a b st : Nat) (hst : 0 < st) (hb : b ≤ 65536) (h : ArrOK l)
    (hl : ∀ x ∈ l, x < a) :
    ArrOK (arrayAddFromRange l a b st) ∧
      ∀ x, x ∈ arrayAddFromRange l a b st ↔ x ∈ l ∨ (a ≤ x ∧ x < b ∧ (x - a) % st = 0) := by
  fun_induction arrayAddFromRange l a b st with
  | case1 l a hc ih =>
    have e : a % 65536 = a := by omega
    rw [e] at ih ⊢
    have h1 : ArrOK (arrayAppend l a) := by
      refine ⟨List.pairwise_append.2 ⟨h.sorted, by simp, by simpa using hl⟩, ?_⟩
      intro x hx
      rcases List.mem_append.1 hx with h2 | h2
      · exact h.lt x h2
      · simp at h2; omega
    have h2 := ih h1 (fun x hx => by
      rcases List.mem_append.1 hx with h2 | h2
      · have := hl x h2; omega
      · simp at h2; omega)
    refine ⟨h2.1, fun x => ?_⟩
    rw [h2.2]
    simp only [arrayAppend, List.mem_append, List.mem_singleton]
    constructor
    · rintro ((h3 | h3) | h3)
      · exact Or.inl h3
      · subst h3; right; exact ⟨by omega, by omega, by simp⟩
      · right
        refine ⟨by omega, h3.2.1, ?_⟩
        rw [show x - a = (x - (a + st)) + st by omega, Nat.add_mod_right]; exact h3.2.2
    · rintro (h3 | h3)
      · exact Or.inl (Or.inl h3)
      · rcases Nat.lt_or_ge x (a + st) with h4 | h4
        · left; right
          rw [Nat.mod_eq_of_lt (by omega)] at h3; omega
        · right
          refine ⟨h4, h3.2.1, ?_⟩
          rw [show x - a = (x - (a + st)) + st by omega, Nat.add_mod_right] at h3; exact h3.2.2
  | case2 l a hc =>
    refine ⟨h, fun x => ⟨Or.inl, ?_⟩⟩
    rintro (h3 | h3)
    · exact h3
    · omega

end CRoaring
