import Verif.Model.ArrayUtil
import Verif.Lemmas.Count

namespace CRoaring
open Spec

/-- `p` is the least position whose cell is at least `x`. -/
structure IsLB (rd : Nat → Nat) (len x p : Nat) : Prop where
  le : p ≤ len
  lt_iff : ∀ i, i < len → (rd i < x ↔ i < p)
  eq_imp : ∀ i, i < len → rd i = x → i = p

/-- Number of values below `x`: the insertion point in a sorted list. -/
def lb (l : List Nat) (x : Nat) : Nat := l.countP (· < x)

theorem lb_le (l : List Nat) (x : Nat) : lb l x ≤ l.length := List.countP_le_length

theorem lb_cons_lt {a x : Nat} {l : List Nat} (h : a < x) : lb (a :: l) x = lb l x + 1 := by
  simp [lb, h]

theorem lb_cons_ge {a x : Nat} {l : List Nat} (hs : SSorted (a :: l)) (h : x ≤ a) :
    lb (a :: l) x = 0 := by
  rw [lb, List.countP_eq_zero]
  intro b hb
  rcases List.mem_cons.1 hb with rfl | hb
  · simp; omega
  · have := (List.pairwise_cons.1 hs).1 b hb
    simp; omega

theorem rdL_eq {l : List Nat} {i : Nat} (h : i < l.length) : rdL l i = l[i] := by
  simp [rdL, List.getD, h]

theorem rdL_lt_iff {l : List Nat} (hs : SSorted l) (x : Nat) {i : Nat} (hi : i < l.length) :
    rdL l i < x ↔ i < lb l x := by
  induction l generalizing i with
  | nil => simp at hi
  | cons a l ih =>
    by_cases ha : a < x
    · rw [lb_cons_lt ha]
      cases i with
      | zero => simp [rdL, ha]
      | succ i =>
        have := ih (List.pairwise_cons.1 hs).2 (i := i) (by simpa using hi)
        simp only [rdL, List.getD_cons_succ] at *
        rw [this]; omega
    · rw [lb_cons_ge hs (by omega)]
      have h1 : a ≤ rdL (a :: l) i := by
        rw [rdL_eq hi]
        cases i with
        | zero => simp
        | succ i =>
          have := (List.pairwise_cons.1 hs).1 _ (List.getElem_mem (by simpa using hi : i < l.length))
          simp; omega
      omega

theorem rdL_strict {l : List Nat} (hs : SSorted l) {i j : Nat} (hij : i < j) (hj : j < l.length) :
    rdL l i < rdL l j := by
  rw [rdL_eq (by omega), rdL_eq hj]
  exact List.pairwise_iff_getElem.1 hs i j (by omega) hj hij

theorem isLB_list {l : List Nat} (hs : SSorted l) (x : Nat) : IsLB (rdL l) l.length x (lb l x) where
  le := lb_le l x
  lt_iff := fun i hi => rdL_lt_iff hs x hi
  eq_imp := fun i hi h => by
    have h1 := rdL_lt_iff hs x hi
    rcases Nat.lt_trichotomy i (lb l x) with h2 | h2 | h2
    · have := h1.2 h2; omega
    · exact h2
    · have h3 := rdL_strict hs h2 hi
      have h4 := rdL_lt_iff hs x (i := lb l x) (by omega)
      omega

theorem mem_iff_rdL_lb {l : List Nat} (hs : SSorted l) (x : Nat) :
    x ∈ l ↔ lb l x < l.length ∧ rdL l (lb l x) = x := by
  constructor
  · intro h
    obtain ⟨i, hi, rfl⟩ := List.mem_iff_getElem.1 h
    have := (isLB_list hs l[i]).eq_imp i hi (rdL_eq hi)
    rw [← this]; exact ⟨hi, rdL_eq hi⟩
  · rintro ⟨h1, h2⟩
    rw [rdL_eq h1] at h2
    rw [← h2]; exact List.getElem_mem _

/-- The insertion point splits a sorted list. -/
theorem mem_take_lb {l : List Nat} (hs : SSorted l) (x y : Nat) :
    y ∈ l.take (lb l x) ↔ y ∈ l ∧ y < x := by
  induction l with
  | nil => simp
  | cons a l ih =>
    have hs' := List.pairwise_cons.1 hs
    by_cases ha : a < x
    · rw [lb_cons_lt ha, List.take_succ_cons, List.mem_cons, List.mem_cons, ih hs'.2]
      constructor
      · rintro (h | h)
        · subst h; exact ⟨Or.inl rfl, ha⟩
        · exact ⟨Or.inr h.1, h.2⟩
      · rintro ⟨h | h, h2⟩
        · exact Or.inl h
        · exact Or.inr ⟨h, h2⟩
    · rw [lb_cons_ge hs (by omega)]
      simp only [List.take_zero, List.not_mem_nil, false_iff, not_and, List.mem_cons]
      rintro (h | h)
      · omega
      · have := hs'.1 y h; omega

theorem mem_drop_lb {l : List Nat} (hs : SSorted l) (x y : Nat) :
    y ∈ l.drop (lb l x) ↔ y ∈ l ∧ x ≤ y := by
  induction l with
  | nil => simp
  | cons a l ih =>
    have hs' := List.pairwise_cons.1 hs
    by_cases ha : a < x
    · rw [lb_cons_lt ha, List.drop_succ_cons, List.mem_cons, ih hs'.2]
      constructor
      · rintro h
        exact ⟨Or.inr h.1, h.2⟩
      · rintro ⟨h | h, h2⟩
        · omega
        · exact ⟨h, h2⟩
    · rw [lb_cons_ge hs (by omega)]
      simp only [List.drop_zero, List.mem_cons]
      constructor
      · rintro (h | h)
        · exact ⟨Or.inl h, by omega⟩
        · have := hs'.1 y h; exact ⟨Or.inr h, by omega⟩
      · exact fun h => h.1

theorem lb_drop {l : List Nat} (hs : SSorted l) (x k : Nat) :
    lb (l.drop k) x = lb l x - k := by
  induction l generalizing k with
  | nil => simp [lb]
  | cons a l ih =>
    cases k with
    | zero => simp
    | succ k =>
      have hs' := List.pairwise_cons.1 hs
      rw [List.drop_succ_cons, ih hs'.2]
      by_cases ha : a < x
      · rw [lb_cons_lt ha]; omega
      · rw [lb_cons_ge hs (by omega)]
        have : lb l x = 0 := by
          rw [lb, List.countP_eq_zero]
          intro b hb
          have := hs'.1 b hb
          simp; omega
        omega

theorem rdL_drop (l : List Nat) (k i : Nat) : rdL (l.drop k) i = rdL l (k + i) := by
  simp [rdL, List.getD, List.getElem?_drop]

/-! ### Searches -/

theorem binarySearchLoop_spec {rd : Nat → Nat} {len x p : Nat} (h : IsLB rd len x p)
    (low high : Int) (h0 : 0 ≤ low) (h1 : high < len) (h2 : low ≤ p) (h3 : (p : Int) ≤ high + 1)
    (h4 : (p : Int) = high + 1 → p < len → rd p ≠ x) :
    binarySearchLoop rd x low high = if p < len ∧ rd p = x then (p : Int) else -((p : Int) + 1) := by
  rw [binarySearchLoop]
  split
  · rename_i hle
    have hm : ((low + high) / 2).toNat < len := by omega
    have hlt := h.lt_iff _ hm
    have heq := h.eq_imp _ hm
    simp only
    split
    · rename_i h5
      exact binarySearchLoop_spec h _ _ (by omega) h1 (by omega) h3 h4
    · split
      · rename_i h5 h6
        refine binarySearchLoop_spec h _ _ h0 (by omega) h2 (by omega) ?_
        intro h7 h8
        have : ((low + high) / 2).toNat = p := by omega
        rw [this] at h6; omega
      · have he : rd ((low + high) / 2).toNat = x := by omega
        have := heq he
        rw [if_pos ⟨by omega, by rw [← this]; exact he⟩]
        omega
  · have hp : (p : Int) = low := by omega
    rw [if_neg]
    · omega
    · rintro ⟨h5, h6⟩
      exact h4 (by omega) h5 h6
termination_by (high + 1 - low).toNat
decreasing_by all_goals omega

theorem binarySearch_spec {rd : Nat → Nat} {len x p : Nat} (h : IsLB rd len x p) :
    binarySearch rd len x = if p < len ∧ rd p = x then (p : Int) else -((p : Int) + 1) := by
  have := h.le
  exact binarySearchLoop_spec h 0 _ (by omega) (by omega) (by omega) (by omega) (by omega)

theorem binarySearch_list {l : List Nat} (hs : SSorted l) (x : Nat) :
    binarySearch (rdL l) l.length x = if x ∈ l then (lb l x : Int) else -((lb l x : Int) + 1) := by
  rw [binarySearch_spec (isLB_list hs x)]
  simp only [mem_iff_rdL_lb hs x]

theorem gallop_spec {rd : Nat → Nat} {len x p : Nat} (h : IsLB rd len x p) (lower span : Nat)
    (h0 : 0 < span) (h1 : lower + span / 2 < p) (h2 : lower < len) :
    let s := gallop rd lower len x span
    0 < s ∧ lower + s / 2 < p ∧ (lower + s < len → p ≤ lower + s) := by
  rw [gallop]
  split
  · rename_i hc
    have := (h.lt_iff _ hc.2.1).1 hc.2.2
    exact gallop_spec h lower (span * 2) (by omega) (by omega) h2
  · rename_i hc
    refine ⟨h0, h1, fun h3 => ?_⟩
    have := h.lt_iff _ h3
    omega
termination_by len - span
decreasing_by omega

theorem bisect_spec {rd : Nat → Nat} {len x p : Nat} (h : IsLB rd len x p) (lower upper : Nat)
    (h1 : lower < p) (h2 : p ≤ upper) (h3 : upper < len) :
    bisect rd x lower upper = p := by
  rw [bisect]
  split
  · have hm : (lower + upper) / 2 < len := by omega
    have hlt := h.lt_iff _ hm
    have heq := h.eq_imp _ hm
    simp only
    split
    · rename_i h4; exact heq h4
    · split
      · exact bisect_spec h _ _ (by omega) h2 h3
      · exact bisect_spec h _ _ h1 (by omega) (by omega)
  · omega
termination_by upper - lower
decreasing_by all_goals omega

theorem advanceFrom_spec {rd : Nat → Nat} {len x p : Nat} (h : IsLB rd len x p) (low : Nat) :
    advanceFrom rd low len x = max low p := by
  have hle := h.le
  unfold advanceFrom
  simp only
  split
  · rename_i hc
    rcases Nat.lt_or_ge low len with h1 | h1
    · have := h.lt_iff _ h1; omega
    · omega
  · rename_i hc
    have h1 : low < len := by omega
    have h2 := h.lt_iff _ h1
    obtain ⟨g1, g2, g3⟩ := gallop_spec h low 1 (by omega) (by omega) h1
    generalize gallop rd low len x 1 = s at *
    split
    · rename_i hu
      have hlt := h.lt_iff _ hu
      have heq := h.eq_imp _ hu
      split
      · rename_i h4; have := heq h4; omega
      · split
        · rename_i h5 h6; have := g3 hu; omega
        · rw [bisect_spec h _ _ g2 (g3 hu) hu]; omega
    · rename_i hu
      have hlen : len - 1 < len := by omega
      have hlt := h.lt_iff _ hlen
      have heq := h.eq_imp _ hlen
      split
      · rename_i h4; have := heq h4; omega
      · split
        · omega
        · rw [bisect_spec h _ _ g2 (by omega) hlen]; omega

theorem advanceUntil_spec {rd : Nat → Nat} {len x p : Nat} (h : IsLB rd len x p) (pos : Nat) :
    advanceUntil rd pos len x = max (pos + 1) p := advanceFrom_spec h (pos + 1)

theorem advanceFrom_list {l : List Nat} (hs : SSorted l) (low x : Nat) :
    advanceFrom (rdL l) low l.length x = max low (lb l x) := advanceFrom_spec (isLB_list hs x) low

theorem advanceUntil_list {l : List Nat} (hs : SSorted l) (pos x : Nat) :
    advanceUntil (rdL l) pos l.length x = max (pos + 1) (lb l x) :=
  advanceUntil_spec (isLB_list hs x) pos

theorem countLess_spec {rd : Nat → Nat} {len x p : Nat} (h : IsLB rd len x p) :
    countLess rd len x = p := by
  have hle := h.le
  unfold countLess
  rw [binarySearch_spec h]
  split
  · omega
  · simp only
    split <;> split <;> omega

theorem countGreater_spec {rd : Nat → Nat} {len x p : Nat} (h : IsLB rd len x p) :
    countGreater rd len x = (len : Int) - p - (if p < len ∧ rd p = x then 1 else 0) := by
  have hle := h.le
  unfold countGreater
  rw [binarySearch_spec h]
  split
  · rw [if_neg (by omega)]; omega
  · simp only
    split
    · rw [if_pos (by omega)]; omega
    · rw [if_neg (by omega)]; omega

/-! Out-of-range cells never matter: every search depends only on the cells below the length. -/

theorem binarySearchLoop_congr {rd rd' : Nat → Nat} {len x : Nat} (h : ∀ i, i < len → rd i = rd' i)
    (low high : Int) (h0 : 0 ≤ low) (h1 : high < len) :
    binarySearchLoop rd x low high = binarySearchLoop rd' x low high := by
  rw [binarySearchLoop.eq_def rd, binarySearchLoop.eq_def rd']
  split
  · have hm : ((low + high) / 2).toNat < len := by omega
    simp only [h _ hm]
    split
    · exact binarySearchLoop_congr h _ _ (by omega) h1
    · split
      · exact binarySearchLoop_congr h _ _ h0 (by omega)
      · rfl
  · rfl
termination_by (high + 1 - low).toNat
decreasing_by all_goals omega

theorem binarySearch_congr {rd rd' : Nat → Nat} {len : Nat} (h : ∀ i, i < len → rd i = rd' i)
    (x : Nat) : binarySearch rd len x = binarySearch rd' len x :=
  binarySearchLoop_congr h _ _ (by omega) (by omega)

theorem gallop_congr {rd rd' : Nat → Nat} {len x : Nat} (h : ∀ i, i < len → rd i = rd' i)
    (lower span : Nat) : gallop rd lower len x span = gallop rd' lower len x span := by
  rw [gallop.eq_def rd, gallop.eq_def rd']
  by_cases hc : lower + span < len
  · simp only [h _ hc]
    split
    · exact gallop_congr h lower _
    · rfl
  · simp [hc]
termination_by len - span
decreasing_by omega

theorem bisect_congr {rd rd' : Nat → Nat} {len x : Nat} (h : ∀ i, i < len → rd i = rd' i)
    (lower upper : Nat) (h1 : upper < len) : bisect rd x lower upper = bisect rd' x lower upper := by
  rw [bisect.eq_def rd, bisect.eq_def rd']
  split
  · have hm : (lower + upper) / 2 < len := by omega
    simp only [h _ hm]
    split
    · rfl
    · split
      · exact bisect_congr h _ _ h1
      · exact bisect_congr h _ _ (by omega)
  · rfl
termination_by upper - lower
decreasing_by all_goals omega

theorem advanceUntil_congr {rd rd' : Nat → Nat} {len : Nat} (h : ∀ i, i < len → rd i = rd' i)
    (pos x : Nat) : advanceUntil rd pos len x = advanceUntil rd' pos len x := by
  unfold advanceUntil advanceFrom
  by_cases h1 : pos + 1 < len
  · simp only [h _ h1]
    split
    · rfl
    · rw [gallop_congr h]
      generalize hg : gallop rd' (pos + 1) len x 1 = s
      have hu : (if pos + 1 + s < len then pos + 1 + s else len - 1) < len := by split <;> omega
      simp only [h _ hu, bisect_congr h _ _ hu]
  · have : pos + 1 ≥ len := by omega
    simp [this]

/-! ### Branchless searches -/

/-- One lane of the branchless searches. -/
def laneLoop (rd : Nat → Nat) (t n b : Nat) : Nat :=
  if n > 1 then laneLoop rd t (n - n / 2) (if rd (b + n / 2) < t then b + n / 2 else b)
  else (if rd b < t then 1 else 0) + b
termination_by n
decreasing_by omega

theorem binarySearch4_lanes (rd : Nat → Nat) (t1 t2 t3 t4 n b1 b2 b3 b4 : Nat) :
    binarySearch4Loop rd t1 t2 t3 t4 n b1 b2 b3 b4 =
      (laneLoop rd t1 n b1, laneLoop rd t2 n b2, laneLoop rd t3 n b3, laneLoop rd t4 n b4) := by
  rw [binarySearch4Loop, laneLoop.eq_def rd t1 n, laneLoop.eq_def rd t2 n, laneLoop.eq_def rd t3 n,
    laneLoop.eq_def rd t4 n]
  by_cases hn : n > 1 <;> simp only [hn, if_true, if_false]
  rw [binarySearch4_lanes]
termination_by n
decreasing_by omega

theorem binarySearch2_lanes (rd : Nat → Nat) (t1 t2 n b1 b2 : Nat) :
    binarySearch2Loop rd t1 t2 n b1 b2 = (laneLoop rd t1 n b1, laneLoop rd t2 n b2) := by
  rw [binarySearch2Loop, laneLoop.eq_def rd t1 n, laneLoop.eq_def rd t2 n]
  by_cases hn : n > 1 <;> simp only [hn, if_true, if_false]
  rw [binarySearch2_lanes]
termination_by n
decreasing_by omega

theorem laneLoop_spec {rd : Nat → Nat} {len t p : Nat} (h : IsLB rd len t p) (n b : Nat)
    (h0 : 0 < n) (h1 : b + n ≤ len) (h2 : b ≤ p) (h3 : p ≤ b + n) (h4 : 0 < b → b < p) :
    laneLoop rd t n b = p := by
  rw [laneLoop]
  split
  · have hm := h.lt_iff (b + n / 2) (by omega)
    split
    · exact laneLoop_spec h _ _ (by omega) (by omega) (by omega) (by omega) (by omega)
    · exact laneLoop_spec h _ _ (by omega) (by omega) (by omega) (by omega) h4
  · have hm := h.lt_iff b (by omega)
    split <;> omega
termination_by n
decreasing_by all_goals omega

theorem laneLoop_congr {rd rd' : Nat → Nat} {len t : Nat} (h : ∀ i, i < len → rd i = rd' i)
    (n b : Nat) (h0 : 0 < n) (h1 : b + n ≤ len) : laneLoop rd t n b = laneLoop rd' t n b := by
  rw [laneLoop.eq_def rd t n b, laneLoop.eq_def rd' t n b]
  split
  · rw [h (b + n / 2) (by omega)]
    split
    · exact laneLoop_congr h _ _ (by omega) (by omega)
    · exact laneLoop_congr h _ _ (by omega) (by omega)
  · rw [h b (by omega)]
termination_by n
decreasing_by all_goals omega

/-! ### Skewed intersection -/

theorem isLB_drop {l : List Nat} (hs : SSorted l) (x k : Nat) (hk : k ≤ l.length) :
    IsLB (fun i => rdL l (k + i)) (l.length - k) x (lb l x - k) where
  le := by have := lb_le l x; omega
  lt_iff := fun i hi => by
    have := rdL_lt_iff hs x (i := k + i) (by omega)
    simp only [this]; omega
  eq_imp := fun i hi h => by
    have := (isLB_list hs x).eq_imp (k + i) (by omega) h
    omega

theorem lb_mono {l : List Nat} {x y : Nat} (h : x ≤ y) : lb l x ≤ lb l y := by
  unfold lb
  apply List.countP_mono_left
  intro a _ ha
  simp at *; omega

theorem hit_eq {l : List Nat} (hs : SSorted l) (x k : Nat) (hk : k ≤ lb l x) :
    hit l (k + (lb l x - k)) x = [x].filter (fun x => decide (x ∈ l)) := by
  rw [show k + (lb l x - k) = lb l x by omega]
  unfold hit
  simp only [← mem_iff_rdL_lb hs x]
  by_cases h : x ∈ l <;> simp [h]

theorem laneLoop_drop {l : List Nat} (hs : SSorted l) (x k : Nat) (hk : k < l.length) :
    laneLoop (fun i => rdL l (k + i)) x (l.length - k) 0 = lb l x - k := by
  have h := isLB_drop hs x k (by omega)
  have := lb_le l x
  exact laneLoop_spec h _ _ (by omega) (by omega) (by omega) (by omega) (by omega)

theorem bs_drop {l : List Nat} (hs : SSorted l) (x k : Nat) (hk : k ≤ lb l x) :
    (if binarySearch (fun i => rdL l (k + i)) (l.length - k) x ≥ 0 then [x] else []) =
      [x].filter (fun x => decide (x ∈ l)) := by
  have hl := lb_le l x
  rw [binarySearch_spec (isLB_drop hs x k (by omega))]
  have : lb l x - k < l.length - k ∧ rdL l (k + (lb l x - k)) = x ↔ x ∈ l := by
    rw [mem_iff_rdL_lb hs x, show k + (lb l x - k) = lb l x by omega]
    exact and_congr_left (fun _ => by omega)
  simp only [this]
  by_cases h : x ∈ l
  · simp [h]
  · simp [h]

theorem filter_ge_length {l s : List Nat} (hs : SSorted l) (k : Nat) (hk : l.length ≤ k)
    (h : ∀ x ∈ s, k ≤ lb l x) : s.filter (fun x => decide (x ∈ l)) = [] := by
  rw [List.filter_eq_nil_iff]
  intro a ha
  have := h a ha
  simp only [decide_eq_true_eq, mem_iff_rdL_lb hs a]
  omega

theorem skewTail_eq {l s : List Nat} (hl : SSorted l) (hs : SSorted s) (hlen : s.length < 4) (k : Nat)
    (h : ∀ x ∈ s, k ≤ lb l x) : skewTail l k s = s.filter (fun x => decide (x ∈ l)) := by
  fun_cases skewTail l k s with
  | case1 a b rest hk r =>
    have ha := h a (by simp)
    have hb := h b (by simp)
    have hr : r = (lb l a - k, lb l b - k) := by
      simp only [r]; rw [binarySearch2_lanes, laneLoop_drop hl _ _ hk, laneLoop_drop hl _ _ hk]
    rw [hr, hit_eq hl _ _ ha, hit_eq hl _ _ hb]
    cases rest with
    | nil => simp only [List.append_nil]; rw [← List.filter_append]; rfl
    | cons c rest =>
      have : rest = [] := by
        cases rest with
        | nil => rfl
        | cons _ _ => simp only [List.length_cons] at hlen; omega
      subst this
      simp only
      have hbc : b < c := by
        have := List.pairwise_cons.1 hs
        exact (List.pairwise_cons.1 this.2).1 c (by simp)
      have := lb_mono (l := l) (Nat.le_of_lt hbc)
      rw [show k + (lb l b - k) = lb l b by omega]
      split
      · rw [bs_drop hl _ _ this, ← List.filter_append, ← List.filter_append]; rfl
      · rename_i h2
        have hf := filter_ge_length (s := [c]) hl (lb l b) (by omega) (by simpa using this)
        have e : [a, b, c] = [a] ++ [b] ++ [c] := rfl
        rw [e, List.filter_append, List.filter_append, hf]
  | case2 a b rest hk =>
    exact (filter_ge_length hl k (by omega) h).symm
  | case3 a hk hb =>
    rw [← bs_drop hl a k (h a (by simp)), if_pos hb]
  | case4 a hk hb =>
    rw [← bs_drop hl a k (h a (by simp)), if_neg hb]
  | case5 a hk => exact (filter_ge_length hl k (by omega) h).symm
  | case6 => rfl

theorem skewLoop_eq {l s : List Nat} (hl : SSorted l) (hs : SSorted s) (k : Nat)
    (h : ∀ x ∈ s, k ≤ lb l x) : skewLoop l k s = s.filter (fun x => decide (x ∈ l)) := by
  fun_induction skewLoop l k s with
  | case1 k a b c d rest hk r ih =>
    have ha := h a (by simp)
    have hb := h b (by simp)
    have hc := h c (by simp)
    have hd := h d (by simp)
    have hr : r = (lb l a - k, lb l b - k, lb l c - k, lb l d - k) := by
      simp only [r]
      rw [binarySearch4_lanes, laneLoop_drop hl _ _ hk, laneLoop_drop hl _ _ hk,
        laneLoop_drop hl _ _ hk, laneLoop_drop hl _ _ hk]
    rw [hr] at ih ⊢
    simp only at ih ⊢
    have hs2 := (List.pairwise_cons.1 (List.pairwise_cons.1 (List.pairwise_cons.1 hs).2).2).2
    have hs3 := List.pairwise_cons.1 hs2
    rw [ih hs3.2 (fun x hx => by
      have := lb_mono (l := l) (Nat.le_of_lt (hs3.1 x hx)); omega)]
    rw [hit_eq hl _ _ ha, hit_eq hl _ _ hb, hit_eq hl _ _ hc, hit_eq hl _ _ hd]
    simp only [← List.filter_append]; rfl
  | case2 k a b c d rest hk => exact (filter_ge_length hl k (by omega) h).symm
  | case3 k s hne =>
    refine skewTail_eq hl hs ?_ k h
    match s, hne with
    | [], _ => simp
    | [_], _ => simp
    | [_, _], _ => simp
    | [_, _, _], _ => simp
    | a :: b :: c :: d :: rest, hne => exact absurd rfl (hne a b c d rest)

theorem intersectSkewed_eq {s l : List Nat} (hs : SSorted s) (hl : SSorted l) :
    intersectSkewed s l = s.filter (fun x => decide (x ∈ l)) :=
  skewLoop_eq hl hs 0 (by simp)

theorem skewCardLoop_eq {l : List Nat} (hl : SSorted l) (fuel : Nat) (s : List Nat) (hs : SSorted s)
    (k : Nat) (hk : k < l.length) (hinv : ∀ x ∈ s, k ≤ lb l x)
    (hf : s.length + (l.length - k) < fuel) :
    skewCardLoop l fuel s k = (s.filter (fun x => decide (x ∈ l))).length := by
  induction fuel generalizing s k with
  | zero => omega
  | succ fuel ih =>
    match s with
    | [] => simp [skewCardLoop]
    | a :: s =>
      have hs' := List.pairwise_cons.1 hs
      have ha := hinv a (by simp)
      have hlt := rdL_lt_iff hl a hk
      have hmem := mem_iff_rdL_lb hl a
      have hmono : ∀ x ∈ a :: s, lb l a ≤ lb l x := by
        intro x hx
        rcases List.mem_cons.1 hx with rfl | hx
        · exact Nat.le_refl _
        · exact lb_mono (Nat.le_of_lt (hs'.1 x hx))
      unfold skewCardLoop
      simp only [advanceUntil_list hl]
      split
      · rename_i h1
        have h2 := hlt.1 h1
        rw [show max (k + 1) (lb l a) = lb l a by omega]
        split
        · rename_i h3
          rw [filter_ge_length hl (lb l a) (by omega) hmono]; rfl
        · have := lb_le l a
          exact ih _ hs _ (by omega) hmono (by simp only [List.length_cons] at *; omega)
      · have h2 : lb l a = k := by omega
        rw [h2] at hmem
        split
        · rename_i h1 h3
          have : a ∉ l := by rw [hmem]; omega
          rw [List.filter_cons_of_neg (by simpa using this)]
          exact ih _ hs'.2 _ hk (fun x hx => hinv x (by simp [hx])) (by simp only [List.length_cons] at *; omega)
        · have hain : a ∈ l := hmem.2 ⟨hk, by omega⟩
          rw [List.filter_cons_of_pos (by simpa using hain)]
          match s with
          | [] => simp
          | b :: s =>
            have hab := hs'.1 b (by simp)
            have hkb : k + 1 ≤ lb l b := by
              have := (rdL_lt_iff hl b hk).1 (by omega); omega
            simp only
            rw [show max (k + 1) (lb l b) = lb l b by omega]
            have hmono' : ∀ x ∈ b :: s, lb l b ≤ lb l x := by
              intro x hx
              rcases List.mem_cons.1 hx with rfl | hx
              · exact Nat.le_refl _
              · exact lb_mono (Nat.le_of_lt ((List.pairwise_cons.1 hs'.2).1 x hx))
            split
            · rename_i h4
              rw [filter_ge_length hl (lb l b) (by omega) hmono']; rfl
            · have := lb_le l b
              rw [ih _ hs'.2 _ (by omega) hmono' (by simp only [List.length_cons] at *; omega)]
              simp only [List.length_cons]; omega

theorem intersectSkewedCard_eq {s l : List Nat} (hs : SSorted s) (hl : SSorted l) (h0 : 0 < l.length) :
    intersectSkewedCard s l = (s.filter (fun x => decide (x ∈ l))).length :=
  skewCardLoop_eq hl _ s hs 0 h0 (by simp) (by omega)

theorem skewNonemptyLoop_eq {l : List Nat} (hl : SSorted l) (fuel : Nat) (s : List Nat) (hs : SSorted s)
    (k : Nat) (hk : k < l.length) (hinv : ∀ x ∈ s, k ≤ lb l x)
    (hf : s.length + (l.length - k) < fuel) :
    skewNonemptyLoop l fuel s k = s.any (fun x => decide (x ∈ l)) := by
  induction fuel generalizing s k with
  | zero => omega
  | succ fuel ih =>
    match s with
    | [] => simp [skewNonemptyLoop]
    | a :: s =>
      have hs' := List.pairwise_cons.1 hs
      have ha := hinv a (by simp)
      have hlt := rdL_lt_iff hl a hk
      have hmem := mem_iff_rdL_lb hl a
      have hmono : ∀ x ∈ a :: s, lb l a ≤ lb l x := by
        intro x hx
        rcases List.mem_cons.1 hx with rfl | hx
        · exact Nat.le_refl _
        · exact lb_mono (Nat.le_of_lt (hs'.1 x hx))
      unfold skewNonemptyLoop
      simp only [advanceUntil_list hl]
      split
      · rename_i h1
        have h2 := hlt.1 h1
        rw [show max (k + 1) (lb l a) = lb l a by omega]
        split
        · rename_i h3
          have := filter_ge_length hl (lb l a) (by omega) hmono
          rw [List.filter_eq_nil_iff] at this
          exact (List.any_eq_false.2 this).symm
        · have := lb_le l a
          exact ih _ hs _ (by omega) hmono (by simp only [List.length_cons] at *; omega)
      · have h2 : lb l a = k := by omega
        rw [h2] at hmem
        split
        · rename_i h1 h3
          have : a ∉ l := by rw [hmem]; omega
          rw [List.any_cons]
          simp only [this, decide_false, Bool.false_or]
          exact ih _ hs'.2 _ hk (fun x hx => hinv x (by simp [hx])) (by simp only [List.length_cons] at *; omega)
        · have hain : a ∈ l := hmem.2 ⟨hk, by omega⟩
          simp [hain]

theorem intersectSkewedNonempty_eq {s l : List Nat} (hs : SSorted s) (hl : SSorted l) (h0 : 0 < l.length) :
    intersectSkewedNonempty s l = s.any (fun x => decide (x ∈ l)) :=
  skewNonemptyLoop_eq hl _ s hs 0 h0 (by simp) (by omega)

/-! ### Merges -/

theorem mem_unionU16 (as bs : List Nat) (x : Nat) : x ∈ unionU16 as bs ↔ x ∈ as ∨ x ∈ bs := by
  fun_induction unionU16 as bs with
  | case1 => simp
  | case2 => simp
  | case3 a as b bs h ih => simp only [List.mem_cons, ih]; grind
  | case4 a as b bs h h2 ih => simp only [List.mem_cons, ih]; grind
  | case5 a as b bs h h2 ih =>
    have : a = b := by omega
    simp only [List.mem_cons, ih]; grind

theorem unionU16_sorted {as bs : List Nat} (ha : SSorted as) (hb : SSorted bs) :
    SSorted (unionU16 as bs) := by
  fun_induction unionU16 as bs with
  | case1 => exact ha
  | case2 => exact hb
  | case3 a as b bs h ih =>
    have ha' := List.pairwise_cons.1 ha
    refine List.pairwise_cons.2 ⟨fun x hx => ?_, ih ha'.2 hb⟩
    rw [mem_unionU16] at hx
    have hb' := List.pairwise_cons.1 hb
    grind
  | case4 a as b bs h h2 ih =>
    have hb' := List.pairwise_cons.1 hb
    refine List.pairwise_cons.2 ⟨fun x hx => ?_, ih ha hb'.2⟩
    rw [mem_unionU16] at hx
    have ha' := List.pairwise_cons.1 ha
    grind
  | case5 a as b bs h h2 ih =>
    have ha' := List.pairwise_cons.1 ha
    have hb' := List.pairwise_cons.1 hb
    refine List.pairwise_cons.2 ⟨fun x hx => ?_, ih ha'.2 hb'.2⟩
    rw [mem_unionU16] at hx
    grind

theorem mem_fastUnionU16 (as bs : List Nat) (x : Nat) :
    x ∈ fastUnionU16 as bs ↔ x ∈ as ∨ x ∈ bs := by
  unfold fastUnionU16; split <;> simp [mem_unionU16, or_comm]

theorem fastUnionU16_sorted {as bs : List Nat} (ha : SSorted as) (hb : SSorted bs) :
    SSorted (fastUnionU16 as bs) := by
  unfold fastUnionU16; split
  · exact unionU16_sorted ha hb
  · exact unionU16_sorted hb ha

theorem intersectU16_eq {as bs : List Nat} (ha : SSorted as) (hb : SSorted bs) :
    intersectU16 as bs = as.filter (fun x => decide (x ∈ bs)) := by
  fun_induction intersectU16 as bs with
  | case1 => simp
  | case2 => simp
  | case3 a as b bs h ih =>
    have ha' := List.pairwise_cons.1 ha
    have hb' := List.pairwise_cons.1 hb
    rw [ih ha'.2 hb, List.filter_cons_of_neg]
    have := hb'.1 a
    simp only [List.mem_cons, decide_eq_true_eq, not_or]
    exact ⟨by omega, fun hm => by have := this hm; omega⟩
  | case4 a as b bs h h2 ih =>
    have ha' := List.pairwise_cons.1 ha
    have hb' := List.pairwise_cons.1 hb
    rw [ih ha hb'.2]
    apply List.filter_congr
    intro x hx
    rcases List.mem_cons.1 hx with rfl | hx
    · have : x ≠ b := by omega
      simp [this]
    · have := ha'.1 x hx
      have : x ≠ b := by omega
      simp [this]
  | case5 a as b bs h h2 ih =>
    have ha' := List.pairwise_cons.1 ha
    have hb' := List.pairwise_cons.1 hb
    have hab : a = b := by omega
    subst hab
    rw [ih ha'.2 hb'.2, List.filter_cons_of_pos (by simp)]
    congr 1
    apply List.filter_congr
    intro x hx
    have := ha'.1 x hx
    have : x ≠ a := by omega
    simp [this]

theorem intersectU16Card_eq (as bs : List Nat) :
    intersectU16Card as bs = (intersectU16 as bs).length := by
  fun_induction intersectU16Card as bs <;> grind [intersectU16]

theorem intersectU16Nonempty_eq (as bs : List Nat) :
    intersectU16Nonempty as bs = !(intersectU16 as bs).isEmpty := by
  fun_induction intersectU16Nonempty as bs <;> grind [intersectU16]

theorem differenceU16_eq {as bs : List Nat} (ha : SSorted as) (hb : SSorted bs) :
    differenceU16 as bs = as.filter (fun x => decide (x ∉ bs)) := by
  fun_induction differenceU16 as bs with
  | case1 => simp
  | case2 => exact (List.filter_eq_self.2 (by simp)).symm
  | case3 a as b bs h ih =>
    have ha' := List.pairwise_cons.1 ha
    have hb' := List.pairwise_cons.1 hb
    rw [ih ha'.2 hb, List.filter_cons_of_pos]
    have := hb'.1 a
    simp only [List.mem_cons, decide_eq_true_eq, not_or]
    exact ⟨by omega, fun hm => by have := this hm; omega⟩
  | case4 as a bs h ih =>
    have ha' := List.pairwise_cons.1 ha
    have hb' := List.pairwise_cons.1 hb
    rw [ih ha'.2 hb'.2, List.filter_cons_of_neg (by simp)]
    apply List.filter_congr
    intro x hx
    have := ha'.1 x hx
    have : x ≠ a := by omega
    simp [this]
  | case5 a as b bs h h2 ih =>
    have ha' := List.pairwise_cons.1 ha
    have hb' := List.pairwise_cons.1 hb
    rw [ih ha hb'.2]
    apply List.filter_congr
    intro x hx
    rcases List.mem_cons.1 hx with rfl | hx
    · have : x ≠ b := by omega
      simp [this]
    · have := ha'.1 x hx
      have : x ≠ b := by omega
      simp [this]

theorem mem_xorU16 {as bs : List Nat} (ha : SSorted as) (hb : SSorted bs) (x : Nat) :
    x ∈ xorU16 as bs ↔ ¬(x ∈ as ↔ x ∈ bs) := by
  fun_induction xorU16 as bs with
  | case1 => simp
  | case2 => simp
  | case3 as a bs ih =>
    have ha' := List.pairwise_cons.1 ha
    have hb' := List.pairwise_cons.1 hb
    rw [ih ha'.2 hb'.2]
    have h1 := ha'.1 x
    have h2 := hb'.1 x
    simp only [List.mem_cons]
    grind
  | case4 a as b bs h h2 ih =>
    have ha' := List.pairwise_cons.1 ha
    have hb' := List.pairwise_cons.1 hb
    have h1 := ha'.1 x
    have h2 := hb'.1 x
    simp only [List.mem_cons, ih ha'.2 hb]
    grind
  | case5 a as b bs h h2 ih =>
    have ha' := List.pairwise_cons.1 ha
    have hb' := List.pairwise_cons.1 hb
    have h1 := ha'.1 x
    have h2 := hb'.1 x
    simp only [List.mem_cons, ih ha hb'.2]
    grind

theorem mem_xorU16_sub {as bs : List Nat} {x : Nat} (h : x ∈ xorU16 as bs) : x ∈ as ∨ x ∈ bs := by
  fun_induction xorU16 as bs <;> simp_all <;> grind

theorem xorU16_sorted {as bs : List Nat} (ha : SSorted as) (hb : SSorted bs) :
    SSorted (xorU16 as bs) := by
  fun_induction xorU16 as bs with
  | case1 => exact ha
  | case2 => exact hb
  | case3 as a bs ih =>
    exact ih (List.pairwise_cons.1 ha).2 (List.pairwise_cons.1 hb).2
  | case4 a as b bs h h2 ih =>
    have ha' := List.pairwise_cons.1 ha
    have hb' := List.pairwise_cons.1 hb
    refine List.pairwise_cons.2 ⟨fun x hx => ?_, ih ha'.2 hb⟩
    have := mem_xorU16_sub hx
    grind
  | case5 a as b bs h h2 ih =>
    have ha' := List.pairwise_cons.1 ha
    have hb' := List.pairwise_cons.1 hb
    refine List.pairwise_cons.2 ⟨fun x hx => ?_, ih ha hb'.2⟩
    have := mem_xorU16_sub hx
    grind

end CRoaring
