import Verif.Lemmas.ArrayUtil
/-
C44: searches in sorted 16-bit arrays.

An array is read through `rd : Nat → Nat`.  "Reads only cells inside the array" is stated as: replacing
the contents of every cell at or past the length changes nothing.
-/
namespace CRoaring.Props

/-- `cell` is sorted strictly on its first `len` cells. -/
def Sorted (cell : Nat → Nat) (len : Nat) : Prop := ∀ i j, i < j → j < len → cell i < cell j

private theorem lb_exists (cell : Nat → Nat) (len x : Nat) (hs : Sorted cell len) :
    ∃ p, IsLB cell len x p := by
  induction len with
  | zero => exact ⟨0, by omega, by intro i h; omega, by intro i h; omega⟩
  | succ n ih =>
    obtain ⟨p, h1, h2, h3⟩ := ih (fun i j hij hj => hs i j hij (by omega))
    by_cases hp : p < n
    · refine ⟨p, by omega, ?_, ?_⟩
      · intro i hi
        rcases Nat.lt_or_ge i n with h | h
        · exact h2 i h
        · have hin : i = n := by omega
          subst hin
          have := h2 p hp; have := hs p i hp (by omega); omega
      · intro i hi hx
        rcases Nat.lt_or_ge i n with h | h
        · exact h3 i h hx
        · have hin : i = n := by omega
          subst hin
          have := h2 p hp; have := hs p i hp (by omega); omega
    · have hpn : p = n := by omega
      subst hpn
      by_cases hx : cell p < x
      · refine ⟨p + 1, by omega, ?_, ?_⟩
        · intro i hi
          rcases Nat.lt_or_ge i p with h | h
          · have := h2 i h; omega
          · have hin : i = p := by omega
            subst hin; omega
        · intro i hi he
          rcases Nat.lt_or_ge i p with h | h
          · have := h2 i h; omega
          · have hin : i = p := by omega
            subst hin; omega
      · refine ⟨p, by omega, ?_, ?_⟩
        · intro i hi
          rcases Nat.lt_or_ge i p with h | h
          · exact h2 i h
          · have hin : i = p := by omega
            subst hin; omega
        · intro i hi he
          rcases Nat.lt_or_ge i p with h | h
          · have := h2 i h; omega
          · omega

/-- C44 (`binarySearch`): a non-negative answer is the position of the target; a negative answer `r`
encodes the insertion point `-r-1`, before which everything is smaller and from which everything is
larger than the target.  No cell past the length is looked at. -/
theorem C44_binarySearch (cell : Nat → Nat) (len x : Nat) (hs : Sorted cell len) :
    (0 ≤ binarySearch cell len x → (binarySearch cell len x).toNat < len ∧
        cell (binarySearch cell len x).toNat = x) ∧
    (binarySearch cell len x < 0 → (-(binarySearch cell len x) - 1).toNat ≤ len ∧
        (∀ i, i < (-(binarySearch cell len x) - 1).toNat → cell i < x) ∧
        (∀ i, (-(binarySearch cell len x) - 1).toNat ≤ i → i < len → x < cell i)) ∧
    (∀ other : Nat → Nat, (∀ i, i < len → cell i = other i) →
        binarySearch cell len x = binarySearch other len x) := by
  obtain ⟨p, h⟩ := lb_exists cell len x hs
  refine ⟨?_, ?_, fun other ho => binarySearch_congr ho x⟩
  · rw [binarySearch_spec h]; split
    · rename_i hc; intro _; simpa using hc
    · intro hc; omega
  · rw [binarySearch_spec h]; split
    · intro hc; omega
    · rename_i hc
      intro _
      have e : (-(-((p : Int) + 1)) - 1).toNat = p := by omega
      rw [e]
      refine ⟨h.le, fun i hi => (h.lt_iff i (by have := h.le; omega)).2 hi, fun i hi hl => ?_⟩
      have := h.lt_iff i hl
      have := h.eq_imp i hl
      by_cases hx : cell i = x
      · have hip := this hx
        subst hip
        exact absurd ⟨hl, hx⟩ hc
      · omega

/-- C44 (`advanceUntil`): the answer is the least index after `pos` holding a value at least `x`, or
the first index past both `pos` and the end when there is none; no cell past the length is looked at. -/
theorem C44_advanceUntil (cell : Nat → Nat) (len pos x : Nat) (hs : Sorted cell len) :
    pos < advanceUntil cell pos len x ∧
    advanceUntil cell pos len x ≤ max (pos + 1) len ∧
    (∀ i, pos < i → i < advanceUntil cell pos len x → cell i < x) ∧
    (advanceUntil cell pos len x < len → x ≤ cell (advanceUntil cell pos len x)) ∧
    (∀ other : Nat → Nat, (∀ i, i < len → cell i = other i) →
        advanceUntil cell pos len x = advanceUntil other pos len x) := by
  obtain ⟨p, h⟩ := lb_exists cell len x hs
  have hle := h.le
  rw [advanceUntil_spec h]
  refine ⟨by omega, by omega, fun i hi hl => (h.lt_iff i (by omega)).2 (by omega), fun hl => ?_, ?_⟩
  · have := h.lt_iff _ hl; omega
  · intro other ho
    rw [← advanceUntil_congr ho, advanceUntil_spec h]

/-- C44 (`count_less`, `count_greater`): the number of cells below, respectively above, the target. -/
theorem C44_counts (cell : Nat → Nat) (len x : Nat) (hs : Sorted cell len) :
    countLess cell len x = (((List.range len).filter (fun i => decide (cell i < x))).length : Int) ∧
    countGreater cell len x = (((List.range len).filter (fun i => decide (x < cell i))).length : Int) := by
  obtain ⟨p, h⟩ := lb_exists cell len x hs
  have hle := h.le
  have aux : ∀ (n : Nat) (f : Nat → Bool) (q : Nat), q ≤ n → (∀ i, i < n → (f i = true ↔ i < q)) →
      ((List.range n).filter f).length = q := by
    intro n f
    induction n with
    | zero => intro q hq _; simp; omega
    | succ n ih =>
      intro q hq hf
      rw [List.range_succ, List.filter_append, List.length_append]
      by_cases hqn : q ≤ n
      · rw [ih q hqn (fun i hi => hf i (by omega))]
        have : f n = false := by
          have := hf n (by omega)
          cases hfn : f n
          · rfl
          · have := this.1 hfn; omega
        simp [this]
      · have e : q = n + 1 := by omega
        subst e
        rw [ih n (by omega) (fun i hi => (hf i (by omega)).trans (by omega))]
        have : f n = true := (hf n (by omega)).2 (by omega)
        simp [this]
  have aux2 : ∀ (n : Nat) (f : Nat → Bool) (q : Nat), q ≤ n → (∀ i, i < n → (f i = true ↔ q ≤ i)) →
      ((List.range n).filter f).length = n - q := by
    intro n f
    induction n with
    | zero => intro q hq _; simp
    | succ n ih =>
      intro q hq hf
      rw [List.range_succ, List.filter_append, List.length_append]
      by_cases hqn : q ≤ n
      · rw [ih q hqn (fun i hi => hf i (by omega))]
        have : f n = true := (hf n (by omega)).2 hqn
        simp [this]; omega
      · have e : q = n + 1 := by omega
        subst e
        rw [ih n (by omega) (fun i hi => (hf i (by omega)).trans (by omega))]
        have : f n = false := by
          have := hf n (by omega)
          cases hfn : f n
          · rfl
          · have := this.1 hfn; omega
        simp [this]
  constructor
  · rw [countLess_spec h, aux len _ p hle (fun i hi => by simpa using h.lt_iff i hi)]
  · rw [countGreater_spec h]
    split
    · rename_i hc
      rw [aux2 len _ (p + 1) (by omega)]
      · omega
      · intro i hi
        have := h.lt_iff i hi
        have := h.eq_imp i hi
        simp only [decide_eq_true_eq]
        by_cases hip : i = p
        · subst hip; omega
        · constructor <;> intro h' <;> omega
    · rename_i hc
      rw [aux2 len _ p hle]
      · omega
      · intro i hi
        have := h.lt_iff i hi
        have h3 := h.eq_imp i hi
        simp only [decide_eq_true_eq]
        by_cases hx : cell i = x
        · have := h3 hx
          subst this
          exact absurd ⟨hi, hx⟩ hc
        · omega

/-- C44 (`binarySearch4`, `binarySearch2`): each lane returns the number of cells below its target, i.e.
the least index whose cell is at least the target; no cell past the (positive) length is looked at. -/
theorem C44_lanes (cell : Nat → Nat) (len t1 t2 t3 t4 : Nat) (h0 : 0 < len) (hs : Sorted cell len) :
    let least := fun (t p : Nat) => p ≤ len ∧ (∀ i, i < p → cell i < t) ∧ (∀ i, p ≤ i → i < len → t ≤ cell i)
    (let r := binarySearch4Loop cell t1 t2 t3 t4 len 0 0 0 0
     least t1 r.1 ∧ least t2 r.2.1 ∧ least t3 r.2.2.1 ∧ least t4 r.2.2.2) ∧
    (let r := binarySearch2Loop cell t1 t2 len 0 0
     least t1 r.1 ∧ least t2 r.2) ∧
    (∀ other : Nat → Nat, (∀ i, i < len → cell i = other i) →
      binarySearch4Loop cell t1 t2 t3 t4 len 0 0 0 0 = binarySearch4Loop other t1 t2 t3 t4 len 0 0 0 0 ∧
      binarySearch2Loop cell t1 t2 len 0 0 = binarySearch2Loop other t1 t2 len 0 0) := by
  intro least
  have key : ∀ t, least t (laneLoop cell t len 0) := by
    intro t
    obtain ⟨p, h⟩ := lb_exists cell len t hs
    have hle := h.le
    rw [laneLoop_spec h len 0 h0 (by omega) (by omega) (by omega) (by omega)]
    exact ⟨hle, fun i hi => (h.lt_iff i (by omega)).2 hi, fun i hi hl => by have := h.lt_iff i hl; omega⟩
  refine ⟨?_, ?_, ?_⟩
  · rw [binarySearch4_lanes]; exact ⟨key t1, key t2, key t3, key t4⟩
  · rw [binarySearch2_lanes]; exact ⟨key t1, key t2⟩
  · intro other ho
    rw [binarySearch4_lanes, binarySearch4_lanes, binarySearch2_lanes, binarySearch2_lanes]
    have e : ∀ t, laneLoop cell t len 0 = laneLoop other t len 0 :=
      fun t => laneLoop_congr ho len 0 h0 (by omega)
    simp only [e, and_self]

/-- The hypotheses are met by a concrete array, and the conclusions are informative there. -/
example : Sorted (rdL [2, 5, 9, 40, 41, 77]) 6 ∧ binarySearch (rdL [2, 5, 9, 40, 41, 77]) 6 40 = 3 ∧
    binarySearch (rdL [2, 5, 9, 40, 41, 77]) 6 10 = -4 ∧
    advanceUntil (rdL [2, 5, 9, 40, 41, 77]) 0 6 41 = 4 ∧
    binarySearch2Loop (rdL [2, 5, 9, 40, 41, 77]) 9 100 6 0 0 = (2, 6) := by
  refine ⟨?_, by decide +kernel, by decide +kernel, by decide +kernel, by decide +kernel⟩
  intro i j hij hj
  exact rdL_strict (l := [2, 5, 9, 40, 41, 77]) (by unfold SSorted; decide) hij hj

end CRoaring.Props
