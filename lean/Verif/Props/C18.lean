import Verif.Props.Common
import Verif.Lemmas.Query2
import Verif.Lemmas.Range
/-
C18 - C24, C27: ranks, selection, extrema, exports, iteration by callback, changes of representation.
-/
namespace CRoaring.Props
open CRoaring

/-- C18: `rank(r, x)` is the number of contained values that are at most `x`. -/
theorem C18_rank {r : Bitmap} (h : Valid r) {x : Nat} (hx : x < 2 ^ 32) :
    rbRank r x = Spec.card (2 ^ 32) (fun v => decide (v ≤ x) && rbContains r v) := by
  rw [rbRank_eq h.inv hx, show (2 : Nat) ^ 32 = x + 1 + (2 ^ 32 - (x + 1)) by omega, card_add (x + 1),
    card_eq_zero (n := 2 ^ 32 - (x + 1)) |>.2, Nat.add_zero]
  · refine card_congr fun v hv => ?_
    rw [rbContains_eq h.inv, decide_eq_true (by omega), Bool.true_and]
  · intro v _
    rw [decide_eq_false (by omega), Bool.false_and]

/-- C18: `get_index(r, x)` is the number of smaller contained values when `x` is contained, and `-1` otherwise. -/
theorem C18_get_index {r : Bitmap} (h : Valid r) {x : Nat} (hx : x < 2 ^ 32) :
    rbGetIndex r x = if rbContains r x then (rbRank r x : Int) - 1 else -1 := by
  rw [rbGetIndex_eq h.inv hx, rbRank_eq h.inv hx, rbContains_eq h.inv, card_succ]
  split
  · rename_i hh
    simp
  · rfl

/-- C19: `select(r, k)` yields the contained value with exactly `k` smaller ones, and fails exactly when there is
none.  Missing: the bitmap of all 2^32 values, for the last 65536 ranks; there the claim is false (`C19_false`). -/
theorem C19_select_partial {r : Bitmap} (h : Valid r) {k : Nat} (hk : k < 2 ^ 32)
    (hb : (∃ v, v < 2 ^ 32 ∧ rbContains r v = false) ∨ k < 2 ^ 32 - 65536) :
    (rbSelect r k = some none ↔ rbCardinality r ≤ k) ∧
    ∀ v, rbSelect r k = some (some v) ↔
      v < 2 ^ 32 ∧ rbContains r v = true ∧ Spec.card v (fun w => rbContains r w) = k := by
  have hb' : bcard r < 4294967296 ∨ k < 4294901760 := by
    rcases hb with ⟨v, hv, hf⟩ | hb
    · left
      have hle := bcard_le h.inv
      refine Nat.lt_of_le_of_ne hle fun e => ?_
      rw [← card_bhas h.inv, card_eq_n] at e
      rw [rbContains_eq h.inv, e v hv] at hf
      exact absurd hf (by simp)
    · right; omega
  have hs := rbSelect_eq' h.inv (k := k) (by omega) hb'
  have hcc : ∀ v, Spec.card v (fun w => rbContains r w) = Spec.card v (bhas r) :=
    fun v => card_congr fun w _ => rbContains_eq h.inv w
  constructor
  · rw [hs, rbCardinality_eq h.inv, Option.some.injEq, List.getElem?_eq_none_iff]
    exact Iff.rfl
  · intro v
    rw [hs, hcc, rbContains_eq h.inv, Option.some.injEq]
    constructor
    · intro e
      have hk : k < Spec.card 4294967296 (bhas r) := (List.getElem?_eq_some_iff.1 e).1
      obtain ⟨x, h1, h2, h3, h4⟩ := enum_getElem_lt hk
      rw [h1] at e
      simp only [Option.some.injEq] at e
      subst e
      exact ⟨by omega, h3, h4⟩
    · rintro ⟨h1, h2, h3⟩
      rw [← h3]
      exact enum_getElem_card (by omega) h2

/-- The bitmap of all values whose last container is a bitset. -/
def exAll : Bitmap := cellsFrom 0 65535 (fun _ => .run [(0, 65535)]) ++ [(65535, .bitset bitsetSetAll)]

theorem rep_fullRun : Rep (.run [(0, 65535)]) (fun x => decide (x < 65536)) := by
  have h : BInv [(0, .run [(0, 65535)])] := Valid.inv (by decide +kernel)
  refine h.2.1.1.rep.congr fun x => ?_
  simp only [chas, runHas, List.any_cons, List.any_nil, Bool.or_false]
  simp
  omega

theorem exAll_valid : Valid exAll := by
  have h : BInv exAll := by
    unfold exAll BInv
    refine bp_append.2 ⟨bp_cellsFrom (by omega) fun i _ _ => ?_, ⟨by omega, ?_, by simp, trivial⟩, ?_⟩
    · exact rep_fullRun.cne (x := 0) (by decide)
    · exact rep_setAll.cne (x := 0) (by decide)
    · intro p hp q hq
      have := (mem_cellsFrom.1 hp).2.1
      simp only [List.mem_singleton] at hq
      subst hq
      show p.1 < 65535
      omega
  exact h.valid

theorem bcard_single (k : Nat) (c : Container) : bcard [(k, c)] = Spec.card 65536 (chas c) := by simp [bcard]

theorem select_last {A : Bitmap} (hA : BInv A) (hb : bcard A + 65536 = 4294967296) {k : Nat} {c : Container}
    (hs : containerSelect 4294901760 (2 ^ 32 - 1) c = some (.inr 0)) :
    rbSelect (A ++ [(k, c)]) (2 ^ 32 - 1) = some none := by
  have hb' : bcard A = 4294901760 := by omega
  rw [rbSelect, rbSelectLoop_append hA _ (by omega) (by omega) (by omega), hb', if_neg (by omega), Nat.zero_add,
    rbSelectLoop, hs]
  rfl

/-- C19 is false in general: `select(r, 2^32 - 1)` fails on a bitmap that contains all 2^32 values and whose last
container is a bitset, since the 32-bit sum of the start rank and the size of the container wraps to 0. -/
theorem C19_false : Valid exAll ∧ (∀ v, v < 2 ^ 32 → rbContains exAll v = true) ∧ rbCardinality exAll = 2 ^ 32 ∧
    rbSelect exAll (2 ^ 32 - 1) = some none := by
  have h := exAll_valid
  have hall : ∀ v, v < 2 ^ 32 → rbContains exAll v = true := by
    intro v hv
    rw [rbContains_eq h.inv, exAll, bhas_append, bhas_cellsFrom, rep_fullRun.has, bhas_cons, rep_setAll.has, bhas_nil]
    have : v % 65536 < 65536 := by omega
    by_cases h1 : v / 65536 < 65535
    · simp [this, h1]
    · simp [this, show v / 65536 = 65535 by omega]
  refine ⟨h, hall, ?_, ?_⟩
  · rw [rbCardinality_eq h.inv]
    exact card_eq_n.2 fun v hv => by rw [← rbContains_eq h.inv]; exact hall v hv
  · have hA := (bp_append.1 h.inv).1
    have hcard : bcard exAll = 4294967296 := by
      rw [← card_bhas h.inv]
      exact card_eq_n.2 fun v hv => by rw [← rbContains_eq h.inv]; exact hall v hv
    have hlast : Spec.card 65536 (chas (.bitset bitsetSetAll)) = 65536 :=
      card_eq_n.2 fun v hv => by rw [rep_setAll.has]; exact decide_eq_true hv
    have hsel : containerSelect 4294901760 (2 ^ 32 - 1) (.bitset bitsetSetAll) = some (.inr 0) := by decide +kernel
    rw [exAll, bcard_append, bcard_single, hlast] at hcard
    exact select_last hA hcard hsel

theorem takeWhile_all {p : Nat → Bool} {l : List Nat} (h : ∀ x ∈ l, p x = true) : l.takeWhile p = l := by
  have := List.takeWhile_append_of_pos (l₂ := []) h
  simpa using this

theorem ne_nil {r : Bitmap} (h : Valid r) {v : Nat} (hv : rbContains r v = true) : r ≠ [] := by
  rintro rfl
  rw [rbContains_eq h.inv, bhas_nil] at hv
  exact absurd hv (by simp)

theorem eq_nil {r : Bitmap} (h : Valid r) (hz : ∀ v, rbContains r v = false) : r = [] := by
  cases r with
  | nil => rfl
  | cons p t =>
    have := ((rbMinimum_spec h.inv).2 (by simp)).1
    rw [← rbContains_eq h.inv, hz] at this
    exact absurd this (by simp)

/-- C20: `rank_many` on a sorted array of queries writes the rank of every query, in order.  Missing: queries whose
high 16 bits are above those of the maximum; for these it writes nothing (`C20_unwritten`, `C20_false`). -/
theorem C20_rank_many_partial {r : Bitmap} (h : Valid r) {xs : List Nat} (hs : xs.Pairwise (· ≤ ·))
    (hne : ∃ v, rbContains r v = true) (hx : ∀ x ∈ xs, x < 2 ^ 32 ∧ x / 65536 ≤ rbMaximum r / 65536) :
    rbRankMany r xs = xs.map (rbRank r) := by
  obtain ⟨v, hv⟩ := hne
  have hne := ne_nil h hv
  rw [rbRankMany_eq h.inv hne hs fun x hxx => by have := hx x hxx; omega,
    takeWhile_all fun x hxx => by simpa using (hx x hxx).2]

/-- C20: in general `rank_many` writes the ranks of the queries up to the first one whose high 16 bits are above those
of the maximum, and leaves the rest of the answers unwritten. -/
theorem C20_unwritten {r : Bitmap} (h : Valid r) {xs : List Nat} (hs : xs.Pairwise (· ≤ ·))
    (hx : ∀ x ∈ xs, x < 2 ^ 32) :
    ((∃ v, rbContains r v = true) → rbRankMany r xs =
      (xs.takeWhile (fun x => decide (x / 65536 ≤ rbMaximum r / 65536))).map (rbRank r)) ∧
    ((∀ v, rbContains r v = false) → rbRankMany r xs = []) := by
  constructor
  · rintro ⟨v, hv⟩
    have hne := ne_nil h hv
    exact rbRankMany_eq h.inv hne hs fun x hxx => by have := hx x hxx; omega
  · intro hz
    have := eq_nil h hz
    subst this
    rw [rbRankMany]
    cases xs with
    | nil => simp [rbRankManyLoop]
    | cons x t => simp [rbRankManyLoop]

/-- C20 is false in general: the second answer is not written. -/
theorem C20_false : Valid exS ∧ rbRankMany exS [5, 2 ^ 31] = [2] ∧ [5, 2 ^ 31].map (rbRank exS) = [2, 25] :=
  ⟨exS_valid, by decide +kernel, by decide +kernel⟩

/-- C21: `minimum(r)` is contained and no contained value is smaller; 2^32 - 1 for the empty bitmap. -/
theorem C21_minimum {r : Bitmap} (h : Valid r) :
    ((∀ v, rbContains r v = false) → rbMinimum r = 2 ^ 32 - 1) ∧
    ((∃ v, rbContains r v = true) → rbContains r (rbMinimum r) = true) ∧
    ∀ v, rbContains r v = true → rbMinimum r ≤ v := by
  have hs := rbMinimum_spec h.inv
  refine ⟨fun hz => hs.1 (eq_nil h hz), fun ⟨v, hv⟩ => ?_, fun v hv => ?_⟩
  · rw [rbContains_eq h.inv]
    exact (hs.2 (ne_nil h hv)).1
  · exact (hs.2 (ne_nil h hv)).2 v (by rw [← rbContains_eq h.inv]; exact hv)

/-- C21: `maximum(r)` is contained and no contained value is larger; 0 for the empty bitmap. -/
theorem C21_maximum {r : Bitmap} (h : Valid r) :
    ((∀ v, rbContains r v = false) → rbMaximum r = 0) ∧
    ((∃ v, rbContains r v = true) → rbContains r (rbMaximum r) = true) ∧
    ∀ v, rbContains r v = true → v ≤ rbMaximum r := by
  have hs := rbMaximum_spec h.inv
  refine ⟨fun hz => hs.1 (eq_nil h hz), fun ⟨v, hv⟩ => ?_, fun v hv => ?_⟩
  · rw [rbContains_eq h.inv]
    exact (hs.2 (ne_nil h hv)).1
  · exact (hs.2 (ne_nil h hv)).2 v (by rw [← rbContains_eq h.inv]; exact hv)

/-- C22: `to_uint32_array` writes the contained values, each once, in increasing order. -/
theorem C22_to_uint32_array {r : Bitmap} (h : Valid r) :
    (rbToUint32 r).Pairwise (· < ·) ∧ (∀ v, v ∈ rbToUint32 r ↔ rbContains r v = true) ∧
    (rbToUint32 r).length = rbCardinality r := by
  rw [rbToUint32_eq h.inv, vals_eq h.inv]
  refine ⟨enum_sorted _ _, fun v => ?_, (rbCardinality_eq h.inv).symm⟩
  rw [mem_enum, rbContains_eq h.inv]
  exact ⟨fun hh => hh.2, fun hh => ⟨bhas_lt h.inv hh, hh⟩⟩

/-- C23: `range_uint32_array(r, offset, limit)` writes the values at positions `offset`, ..., `offset + limit - 1` of
the sorted enumeration; where `offset` is below the cardinality and the enumeration ends before `offset + limit`, the
other cells of the page are set to 0, and where `offset` is at or above the cardinality nothing is written. -/
theorem C23_range_uint32_array {r : Bitmap} (h : Valid r) {offset limit : Nat} (hol : offset + limit < 2 ^ 64) :
    rbRangeUint32 r offset limit =
      if offset < rbCardinality r then ((rbToUint32 r).drop offset ++ List.replicate limit 0).take limit else [] := by
  rw [rbRangeUint32_eq h.inv hol, rbToUint32_eq h.inv, vals_eq h.inv, rbCardinality_eq h.inv]; rfl

/-- C23, a page that lies within the enumeration. -/
theorem C23_page {r : Bitmap} (h : Valid r) {offset limit : Nat} (hin : offset + limit ≤ rbCardinality r) :
    rbRangeUint32 r offset limit = ((rbToUint32 r).drop offset).take limit := by
  have hlen := (C22_to_uint32_array h).2.2
  have hle : rbCardinality r ≤ 2 ^ 32 := by rw [rbCardinality_eq h.inv]; exact card_le _ _
  rw [C23_range_uint32_array h (by omega)]
  split
  · rw [List.take_append_of_le_length (by rw [List.length_drop]; omega)]
  · have : limit = 0 := by omega
    subst this
    simp

/-- Independent description of a run of callbacks: `calls f s l s' b` says that calling `f` on the values of `l` in
order, from the state `s`, until it answers `false`, leads to the state `s'`, and `b` tells that it never did. -/
inductive calls {σ : Type} (f : σ → Nat → σ × Bool) : σ → List Nat → σ → Bool → Prop
  | done (s : σ) : calls f s [] s true
  | stop (s s' : σ) (v : Nat) (l : List Nat) : f s v = (s', false) → calls f s (v :: l) s' false
  | go (s s' s'' : σ) (v : Nat) (l : List Nat) (b : Bool) : f s v = (s', true) → calls f s' l s'' b →
      calls f s (v :: l) s'' b

/-- C24: `roaring_iterate` calls the callback on the contained values in increasing order until it answers `false`,
and answers whether it never did. -/
theorem C24_iterate {σ : Type} (f : σ → Nat → σ × Bool) (s : σ) {r : Bitmap} (h : Valid r) :
    ∃ l, l.Pairwise (· < ·) ∧ (∀ v, v ∈ l ↔ rbContains r v = true) ∧
      calls f s l (rbIterate f s r).1 (rbIterate f s r).2 := by
  have h22 := C22_to_uint32_array h
  refine ⟨rbToUint32 r, h22.1, h22.2.1, ?_⟩
  rw [rbIterate_eq f s h.inv, rbToUint32_eq h.inv]
  generalize vals r = l
  induction l generalizing s with
  | nil => exact calls.done s
  | cons v l ih =>
    rw [callUntil]
    split
    · rename_i hh
      exact calls.go s (f s v).1 _ v l _ (by rw [← hh]) (ih _)
    · rename_i hh
      exact calls.stop s (f s v).1 v l (by rw [← Bool.not_eq_true _ |>.mp hh])

/-- C27: `run_optimize` keeps the set and answers whether a run container is present afterwards. -/
theorem C27_run_optimize {r : Bitmap} (h : Valid r) :
    Valid (rbRunOptimize r).1 ∧ (∀ v, rbContains (rbRunOptimize r).1 v = rbContains r v) ∧
    ((rbRunOptimize r).2 = true ↔ ∃ k rs, (k, Container.run rs) ∈ (rbRunOptimize r).1) := by
  have hs := rbRunOptimize_spec h.inv
  refine ⟨hs.1.valid, fun v => by rw [rbContains_eq hs.1, rbContains_eq h.inv, hs.2], ?_⟩
  show (rbRunOptimize r).1.any (fun p => isRun p.2) = true ↔ _
  rw [List.any_eq_true]
  constructor
  · rintro ⟨⟨k, c⟩, hm, hr⟩
    cases c with
    | run rs => exact ⟨k, rs, hm⟩
    | array l => exact absurd hr (by simp [isRun])
    | bitset b => exact absurd hr (by simp [isRun])
  · rintro ⟨k, rs, hm⟩
    exact ⟨_, hm, rfl⟩

/-- C27: `remove_run_compression` keeps the set, leaves no run container and answers whether there was one. -/
theorem C27_remove_run_compression {r : Bitmap} (h : Valid r) :
    Valid (rbRemoveRunCompression r).1 ∧ (∀ v, rbContains (rbRemoveRunCompression r).1 v = rbContains r v) ∧
    (∀ k rs, (k, Container.run rs) ∉ (rbRemoveRunCompression r).1) ∧
    ((rbRemoveRunCompression r).2 = true ↔ ∃ k rs, (k, Container.run rs) ∈ r) := by
  have hs := rbRemoveRunCompression_spec h.inv
  refine ⟨hs.1.valid, fun v => by rw [rbContains_eq hs.1, rbContains_eq h.inv, hs.2], ?_, ?_⟩
  · intro k rs hm
    obtain ⟨p, _, e⟩ := List.mem_map.1 hm
    have := removeRun_isRun p.2
    rw [(Prod.mk.injEq _ _ _ _ ▸ e : p.1 = k ∧ removeRun p.2 = .run rs).2] at this
    exact absurd this (by simp [isRun])
  · show r.any (fun p => isRun p.2) = true ↔ _
    rw [List.any_eq_true]
    constructor
    · rintro ⟨⟨k, c⟩, hm, hr⟩
      cases c with
      | run rs => exact ⟨k, rs, hm⟩
      | array l => exact absurd hr (by simp [isRun])
      | bitset b => exact absurd hr (by simp [isRun])
    · rintro ⟨k, rs, hm⟩
      exact ⟨_, hm, rfl⟩

/-! ### The hypotheses can be met -/

example : Valid exB ∧ (131100 : Nat) < 2 ^ 32 := ⟨exB_valid, by omega⟩
example : rbRank exS 131100 = 22 ∧ rbGetIndex exS 131100 = 21 ∧ rbGetIndex exS 6 = -1 := by decide +kernel
example : (∃ v, v < 2 ^ 32 ∧ rbContains exS v = false) ∧ rbSelect exS 21 = some (some 131100) ∧
    rbSelect exS 25 = some none := ⟨⟨6, by decide +kernel⟩, by decide +kernel⟩
example : [3, 3, 70000, 131090].Pairwise (· ≤ ·) ∧
    (∀ x ∈ [3, 3, 70000, 131090], x < 2 ^ 32 ∧ x / 65536 ≤ rbMaximum exS / 65536) ∧
    rbRankMany exS [3, 3, 70000, 131090] = [1, 1, 3, 12] := by decide +kernel
example : rbMinimum exT = 5 ∧ rbMaximum exT = 4294967295 := by decide +kernel
example : rbRangeUint32 exS 2 3 = [65535, 131082, 131083] ∧ rbRangeUint32 exS 23 4 = [131102, 131172, 0, 0] ∧
    rbRangeUint32 exS 25 4 = [] := by decide +kernel
example : rbIterate (fun s v => (s ++ [v], decide (s.length < 3))) [] exS = ([1, 5, 65535, 131082], false) := by
  decide +kernel
example : rbRunOptimize [(3, .array [1, 2, 3, 4, 5, 6, 7, 8])] = ([(3, .run [(1, 7)])], true) ∧
    rbRemoveRunCompression [(3, .run [(1, 7)])] = ([(3, .array [1, 2, 3, 4, 5, 6, 7, 8])], true) := by decide +kernel

end CRoaring.Props
