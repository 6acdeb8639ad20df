import Verif.Props.C81
/-
C85–C87, C90, C91: `Roaring64Map`: queries, rank and selection, enumeration, compression, histories.
-/
namespace CRoaring.Props
open CRoaring

theorem mcontains_iff {m : Map64} (hm : ValidM m) {P : Nat → Nat → Bool → Prop} :
    (∀ y, y < 2 ^ 64 → P (highBytes y) (lowBytes y) (m64Contains m y)) →
      ∀ j v, mhas m j v = true → P j v true := by
  intro h j v hv
  obtain ⟨hj, hv'⟩ := mhas_lt hm hv
  have := h (uniteBytes j v) (unite_lt hj hv')
  rwa [m64Contains_eq, high_unite hj hv', low_unite hv', hv] at this

/-- A quantifier over halves is one over values. -/
theorem all_halves {m : Map64} (hm : ValidM m) (b : Bool) (hb : b = false) :
    (∀ j v, mhas m j v = b) ↔ ∀ y, y < 2 ^ 64 → m64Contains m y = b := by
  subst hb
  constructor
  · intro h y _; rw [m64Contains_eq]; exact h _ _
  · intro h j v
    cases hx : mhas m j v with
    | false => rfl
    | true =>
      obtain ⟨hj, hv⟩ := mhas_lt hm hx
      have := h (uniteBytes j v) (unite_lt hj hv)
      rw [m64Contains_eq, high_unite hj hv, low_unite hv, hx] at this
      cases this

/-! ### C85 -/

/-- C85: `isEmpty` and `isFull`. -/
theorem C85_is_empty_is_full {m : Map64} (hm : ValidM m) :
    (m64IsEmpty m = true ↔ ∀ y, y < 2 ^ 64 → m64Contains m y = false) ∧
    (m64IsFull m = true ↔ ∀ y, y < 2 ^ 64 → m64Contains m y = true) :=
  ⟨by rw [isEmpty_spec hm]; exact all_halves hm false rfl, isFull_spec hm⟩

/-- C85: `cardinality` is the number of values; it throws exactly when all 2^64 values are present. -/
theorem C85_cardinality {m : Map64} (hm : ValidM m) :
    (m64Cardinality m = none ↔ ∀ y, y < 2 ^ 64 → m64Contains m y = true) ∧
    ∀ n, m64Cardinality m = some n → n = Spec.card (2 ^ 64) (fun y => m64Contains m y) := by
  rw [cardinality_spec hm, ← isFull_spec hm]
  constructor
  · by_cases h : m64IsFull m = true
    · simp [h]
    · simp [h]
  · intro n hn
    by_cases h : m64IsFull m = true
    · rw [if_pos h] at hn; cases hn
    · rw [if_neg h] at hn; cases hn; exact mcard_eq hm

/-- C85: `minimum` is the smallest value, or 2^64-1 for the empty map. -/
theorem C85_minimum {m : Map64} (hm : ValidM m) :
    ((∀ y, y < 2 ^ 64 → m64Contains m y = false) → m64Minimum m = 2 ^ 64 - 1) ∧
    ((∃ y, y < 2 ^ 64 ∧ m64Contains m y = true) → m64Minimum m < 2 ^ 64 ∧ m64Contains m (m64Minimum m) = true) ∧
    ∀ y, y < 2 ^ 64 → m64Contains m y = true → m64Minimum m ≤ y := by
  obtain ⟨h1, h2, h3⟩ := minimum_spec hm
  refine ⟨fun h => h1 ((all_halves hm false rfl).2 h), ?_, fun y hy hc => ?_⟩
  · rintro ⟨y, hy, hc⟩
    rw [m64Contains_eq] at hc
    have := h2 ⟨_, _, hc⟩
    exact ⟨this.1, by rw [m64Contains_eq]; exact this.2⟩
  · rw [m64Contains_eq] at hc
    have := h3 _ _ hc
    rwa [join hy] at this

/-- C85: `maximum` is the largest value, or 0 for the empty map. -/
theorem C85_maximum {m : Map64} (hm : ValidM m) :
    ((∀ y, y < 2 ^ 64 → m64Contains m y = false) → m64Maximum m = 0) ∧
    ((∃ y, y < 2 ^ 64 ∧ m64Contains m y = true) → m64Maximum m < 2 ^ 64 ∧ m64Contains m (m64Maximum m) = true) ∧
    ∀ y, y < 2 ^ 64 → m64Contains m y = true → y ≤ m64Maximum m := by
  obtain ⟨h1, h2, h3⟩ := maximum_spec hm
  refine ⟨fun h => h1 ((all_halves hm false rfl).2 h), ?_, fun y hy hc => ?_⟩
  · rintro ⟨y, hy, hc⟩
    rw [m64Contains_eq] at hc
    have := h2 ⟨_, _, hc⟩
    exact ⟨this.1, by rw [m64Contains_eq]; exact this.2⟩
  · rw [m64Contains_eq] at hc
    have := h3 _ _ hc
    rwa [join hy] at this

/-- C85: `m.isSubset(r)` is inclusion in `r`. -/
theorem C85_is_subset {m r : Map64} (hm : ValidM m) (hr : ValidM r) :
    m64IsSubset r m = true ↔ ∀ y, y < 2 ^ 64 → m64Contains m y = true → m64Contains r y = true := by
  rw [subset_spec hr hm]
  constructor
  · intro h y _ hy; rw [m64Contains_eq] at hy ⊢; exact h _ _ hy
  · intro h j v hv
    obtain ⟨hj, hv'⟩ := mhas_lt hm hv
    have := h (uniteBytes j v) (unite_lt hj hv')
    rw [m64Contains_eq, m64Contains_eq, high_unite hj hv', low_unite hv'] at this
    exact this hv

/-- C85: `==` is equality of the sets, whatever empty inner bitmaps the maps hold. -/
theorem C85_equals {l r : Map64} (hl : ValidM l) (hr : ValidM r) :
    m64Equals l r = true ↔ ∀ y, y < 2 ^ 64 → m64Contains l y = m64Contains r y := by
  rw [equals_spec _ (Nat.le_refl _) hl hr]
  constructor
  · intro h y _; rw [m64Contains_eq, m64Contains_eq]; exact h _ _
  · intro h j v
    have key : ∀ {a b : Map64}, ValidM a → (∀ y, y < 2 ^ 64 → m64Contains a y = m64Contains b y) →
        mhas a j v = true → mhas b j v = true := by
      intro a b ha hab hv
      obtain ⟨hj, hv'⟩ := mhas_lt ha hv
      have := hab (uniteBytes j v) (unite_lt hj hv')
      rw [m64Contains_eq, m64Contains_eq, high_unite hj hv', low_unite hv', hv] at this
      exact this.symm
    have h1 := key hl h
    have h2 := key hr (fun y hy => (h y hy).symm)
    cases a : mhas l j v <;> cases b : mhas r j v <;> simp_all

/-- C85: `m.isStrictSubset(r)` is strict inclusion.  Missing: when the second map contains all 2^64 values the call throws
instead of answering (`C85_is_strict_subset_throws`). -/
theorem C85_is_strict_subset_partial {m r : Map64} (hm : ValidM m) (hr : ValidM r)
    (hfull : ∃ y, y < 2 ^ 64 ∧ m64Contains r y = false) :
    ∃ b, m64IsStrictSubset r m = some b ∧
      (b = true ↔ (∀ y, y < 2 ^ 64 → m64Contains m y = true → m64Contains r y = true) ∧
        ∃ y, y < 2 ^ 64 ∧ m64Contains r y = true ∧ m64Contains m y = false) := by
  have hS := C85_is_subset hm hr
  unfold m64IsStrictSubset
  by_cases hs : m64IsSubset r m = true
  · rw [if_pos hs]
    have hsub := hS.1 hs
    have hnr : ¬ m64IsFull r = true := by
      rw [isFull_spec hr]
      obtain ⟨y, hy, hc⟩ := hfull
      intro h; rw [h y hy] at hc; cases hc
    have hnm : ¬ m64IsFull m = true := by
      rw [isFull_spec hm]
      obtain ⟨y, hy, hc⟩ := hfull
      intro h; rw [hsub y hy (h y hy)] at hc; cases hc
    rw [cardinality_spec hm, if_neg hnm, cardinality_spec hr, if_neg hnr]
    refine ⟨_, rfl, ?_⟩
    rw [bne_iff_ne, mcard_eq hm, mcard_eq hr]
    constructor
    · intro hne
      refine ⟨hsub, ?_⟩
      by_cases hx : ∃ y, y < 2 ^ 64 ∧ m64Contains r y = true ∧ m64Contains m y = false
      · exact hx
      · exact absurd (card_congr fun y hy => by
          cases a : m64Contains m y with
          | true => rw [hsub y hy a]
          | false =>
            cases b : m64Contains r y with
            | false => rfl
            | true => exact absurd ⟨y, hy, b, a⟩ hx) hne
    · rintro ⟨_, y, hy, h1, h2⟩ e
      have := eq_of_card_le hsub (Nat.le_of_eq e.symm) y hy
      rw [h1, h2] at this; cases this
  · rw [if_neg hs]
    refine ⟨false, rfl, ?_⟩
    simp only [Bool.false_eq_true, false_iff]
    rintro ⟨h, _⟩
    exact hs (hS.2 h)

/-- C85 is false without that restriction: a strict subset of the full map makes the call throw. -/
theorem C85_is_strict_subset_throws {m r : Map64} (hm : ValidM m) (hr : ValidM r)
    (hfull : ∀ y, y < 2 ^ 64 → m64Contains r y = true) : m64IsStrictSubset r m = none := by
  unfold m64IsStrictSubset
  rw [if_pos ((C85_is_subset hm hr).2 fun y hy _ => hfull y hy), (C85_cardinality hr).1.2 hfull]
  cases m64Cardinality m <;> rfl

/-- The full map can be built: all values by `addRangeClosed`. -/
theorem C85_full_exists : ∃ r, m64AddRangeClosed [] 0 18446744073709551615 = some r ∧ ValidM r ∧
    ∀ y, y < 2 ^ 64 → m64Contains r y = true := by
  obtain ⟨r, h1, h2, h3⟩ := (C82_add_range_closed ValidM.nil (lo := 0) (hi := 18446744073709551615) (by omega) (by omega)).1
  exact ⟨r, h1, h2, fun y hy => (h3 y hy).2 (Or.inl (by omega))⟩

example : ValidM exMap ∧ ∃ y, y < 2 ^ 64 ∧ m64Contains exMap y = false := ⟨exMap_valid, 99999999999, by omega, by decide +kernel⟩
example : m64Cardinality [(0, exS), (9, [])] = some (rbCardinality exS) ∧ m64Minimum exMap2 = 3 * 2 ^ 32 + rbMinimum exS ∧
    m64Equals exMap [(0, exS), (5, exB)] = true := by decide +kernel

/-! ### C86: rank, index, selection -/

/-- C86: `rank` is the number of values up to `x`, as a 64-bit number. -/
theorem C86_rank {m : Map64} (hm : ValidM m) {x : Nat} (hx : x < 2 ^ 64) :
    m64Rank m x = Spec.card (2 ^ 64) (fun v => decide (v ≤ x) && m64Contains m v) % 2 ^ 64 := rank_spec hm hx

/-- C86: `rank` does not wrap unless the map holds all 2^64 values. -/
theorem C86_rank_exact {m : Map64} (hm : ValidM m) {x : Nat} (hx : x < 2 ^ 64)
    (hfull : ∃ y, y < 2 ^ 64 ∧ m64Contains m y = false) :
    m64Rank m x = Spec.card (2 ^ 64) (fun v => decide (v ≤ x) && m64Contains m v) := by
  rw [C86_rank hm hx]
  apply Nat.mod_eq_of_lt
  refine Nat.lt_of_le_of_ne (card_le _ _) fun e => ?_
  obtain ⟨y, hy, hc⟩ := hfull
  have := card_eq_n.1 e y hy
  rw [hc, Bool.and_false] at this; cases this

/-- C86: `getIndex` is the number of smaller values when `x` is present and -1 otherwise, as long as the number fits in the
64-bit signed result. -/
theorem C86_get_index {m : Map64} (hm : ValidM m) {x : Nat} (hx : x < 2 ^ 64)
    (hc : Spec.card (2 ^ 64) (fun v => decide (v ≤ x) && m64Contains m v) < 2 ^ 63) :
    m64GetIndex m x = if m64Contains m x then
      ((Spec.card (2 ^ 64) (fun v => decide (v ≤ x) && m64Contains m v) : Nat) : Int) - 1 else -1 :=
  getIndex_spec hm hx hc

/-- C86: `select(k)` yields the value with exactly `k` smaller ones and fails exactly when there is none.  Missing: a map in
which some 2^32 aligned values are all present, where the call can terminate the program (`C86_select_false`). -/
theorem C86_select_partial {m : Map64} (hm : ValidM m) (k : Nat)
    (hmiss : ∀ j, j < 2 ^ 32 → ∃ v, v < 2 ^ 32 ∧ m64Contains m (j * 2 ^ 32 + v) = false) :
    (m64Select m k = some none ↔ Spec.card (2 ^ 64) (fun y => m64Contains m y) ≤ k) ∧
    ∀ x, m64Select m k = some (some x) ↔
      x < 2 ^ 64 ∧ m64Contains m x = true ∧ Spec.card x (fun y => m64Contains m y) = k := by
  have hsel := select_spec hm (rank := k) (fun p hp => by
    obtain ⟨v, hv, hc⟩ := hmiss p.1 (hm.2 p hp).1
    refine ⟨v, hv, ?_⟩
    rw [show p.1 * 2 ^ 32 + v = uniteBytes p.1 v from (unite_eq hv).symm, m64Contains_eq, high_unite (hm.2 p hp).1 hv,
      low_unite hv] at hc
    unfold mhas at hc
    rwa [mapAt_some ((mapFind_iff hm (k := p.1) (b := p.2)).2 hp)] at hc)
  rw [hsel, toU_enum hm]
  generalize (2 : Nat) ^ 64 = N
  constructor
  · rw [Option.some_inj, List.getElem?_eq_none_iff]; rfl
  · intro x
    rw [Option.some_inj]
    constructor
    · intro h
      have hlt : k < Spec.card N (fun y => m64Contains m y) := by
        by_cases hl : k < (Spec.enum N (fun y => m64Contains m y)).length
        · exact hl
        · rw [List.getElem?_eq_none (by omega)] at h; cases h
      obtain ⟨z, h1, h2, h3, h4⟩ := enum_getElem_lt hlt
      rw [h] at h1; cases h1
      exact ⟨h2, h3, h4⟩
    · rintro ⟨h1, h2, h3⟩
      rw [← h3]
      exact enum_getElem_card h1 h2

/-- C86 is false for a map with a full inner bitmap whose last container is a bitset: `select` terminates the program for a rank
below the cardinality. -/
theorem C86_select_false : ValidM [(0, exAll)] ∧ m64Contains [(0, exAll)] (2 ^ 32 - 1) = true ∧
    Spec.card (2 ^ 64) (fun y => m64Contains [(0, exAll)] y) = 2 ^ 32 ∧ m64Select [(0, exAll)] (2 ^ 32 - 1) = none := by
  obtain ⟨h1, h2, h3, h4⟩ := C19_false
  have hv : ValidM [(0, exAll)] := minv_cons.2 ⟨by omega, h1, by simp, ValidM.nil⟩
  have hc : mcard [(0, exAll)] = 4294967296 := by
    unfold mcard
    rw [List.map_cons, List.map_nil, List.sum_cons, List.sum_nil, h3]; rfl
  refine ⟨hv, ?_, by rw [← mcard_eq hv, hc], ?_⟩
  · rw [m64Contains_eq, (halves32 (by omega)).1, (halves32 (by omega)).2, mhas_cons, if_pos rfl]
    exact h2 _ (by omega)
  · rw [m64Select]
    rw [if_pos (by rw [h3]; omega), Nat.mod_eq_of_lt (by omega), h4]

/-- Beside the hypotheses: a map without full parts. -/
example : ValidM (m64BitmapOf [5, 99999999999]) ∧ m64Select (m64BitmapOf [5, 99999999999]) 1 = some (some 99999999999) ∧
    m64Rank (m64BitmapOf [5, 99999999999]) 99999999998 = 1 ∧ m64GetIndex (m64BitmapOf [5, 99999999999]) 99999999999 = 1 :=
  ⟨(C81_bitmap_of (by decide)).1, by decide +kernel, by decide +kernel, by decide +kernel⟩
example : ∀ j, j < 2 ^ 32 → ∃ v, v < 2 ^ 32 ∧ m64Contains (m64BitmapOf [5, 99999999999]) (j * 2 ^ 32 + v) = false := by
  intro j hj
  have h := (C81_bitmap_of (xs := [5, 99999999999]) (by decide)).2
  refine ⟨0, by omega, ?_⟩
  rw [Nat.add_zero]
  cases hc : m64Contains (m64BitmapOf [5, 99999999999]) (j * 2 ^ 32) with
  | false => rfl
  | true =>
    have := (h (j * 2 ^ 32) (by omega)).1 hc
    simp only [List.mem_cons, List.not_mem_nil, or_false] at this
    omega

/-! ### C87: enumeration -/

/-- C87: `toUint64Array` writes every value once, in increasing order; `toString` and `printf` print that list. -/
theorem C87_to_uint64_array {m : Map64} (hm : ValidM m) :
    (m64ToUint64 m).Pairwise (· < ·) ∧ (∀ y, y ∈ m64ToUint64 m ↔ y < 2 ^ 64 ∧ m64Contains m y = true) ∧
    (m64ToUint64 m).length = Spec.card (2 ^ 64) (fun y => m64Contains m y) := by
  have h := toU_spec hm
  refine ⟨h.1, fun y => by rw [h.2, m64Contains_eq], ?_⟩
  rw [toU_length hm, mcard_eq hm]

/-- C87: `iterate` calls the callback on the values in increasing order until it answers `false`. -/
theorem C87_iterate {σ : Type} (f : σ → Nat → σ × Bool) (s : σ) {m : Map64} (hm : ValidM m) :
    ∃ l : List Nat, l.Pairwise (· < ·) ∧ (∀ y, y ∈ l ↔ y < 2 ^ 64 ∧ m64Contains m y = true) ∧
      calls f s l (m64Iterate f s m).1 (m64Iterate f s m).2 := by
  refine ⟨m64ToUint64 m, (C87_to_uint64_array hm).1, (C87_to_uint64_array hm).2.1, ?_⟩
  rw [iterate_spec f hm s]
  exact calls_callUntil f s _

example : m64ToUint64 (m64BitmapOf [99999999999, 5, 4294967296]) = [5, 4294967296, 99999999999] := by decide +kernel

/-! ### C90: compression -/

theorem mapVals_spec {m : Map64} (hm : ValidM m) (f : Bitmap → Bitmap) (hf : ∀ b, Valid b → Valid (f b) ∧
    ∀ v, rbContains (f b) v = rbContains b v) :
    ValidM (m.map (fun p => (p.1, f p.2))) ∧ ∀ y, m64Contains (m.map (fun p => (p.1, f p.2))) y = m64Contains m y := by
  have hv : ValidM (m.map (fun p => (p.1, f p.2))) := by
    constructor
    · rw [List.map_map]; exact hm.1
    · intro p hp
      obtain ⟨q, hq, rfl⟩ := List.mem_map.1 hp
      exact ⟨(hm.2 q hq).1, (hf _ (hm.2 q hq).2).1⟩
  refine ⟨hv, fun y => ?_⟩
  rw [m64Contains_eq, m64Contains_eq]
  generalize highBytes y = j
  generalize lowBytes y = v
  induction m with
  | nil => rfl
  | cons p t ih =>
    rw [List.map_cons, show p = (p.1, p.2) from rfl, mhas_cons, mhas_cons, (hf p.2 (hm.2 p List.mem_cons_self).2).2,
      ih hm.tail hv.tail]

/-- C90: `runOptimize`, `removeRunCompression` and `shrinkToFit` do not change the set.  Missing: the answers of the first two
(`C90_run_optimize_false`, `C90_remove_run_compression_false`). -/
theorem C90_compression_partial {m : Map64} (hm : ValidM m) :
    (ValidM (m64RunOptimize m).1 ∧ ∀ y, m64Contains (m64RunOptimize m).1 y = m64Contains m y) ∧
    (ValidM (m64RemoveRunCompression m).1 ∧ (∀ y, m64Contains (m64RemoveRunCompression m).1 y = m64Contains m y) ∧
      ∀ p ∈ (m64RemoveRunCompression m).1, ∀ k rs, (k, Container.run rs) ∉ p.2) ∧
    (ValidM (m64ShrinkToFit m) ∧ (∀ y, m64Contains (m64ShrinkToFit m) y = m64Contains m y) ∧
      ∀ p ∈ m64ShrinkToFit m, rbIsEmpty p.2 = false) := by
  refine ⟨mapVals_spec hm _ fun b hb => ⟨(C27_run_optimize hb).1, (C27_run_optimize hb).2.1⟩, ?_, ?_⟩
  · have h := mapVals_spec hm _ fun b hb => ⟨(C27_remove_run_compression hb).1, (C27_remove_run_compression hb).2.1⟩
    refine ⟨h.1, h.2, fun p hp k rs => ?_⟩
    obtain ⟨q, hq, rfl⟩ := List.mem_map.1 hp
    exact (C27_remove_run_compression (hm.2 q hq).2).2.2.1 k rs
  · refine ⟨filter_inv hm _, fun y => ?_, fun p hp => by simpa using (List.mem_filter.1 hp).2⟩
    rw [m64Contains_eq, m64Contains_eq, Bool.eq_iff_iff, mhas_mem hm]
    unfold m64ShrinkToFit
    rw [mhas_mem (filter_inv hm _)]
    constructor
    · rintro ⟨b, hb, hv⟩; exact ⟨b, (List.mem_filter.1 hb).1, hv⟩
    · rintro ⟨b, hb, hv⟩
      refine ⟨b, List.mem_filter.2 ⟨hb, ?_⟩, hv⟩
      cases he : rbIsEmpty b with
      | false => simp
      | true => rw [empty_contains he] at hv; cases hv

/-- The answer of `runOptimize` is not, as documented, whether the result has a run container: the empty map answers `true`, and a
map with a run container in one of two inner bitmaps answers `false`. -/
theorem C90_run_optimize_false : (m64RunOptimize []).2 = true ∧
    ∃ m, ValidM m ∧ (∃ p ∈ (m64RunOptimize m).1, ∃ k rs, (k, Container.run rs) ∈ p.2) ∧ (m64RunOptimize m).2 = false := by
  refine ⟨rfl, [(0, rbAddRangeClosed [] 0 9999), (1, rbAdd [] 5)], ?_, ?_, by decide +kernel⟩
  · refine minv_cons.2 ⟨by omega, (C13_add_range_closed valid_nil 0 (by omega)).1, by simp, minv_cons.2
      ⟨by omega, (C01_add valid_nil (by omega)).1, by simp, ValidM.nil⟩⟩
  · refine ⟨(0, [(0, .run [(0, 9999)])]), by decide +kernel, 0, [(0, 9999)], by decide⟩

/-- The answer of `removeRunCompression` is not whether a change was applied: the empty map answers `true`, and a map in which one
of two inner bitmaps changes answers `false`. -/
theorem C90_remove_run_compression_false : (m64RemoveRunCompression []).2 = true ∧
    ∃ m, ValidM m ∧ (m64RemoveRunCompression m).1 ≠ m ∧ (m64RemoveRunCompression m).2 = false := by
  refine ⟨rfl, [(0, rbAddRangeClosed [] 0 999), (1, rbAdd [] 5)], ?_, by decide +kernel, by decide +kernel⟩
  refine minv_cons.2 ⟨by omega, (C13_add_range_closed valid_nil 0 (by omega)).1, by simp, minv_cons.2
      ⟨by omega, (C01_add valid_nil (by omega)).1, by simp, ValidM.nil⟩⟩

/-! ### C91: histories -/

/-- The maps that calls can build, each with the set that its history makes it stand for.  `same` tells that the two arguments
of an operator are the same object; `shared`, `caps` and `pick` are facts about memory and the order of a queue, on which
nothing may depend. -/
inductive BuiltM : Map64 → (Nat → Prop) → Prop
  | create : BuiltM [] (fun _ => False)
  | ofRoaring {b} : Valid b → BuiltM (m64OfRoaring b) (fun y => rbContains b y = true)
  | bitmapOf {xs} : (∀ x ∈ xs, x < 2 ^ 64) → BuiltM (m64BitmapOf xs) (fun y => y ∈ xs)
  | clear {m s} : BuiltM m s → BuiltM (m64Clear m) (fun _ => False)
  | add {m s x} : BuiltM m s → x < 2 ^ 64 → BuiltM (m64Add m x) (fun y => y = x ∨ s y)
  | add32 {m s x} : BuiltM m s → x < 2 ^ 32 → BuiltM (m64Add32 m x) (fun y => y = x ∨ s y)
  | addChecked {m s x} : BuiltM m s → x < 2 ^ 64 → BuiltM (m64AddChecked m x).1 (fun y => y = x ∨ s y)
  | remove {m s x} : BuiltM m s → x < 2 ^ 64 → BuiltM (m64Remove m x) (fun y => y ≠ x ∧ s y)
  | remove32 {m s x} : BuiltM m s → x < 2 ^ 32 → BuiltM (m64Remove32 m x) (fun y => y ≠ x ∧ s y)
  | removeChecked {m s x} : BuiltM m s → x < 2 ^ 64 → BuiltM (m64RemoveChecked m x).1 (fun y => y ≠ x ∧ s y)
  | addMany {m s xs} : BuiltM m s → (∀ x ∈ xs, x < 2 ^ 64) → BuiltM (m64AddMany m xs) (fun y => y ∈ xs ∨ s y)
  | addMany32 {m s xs} : BuiltM m s → (∀ x ∈ xs, x < 2 ^ 32) → BuiltM (m64AddMany32 m xs) (fun y => y ∈ xs ∨ s y)
  | addRangeClosed {m s lo hi m'} : BuiltM m s → lo < 2 ^ 64 → hi < 2 ^ 64 → m64AddRangeClosed m lo hi = some m' →
      BuiltM m' (fun y => (lo ≤ y ∧ y ≤ hi) ∨ s y)
  | addRange {m s lo hi m'} : BuiltM m s → lo < 2 ^ 64 → hi < 2 ^ 64 → m64AddRange m lo hi = some m' →
      BuiltM m' (fun y => (lo ≤ y ∧ y < hi) ∨ s y)
  | removeRangeClosed {m s lo hi m'} : BuiltM m s → lo < 2 ^ 64 → hi < 2 ^ 64 → m64RemoveRangeClosed m lo hi = some m' →
      BuiltM m' (fun y => ¬ (lo ≤ y ∧ y ≤ hi) ∧ s y)
  | removeRange {m s lo hi m'} : BuiltM m s → lo < 2 ^ 64 → hi < 2 ^ 64 → m64RemoveRange m lo hi = some m' →
      BuiltM m' (fun y => ¬ (lo ≤ y ∧ y < hi) ∧ s y)
  | flipClosed {m s lo hi m'} : BuiltM m s → lo < 2 ^ 64 → hi < 2 ^ 64 → m64FlipClosed m lo hi = some m' →
      BuiltM m' (fun y => if lo ≤ y ∧ y ≤ hi then ¬ s y else s y)
  | flip {m s lo hi m'} : BuiltM m s → lo < 2 ^ 64 → hi < 2 ^ 64 → m64Flip m lo hi = some m' →
      BuiltM m' (fun y => if lo ≤ y ∧ y < hi then ¬ s y else s y)
  | and {a b s t} (same shared) : BuiltM a s → BuiltM b t → (same = true → a = b) →
      BuiltM (m64And same shared a b) (fun y => s y ∧ t y)
  | or {a b s t} (same shared caps) : BuiltM a s → BuiltM b t → (same = true → a = b) →
      BuiltM (m64Or same shared caps a b) (fun y => s y ∨ t y)
  | andnot {a b s t} (same shared) : BuiltM a s → BuiltM b t → (same = true → a = b) →
      BuiltM (m64Andnot same shared a b) (fun y => s y ∧ ¬ t y)
  | xor {a b s t} (same shared) : BuiltM a s → BuiltM b t → (same = true → a = b) →
      BuiltM (m64Xor same shared a b) (fun y => ¬ (s y ↔ t y))
  | fastunion2 {a b s t} (pick caps) : PicksMin pick → BuiltM a s → BuiltM b t →
      BuiltM (m64FastUnion pick caps [a, b]) (fun y => s y ∨ t y)
  | runOptimize {m s} : BuiltM m s → BuiltM (m64RunOptimize m).1 s
  | removeRunCompression {m s} : BuiltM m s → BuiltM (m64RemoveRunCompression m).1 s
  | shrinkToFit {m s} : BuiltM m s → BuiltM (m64ShrinkToFit m) s

/-- **C91.** Every map that the class builds is valid and contains exactly the values its history says. -/
theorem C91_history {m : Map64} {s : Nat → Prop} (h : BuiltM m s) :
    ValidM m ∧ ∀ y, y < 2 ^ 64 → (m64Contains m y = true ↔ s y) := by
  induction h with
  | create => exact ⟨ValidM.nil, fun y _ => by simp [(C81_create []).2.1 y]⟩
  | ofRoaring hb => exact C81_of_roaring hb
  | bitmapOf hx => exact C81_bitmap_of hx
  | @clear m s _ _ => exact ⟨ValidM.nil, fun y _ => by rw [(C81_create m).2.2, (C81_create []).2.1 y]; simp⟩
  | add _ hx ih => exact ⟨((C81_add ih.1 hx).1).1, fun y hy => by rw [((C81_add ih.1 hx).1).2 y hy, ih.2 y hy]⟩
  | @add32 m s x _ hx ih =>
    have h := (C81_add ih.1 (x := x) (by omega)).2 hx
    exact ⟨h.1, fun y hy => by rw [h.2 y hy, ih.2 y hy]⟩
  | addChecked _ hx ih =>
    have h := (C81_add_checked ih.1 hx).1
    exact ⟨h.2.1, fun y hy => by rw [h.2.2 y hy, ih.2 y hy]⟩
  | remove _ hx ih =>
    have h := (C81_remove ih.1 hx).1
    exact ⟨h.1, fun y hy => by rw [h.2 y hy, ih.2 y hy]⟩
  | @remove32 m s x _ hx ih =>
    have h := (C81_remove ih.1 (x := x) (by omega)).2 hx
    exact ⟨h.1, fun y hy => by rw [h.2 y hy, ih.2 y hy]⟩
  | removeChecked _ hx ih =>
    have h := (C81_remove_checked ih.1 hx).1
    exact ⟨h.2.1, fun y hy => by rw [h.2.2 y hy, ih.2 y hy]⟩
  | addMany _ hx ih =>
    have h := (C83_add_many ih.1 hx).1
    exact ⟨h.1, fun y hy => by rw [h.2 y hy, ih.2 y hy]⟩
  | addMany32 _ hx ih =>
    have h := (C83_add_many ih.1 (fun x h => by have := hx x h; omega)).2 hx
    exact ⟨h.1, fun y hy => by rw [h.2 y hy, ih.2 y hy]⟩
  | addRangeClosed _ hlo hhi e ih =>
    obtain ⟨m', h1, h2, h3⟩ := (C82_add_range_closed ih.1 hlo hhi).1
    rw [e] at h1; cases h1
    exact ⟨h2, fun y hy => by rw [h3 y hy, ih.2 y hy]⟩
  | addRange _ hlo hhi e ih =>
    obtain ⟨m', h1, h2, h3⟩ := C82_add_range ih.1 hlo hhi
    rw [e] at h1; cases h1
    exact ⟨h2, fun y hy => by rw [h3 y hy, ih.2 y hy]⟩
  | removeRangeClosed _ hlo hhi e ih =>
    obtain ⟨m', h1, h2, h3⟩ := (C82_remove_range_closed ih.1 hlo hhi).1
    rw [e] at h1; cases h1
    exact ⟨h2, fun y hy => by rw [h3 y hy, ih.2 y hy]⟩
  | removeRange _ hlo hhi e ih =>
    obtain ⟨m', h1, h2, h3⟩ := C82_remove_range ih.1 hlo hhi
    rw [e] at h1; cases h1
    exact ⟨h2, fun y hy => by rw [h3 y hy, ih.2 y hy]⟩
  | flipClosed _ hlo hhi e ih =>
    obtain ⟨m', h1, h2, h3⟩ := (C82_flip_closed ih.1 hlo hhi).1
    rw [e] at h1; cases h1
    exact ⟨h2, fun y hy => by rw [h3 y hy]; exact flip_iff (ih.2 y hy)⟩
  | flip _ hlo hhi e ih =>
    obtain ⟨m', h1, h2, h3⟩ := C82_flip ih.1 hlo hhi
    rw [e] at h1; cases h1
    exact ⟨h2, fun y hy => by rw [h3 y hy]; exact flip_iff (ih.2 y hy)⟩
  | and same shared _ _ hs iha ihb =>
    have h := C84_and iha.1 ihb.1 same hs shared
    exact ⟨h.1, fun y hy => by rw [h.2 y, Bool.and_eq_true, iha.2 y hy, ihb.2 y hy]⟩
  | or same shared caps _ _ hs iha ihb =>
    have h := C84_or iha.1 ihb.1 same hs shared caps
    exact ⟨h.1, fun y hy => by rw [h.2 y, Bool.or_eq_true, iha.2 y hy, ihb.2 y hy]⟩
  | andnot same shared _ _ hs iha ihb =>
    have h := C84_andnot iha.1 ihb.1 same hs shared
    exact ⟨h.1, fun y hy => by rw [h.2 y, Bool.and_eq_true, iha.2 y hy, Bool.not_eq_true', ← Bool.not_eq_true, ihb.2 y hy]⟩
  | xor same shared _ _ hs iha ihb =>
    have h := C84_xor iha.1 ihb.1 same hs shared
    exact ⟨h.1, fun y hy => by rw [h.2 y]; exact bne_iff (iha.2 y hy) (ihb.2 y hy)⟩
  | fastunion2 pick caps hp _ _ iha ihb =>
    have h := C84_fastunion hp caps (inputs := [_, _]) (by
      intro m hm
      simp only [List.mem_cons, List.not_mem_nil, or_false] at hm
      rcases hm with rfl | rfl
      · exact iha.1
      · exact ihb.1)
    exact ⟨h.1, fun y hy => by rw [h.2 y]; simp [iha.2 y hy, ihb.2 y hy]⟩
  | runOptimize _ ih =>
    have h := (C90_compression_partial ih.1).1
    exact ⟨h.1, fun y hy => by rw [h.2 y, ih.2 y hy]⟩
  | removeRunCompression _ ih =>
    have h := (C90_compression_partial ih.1).2.1
    exact ⟨h.1, fun y hy => by rw [h.2.1 y, ih.2 y hy]⟩
  | shrinkToFit _ ih =>
    have h := (C90_compression_partial ih.1).2.2
    exact ⟨h.1, fun y hy => by rw [h.2.1 y, ih.2 y hy]⟩

example : BuiltM (m64And false (fun _ _ => false) (m64Add (m64BitmapOf [7, 99999999999]) 5) (m64BitmapOf [5, 7]))
    (fun y => (y = 5 ∨ y ∈ [7, 99999999999]) ∧ y ∈ [5, 7]) :=
  .and false _ (.add (.bitmapOf (by decide)) (by omega)) (.bitmapOf (by decide)) (by simp)

end CRoaring.Props
