import Verif.Lemmas.Map64c
import Verif.Lemmas.Iter64b
/-
Lemmas about the model of `Roaring64Map`: queries.
-/
set_option linter.unusedSimpArgs false
set_option linter.unusedVariables false
namespace CRoaring
open Spec

/-! ### The values in order -/

theorem toU_cons (k : Nat) (b : Bitmap) (t : Map64) :
    m64ToUint64 ((k, b) :: t) = (rbToUint32 b).map (uniteBytes k) ++ m64ToUint64 t := rfl

theorem toU32_mem {b : Bitmap} (hb : Valid b) {v : Nat} : v ∈ rbToUint32 b ↔ rbContains b v = true :=
  (Props.C22_to_uint32_array hb).2.1 v

theorem toU_spec : ∀ {m : Map64} (hm : ValidM m),
    (m64ToUint64 m).Pairwise (· < ·) ∧
      ∀ x, x ∈ m64ToUint64 m ↔ x < 18446744073709551616 ∧ mhas m (highBytes x) (lowBytes x) = true := by
  intro m
  induction m with
  | nil => intro _; exact ⟨List.Pairwise.nil, fun x => by simp [m64ToUint64, mhas_noKey (hasKey_nil _)]⟩
  | cons p t ih =>
    obtain ⟨k, b⟩ := p
    intro hm
    obtain ⟨c1, c2, c3, c4⟩ := minv_cons.1 hm
    obtain ⟨i1, i2⟩ := ih c4
    rw [toU_cons]
    have hmem : ∀ x, x ∈ (rbToUint32 b).map (uniteBytes k) ↔
        x < 18446744073709551616 ∧ highBytes x = k ∧ rbContains b (lowBytes x) = true := by
      intro x
      rw [List.mem_map]
      constructor
      · rintro ⟨v, hv, rfl⟩
        rw [toU32_mem c2] at hv
        have hv' := contains_lt32 c2 hv
        exact ⟨unite_lt c1 hv', high_unite c1 hv', by rw [low_unite hv']; exact hv⟩
      · rintro ⟨h1, h2, h3⟩
        exact ⟨lowBytes x, (toU32_mem c2).2 h3, by rw [← h2]; exact unite_halves h1⟩
    refine ⟨?_, fun x => ?_⟩
    · rw [List.pairwise_append]
      refine ⟨?_, i1, fun x hx y hy => ?_⟩
      · rw [List.pairwise_map]
        refine ((Props.C22_to_uint32_array c2).1.imp_of_mem fun {x y} hx hy hlt => ?_)
        have hx' := contains_lt32 c2 ((toU32_mem c2).1 hx)
        have hy' := contains_lt32 c2 ((toU32_mem c2).1 hy)
        rw [unite_eq hx', unite_eq hy']; omega
      · obtain ⟨a1, a2, a3⟩ := (hmem x).1 hx
        obtain ⟨b1, b2⟩ := (i2 y).1 hy
        have : k < highBytes y := bound_of_mhas (P := fun j => k < j) c3 b2
        rw [highBytes_eq a1] at a2
        rw [highBytes_eq b1] at this
        omega
    · rw [List.mem_append, hmem, i2, mhas_cons]
      by_cases hj : k = highBytes x
      · rw [if_pos hj, mhas_small c3 (by omega)]; simp [hj]
      · rw [if_neg hj]
        have : ¬ highBytes x = k := fun h => hj h.symm
        simp [this]

theorem toU_length_cons (k : Nat) {b : Bitmap} (hb : Valid b) (t : Map64) :
    (m64ToUint64 ((k, b) :: t)).length = rbCardinality b + (m64ToUint64 t).length := by
  rw [toU_cons, List.length_append, List.length_map, (Props.C22_to_uint32_array hb).2.2]

/-- The sum of the cardinalities of the inner bitmaps. -/
def mcard (m : Map64) : Nat := (m.map (fun p => rbCardinality p.2)).sum

theorem toU_length {m : Map64} (hm : ValidM m) : (m64ToUint64 m).length = mcard m := by
  induction m with
  | nil => rfl
  | cons p t ih =>
    obtain ⟨k, b⟩ := p
    obtain ⟨c1, c2, c3, c4⟩ := minv_cons.1 hm
    rw [toU_length_cons k c2, ih c4]; rfl

theorem mcard_eq {m : Map64} (hm : ValidM m) : mcard m = card (2 ^ 64) (fun x => m64Contains m x) := by
  rw [← toU_length hm]
  have h := toU_spec hm
  refine sorted_length h.1 fun x => ?_
  rw [h.2, m64Contains_eq]

theorem toU_enum {m : Map64} (hm : ValidM m) : m64ToUint64 m = enum (2 ^ 64) (fun x => m64Contains m x) := by
  have h := toU_spec hm
  refine sorted_eq_enum h.1 fun x => ?_
  rw [h.2, m64Contains_eq]

/-! ### Emptiness and fullness -/

theorem rbIsEmpty_spec {b : Bitmap} (hb : Valid b) : rbIsEmpty b = true ↔ ∀ v, rbContains b v = false :=
  (Props.C09_is_empty hb).1

theorem isEmpty_spec {m : Map64} (hm : ValidM m) : m64IsEmpty m = true ↔ ∀ j v, mhas m j v = false := by
  unfold m64IsEmpty
  rw [List.all_eq_true]
  constructor
  · intro h j v
    cases hx : mhas m j v with
    | false => rfl
    | true =>
      obtain ⟨b, hb, hv⟩ := (mhas_mem hm).1 hx
      rw [(rbIsEmpty_spec (hm.2 _ hb).2).1 (h _ hb) v] at hv
      cases hv
  · intro h p hp
    refine (rbIsEmpty_spec (hm.2 p hp).2).2 fun v => ?_
    cases hx : rbContains p.2 v with
    | false => rfl
    | true =>
      have := (mhas_mem hm (k := p.1) (v := v)).2 ⟨p.2, hp, hx⟩
      rw [h] at this; cases this

theorem rbIsFull_spec {b : Bitmap} (hb : Valid b) : rbIsFull b = true ↔ ∀ v, v < 2 ^ 32 → rbContains b v = true := by
  unfold rbIsFull
  rw [beq_iff_eq, Props.C09_cardinality hb, show (4294967296 : Nat) = 2 ^ 32 by rfl, card_eq_n]

theorem sum_const {α : Type} (l : List α) (f : α → Nat) (c : Nat) (h : ∀ a ∈ l, f a = c) : (l.map f).sum = l.length * c := by
  induction l with
  | nil => simp
  | cons a t ih =>
    rw [List.map_cons, List.sum_cons, ih (fun b hb => h b (List.mem_cons_of_mem _ hb)), h a List.mem_cons_self,
      List.length_cons, Nat.succ_mul]
    omega

theorem isFull_spec {m : Map64} (hm : ValidM m) :
    m64IsFull m = true ↔ ∀ x, x < 2 ^ 64 → m64Contains m x = true := by
  unfold m64IsFull
  constructor
  · intro h
    by_cases hl : m.length = 4294967296
    · rw [if_pos hl, List.all_eq_true] at h
      refine card_eq_n.1 ?_
      rw [← mcard_eq hm]
      unfold mcard
      rw [sum_const m _ 4294967296 (fun p hp => by have := h p hp; unfold rbIsFull at this; simpa using this), hl]
    · rw [if_neg hl] at h; cases h
  · intro h
    have hk : ∀ k, k < 4294967296 → ∀ v, v < 4294967296 → mhas m k v = true := by
      intro k hk v hv
      have := h (uniteBytes k v) (unite_lt hk hv)
      rw [m64Contains_eq, high_unite hk hv, low_unite hv] at this
      exact this
    have hl : m.length = 4294967296 := by
      have := sorted_length (l := m.map (·.1)) (n := 4294967296) (s := fun _ => true) hm.1 (fun x => by
        constructor
        · intro hx; exact ⟨hasKey_lt hm hx, rfl⟩
        · rintro ⟨hx, _⟩
          exact hasKey_of_mhas (hk x hx 0 (by omega)))
      rw [List.length_map, card_true] at this
      exact this
    rw [if_pos hl, List.all_eq_true]
    intro p hp
    refine (rbIsFull_spec (hm.2 p hp).2).2 fun v hv => ?_
    have h1 := hk p.1 (hm.2 p hp).1 v hv
    obtain ⟨b, hb, hv'⟩ := (mhas_mem hm).1 h1
    have e1 := (mapFind_iff hm).2 hb
    have e2 := (mapFind_iff hm (k := p.1) (b := p.2)).2 hp
    rw [e1] at e2; cases e2; exact hv'

theorem u64_sum (a b : Nat) : u64 ((a : Int) + (b : Nat)) = (a + b) % 18446744073709551616 := by
  unfold u64; omega

theorem fold_u64 (l : Map64) : ∀ r, r < 18446744073709551616 →
    l.foldl (fun r p => u64 ((r : Int) + rbCardinality p.2)) r = (r + mcard l) % 18446744073709551616 := by
  induction l with
  | nil => intro r hr; simp [mcard, Nat.mod_eq_of_lt hr]
  | cons p t ih =>
    intro r hr
    rw [List.foldl_cons, u64_sum, ih _ (Nat.mod_lt _ (by omega))]
    simp only [mcard, List.map_cons, List.sum_cons]
    omega

theorem cardinality_spec {m : Map64} (hm : ValidM m) :
    m64Cardinality m = if m64IsFull m then none else some (mcard m) := by
  unfold m64Cardinality
  by_cases hf : m64IsFull m = true
  · rw [if_pos hf, if_pos hf]
  · rw [if_neg hf, if_neg hf, fold_u64 m 0 (by omega), Nat.zero_add]
    congr 1
    apply Nat.mod_eq_of_lt
    have h1 : mcard m ≤ 2 ^ 64 := by rw [mcard_eq hm]; exact card_le _ _
    have h2 : mcard m ≠ 2 ^ 64 := by
      intro e
      rw [mcard_eq hm] at e
      exact hf ((isFull_spec hm).2 (card_eq_n.1 e))
    exact Nat.lt_of_le_of_ne h1 h2

/-! ### Smallest and largest -/

theorem minimum_spec : ∀ {m : Map64} (hm : ValidM m),
    ((∀ j v, mhas m j v = false) → m64Minimum m = 18446744073709551615) ∧
    ((∃ j v, mhas m j v = true) → m64Minimum m < 18446744073709551616 ∧
      mhas m (highBytes (m64Minimum m)) (lowBytes (m64Minimum m)) = true) ∧
    ∀ j v, mhas m j v = true → m64Minimum m ≤ j * 4294967296 + v := by
  intro m
  induction m with
  | nil =>
    intro _
    refine ⟨fun _ => rfl, ?_, ?_⟩
    · rintro ⟨j, v, h⟩; rw [mhas_noKey (hasKey_nil j)] at h; cases h
    · intro j v h; rw [mhas_noKey (hasKey_nil j)] at h; cases h
  | cons p t ih =>
    obtain ⟨k, b⟩ := p
    intro hm
    obtain ⟨c1, c2, c3, c4⟩ := minv_cons.1 hm
    obtain ⟨i1, i2, i3⟩ := ih c4
    rw [m64Minimum]
    by_cases he : rbIsEmpty b = true
    · rw [if_neg (by simp [he])]
      have hmh : ∀ j v, mhas ((k, b) :: t) j v = mhas t j v := by
        intro j v
        rw [mhas_cons]
        by_cases hj : k = j
        · rw [if_pos hj, mhas_small c3 (by omega), empty_contains he]
        · rw [if_neg hj]
      simp only [hmh]
      exact ⟨i1, i2, i3⟩
    · rw [if_pos (by simp [he])]
      have hne : ∃ v, rbContains b v = true := by
        by_cases h : ∃ v, rbContains b v = true
        · exact h
        · exact absurd ((rbIsEmpty_spec c2).2 fun v => by
            cases hx : rbContains b v with
            | false => rfl
            | true => exact absurd ⟨v, hx⟩ h) he
      obtain ⟨_, m2, m3⟩ := Props.C21_minimum c2
      have hv := contains_lt32 c2 (m2 hne)
      refine ⟨fun h => ?_, fun _ => ?_, fun j v h => ?_⟩
      · have := h k (rbMinimum b)
        rw [mhas_cons, if_pos rfl, m2 hne] at this; cases this
      · refine ⟨unite_lt c1 hv, ?_⟩
        rw [high_unite c1 hv, low_unite hv, mhas_cons, if_pos rfl]; exact m2 hne
      · rw [unite_eq hv]
        rw [mhas_cons] at h
        by_cases hj : k = j
        · rw [if_pos hj] at h
          have := m3 v h
          subst hj; omega
        · rw [if_neg hj] at h
          have : k < j := bound_of_mhas (P := fun j => k < j) c3 h
          omega

theorem maximum_loop : ∀ {l : Map64} (hm : ValidM l.reverse),
    ((∀ j v, mhas l.reverse j v = false) → maximumLoop l = 0) ∧
    ((∃ j v, mhas l.reverse j v = true) → maximumLoop l < 18446744073709551616 ∧
      mhas l.reverse (highBytes (maximumLoop l)) (lowBytes (maximumLoop l)) = true) ∧
    ∀ j v, mhas l.reverse j v = true → j * 4294967296 + v ≤ maximumLoop l := by
  intro l
  induction l with
  | nil =>
    intro _
    refine ⟨fun _ => rfl, ?_, ?_⟩
    · rintro ⟨j, v, h⟩; rw [List.reverse_nil, mhas_noKey (hasKey_nil j)] at h; cases h
    · intro j v h; rw [List.reverse_nil, mhas_noKey (hasKey_nil j)] at h; cases h
  | cons p t ih =>
    obtain ⟨k, b⟩ := p
    intro hm
    rw [List.reverse_cons] at hm ⊢
    obtain ⟨v1, v2, v3⟩ := validM_of_append hm
    obtain ⟨c1, c2, _, _⟩ := minv_cons.1 v2
    obtain ⟨i1, i2, i3⟩ := ih v1
    have hlt : ∀ j v, mhas t.reverse j v = true → j < k := fun j v h =>
      bound_of_mhas (P := fun j => j < k) (fun p hp => v3 p hp (k, b) (by simp)) h
    have hap : ∀ j v, mhas (t.reverse ++ [(k, b)]) j v = (mhas t.reverse j v || (decide (k = j) && rbContains b v)) := by
      intro j v
      rw [mhas_append_valid hm, mhas_cons, mhas_noKey (hasKey_nil j)]
      by_cases hj : k = j <;> simp [hj]
    rw [maximumLoop]
    by_cases he : rbIsEmpty b = true
    · rw [if_neg (by simp [he])]
      have hmh : ∀ j v, mhas (t.reverse ++ [(k, b)]) j v = mhas t.reverse j v := by
        intro j v
        rw [hap, empty_contains he]; simp
      simp only [hmh]
      exact ⟨i1, i2, i3⟩
    · rw [if_pos (by simp [he])]
      have hne : ∃ v, rbContains b v = true := by
        by_cases h : ∃ v, rbContains b v = true
        · exact h
        · exact absurd ((rbIsEmpty_spec c2).2 fun v => by
            cases hx : rbContains b v with
            | false => rfl
            | true => exact absurd ⟨v, hx⟩ h) he
      obtain ⟨_, m2, m3⟩ := Props.C21_maximum c2
      have hv := contains_lt32 c2 (m2 hne)
      refine ⟨fun h => ?_, fun _ => ?_, fun j v h => ?_⟩
      · have := h k (rbMaximum b)
        rw [hap, m2 hne] at this; simp at this
      · refine ⟨unite_lt c1 hv, ?_⟩
        rw [high_unite c1 hv, low_unite hv, hap, m2 hne]; simp
      · rw [unite_eq hv]
        rw [hap] at h
        rcases Bool.or_eq_true_iff.1 h with h | h
        · have h1 := hlt j v h
          have h2 := mhas_lt v1 h
          omega
        · obtain ⟨h1, h2⟩ := Bool.and_eq_true_iff.1 h
          have h3 := m3 v h2
          have h4 : k = j := by simpa using h1
          subst h4; omega

theorem maximum_spec {m : Map64} (hm : ValidM m) :
    ((∀ j v, mhas m j v = false) → m64Maximum m = 0) ∧
    ((∃ j v, mhas m j v = true) → m64Maximum m < 18446744073709551616 ∧
      mhas m (highBytes (m64Maximum m)) (lowBytes (m64Maximum m)) = true) ∧
    ∀ j v, mhas m j v = true → j * 4294967296 + v ≤ m64Maximum m := by
  have := maximum_loop (l := m.reverse) (by rw [List.reverse_reverse]; exact hm)
  rw [List.reverse_reverse] at this
  exact this

/-! ### Comparisons -/

theorem subset_spec {r : Map64} (hr : ValidM r) : ∀ {m : Map64} (hm : ValidM m),
    m64IsSubset r m = true ↔ ∀ j v, mhas m j v = true → mhas r j v = true := by
  intro m
  induction m with
  | nil =>
    intro _
    simp only [m64IsSubset, true_iff]
    intro j v h; rw [mhas_noKey (hasKey_nil j)] at h; cases h
  | cons p t ih =>
    obtain ⟨k, b⟩ := p
    intro hm
    obtain ⟨c1, c2, c3, c4⟩ := minv_cons.1 hm
    have hsplit : (∀ j v, mhas ((k, b) :: t) j v = true → mhas r j v = true) ↔
        (∀ v, rbContains b v = true → mhas r k v = true) ∧ ∀ j v, mhas t j v = true → mhas r j v = true := by
      constructor
      · intro h
        refine ⟨fun v hv => h k v (by rw [mhas_cons, if_pos rfl]; exact hv), fun j v hv => h j v ?_⟩
        have : k < j := bound_of_mhas (P := fun j => k < j) c3 hv
        rw [mhas_cons, if_neg (by omega)]; exact hv
      · rintro ⟨h1, h2⟩ j v hv
        rw [mhas_cons] at hv
        by_cases hj : k = j
        · rw [if_pos hj] at hv; rw [← hj]; exact h1 v hv
        · rw [if_neg hj] at hv; exact h2 j v hv
    rw [hsplit, m64IsSubset]
    by_cases he : rbIsEmpty b = true
    · rw [if_pos he, ih c4]
      constructor
      · intro h
        exact ⟨fun v hv => (by rw [empty_contains he] at hv; exact absurd hv (by simp)), h⟩
      · exact fun h => h.2
    · rw [if_neg he]
      cases hf : mapFind r k with
      | none =>
        simp only [Bool.false_eq_true, false_iff]
        rintro ⟨h1, _⟩
        apply he
        refine (rbIsEmpty_spec c2).2 fun v => ?_
        cases hx : rbContains b v with
        | false => rfl
        | true => have := h1 v hx; rw [mhas_noKey (mapFind_none.1 hf)] at this; cases this
      | some b' =>
        have hb' : Valid b' := (hr.2 _ (mapFind_mem hf)).2
        have hS := Props.C12_is_subset c2 hb'
        have hrk : ∀ v, mhas r k v = rbContains b' v := fun v => by unfold mhas; rw [mapAt_some hf]
        simp only [hrk]
        rw [← hS, ← ih c4]
        cases rbIsSubset b b' <;> simp

theorem all_empty_spec {m : Map64} (hm : ValidM m) :
    (m.all (fun p => rbIsEmpty p.2)) = true ↔ ∀ j v, mhas m j v = false := isEmpty_spec hm

theorem mhas_skip {k : Nat} {b : Bitmap} {t : Map64} (c3 : ∀ p ∈ t, k < p.1) (he : rbIsEmpty b = true) (j v : Nat) :
    mhas ((k, b) :: t) j v = mhas t j v := by
  rw [mhas_cons]
  by_cases hj : k = j
  · rw [if_pos hj, mhas_small c3 (by omega), empty_contains he]
  · rw [if_neg hj]

theorem nonempty_has {b : Bitmap} (hb : Valid b) (he : ¬ rbIsEmpty b = true) : ∃ v, rbContains b v = true := by
  by_cases h : ∃ v, rbContains b v = true
  · exact h
  · exact absurd ((rbIsEmpty_spec hb).2 fun v => by
      cases hx : rbContains b v with
      | false => rfl
      | true => exact absurd ⟨v, hx⟩ h) he

theorem equals_spec : ∀ (n : Nat) {l r : Map64}, l.length + r.length ≤ n → ValidM l → ValidM r →
    (m64Equals l r = true ↔ ∀ j v, mhas l j v = mhas r j v) := by
  intro n
  induction n with
  | zero =>
    intro l r hn hl hr
    have h1 : l = [] := List.length_eq_zero_iff.1 (by omega)
    have h2 : r = [] := List.length_eq_zero_iff.1 (by omega)
    subst h1; subst h2
    rw [m64Equals]; simp
  | succ n ih =>
    intro l r hn hl hr
    cases l with
    | nil =>
      rw [m64Equals, all_empty_spec hr]
      simp only [mhas_noKey (hasKey_nil _)]
      exact ⟨fun h j v => (h j v).symm, fun h j v => (h j v).symm⟩
    | cons p1 t1 =>
      cases r with
      | nil =>
        rw [m64Equals, all_empty_spec hl]
        · simp only [mhas_noKey (hasKey_nil _)]
        · simp
      | cons p2 t2 =>
        obtain ⟨k1, b1⟩ := p1
        obtain ⟨k2, b2⟩ := p2
        obtain ⟨c1, c2, c3, c4⟩ := minv_cons.1 hl
        obtain ⟨d1, d2, d3, d4⟩ := minv_cons.1 hr
        simp only [List.length_cons] at hn
        rw [m64Equals]
        by_cases e1 : rbIsEmpty b1 = true
        · rw [if_pos e1, ih (by simp only [List.length_cons]; omega) c4 hr]
          simp only [mhas_skip c3 e1]
        · rw [if_neg e1]
          by_cases e2 : rbIsEmpty b2 = true
          · rw [if_pos e2, ih (by simp only [List.length_cons]; omega) hl d4]
            simp only [mhas_skip d3 e2]
          · rw [if_neg e2]
            obtain ⟨v1, hv1⟩ := nonempty_has c2 e1
            obtain ⟨v2, hv2⟩ := nonempty_has d2 e2
            by_cases hk : k1 = k2
            · subst hk
              rw [if_neg (by simp)]
              have hE := Props.C11_equals c2 d2
              have hsplit : (∀ j v, mhas ((k1, b1) :: t1) j v = mhas ((k1, b2) :: t2) j v) ↔
                  (∀ v, rbContains b1 v = rbContains b2 v) ∧ ∀ j v, mhas t1 j v = mhas t2 j v := by
                constructor
                · intro h
                  refine ⟨fun v => ?_, fun j v => ?_⟩
                  · have := h k1 v
                    rwa [mhas_cons, mhas_cons, if_pos rfl, if_pos rfl] at this
                  · by_cases hj : k1 = j
                    · rw [mhas_small c3 (by omega), mhas_small d3 (by omega)]
                    · have := h j v
                      rwa [mhas_cons, mhas_cons, if_neg hj, if_neg hj] at this
                · rintro ⟨h1, h2⟩ j v
                  rw [mhas_cons, mhas_cons, h1, h2]
              rw [hsplit, ← hE, ← ih (by omega) c4 d4]
              cases rbEquals b1 b2 <;> simp
            · rw [if_pos (by simp [hk])]
              simp only [Bool.false_eq_true, false_iff]
              intro h
              rcases Nat.lt_or_gt_of_ne hk with hlt | hlt
              · have := h k1 v1
                rw [mhas_cons, if_pos rfl, hv1, mhas_cons, if_neg (by omega), mhas_small d3 (by omega)] at this
                cases this
              · have := h k2 v2
                rw [mhas_cons, if_neg (by omega), mhas_small c3 (by omega), mhas_cons, if_pos rfl, hv2] at this
                cases this

/-! ### Iteration with a callback -/

theorem iterate_spec {σ : Type} (f : σ → Nat → σ × Bool) : ∀ {m : Map64} (hm : ValidM m) (s : σ),
    m64Iterate f s m = callUntil f s (m64ToUint64 m) := by
  intro m
  induction m with
  | nil => intro _ s; rfl
  | cons p t ih =>
    obtain ⟨k, b⟩ := p
    intro hm s
    obtain ⟨c1, c2, c3, c4⟩ := minv_cons.1 hm
    rw [m64Iterate, toU_cons, callUntil_append, rbIterate64_eq f _ s c2.inv, ← rbToUint32_eq c2.inv]
    have e : ((rbToUint32 b).map fun v => k <<< 32 ||| v) = (rbToUint32 b).map (uniteBytes k) := rfl
    rw [e]
    simp only [ih c4]
    generalize callUntil f s ((rbToUint32 b).map (uniteBytes k)) = q
    obtain ⟨q1, q2⟩ := q
    cases q2 <;> rfl

/-! ### Rank, index, selection -/

theorem filter_none {α : Type} (p : α → Bool) (l : List α) (h : ∀ a ∈ l, p a = false) : l.filter p = [] :=
  List.filter_eq_nil_iff.2 fun a ha => by rw [h a ha]; simp

theorem rbRank_filter {b : Bitmap} (hb : Valid b) {x : Nat} (hx : x < 4294967296) :
    rbRank b x = ((rbToUint32 b).filter (fun v => decide (v ≤ x))).length := by
  rw [Props.C18_rank hb (by omega)]
  have h := Props.C22_to_uint32_array hb
  refine (sorted_length (h.1.sublist List.filter_sublist) fun v => ?_).symm
  rw [List.mem_filter, h.2.1, Bool.and_eq_true]
  constructor
  · rintro ⟨a, b⟩; exact ⟨by have := contains_lt32 hb a; omega, b, a⟩
  · rintro ⟨a, b, c⟩; exact ⟨c, b⟩

theorem filter_toU {x : Nat} (hx : x < 18446744073709551616) : ∀ {m : Map64} (hm : ValidM m),
    ((m64ToUint64 m).filter (fun v => decide (v ≤ x))).length =
      mcard (m.takeWhile (fun p => decide (p.1 < highBytes x))) + rbRank (mapAt m (highBytes x)) (lowBytes x) := by
  intro m
  have hrn : rbRank [] (lowBytes x) = 0 := rfl
  induction m with
  | nil => intro _; rfl
  | cons p t ih =>
    obtain ⟨k, b⟩ := p
    intro hm
    obtain ⟨c1, c2, c3, c4⟩ := minv_cons.1 hm
    have hxe : x = highBytes x * 4294967296 + lowBytes x := by
      have := unite_halves hx; rw [unite_eq (lowBytes_lt x)] at this; exact this.symm
    have hll := lowBytes_lt x
    rw [toU_cons, List.filter_append, List.length_append, List.filter_map, List.length_map, List.takeWhile_cons, mapAt_cons]
    have htail : highBytes x ≤ k → ((m64ToUint64 t).filter (fun v => decide (v ≤ x))).length = 0 := by
      intro hk
      rw [List.length_eq_zero_iff]
      refine filter_none _ _ fun y hy => ?_
      obtain ⟨b1, b2⟩ := ((toU_spec c4).2 y).1 hy
      have h1 : k < highBytes y := bound_of_mhas (P := fun j => k < j) c3 b2
      rw [highBytes_eq b1] at h1
      have : ¬ y ≤ x := by omega
      simp [this]
    by_cases h1 : k < highBytes x
    · rw [if_pos (by simpa using h1), if_neg (by omega)]
      have hall : (rbToUint32 b).filter ((fun v => decide (v ≤ x)) ∘ uniteBytes k) = rbToUint32 b := by
        rw [List.filter_eq_self]
        intro v hv
        have hv' := contains_lt32 c2 ((toU32_mem c2).1 hv)
        simp only [Function.comp, decide_eq_true_eq]
        rw [unite_eq hv']; omega
      rw [hall, (Props.C22_to_uint32_array c2).2.2, ih c4]
      simp only [mcard, List.map_cons, List.sum_cons]
      omega
    · rw [if_neg (by simpa using h1)]
      rw [htail (by omega)]
      by_cases h2 : k = highBytes x
      · rw [if_pos h2, rbRank_filter c2 hll]
        simp only [mcard, List.map_nil, List.sum_nil, Nat.add_zero, Nat.zero_add]
        congr 1
        refine List.filter_congr fun v hv => ?_
        have hv' := contains_lt32 c2 ((toU32_mem c2).1 hv)
        simp only [Function.comp]
        rw [unite_eq hv']
        by_cases h3 : v ≤ lowBytes x
        · rw [decide_eq_true h3, decide_eq_true (by omega)]
        · rw [decide_eq_false h3, decide_eq_false (by omega)]
      · rw [if_neg h2]
        have hn : mapAt t (highBytes x) = [] := mapAt_none (mapFind_none.2 fun hk => by
          obtain ⟨q, hq, e⟩ := List.mem_map.1 hk
          have := c3 q hq; omega)
        rw [hn, hrn]
        simp only [mcard, List.map_nil, List.sum_nil, Nat.add_zero]
        rw [List.length_eq_zero_iff]
        refine filter_none _ _ fun v hv => ?_
        have hv' := contains_lt32 c2 ((toU32_mem c2).1 hv)
        simp only [Function.comp, decide_eq_false_iff_not]
        rw [unite_eq hv']; omega

/-- The number of contained values up to `x`. -/
theorem rank_count {m : Map64} (hm : ValidM m) {x : Nat} (hx : x < 18446744073709551616) :
    mcard (m.takeWhile (fun p => decide (p.1 < highBytes x))) + rbRank (mapAt m (highBytes x)) (lowBytes x) =
      card (2 ^ 64) (fun v => decide (v ≤ x) && m64Contains m v) := by
  rw [← filter_toU hx hm]
  have h := toU_spec hm
  refine sorted_length (h.1.sublist List.filter_sublist) fun v => ?_
  rw [List.mem_filter, h.2, Bool.and_eq_true, m64Contains_eq]
  constructor
  · rintro ⟨⟨a, b⟩, c⟩; exact ⟨a, c, b⟩
  · rintro ⟨a, c, b⟩; exact ⟨⟨a, b⟩, c⟩

theorem rank_spec {m : Map64} (hm : ValidM m) {x : Nat} (hx : x < 18446744073709551616) :
    m64Rank m x = card (2 ^ 64) (fun v => decide (v ≤ x) && m64Contains m v) % 18446744073709551616 := by
  rw [← rank_count hm hx]
  unfold m64Rank
  simp only
  have hr : rbRank (mapAt m (highBytes x)) (lowBytes x) ≤ 4294967296 := by
    rw [Props.C18_rank (mapAt_valid hm _) (lowBytes_lt x)]
    exact card_le _ _
  by_cases h : mapLowerBound m (highBytes x) = some (highBytes x)
  · rw [if_pos h, fold_u64 _ _ (by omega), Nat.add_comm]
  · rw [if_neg h, fold_u64 _ _ (by omega)]
    have hn : mapAt m (highBytes x) = [] := mapAt_none (mapFind_none.2 fun hk => h ((lowerBound_key hm).2 hk))
    rw [hn, show rbRank [] (lowBytes x) = 0 from rfl, Nat.zero_add, Nat.add_zero]

theorem fold_i64 (l : Map64) : ∀ r : Nat, r + mcard l < 9223372036854775808 →
    l.foldl (fun i p => toI64 (u64 (i + rbCardinality p.2))) (r : Int) = ((r + mcard l : Nat) : Int) := by
  induction l with
  | nil => intro r hr; simp [mcard]
  | cons p t ih =>
    intro r hr
    have hc : mcard (p :: t) = rbCardinality p.2 + mcard t := by simp [mcard]
    rw [hc] at hr ⊢
    rw [List.foldl_cons, u64_sum]
    have e : toI64 ((r + rbCardinality p.2) % 18446744073709551616) = ((r + rbCardinality p.2 : Nat) : Int) := by
      rw [Nat.mod_eq_of_lt (by omega)]
      unfold toI64
      rw [if_pos (by omega)]
    rw [e, ih _ (by omega)]
    congr 1; omega

theorem getIndex_spec {m : Map64} (hm : ValidM m) {x : Nat} (hx : x < 18446744073709551616)
    (hc : card (2 ^ 64) (fun v => decide (v ≤ x) && m64Contains m v) < 9223372036854775808) :
    m64GetIndex m x = if m64Contains m x then
      ((card (2 ^ 64) (fun v => decide (v ≤ x) && m64Contains m v) : Nat) : Int) - 1 else -1 := by
  have hk := rank_count hm hx
  rw [← hk] at hc ⊢
  rw [m64Contains_eq]
  unfold m64GetIndex
  cases hf : mapFind m (highBytes x) with
  | none =>
    simp only
    rw [mhas_noKey (mapFind_none.1 hf)]; rfl
  | some b =>
    simp only
    have hb : Valid b := (hm.2 _ (mapFind_mem hf)).2
    have hat := mapAt_some hf
    rw [hat] at hc ⊢
    have hmh : mhas m (highBytes x) (lowBytes x) = rbContains b (lowBytes x) := by unfold mhas; rw [hat]
    have hfold := fold_i64 (m.takeWhile (fun p => decide (p.1 < highBytes x))) 0 (by omega)
    have hz : ((0 : Nat) : Int) = 0 := rfl
    rw [hz] at hfold
    rw [hfold, Props.C18_get_index hb (lowBytes_lt x), hmh]
    cases hx : rbContains b (lowBytes x) with
    | false => rfl
    | true =>
      have hpos : 0 < rbRank b (lowBytes x) := by
        rw [Props.C18_rank hb (lowBytes_lt x)]
        exact card_pos.2 ⟨lowBytes x, lowBytes_lt x, by rw [hx]; simp⟩
      simp only [if_true]
      rw [if_neg (by omega)]
      omega

theorem rbSelect_get {b : Bitmap} (hb : Valid b) {k : Nat} (hk : k < rbCardinality b)
    (hm : (∃ v, v < 2 ^ 32 ∧ rbContains b v = false) ∨ k < 2 ^ 32 - 65536) :
    ∃ v, rbSelect b k = some (some v) ∧ (rbToUint32 b)[k]? = some v := by
  have hc := Props.C09_cardinality hb
  rw [hc] at hk
  have hk32 : k < 2 ^ 32 := Nat.lt_of_lt_of_le hk (card_le _ _)
  obtain ⟨v, h1, h2, h3, h4⟩ := enum_getElem_lt hk
  refine ⟨v, ((Props.C19_select_partial hb hk32 hm).2 v).2 ⟨h2, h3, h4⟩, ?_⟩
  have h := Props.C22_to_uint32_array hb
  have : rbToUint32 b = enum (2 ^ 32) (fun v => rbContains b v) :=
    sorted_eq_enum h.1 fun x => by
      rw [h.2.1]; exact ⟨fun a => ⟨contains_lt32 hb a, a⟩, fun a => a.2⟩
  rw [this]; exact h1

theorem select_spec : ∀ {m : Map64} (hm : ValidM m) {rank : Nat}
    (hmiss : ∀ p ∈ m, ∃ v, v < 2 ^ 32 ∧ rbContains p.2 v = false),
    m64Select m rank = some (m64ToUint64 m)[rank]? := by
  intro m
  induction m with
  | nil => intro _ rank _; simp [m64Select, m64ToUint64]
  | cons p t ih =>
    obtain ⟨k, b⟩ := p
    intro hm rank hmiss
    obtain ⟨c1, c2, c3, c4⟩ := minv_cons.1 hm
    have hlen : ((rbToUint32 b).map (uniteBytes k)).length = rbCardinality b := by
      rw [List.length_map, (Props.C22_to_uint32_array c2).2.2]
    rw [m64Select, toU_cons]
    by_cases h : rank < rbCardinality b
    · rw [if_pos h]
      have hc : rbCardinality b ≤ 4294967296 := by rw [Props.C09_cardinality c2]; exact card_le _ _
      obtain ⟨v, h1, h2⟩ := rbSelect_get c2 h (Or.inl (hmiss _ List.mem_cons_self))
      rw [Nat.mod_eq_of_lt (by omega), h1]
      simp only
      rw [List.getElem?_append_left (by rw [hlen]; exact h), List.getElem?_map, h2]; rfl
    · rw [if_neg h, ih c4 (fun p hp => hmiss p (List.mem_cons_of_mem _ hp)),
        List.getElem?_append_right (by rw [hlen]; omega), hlen]

end CRoaring
