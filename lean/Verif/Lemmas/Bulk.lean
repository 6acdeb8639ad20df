import Verif.Model.Bulk
import Verif.Lemmas.Bitmap3

set_option linter.unusedSimpArgs false
set_option linter.unusedVariables false

/-! Bulk contexts, `add_many`, `remove_many`, `from_range`. -/

namespace CRoaring
open Spec

theorem cell_eq {r : Bitmap} {i : Nat} (hi : i < r.length) : (keyAt r i, contAt r i) = r[i] := by
  simp only [keyAt, contAt]
  rw [List.getD_eq_getElem?_getD, List.getElem?_eq_getElem hi]
  rfl

theorem cell_split {r : Bitmap} {i : Nat} (hi : i < r.length) :
    r = r.take i ++ (keyAt r i, contAt r i) :: r.drop (i + 1) := by
  rw [cell_eq hi, ← List.drop_eq_getElem_cons hi, List.take_append_drop]

theorem cell_mid {P : Container → Prop} {r : Bitmap} (h : BP P r) {i : Nat} (hi : i < r.length) :
    (∀ p ∈ r.take i, p.1 < keyAt r i) ∧ ∀ p ∈ r.drop (i + 1), keyAt r i < p.1 := by
  have h1 := h
  rw [cell_split hi, bp_mid] at h1
  exact h1.2.2.2

theorem raGetIndex_keyAt {P : Container → Prop} {r : Bitmap} (h : BP P r) {i : Nat} (hi : i < r.length) :
    raGetIndex r (keyAt r i) = i := by
  obtain ⟨h1, h2⟩ := cell_mid h hi
  have e := cell_split hi
  rw [raGetIndex_eq h.sorted]
  have hm : keyAt r i ∈ keysOf r := by
    simp only [keysOf, List.mem_map]
    refine ⟨(keyAt r i, contAt r i), ?_, rfl⟩
    rw [cell_eq hi]
    exact List.getElem_mem hi
  rw [if_pos hm]
  have h3 : lb (keysOf r) (keyAt r i) = (r.take i).length := by
    conv => { lhs; arg 1; rw [e] }
    refine lb_keys_split h1 ?_
    intro p hp
    rcases List.mem_cons.1 hp with rfl | hp
    · exact Nat.le_refl _
    · have := h2 p hp; omega
  rw [h3, List.length_take]
  omega

theorem rdL_keys {r : Bitmap} {i : Nat} (hi : i < r.length) : rdL (keysOf r) i = keyAt r i := by
  rw [rdL_eq (by simpa [keysOf] using hi)]
  simp only [keyAt, keysOf, List.getElem_map]
  rw [List.getD_eq_getElem?_getD, List.getElem?_eq_getElem hi]
  rfl

/-! ### Contexts -/

/-- A context that is unset or points to a cell of the bitmap. -/
def CtxOK (r : Bitmap) (ctx : BulkCtx) : Prop := ∀ idx k, ctx = some (idx, k) → idx < r.length ∧ keyAt r idx = k

theorem CtxOK.none (r : Bitmap) : CtxOK r none := fun _ _ h => by cases h

theorem rbAdd_ctx {r : Bitmap} (h : BInv r) (v : Nat) :
    CtxOK (rbAdd r v) (some (rbAddIndex r v, v / 65536)) := by
  intro idx k e
  cases e
  rcases ra_split h (v / 65536) with ⟨A, c, B, e, hA, hB, hi⟩ | ⟨A, B, e, hA, hB, hi⟩
  · have e2 : rbAdd r v = A ++ (v / 65536, containerAdd (v % 65536) c) :: B := by
      simp only [rbAdd, hi, Int.toNat_natCast]
      rw [if_pos (by omega), e, contAt_mid, raSet_mid]
    have e3 : rbAddIndex r v = A.length := by
      simp only [rbAddIndex, hi, Int.toNat_natCast]
      rw [if_pos (by omega)]
    rw [e2, e3]
    refine ⟨by simp, keyAt_mid _ _ _ _⟩
  · have e2 : rbAdd r v = A ++ (v / 65536, containerAdd (v % 65536) (.array [])) :: B := by
      simp only [rbAdd, hi]
      rw [if_neg (by omega), show (-(-((A.length : Int) + 1)) - 1).toNat = A.length by omega, e, raInsertAt_mid]
    have e3 : rbAddIndex r v = A.length := by
      simp only [rbAddIndex, hi]
      rw [if_neg (by omega)]; omega
    rw [e2, e3]
    refine ⟨by simp, keyAt_mid _ _ _ _⟩

theorem rbAddBulk_spec {r : Bitmap} (h : BInv r) {ctx : BulkCtx} (hc : CtxOK r ctx) (v : Nat) :
    (rbAddBulk r ctx v).1 = rbAdd r v ∧ CtxOK (rbAdd r v) (rbAddBulk r ctx v).2 := by
  cases ctx with
  | none => exact ⟨rfl, rbAdd_ctx h v⟩
  | some p =>
    obtain ⟨idx, k⟩ := p
    obtain ⟨h1, h2⟩ := hc idx k rfl
    simp only [rbAddBulk]
    by_cases hk : k = v / 65536
    · rw [if_neg (by simpa using hk)]
      have h3 := raGetIndex_keyAt h h1
      rw [h2, hk] at h3
      have e : rbAdd r v = raSet r idx (containerAdd (v % 65536) (contAt r idx)) := by
        simp only [rbAdd, h3, Int.toNat_natCast]
        rw [if_pos (by omega)]
      refine ⟨e.symm, ?_⟩
      have h4 := rbAdd_ctx h v
      have e3 : rbAddIndex r v = idx := by
        simp only [rbAddIndex, h3, Int.toNat_natCast]
        rw [if_pos (by omega)]
      rw [e3, ← hk] at h4
      exact h4
    · rw [if_pos hk]
      exact ⟨rfl, rbAdd_ctx h v⟩

theorem rbAddManyLoop_spec (vals : List Nat) : ∀ {r : Bitmap} (_ : BInv r) {ctx : BulkCtx} (_ : CtxOK r ctx)
    (_ : ∀ v ∈ vals, v < 4294967296),
    BInv (rbAddManyLoop r ctx vals) ∧ ∀ x, bhas (rbAddManyLoop r ctx vals) x = (decide (x ∈ vals) || bhas r x) := by
  induction vals with
  | nil => intro r h ctx hc hv; exact ⟨h, fun x => by simp [rbAddManyLoop]⟩
  | cons v vs ih =>
    intro r h ctx hc hv
    have h1 := rbAddBulk_spec h hc v
    have h2 := rbAdd_spec h (hv v (by simp))
    have h3 := ih (r := (rbAddBulk r ctx v).1) (by rw [h1.1]; exact h2.1) (by rw [h1.1]; exact h1.2)
      (fun w hw => hv w (by simp [hw]))
    refine ⟨h3.1, fun x => ?_⟩
    simp only [rbAddManyLoop]
    rw [h3.2, h1.1, h2.2]
    simp only [Spec.insert, List.mem_cons]
    by_cases e : x = v
    · simp [e]
    · first
        | (rw [beq_eq_false_iff_ne.2 e]; simp [e])
        | (rw [bne_iff_ne.2 e]; simp [e])

theorem rbAddMany_spec {r : Bitmap} (h : BInv r) {vals : List Nat} (hv : ∀ v ∈ vals, v < 4294967296) :
    BInv (rbAddMany r vals) ∧ ∀ x, bhas (rbAddMany r vals) x = (decide (x ∈ vals) || bhas r x) := by
  cases vals with
  | nil => exact ⟨h, fun x => by simp [rbAddMany]⟩
  | cons v vs =>
    have h2 := rbAdd_spec h (hv v (by simp))
    have h3 := rbAddManyLoop_spec (v :: vs) h2.1 (rbAdd_ctx h v) hv
    refine ⟨h3.1, fun x => ?_⟩
    simp only [rbAddMany]
    rw [h3.2, h2.2]
    simp only [Spec.insert, List.mem_cons]
    by_cases e : x = v
    · simp [e]
    · first
        | (rw [beq_eq_false_iff_ne.2 e]; simp [e])
        | (rw [bne_iff_ne.2 e]; simp [e])

theorem raAdvanceFrom_all {r : Bitmap} (h : SSorted (keysOf r)) (x low : Nat) :
    raAdvanceFrom r x low = max low (lb (keysOf r) x) := by
  have hl : (keysOf r).length = r.length := by simp [keysOf]
  rw [raAdvanceFrom, ← hl, advanceFrom_list h]

theorem lb_keyAt {r : Bitmap} (h : SSorted (keysOf r)) {i x : Nat} (hi : i < r.length) (hx : keyAt r i < x) :
    i + 1 ≤ lb (keysOf r) x := by
  have := (rdL_lt_iff h x (i := i) (by simpa [keysOf] using hi)).1 (by rw [rdL_keys hi]; exact hx)
  omega

theorem rbContainsBulk_spec {r : Bitmap} (h : BInv r) {ctx : BulkCtx} (hc : CtxOK r ctx) (v : Nat) :
    (rbContainsBulk r ctx v).1 = rbContains r v ∧ CtxOK r (rbContainsBulk r ctx v).2 := by
  have hlb : lb (keysOf r) (v / 65536) ≤ r.length := by have := lb_le (keysOf r) (v / 65536); simpa [keysOf] using this
  have hfound : ∀ i, i < r.length → keyAt r i = v / 65536 →
      containerContains (v % 65536) (contAt r i) = rbContains r v := by
    intro i hi hk
    have h3 := raGetIndex_keyAt h hi
    rw [hk] at h3
    simp only [rbContains, h3, Int.toNat_natCast]
    rw [if_neg (by omega)]
  have hnot : (∀ p ∈ r, p.1 ≠ v / 65536) → rbContains r v = false := by
    intro hh
    rw [rbContains_eq h]
    exact bhas_ne hh
  have hseek : ∀ start, start ≤ lb (keysOf r) (v / 65536) →
      let idx := raAdvanceFrom r (v / 65536) start
      let res : Bool × BulkCtx := if idx = r.length then (false, ctx)
        else
          let ctx' : BulkCtx := some (idx, keyAt r idx)
          if keyAt r idx ≠ v / 65536 then (false, ctx')
          else (containerContains (v % 65536) (contAt r idx), ctx')
      res.1 = rbContains r v ∧ CtxOK r res.2 := by
    intro start hs
    simp only
    rw [raAdvanceFrom_all h.sorted, show max start (lb (keysOf r) (v / 65536)) = lb (keysOf r) (v / 65536) by omega]
    have hmem : ∀ p ∈ r, p.1 = v / 65536 → lb (keysOf r) (v / 65536) < r.length ∧
        keyAt r (lb (keysOf r) (v / 65536)) = v / 65536 := by
      intro p hp e
      have hm : v / 65536 ∈ keysOf r := by simp only [keysOf, List.mem_map]; exact ⟨p, hp, e⟩
      have := (mem_iff_rdL_lb h.sorted (v / 65536)).1 hm
      have hl : lb (keysOf r) (v / 65536) < r.length := by simpa [keysOf] using this.1
      exact ⟨hl, by rw [← rdL_keys hl]; exact this.2⟩
    split
    · rename_i he
      refine ⟨(hnot fun p hp e => ?_).symm, hc⟩
      have := hmem p hp e
      omega
    · rename_i he
      have hl : lb (keysOf r) (v / 65536) < r.length := by omega
      have hok : CtxOK r (some (lb (keysOf r) (v / 65536), keyAt r (lb (keysOf r) (v / 65536)))) := by
        intro idx k e
        cases e
        exact ⟨hl, rfl⟩
      split
      · rename_i hk
        exact ⟨(hnot fun p hp e => hk (hmem p hp e).2).symm, hok⟩
      · rename_i hk
        exact ⟨hfound _ hl (by simpa using hk), hok⟩
  cases ctx with
  | none => exact hseek 0 (Nat.zero_le _)
  | some p =>
    obtain ⟨idx, k⟩ := p
    obtain ⟨h1, h2⟩ := hc idx k rfl
    simp only [rbContainsBulk]
    by_cases hk : k = v / 65536
    · rw [if_neg (by simpa using hk)]
      exact ⟨hfound idx h1 (by rw [h2, hk]), hc⟩
    · rw [if_pos hk]
      refine hseek _ ?_
      split
      · rename_i hlt
        exact lb_keyAt h.sorted h1 (by rw [h2]; exact hlt)
      · exact Nat.zero_le _

/-! ### remove_many -/

theorem rbRemoveManyStep_spec {r : Bitmap} (h : BInv r) {pos : Int} (hp : pos < r.length) (v : Nat) :
    (rbRemoveManyStep (r, pos) v).1 = rbRemove r v ∧
      (rbRemoveManyStep (r, pos) v).2 < (rbRemoveManyStep (r, pos) v).1.length := by
  have hpos : (if pos < 0 ∨ v / 65536 ≠ keyAt r pos.toNat then raGetIndex r (v / 65536) else pos) =
      raGetIndex r (v / 65536) := by
    split
    · rfl
    · rename_i hh
      have h1 : ¬ pos < 0 := fun hq => hh (Or.inl hq)
      have h2 : v / 65536 = keyAt r pos.toNat := Classical.byContradiction fun hq => hh (Or.inr hq)
      rw [h2, raGetIndex_keyAt h (by omega)]
      omega
  simp only [rbRemoveManyStep]
  rw [hpos]
  simp only [rbRemove]
  rcases ra_split h (v / 65536) with ⟨A, c, B, e, hA, hB, hi⟩ | ⟨A, B, e, hA, hB, hi⟩
  · have h0 : (A.length : Int) ≥ 0 := by omega
    rw [hi, if_pos h0, if_pos h0, Int.toNat_natCast]
    by_cases hn : containerNonzero (containerRemove (v % 65536) (contAt r A.length)) = true
    · rw [if_pos hn, if_pos hn]
      refine ⟨rfl, ?_⟩
      simp only [raSet, List.length_set]
      rw [e]; simp; omega
    · rw [if_neg hn, if_neg hn]
      exact ⟨rfl, by simp only; omega⟩
  · have h0 : ¬ (-((A.length : Int) + 1)) ≥ 0 := by omega
    rw [hi, if_neg h0, if_neg h0]
    exact ⟨rfl, by simp only; omega⟩

theorem rbRemoveMany_loop (vals : List Nat) : ∀ {r : Bitmap} (_ : BInv r) {pos : Int} (_ : pos < r.length)
    (_ : ∀ v ∈ vals, v < 4294967296),
    BInv (vals.foldl rbRemoveManyStep (r, pos)).1 ∧
      ∀ x, bhas (vals.foldl rbRemoveManyStep (r, pos)).1 x = (!decide (x ∈ vals) && bhas r x) := by
  induction vals with
  | nil => intro r h pos hp hv; exact ⟨h, fun x => by simp⟩
  | cons v vs ih =>
    intro r h pos hp hv
    have h1 := rbRemoveManyStep_spec h hp v
    have h2 := rbRemove_spec h (hv v (by simp))
    rw [h1.1] at h1
    have h3 := ih (r := rbRemove r v) h2.1 (pos := (rbRemoveManyStep (r, pos) v).2) h1.2
      (fun w hw => hv w (by simp [hw]))
    have e : rbRemoveManyStep (r, pos) v = (rbRemove r v, (rbRemoveManyStep (r, pos) v).2) :=
      Prod.ext (rbRemoveManyStep_spec h hp v).1 rfl
    rw [List.foldl_cons, e]
    refine ⟨h3.1, fun x => ?_⟩
    rw [h3.2, h2.2]
    simp only [Spec.erase, List.mem_cons]
    by_cases e : x = v
    · simp [e]
    · first
        | (rw [beq_eq_false_iff_ne.2 e]; simp [e])
        | (rw [bne_iff_ne.2 e]; simp [e])

theorem rbRemoveMany_spec {r : Bitmap} (h : BInv r) {vals : List Nat} (hv : ∀ v ∈ vals, v < 4294967296) :
    BInv (rbRemoveMany r vals) ∧ ∀ x, bhas (rbRemoveMany r vals) x = (!decide (x ∈ vals) && bhas r x) := by
  simp only [rbRemoveMany]
  split
  · rename_i h0
    refine ⟨h, fun x => ?_⟩
    rcases h0 with h0 | h0
    · have : vals = [] := List.length_eq_zero_iff.1 h0
      simp [this]
    · have : r = [] := List.length_eq_zero_iff.1 h0
      simp [this, bhas_nil]
  · exact rbRemoveMany_loop vals h (by omega) hv

/-! ### from_range -/

theorem progress_split {min step m m' x : Nat} (hs : 0 < step) (hm : min ≤ m) (hd : (m - min) % step = 0)
    (hm' : m ≤ m') :
    (decide (min ≤ x ∧ x < m ∧ (x - min) % step = 0) || decide (m ≤ x ∧ x < m' ∧ (x - m) % step = 0)) =
      decide (min ≤ x ∧ x < m' ∧ (x - min) % step = 0) := by
  rw [← Bool.decide_or]
  apply decide_eq_decide.2
  by_cases hx : x < m
  · constructor
    · rintro (h | h)
      · exact ⟨h.1, by omega, h.2.2⟩
      · omega
    · intro h; exact Or.inl ⟨h.1, hx, h.2.2⟩
  · have : (x - min) % step = (x - m) % step := by
      rw [show x - min = (x - m) + (m - min) by omega, Nat.add_mod, hd, Nat.add_zero, Nat.mod_mod]
    rw [this]
    constructor
    · rintro (h | h)
      · omega
      · exact ⟨by omega, h.2.1, h.2.2⟩
    · intro h; exact Or.inr ⟨by omega, h.2.1, h.2.2⟩

theorem fromRangeLoop_spec {min max step : Nat} (hs : 0 < step) (hmax : max ≤ 4294967296) :
    ∀ (fuel m : Nat) (ans : Bitmap), min ≤ m → m < max → (m - min) % step = 0 → 65536 - m / 65536 ≤ fuel →
      BInv ans → (∀ p ∈ ans, p.1 < m / 65536) →
      (∀ x, bhas ans x = decide (min ≤ x ∧ x < m ∧ (x - min) % step = 0)) →
      ∃ r, fromRangeLoop max step fuel m ans = some r ∧ BInv r ∧
        ∀ x, bhas r x = decide (min ≤ x ∧ x < max ∧ (x - min) % step = 0) := by
  intro fuel
  induction fuel with
  | zero => intro m ans h1 h2 h3 h4; omega
  | succ fuel ih =>
    intro m ans h1 h2 h3 h4 hb hk hx
    have ek : m % 4294967296 / 65536 = m / 65536 := by omega
    have ec : Nat.min (max - m / 65536 * 65536) 65536 = if max - m / 65536 * 65536 ≤ 65536 then max - m / 65536 * 65536 else 65536 := by
      split
      · exact Nat.min_eq_left (by omega)
      · exact Nat.min_eq_right (by omega)
    have hcm : m % 65536 < Nat.min (max - m / 65536 * 65536) 65536 := by rw [ec]; split <;> omega
    have hcm2 : Nat.min (max - m / 65536 * 65536) 65536 ≤ 65536 := Nat.min_le_right _ _
    obtain ⟨c, hc1, hc2⟩ := containerFromRange_spec (step := step) hs hcm hcm2
    have hcne : CNe c := hc2.cne (x := m % 65536) (by simp [hcm])
    have hB : BInv (ans ++ [(m / 65536, c)]) := by
      refine bp_append.2 ⟨hb, ⟨by omega, hcne, by simp, trivial⟩, ?_⟩
      intro p hp q hq
      simp only [List.mem_singleton] at hq
      subst hq
      exact hk p hp
    generalize hcx : Nat.min (max - m / 65536 * 65536) 65536 = cmax at *
    -- the next start of the loop
    have hg : ∃ q, cmax - m % 65536 + step - 1 - (cmax - m % 65536 + step - 1) % step = q * step ∧
        cmax - m % 65536 ≤ q * step ∧ q * step < cmax - m % 65536 + step := by
      refine ⟨(cmax - m % 65536 + step - 1) / step, ?_, ?_, ?_⟩
      · have := Nat.div_add_mod (cmax - m % 65536 + step - 1) step
        rw [Nat.mul_comm] at this
        omega
      · have := Nat.div_add_mod (cmax - m % 65536 + step - 1) step
        have h5 := Nat.mod_lt (cmax - m % 65536 + step - 1) hs
        rw [Nat.mul_comm] at this
        omega
      · have := Nat.div_mul_le_self (cmax - m % 65536 + step - 1) step
        omega
    obtain ⟨q, hq1, hq2, hq3⟩ := hg
    have hmem : ∀ x, bhas (ans ++ [(m / 65536, c)]) x =
        decide (min ≤ x ∧ x < m / 65536 * 65536 + cmax ∧ (x - min) % step = 0) := by
      intro x
      rw [bhas_append, hx, bhas_cons, bhas_nil, hc2.has, Bool.or_false]
      rw [← progress_split (m := m) (m' := m / 65536 * 65536 + cmax) hs h1 h3 (by omega)]
      congr 1
      by_cases e : m / 65536 = x / 65536
      · rw [beq_iff_eq.2 e, Bool.true_and]
        apply decide_eq_decide.2
        rw [show x % 65536 - m % 65536 = x - m by omega]
        constructor
        · intro h; exact ⟨by omega, by omega, h.2.2⟩
        · intro h; exact ⟨by omega, by omega, h.2.2⟩
      · rw [beq_eq_false_iff_ne.2 e, Bool.false_and]
        symm
        apply decide_eq_false
        intro h
        omega
    rw [fromRangeLoop]
    simp only [ek, hcx, hc1, Option.getD_some, hq1]
    by_cases hlast : m + q * step < max
    · rw [if_pos hlast]
      have hcm5 : cmax = 65536 := by
        split at ec <;> omega
      refine ih _ _ (by omega) hlast ?_ (by omega) hB ?_ ?_
      · rw [show m + q * step - min = (m - min) + q * step by omega, Nat.add_mul_mod_self_right, h3]
      · intro p hp
        rcases List.mem_append.1 hp with hp | hp
        · have := hk p hp; omega
        · simp only [List.mem_singleton] at hp
          subst hp
          simp only
          omega
      · intro x
        rw [hmem x]
        apply decide_eq_decide.2
        constructor
        · intro h; exact ⟨h.1, by omega, h.2.2⟩
        · intro h
          refine ⟨h.1, ?_, h.2.2⟩
          apply Classical.byContradiction
          intro hge
          -- no progression value strictly between the end of the container and the next start
          have h6 : (m + q * step - x) % step = 0 := by
            have h7 : (m + q * step - min) % step = 0 := by
              rw [show m + q * step - min = (m - min) + q * step by omega, Nat.add_mul_mod_self_right, h3]
            have h8 : m + q * step - min = (m + q * step - x) + (x - min) := by omega
            rw [h8, Nat.add_mod, h.2.2, Nat.add_zero, Nat.mod_mod] at h7
            exact h7
          rw [Nat.mod_eq_of_lt (by omega)] at h6
          omega
    · rw [if_neg hlast]
      refine ⟨_, rfl, hB, fun x => ?_⟩
      rw [hmem x]
      apply decide_eq_decide.2
      have hle : m / 65536 * 65536 + cmax ≤ max := by split at ec <;> omega
      constructor
      · intro h; exact ⟨h.1, by omega, h.2.2⟩
      · intro h
        refine ⟨h.1, ?_, h.2.2⟩
        apply Classical.byContradiction
        intro hge
        have h6 : (m + q * step - x) % step = 0 := by
          have h7 : (m + q * step - min) % step = 0 := by
            rw [show m + q * step - min = (m - min) + q * step by omega, Nat.add_mul_mod_self_right, h3]
          have h8 : m + q * step - min = (m + q * step - x) + (x - min) := by omega
          rw [h8, Nat.add_mod, h.2.2, Nat.add_zero, Nat.mod_mod] at h7
          exact h7
        rw [Nat.mod_eq_of_lt (by omega)] at h6
        omega

theorem fromRangeBig_spec {min max step : Nat} (hs : 65536 ≤ step)
    (hw : ∀ x, min ≤ x → x < max → (x - min) % step = 0 → x + step < 4294967296) (hmax : max ≤ 4294967296) :
    ∀ (fuel m : Nat) (ans : Bitmap), min ≤ m → m < 4294967296 → (m - min) % step = 0 →
      65537 - m / 65536 ≤ fuel →
      BInv ans → (∀ x, bhas ans x = decide (min ≤ x ∧ x < m ∧ (x - min) % step = 0)) →
      (m < max ∨ ∀ x, m ≤ x + step → min ≤ x → x < m → (x - min) % step = 0 → x < max) →
      ∃ r, fromRangeBig max step fuel m ans = some r ∧ BInv r ∧
        ∀ x, bhas r x = decide (min ≤ x ∧ x < max ∧ (x - min) % step = 0) := by
  intro fuel
  induction fuel with
  | zero => intro m ans h1 h2 h3 h4; omega
  | succ fuel ih =>
    intro m ans h1 h2 h3 h4 hb hx hlast
    rw [fromRangeBig]
    by_cases hm : m < max
    · rw [if_pos hm]
      have h5 := hw m h1 hm h3
      rw [Nat.mod_eq_of_lt h5]
      have h6 := rbAdd_spec hb (v := m) h2
      have h7 : (m + step - min) % step = 0 := by
        rw [show m + step - min = (m - min) + step by omega, Nat.add_mod_right, h3]
      refine ih (m + step) (rbAdd ans m) (by omega) h5 h7 (by omega) h6.1 ?_ ?_
      · intro x
        rw [h6.2]
        simp only [Spec.insert]
        rw [hx, ← progress_split (m := m) (m' := m + step) (by omega) h1 h3 (by omega), Bool.or_comm]
        congr 1
        by_cases e : x = m
        · subst e; simp; omega
        · rw [beq_eq_false_iff_ne.2 e]
          symm
          apply decide_eq_false
          rintro ⟨a1, a2, a3⟩
          rw [Nat.mod_eq_of_lt (by omega)] at a3
          omega
      · right
        intro x a1 a2 a3 a4
        apply Classical.byContradiction
        intro hge
        have h8 : (m + step - x) % step = 0 := by
          have h9 : m + step - min = (m + step - x) + (x - min) := by omega
          rw [h9, Nat.add_mod, a4, Nat.add_zero, Nat.mod_mod] at h7
          exact h7
        rw [Nat.mod_eq_of_lt (by omega)] at h8
        omega
    · rw [if_neg hm]
      refine ⟨ans, rfl, hb, fun x => ?_⟩
      rw [hx]
      apply decide_eq_decide.2
      constructor
      · rintro ⟨a1, a2, a3⟩
        refine ⟨a1, ?_, a3⟩
        rcases hlast with hlast | hlast
        · omega
        · by_cases hq : m ≤ x + step
          · exact hlast x hq a1 a2 a3
          · -- an earlier value is below the last one
            have h8 : (m - step - min) % step = 0 := by
              have : m - min = (m - step - min) + step := by omega
              rw [this, Nat.add_mod_right] at h3
              exact h3
            have := hlast (m - step) (by omega) (by omega) (by omega) h8
            omega
      · rintro ⟨a1, a2, a3⟩
        exact ⟨a1, by omega, a3⟩

theorem rbFromRange_spec {fuel min max step : Nat} (hf : 65537 ≤ fuel) (hs : 0 < step)
    (hmm : min < Nat.min max 4294967296)
    (hw : step < 65536 ∨ ∀ x, min ≤ x → x < Nat.min max 4294967296 → (x - min) % step = 0 → x + step < 4294967296) :
    ∃ r, rbFromRange fuel min max step = some (some r) ∧ BInv r ∧
      ∀ x, bhas r x = decide (min ≤ x ∧ x < Nat.min max 4294967296 ∧ (x - min) % step = 0) := by
  have em : (if max ≥ 4294967296 then 4294967296 else max) = Nat.min max 4294967296 := by
    split
    · exact (Nat.min_eq_right (by omega)).symm
    · exact (Nat.min_eq_left (by omega)).symm
  have hle : Nat.min max 4294967296 ≤ 4294967296 := Nat.min_le_right _ _
  simp only [rbFromRange, em]
  generalize Nat.min max 4294967296 = mx at *
  rw [if_neg (by omega), if_neg (by omega)]
  have hnil : ∀ x, bhas [] x = decide (min ≤ x ∧ x < min ∧ (x - min) % step = 0) := by
    intro x
    rw [bhas_nil]; symm; apply decide_eq_false; omega
  by_cases hb : step ≥ 65536
  · rw [if_pos hb]
    rcases hw with hw | hw
    · omega
    · obtain ⟨r, h1, h2, h3⟩ := fromRangeBig_spec hb hw hle fuel min [] (Nat.le_refl _) (by omega)
        (by simp) (by omega) trivial hnil (Or.inl hmm)
      exact ⟨r, by rw [h1]; rfl, h2, h3⟩
  · rw [if_neg hb]
    obtain ⟨r, h1, h2, h3⟩ := fromRangeLoop_spec hs hle fuel min [] (Nat.le_refl _) hmm (by simp) (by omega)
      trivial (by simp) hnil
    exact ⟨r, by rw [h1]; rfl, h2, h3⟩

theorem fromRangeBig_diverges (fuel : Nat) : ∀ ans,
    fromRangeBig 4294967296 2147483648 fuel 0 ans = none ∧
    fromRangeBig 4294967296 2147483648 fuel 2147483648 ans = none := by
  induction fuel with
  | zero => intro ans; exact ⟨rfl, rfl⟩
  | succ n ih =>
    intro ans
    constructor
    · rw [fromRangeBig, if_pos (by omega)]
      exact (ih _).2
    · rw [fromRangeBig, if_pos (by omega)]
      exact (ih _).1

end CRoaring
