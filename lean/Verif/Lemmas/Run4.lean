import Verif.Lemmas.Run3
set_option linter.unusedSimpArgs false
set_option linter.unusedVariables false

namespace CRoaring
open Spec

/-! ### Index searches over runs -/

theorem rdR_eq {rs : List Rle} {i : Nat} (h : i < rs.length) : rdR rs i = rs[i] := by
  simp [rdR, h]

theorem rdR_mem {rs : List Rle} {i : Nat} (h : i < rs.length) : rdR rs i ∈ rs := by
  rw [rdR_eq h]; exact List.getElem_mem h

theorem RunOK.idx {rs : List Rle} (h : RunOK rs) {i j : Nat} (hij : i < j) (hj : j < rs.length) :
    (rdR rs i).1 + (rdR rs i).2 + 1 < (rdR rs j).1 := by
  rw [rdR_eq hj, rdR_eq (by omega)]
  exact List.pairwise_iff_getElem.1 h.gap i j (by omega) hj hij

theorem split_mono {rs : List Rle} (p : Rle → Bool)
    (hp : rs.Pairwise (fun a b => p b = true → p a = true)) :
    ∃ A B, rs = A ++ B ∧ (∀ a ∈ A, p a = true) ∧ ∀ b ∈ B, p b = false := by
  induction rs with
  | nil => exact ⟨[], [], rfl, by simp, by simp⟩
  | cons r rs ih =>
    have hp' := List.pairwise_cons.1 hp
    obtain ⟨A, B, hAB, hA, hB⟩ := ih hp'.2
    cases hr : p r with
    | true => exact ⟨r :: A, B, by rw [hAB]; rfl, by simpa [hr] using hA, hB⟩
    | false =>
      refine ⟨[], r :: rs, rfl, by simp, fun b hb => ?_⟩
      rcases List.mem_cons.1 hb with rfl | hb
      · exact hr
      · cases hpb : p b with
        | false => rfl
        | true => have := hp'.1 b hb hpb; rw [hr] at this; exact absurd this (by simp)

theorem split_end {rs : List Rle} (h : RunOK rs) (k : Nat) :
    ∃ A B, rs = A ++ B ∧ (∀ a ∈ A, a.1 + a.2 < k) ∧ ∀ b ∈ B, k ≤ b.1 + b.2 := by
  obtain ⟨A, B, h1, h2, h3⟩ := split_mono (rs := rs) (fun r => decide (r.1 + r.2 < k))
    (h.gap.imp (fun {a b} hab => by simp; omega))
  exact ⟨A, B, h1, fun a ha => by simpa using h2 a ha, fun b hb => by simpa using h3 b hb⟩

theorem split_start {rs : List Rle} (h : RunOK rs) (k : Nat) :
    ∃ A B, rs = A ++ B ∧ (∀ a ∈ A, a.1 ≤ k) ∧ ∀ b ∈ B, k < b.1 := by
  obtain ⟨A, B, h1, h2, h3⟩ := split_mono (rs := rs) (fun r => decide (r.1 ≤ k))
    (h.gap.imp (fun {a b} hab => by simp; omega))
  exact ⟨A, B, h1, fun a ha => by simpa using h2 a ha, fun b hb => by simpa using h3 b hb⟩

theorem rdR_left {A B : List Rle} {i : Nat} (h : i < A.length) : rdR (A ++ B) i = rdR A i := by
  simp [rdR, List.getElem?_append_left h]

theorem rdR_right {A B : List Rle} (i : Nat) : rdR (A ++ B) (A.length + i) = rdR B i := by
  simp [rdR, List.getElem?_append_right]

theorem findRunLoop_eq {A B : List Rle} {k : Nat} (h : RunOK (A ++ B)) (hA : ∀ a ∈ A, a.1 + a.2 < k)
    (hB : ∀ b ∈ B, k ≤ b.1 + b.2) (low high : Int) (hl : 0 ≤ low) (hl2 : low ≤ A.length)
    (hh : (A.length : Int) ≤ high + 1) (hh2 : high + 1 ≤ (A ++ B).length)
    (hinv : high + 1 < (A ++ B).length → k < (rdR (A ++ B) (high + 1).toNat).1) :
    findRunLoop (A ++ B) k low high =
      if 0 < B.length ∧ (rdR B 0).1 ≤ k then (A.length : Int) else -((A.length : Int) + 1) := by
  fun_induction findRunLoop (A ++ B) k low high with
  | case1 low high hlh mid mx hc ih =>
    have hmid : mid = (low + high) / 2 := rfl
    clear_value mid
    have hm1 : mid.toNat < (A ++ B).length := by omega
    have hlt := h.lt _ (rdR_mem hm1)
    have hmx : mx = (rdR (A ++ B) mid.toNat).1 + (rdR (A ++ B) mid.toNat).2 := Nat.mod_eq_of_lt hlt
    have : mid.toNat < A.length := by
      rcases Nat.lt_or_ge mid.toNat A.length with h1 | h1
      · exact h1
      · exfalso
        obtain ⟨j, hj⟩ := Nat.exists_eq_add_of_le h1
        have h2 := rdR_right (A := A) (B := B) j
        rw [← hj] at h2
        have := hB (rdR B j) (rdR_mem (by simp at hm1; omega))
        rw [h2] at hmx; omega
    exact ih (by omega) (by omega) hh hh2 hinv
  | case2 low high hlh mid mn mx hc hc2 ih =>
    have hmid : mid = (low + high) / 2 := rfl
    clear_value mid
    have hm1 : mid.toNat < (A ++ B).length := by omega
    have : A.length ≤ mid.toNat := by
      rcases Nat.lt_or_ge mid.toNat A.length with h1 | h1
      · exfalso
        have := hA _ (rdR_mem h1)
        simp only [mn, rdR_left h1] at hc2; omega
      · exact h1
    exact ih hl hl2 (by omega) (by omega) (fun _ => by
      rw [show (mid - 1 + 1).toNat = mid.toNat by omega]; exact hc2)
  | case3 low high hlh mid mn mx hc hc2 =>
    have hmid : mid = (low + high) / 2 := rfl
    clear_value mid
    have hm1 : mid.toNat < (A ++ B).length := by omega
    have hlt := h.lt _ (rdR_mem hm1)
    have hmx : mx = (rdR (A ++ B) mid.toNat).1 + (rdR (A ++ B) mid.toNat).2 := Nat.mod_eq_of_lt hlt
    have h1 : A.length ≤ mid.toNat := by
      rcases Nat.lt_or_ge mid.toNat A.length with h1 | h1
      · exfalso
        have := hA _ (rdR_mem h1)
        rw [rdR_left h1] at hmx; omega
      · exact h1
    have hBl : 0 < B.length := by simp at hm1; omega
    have h0 := rdR_right (A := A) (B := B) 0
    have h2 : mid.toNat = A.length := by
      rcases Nat.lt_or_ge A.length mid.toNat with h3 | h3
      · exfalso
        have h4 := h.idx h3 hm1
        have h5 := hB (rdR B 0) (rdR_mem hBl)
        rw [Nat.add_zero] at h0
        rw [h0] at h4
        simp only [mn] at hc2; omega
      · omega
    rw [if_pos ⟨hBl, by rw [← h0, Nat.add_zero, ← h2]; simp only [mn] at hc2; omega⟩]
    omega
  | case4 low high hlh =>
    rw [if_neg]
    · omega
    · rintro ⟨hBl, h1⟩
      have h2 := hinv (by simp; omega)
      have h0 := rdR_right (A := A) (B := B) 0
      rw [show (high + 1).toNat = A.length + 0 by omega, h0] at h2
      omega

theorem findRun_eq {A B : List Rle} {k : Nat} (h : RunOK (A ++ B)) (hA : ∀ a ∈ A, a.1 + a.2 < k)
    (hB : ∀ b ∈ B, k ≤ b.1 + b.2) :
    rle16FindRun (A ++ B) k =
      if 0 < B.length ∧ (rdR B 0).1 ≤ k then (A.length : Int) else -((A.length : Int) + 1) := by
  unfold rle16FindRun
  apply findRunLoop_eq h hA hB
  · omega
  · omega
  · simp; omega
  · omega
  · intro h; omega

theorem rleCountLessLoop_eq {A B C : List Rle} {k : Nat} (h : RunOK (A ++ B ++ C)) (hA : ∀ a ∈ A, a.1 + a.2 + 1 < k)
    (hB : ∀ b ∈ B, k ≤ b.1 + b.2 + 1) (low high : Int) (hl : 0 ≤ low) (hl2 : low ≤ A.length)
    (hh : (A.length : Int) ≤ high + 1) (hh2 : high + 1 ≤ (A ++ B).length) :
    rleCountLessLoop (A ++ B ++ C) k low high = A.length := by
  have hl3 : (A ++ B).length ≤ (A ++ B ++ C).length := by simp
  have hright : ∀ i, A.length ≤ i → i < (A ++ B).length → k ≤ (rdR (A ++ B ++ C) i).1 + (rdR (A ++ B ++ C) i).2 + 1 := by
    intro i h1 h2
    obtain ⟨j, rfl⟩ := Nat.exists_eq_add_of_le h1
    rw [rdR_left h2, rdR_right]
    exact hB _ (rdR_mem (by simp at h2; omega))
  have hleft : ∀ i, i < A.length → (rdR (A ++ B ++ C) i).1 + (rdR (A ++ B ++ C) i).2 + 1 < k := by
    intro i h1
    rw [rdR_left (by simp; omega), rdR_left h1]
    exact hA _ (rdR_mem h1)
  fun_induction rleCountLessLoop (A ++ B ++ C) k low high with
  | case1 low high hlh mid mx hc ih =>
    have hmid : mid = (low + high) / 2 := rfl
    clear_value mid
    have hm1 : mid.toNat < (A ++ B).length := by omega
    have hlt := h.lt _ (rdR_mem (Nat.lt_of_lt_of_le hm1 hl3))
    have hmx : mx = (rdR (A ++ B ++ C) mid.toNat).1 + (rdR (A ++ B ++ C) mid.toNat).2 := Nat.mod_eq_of_lt hlt
    have : mid.toNat < A.length := by
      rcases Nat.lt_or_ge mid.toNat A.length with h1 | h1
      · exact h1
      · have := hright _ h1 hm1; omega
    exact ih (by omega) (by omega) hh hh2
  | case2 low high hlh mid mn mx hc hc2 ih =>
    have hmid : mid = (low + high) / 2 := rfl
    clear_value mid
    have : A.length ≤ mid.toNat := by
      rcases Nat.lt_or_ge mid.toNat A.length with h1 | h1
      · have := hleft _ h1
        simp only [mn] at hc2; omega
      · exact h1
    exact ih hl hl2 (by omega) (by omega)
  | case3 low high hlh mid mn mx hc hc2 =>
    have hmid : mid = (low + high) / 2 := rfl
    clear_value mid
    have hm1 : mid.toNat < (A ++ B).length := by omega
    have hm2 := Nat.lt_of_lt_of_le hm1 hl3
    have hlt := h.lt _ (rdR_mem hm2)
    have hmx : mx = (rdR (A ++ B ++ C) mid.toNat).1 + (rdR (A ++ B ++ C) mid.toNat).2 := Nat.mod_eq_of_lt hlt
    simp only [mn] at hc2
    have h1 : A.length ≤ mid.toNat := by
      rcases Nat.lt_or_ge mid.toNat A.length with h1 | h1
      · have := hleft _ h1; omega
      · exact h1
    rcases Nat.lt_or_ge A.length mid.toNat with h3 | h3
    · have h4 := h.idx h3 hm2
      have := hright A.length (by omega) (by omega)
      omega
    · omega
  | case4 low high hlh => omega

theorem rle16CountLess_eq {A B C : List Rle} {k : Nat} (h : RunOK (A ++ B ++ C)) (hA : ∀ a ∈ A, a.1 + a.2 + 1 < k)
    (hB : ∀ b ∈ B, k ≤ b.1 + b.2 + 1) : rle16CountLess (A ++ B ++ C) (A ++ B).length k = A.length := by
  unfold rle16CountLess
  split
  · rename_i h0; simp at h0; simp [h0.1]
  · apply rleCountLessLoop_eq h hA hB
    · omega
    · omega
    · simp; omega
    · omega

theorem rleCountGreaterLoop_eq {A B : List Rle} {k : Nat} (h : RunOK (A ++ B)) (hA : ∀ a ∈ A, a.1 ≤ k + 1)
    (hB : ∀ b ∈ B, k + 1 < b.1) (low high : Int) (hl : 0 ≤ low) (hl2 : low ≤ A.length)
    (hh : (A.length : Int) ≤ high + 1) (hh2 : high + 1 ≤ (A ++ B).length) :
    rleCountGreaterLoop (A ++ B) (A ++ B).length k low high = B.length := by
  have hlen : (A ++ B).length = A.length + B.length := by simp
  have hright : ∀ i, A.length ≤ i → i < (A ++ B).length → k + 1 < (rdR (A ++ B) i).1 := by
    intro i h1 h2
    obtain ⟨j, rfl⟩ := Nat.exists_eq_add_of_le h1
    rw [rdR_right]
    exact hB _ (rdR_mem (by simp at h2; omega))
  have hleft : ∀ i, i < A.length → (rdR (A ++ B) i).1 ≤ k + 1 := by
    intro i h1
    rw [rdR_left h1]
    exact hA _ (rdR_mem h1)
  fun_induction rleCountGreaterLoop (A ++ B) (A ++ B).length k low high with
  | case1 low high hlh mid mx hc ih =>
    have hmid : mid = (low + high) / 2 := rfl
    clear_value mid
    have hm1 : mid.toNat < (A ++ B).length := by omega
    have hlt := h.lt _ (rdR_mem hm1)
    have hmx : mx = (rdR (A ++ B) mid.toNat).1 + (rdR (A ++ B) mid.toNat).2 := Nat.mod_eq_of_lt hlt
    have : mid.toNat < A.length := by
      rcases Nat.lt_or_ge mid.toNat A.length with h1 | h1
      · exact h1
      · have := hright _ h1 hm1; omega
    exact ih (by omega) (by omega) hh hh2
  | case2 low high hlh mid mn mx hc hc2 ih =>
    have hmid : mid = (low + high) / 2 := rfl
    clear_value mid
    have : A.length ≤ mid.toNat := by
      rcases Nat.lt_or_ge mid.toNat A.length with h1 | h1
      · have := hleft _ h1
        simp only [mn] at hc2; omega
      · exact h1
    exact ih hl hl2 (by omega) (by omega)
  | case3 low high hlh mid mn mx hc hc2 =>
    have hmid : mid = (low + high) / 2 := rfl
    clear_value mid
    have hm1 : mid.toNat < (A ++ B).length := by omega
    have hlt := h.lt _ (rdR_mem hm1)
    have hmx : mx = (rdR (A ++ B) mid.toNat).1 + (rdR (A ++ B) mid.toNat).2 := Nat.mod_eq_of_lt hlt
    simp only [mn] at hc2
    have h1 : mid.toNat < A.length := by
      rcases Nat.lt_or_ge mid.toNat A.length with h1 | h1
      · exact h1
      · have := hright _ h1 hm1; omega
    rcases Nat.lt_or_ge (mid.toNat + 1) A.length with h3 | h3
    · have h4 := h.idx (Nat.lt_succ_self mid.toNat) (j := mid.toNat + 1) (by omega)
      have := hleft _ h3
      omega
    · omega
  | case4 low high hlh => omega

theorem rle16CountGreater_eq {A B : List Rle} {k : Nat} (h : RunOK (A ++ B)) (hA : ∀ a ∈ A, a.1 ≤ k + 1)
    (hB : ∀ b ∈ B, k + 1 < b.1) : rle16CountGreater (A ++ B) (A ++ B).length k = B.length := by
  unfold rle16CountGreater
  split
  · rename_i h0; simp at h0; simp [h0.2]
  · apply rleCountGreaterLoop_eq h hA hB
    · omega
    · omega
    · simp; omega
    · omega

/-- How `[min, max]` cuts a list of runs for `add_range`. -/
theorem addRange_split {rs : List Rle} (h : RunOK rs) {mn mx : Nat} (hm : mn ≤ mx) :
    ∃ A B C, rs = A ++ B ++ C ∧ (∀ a ∈ A, a.1 + a.2 + 1 < mn) ∧ (∀ b ∈ B, mn ≤ b.1 + b.2 + 1 ∧ b.1 ≤ mx + 1) ∧
      (∀ c ∈ C, mx + 1 < c.1) ∧ rle16CountGreater rs rs.length mx = C.length ∧
      rle16CountLess rs (rs.length - C.length) mn = A.length := by
  obtain ⟨AB, C, rfl, h1, h2⟩ := split_start h (mx + 1)
  have hAB := runOK_append.1 h
  obtain ⟨A, B, rfl, h3, h4⟩ := split_end hAB.1 (mn - 1)
  refine ⟨A, B, C, rfl, fun a ha => by have := h3 a ha; omega, fun b hb => ⟨by have := h4 b hb; omega, h1 b (by simp [hb])⟩, h2, ?_, ?_⟩
  · exact rle16CountGreater_eq h h1 h2
  · rw [show (A ++ B ++ C).length - C.length = (A ++ B).length by simp; omega]
    exact rle16CountLess_eq h (fun a ha => by have := h3 a ha; omega) (fun b hb => by have := h4 b hb; omega)

theorem head_last_bounds {b l : Rle} {M : List Rle} (h : RunOK (b :: (M ++ [l]))) :
    b.1 + b.2 + 1 < l.1 ∧ ∀ y, runHas M y = true → b.1 + b.2 + 1 < y ∧ y + 1 < l.1 := by
  have hk := runOK_cons.1 h
  have hk2 := runOK_mid.1 hk.2.2
  refine ⟨hk.2.1 l (by simp), fun y hy => ⟨?_, has_lt hk2.2.2.2.1 hy⟩⟩
  exact has_gt (post := M) (fun q hq => hk.2.1 q (by simp [hq])) hy

theorem cases3 (B : List Rle) : B = [] ∨ (∃ b, B = [b]) ∨ ∃ b M l, B = b :: (M ++ [l]) := by
  cases B with
  | nil => exact Or.inl rfl
  | cons b B =>
    rcases List.eq_nil_or_concat B with rfl | ⟨M, l, rfl⟩
    · exact Or.inr (Or.inl ⟨b, rfl⟩)
    · rw [List.concat_eq_append]; exact Or.inr (Or.inr ⟨b, M, l, rfl⟩)

theorem runAddRange_spec {rs : List Rle} (h : RunOK rs) {mn mx : Nat} (hm : mn ≤ mx) (hx : mx < 65536)
    {ng nl : Nat} (hng : (ng : Int) = rle16CountGreater rs rs.length mx)
    (hnl : (nl : Int) = rle16CountLess rs (rs.length - ng) mn) :
    RunOK (runAddRangeNruns rs mn mx nl ng) ∧
      ∀ y, runHas (runAddRangeNruns rs mn mx nl ng) y = (runHas rs y || decide (mn ≤ y ∧ y ≤ mx)) := by
  obtain ⟨A, B, C, rfl, hA, hB, hC, hg, hl⟩ := addRange_split h hm
  rw [hg] at hng
  have : ng = C.length := by omega
  subst this
  rw [hl] at hnl
  have : nl = A.length := by omega
  subst this
  clear hg hl hng hnl
  have hAC := runOK_append.1 h
  have hA0 := runOK_append.1 hAC.1
  unfold runAddRangeNruns
  simp only
  rw [show (A ++ B ++ C).length - A.length - C.length = B.length by simp]
  have hdrop : (A ++ B ++ C).drop ((A ++ B ++ C).length - C.length) = C := by
    rw [show (A ++ B ++ C).length - C.length = (A ++ B).length by simp; omega, List.drop_left]
  have htake : (A ++ B ++ C).take A.length = A := by rw [List.append_assoc, List.take_left]
  rw [hdrop, htake]
  rcases cases3 B with rfl | ⟨b, rfl⟩ | ⟨b, M, l, rfl⟩
  · simp only [List.length_nil, if_true, List.append_nil] at h ⊢
    rw [insertRunAt, List.take_left, List.drop_left, Nat.mod_eq_of_lt (by omega), u16_eq (n := mx - mn) (by omega) (by omega)]
    refine ⟨runOK_mid.2 ⟨hA0.1, hAC.2.1, by simp; omega, by simpa using hA, fun c hc => by have := hC c hc; simp; omega⟩, fun y => ?_⟩
    simp only [runHas_append, runHas_cons]; grind
  · have hb := hB b (by simp)
    have hk := runOK_cons.1 hA0.2.1
    rw [if_neg (by simp)]
    have h1 : rdR (A ++ [b] ++ C) A.length = b := by rw [List.append_assoc]; exact rdR_mid A b C
    simp only [List.length_singleton, Nat.add_sub_cancel, h1]
    generalize hmn : (if b.1 < mn then b.1 else mn) = rmn
    generalize hmx : (if b.1 + b.2 > mx then b.1 + b.2 else mx) = rmx
    have hle : rmn ≤ rmx ∧ rmx < 65536 ∧ rmn = min b.1 mn ∧ rmx = max (b.1 + b.2) mx := by
      refine ⟨?_, ?_, ?_, ?_⟩ <;> (subst hmn hmx; (repeat' split) <;> omega)
    clear hmn hmx
    rw [Nat.mod_eq_of_lt (by omega), u16_eq (n := rmx - rmn) (by omega) (by omega)]
    refine ⟨runOK_mid.2 ⟨hA0.1, hAC.2.1, by simp; omega, fun a ha => ?_, fun c hc => ?_⟩, fun y => ?_⟩
    · have := hA a ha; have := hA0.2.2 a ha b (by simp); simp; omega
    · have := hC c hc; have := hAC.2.2 b (by simp) c hc; simp; omega
    · simp only [runHas_append, runHas_cons, runHas_nil]; grind
  · have hb := hB b (by simp)
    have hl := hB l (by simp)
    have hbd := head_last_bounds hA0.2.1
    have hk := runOK_cons.1 hA0.2.1
    have hlt := (runOK_mid.1 hk.2.2).2.2.1
    rw [if_neg (by simp)]
    have h1 : rdR (A ++ (b :: (M ++ [l])) ++ C) A.length = b := by rw [List.append_assoc]; exact rdR_mid A b _
    have h2 : rdR (A ++ (b :: (M ++ [l])) ++ C) (A.length + (b :: (M ++ [l])).length - 1) = l := by
      have := rdR_mid (A ++ b :: M) l C
      simp at this ⊢
      exact this
    simp only [h1, h2]
    generalize hmn : (if b.1 < mn then b.1 else mn) = rmn
    generalize hmx : (if l.1 + l.2 > mx then l.1 + l.2 else mx) = rmx
    have hle : rmn ≤ rmx ∧ rmx < 65536 ∧ rmn = min b.1 mn ∧ rmx = max (l.1 + l.2) mx := by
      refine ⟨?_, ?_, ?_, ?_⟩ <;> (subst hmn hmx; (repeat' split) <;> omega)
    clear hmn hmx
    rw [Nat.mod_eq_of_lt (by omega), u16_eq (n := rmx - rmn) (by omega) (by omega)]
    refine ⟨runOK_mid.2 ⟨hA0.1, hAC.2.1, by simp; omega, fun a ha => ?_, fun c hc => ?_⟩, fun y => ?_⟩
    · have := hA a ha; have := hA0.2.2 a ha b (by simp); simp; omega
    · have := hC c hc; have := hAC.2.2 l (by simp) c hc; simp; omega
    · have := hbd.2 y
      simp only [runHas_append, runHas_cons, runHas_nil]; grind

/-! ### Removing a range -/

theorem runOK_replace {A B C X : List Rle} (h : RunOK (A ++ B ++ C)) (hX : RunOK X)
    (hlo : ∀ x ∈ X, ∃ b ∈ B, b.1 ≤ x.1) (hhi : ∀ x ∈ X, ∃ b ∈ B, x.1 + x.2 ≤ b.1 + b.2) : RunOK (A ++ X ++ C) := by
  have h1 := runOK_append.1 h
  have h2 := runOK_append.1 h1.1
  refine runOK_append.2 ⟨runOK_append.2 ⟨h2.1, hX, fun a ha x hx => ?_⟩, h1.2.1, fun x hx c hc => ?_⟩
  · obtain ⟨b, hb, h3⟩ := hlo x hx
    have := h2.2.2 a ha b hb; omega
  · rcases List.mem_append.1 hx with hx | hx
    · exact h1.2.2 x (by simp [hx]) c hc
    · obtain ⟨b, hb, h3⟩ := hhi x hx
      have := h1.2.2 b (by simp [hb]) c hc; omega

theorem removeRange_finish {A B C X : List Rle} {mn mx : Nat} (h : RunOK (A ++ B ++ C)) (hX : RunOK X)
    (hA : ∀ a ∈ A, a.1 + a.2 < mn) (hC : ∀ c ∈ C, mx < c.1)
    (hlo : ∀ x ∈ X, ∃ b ∈ B, b.1 ≤ x.1) (hhi : ∀ x ∈ X, ∃ b ∈ B, x.1 + x.2 ≤ b.1 + b.2)
    (hh : ∀ y, runHas X y = (runHas B y && !decide (mn ≤ y ∧ y ≤ mx))) :
    RunOK (A ++ X ++ C) ∧ ∀ y, runHas (A ++ X ++ C) y = (runHas (A ++ B ++ C) y && !decide (mn ≤ y ∧ y ≤ mx)) := by
  refine ⟨runOK_replace h hX hlo hhi, fun y => ?_⟩
  simp only [runHas_append, hh]
  have h1 : runHas A y = true → y < mn := fun hy => by
    obtain ⟨r, hr, h1⟩ := runHas_iff.1 hy; have := hA r hr; omega
  have h2 : runHas C y = true → mx < y := has_gt hC
  grind

theorem rr_mid {b : Rle} {mn mx y : Nat} (h1 : b.1 < mn) (hm : mn ≤ mx) (h3 : mx < b.1 + b.2) :
    runHas [(b.1, mn - 1 - b.1), (mx + 1, b.1 + b.2 - (mx + 1))] y = (runHas [b] y && !decide (mn ≤ y ∧ y ≤ mx)) := by
  obtain ⟨s, l⟩ := b
  simp only [runHas_cons, runHas_nil] at *
  bgrind

theorem rr_cut {b : Rle} {mn mx y : Nat} (h1 : mn ≤ b.1) (hm : b.1 ≤ mx) (h3 : mx < b.1 + b.2) :
    runHas [(mx + 1, b.1 + b.2 - (mx + 1))] y = (runHas [b] y && !decide (mn ≤ y ∧ y ≤ mx)) := by
  obtain ⟨s, l⟩ := b
  simp only [runHas_cons, runHas_nil] at *
  bgrind

theorem rr_all {b : Rle} {mn mx y : Nat} (h1 : mn ≤ b.1) (h3 : ¬ mx < b.1 + b.2) :
    runHas [] y = (runHas [b] y && !decide (mn ≤ y ∧ y ≤ mx)) := by
  obtain ⟨s, l⟩ := b
  simp only [runHas_cons, runHas_nil] at *
  bgrind

theorem rr_left {b : Rle} {mn mx y : Nat} (h1 : b.1 < mn) (h2 : mn ≤ b.1 + b.2) (h3 : ¬ mx < b.1 + b.2) :
    runHas [(b.1, mn - 1 - b.1)] y = (runHas [b] y && !decide (mn ≤ y ∧ y ≤ mx)) := by
  obtain ⟨s, l⟩ := b
  simp only [runHas_cons, runHas_nil] at *
  bgrind

theorem rr_T {l : Rle} {mx y : Nat} (h : l.1 ≤ mx) :
    runHas (if mx < l.1 + l.2 then [(mx + 1, l.1 + l.2 - (mx + 1))] else []) y =
      (decide (l.1 ≤ y ∧ y ≤ l.1 + l.2) && decide (mx < y)) := by
  obtain ⟨s, l⟩ := l
  split
  · simp only [runHas_cons, runHas_nil] at *; bgrind
  · simp only [runHas_nil] at *; bgrind

theorem rr_two {b l : Rle} {M : List Rle} {mn mx y : Nat} (h1 : b.1 < mn) (h2 : mn ≤ b.1 + b.2) (h3 : b.1 + b.2 + 1 < l.1)
    (h4 : l.1 ≤ mx) (hM : runHas M y = true → b.1 + b.2 + 1 < y ∧ y + 1 < l.1) :
    runHas ([(b.1, mn - 1 - b.1)] ++ (if mx < l.1 + l.2 then [(mx + 1, l.1 + l.2 - (mx + 1))] else [])) y =
      (runHas (b :: (M ++ [l])) y && !decide (mn ≤ y ∧ y ≤ mx)) := by
  rw [runHas_append, rr_T h4]
  obtain ⟨bs, bl⟩ := b
  obtain ⟨ls, ll⟩ := l
  simp only [runHas_append, runHas_cons, runHas_nil] at *
  generalize runHas M y = m at *
  cases m with
  | false => simp only [Bool.false_or]; bgrind
  | true =>
    have := hM rfl
    bgrind

theorem rr_right {b l : Rle} {M : List Rle} {mn mx y : Nat} (h1 : ¬ b.1 < mn) (h3 : b.1 + b.2 + 1 < l.1)
    (h4 : l.1 ≤ mx) (hM : runHas M y = true → b.1 + b.2 + 1 < y ∧ y + 1 < l.1) :
    runHas (if mx < l.1 + l.2 then [(mx + 1, l.1 + l.2 - (mx + 1))] else []) y =
      (runHas (b :: (M ++ [l])) y && !decide (mn ≤ y ∧ y ≤ mx)) := by
  rw [rr_T h4]
  obtain ⟨bs, bl⟩ := b
  obtain ⟨ls, ll⟩ := l
  simp only [runHas_append, runHas_cons, runHas_nil] at *
  generalize runHas M y = m at *
  cases m with
  | false => simp only [Bool.false_or]; bgrind
  | true =>
    have := hM rfl
    bgrind

theorem removeTail (P Q C : List Rle) (l : Rle) (mx : Nat) (hl : l.1 + l.2 < 65536) (last : Int)
    (hlast : last = if mx ≤ l.1 + l.2 then ((P.length + Q.length : Nat) : Int) else -(((P.length + Q.length : Nat) : Int) + 2)) :
    (let rs1 := P ++ (Q ++ l :: C)
     let rl := rdR rs1 last.toNat
     let run_max := (rl.1 + rl.2) % 65536
     let rs2 := if last ≥ 0 ∧ run_max > mx then
        rs1.set last.toNat ((mx + 1) % 65536, u16 ((run_max : Int) - (mx + 1))) else rs1
     let last1 := if last ≥ 0 then (if run_max > mx then last - 1 else last) else (-last - 1) - 1
     if (P.length : Int) ≤ last1 then rs2.take P.length ++ rs2.drop (last1 + 1).toNat else rs2) =
    P ++ (if mx < l.1 + l.2 then [(mx + 1, l.1 + l.2 - (mx + 1))] else []) ++ C := by
  have hrd : rdR (P ++ (Q ++ l :: C)) (P.length + Q.length) = l := by
    have := rdR_mid (P ++ Q) l C
    simpa using this
  have hset : ∀ x, (P ++ (Q ++ l :: C)).set (P.length + Q.length) x = P ++ (Q ++ x :: C) := by
    intro x
    have := set_mid (P ++ Q) l x C
    simp
  have hd1 : ∀ x, (P ++ (Q ++ x :: C)).drop (P.length + Q.length) = x :: C := by
    intro x
    have := List.drop_left (l₁ := P ++ Q) (l₂ := x :: C)
    simp
  have hd2 : ∀ x, (P ++ (Q ++ x :: C)).drop (P.length + Q.length + 1) = C := by
    intro x
    have := List.drop_left (l₁ := P ++ Q ++ [x]) (l₂ := C)
    simp only [List.length_append, List.length_singleton, List.append_assoc, List.singleton_append] at this
    exact this
  by_cases hc : mx ≤ l.1 + l.2
  · rw [if_pos hc] at hlast
    subst hlast
    have hnn : (((P.length + Q.length : Nat) : Int) ≥ 0) := by omega
    have h16 : (l.1 + l.2) % 65536 = l.1 + l.2 := Nat.mod_eq_of_lt hl
    simp only [Int.toNat_natCast, hrd, h16, hnn, true_and, if_true, gt_iff_lt]
    by_cases hc2 : mx < l.1 + l.2
    · simp only [hc2, if_true, hset]
      rw [Nat.mod_eq_of_lt (by omega), u16_eq (n := l.1 + l.2 - (mx + 1)) (by omega) (by omega)]
      rw [show (((P.length + Q.length : Nat) : Int) - 1 + 1).toNat = P.length + Q.length by omega, hd1, List.take_left]
      split
      · simp
      · have : Q = [] := List.length_eq_zero_iff.1 (by omega)
        subst this; simp
    · simp only [hc2, if_false]
      rw [if_pos (by omega), show (((P.length + Q.length : Nat) : Int) + 1).toNat = P.length + Q.length + 1 by omega, hd2, List.take_left]
      simp
  · rw [if_neg hc] at hlast
    subst hlast
    have hnn : ¬ (-(((P.length + Q.length : Nat) : Int) + 2) ≥ 0) := by omega
    simp only [hnn, false_and, if_false]
    rw [if_pos (by omega), show (-(-(((P.length + Q.length : Nat) : Int) + 2)) - 1 - 1 + 1).toNat = P.length + Q.length + 1 by omega, hd2, List.take_left,
      if_neg (by omega)]
    simp

/-- How `[min, max]` cuts a list of runs for `remove_range`. -/
theorem removeRange_split {rs : List Rle} (h : RunOK rs) (mn mx : Nat) (hm : mn ≤ mx) :
    ∃ A B C, rs = A ++ B ++ C ∧ (∀ a ∈ A, a.1 + a.2 < mn) ∧ (∀ b ∈ B, mn ≤ b.1 + b.2 ∧ b.1 ≤ mx) ∧
      (∀ c ∈ C, mx < c.1) := by
  obtain ⟨AB, C, rfl, h1, h2⟩ := split_start h mx
  have hAB := runOK_append.1 h
  obtain ⟨A, B, rfl, h3, h4⟩ := split_end hAB.1 mn
  exact ⟨A, B, C, rfl, h3, fun b hb => ⟨h4 b hb, h1 b (by simp [hb])⟩, h2⟩

theorem runRemoveRange_spec {rs : List Rle} (h : RunOK rs) {mn mx : Nat} (hm : mn ≤ mx) (hx : mx < 65536) :
    RunOK (runRemoveRange rs mn mx) ∧
      ∀ y, runHas (runRemoveRange rs mn mx) y = (runHas rs y && !decide (mn ≤ y ∧ y ≤ mx)) := by
  obtain ⟨A, B, C, rfl, hA, hB, hC⟩ := removeRange_split h mn mx hm
  have hAC := runOK_append.1 h
  have hA0 := runOK_append.1 hAC.1
  have hCe : ∀ c ∈ C, mx ≤ c.1 + c.2 := fun c hc => by have := hC c hc; omega
  unfold runRemoveRange
  rw [Nat.mod_eq_of_lt (by omega : mn < 65536), Nat.mod_eq_of_lt hx]
  have hfirst := findRun_eq (A := A) (B := B ++ C) (k := mn) (by rw [← List.append_assoc]; exact h) hA (fun b hb => by
    rcases List.mem_append.1 hb with hb | hb
    · exact (hB b hb).1
    · have := hC b hb; omega)
  rw [← List.append_assoc] at hfirst
  rcases cases3 B with rfl | ⟨b, rfl⟩ | ⟨b, M, l, rfl⟩
  · simp only [List.append_nil, List.nil_append] at *
    have h1 : ¬ (0 < C.length ∧ (rdR C 0).1 ≤ mn) := by
      rintro ⟨h2, h3⟩
      have := hC _ (rdR_mem h2); omega
    rw [if_neg h1] at hfirst
    have hlast := findRun_eq (A := A) (B := C) (k := mx) h (fun a ha => by have := hA a ha; omega) hCe
    have h1 : ¬ (0 < C.length ∧ (rdR C 0).1 ≤ mx) := by
      rintro ⟨h2, h3⟩
      have := hC _ (rdR_mem h2); omega
    rw [if_neg h1] at hlast
    rw [hfirst, hlast]
    have hneg : ¬ (-((A.length : Int) + 1) ≥ 0) := by omega
    simp only [hneg, false_and, if_false]
    rw [if_neg (by omega)]
    have := removeRange_finish (A := A) (B := []) (C := C) (X := []) (mn := mn) (mx := mx) (by simpa using h) RunOK.nil hA hC (by simp) (by simp) (by simp)
    simpa using this
  · have hb := hB b (by simp)
    have hk := runOK_cons.1 hA0.2.1
    have e1 : A ++ [b] ++ C = A ++ b :: C := by simp
    rw [e1] at hfirst
    have hfirst' : rle16FindRun (A ++ b :: C) mn = if b.1 ≤ mn then (A.length : Int) else -((A.length : Int) + 1) := by
      rw [hfirst]; simp [rdR]
    have hlast : rle16FindRun (A ++ b :: C) mx = if mx ≤ b.1 + b.2 then (A.length : Int) else -((A.length : Int) + 2) := by
      split
      · rename_i h1
        have := findRun_eq (A := A) (B := b :: C) (k := mx) (by rw [← e1]; exact h) (fun a ha => by have := hA a ha; omega)
          (fun q hq => by
            rcases List.mem_cons.1 hq with rfl | hq
            · exact h1
            · exact hCe q hq)
        rw [this]
        simp [rdR, hb.2]
      · rename_i h1
        have := findRun_eq (A := A ++ [b]) (B := C) (k := mx) h (fun a ha => by
          rcases List.mem_append.1 ha with ha | ha
          · have := hA a ha; omega
          · simp at ha; subst ha; omega) hCe
        have h3 : ¬ (0 < C.length ∧ (rdR C 0).1 ≤ mx) := by
          rintro ⟨h2, h3⟩
          have := hC _ (rdR_mem h2); omega
        rw [if_neg h3, e1] at this
        rw [this]; simp; omega
    have fin := fun X => removeRange_finish (A := A) (B := [b]) (C := C) (X := X) (mn := mn) (mx := mx) h
    have finS := fun x => fin [x]
    rw [e1, hfirst', hlast]
    have hnn : ((A.length : Int) ≥ 0) := by omega
    have hn1 : ¬ (-((A.length : Int) + 1) ≥ 0) := by omega
    have hn2 : ¬ (-((A.length : Int) + 2) ≥ 0) := by omega
    have hb16 : (b.1 + b.2) % 65536 = b.1 + b.2 := Nat.mod_eq_of_lt hk.1
    have hAA : ¬ (A.length + 1 : Int) ≤ A.length := by omega
    have hAB : ¬ (A.length : Int) ≤ A.length - 1 := by omega
    have hAD : -(-((A.length : Int) + 2)) - 1 - 1 = A.length := by omega
    have hAE : -(-((A.length : Int) + 1)) - 1 = A.length := by omega
    have ht : ((A.length : Int) + 1).toNat = A.length + 1 := by omega
    have hdr : (A ++ b :: C).drop (A.length + 1) = C := by simp [List.drop_eq_nil_of_le]
    have hres : ∀ l ∈ [A ++ C], l = A ++ [] ++ C := by simp
    by_cases hc1 : b.1 ≤ mn
    · rw [if_pos hc1]
      by_cases hc2 : b.1 < mn
      · by_cases hc3 : mx < b.1 + b.2
        · -- split in two
          simp only [hnn, Int.toNat_natCast, rdR_mid, hc2, hc3, gt_iff_lt, true_and, and_self, if_true, set_mid]
          have hins : insertRunAt (A ++ (b.1, u16 ((mn : Int) - 1 - b.1)) :: C) (A.length + 1) ((mx + 1) % 65536, u16 ((b.1 : Int) + b.2 - (mx + 1))) =
              A ++ [(b.1, mn - 1 - b.1), (mx + 1, b.1 + b.2 - (mx + 1))] ++ C := by
            rw [insertRunAt_mid, Nat.mod_eq_of_lt (by omega), u16_eq (n := mn - 1 - b.1) (by omega) (by omega),
              u16_eq (n := b.1 + b.2 - (mx + 1)) (by omega) (by omega)]
            simp
          rw [hins]
          rw [e1] at fin
          refine fin _ (runOK_cons.2 ⟨by simp; omega, by simp; omega, runOK_cons.2 ⟨by simp; omega, by simp, RunOK.nil⟩⟩) hA hC ?_ ?_ ?_
          · simp; omega
          · simp; omega
          · intro y; exact rr_mid hc2 hm hc3
        · -- cut the right part
          have hset : (A ++ b :: C).set A.length (b.1, u16 ((mn : Int) - 1 - b.1)) = A ++ [(b.1, mn - 1 - b.1)] ++ C := by
            rw [set_mid, u16_eq (n := mn - 1 - b.1) (by omega) (by omega)]; simp
          have hrd : rdR (A ++ [(b.1, mn - 1 - b.1)] ++ C) A.length = (b.1, mn - 1 - b.1) := by
            rw [List.append_assoc]; exact rdR_mid A _ C
          have hgoal := by
            rw [e1] at fin
            refine fin [(b.1, mn - 1 - b.1)] (runOK_cons.2 ⟨by simp; omega, by simp, RunOK.nil⟩) hA hC ?_ ?_ ?_
            · simp
            · simp; omega
            · intro y; exact rr_left hc2 hb.1 hc3
          simp only [hnn, Int.toNat_natCast, rdR_mid, hc2, hc3, gt_iff_lt, true_and, and_false, and_true, if_true, if_false, hset]
          by_cases hc4 : mx ≤ b.1 + b.2
          · simp only [if_pos hc4, hnn, true_and, Int.toNat_natCast, hrd, if_true]
            have : ¬ (mx < (b.1 + (mn - 1 - b.1)) % 65536) := by omega
            simp only [gt_iff_lt, this, if_false, hAA]
            exact hgoal
          · simp only [if_neg hc4, hn2, false_and, if_false, hAD, hAA]
            exact hgoal
      · have hc2' : b.1 = mn := by omega
        by_cases hc5 : mx < b.1 + b.2
        · have hc4 : mx ≤ b.1 + b.2 := by omega
          have hset : (A ++ b :: C).set A.length ((mx + 1) % 65536, u16 (((b.1 + b.2 : Nat) : Int) - (mx + 1))) = A ++ [(mx + 1, b.1 + b.2 - (mx + 1))] ++ C := by
            rw [set_mid, Nat.mod_eq_of_lt (by omega), u16_eq (n := b.1 + b.2 - (mx + 1)) (by omega) (by omega)]; simp
          simp only [if_pos hc4, hnn, Int.toNat_natCast, rdR_mid, hc2, hc5, gt_iff_lt, true_and, false_and, and_false, if_true, if_false, hb16, hset, hAB]
          rw [e1] at fin
          refine fin _ (runOK_cons.2 ⟨by simp; omega, by simp, RunOK.nil⟩) hA hC ?_ ?_ ?_
          · simp; omega
          · simp; omega
          · intro y; exact rr_cut (by omega) hb.2 hc5
        · have hgoal := by
            rw [e1] at fin
            exact fin [] RunOK.nil hA hC (by simp) (by simp) (fun y => rr_all (by omega) hc5)
          simp only [List.append_nil] at hgoal
          by_cases hc4 : mx ≤ b.1 + b.2
          · simp only [if_pos hc4, hnn, Int.toNat_natCast, rdR_mid, hc2, hc5, gt_iff_lt, true_and, false_and, and_false, if_true, if_false, hb16,
              Int.le_refl, ht, hdr, List.take_left]
            exact hgoal
          · simp only [if_neg hc4, hnn, hn2, Int.toNat_natCast, rdR_mid, hc2, hc5, gt_iff_lt, true_and, false_and, and_false, if_true, if_false, hb16,
              Int.le_refl, ht, hdr, List.take_left, hAD]
            exact hgoal
    · rw [if_neg hc1]
      by_cases hc5 : mx < b.1 + b.2
      · have hc4 : mx ≤ b.1 + b.2 := by omega
        have hset : (A ++ b :: C).set A.length ((mx + 1) % 65536, u16 (((b.1 + b.2 : Nat) : Int) - (mx + 1))) = A ++ [(mx + 1, b.1 + b.2 - (mx + 1))] ++ C := by
          rw [set_mid, Nat.mod_eq_of_lt (by omega), u16_eq (n := b.1 + b.2 - (mx + 1)) (by omega) (by omega)]; simp
        simp only [if_pos hc4, hnn, hn1, Int.toNat_natCast, rdR_mid, hc5, gt_iff_lt, true_and, false_and, and_false, if_true, if_false, hb16, hset, hAB, hAE]
        rw [e1] at fin
        refine fin _ (runOK_cons.2 ⟨by simp; omega, by simp, RunOK.nil⟩) hA hC ?_ ?_ ?_
        · simp; omega
        · simp; omega
        · intro y; exact rr_cut (by omega) hb.2 hc5
      · have hgoal := by
          rw [e1] at fin
          exact fin [] RunOK.nil hA hC (by simp) (by simp) (fun y => rr_all (by omega) hc5)
        simp only [List.append_nil] at hgoal
        by_cases hc4 : mx ≤ b.1 + b.2
        · simp only [if_pos hc4, hnn, hn1, Int.toNat_natCast, rdR_mid, hc5, gt_iff_lt, true_and, false_and, and_false, if_true, if_false, hb16,
            Int.le_refl, ht, hdr, List.take_left, hAE]
          exact hgoal
        · simp only [if_neg hc4, hnn, hn1, hn2, Int.toNat_natCast, rdR_mid, hc5, gt_iff_lt, true_and, false_and, and_false, if_true, if_false, hb16,
            Int.le_refl, ht, hdr, List.take_left, hAD, hAE]
          exact hgoal
  · have hb := hB b (by simp)
    have hl := hB l (by simp)
    have hk := runOK_cons.1 hA0.2.1
    have hkl := runOK_mid.1 hk.2.2
    have hbd := head_last_bounds hA0.2.1
    have e2 : A ++ (b :: (M ++ [l])) ++ C = A ++ (b :: M ++ l :: C) := by simp
    have hfirst' : rle16FindRun (A ++ (b :: (M ++ [l])) ++ C) mn = if b.1 ≤ mn then (A.length : Int) else -((A.length : Int) + 1) := by
      rw [hfirst]; simp [rdR]
    have hn : ∀ c ∈ M, c.1 + c.2 < mx := fun c hc => by have := hkl.2.2.2.1 c hc; omega
    have hlast : rle16FindRun (A ++ (b :: (M ++ [l])) ++ C) mx =
        if mx ≤ l.1 + l.2 then ((A.length + (b :: M).length : Nat) : Int) else -(((A.length + (b :: M).length : Nat) : Int) + 2) := by
      split
      · rename_i h1
        have e3 : A ++ (b :: (M ++ [l])) ++ C = (A ++ b :: M) ++ l :: C := by simp
        have := findRun_eq (A := A ++ b :: M) (B := l :: C) (k := mx) (by rw [← e3]; exact h) (fun a ha => by
          rcases List.mem_append.1 ha with ha | ha
          · have := hA a ha; omega
          · rcases List.mem_cons.1 ha with rfl | ha
            · omega
            · exact hn a ha)
          (fun q hq => by
            rcases List.mem_cons.1 hq with rfl | hq
            · exact h1
            · exact hCe q hq)
        rw [e3, this]
        simp [rdR, hl.2]
      · rename_i h1
        have := findRun_eq (A := A ++ (b :: (M ++ [l]))) (B := C) (k := mx) h (fun a ha => by
          simp only [List.mem_append, List.mem_cons, List.not_mem_nil, or_false] at ha
          rcases ha with ha | rfl | ha | rfl
          · have := hA a ha; omega
          · omega
          · exact hn a ha
          · omega) hCe
        have h3 : ¬ (0 < C.length ∧ (rdR C 0).1 ≤ mx) := by
          rintro ⟨h2, h3⟩
          have := hC _ (rdR_mem h2); omega
        rw [if_neg h3] at this
        rw [this]; simp; omega
    rw [hfirst', hlast]
    by_cases hc1 : b.1 < mn
    · have hc1' : b.1 ≤ mn := by omega
      have hc2 : ¬ mx < b.1 + b.2 := by omega
      have hnn : ((A.length : Int) ≥ 0) := by omega
      have hrd : rdR (A ++ (b :: (M ++ [l])) ++ C) A.length = b := by rw [List.append_assoc]; exact rdR_mid A b _
      have hset : (A ++ (b :: (M ++ [l])) ++ C).set A.length (b.1, u16 ((mn : Int) - 1 - b.1)) =
          (A ++ [(b.1, mn - 1 - b.1)]) ++ (M ++ l :: C) := by
        rw [u16_eq (n := mn - 1 - b.1) (by omega) (by omega), e2, List.cons_append, set_mid]; simp
      have ht := removeTail (A ++ [(b.1, mn - 1 - b.1)]) M C l mx hkl.2.2.1
        (if mx ≤ l.1 + l.2 then ((A.length + (b :: M).length : Nat) : Int) else -(((A.length + (b :: M).length : Nat) : Int) + 2))
        (by simp; congr 1 <;> omega)
      have hlen : ((A ++ [(b.1, mn - 1 - b.1)]).length : Int) = A.length + 1 := by simp
      rw [hlen] at ht
      have hlen2 : (A ++ [(b.1, mn - 1 - b.1)]).length = ((A.length : Int) + 1).toNat := by rw [← hlen]; simp
      rw [hlen2] at ht
      simp only [if_pos hc1', hnn, Int.toNat_natCast, hrd, hc1, hc2, gt_iff_lt, true_and, and_false, if_true, if_false, hset]
      simp only [gt_iff_lt] at ht
      rw [ht]
      have := removeRange_finish (A := A) (B := b :: (M ++ [l])) (C := C)
        (X := [(b.1, mn - 1 - b.1)] ++ (if mx < l.1 + l.2 then [(mx + 1, l.1 + l.2 - (mx + 1))] else [])) (mn := mn) (mx := mx) h ?_ hA hC ?_ ?_ ?_
      · simpa using this
      · split
        · exact runOK_cons.2 ⟨by simp; omega, by simp; omega, runOK_cons.2 ⟨by simp; omega, by simp, RunOK.nil⟩⟩
        · exact runOK_cons.2 ⟨by simp; omega, by simp, RunOK.nil⟩
      · intro x hx
        simp only [List.mem_append, List.mem_singleton] at hx
        rcases hx with rfl | hx
        · exact ⟨b, by simp, by simp⟩
        · split at hx
          · simp at hx; subst hx; exact ⟨l, by simp, by simp; omega⟩
          · simp at hx
      · intro x hx
        simp only [List.mem_append, List.mem_singleton] at hx
        rcases hx with rfl | hx
        · exact ⟨b, by simp, by simp; omega⟩
        · split at hx
          · simp at hx; subst hx; exact ⟨l, by simp, by simp; omega⟩
          · simp at hx
      · intro y
        exact rr_two hc1 hb.1 hbd.1 hl.2 (hbd.2 y)
    · have ht := removeTail A (b :: M) C l mx hkl.2.2.1
        (if mx ≤ l.1 + l.2 then ((A.length + (b :: M).length : Nat) : Int) else -(((A.length + (b :: M).length : Nat) : Int) + 2)) rfl
      have hfin : RunOK (A ++ (if mx < l.1 + l.2 then [(mx + 1, l.1 + l.2 - (mx + 1))] else []) ++ C) ∧
          ∀ y, runHas (A ++ (if mx < l.1 + l.2 then [(mx + 1, l.1 + l.2 - (mx + 1))] else []) ++ C) y =
            (runHas (A ++ (b :: (M ++ [l])) ++ C) y && !decide (mn ≤ y ∧ y ≤ mx)) := by
        refine removeRange_finish (B := b :: (M ++ [l])) h ?_ hA hC ?_ ?_ ?_
        · split
          · exact runOK_cons.2 ⟨by simp; omega, by simp, RunOK.nil⟩
          · exact RunOK.nil
        · intro x hx
          split at hx
          · simp at hx; subst hx; exact ⟨l, by simp, by simp; omega⟩
          · simp at hx
        · intro x hx
          split at hx
          · simp at hx; subst hx; exact ⟨l, by simp, by simp; omega⟩
          · simp at hx
        · intro y
          exact rr_right hc1 hbd.1 hl.2 (hbd.2 y)
      simp only [gt_iff_lt] at ht
      rw [e2] at hfin ⊢
      by_cases hc1' : b.1 ≤ mn
      · have hnn : ((A.length : Int) ≥ 0) := by omega
        have hrd : rdR (A ++ (b :: M ++ l :: C)) A.length = b := rdR_mid A b _
        simp only [if_pos hc1', hnn, Int.toNat_natCast, hrd, hc1, gt_iff_lt, true_and, false_and, if_true, if_false]
        rw [ht]
        exact hfin
      · have hnn : ¬ (-((A.length : Int) + 1) ≥ 0) := by omega
        simp only [if_neg hc1', hnn, gt_iff_lt, false_and, if_false, show -(-((A.length : Int) + 1)) - 1 = A.length by omega, Int.toNat_natCast]
        rw [ht]
        exact hfin

end CRoaring
