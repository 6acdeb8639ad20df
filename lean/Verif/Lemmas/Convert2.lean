import Verif.Lemmas.Convert
set_option linter.unusedSimpArgs false
set_option linter.unusedVariables false
/- Bitset to run conversion, and minimal run counts. -/
namespace CRoaring
open Spec

theorem not_sub_one_not (c : Word) : c + 1#64 = ~~~(~~~c - 1#64) := by
  apply BitVec.eq_of_toNat_eq
  have := c.isLt
  simp only [BitVec.toNat_add, BitVec.toNat_not, BitVec.toNat_sub, BitVec.toNat_ofNat]
  omega

theorem getLsbD_clearOnes {c : Word} (h : c ≠ ones) (i : Nat) (hi : i < 64) :
    (c &&& (c + 1#64)).getLsbD i = (c.getLsbD i && decide (ctz (~~~c) ≤ i)) := by
  have hn : ~~~c ≠ 0#64 := by
    intro hc; apply h; apply word_ext; intro j hj
    have := word_eq_zero_iff.1 hc j hj
    rw [BitVec.getLsbD_not] at this
    rw [ones_getLsbD]; simpa [hj] using this
  rw [BitVec.getLsbD_and, not_sub_one_not, BitVec.getLsbD_not, getLsbD_sub_one hn _ hi, BitVec.getLsbD_not]
  have hs := ctz_spec hn
  have h2 := hs.2.1
  rw [BitVec.getLsbD_not] at h2
  by_cases h1 : i < ctz (~~~c)
  · simp [h1, hi]
  · by_cases h3 : i = ctz (~~~c)
    · simp only [h3]; simp only [Bool.and_eq_true] at h2; have := h2.2; simp at this; simp [this]
    · simp [h1, h3, hi]; intro _; omega

theorem ne_ones_not {c : Word} (h : c ≠ ones) : ~~~c ≠ 0#64 := by
  intro hc; apply h; apply word_ext; intro j hj
  have := word_eq_zero_iff.1 hc j hj
  rw [BitVec.getLsbD_not] at this
  rw [ones_getLsbD]; simpa [hj] using this

/-- The cursor at word `i` of `ws`, looking only at positions from `p` on. -/
structure Cur (ws : List Word) (p : Nat) (w : Word) (i : Nat) (r : List Word) : Prop where
  lt : i < 1024
  rest : r = ws.drop (i + 1)
  low : 64 * i ≤ p
  high : p < 64 * (i + 1)
  bits : ∀ j, j < 64 → w.getLsbD j = (bitAt ws (64 * i + j) && decide (p ≤ 64 * i + j))

theorem drop_cons_wd {ws : List Word} {i : Nat} {v : Word} {r : List Word} (h : v :: r = ws.drop i) :
    wd ws i = v ∧ r = ws.drop (i + 1) ∧ i < ws.length := by
  have hl : i < ws.length := by
    rcases Nat.lt_or_ge i ws.length with h1 | h1
    · exact h1
    · rw [List.drop_eq_nil_of_le h1] at h; simp at h
  rw [List.drop_eq_getElem_cons hl] at h
  injection h with h1 h2
  exact ⟨by rw [wd_getElem hl, h1], h2, hl⟩

theorem bitAt_word (ws : List Word) (i j : Nat) (hj : j < 64) : bitAt ws (64 * i + j) = (wd ws i).getLsbD j := by
  unfold bitAt
  rw [show (64 * i + j) / 64 = i by omega, show (64 * i + j) % 64 = j by omega]

theorem skipZero_spec {ws : List Word} (hl : ws.length = 1024) {p : Nat} {w : Word} {i : Nat} (r : List Word)
    (h : Cur ws p w i r) :
    ∃ p', p ≤ p' ∧ (∀ x, p ≤ x → x < p' → bitAt ws x = false) ∧
      Cur ws p' (skipZero w i r).1 (skipZero w i r).2.1 (skipZero w i r).2.2 ∧
      ((skipZero w i r).1 = 0#64 → (skipZero w i r).2.1 = 1023) := by
  induction r generalizing p w i with
  | nil =>
    refine ⟨p, Nat.le_refl _, fun x _ _ => by omega, h, fun _ => ?_⟩
    have := congrArg List.length h.rest
    simp [hl] at this
    have := h.lt
    simp only [skipZero]; omega
  | cons v r ih =>
    unfold skipZero
    by_cases hw : w = 0#64
    · rw [if_pos hw]
      obtain ⟨h1, h2, h3⟩ := drop_cons_wd h.rest
      have hz : ∀ x, p ≤ x → x < 64 * (i + 1) → bitAt ws x = false := by
        intro x hx1 hx2
        have hlow := h.low
        have := h.bits (x - 64 * i) (by omega)
        rw [hw, show 64 * i + (x - 64 * i) = x by omega] at this
        simpa [hx1] using this
      have hhigh := h.high
      obtain ⟨p', q1, q2, q3⟩ := ih (p := 64 * (i + 1)) (w := v) (i := i + 1)
        ⟨by omega, h2, by omega, by omega, fun j hj => by
          rw [bitAt_word _ _ _ hj, h1]; simp⟩
      exact ⟨p', by omega, fun x hx1 hx2 => by
        rcases Nat.lt_or_ge x (64 * (i + 1)) with h4 | h4
        · exact hz x hx1 h4
        · exact q2 x (by omega) hx2, q3⟩
    · rw [if_neg hw]
      exact ⟨p, Nat.le_refl _, fun x _ _ => by omega, h, fun h0 => absurd h0 hw⟩

/-- Inside a run that started at `s`. -/
structure InRun (ws : List Word) (s : Nat) (c : Word) (i : Nat) (r : List Word) : Prop where
  lt : i < 1024
  rest : r = ws.drop (i + 1)
  high : s < 64 * (i + 1)
  ones : ∀ x, s ≤ x → x < 64 * i → bitAt ws x = true
  bits : ∀ j, j < 64 → c.getLsbD j = (bitAt ws (64 * i + j) || decide (64 * i + j < s))

theorem skipOnes_spec {ws : List Word} (hl : ws.length = 1024) {s : Nat} {c : Word} {i : Nat} (r : List Word)
    (h : InRun ws s c i r) :
      InRun ws s (skipOnes c i r).1 (skipOnes c i r).2.1 (skipOnes c i r).2.2 ∧
      i ≤ (skipOnes c i r).2.1 ∧
      ((skipOnes c i r).1 = CRoaring.ones → (skipOnes c i r).2.1 = 1023) := by
  induction r generalizing c i with
  | nil =>
    refine ⟨h, Nat.le_refl _, fun _ => ?_⟩
    have := congrArg List.length h.rest
    simp [hl] at this
    have := h.lt
    simp only [skipOnes]; omega
  | cons v r ih =>
    unfold skipOnes
    by_cases hw : c = CRoaring.ones
    · rw [if_pos hw]
      obtain ⟨h1, h2, h3⟩ := drop_cons_wd h.rest
      have hhigh := h.high
      obtain ⟨q1, q2, q3⟩ := ih (c := v) (i := i + 1)
        ⟨by omega, h2, by omega, fun x hx1 hx2 => by
          rcases Nat.lt_or_ge x (64 * i) with h4 | h4
          · exact h.ones x hx1 h4
          · have := h.bits (x - 64 * i) (by omega)
            rw [hw, ones_getLsbD, show 64 * i + (x - 64 * i) = x by omega] at this
            have h5 : x - 64 * i < 64 := by omega
            have h6 : ¬ x < s := by omega
            simpa [h5, h6] using this.symm,
         fun j hj => by
          rw [bitAt_word _ _ _ hj, h1]
          have : ¬ (64 * (i + 1) + j < s) := by omega
          simp [this]⟩
      exact ⟨q1, by omega, q3⟩
    · rw [if_neg hw]
      exact ⟨h, Nat.le_refl _, fun h0 => absurd h0 hw⟩

theorem bitsetToRunLoop_spec {ws : List Word} (hl : ws.length = 1024) (fuel : Nat) {p : Nat} {w : Word} {i : Nat}
    {r : List Word} (h : Cur ws p w i r) (hf : 65536 < fuel + p) :
    RunOK (bitsetToRunLoop fuel w i r) ∧
    (∀ x, runHas (bitsetToRunLoop fuel w i r) x = (bitAt ws x && decide (p ≤ x))) ∧
    (∀ q ∈ bitsetToRunLoop fuel w i r, p ≤ q.1 ∧ bitAt ws q.1 = true) := by
  induction fuel generalizing p w i r with
  | zero => have := h.high; have := h.lt; omega
  | succ fuel ih =>
    unfold bitsetToRunLoop
    obtain ⟨p', hp, hz, hc, hend⟩ := skipZero_spec hl r h
    generalize skipZero w i r = sz at hc hend
    obtain ⟨w1, i1, r1⟩ := sz
    simp only at hc hend ⊢
    by_cases hw : w1 = 0#64
    · rw [if_pos hw]
      refine ⟨RunOK.nil, fun x => ?_, by simp⟩
      simp only [runHas, List.any_nil]
      symm
      rw [Bool.and_eq_false_iff]
      rcases Nat.lt_or_ge x p with h1 | h1
      · right; simp; omega
      · left
        rcases Nat.lt_or_ge x p' with h2 | h2
        · exact hz x h1 h2
        · rcases Nat.lt_or_ge x 65536 with h3 | h3
          · have hi := hend hw
            have hlow := hc.low
            have := hc.bits (x - 64 * i1) (by omega)
            rw [hw, show 64 * i1 + (x - 64 * i1) = x by omega] at this
            simpa [h2] using this
          · exact bitAt_ge (by omega)
    · rw [if_neg hw]
      obtain ⟨k1, k2, k3⟩ := ctz_spec hw
      generalize hk : ctz w1 = k at k1 k2 k3
      have hlow := hc.low
      have hs1 := hc.bits k k1
      rw [k2] at hs1
      have hs2 := Bool.and_eq_true_iff.1 hs1.symm
      have hps : p' ≤ 64 * i1 + k := by simpa using hs2.2
      have hbs : bitAt ws (64 * i1 + k) = true := hs2.1
      have hi1 := hc.lt
      -- no bits between p and the start
      have hz2 : ∀ x, p ≤ x → x < 64 * i1 + k → bitAt ws x = false := by
        intro x h1 h2
        rcases Nat.lt_or_ge x p' with h3 | h3
        · exact hz x h1 h3
        · have := hc.bits (x - 64 * i1) (by omega)
          rw [k3 _ (by omega), show 64 * i1 + (x - 64 * i1) = x by omega] at this
          simpa [h3] using this
      have hin : InRun ws (64 * i1 + k) (w1 ||| (w1 - 1#64)) i1 r1 := by
        refine ⟨hc.lt, hc.rest, by omega, fun x h1 h2 => by omega, fun j hj => ?_⟩
        rw [BitVec.getLsbD_or, getLsbD_sub_one hw j hj, hk]
        by_cases h1 : j < k
        · simp [h1]
        · have := hc.bits j hj
          have h5 : p' ≤ 64 * i1 + j := by omega
          by_cases h2 : j = k
          · simp [h2, k2, hbs]
          · simp [h1, h2, this, h5]
      obtain ⟨hc2, hij, hend2⟩ := skipOnes_spec hl r1 hin
      generalize skipOnes (w1 ||| (w1 - 1#64)) i1 r1 = so at hc2 hij hend2
      obtain ⟨c, j, r2⟩ := so
      simp only at hc2 hij hend2 ⊢
      have hj1 := hc2.lt
      by_cases hco : c = ones
      · rw [if_pos hco]
        have hj := hend2 hco
        have hall : ∀ x, 64 * i1 + k ≤ x → x < 65536 → bitAt ws x = true := by
          intro x h1 h2
          rcases Nat.lt_or_ge x (64 * j) with h4 | h4
          · exact hc2.ones x h1 h4
          · have := hc2.bits (x - 64 * j) (by omega)
            rw [hco, ones_getLsbD, show 64 * j + (x - 64 * j) = x by omega] at this
            have h5 : x - 64 * j < 64 := by omega
            have h6 : ¬ x < 64 * i1 + k := by omega
            simpa [h5, h6] using this.symm
        have hmk : mkRun ((k : Int) + 64 * (i1 : Int)) (64 + (j : Int) * 64 - 1) = (64 * i1 + k, 65535 - (64 * i1 + k)) := by
          have e1 : ((k : Int) + 64 * (i1 : Int)) = ((64 * i1 + k : Nat) : Int) := by omega
          have e2 : (64 + (j : Int) * 64 - 1) = ((65535 : Nat) : Int) := by omega
          rw [e1, e2, mkRun_eq (by omega) (by omega)]
        rw [hmk]
        refine ⟨runOK_cons.2 ⟨by simp only; omega, by simp, RunOK.nil⟩, fun x => ?_, ?_⟩
        · simp only [runHas, List.any_cons, List.any_nil, Bool.or_false]
          rw [Bool.eq_iff_iff]
          simp only [Bool.and_eq_true, decide_eq_true_eq]
          constructor
          · intro hx; exact ⟨hall x (by omega) (by omega), by omega⟩
          · intro ⟨hx1, hx2⟩
            have := bitAt_lt hl hx1
            refine ⟨?_, by omega⟩
            rcases Nat.lt_or_ge x (64 * i1 + k) with h1 | h1
            · rw [hz2 x hx2 h1] at hx1; simp at hx1
            · exact h1
        · intro q hq
          rw [List.mem_singleton] at hq; subst hq
          exact ⟨by simp only; omega, hbs⟩
      · rw [if_neg hco]
        obtain ⟨m1, m2, m3⟩ := ctz_spec (ne_ones_not hco)
        have hclr := getLsbD_clearOnes hco
        generalize hm : ctz (~~~c) = m at m1 m2 m3 hclr
        rw [BitVec.getLsbD_not] at m2
        have m2' : c.getLsbD m = false := by simpa [m1] using m2
        have hcm := hc2.bits m m1
        rw [m2'] at hcm
        have hcm2 := Bool.or_eq_false_iff.1 hcm.symm
        have hse : 64 * i1 + k ≤ 64 * j + m := by have := hcm2.2; simp at this; omega
        have hbe : bitAt ws (64 * j + m) = false := hcm2.1
        have hlt : 64 * i1 + k < 64 * j + m := by
          rcases Nat.lt_or_ge (64 * i1 + k) (64 * j + m) with h1 | h1
          · exact h1
          · rw [show 64 * j + m = 64 * i1 + k by omega] at hbe; rw [hbs] at hbe; simp at hbe
        have hall : ∀ x, 64 * i1 + k ≤ x → x < 64 * j + m → bitAt ws x = true := by
          intro x h1 h2
          rcases Nat.lt_or_ge x (64 * j) with h4 | h4
          · exact hc2.ones x h1 h4
          · have h7 := hc2.bits (x - 64 * j) (by omega)
            have h8 := m3 (x - 64 * j) (by omega)
            rw [BitVec.getLsbD_not] at h8
            have h5 : x - 64 * j < 64 := by omega
            have h6 : ¬ x < 64 * i1 + k := by omega
            rw [show 64 * j + (x - 64 * j) = x by omega] at h7
            have h9 : c.getLsbD (x - 64 * j) = true := by
              cases hq : c.getLsbD (x - 64 * j)
              · rw [hq] at h8; simp at h8; omega
              · rfl
            rw [h9] at h7
            simpa [h6] using h7.symm
        have hmk : mkRun ((k : Int) + 64 * (i1 : Int)) ((m : Int) + (j : Int) * 64 - 1) =
            (64 * i1 + k, 64 * j + m - 1 - (64 * i1 + k)) := by
          have e1 : ((k : Int) + 64 * (i1 : Int)) = ((64 * i1 + k : Nat) : Int) := by omega
          have e2 : ((m : Int) + (j : Int) * 64 - 1) = ((64 * j + m - 1 : Nat) : Int) := by omega
          rw [e1, e2, mkRun_eq (by omega) (by omega)]
        rw [hmk]
        obtain ⟨r1', r2', r3'⟩ := ih (p := 64 * j + m) (w := c &&& (c + 1#64)) (i := j) (r := r2)
          ⟨hc2.lt, hc2.rest, by omega, by omega, fun y hy => by
            rw [hclr y hy, hc2.bits y hy]
            by_cases h1 : m ≤ y
            · have h2 : ¬ (64 * j + y < 64 * i1 + k) := by omega
              simp [h1, h2]
            · simp [h1]⟩ (by omega)
        refine ⟨runOK_cons.2 ⟨by simp only; omega, fun b hb => ?_, r1'⟩, fun x => ?_, ?_⟩
        · obtain ⟨b1, b2⟩ := r3' b hb
          have : b.1 ≠ 64 * j + m := by intro he; rw [he, hbe] at b2; simp at b2
          simp only; omega
        · rw [runHas_cons, r2', Bool.eq_iff_iff]
          simp only [Bool.or_eq_true, Bool.and_eq_true, decide_eq_true_eq]
          constructor
          · rintro (hx | hx)
            · exact ⟨hall x (by omega) (by omega), by omega⟩
            · exact ⟨hx.1, by omega⟩
          · intro ⟨hx1, hx2⟩
            rcases Nat.lt_or_ge x (64 * i1 + k) with h1 | h1
            · rw [hz2 x hx2 h1] at hx1; simp at hx1
            · rcases Nat.lt_or_ge x (64 * j + m) with h2 | h2
              · left; omega
              · right; exact ⟨hx1, h2⟩
        · intro q hq
          rcases List.mem_cons.1 hq with rfl | hq
          · exact ⟨by simp only; omega, hbs⟩
          · obtain ⟨b1, b2⟩ := r3' q hq
            exact ⟨by omega, b2⟩

theorem bitsetToRun_spec {ws : List Word} (hl : ws.length = 1024) :
    RunOK (bitsetToRun ws) ∧ ∀ x, runHas (bitsetToRun ws) x = bitAt ws x := by
  obtain ⟨h1, h2, _⟩ := bitsetToRunLoop_spec hl 65537 (p := 0) (w := wd ws 0) (i := 0) (r := ws.drop 1)
    ⟨by omega, rfl, by omega, by omega, fun j hj => by rw [bitAt_word _ _ _ hj]; simp⟩ (by omega)
  exact ⟨h1, fun x => by unfold bitsetToRun; rw [h2]; simp⟩

end CRoaring
