import Verif.Lemmas.Range

set_option linter.unusedSimpArgs false
set_option linter.unusedVariables false

/-! Range membership and range counts. -/

namespace CRoaring
open Spec

theorem bhas_at {P : Container → Prop} {A B : Bitmap} {k : Nat} {c : Container} (h : BP P (A ++ (k, c) :: B)) {y : Nat}
    (hy : y < 65536) : bhas (A ++ (k, c) :: B) (k * 65536 + y) = chas c y := by
  have hb := bp_mid.1 h
  have hs := split_kx (k := k) hy
  rw [bhas_mid hb.2.2.2.1 hb.2.2.2.2, if_pos hs.1, hs.2]

/-- No gap between two keys, by counting. -/
theorem no_gap {M : Bitmap} (h : BInv M) {a b : Nat} (hab : a < b) (hM : ∀ p ∈ M, a < p.1 ∧ p.1 < b) :
    M.length + 1 = b - a ↔ ∀ k, a < k → k < b → k ∈ keysOf M := by
  have h1 := lb_add_eq h.sorted (a + 1) (b - a - 1)
  have e1 : lb (keysOf M) (a + 1) = 0 := by
    have := lb_keys_split (A := []) (B := M) (k := a + 1) (by simp) (fun p hp => (hM p hp).1)
    simpa using this
  have e2 : lb (keysOf M) b = M.length := by
    have := lb_keys_split (A := M) (B := []) (k := b) (fun p hp => (hM p hp).2) (by simp)
    simpa using this
  rw [show a + 1 + (b - a - 1) = b by omega, e1, e2] at h1
  constructor
  · intro h2 k h3 h4; exact h1.1 (by omega) k h3 h4
  · intro h2
    have := h1.2 fun y h3 h4 => h2 y h3 h4
    omega

theorem bhas_mem {P : Container → Prop} {r : Bitmap} (h : BP P r) {p : Nat × Container} (hp : p ∈ r) {y : Nat}
    (hy : y < 65536) : bhas r (p.1 * 65536 + y) = chas p.2 y := by
  obtain ⟨A, B, e⟩ := List.append_of_mem hp
  obtain ⟨k, c⟩ := p
  rw [e] at h ⊢
  exact bhas_at h hy

theorem bhas_mem' {P : Container → Prop} {r : Bitmap} (h : BP P r) {p : Nat × Container} (hp : p ∈ r) {v : Nat}
    (hv : v / 65536 = p.1) : bhas r v = chas p.2 (v % 65536) := by
  rw [← bhas_mem h hp (Nat.mod_lt v (by omega)), ← hv, show v / 65536 * 65536 + v % 65536 = v by omega]

theorem contains_multi {A M B : Bitmap} {k1 k2 : Nat} {c1 c2 : Container} (hk : k1 < k2)
    (h : BInv (A ++ (k1, c1) :: (M ++ (k2, c2) :: B))) {rs re : Nat} (h1 : rs / 65536 = k1) (h2 : re / 65536 = k2) :
    (M.length + 1 = k2 - k1 ∧ containerContainsRange (rs % 65536) 65536 c1 = true ∧
      containerContainsRange 0 (re % 65536 + 1) c2 = true ∧ M.all (fun p => containerIsFull p.2) = true) ↔
      ∀ v, rs ≤ v → v ≤ re → bhas (A ++ (k1, c1) :: (M ++ (k2, c2) :: B)) v = true := by
  have hb := bp_mid.1 h
  have hb2 : BInv ((A ++ M) ++ (k2, c2) :: B) := by rw [List.append_assoc]; exact hb.1
  have hb3 := bp_mid.1 hb2
  have hM : BInv M := (bp_append.1 (bp_append.1 hb.1).2.1).1
  have hMk : ∀ p ∈ M, k1 < p.1 ∧ p.1 < k2 := fun p hp =>
    ⟨hb.2.2.2.2 p (by simp [hp]), hb3.2.2.2.1 p (by simp [hp])⟩
  have m1 : (k1, c1) ∈ A ++ (k1, c1) :: (M ++ (k2, c2) :: B) := by simp
  have m2 : (k2, c2) ∈ A ++ (k1, c1) :: (M ++ (k2, c2) :: B) := by simp
  have m3 : ∀ p ∈ M, p ∈ A ++ (k1, c1) :: (M ++ (k2, c2) :: B) := fun p hp => by simp [hp]
  rw [no_gap hM hk hMk, containerContainsRange_iff hb.2.2.1.1.rep (Nat.mod_lt rs (by omega)) (Nat.le_refl _),
    containerContainsRange_iff hb3.2.2.1.1.rep (by omega) (Nat.mod_lt re (by omega)), List.all_eq_true]
  generalize hr : A ++ (k1, c1) :: (M ++ (k2, c2) :: B) = r at *
  constructor
  · rintro ⟨g1, g2, g3, g4⟩ v v1 v2
    by_cases e1 : v / 65536 = k1
    · rw [bhas_mem' h m1 e1]
      exact g2 _ (by omega) (by omega)
    · by_cases e2 : v / 65536 = k2
      · rw [bhas_mem' h m2 e2]
        exact g3 _ (by omega) (by omega)
      · obtain ⟨p, hp, e3⟩ := List.mem_map.1 (g1 (v / 65536) (by omega) (by omega))
        rw [bhas_mem' h (m3 p hp) e3.symm]
        exact (containerIsFull_iff (hM.all p hp).1.rep).1 (g4 p hp) _ (by omega)
  · intro g
    refine ⟨?_, ?_, ?_, ?_⟩
    · intro k hk1 hk2
      have := g (k * 65536) (by omega) (by omega)
      obtain ⟨p, hp, e, _⟩ := bhas_key this
      rw [show k * 65536 / 65536 = k by omega] at e
      rw [← hr] at hp
      simp only [List.mem_append, List.mem_cons] at hp
      refine List.mem_map.2 ⟨p, ?_, e⟩
      rcases hp with hp | rfl | hp | rfl | hp
      · have := hb.2.2.2.1 p hp; omega
      · simp only at e; omega
      · exact hp
      · simp only at e; omega
      · have := hb3.2.2.2.2 p hp; omega
    · intro x hx1 hx2
      rw [← bhas_mem h m1 hx2]
      exact g _ (by omega) (by omega)
    · intro x hx1 hx2
      rw [← bhas_mem h m2 (show x < 65536 by omega)]
      exact g _ (by omega) (by omega)
    · intro p hp
      refine (containerIsFull_iff (hM.all p hp).1.rep).2 fun x hx => ?_
      have := hMk p hp
      rw [← bhas_mem h (m3 p hp) hx]
      exact g _ (by omega) (by omega)

theorem raGetIndex_mid {P : Container → Prop} {A B : Bitmap} {k : Nat} {c : Container} (h : BP P (A ++ (k, c) :: B)) :
    raGetIndex (A ++ (k, c) :: B) k = A.length := by
  have hb := bp_mid.1 h
  rw [raGetIndex_eq h.sorted, if_pos (by simp [keysOf]), lb_keys_split hb.2.2.2.1]
  intro p hp
  rcases List.mem_cons.1 hp with rfl | hp
  · exact Nat.le_refl _
  · exact Nat.le_of_lt (hb.2.2.2.2 p hp)

theorem rbContainsRangeClosed_iff {r : Bitmap} (h : BInv r) {rs re : Nat} :
    rbContainsRangeClosed r rs re = true ↔ ∀ v, rs ≤ v → v ≤ re → bhas r v = true := by
  unfold rbContainsRangeClosed
  by_cases h1 : rs > re
  · rw [if_pos h1]
    exact ⟨fun _ v _ _ => by omega, fun _ => rfl⟩
  rw [if_neg h1]
  by_cases h2 : re = rs
  · rw [if_pos h2, rbContains_eq h]
    exact ⟨fun g v v1 v2 => by rw [show v = rs by omega]; exact g, fun g => g rs (by omega) (by omega)⟩
  rw [if_neg h2]
  simp only
  have hkk : rs / 65536 ≤ re / 65536 := Nat.div_le_div_right (by omega)
  rcases ra_split h (rs / 65536) with ⟨A, c1, B, e, hA, hB, hi1⟩ | ⟨A, B, e, hA, hB, hi1⟩
  · by_cases hk : rs / 65536 = re / 65536
    · rw [← hk, hi1]
      subst e
      have hbm := bp_mid.1 h
      simp only [Int.toNat_natCast, contAt_mid, if_true]
      rw [if_neg (by simp; omega), if_neg (by simp; omega)]
      rw [containerContainsRange_iff hbm.2.2.1.1.rep (by omega) (by omega)]
      have hmem : ∀ y, y < 65536 → _ := fun y hy => bhas_at h hy
      constructor
      · intro g v v1 v2
        rw [show v = rs / 65536 * 65536 + v % 65536 by omega, hmem _ (by omega)]
        exact g _ (by omega) (by omega)
      · intro g x x1 x2
        rw [← hmem _ (by omega)]
        exact g _ (by omega) (by omega)
    · have hB2 := (bp_append.1 (bp_mid.1 (e ▸ h)).1).2.1
      rcases ra_split hB2 (re / 65536) with ⟨M, c2, B', e2, hA', hB', _⟩ | ⟨M, B', e2, hA', hB', _⟩
      · subst e2
        have e' : r = (A ++ (rs / 65536, c1) :: M) ++ (re / 65536, c2) :: B' := by rw [e]; simp
        have hi2 : raGetIndex r (re / 65536) = (A.length + 1 + M.length : Nat) := by
          have hbm := bp_mid.1 (e' ▸ h)
          conv => lhs; arg 1; rw [e']
          rw [raGetIndex_mid (e' ▸ h)]
          simp
          omega
        have hlen : r.length = A.length + 1 + M.length + 1 + B'.length := by rw [e]; simp; omega
        have hc1 : contAt r A.length = c1 := by rw [e, contAt_mid]
        have hc2 : contAt r (A.length + 1 + M.length) = c2 := by
          rw [e', show A.length + 1 + M.length = (A ++ (rs / 65536, c1) :: M).length by simp; omega, contAt_mid]
        have hsl : (r.take (A.length + 1 + M.length)).drop (A.length + 1) = M := by
          rw [e', show A.length + 1 + M.length = (A ++ (rs / 65536, c1) :: M).length by simp; omega, List.take_left]
          rw [show A ++ (rs / 65536, c1) :: M = (A ++ [(rs / 65536, c1)]) ++ M by simp,
            show A.length + 1 = (A ++ [(rs / 65536, c1)]).length by simp, List.drop_left]
        have hcm := contains_multi (show rs / 65536 < re / 65536 by omega) (e ▸ h) rfl rfl
        rw [← e] at hcm
        rw [← hcm, hi1, hi2, hlen]
        simp only [Int.toNat_natCast, hc1, hc2, hsl]
        by_cases hg : M.length + 1 = re / 65536 - rs / 65536
        · rw [if_neg (by omega), if_neg (by omega), if_neg hk]
          cases containerContainsRange (rs % 65536) 65536 c1 <;>
            cases containerContainsRange 0 (re % 65536 + 1) c2 <;> simp [hg]
        · rw [if_pos (c := ((A.length + 1 + M.length : Nat) : Int) < 0 ∨ _) (by omega)]
          simp [hg]
      · have hno : re / 65536 ∉ keysOf r := by
          rw [e, e2]
          simp only [keysOf, List.mem_map, List.mem_append, List.mem_cons, not_exists, not_and]
          rintro p (hp | rfl | hp | hp) e
          · have := hA p hp; omega
          · simp only at e; omega
          · have := hA' p hp; omega
          · have := hB' p hp; omega
        have hi2 : raGetIndex r (re / 65536) < 0 := by
          rw [raGetIndex_eq h.sorted, if_neg hno]; omega
        rw [if_pos (c := raGetIndex r (re / 65536) < 0 ∨ _) (Or.inl hi2), ite_self]
        refine ⟨fun g => by simp at g, fun g => ?_⟩
        exfalso
        obtain ⟨p, hp, e, _⟩ := bhas_key (g re (by omega) (by omega))
        exact hno (List.mem_map.2 ⟨p, hp, e⟩)
  · rw [if_pos (c := raGetIndex r (re / 65536) < 0 ∨ _) (by omega), ite_self]
    refine ⟨fun g => by simp at g, fun g => ?_⟩
    exfalso
    obtain ⟨p, hp, e3, _⟩ := bhas_key (g rs (by omega) (by omega))
    rw [e] at hp
    rcases List.mem_append.1 hp with hp | hp
    · have := hA p hp; omega
    · have := hB p hp; omega

/-! ### range_cardinality_closed -/

/-- Number of values of a bitmap in a set, container by container. -/
def bcardIn (s : NSet) : Bitmap → Nat
  | [] => 0
  | (k, c) :: t => card 65536 (fun y => s (k * 65536 + y) && chas c y) + bcardIn s t

theorem card_bhas_in {P : Container → Prop} (s : NSet) {r : Bitmap} (h : BP P r) :
    card 4294967296 (fun x => s x && bhas r x) = bcardIn s r := by
  induction r with
  | nil => exact card_eq_zero.2 fun x _ => by rw [bhas_nil, Bool.and_false]
  | cons p t ih =>
    obtain ⟨k, c⟩ := p
    have h1 := card_incl_excl 4294967296 (fun x => s x && (k == x / 65536 && chas c (x % 65536))) (fun x => s x && bhas t x)
    have h2 : card 4294967296 (union (fun x => s x && (k == x / 65536 && chas c (x % 65536))) (fun x => s x && bhas t x)) =
        card 4294967296 (fun x => s x && bhas ((k, c) :: t) x) := card_congr fun x _ => by
          simp only [union, bhas_cons]
          cases s x <;> rfl
    have h3 : card 4294967296 (inter (fun x => s x && (k == x / 65536 && chas c (x % 65536))) (fun x => s x && bhas t x)) = 0 :=
      card_eq_zero.2 fun x _ => by
        simp only [inter]
        by_cases e : k = x / 65536
        · rw [bhas_gt h.2.2.1 (by omega)]; simp
        · rw [beq_eq_false_iff_ne.2 e]; simp
    have h4 : card 4294967296 (fun x => s x && (k == x / 65536 && chas c (x % 65536))) =
        card 65536 (fun y => s (k * 65536 + y) && chas c y) := by
      have hk := h.1
      refine card_window (a := k * 65536) (by omega) (fun x hx => ?_) (fun x hx _ => ?_) (fun x hx => ?_)
      · rw [beq_eq_false_iff_ne.2 (by omega)]; simp
      · rw [beq_eq_false_iff_ne.2 (by omega)]; simp
      · obtain ⟨e1, e2⟩ := split_kx (k := k) hx
        rw [e1, e2]; simp
    have h5 := ih h.2.2.2
    simp only [bcardIn]
    omega

theorem bcardIn_congr {P : Container → Prop} {s t : NSet} {r : Bitmap} (h : BP P r)
    (e : ∀ x, (∃ p ∈ r, p.1 = x / 65536) → s x = t x) : bcardIn s r = bcardIn t r := by
  rw [← card_bhas_in s h, ← card_bhas_in t h]
  refine card_congr fun x _ => ?_
  cases hx : bhas r x with
  | false => simp
  | true =>
    obtain ⟨p, hp, e1, _⟩ := bhas_key hx
    rw [e x ⟨p, hp, e1⟩]

theorem bcardIn_append (s : NSet) (A B : Bitmap) : bcardIn s (A ++ B) = bcardIn s A + bcardIn s B := by
  induction A with
  | nil => simp [bcardIn]
  | cons p t ih => obtain ⟨k, c⟩ := p; simp only [List.cons_append, bcardIn, ih]; omega

theorem bcardIn_zero {P : Container → Prop} {s : NSet} {r : Bitmap} (h : BP P r)
    (e : ∀ x, (∃ p ∈ r, p.1 = x / 65536) → s x = false) : bcardIn s r = 0 := by
  rw [bcardIn_congr h (t := fun _ => false) e, ← card_bhas_in _ h]
  exact card_eq_zero.2 fun x _ => rfl

theorem bcardIn_le {P : Container → Prop} (s : NSet) {r : Bitmap} (h : BP P r) : bcardIn s r ≤ 4294967296 := by
  rw [← card_bhas_in _ h]; exact card_le _ _

theorem card_below {n a : Nat} {s : NSet} (h : a ≤ n) : card n (fun y => decide (y < a) && s y) = card a s :=
  card_window (a := 0) (by omega) (fun x hx => by omega) (fun x hx _ => by rw [decide_eq_false (by omega)]; rfl)
    (fun x hx => by rw [Nat.zero_add, decide_eq_true hx]; rfl)

theorem card_between {n a b : Nat} {s : NSet} (hab : a ≤ b) (h : b ≤ n) :
    card n (fun y => decide (a ≤ y ∧ y < b) && s y) + card a s = card b s := by
  have h1 := card_incl_excl n (fun y => decide (a ≤ y ∧ y < b) && s y) (fun y => decide (y < a) && s y)
  have h2 : card n (union (fun y => decide (a ≤ y ∧ y < b) && s y) (fun y => decide (y < a) && s y)) =
      card n (fun y => decide (y < b) && s y) := card_congr fun x _ => by
    simp only [union]
    cases s x
    · simp
    · simp only [Bool.and_true]
      rw [← Bool.decide_or]
      apply decide_eq_decide.2
      omega
  have h3 : card n (inter (fun y => decide (a ≤ y ∧ y < b) && s y) (fun y => decide (y < a) && s y)) = 0 :=
    card_eq_zero.2 fun x _ => by
      simp only [inter]
      by_cases hx : x < a
      · rw [decide_eq_false (by omega)]; rfl
      · rw [decide_eq_false hx]; simp
  rw [card_below (show a ≤ n by omega), h2, h3, card_below h] at h1
  omega

theorem rangeCardLoop_eq {re : Nat} {r : Bitmap} (h : BInv r) (acc : Nat) (hacc : acc + bcardIn (fun x => decide (x ≤ re)) r < 18446744073709551616) :
    rangeCardLoop (re / 65536) (re % 65536) acc r = acc + bcardIn (fun x => decide (x ≤ re)) r := by
  induction r generalizing acc with
  | nil => rfl
  | cons p t ih =>
    obtain ⟨k, c⟩ := p
    rw [rangeCardLoop]
    simp only [bcardIn] at hacc ⊢
    by_cases hk : k < re / 65536
    · rw [if_pos hk, containerCard_eq h.2.1.1.rep]
      have e1 : card 65536 (fun y => decide (k * 65536 + y ≤ re) && chas c y) = card 65536 (chas c) :=
        card_congr fun y hy => by rw [decide_eq_true (by omega)]; rfl
      rw [e1] at hacc ⊢
      rw [show ((acc : Nat) : Int) + (card 65536 (chas c) : Nat) = ((acc + card 65536 (chas c) : Nat) : Int) by omega,
        u64_nat (by omega), ih h.2.2.2 _ (by omega)]
      omega
    · rw [if_neg hk]
      have e2 : bcardIn (fun x => decide (x ≤ re)) t = 0 := bcardIn_zero h.2.2.2 fun x ⟨p, hp, e⟩ => by
        have := h.2.2.1 p hp
        apply decide_eq_false
        omega
      rw [e2] at hacc ⊢
      by_cases hk2 : k = re / 65536
      · rw [if_pos hk2, containerRank_eq h.2.1.1.rep]
        have e1 : card 65536 (fun y => decide (k * 65536 + y ≤ re) && chas c y) = card (re % 65536 + 1) (chas c) := by
          rw [← card_below (n := 65536) (a := re % 65536 + 1) (by omega)]
          refine card_congr fun y hy => ?_
          congr 1
          apply decide_eq_decide.2
          omega
        rw [e1] at hacc ⊢
        rw [show ((acc : Nat) : Int) + (card (re % 65536 + 1) (chas c) : Nat) = ((acc + card (re % 65536 + 1) (chas c) : Nat) : Int) by omega,
          u64_nat (by omega)]
        omega
      · rw [if_neg hk2, card_eq_zero.2 fun y _ => by rw [decide_eq_false (by omega)]; rfl]
        omega

theorem rbRangeCardinalityClosed_eq {r : Bitmap} (h : BInv r) (rs re : Nat) :
    rbRangeCardinalityClosed r rs re = card 4294967296 (fun x => decide (rs ≤ x ∧ x ≤ re) && bhas r x) := by
  unfold rbRangeCardinalityClosed
  rw [card_bhas_in _ h]
  by_cases h1 : rs > re
  · rw [if_pos h1]
    symm
    exact bcardIn_zero h fun x _ => decide_eq_false (by omega)
  rw [if_neg h1]
  simp only
  have hkk : rs / 65536 ≤ re / 65536 := Nat.div_le_div_right (by omega)
  rcases ra_split h (rs / 65536) with ⟨A, c, B, e, hA, hB, hi⟩ | ⟨A, B, e, hA, hB, hi⟩
  · have hbm := bp_mid.1 (e ▸ h)
    have hab := bp_append.1 hbm.1
    have hd : r.drop (A.length + 1) = B := by
      rw [e, show A ++ (rs / 65536, c) :: B = (A ++ [(rs / 65536, c)]) ++ B by simp,
        show A.length + 1 = (A ++ [(rs / 65536, c)]).length by simp, List.drop_left]
    have hc : contAt r A.length = c := by rw [e, contAt_mid]
    rw [hi, if_pos (by omega)]
    simp only [Int.toNat_natCast, hd, hc]
    have eA : bcardIn (fun x => decide (rs ≤ x ∧ x ≤ re)) A = 0 := bcardIn_zero hab.1 fun x ⟨p, hp, e⟩ => by
      have := hA p hp
      apply decide_eq_false; omega
    have eB : bcardIn (fun x => decide (rs ≤ x ∧ x ≤ re)) B = bcardIn (fun x => decide (x ≤ re)) B :=
      bcardIn_congr hab.2.1 fun x ⟨p, hp, e⟩ => by
        have := hB p hp
        apply decide_eq_decide.2; omega
    have e2 : bcardIn (fun x => decide (rs ≤ x ∧ x ≤ re)) r =
        card 65536 (fun y => decide (rs ≤ rs / 65536 * 65536 + y ∧ rs / 65536 * 65536 + y ≤ re) && chas c y) +
          bcardIn (fun x => decide (x ≤ re)) B := by
      rw [e, bcardIn_append, bcardIn, eA, eB]; omega
    rw [e2]
    have hcr := hbm.2.2.1.1.rep
    rw [containerRank_eq hcr, containerCard_eq hcr, containerRank_eq hcr]
    -- the value counted in the first container
    have hle := card_le 65536 (chas c)
    have hle2 : card (re % 65536 + 1) (chas c) ≤ 65536 := Nat.le_trans (card_mono_n _ (by omega)) hle
    have hBl := bcardIn_le (fun x => decide (x ≤ re)) hab.2.1
    have hfirst : (if rs % 65536 ≠ 0 then
        u64 (((if rs / 65536 = re / 65536 then u64 (card (re % 65536 + 1) (chas c) : Nat) else u64 (card 65536 (chas c) : Nat) : Nat) : Int) -
          (card (rs % 65536 - 1 + 1) (chas c) : Nat))
        else if rs / 65536 = re / 65536 then u64 (card (re % 65536 + 1) (chas c) : Nat) else u64 (card 65536 (chas c) : Nat)) =
        card 65536 (fun y => decide (rs ≤ rs / 65536 * 65536 + y ∧ rs / 65536 * 65536 + y ≤ re) && chas c y) := by
      rw [u64_nat (by omega), u64_nat (by omega)]
      have hcase : ∃ b, rs % 65536 ≤ b ∧ b ≤ 65536 ∧
          (if rs / 65536 = re / 65536 then card (re % 65536 + 1) (chas c) else card 65536 (chas c)) = card b (chas c) ∧
          card 65536 (fun y => decide (rs ≤ rs / 65536 * 65536 + y ∧ rs / 65536 * 65536 + y ≤ re) && chas c y) =
          card 65536 (fun y => decide (rs % 65536 ≤ y ∧ y < b) && chas c y) := by
        by_cases hk : rs / 65536 = re / 65536
        · refine ⟨re % 65536 + 1, by omega, by omega, if_pos hk, card_congr fun y hy => ?_⟩
          congr 1
          apply decide_eq_decide.2; omega
        · refine ⟨65536, by omega, by omega, if_neg hk, card_congr fun y hy => ?_⟩
          congr 1
          apply decide_eq_decide.2; omega
      obtain ⟨b, hb1, hb2, hb3, hb4⟩ := hcase
      rw [hb3, hb4]
      have hcb := card_between (s := chas c) hb1 hb2
      have hble : card b (chas c) ≤ 65536 := Nat.le_trans (card_mono_n _ hb2) hle
      by_cases h0 : rs % 65536 ≠ 0
      · rw [if_pos h0, show rs % 65536 - 1 + 1 = rs % 65536 by omega]
        rw [show ((card b (chas c) : Nat) : Int) - (card (rs % 65536) (chas c) : Nat) =
          ((card b (chas c) - card (rs % 65536) (chas c) : Nat) : Int) by omega, u64_nat (by omega)]
        omega
      · rw [if_neg h0]
        have h0 : rs % 65536 = 0 := by omega
        rw [h0] at hcb ⊢
        have : card 0 (chas c) = 0 := card_eq_zero.2 fun x hx => by omega
        omega
    rw [hfirst, rangeCardLoop_eq hab.2.1]
    have := card_le 65536 (fun y => decide (rs ≤ rs / 65536 * 65536 + y ∧ rs / 65536 * 65536 + y ≤ re) && chas c y)
    omega
  · have hab := bp_append.1 (e ▸ h)
    rw [hi, if_neg (by omega), show (-(-((A.length : Int) + 1)) - 1).toNat = A.length by omega]
    have hd : r.drop A.length = B := by rw [e, List.drop_left]
    rw [hd, rangeCardLoop_eq hab.2.1]
    · rw [e, bcardIn_append, bcardIn_zero hab.1 fun x ⟨p, hp, e⟩ => ?_]
      · refine congrArg (0 + ·) ?_
        exact bcardIn_congr hab.2.1 fun x ⟨p, hp, e⟩ => by
          have := hB p hp
          apply decide_eq_decide.2; omega
      · have := hA p hp
        apply decide_eq_false; omega
    · have := bcardIn_le (fun x => decide (x ≤ re)) hab.2.1
      omega

end CRoaring
