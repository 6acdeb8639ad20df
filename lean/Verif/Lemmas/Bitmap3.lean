import Verif.Lemmas.Bitmap2

set_option linter.unusedSimpArgs false
set_option linter.unusedVariables false

/-! Checked updates, relations and cardinalities of bitmaps. -/

namespace CRoaring
open Spec

/-! ### Checked updates -/

theorem card_insert_new {n v : Nat} {s : NSet} (hv : v < n) (h : s v = false) :
    card n (Spec.insert s v) = card n s + 1 := by
  have h1 := card_incl_excl n s (fun x => x == v)
  have h2 : card n (union s fun x => x == v) = card n (Spec.insert s v) :=
    card_congr fun x _ => by simp only [union, Spec.insert]; rw [Bool.or_comm]
  have h3 : card n (inter s fun x => x == v) = 0 := card_eq_zero.2 fun x _ => by
    simp only [inter]
    by_cases e : x = v
    · rw [e, h]; rfl
    · rw [beq_eq_false_iff_ne.2 e]; simp
  have h4 : card n (fun x => x == v) = card 1 (fun _ => true) := by
    refine card_window (a := v) (by omega) (fun x hx => ?_) (fun x hx _ => ?_) (fun x hx => ?_)
    · exact beq_eq_false_iff_ne.2 (by omega)
    · exact beq_eq_false_iff_ne.2 (by omega)
    · have : x = 0 := by omega
      simp [this]
  rw [card_true] at h4
  omega

theorem card_erase_old {n v : Nat} {s : NSet} (hv : v < n) (h : s v = true) :
    card n (Spec.erase s v) + 1 = card n s := by
  have h1 := card_insert_new (s := Spec.erase s v) hv (by simp [Spec.erase])
  have h2 : card n (Spec.insert (Spec.erase s v) v) = card n s := card_congr fun x _ => by
    simp only [Spec.insert, Spec.erase]
    by_cases e : x = v
    · rw [e, h]; simp
    · rw [beq_eq_false_iff_ne.2 e, bne_iff_ne.2 e]; simp
  omega

theorem insert_old {s : NSet} {v : Nat} (h : s v = true) (x : Nat) : Spec.insert s v x = s x := by
  simp only [Spec.insert]
  by_cases e : x = v
  · rw [e, h]; simp
  · rw [beq_eq_false_iff_ne.2 e]; simp

theorem erase_absent {s : NSet} {v : Nat} (h : s v = false) (x : Nat) : Spec.erase s v x = s x := by
  simp only [Spec.erase]
  by_cases e : x = v
  · rw [e, h]; simp
  · rw [bne_iff_ne.2 e]; simp

theorem containerAdd_sameType {c : Container} {s : NSet} (h : Rep c s) {v : Nat} (hs : s v = true) :
    sameType c (containerAdd v c) = true := by
  cases c with
  | bitset b => rfl
  | run rs => rfl
  | array l =>
    have h2 := rep_arr_iff h
    have hv : v ∈ l := (h2.2.1 v).2 hs
    simp only [containerAdd]
    rcases arrayTryAdd_spec h2.1.sorted v DEFAULT_MAX_SIZE with ⟨a1, a2⟩ | ⟨a1, a2, a3, a4⟩ | ⟨a1, a2, a3⟩
    · rw [a2]
      simp only [ne_eq, Int.reduceNeg, reduceCtorEq, not_false_eq_true, if_true]
      rfl
    · exact absurd hv a1
    · exact absurd hv a1

theorem rbAddChecked_spec {r : Bitmap} (h : BInv r) {v : Nat} (hv : v < 4294967296) :
    (rbAddChecked r v).1 = rbAdd r v ∧ (rbAddChecked r v).2 = !bhas r v := by
  rcases ra_split h (v / 65536) with ⟨A, c, B, e, hA, hB, hi⟩ | ⟨A, B, e, hA, hB, hi⟩
  · have hb := bp_mid.1 (e ▸ h)
    have hc := hb.2.2.1.1.rep
    have hr := containerAdd_spec hc (v := v % 65536) (by omega)
    have hbh : bhas r v = chas c (v % 65536) := by rw [e, bhas_mid hA hB, if_pos rfl]
    have hi0 : (A.length : Int) ≥ 0 := by omega
    simp only [rbAddChecked, rbAdd, hi, Int.toNat_natCast]
    rw [if_pos hi0, if_pos hi0, e, contAt_mid, ← e, hbh]
    refine ⟨rfl, ?_⟩
    simp only
    have h1 := containerCard_eq hc
    have h2 := containerCard_eq hr
    cases hx : chas c (v % 65536) with
    | true =>
      rw [containerAdd_sameType hc hx, h1, h2, card_int_congr fun x _ => insert_old hx x]
      simp
    | false =>
      have h3 := card_insert_new (n := 65536) (v := v % 65536) (s := chas c) (by omega) hx
      cases hst : sameType c (containerAdd (v % 65536) c) with
      | false => rfl
      | true =>
        have h4 : containerCard c ≠ containerCard (containerAdd (v % 65536) c) := by omega
        simpa using h4
  · have hi0 : ¬ (-((A.length : Int) + 1)) ≥ 0 := by omega
    simp only [rbAddChecked, rbAdd, hi]
    rw [if_neg hi0, if_neg hi0]
    refine ⟨rfl, ?_⟩
    rw [show bhas r v = false by rw [e]; exact bhas_gap hA hB rfl]
    rfl

theorem rbRemoveChecked_spec {r : Bitmap} (h : BInv r) {v : Nat} (hv : v < 4294967296) :
    (rbRemoveChecked r v).1 = rbRemove r v ∧ (rbRemoveChecked r v).2 = bhas r v := by
  rcases ra_split h (v / 65536) with ⟨A, c, B, e, hA, hB, hi⟩ | ⟨A, B, e, hA, hB, hi⟩
  · have hb := bp_mid.1 (e ▸ h)
    have hc := hb.2.2.1.1.rep
    have hr := containerRemove_spec hc (v := v % 65536) (by omega)
    have hbh : bhas r v = chas c (v % 65536) := by rw [e, bhas_mid hA hB, if_pos rfl]
    have hi0 : (A.length : Int) ≥ 0 := by omega
    have h1 := containerCard_eq hc
    have h2 := containerCard_eq hr
    have hnz : (containerCard (containerRemove (v % 65536) c) ≠ 0) ↔
        containerNonzero (containerRemove (v % 65536) c) = true := by
      rw [containerNonzero_iff_card hr]; omega
    simp only [rbRemoveChecked, rbRemove, hi, Int.toNat_natCast]
    rw [if_pos hi0, if_pos hi0, e, contAt_mid, ← e, hbh]
    refine ⟨?_, ?_⟩
    · simp only
      by_cases hn : containerNonzero (containerRemove (v % 65536) c) = true
      · rw [if_pos (hnz.2 hn), if_pos hn]
      · rw [if_neg (fun hh => hn (hnz.1 hh)), if_neg hn]
    · simp only
      cases hx : chas c (v % 65536) with
      | false =>
        rw [h1, h2, card_int_congr fun x _ => erase_absent hx x]
        simp
      | true =>
        have h3 := card_erase_old (n := 65536) (v := v % 65536) (s := chas c) (by omega) hx
        have h4 : containerCard c ≠ containerCard (containerRemove (v % 65536) c) := by omega
        simpa using h4
  · have hi0 : ¬ (-((A.length : Int) + 1)) ≥ 0 := by omega
    simp only [rbRemoveChecked, rbRemove, hi]
    rw [if_neg hi0, if_neg hi0]
    refine ⟨rfl, ?_⟩
    rw [show bhas r v = false by rw [e]; exact bhas_gap hA hB rfl]

/-! ### Members and cells -/

theorem bhas_key {r : Bitmap} {x : Nat} (h : bhas r x = true) : ∃ p ∈ r, p.1 = x / 65536 ∧ chas p.2 (x % 65536) = true := by
  simp only [bhas, List.any_eq_true, Bool.and_eq_true, beq_iff_eq] at h
  exact h

theorem bhas_lt {r : Bitmap} {P : Container → Prop} (h : BP P r) {x : Nat} (hx : bhas r x = true) : x < 4294967296 := by
  obtain ⟨p, hp, e, _⟩ := bhas_key hx
  have := h.lt p hp
  omega

theorem split_kx {k y : Nat} (h : y < 65536) : (k * 65536 + y) / 65536 = k ∧ (k * 65536 + y) % 65536 = y := by omega

theorem bhas_head {P : Container → Prop} {k : Nat} {c : Container} {t : Bitmap} (h : BP P ((k, c) :: t)) {y : Nat}
    (hy : y < 65536) : bhas ((k, c) :: t) (k * 65536 + y) = chas c y := by
  obtain ⟨e1, e2⟩ := split_kx (k := k) hy
  rw [bhas_cons, bhas_gt h.2.2.1 (by omega), e1, e2]
  simp

theorem bhas_head_ex {k : Nat} {c : Container} {t : Bitmap} (h : BInv ((k, c) :: t)) :
    ∃ y, y < 65536 ∧ bhas ((k, c) :: t) (k * 65536 + y) = true := by
  obtain ⟨y, hy⟩ := h.2.1.2
  have := chas_lt h.2.1.1 hy
  exact ⟨y, this, by rw [bhas_head h this, hy]⟩

theorem bhas_tail {k : Nat} {c : Container} {t : Bitmap} {x : Nat} (hx : x / 65536 ≠ k) :
    bhas ((k, c) :: t) x = bhas t x := by
  rw [bhas_cons, beq_eq_false_iff_ne.2 (fun e => hx e.symm)]; rfl

theorem bhas_ge {P : Container → Prop} {k : Nat} {c : Container} {t : Bitmap} (h : BP P ((k, c) :: t)) {x : Nat}
    (hx : bhas ((k, c) :: t) x = true) : k ≤ x / 65536 := by
  obtain ⟨p, hp, e, _⟩ := bhas_key hx
  rcases List.mem_cons.1 hp with rfl | hp
  · simp only at e; omega
  · have := h.2.2.1 p hp; omega

theorem bhas_dropLt (k : Nat) (r : Bitmap) {x : Nat} (hx : k ≤ x / 65536) : bhas (dropLt k r) x = bhas r x := by
  obtain ⟨A, e, hA⟩ := dropLt_suffix k r
  conv => rhs; rw [e, bhas_append]
  rw [bhas_ne (r := A) fun p hp => by have := hA p hp; omega]
  rfl

/-! ### Equality and inclusion -/

theorem rbEquals_cons (k1 k2 : Nat) (c1 c2 : Container) (t1 t2 : Bitmap) :
    rbEquals ((k1, c1) :: t1) ((k2, c2) :: t2) = true ↔
      k1 = k2 ∧ containerEquals c1 c2 = true ∧ rbEquals t1 t2 = true := by
  simp only [rbEquals, keysOf, List.length_cons, List.map_cons, List.zip_cons_cons, List.all_cons]
  by_cases h1 : t1.length = t2.length <;> by_cases h2 : k1 = k2 <;>
    by_cases h3 : t1.map (·.1) = t2.map (·.1) <;> simp [h1, h2, h3]

theorem rbEquals_iff {a b : Bitmap} (ha : BInv a) (hb : BInv b) :
    rbEquals a b = true ↔ ∀ x, bhas a x = bhas b x := by
  induction a generalizing b with
  | nil =>
    cases b with
    | nil => simp [rbEquals]
    | cons p t =>
      obtain ⟨k, c⟩ := p
      constructor
      · intro h; simp [rbEquals] at h
      · intro h
        obtain ⟨y, _, hy2⟩ := bhas_head_ex hb
        rw [← h, bhas_nil] at hy2
        cases hy2
  | cons p t ih =>
    obtain ⟨k, c⟩ := p
    cases b with
    | nil =>
      constructor
      · intro h; simp [rbEquals] at h
      · intro h
        obtain ⟨y, _, hy2⟩ := bhas_head_ex ha
        rw [h, bhas_nil] at hy2
        cases hy2
    | cons p' t' =>
      obtain ⟨k', c'⟩ := p'
      rw [rbEquals_cons, ih ha.2.2.2 hb.2.2.2, containerEquals_iff ha.2.1.1.rep hb.2.1.1.rep]
      constructor
      · rintro ⟨rfl, h2, h3⟩ x
        rw [bhas_cons, bhas_cons, h2, h3]
      · intro h
        have hk : k = k' := by
          obtain ⟨y, hy1, hy2⟩ := bhas_head_ex ha
          obtain ⟨z, hz1, hz2⟩ := bhas_head_ex hb
          rw [h] at hy2
          rw [← h] at hz2
          have h1 := bhas_ge hb hy2
          have h2 := bhas_ge ha hz2
          omega
        subst hk
        refine ⟨rfl, fun y => ?_, fun x => ?_⟩
        · by_cases hy : y < 65536
          · rw [← bhas_head ha hy, ← bhas_head hb hy, h]
          · rw [ha.2.1.1.rep.zero (by omega), hb.2.1.1.rep.zero (by omega)]
        · by_cases hx : x / 65536 = k
          · rw [bhas_gt ha.2.2.1 (by omega), bhas_gt hb.2.2.1 (by omega)]
          · rw [← bhas_tail (c := c) (t := t) hx, ← bhas_tail (c := c') (t := t') hx, h]

theorem rbIsSubset_iff {a b : Bitmap} (ha : BInv a) (hb : BInv b) :
    rbIsSubset a b = true ↔ ∀ x, bhas a x = true → bhas b x = true := by
  fun_induction rbIsSubset a b with
  | case1 => simp [bhas_nil]
  | case2 p t =>
    obtain ⟨k, c⟩ := p
    obtain ⟨y, _, hy⟩ := bhas_head_ex ha
    constructor
    · intro h; simp at h
    · intro h; have := h _ hy; rw [bhas_nil] at this; cases this
  | case3 c1 t1 s c2 t2 hc =>
    constructor
    · intro h; simp at h
    · intro h
      have : containerIsSubset c1 c2 = true := by
        rw [containerIsSubset_iff ha.2.1.1.rep hb.2.1.1.rep]
        intro y hy
        have hy2 := chas_lt ha.2.1.1 hy
        rw [← bhas_head hb hy2]
        exact h _ (by rw [bhas_head ha hy2]; exact hy)
      rw [this] at hc; simp at hc
  | case4 c1 t1 s c2 t2 hc ih =>
    rw [ih ha.2.2.2 hb.2.2.2]
    have hc : containerIsSubset c1 c2 = true := by simpa using hc
    rw [containerIsSubset_iff ha.2.1.1.rep hb.2.1.1.rep] at hc
    constructor
    · intro h x hx
      by_cases hk : x / 65536 = s
      · have hm : x % 65536 < 65536 := Nat.mod_lt _ (by omega)
        have ex : x = s * 65536 + x % 65536 := by omega
        rw [ex, bhas_head hb hm]
        rw [ex, bhas_head ha hm] at hx
        exact hc _ hx
      · rw [bhas_tail hk] at hx ⊢
        exact h x hx
    · intro h x hx
      have h1 := bhas_key hx
      obtain ⟨p, hp, e, _⟩ := h1
      have h2 := ha.2.2.1 p hp
      have hk : x / 65536 ≠ s := by omega
      have := h x (by rw [bhas_tail hk]; exact hx)
      rwa [bhas_tail hk] at this
  | case5 s1 c1 t1 s2 c2 t2 hne hlt =>
    obtain ⟨y, hy0, hy⟩ := bhas_head_ex ha
    constructor
    · intro h; simp at h
    · intro h
      have h1 := bhas_ge hb (h _ hy)
      omega
  | case6 s1 c1 t1 s2 c2 t2 hne hlt ih =>
    have hgt : s2 < s1 := by omega
    rw [raAdvance_eq hb hgt] at ih ⊢
    rw [ih ha (dropLt_bp hb.2.2.2 _)]
    have key : ∀ x, bhas ((s1, c1) :: t1) x = true → bhas (dropLt s1 t2) x = bhas ((s2, c2) :: t2) x := by
      intro x hx
      have := bhas_ge ha hx
      rw [bhas_dropLt s1 t2 this, bhas_tail (by omega)]
    constructor
    · intro h x hx
      rw [← key x hx]; exact h x hx
    · intro h x hx
      rw [key x hx]; exact h x hx

/-! ### Cardinalities -/

/-- Sum of the numbers of values of the containers. -/
def bcard : Bitmap → Nat
  | [] => 0
  | (_, c) :: t => card 65536 (chas c) + bcard t

theorem card_bhas {P : Container → Prop} {r : Bitmap} (h : BP P r) : card 4294967296 (bhas r) = bcard r := by
  induction r with
  | nil => exact card_eq_zero.2 fun x _ => rfl
  | cons p t ih =>
    obtain ⟨k, c⟩ := p
    have h1 := card_incl_excl 4294967296 (fun x => k == x / 65536 && chas c (x % 65536)) (bhas t)
    have h2 : card 4294967296 (union (fun x => k == x / 65536 && chas c (x % 65536)) (bhas t)) =
        card 4294967296 (bhas ((k, c) :: t)) := card_congr fun x _ => rfl
    have h3 : card 4294967296 (inter (fun x => k == x / 65536 && chas c (x % 65536)) (bhas t)) = 0 :=
      card_eq_zero.2 fun x _ => by
        simp only [inter]
        by_cases e : k = x / 65536
        · rw [bhas_gt h.2.2.1 (by omega)]; simp
        · rw [beq_eq_false_iff_ne.2 e]; rfl
    have h4 : card 4294967296 (fun x => k == x / 65536 && chas c (x % 65536)) = card 65536 (chas c) := by
      have hk := h.1
      refine card_window (a := k * 65536) (by omega) (fun x hx => ?_) (fun x hx _ => ?_) (fun x hx => ?_)
      · rw [beq_eq_false_iff_ne.2 (by omega)]; rfl
      · rw [beq_eq_false_iff_ne.2 (by omega)]; rfl
      · obtain ⟨e1, e2⟩ := split_kx (k := k) hx
        rw [e1, e2]; simp
    have h5 := ih h.2.2.2
    simp only [bcard]
    omega

theorem bcard_le {P : Container → Prop} {r : Bitmap} (h : BP P r) : bcard r ≤ 4294967296 := by
  rw [← card_bhas h]; exact card_le _ _

theorem u64_nat {n : Nat} (h : n < 18446744073709551616) : u64 n = n := by
  simp only [u64]; omega

theorem rbCardinality_loop {r : Bitmap} (h : BInv r) (acc : Nat) (hb : acc + bcard r < 18446744073709551616) :
    r.foldl (fun card p => u64 (card + containerCard p.2)) acc = acc + bcard r := by
  induction r generalizing acc with
  | nil => rfl
  | cons p t ih =>
    obtain ⟨k, c⟩ := p
    simp only [bcard] at hb ⊢
    simp only [List.foldl_cons]
    rw [containerCard_eq h.2.1.1.rep]
    have : u64 ((acc : Int) + (card 65536 (chas c) : Nat)) = acc + card 65536 (chas c) := by
      rw [← Int.natCast_add]; exact u64_nat (by omega)
    rw [this, ih h.2.2.2 _ (by omega)]
    omega

theorem rbCardinality_bcard {r : Bitmap} (h : BInv r) : rbCardinality r = bcard r := by
  have := bcard_le h
  rw [rbCardinality, rbCardinality_loop h 0 (by omega)]
  omega

theorem rbCardinality_eq {r : Bitmap} (h : BInv r) : rbCardinality r = card 4294967296 (bhas r) := by
  rw [rbCardinality_bcard h, card_bhas h]

theorem rbIsEmpty_iff {r : Bitmap} (h : BInv r) : rbIsEmpty r = true ↔ ∀ x, bhas r x = false := by
  cases r with
  | nil => simp [rbIsEmpty, bhas_nil]
  | cons p t =>
    obtain ⟨k, c⟩ := p
    obtain ⟨y, _, hy⟩ := bhas_head_ex h
    constructor
    · intro h; simp [rbIsEmpty] at h
    · intro h; rw [h] at hy; cases hy

theorem containerAnd_zero {c1 c2 : Container} (h1 : CNe c1) (h2 : CNe c2)
    (h : ¬ containerNonzero (containerAnd c1 c2) = true) : card 65536 (inter (chas c1) (chas c2)) = 0 := by
  have hr := containerAnd_spec h1.1.rep h2.1.rep
  rw [containerNonzero_iff_card hr] at h
  omega

theorem rbAndCardLoop_eq {a b : Bitmap} (ha : BInv a) (hb : BInv b) (acc : Nat)
    (hbd : acc + bcard (rbAnd a b) < 18446744073709551616) :
    rbAndCardLoop acc a b = acc + bcard (rbAnd a b) := by
  fun_induction rbAnd a b generalizing acc with
  | case1 => simp [rbAndCardLoop, bcard]
  | case2 x h => cases x <;> simp [rbAndCardLoop, bcard]
  | case3 c1 t1 s c2 t2 c hc ih =>
    have hr := containerAnd_spec ha.2.1.1.rep hb.2.1.1.rep
    have e : card 65536 (chas c) = card 65536 (inter (chas c1) (chas c2)) := card_congr fun x _ => hr.has x
    simp only [bcard] at hbd ⊢
    rw [rbAndCardLoop, if_pos rfl, containerAndCard_eq ha.2.1.1.rep hb.2.1.1.rep]
    rw [show u64 ((acc : Int) + (card 65536 (inter (chas c1) (chas c2)) : Nat)) =
      acc + card 65536 (inter (chas c1) (chas c2)) by rw [← Int.natCast_add]; exact u64_nat (by omega)]
    rw [ih ha.2.2.2 hb.2.2.2 _ (by omega)]
    omega
  | case4 c1 t1 s c2 t2 c hc ih =>
    have e := containerAnd_zero ha.2.1 hb.2.1 hc
    rw [rbAndCardLoop, if_pos rfl, containerAndCard_eq ha.2.1.1.rep hb.2.1.1.rep, e]
    rw [show u64 ((acc : Int) + ((0 : Nat) : Int)) = acc by rw [← Int.natCast_add]; exact u64_nat (by omega)]
    exact ih ha.2.2.2 hb.2.2.2 _ hbd
  | case5 s1 c1 t1 s2 c2 t2 hne hlt ih =>
    rw [rbAndCardLoop, if_neg hne, if_pos hlt]
    exact ih (by rw [raAdvance_eq ha hlt]; exact dropLt_bp ha.2.2.2 _) hb _ hbd
  | case6 s1 c1 t1 s2 c2 t2 hne hlt ih =>
    rw [rbAndCardLoop, if_neg hne, if_neg hlt]
    exact ih ha (by rw [raAdvance_eq hb (by omega)]; exact dropLt_bp hb.2.2.2 _) _ hbd

theorem rbAndCardinality_eq {a b : Bitmap} (ha : BInv a) (hb : BInv b) :
    rbAndCardinality a b = card 4294967296 (inter (bhas a) (bhas b)) := by
  have h := rbAnd_spec ha hb
  have h1 := bcard_le h.1
  rw [rbAndCardinality, rbAndCardLoop_eq ha hb 0 (by omega), ← card_bhas h.1, Nat.zero_add]
  exact card_congr fun x _ => h.2 x

theorem rbIntersect_eq {a b : Bitmap} (ha : BInv a) (hb : BInv b) :
    rbIntersect a b = !(rbAnd a b).isEmpty := by
  fun_induction rbAnd a b with
  | case1 => simp [rbIntersect]
  | case2 x h => cases x <;> simp [rbIntersect]
  | case3 c1 t1 s c2 t2 c hc ih =>
    have hr := containerAnd_spec ha.2.1.1.rep hb.2.1.1.rep
    obtain ⟨y, hy⟩ := (containerNonzero_iff hr.lrep).1 hc
    have hi : containerIntersect c1 c2 = true :=
      (containerIntersect_iff ha.2.1.1.rep hb.2.1.1.rep).2 ⟨y, by simpa [inter] using hy⟩
    rw [rbIntersect, if_pos rfl, if_pos hi]
    simp
  | case4 c1 t1 s c2 t2 c hc ih =>
    have hr := containerAnd_spec ha.2.1.1.rep hb.2.1.1.rep
    have hi : ¬ containerIntersect c1 c2 = true := by
      intro hh
      obtain ⟨y, hy⟩ := (containerIntersect_iff ha.2.1.1.rep hb.2.1.1.rep).1 hh
      exact hc ((containerNonzero_iff hr.lrep).2 ⟨y, by simpa [inter] using hy⟩)
    rw [rbIntersect, if_pos rfl, if_neg hi]
    exact ih ha.2.2.2 hb.2.2.2
  | case5 s1 c1 t1 s2 c2 t2 hne hlt ih =>
    rw [rbIntersect, if_neg hne, if_pos hlt]
    exact ih (by rw [raAdvance_eq ha hlt]; exact dropLt_bp ha.2.2.2 _) hb
  | case6 s1 c1 t1 s2 c2 t2 hne hlt ih =>
    rw [rbIntersect, if_neg hne, if_neg hlt]
    exact ih ha (by rw [raAdvance_eq hb (by omega)]; exact dropLt_bp hb.2.2.2 _)

theorem rbIntersect_iff {a b : Bitmap} (ha : BInv a) (hb : BInv b) :
    rbIntersect a b = true ↔ ∃ x, bhas a x = true ∧ bhas b x = true := by
  have h := rbAnd_spec ha hb
  have h1 := rbIsEmpty_iff h.1
  rw [rbIntersect_eq ha hb]
  constructor
  · intro hh
    cases hq : rbAnd a b with
    | nil => rw [hq] at hh; simp at hh
    | cons p t =>
      obtain ⟨k, c⟩ := p
      obtain ⟨y, _, hy⟩ := bhas_head_ex (hq ▸ h.1)
      rw [← hq, h.2] at hy
      exact ⟨_, by simpa using hy⟩
  · rintro ⟨x, hx1, hx2⟩
    have h2 := h.2 x
    rw [hx1, hx2] at h2
    cases hq : rbAnd a b with
    | nil => rw [hq, bhas_nil] at h2; cases h2
    | cons p t => rfl

theorem rbOrCardinality_eq {a b : Bitmap} (ha : BInv a) (hb : BInv b) :
    rbOrCardinality a b = card 4294967296 (union (bhas a) (bhas b)) := by
  have h1 := card_incl_excl 4294967296 (bhas a) (bhas b)
  have h2 := card_le 4294967296 (union (bhas a) (bhas b))
  rw [rbOrCardinality, rbCardinality_eq ha, rbCardinality_eq hb, rbAndCardinality_eq ha hb]
  rw [show ((card 4294967296 (bhas a) : Nat) : Int) + (card 4294967296 (bhas b) : Nat) -
    (card 4294967296 (inter (bhas a) (bhas b)) : Nat) = (card 4294967296 (union (bhas a) (bhas b)) : Nat) by omega]
  exact u64_nat (by omega)

theorem rbAndnotCardinality_eq {a b : Bitmap} (ha : BInv a) (hb : BInv b) :
    rbAndnotCardinality a b = card 4294967296 (diff (bhas a) (bhas b)) := by
  have h1 := card_diff 4294967296 (bhas a) (bhas b)
  have h2 := card_le 4294967296 (diff (bhas a) (bhas b))
  rw [rbAndnotCardinality, rbCardinality_eq ha, rbAndCardinality_eq ha hb]
  rw [show ((card 4294967296 (bhas a) : Nat) : Int) -
    (card 4294967296 (inter (bhas a) (bhas b)) : Nat) = (card 4294967296 (diff (bhas a) (bhas b)) : Nat) by omega]
  exact u64_nat (by omega)

theorem rbXorCardinality_eq {a b : Bitmap} (ha : BInv a) (hb : BInv b) :
    rbXorCardinality a b = card 4294967296 (symm (bhas a) (bhas b)) := by
  have h1 := card_symm 4294967296 (bhas a) (bhas b)
  have h2 := card_le 4294967296 (symm (bhas a) (bhas b))
  rw [rbXorCardinality, rbCardinality_eq ha, rbCardinality_eq hb, rbAndCardinality_eq ha hb]
  rw [show ((card 4294967296 (bhas a) : Nat) : Int) + (card 4294967296 (bhas b) : Nat) -
    2 * (card 4294967296 (inter (bhas a) (bhas b)) : Nat) = (card 4294967296 (symm (bhas a) (bhas b)) : Nat) by omega]
  exact u64_nat (by omega)

theorem rbIsStrictSubset_iff {a b : Bitmap} (ha : BInv a) (hb : BInv b) :
    rbIsStrictSubset a b = true ↔
      (∀ x, bhas a x = true → bhas b x = true) ∧ ∃ x, bhas b x = true ∧ bhas a x = false := by
  simp only [rbIsStrictSubset, Bool.and_eq_true, decide_eq_true_eq]
  rw [rbIsSubset_iff ha hb, rbCardinality_eq ha, rbCardinality_eq hb]
  have hmono := fun (h : ∀ x, bhas a x = true → bhas b x = true) =>
    card_mono (n := 4294967296) (s := bhas a) (t := bhas b) fun x _ => h x
  constructor
  · rintro ⟨h1, h2⟩
    refine ⟨h2, Classical.byContradiction fun hno => ?_⟩
    have : card 4294967296 (bhas b) ≤ card 4294967296 (bhas a) := card_mono fun x _ hx => by
      cases hy : bhas a x
      · exact absurd ⟨x, hx, hy⟩ hno
      · rfl
    omega
  · rintro ⟨h1, x, hx1, hx2⟩
    refine ⟨?_, h1⟩
    have h2 := hmono h1
    apply Classical.byContradiction
    intro hno
    have := eq_of_card_le (n := 4294967296) (fun x _ => h1 x) (by omega) x (bhas_lt hb hx1)
    rw [hx1, hx2] at this
    cases this

end CRoaring
