import Verif.Lemmas.R64c
import Verif.Lemmas.Query2
import Verif.Lemmas.Range2
/-
The 64-bit bitmap: comparisons, cardinalities, ranks and selection.
-/
set_option linter.unusedSimpArgs false
set_option linter.unusedVariables false
namespace CRoaring
open Spec

/-! ### Values of a list -/

theorem bq_cons {P : Container → Prop} {k : Nat} {c : Container} {t : Bitmap} :
    BQ P ((k, c) :: t) ↔ k < P48 ∧ P c ∧ (∀ p ∈ t, k < p.1) ∧ BQ P t := Iff.rfl

theorem bq_append {P : Container → Prop} {a b : Bitmap} :
    BQ P (a ++ b) ↔ BQ P a ∧ BQ P b ∧ ∀ p ∈ a, ∀ q ∈ b, p.1 < q.1 := by
  simp only [bq_iff, ks_append, List.mem_append]
  constructor
  · rintro ⟨⟨h1, h2, h3⟩, h4, h5⟩
    exact ⟨⟨h1, fun p hp => h4 p (Or.inl hp), fun p hp => h5 p (Or.inl hp)⟩,
      ⟨h2, fun p hp => h4 p (Or.inr hp), fun p hp => h5 p (Or.inr hp)⟩, h3⟩
  · rintro ⟨⟨h1, h4, h5⟩, ⟨h2, h6, h7⟩, h3⟩
    refine ⟨⟨h1, h2, h3⟩, ?_, ?_⟩
    · rintro p (hp | hp)
      · exact h4 p hp
      · exact h6 p hp
    · rintro p (hp | hp)
      · exact h5 p hp
      · exact h7 p hp

theorem bq_dropLt {P : Container → Prop} {l : Bitmap} (h : BQ P l) (x : Nat) : BQ P (dropLt x l) := by
  obtain ⟨A, e, -⟩ := dropLt_suffix x l
  rw [e] at h
  exact (bq_append.1 h).2.1

theorem bq_head {P : Container → Prop} {k : Nat} {c : Container} {t : Bitmap} (h : BQ P ((k, c) :: t)) {y : Nat}
    (hy : y < 65536) : bhas ((k, c) :: t) (k * 65536 + y) = chas c y := by
  obtain ⟨e1, e2⟩ := split_kx (k := k) hy
  rw [bhas_cons, bhas_gt h.2.2.1 (by omega), e1, e2]
  simp

theorem bq_head_ex {k : Nat} {c : Container} {t : Bitmap} (h : BQ CNe ((k, c) :: t)) :
    ∃ y, y < 65536 ∧ bhas ((k, c) :: t) (k * 65536 + y) = true := by
  obtain ⟨y, hy⟩ := h.2.1.2
  have := chas_lt h.2.1.1 hy
  exact ⟨y, this, by rw [bq_head h this, hy]⟩

theorem bq_ge {P : Container → Prop} {k : Nat} {c : Container} {t : Bitmap} (h : BQ P ((k, c) :: t)) {x : Nat}
    (hx : bhas ((k, c) :: t) x = true) : k ≤ x / 65536 := by
  obtain ⟨p, hp, e, _⟩ := bhas_key hx
  rcases List.mem_cons.1 hp with rfl | hp
  · simp only at e; omega
  · have := h.2.2.1 p hp; omega

theorem ks_vals_sorted {l : Bitmap} (h : KS l) : SSorted (vals l) := by
  induction l with
  | nil => exact List.Pairwise.nil
  | cons p t ih =>
    obtain ⟨k, c⟩ := p
    have h' := ks_cons.1 h
    rw [vals_cons]
    refine List.pairwise_append.2 ⟨cvals_sorted k c, ih h'.2, ?_⟩
    intro a ha b hb
    have h1 := (mem_cvals.1 ha).1
    obtain ⟨q, hq, e, _⟩ := bhas_key (mem_vals.1 hb)
    have := h'.1 q hq
    omega

theorem bq_lt {P : Container → Prop} {l : Bitmap} (h : BQ P l) {x : Nat} (hx : bhas l x = true) : x < TOP64 := by
  obtain ⟨q, hq, e, _⟩ := bhas_key hx
  have := (bq_iff.1 h).2.1 q hq
  unfold P48 at this; unfold TOP64; omega

theorem bq_vals {P : Container → Prop} {l : Bitmap} (h : BQ P l) : vals l = enum TOP64 (bhas l) :=
  sorted_eq_enum (ks_vals_sorted (bq_iff.1 h).1) fun x => by
    rw [mem_vals]
    exact ⟨fun hx => ⟨bq_lt h hx, hx⟩, fun hx => hx.2⟩

theorem bq_card {P : Container → Prop} {l : Bitmap} (h : BQ P l) : card TOP64 (bhas l) = bcard l := by
  rw [← vals_length, bq_vals h]; rfl

theorem card_keys {A B : Bitmap} (h : KS (A ++ B)) {K : Nat} (hA : ∀ p ∈ A, p.1 < K) (hB : ∀ p ∈ B, K ≤ p.1) :
    card (K * 65536) (bhas (A ++ B)) = bcard A := by
  rw [← vals_length]
  symm
  refine sorted_length (ks_vals_sorted (ks_append.1 h).1) fun x => ?_
  rw [mem_vals, bhas_append]
  constructor
  · intro hx
    obtain ⟨p, hp, e, _⟩ := bhas_key hx
    have := hA p hp
    exact ⟨by omega, by simp [hx]⟩
  · rintro ⟨h1, h2⟩
    rw [bhas_ne (r := B) (fun p hp => by have := hB p hp; omega)] at h2
    simpa using h2

theorem card_prefix64 {A B : Bitmap} {K : Nat} {c : Container} (h : KS (A ++ (K, c) :: B)) {y : Nat} (hy : y ≤ 65536) :
    card (K * 65536 + y) (bhas (A ++ (K, c) :: B)) = bcard A + card y (chas c) := by
  have hm := ks_mid.1 h
  rw [card_add, card_keys h hm.2.1 (by
    intro p hp
    rcases List.mem_cons.1 hp with rfl | hp
    · exact Nat.le_refl _
    · have := hm.2.2 p hp; omega)]
  congr 1
  refine card_congr fun x hx => ?_
  rw [bhas_mid hm.2.1 hm.2.2, if_pos (by omega)]
  congr 1; omega

theorem card_gap64 {A B : Bitmap} {K : Nat} (h : KS (A ++ B)) (hA : ∀ p ∈ A, p.1 < K) (hB : ∀ p ∈ B, K < p.1) {y : Nat} (hy : y ≤ 65536) :
    card (K * 65536 + y) (bhas (A ++ B)) = bcard A := by
  rw [card_add, card_keys h hA (fun p hp => Nat.le_of_lt (hB p hp))]
  rw [card_eq_zero.2 fun x hx => bhas_gap hA hB (x := K * 65536 + x) (by omega)]
  rfl

/-! ### Comparisons -/

theorem equals64_loop {r1 r2 : R64} (fuel : Nat) {it1 it2 : AIt} {a b : Bitmap} (h1 : IL r1 it1 a) (h2 : IL r2 it2 b)
    (ha : BQ CNe a) (hb : BQ CNe b) (hf : a.length + b.length < fuel) :
    equals64Loop r1 r2 fuel it1 it2 = true ↔ ∀ x, bhas a x = bhas b x := by
  induction fuel generalizing it1 it2 a b with
  | zero => omega
  | succ fuel ih =>
    unfold equals64Loop
    cases a with
    | nil =>
      rw [h1.nil]
      cases b with
      | nil => rw [h2.nil]; simp
      | cons q t2 =>
        obtain ⟨n2, c2⟩ := q
        rw [h2.cons.value]
        simp only [Option.isNone_none, Option.isNone_some, Bool.and_false, Bool.false_eq_true, false_iff]
        intro h
        obtain ⟨y, _, hy2⟩ := bq_head_ex hb
        rw [← h, bhas_nil] at hy2
        cases hy2
    | cons p t1 =>
      obtain ⟨n1, c1⟩ := p
      have g1 := h1.cons
      rw [g1.value]
      cases b with
      | nil =>
        rw [h2.nil]
        simp only [Option.isNone_none, Option.isNone_some, Bool.false_and, Bool.false_eq_true, false_iff]
        intro h
        obtain ⟨y, _, hy2⟩ := bq_head_ex ha
        rw [h, bhas_nil] at hy2
        cases hy2
      | cons q t2 =>
        obtain ⟨n2, c2⟩ := q
        have g2 := h2.cons
        rw [g2.value]
        simp only
        obtain ⟨he, hl⟩ := cmp_iters g1 g2
        simp only [List.length_cons] at hf
        have hk : (∀ x, bhas ((n1, c1) :: t1) x = bhas ((n2, c2) :: t2) x) → n1 = n2 := by
          intro h
          obtain ⟨y, hy1, hy2⟩ := bq_head_ex ha
          obtain ⟨z, hz1, hz2⟩ := bq_head_ex hb
          rw [h] at hy2
          rw [← h] at hz2
          have h1 := bq_ge hb hy2
          have h2 := bq_ge ha hz2
          omega
        by_cases e : n1 = n2
        · rw [if_neg (by simpa using he.2 e)]
          subst e
          by_cases hc : containerEquals c1 c2 = true
          · rw [hc]
            simp only [Bool.not_true, Bool.false_eq_true, if_false]
            rw [ih g1.next g2.next ha.2.2.2 hb.2.2.2 (by omega)]
            have hc' := (containerEquals_iff ha.2.1.1.rep hb.2.1.1.rep).1 hc
            constructor
            · intro h x
              rw [bhas_cons, bhas_cons, hc', h]
            · intro h x
              by_cases hx : x / 65536 = n1
              · rw [bhas_gt ha.2.2.1 (by omega), bhas_gt hb.2.2.1 (by omega)]
              · rw [← bhas_tail (c := c1) (t := t1) hx, ← bhas_tail (c := c2) (t := t2) hx, h]
          · have hc2 : containerEquals c1 c2 = false := by simpa using hc
            rw [hc2]
            simp only [Bool.not_false, if_true, Bool.false_eq_true, false_iff]
            intro h
            refine hc ((containerEquals_iff ha.2.1.1.rep hb.2.1.1.rep).2 fun y => ?_)
            by_cases hy : y < 65536
            · rw [← bq_head ha hy, ← bq_head hb hy, h]
            · rw [ha.2.1.1.rep.zero (by omega), hb.2.1.1.rep.zero (by omega)]
        · rw [if_pos (fun hh => e (he.1 hh))]
          simp only [Bool.false_eq_true, false_iff]
          exact fun h => e (hk h)

theorem r64Equals_iff {r1 r2 : R64} {s t : NSet} (h1 : Rep64 r1 s) (h2 : Rep64 r2 t) :
    r64Equals r1 r2 = true ↔ ∀ x, s x = t x := by
  rep64 h1 a
  rep64 h2 b
  exact equals64_loop FUEL h1.rl.init h2.rl.init h1.bq h2.bq (p48_fuel h1.rl.length h2.rl.length)

theorem subset64_loop {r1 r2 : R64} (fuel : Nat) {it1 it2 : AIt} {a b : Bitmap} (h1 : IL r1 it1 a) (h2 : IL r2 it2 b)
    (ha : BQ CNe a) (hb : BQ CNe b) (hf : a.length + b.length < fuel) :
    subset64Loop r1 r2 fuel it1 it2 = true ↔ ∀ x, bhas a x = true → bhas b x = true := by
  induction fuel generalizing it1 it2 a b with
  | zero => omega
  | succ fuel ih =>
    unfold subset64Loop
    cases a with
    | nil => rw [h1.nil]; simp [bhas_nil]
    | cons p t1 =>
      obtain ⟨n1, c1⟩ := p
      have g1 := h1.cons
      rw [g1.value]
      cases b with
      | nil =>
        rw [h2.nil]
        simp only [Bool.false_eq_true, false_iff]
        intro h
        obtain ⟨y, _, hy2⟩ := bq_head_ex ha
        have := h _ hy2
        rw [bhas_nil] at this; cases this
      | cons q t2 =>
        obtain ⟨n2, c2⟩ := q
        have g2 := h2.cons
        rw [g2.value]
        simp only
        obtain ⟨he, hl⟩ := cmp_iters g1 g2
        simp only [List.length_cons] at hf
        by_cases e : n1 = n2
        · rw [if_pos (he.2 e)]
          subst e
          by_cases hc : containerIsSubset c1 c2 = true
          · rw [hc]
            simp only [Bool.not_true, Bool.false_eq_true, if_false]
            rw [ih g1.next g2.next ha.2.2.2 hb.2.2.2 (by omega)]
            have hc' := (containerIsSubset_iff ha.2.1.1.rep hb.2.1.1.rep).1 hc
            constructor
            · intro h x hx
              by_cases hk : x / 65536 = n1
              · have hm : x % 65536 < 65536 := Nat.mod_lt _ (by omega)
                have ex : x = n1 * 65536 + x % 65536 := by omega
                rw [ex, bq_head hb hm]
                rw [ex, bq_head ha hm] at hx
                exact hc' _ hx
              · rw [bhas_tail hk] at hx ⊢
                exact h x hx
            · intro h x hx
              obtain ⟨p, hp, e, _⟩ := bhas_key hx
              have h2 := ha.2.2.1 p hp
              have hk : x / 65536 ≠ n1 := by omega
              have := h x (by rw [bhas_tail hk]; exact hx)
              rwa [bhas_tail hk] at this
          · have hc2 : containerIsSubset c1 c2 = false := by simpa using hc
            rw [hc2]
            simp only [Bool.not_false, if_true, Bool.false_eq_true, false_iff]
            intro h
            refine hc ((containerIsSubset_iff ha.2.1.1.rep hb.2.1.1.rep).2 fun y hy => ?_)
            have hy2 := chas_lt ha.2.1.1 hy
            rw [← bq_head hb hy2]
            exact h _ (by rw [bq_head ha hy2]; exact hy)
        · rw [if_neg (fun hh => e (he.1 hh))]
          by_cases hlt : n1 < n2
          · rw [if_pos (hl.2 hlt)]
            simp only [Bool.false_eq_true, false_iff]
            intro h
            obtain ⟨y, hy0, hy⟩ := bq_head_ex ha
            have h1 := bq_ge hb (h _ hy)
            omega
          · rw [if_neg (fun hh => hlt (hl.1 hh))]
            have e1 := g1.num
            have hd := dropLt_lt (c := c2) (t := t2) (show n2 < n1 by omega)
            have h2' := h2.drop g1.key (by omega)
            rw [e1] at h2'
            rw [ih h1 h2' ha (bq_dropLt hb _) (by simp only [List.length_cons] at hd ⊢; omega)]
            constructor
            · intro h x hx
              have := h x hx
              rwa [bhas_dropLt _ _ (bq_ge ha hx)] at this
            · intro h x hx
              rw [bhas_dropLt _ _ (bq_ge ha hx)]
              exact h x hx

theorem r64IsSubset_iff {r1 r2 : R64} {s t : NSet} (h1 : Rep64 r1 s) (h2 : Rep64 r2 t) :
    r64IsSubset r1 r2 = true ↔ ∀ x, s x = true → t x = true := by
  rep64 h1 a
  rep64 h2 b
  exact subset64_loop FUEL h1.rl.init h2.rl.init h1.bq h2.bq (p48_fuel h1.rl.length h2.rl.length)

/-! ### Cardinalities -/

theorem u64_add (n m : Nat) : u64 ((n : Int) + (m : Int)) = (n + m) % TOP64 := by
  unfold u64 TOP64; omega

theorem top_add (a b c : Nat) : ((a + b) % TOP64 + c) % TOP64 = (a + (b + c)) % TOP64 := by
  unfold TOP64; omega

theorem card64_loop {r : R64} (fuel : Nat) {it : AIt} {l : Bitmap} (hi : IL r it l) (hl : BQ CNe l) (n : Nat) (hf : l.length < fuel)
    (hn : n < TOP64) : card64Loop r fuel it n = (n + bcard l) % TOP64 := by
  induction fuel generalizing it l n with
  | zero => omega
  | succ fuel ih =>
    unfold card64Loop
    cases l with
    | nil => rw [hi.nil]; simp only [bcard]; unfold TOP64 at *; omega
    | cons p t =>
      obtain ⟨k, c⟩ := p
      have hc := hi.cons
      rw [hc.value]
      simp only
      rw [containerCard_eq hl.2.1.1.rep, u64_add, ih hc.next hl.2.2.2 _ (by simp at hf; omega) (Nat.mod_lt _ (by unfold TOP64; omega)),
        top_add]
      rfl

theorem r64Cardinality_eq {r : R64} {s : NSet} (h : Rep64 r s) : r64Cardinality r = card TOP64 s % TOP64 := by
  rep64 h l
  unfold r64Cardinality
  rw [card64_loop FUEL h.rl.init h.bq 0 h.rl.fuel (by unfold TOP64; omega), bq_card h.bq, Nat.zero_add]

theorem bcard_and {c1 c2 : Container} (h1 : CNe c1) (h2 : CNe c2) (n : Nat) :
    bcard (optList n (keepNz (fun _ => containerAnd) n c1 c2)) =
      card 65536 (inter (chas c1) (chas c2)) := by
  unfold keepNz
  by_cases hz : containerNonzero (containerAnd c1 c2) = true
  · simp only [hz, if_true, optList, bcard, Nat.add_zero]
    exact card_congr fun x _ => (containerAnd_spec h1.1.rep h2.1.rep).has x
  · rw [if_neg hz]
    simp only [optList, bcard]
    exact (containerAnd_zero h1 h2 hz).symm

theorem andCard64_loop {r1 r2 : R64} (fuel : Nat) {it1 it2 : AIt} {a b : Bitmap} (h1 : IL r1 it1 a) (h2 : IL r2 it2 b)
    (ha : BQ CNe a) (hb : BQ CNe b) (n : Nat) (hn : n < TOP64) (hf : a.length + b.length < fuel) :
    andCard64Loop r1 r2 fuel it1 it2 n = (n + bcard (merge (keepNz fun _ => containerAnd) false false a b)) % TOP64 := by
  induction fuel generalizing it1 it2 a b n with
  | zero => omega
  | succ fuel ih =>
    unfold andCard64Loop
    cases a with
    | nil => rw [h1.nil, merge_nil_left]; simp only [bcard]; unfold TOP64 at *; omega
    | cons p t1 =>
      obtain ⟨n1, c1⟩ := p
      have g1 := h1.cons
      cases b with
      | nil => rw [h2.nil, merge_nil_right, g1.value]; simp only [bcard]; unfold TOP64 at *; omega
      | cons q t2 =>
        obtain ⟨n2, c2⟩ := q
        have g2 := h2.cons
        rw [g1.value, g2.value]
        simp only
        obtain ⟨he, hl⟩ := cmp_iters g1 g2
        simp only [List.length_cons] at hf
        by_cases e : n1 = n2
        · rw [if_pos (he.2 e)]
          subst e
          rw [merge_cons_eq, bcard_append, bcard_and ha.2.1 hb.2.1]
          rw [containerAndCard_eq ha.2.1.1.rep hb.2.1.1.rep, u64_add,
            ih g1.next g2.next ha.2.2.2 hb.2.2.2 _ (Nat.mod_lt _ (by unfold TOP64; omega)) (by omega), top_add]
        · rw [if_neg (fun hh => e (he.1 hh))]
          by_cases hlt : n1 < n2
          · rw [if_pos (hl.2 hlt)]
            have e2 := g2.num
            have hd := dropLt_lt (c := c1) (t := t1) hlt
            have h1' := h1.drop g2.key (by omega)
            rw [e2] at h1'
            rw [ih h1' h2 (bq_dropLt ha _) hb n hn (by simp only [List.length_cons] at hd ⊢; omega), merge_drop_left]
          · rw [if_neg (fun hh => hlt (hl.1 hh))]
            have e1 := g1.num
            have hd := dropLt_lt (c := c2) (t := t2) (show n2 < n1 by omega)
            have h2' := h2.drop g1.key (by omega)
            rw [e1] at h2'
            rw [ih h1 h2' ha (bq_dropLt hb _) n hn (by simp only [List.length_cons] at hd ⊢; omega), merge_drop_right]

theorem and64_merge {a b : Bitmap} (ha : BQ CNe a) (hb : BQ CNe b) :
    BQ CNe (merge (keepNz fun _ => containerAnd) false false a b) ∧
    ∀ x, bhas (merge (keepNz fun _ => containerAnd) false false a b) x = Spec.inter (bhas a) (bhas b) x :=
  merge64_spec (P1 := CNe) (P2 := CNe) (P := CNe) (f := keepNz fun _ => containerAnd) (k1 := false) (k2 := false)
    (op := fun a b => a && b)
    (fun k c1 c2 c h1 h2 h => keepNz_some (containerAnd_spec h1.1.rep h2.1.rep) h)
    (fun k c1 c2 h1 h2 h => keepNz_none (g := fun _ => containerAnd) (containerAnd_spec h1.1.rep h2.1.rep).lrep h)
    (by simp) (by simp) (by simp) (by simp) ha hb

theorem r64AndCardinality_eq {r1 r2 : R64} {s t : NSet} (h1 : Rep64 r1 s) (h2 : Rep64 r2 t) :
    r64AndCardinality r1 r2 = card TOP64 (Spec.inter s t) % TOP64 := by
  rep64 h1 a
  rep64 h2 b
  have hm := and64_merge h1.bq h2.bq
  unfold r64AndCardinality
  rw [andCard64_loop FUEL h1.rl.init h2.rl.init h1.bq h2.bq 0 (by unfold TOP64; omega) (p48_fuel h1.rl.length h2.rl.length),
    Nat.zero_add, ← bq_card hm.1]
  rw [card_congr fun x _ => hm.2 x]

theorem r64OrCardinality_eq {r1 r2 : R64} {s t : NSet} (h1 : Rep64 r1 s) (h2 : Rep64 r2 t) :
    r64OrCardinality r1 r2 = card TOP64 (Spec.union s t) % TOP64 := by
  unfold r64OrCardinality
  rw [r64Cardinality_eq h1, r64Cardinality_eq h2, r64AndCardinality_eq h1 h2]
  have := card_incl_excl TOP64 s t
  generalize card TOP64 s = A at *
  generalize card TOP64 t = B at *
  generalize card TOP64 (inter s t) = C at *
  generalize card TOP64 (union s t) = D at *
  unfold u64 TOP64; omega

theorem r64AndnotCardinality_eq {r1 r2 : R64} {s t : NSet} (h1 : Rep64 r1 s) (h2 : Rep64 r2 t) :
    r64AndnotCardinality r1 r2 = card TOP64 (Spec.diff s t) % TOP64 := by
  unfold r64AndnotCardinality
  rw [r64Cardinality_eq h1, r64AndCardinality_eq h1 h2]
  have := card_diff TOP64 s t
  generalize card TOP64 s = A at *
  generalize card TOP64 (inter s t) = C at *
  generalize card TOP64 (diff s t) = D at *
  unfold u64 TOP64; omega

theorem r64XorCardinality_eq {r1 r2 : R64} {s t : NSet} (h1 : Rep64 r1 s) (h2 : Rep64 r2 t) :
    r64XorCardinality r1 r2 = card TOP64 (Spec.symm s t) % TOP64 := by
  unfold r64XorCardinality
  rw [r64Cardinality_eq h1, r64Cardinality_eq h2, r64AndCardinality_eq h1 h2]
  have := card_symm TOP64 s t
  generalize card TOP64 s = A at *
  generalize card TOP64 t = B at *
  generalize card TOP64 (inter s t) = C at *
  generalize card TOP64 (Spec.symm s t) = D at *
  unfold u64 TOP64; omega

theorem r64Jaccard_eq {r1 r2 : R64} {s t : NSet} (h1 : Rep64 r1 s) (h2 : Rep64 r2 t) :
    r64Jaccard r1 r2 = (card TOP64 (Spec.inter s t) % TOP64, card TOP64 (Spec.union s t) % TOP64) := by
  have h := r64OrCardinality_eq h1 h2
  unfold r64OrCardinality at h
  unfold r64Jaccard
  rw [h, r64AndCardinality_eq h1 h2]

theorem intersect64_loop {r1 r2 : R64} (fuel : Nat) {it1 it2 : AIt} {a b : Bitmap} (h1 : IL r1 it1 a) (h2 : IL r2 it2 b)
    (ha : BQ CNe a) (hb : BQ CNe b) (z : Bool) (hf : a.length + b.length < fuel) :
    intersect64Loop r1 r2 fuel it1 it2 z = (z || !(merge (keepNz fun _ => containerAnd) false false a b).isEmpty) := by
  induction fuel generalizing it1 it2 a b z with
  | zero => omega
  | succ fuel ih =>
    unfold intersect64Loop
    cases a with
    | nil => rw [h1.nil, merge_nil_left]; simp
    | cons p t1 =>
      obtain ⟨n1, c1⟩ := p
      have g1 := h1.cons
      cases b with
      | nil => rw [h2.nil, merge_nil_right, g1.value]; simp
      | cons q t2 =>
        obtain ⟨n2, c2⟩ := q
        have g2 := h2.cons
        rw [g1.value, g2.value]
        simp only
        obtain ⟨he, hl⟩ := cmp_iters g1 g2
        simp only [List.length_cons] at hf
        by_cases e : n1 = n2
        · rw [if_pos (he.2 e)]
          subst e
          have hr := containerAnd_spec ha.2.1.1.rep hb.2.1.1.rep
          have hi : containerIntersect c1 c2 = containerNonzero (containerAnd c1 c2) := by
            rw [Bool.eq_iff_iff, containerIntersect_iff ha.2.1.1.rep hb.2.1.1.rep, containerNonzero_iff hr.lrep]
            simp [inter]
          rw [merge_cons_eq, ih g1.next g2.next ha.2.2.2 hb.2.2.2 _ (by omega), hi]
          unfold keepNz
          cases containerNonzero (containerAnd c1 c2) <;> simp
        · rw [if_neg (fun hh => e (he.1 hh))]
          by_cases hlt : n1 < n2
          · rw [if_pos (hl.2 hlt)]
            have e2 := g2.num
            have hd := dropLt_lt (c := c1) (t := t1) hlt
            have h1' := h1.drop g2.key (by omega)
            rw [e2] at h1'
            rw [ih h1' h2 (bq_dropLt ha _) hb z (by simp only [List.length_cons] at hd ⊢; omega), merge_drop_left]
          · rw [if_neg (fun hh => hlt (hl.1 hh))]
            have e1 := g1.num
            have hd := dropLt_lt (c := c2) (t := t2) (show n2 < n1 by omega)
            have h2' := h2.drop g1.key (by omega)
            rw [e1] at h2'
            rw [ih h1 h2' ha (bq_dropLt hb _) z (by simp only [List.length_cons] at hd ⊢; omega), merge_drop_right]

theorem bq_empty_iff {l : Bitmap} (h : BQ CNe l) : l = [] ↔ ∀ x, bhas l x = false := by
  constructor
  · rintro rfl; exact bhas_nil
  · intro hx
    cases l with
    | nil => rfl
    | cons p t =>
      obtain ⟨k, c⟩ := p
      obtain ⟨y, _, hy⟩ := bq_head_ex h
      rw [hx] at hy; cases hy

theorem r64Intersect_iff {r1 r2 : R64} {s t : NSet} (h1 : Rep64 r1 s) (h2 : Rep64 r2 t) :
    r64Intersect r1 r2 = true ↔ ∃ x, s x = true ∧ t x = true := by
  rep64 h1 a
  rep64 h2 b
  have hm := and64_merge h1.bq h2.bq
  unfold r64Intersect
  rw [intersect64_loop FUEL h1.rl.init h2.rl.init h1.bq h2.bq false (p48_fuel h1.rl.length h2.rl.length)]
  have := bq_empty_iff hm.1
  generalize merge (keepNz fun _ => containerAnd) false false a b = M at *
  rw [Bool.false_or, Bool.not_eq_true', ← Bool.not_eq_true, List.isEmpty_iff, this]
  constructor
  · intro h
    apply Classical.byContradiction
    intro hn
    apply h
    intro x
    rw [hm.2]
    cases hx : Spec.inter (bhas a) (bhas b) x with
    | false => rfl
    | true => exact absurd ⟨x, by simpa [Spec.inter] using hx⟩ hn
  · rintro ⟨x, h3, h4⟩ h
    have := h x
    rw [hm.2] at this
    simp [Spec.inter, h3, h4] at this

theorem r64IsEmpty_iff {r : R64} {s : NSet} (h : Rep64 r s) : r64IsEmpty r = true ↔ ∀ x, s x = false := by
  rep64 h l
  rw [← bq_empty_iff h.bq]
  cases r with
  | none =>
    have e := h.rl.unique rl_none
    simp [r64IsEmpty, artIsEmpty, e]
  | some t =>
    simp only [r64IsEmpty, artIsEmpty]
    constructor
    · intro h; cases h
    · intro e
      subst e
      obtain ⟨v, -, a2, -⟩ := nodeInit_first (h.rl.ok t rfl) LEVELS (it := itZero) (path := []) .nil rfl (by simp only [LEVELS]; omega)
      exact absurd ((h.rl.mem _ v).2 ⟨_, ⟨t, rfl, a2⟩, rfl⟩) (by simp)

end CRoaring
