import Verif.Lemmas.Bitmap

set_option linter.unusedSimpArgs false
set_option linter.unusedVariables false

/-! Set operations, relations and cardinalities of bitmaps. -/

namespace CRoaring
open Spec

/-! ### Skipping cells -/

/-- Drop the cells whose key is below `x`. -/
def dropLt (x : Nat) : Bitmap → Bitmap
  | [] => []
  | (k, c) :: t => if k < x then dropLt x t else (k, c) :: t

theorem dropLt_split {A B : Bitmap} {x : Nat} (hA : ∀ p ∈ A, p.1 < x) (hB : ∀ p ∈ B, x ≤ p.1) :
    dropLt x (A ++ B) = B := by
  induction A with
  | nil =>
    cases B with
    | nil => rfl
    | cons p t =>
      have := hB p (by simp)
      simp only [List.nil_append, dropLt]
      rw [if_neg (by omega)]
  | cons p t ih =>
    have := hA p (by simp)
    simp only [List.cons_append, dropLt]
    rw [if_pos this]
    exact ih fun q hq => hA q (by simp [hq])

theorem dropLt_suffix (x : Nat) (r : Bitmap) : ∃ A, r = A ++ dropLt x r ∧ ∀ p ∈ A, p.1 < x := by
  induction r with
  | nil => exact ⟨[], rfl, by simp⟩
  | cons p t ih =>
    obtain ⟨k, c⟩ := p
    simp only [dropLt]
    by_cases h : k < x
    · obtain ⟨A, e, hA⟩ := ih
      rw [if_pos h]
      exact ⟨(k, c) :: A, by rw [List.cons_append, ← e], by simpa [h] using hA⟩
    · rw [if_neg h]; exact ⟨[], rfl, by simp⟩

theorem dropLt_bp {P : Container → Prop} {r : Bitmap} (h : BP P r) (x : Nat) : BP P (dropLt x r) := by
  obtain ⟨A, e, _⟩ := dropLt_suffix x r
  rw [e] at h
  exact (bp_append.1 h).2.1

theorem raAdvanceFrom_split {P : Container → Prop} {k x : Nat} {c : Container} {t : Bitmap}
    (h : BP P ((k, c) :: t)) (hk : k < x) :
    ∃ A, (k, c) :: t = A ++ dropLt x ((k, c) :: t) ∧ (∀ p ∈ A, p.1 < x) ∧
      raAdvanceFrom ((k, c) :: t) x 1 = A.length := by
  obtain ⟨A, B, e, hA, hB⟩ := bp_exists_split h x
  have hd : dropLt x ((k, c) :: t) = B := by rw [e]; exact dropLt_split hA hB
  refine ⟨A, by rw [hd, ← e], hA, ?_⟩
  have hl : (keysOf ((k, c) :: t)).length = ((k, c) :: t).length := by simp [keysOf]
  simp only [raAdvanceFrom]
  rw [← hl, advanceFrom_list h.sorted, e, lb_keys_split hA hB]
  cases A with
  | nil =>
    exfalso
    have := hB (k, c) (by rw [← List.nil_append B, ← e]; simp)
    simp only at this; omega
  | cons a A => simp only [List.length_cons]; omega

theorem raAdvance_eq {P : Container → Prop} {k x : Nat} {c : Container} {t : Bitmap}
    (h : BP P ((k, c) :: t)) (hk : k < x) : raAdvance ((k, c) :: t) x = dropLt x t := by
  obtain ⟨A, e, hA, hi⟩ := raAdvanceFrom_split h hk
  have : raAdvance ((k, c) :: t) x = dropLt x ((k, c) :: t) := by
    simp only [raAdvance, hi]
    conv => lhs; rw [e]
    exact List.drop_left
  rw [this, dropLt, if_pos hk]

theorem raAdvanceFreeing_eq (x : Nat) (r : Bitmap) : raAdvanceFreeing x r = dropLt x r := by
  induction r with
  | nil => rfl
  | cons p t ih => simp only [raAdvanceFreeing, dropLt, ih]

/-! ### A generic merge of two sorted bitmaps -/

/-- `r` if `b`, nothing otherwise. -/
def keep (b : Bool) (r : Bitmap) : Bitmap := if b then r else []

theorem keep_true (r : Bitmap) : keep true r = r := rfl
theorem keep_false (r : Bitmap) : keep false r = [] := rfl
theorem bhas_keep (b : Bool) (r : Bitmap) (x : Nat) : bhas (keep b r) x = (b && bhas r x) := by
  cases b <;> simp [keep, bhas_nil]
theorem mem_keep {b : Bool} {r : Bitmap} {p : Nat × Container} (h : p ∈ keep b r) : p ∈ r := by
  cases b
  · simp [keep] at h
  · exact h

/-- Merge by key: `f` combines containers with the same key (`none`: nothing is kept), `k1`/`k2` say
whether containers present on one side only are kept. -/
def merge (f : Nat → Container → Container → Option Container) (k1 k2 : Bool) : Bitmap → Bitmap → Bitmap
  | [], x2 => keep k2 x2
  | x1, [] => keep k1 x1
  | (s1, c1) :: t1, (s2, c2) :: t2 =>
    if s1 = s2 then (match f s1 c1 c2 with | some c => [(s1, c)] | none => []) ++ merge f k1 k2 t1 t2
    else if s1 < s2 then keep k1 [(s1, c1)] ++ merge f k1 k2 t1 ((s2, c2) :: t2)
    else keep k2 [(s2, c2)] ++ merge f k1 k2 ((s1, c1) :: t1) t2
termination_by x1 x2 => x1.length + x2.length

theorem merge_keys (f : Nat → Container → Container → Option Container) (k1 k2 : Bool) (a b : Bitmap) :
    ∀ p ∈ merge f k1 k2 a b, (∃ q ∈ a, q.1 = p.1) ∨ ∃ q ∈ b, q.1 = p.1 := by
  fun_induction merge f k1 k2 a b with
  | case1 x2 => exact fun p hp => Or.inr ⟨p, mem_keep hp, rfl⟩
  | case2 x1 h => exact fun p hp => Or.inl ⟨p, mem_keep hp, rfl⟩
  | case3 c1 t1 s c2 t2 ih =>
    intro p hp
    rcases List.mem_append.1 hp with hp | hp
    · left
      refine ⟨_, List.mem_cons_self, ?_⟩
      split at hp <;> simp_all
    · rcases ih p hp with ⟨q, hq, e⟩ | ⟨q, hq, e⟩
      · exact Or.inl ⟨q, List.mem_cons_of_mem _ hq, e⟩
      · exact Or.inr ⟨q, List.mem_cons_of_mem _ hq, e⟩
  | case4 s1 c1 t1 s2 c2 t2 h1 h2 ih =>
    intro p hp
    rcases List.mem_append.1 hp with hp | hp
    · left
      refine ⟨_, List.mem_cons_self, ?_⟩
      have := mem_keep hp
      simp_all
    · rcases ih p hp with ⟨q, hq, e⟩ | ⟨q, hq, e⟩
      · exact Or.inl ⟨q, List.mem_cons_of_mem _ hq, e⟩
      · exact Or.inr ⟨q, hq, e⟩
  | case5 s1 c1 t1 s2 c2 t2 h1 h2 ih =>
    intro p hp
    rcases List.mem_append.1 hp with hp | hp
    · right
      refine ⟨_, List.mem_cons_self, ?_⟩
      have := mem_keep hp
      simp_all
    · rcases ih p hp with ⟨q, hq, e⟩ | ⟨q, hq, e⟩
      · exact Or.inl ⟨q, hq, e⟩
      · exact Or.inr ⟨q, List.mem_cons_of_mem _ hq, e⟩

theorem merge_gt {f : Nat → Container → Container → Option Container} {k1 k2 : Bool} {a b : Bitmap} {k : Nat}
    (ha : ∀ p ∈ a, k < p.1) (hb : ∀ p ∈ b, k < p.1) : ∀ p ∈ merge f k1 k2 a b, k < p.1 := by
  intro p hp
  rcases merge_keys f k1 k2 a b p hp with ⟨q, hq, e⟩ | ⟨q, hq, e⟩
  · have := ha q hq; omega
  · have := hb q hq; omega

theorem bhas_gt {r : Bitmap} {x k : Nat} (h : ∀ p ∈ r, k < p.1) (hx : x / 65536 ≤ k) : bhas r x = false :=
  bhas_ne fun p hp => by have := h p hp; omega

theorem merge_spec {P1 P2 P : Container → Prop} {f : Nat → Container → Container → Option Container}
    {k1 k2 : Bool} {op : Bool → Bool → Bool}
    (hs : ∀ k c1 c2 c, P1 c1 → P2 c2 → f k c1 c2 = some c →
      P c ∧ ∀ x, chas c x = op (chas c1 x) (chas c2 x))
    (hn : ∀ k c1 c2, P1 c1 → P2 c2 → f k c1 c2 = none → ∀ x, op (chas c1 x) (chas c2 x) = false)
    (h1 : ∀ b, op b false = (k1 && b)) (h2 : ∀ b, op false b = (k2 && b))
    (p1 : k1 = true → ∀ c, P1 c → P c) (p2 : k2 = true → ∀ c, P2 c → P c)
    {a b : Bitmap} (ha : BP P1 a) (hb : BP P2 b) :
    BP P (merge f k1 k2 a b) ∧ ∀ x, bhas (merge f k1 k2 a b) x = op (bhas a x) (bhas b x) := by
  fun_induction merge f k1 k2 a b with
  | case1 x2 =>
    refine ⟨?_, fun x => by rw [bhas_nil, h2, bhas_keep]⟩
    cases hk : k2
    · trivial
    · exact hb.mono (p2 hk)
  | case2 x1 h =>
    refine ⟨?_, fun x => by rw [bhas_nil, h1, bhas_keep]⟩
    cases hk : k1
    · trivial
    · exact ha.mono (p1 hk)
  | case3 c1 t1 s c2 t2 ih =>
    have ih := ih ha.2.2.2 hb.2.2.2
    have hg := merge_gt (f := f) (k1 := k1) (k2 := k2) ha.2.2.1 hb.2.2.1
    cases hf : f s c1 c2 with
    | some c =>
      have hc := hs s c1 c2 c ha.2.1 hb.2.1 hf
      simp only [List.cons_append, List.nil_append]
      refine ⟨⟨ha.1, hc.1, hg, ih.1⟩, fun x => ?_⟩
      simp only [bhas_cons]
      by_cases hx : s = x / 65536
      · rw [bhas_gt hg (by omega), bhas_gt ha.2.2.1 (by omega), bhas_gt hb.2.2.1 (by omega)]
        simp [hx, hc.2]
      · rw [ih.2 x, beq_eq_false_iff_ne.2 hx]
        simp
    | none =>
      have hc := hn s c1 c2 ha.2.1 hb.2.1 hf
      simp only [List.nil_append]
      refine ⟨ih.1, fun x => ?_⟩
      simp only [bhas_cons]
      by_cases hx : s = x / 65536
      · rw [bhas_gt hg (by omega), bhas_gt ha.2.2.1 (by omega), bhas_gt hb.2.2.1 (by omega)]
        simp [hx, hc]
      · rw [ih.2 x, beq_eq_false_iff_ne.2 hx]
        simp
  | case4 s1 c1 t1 s2 c2 t2 hne hlt ih =>
    have ih := ih ha.2.2.2 hb
    have hb2 : ∀ p ∈ (s2, c2) :: t2, s1 < p.1 := by
      intro p hp
      rcases List.mem_cons.1 hp with rfl | hp
      · exact hlt
      · have := hb.2.2.1 p hp; omega
    have hg := merge_gt (f := f) (k1 := k1) (k2 := k2) ha.2.2.1 hb2
    have key : ∀ x, s1 = x / 65536 →
        op (bhas ((s1, c1) :: t1) x) (bhas ((s2, c2) :: t2) x) = (k1 && chas c1 (x % 65536)) := by
      intro x hx
      rw [bhas_gt hb2 (by omega), h1, bhas_cons, bhas_gt ha.2.2.1 (by omega)]
      simp [hx]
    have other : ∀ x, s1 ≠ x / 65536 → bhas ((s1, c1) :: t1) x = bhas t1 x := by
      intro x hx; rw [bhas_cons, beq_eq_false_iff_ne.2 hx]; simp
    cases hk : k1 with
    | true =>
      rw [hk] at hg ih
      simp only [keep_true, List.cons_append, List.nil_append]
      refine ⟨⟨ha.1, p1 hk _ ha.2.1, hg, ih.1⟩, fun x => ?_⟩
      by_cases hx : s1 = x / 65536
      · rw [key x hx, bhas_cons, bhas_gt hg (by omega)]; simp [hx, hk]
      · rw [other x hx, bhas_cons, ih.2 x, beq_eq_false_iff_ne.2 hx]; simp
    | false =>
      rw [hk] at hg ih
      simp only [keep_false, List.nil_append]
      refine ⟨ih.1, fun x => ?_⟩
      by_cases hx : s1 = x / 65536
      · rw [key x hx, bhas_gt hg (by omega)]; simp [hk]
      · rw [other x hx, ih.2 x]
  | case5 s1 c1 t1 s2 c2 t2 hne hlt ih =>
    have ih := ih ha hb.2.2.2
    have ha2 : ∀ p ∈ (s1, c1) :: t1, s2 < p.1 := by
      intro p hp
      rcases List.mem_cons.1 hp with rfl | hp
      · simp only; omega
      · have := ha.2.2.1 p hp; omega
    have hg := merge_gt (f := f) (k1 := k1) (k2 := k2) ha2 hb.2.2.1
    have key : ∀ x, s2 = x / 65536 →
        op (bhas ((s1, c1) :: t1) x) (bhas ((s2, c2) :: t2) x) = (k2 && chas c2 (x % 65536)) := by
      intro x hx
      rw [bhas_gt ha2 (by omega), h2, bhas_cons, bhas_gt hb.2.2.1 (by omega)]
      simp [hx]
    have other : ∀ x, s2 ≠ x / 65536 → bhas ((s2, c2) :: t2) x = bhas t2 x := by
      intro x hx; rw [bhas_cons, beq_eq_false_iff_ne.2 hx]; simp
    cases hk : k2 with
    | true =>
      rw [hk] at hg ih
      simp only [keep_true, List.cons_append, List.nil_append]
      refine ⟨⟨hb.1, p2 hk _ hb.2.1, hg, ih.1⟩, fun x => ?_⟩
      by_cases hx : s2 = x / 65536
      · rw [key x hx, bhas_cons, bhas_gt hg (by omega)]; simp [hx, hk]
      · rw [other x hx, bhas_cons, ih.2 x, beq_eq_false_iff_ne.2 hx]; simp
    | false =>
      rw [hk] at hg ih
      simp only [keep_false, List.nil_append]
      refine ⟨ih.1, fun x => ?_⟩
      by_cases hx : s2 = x / 65536
      · rw [key x hx, bhas_gt hg (by omega)]; simp [hk]
      · rw [other x hx, ih.2 x]

/-- Keep a container unless it is empty. -/
def keepNz (g : Nat → Container → Container → Container) (k : Nat) (c1 c2 : Container) : Option Container :=
  if containerNonzero (g k c1 c2) then some (g k c1 c2) else none

theorem merge_nil_left (f : Nat → Container → Container → Option Container) (k1 : Bool) (b : Bitmap) :
    merge f k1 false [] b = [] := by simp [merge, keep]

theorem merge_nil_right (f : Nat → Container → Container → Option Container) (k2 : Bool) (a : Bitmap) :
    merge f false k2 a [] = [] := by
  cases a <;> simp [merge, keep]

theorem merge_drop_left (f : Nat → Container → Container → Option Container) (k2 : Bool) {s2 : Nat}
    {c2 : Container} {t2 : Bitmap} (a : Bitmap) :
    merge f false k2 (dropLt s2 a) ((s2, c2) :: t2) = merge f false k2 a ((s2, c2) :: t2) := by
  induction a with
  | nil => rfl
  | cons p t ih =>
    obtain ⟨k, c⟩ := p
    simp only [dropLt]
    split
    · rename_i h
      rw [ih, merge, if_neg (by omega), if_pos h]; simp [keep]
    · rfl

theorem merge_drop_right (f : Nat → Container → Container → Option Container) (k1 : Bool) {s1 : Nat}
    {c1 : Container} {t1 : Bitmap} (b : Bitmap) :
    merge f k1 false ((s1, c1) :: t1) (dropLt s1 b) = merge f k1 false ((s1, c1) :: t1) b := by
  induction b with
  | nil => rfl
  | cons p t ih =>
    obtain ⟨k, c⟩ := p
    simp only [dropLt]
    split
    · rename_i h
      rw [ih, merge, if_neg (by omega), if_neg (by omega)]; simp [keep]
    · rfl

theorem rbAnd_eq {P1 P2 : Container → Prop} {a b : Bitmap} (ha : BP P1 a) (hb : BP P2 b) :
    rbAnd a b = merge (keepNz fun _ => containerAnd) false false a b := by
  fun_induction rbAnd a b with
  | case1 => simp [merge, keep]
  | case2 => simp [merge_nil_right]
  | case3 c1 t1 s c2 t2 c hc ih =>
    rw [merge, if_pos rfl, ih ha.2.2.2 hb.2.2.2]
    simp only [keepNz]
    rw [if_pos hc]; rfl
  | case4 c1 t1 s c2 t2 c hc ih =>
    rw [merge, if_pos rfl, ih ha.2.2.2 hb.2.2.2]
    simp only [keepNz]
    rw [if_neg hc]; rfl
  | case5 s1 c1 t1 s2 c2 t2 hne hlt ih =>
    rw [raAdvance_eq ha hlt] at ih
    rw [raAdvance_eq ha hlt, ih (dropLt_bp ha.2.2.2 _) hb, merge_drop_left]
    conv => rhs; rw [merge, if_neg hne, if_pos hlt]
    simp [keep]
  | case6 s1 c1 t1 s2 c2 t2 hne hlt ih =>
    have hgt : s2 < s1 := by omega
    rw [raAdvance_eq hb hgt] at ih
    rw [raAdvance_eq hb hgt, ih ha (dropLt_bp hb.2.2.2 _), merge_drop_right]
    conv => rhs; rw [merge, if_neg hne, if_neg hlt]
    simp [keep]

theorem rbAndInplaceLoop_eq {P1 P2 : Container → Prop} (shared : Nat → Bool) {a b : Bitmap}
    (ha : BP P1 a) (hb : BP P2 b) :
    rbAndInplaceLoop shared a b =
      merge (keepNz fun k => chooseAnd (shared k)) false false a b := by
  fun_induction rbAndInplaceLoop shared a b with
  | case1 => simp [merge, keep]
  | case2 => simp [merge_nil_right]
  | case3 c1 t1 s c2 t2 c hc ih =>
    rw [merge, if_pos rfl, ih ha.2.2.2 hb.2.2.2]
    simp only [keepNz]
    rw [if_pos hc]; rfl
  | case4 c1 t1 s c2 t2 c hc ih =>
    rw [merge, if_pos rfl, ih ha.2.2.2 hb.2.2.2]
    simp only [keepNz]
    rw [if_neg hc]; rfl
  | case5 s1 c1 t1 s2 c2 t2 hne hlt ih =>
    rw [raAdvanceFreeing_eq] at ih
    rw [raAdvanceFreeing_eq, ih (dropLt_bp ha.2.2.2 _) hb, merge_drop_left]
    conv => rhs; rw [merge, if_neg hne, if_pos hlt]
    simp [keep]
  | case6 s1 c1 t1 s2 c2 t2 hne hlt ih =>
    have hgt : s2 < s1 := by omega
    rw [raAdvance_eq hb hgt] at ih
    rw [raAdvance_eq hb hgt, ih ha (dropLt_bp hb.2.2.2 _), merge_drop_right]
    conv => rhs; rw [merge, if_neg hne, if_neg hlt]
    simp [keep]

theorem rbOrLoop_eq (a b : Bitmap) : rbOrLoop a b = merge (fun _ c1 c2 => some (containerOr c1 c2)) true true a b := by
  fun_induction rbOrLoop a b with
  | case1 => simp [merge, keep]
  | case2 x1 h => cases x1 <;> simp [merge, keep]
  | case3 => rw [merge, if_pos rfl]; simp_all [keep]
  | case4 => rw [merge, if_neg (by assumption), if_pos (by assumption)]; simp_all [keep]
  | case5 => rw [merge, if_neg (by assumption), if_neg (by assumption)]; simp_all [keep]

theorem rbOrInplaceLoop_eq (shared : Nat → Bool) (caps : Nat → Nat) (a b : Bitmap) :
    rbOrInplaceLoop shared caps a b = merge (fun k c1 c2 => some (chooseOr (shared k) (caps k) c1 c2)) true true a b := by
  fun_induction rbOrInplaceLoop shared caps a b with
  | case1 => simp [merge, keep]
  | case2 x1 h => cases x1 <;> simp [merge, keep]
  | case3 => rw [merge, if_pos rfl]; simp_all [keep]
  | case4 => rw [merge, if_neg (by assumption), if_pos (by assumption)]; simp_all [keep]
  | case5 => rw [merge, if_neg (by assumption), if_neg (by assumption)]; simp_all [keep]

theorem rbXorLoop_eq (a b : Bitmap) : rbXorLoop a b = merge (keepNz fun _ => containerXor) true true a b := by
  fun_induction rbXorLoop a b with
  | case1 => simp [merge, keep]
  | case2 x1 h => cases x1 <;> simp [merge, keep]
  | case3 c1 t1 s c2 t2 c hc ih =>
    rw [merge, if_pos rfl, ih]
    simp only [keepNz]
    rw [if_pos hc]; rfl
  | case4 c1 t1 s c2 t2 c hc ih =>
    rw [merge, if_pos rfl, ih]
    simp only [keepNz]
    rw [if_neg hc]; rfl
  | case5 => rw [merge, if_neg (by assumption), if_pos (by assumption)]; simp_all [keep]
  | case6 => rw [merge, if_neg (by assumption), if_neg (by assumption)]; simp_all [keep]

theorem rbXorInplaceLoop_eq (shared : Nat → Bool) (a b : Bitmap) :
    rbXorInplaceLoop shared a b =
      merge (keepNz fun k => chooseXor (shared k)) true true a b := by
  fun_induction rbXorInplaceLoop shared a b with
  | case1 => simp [merge, keep]
  | case2 x1 h => cases x1 <;> simp [merge, keep]
  | case3 c1 t1 s c2 t2 c hc ih =>
    rw [merge, if_pos rfl, ih]
    simp only [keepNz]
    rw [if_pos hc]; rfl
  | case4 c1 t1 s c2 t2 c hc ih =>
    rw [merge, if_pos rfl, ih]
    simp only [keepNz]
    rw [if_neg hc]; rfl
  | case5 => rw [merge, if_neg (by assumption), if_pos (by assumption)]; simp_all [keep]
  | case6 => rw [merge, if_neg (by assumption), if_neg (by assumption)]; simp_all [keep]

theorem merge_take_left (f : Nat → Container → Container → Option Container) (k2 : Bool) {s2 : Nat}
    {c2 : Container} {t2 : Bitmap} (A : Bitmap) (hA : ∀ p ∈ A, p.1 < s2) (a : Bitmap) :
    A ++ merge f true k2 a ((s2, c2) :: t2) = merge f true k2 (A ++ a) ((s2, c2) :: t2) := by
  induction A with
  | nil => rfl
  | cons p t ih =>
    obtain ⟨k, c⟩ := p
    have hk : k < s2 := hA (k, c) (by simp)
    rw [List.cons_append, List.cons_append, merge, if_neg (by omega), if_pos hk,
      ← ih fun q hq => hA q (by simp [hq])]
    simp [keep]

theorem rbAndnotLoop_eq {P1 P2 : Container → Prop} {a b : Bitmap} (ha : BP P1 a) (hb : BP P2 b) :
    rbAndnotLoop a b = merge (keepNz fun _ => containerAndnot) true false a b := by
  fun_induction rbAndnotLoop a b with
  | case1 => simp [merge, keep]
  | case2 x1 h => cases x1 <;> simp [merge, keep]
  | case3 c1 t1 s c2 t2 c hc ih =>
    rw [merge, if_pos rfl, ih ha.2.2.2 hb.2.2.2]
    simp only [keepNz]
    rw [if_pos hc]; rfl
  | case4 c1 t1 s c2 t2 c hc ih =>
    rw [merge, if_pos rfl, ih ha.2.2.2 hb.2.2.2]
    simp only [keepNz]
    rw [if_neg hc]; rfl
  | case5 s1 c1 t1 s2 c2 t2 hne hlt ih =>
    obtain ⟨A, e, hA, hi⟩ := raAdvanceFrom_split ha hlt
    have e2 : raAdvance ((s1, c1) :: t1) s2 = dropLt s2 ((s1, c1) :: t1) := by
      rw [raAdvance_eq ha hlt, dropLt, if_pos hlt]
    rw [e2] at ih
    rw [e2, ih (dropLt_bp ha _) hb, hi]
    conv => lhs; rw [show List.take A.length ((s1, c1) :: t1) = A by conv => lhs; rw [e]
                                                                     exact List.take_left]
    rw [merge_take_left _ _ _ hA, ← e]
  | case6 s1 c1 t1 s2 c2 t2 hne hlt ih =>
    have hgt : s2 < s1 := by omega
    rw [raAdvance_eq hb hgt] at ih
    rw [raAdvance_eq hb hgt, ih ha (dropLt_bp hb.2.2.2 _), merge_drop_right]
    conv => rhs; rw [merge, if_neg hne, if_neg hlt]
    simp [keep]

theorem rbAndnotInplaceLoop_eq {P1 P2 : Container → Prop} (shared : Nat → Bool) {a b : Bitmap}
    (ha : BP P1 a) (hb : BP P2 b) :
    rbAndnotInplaceLoop shared a b =
      merge (keepNz fun k => chooseAndnot (shared k)) true false a b := by
  fun_induction rbAndnotInplaceLoop shared a b with
  | case1 => simp [merge, keep]
  | case2 x1 h => cases x1 <;> simp [merge, keep]
  | case3 c1 t1 s c2 t2 c hc ih =>
    rw [merge, if_pos rfl, ih ha.2.2.2 hb.2.2.2]
    simp only [keepNz]
    rw [if_pos hc]; rfl
  | case4 c1 t1 s c2 t2 c hc ih =>
    rw [merge, if_pos rfl, ih ha.2.2.2 hb.2.2.2]
    simp only [keepNz]
    rw [if_neg hc]; rfl
  | case5 s1 c1 t1 s2 c2 t2 hne hlt ih =>
    rw [merge, if_neg hne, if_pos hlt, ih ha.2.2.2 hb]; simp [keep]
  | case6 s1 c1 t1 s2 c2 t2 hne hlt ih =>
    have hgt : s2 < s1 := by omega
    rw [raAdvance_eq hb hgt] at ih
    rw [raAdvance_eq hb hgt, ih ha (dropLt_bp hb.2.2.2 _), merge_drop_right]
    conv => rhs; rw [merge, if_neg hne, if_neg hlt]
    simp [keep]

/-! ### The operations -/

theorem keepNz_some {g : Nat → Container → Container → Container} {k : Nat} {c1 c2 c : Container} {s : NSet}
    (hr : Rep (g k c1 c2) s) (h : keepNz g k c1 c2 = some c) : CNe c ∧ ∀ x, chas c x = s x := by
  simp only [keepNz] at h
  split at h
  · rename_i hn
    simp only [Option.some.injEq] at h
    subst h
    obtain ⟨y, hy⟩ := (containerNonzero_iff hr.lrep).1 hn
    exact ⟨hr.cne hy, hr.has⟩
  · simp at h

theorem keepNz_none {g : Nat → Container → Container → Container} {k : Nat} {c1 c2 : Container} {s : NSet}
    (hr : LRep (g k c1 c2) s) (h : keepNz g k c1 c2 = none) : ∀ x, s x = false := by
  simp only [keepNz] at h
  split at h
  · simp at h
  · rename_i hn
    intro x
    cases hx : s x
    · rfl
    · exact absurd ((containerNonzero_iff hr).2 ⟨x, hx⟩) hn

theorem rbAnd_spec {a b : Bitmap} (ha : BInv a) (hb : BInv b) :
    BInv (rbAnd a b) ∧ ∀ x, bhas (rbAnd a b) x = (bhas a x && bhas b x) := by
  rw [rbAnd_eq ha hb]
  refine merge_spec (P1 := CNe) (P2 := CNe) (P := CNe) ?_ ?_ (by simp) (by simp) (by simp) (by simp) ha hb
  · intro k c1 c2 c h1 h2 h
    exact keepNz_some (containerAnd_spec h1.1.rep h2.1.rep) h
  · intro k c1 c2 h1 h2 h
    exact keepNz_none (g := fun _ => containerAnd) (containerAnd_spec h1.1.rep h2.1.rep).lrep h

theorem rbAndInplace_spec (same : Bool) (shared : Nat → Bool) {a b : Bitmap} (ha : BInv a) (hb : BInv b)
    (hsame : same = true → a = b) :
    BInv (rbAndInplace same shared a b) ∧ ∀ x, bhas (rbAndInplace same shared a b) x = (bhas a x && bhas b x) := by
  cases same with
  | true =>
    have e := hsame rfl
    subst e
    simp only [rbAndInplace, if_true]
    exact ⟨ha, fun x => by cases bhas a x <;> rfl⟩
  | false =>
    simp only [rbAndInplace, Bool.false_eq_true, if_false]
    rw [rbAndInplaceLoop_eq shared ha hb]
    have hg : ∀ k c1 c2, CNe c1 → CNe c2 →
        Rep (chooseAnd (shared k) c1 c2) (inter (chas c1) (chas c2)) := by
      intro k c1 c2 h1 h2
      unfold chooseAnd
      split
      · exact containerAnd_spec h1.1.rep h2.1.rep
      · exact containerIand_spec h1.1.rep h2.1.rep
    refine merge_spec (P1 := CNe) (P2 := CNe) (P := CNe) ?_ ?_ (by simp) (by simp) (by simp) (by simp) ha hb
    · intro k c1 c2 c h1 h2 h
      exact keepNz_some (hg k c1 c2 h1 h2) h
    · intro k c1 c2 h1 h2 h
      exact keepNz_none (hg k c1 c2 h1 h2).lrep h

theorem len_zero_nil {r : Bitmap} (h : r.length = 0) : r = [] := List.length_eq_zero_iff.1 h

theorem union_cne {c c1 c2 : Container} (hr : Rep c (union (chas c1) (chas c2))) (h : CNe c1) : CNe c := by
  obtain ⟨y, hy⟩ := h.2
  exact hr.cne (x := y) (by simp [union, hy])

theorem rbOr_spec {a b : Bitmap} (ha : BInv a) (hb : BInv b) :
    BInv (rbOr a b) ∧ ∀ x, bhas (rbOr a b) x = (bhas a x || bhas b x) := by
  by_cases h1 : a.length = 0
  · have e := len_zero_nil h1
    subst e
    simp only [rbOr, List.length_nil, if_true, rbCopy]
    exact ⟨hb, fun x => by simp [bhas_nil]⟩
  by_cases h2 : b.length = 0
  · have e := len_zero_nil h2
    subst e
    simp only [rbOr, h1, List.length_nil, if_true, if_false, rbCopy]
    exact ⟨ha, fun x => by simp [bhas_nil]⟩
  simp only [rbOr, h1, h2, if_false]
  rw [rbOrLoop_eq]
  refine merge_spec (P1 := CNe) (P2 := CNe) (P := CNe) ?_ (by simp) (by simp) (by simp) (fun _ _ h => h)
    (fun _ _ h => h) ha hb
  intro k c1 c2 c h1 h2 h
  have hr := containerOr_spec h1.1.rep h2.1.rep
  simp only [Option.some.injEq] at h
  rw [h] at hr
  exact ⟨union_cne hr h1, hr.has⟩

theorem rbOrInplace_spec (shared : Nat → Bool) (caps : Nat → Nat) {a b : Bitmap} (ha : BInv a) (hb : BInv b) :
    BInv (rbOrInplace shared caps a b) ∧ ∀ x, bhas (rbOrInplace shared caps a b) x = (bhas a x || bhas b x) := by
  by_cases h2 : b.length = 0
  · have e := len_zero_nil h2
    subst e
    simp only [rbOrInplace, List.length_nil, if_true]
    exact ⟨ha, fun x => by simp [bhas_nil]⟩
  by_cases h1 : a.length = 0
  · have e := len_zero_nil h1
    subst e
    simp only [rbOrInplace, h2, List.length_nil, if_true, if_false, rbOverwrite]
    exact ⟨hb, fun x => by simp [bhas_nil]⟩
  simp only [rbOrInplace, h1, h2, if_false]
  rw [rbOrInplaceLoop_eq]
  refine merge_spec (P1 := CNe) (P2 := CNe) (P := CNe) ?_ (by simp) (by simp) (by simp) (fun _ _ h => h)
    (fun _ _ h => h) ha hb
  intro k c1 c2 c h1 h2 h
  have hr : Rep c (union (chas c1) (chas c2)) := by
    simp only [Option.some.injEq] at h
    rw [← h]
    unfold chooseOr
    by_cases hf : containerIsFull c1 = true
    · rw [if_neg (by simp [hf])]
      refine h1.1.rep.congr fun x => ?_
      have := (containerIsFull_iff h1.1.rep).1 hf
      by_cases hx : x < 65536
      · simp [union, this x hx]
      · rw [union, h1.1.rep.zero (by omega), h2.1.rep.zero (by omega)]; rfl
    · rw [if_pos (by simp [hf])]
      split
      · exact containerOr_spec h1.1.rep h2.1.rep
      · exact containerIor_spec _ h1.1.rep h2.1.rep
  exact ⟨union_cne hr h1, hr.has⟩

theorem rbXor_spec {a b : Bitmap} (ha : BInv a) (hb : BInv b) :
    BInv (rbXor a b) ∧ ∀ x, bhas (rbXor a b) x = (bhas a x != bhas b x) := by
  by_cases h1 : a.length = 0
  · have e := len_zero_nil h1
    subst e
    simp only [rbXor, List.length_nil, if_true, rbCopy]
    exact ⟨hb, fun x => by simp [bhas_nil]⟩
  by_cases h2 : b.length = 0
  · have e := len_zero_nil h2
    subst e
    simp only [rbXor, h1, List.length_nil, if_true, if_false, rbCopy]
    exact ⟨ha, fun x => by simp [bhas_nil]⟩
  simp only [rbXor, h1, h2, if_false]
  rw [rbXorLoop_eq]
  refine merge_spec (P1 := CNe) (P2 := CNe) (P := CNe) (op := fun a b => a != b) ?_ ?_ (by simp) (by simp)
    (fun _ _ h => h) (fun _ _ h => h) ha hb
  · intro k c1 c2 c h1 h2 h
    exact keepNz_some (containerXor_spec h1.1.rep h2.1.rep) h
  · intro k c1 c2 h1 h2 h
    exact keepNz_none (g := fun _ => containerXor) (containerXor_spec h1.1.rep h2.1.rep).lrep h

theorem rbXorInplace_spec (shared : Nat → Bool) {a b : Bitmap} (ha : BInv a) (hb : BInv b) :
    BInv (rbXorInplace shared a b) ∧ ∀ x, bhas (rbXorInplace shared a b) x = (bhas a x != bhas b x) := by
  by_cases h2 : b.length = 0
  · have e := len_zero_nil h2
    subst e
    simp only [rbXorInplace, List.length_nil, if_true]
    exact ⟨ha, fun x => by simp [bhas_nil]⟩
  by_cases h1 : a.length = 0
  · have e := len_zero_nil h1
    subst e
    simp only [rbXorInplace, h2, List.length_nil, if_true, if_false, rbOverwrite]
    exact ⟨hb, fun x => by simp [bhas_nil]⟩
  simp only [rbXorInplace, h1, h2, if_false]
  rw [rbXorInplaceLoop_eq]
  have hg : ∀ k c1 c2, CNe c1 → CNe c2 →
      Rep (chooseXor (shared k) c1 c2) (symm (chas c1) (chas c2)) := by
    intro k c1 c2 h1 h2
    unfold chooseXor
    split
    · exact containerXor_spec h1.1.rep h2.1.rep
    · exact containerIxor_spec h1.1.rep h2.1.rep
  refine merge_spec (P1 := CNe) (P2 := CNe) (P := CNe) (op := fun a b => a != b) ?_ ?_ (by simp) (by simp)
    (fun _ _ h => h) (fun _ _ h => h) ha hb
  · intro k c1 c2 c h1 h2 h
    exact keepNz_some (hg k c1 c2 h1 h2) h
  · intro k c1 c2 h1 h2 h
    exact keepNz_none (hg k c1 c2 h1 h2).lrep h

theorem rbAndnot_spec {a b : Bitmap} (ha : BInv a) (hb : BInv b) :
    BInv (rbAndnot a b) ∧ ∀ x, bhas (rbAndnot a b) x = (bhas a x && !bhas b x) := by
  by_cases h1 : a.length = 0
  · have e := len_zero_nil h1
    subst e
    simp only [rbAndnot, List.length_nil, if_true, rbCreate]
    exact ⟨ha, fun x => by simp [bhas_nil]⟩
  by_cases h2 : b.length = 0
  · have e := len_zero_nil h2
    subst e
    simp only [rbAndnot, h1, List.length_nil, if_true, if_false, rbCopy]
    exact ⟨ha, fun x => by simp [bhas_nil]⟩
  simp only [rbAndnot, h1, h2, if_false]
  rw [rbAndnotLoop_eq ha hb]
  refine merge_spec (P1 := CNe) (P2 := CNe) (P := CNe) (op := fun a b => a && !b) ?_ ?_ (by simp) (by simp)
    (fun _ _ h => h) (by simp) ha hb
  · intro k c1 c2 c h1 h2 h
    exact keepNz_some (containerAndnot_spec h1.1.rep h2.1.rep) h
  · intro k c1 c2 h1 h2 h
    exact keepNz_none (g := fun _ => containerAndnot) (containerAndnot_spec h1.1.rep h2.1.rep).lrep h

theorem rbAndnotInplace_spec (shared : Nat → Bool) {a b : Bitmap} (ha : BInv a) (hb : BInv b) :
    BInv (rbAndnotInplace shared a b) ∧ ∀ x, bhas (rbAndnotInplace shared a b) x = (bhas a x && !bhas b x) := by
  by_cases h2 : b.length = 0
  · have e := len_zero_nil h2
    subst e
    simp only [rbAndnotInplace, List.length_nil, if_true]
    exact ⟨ha, fun x => by simp [bhas_nil]⟩
  by_cases h1 : a.length = 0
  · have e := len_zero_nil h1
    subst e
    simp only [rbAndnotInplace, h2, List.length_nil, if_true, if_false, rbClear]
    exact ⟨ha, fun x => by simp [bhas_nil]⟩
  simp only [rbAndnotInplace, h1, h2, if_false]
  rw [rbAndnotInplaceLoop_eq shared ha hb]
  have hg : ∀ k c1 c2, CNe c1 → CNe c2 →
      Rep (chooseAndnot (shared k) c1 c2) (diff (chas c1) (chas c2)) := by
    intro k c1 c2 h1 h2
    unfold chooseAndnot
    split
    · exact containerAndnot_spec h1.1.rep h2.1.rep
    · exact containerIandnot_spec h1.1.rep h2.1.rep
  refine merge_spec (P1 := CNe) (P2 := CNe) (P := CNe) (op := fun a b => a && !b) ?_ ?_ (by simp) (by simp)
    (fun _ _ h => h) (by simp) ha hb
  · intro k c1 c2 c h1 h2 h
    exact keepNz_some (hg k c1 c2 h1 h2) h
  · intro k c1 c2 h1 h2 h
    exact keepNz_none (hg k c1 c2 h1 h2).lrep h

end CRoaring
