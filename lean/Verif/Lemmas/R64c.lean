import Verif.Lemmas.R64b
/-
The 64-bit bitmap: union, difference, symmetric difference, and the operations in place.
-/
set_option linter.unusedSimpArgs false
set_option linter.unusedVariables false
namespace CRoaring
open Spec

theorem below_cons_lt {A a t : Bitmap} {n m : Nat} {c1 c2 : Container} (h : Below A ((m, c2) :: t)) (hks : KS ((m, c2) :: t))
    (hlt : n < m) (c : Container) : Below (A ++ [(n, c)]) ((m, c2) :: t) := by
  intro p hp q hq
  rcases List.mem_append.1 hp with hp | hp
  · exact h p hp q hq
  · simp only [List.mem_singleton] at hp
    subst hp
    rcases List.mem_cons.1 hq with rfl | hq
    · exact hlt
    · have := (ks_cons.1 hks).1 q hq; simp only; omega

theorem below_nil (A : Bitmap) : Below A [] := fun _ _ q hq => by simp at hq

theorem merge_left_nil (f : Nat → Container → Container → Option Container) (k1 k2 : Bool) (b : Bitmap) :
    merge f k1 k2 [] b = keep k2 b := by simp [merge]

theorem merge_right_nil (f : Nat → Container → Container → Option Container) (k1 k2 : Bool) (a : Bitmap) :
    merge f k1 k2 a [] = keep k1 a := by
  cases a with
  | nil => rw [merge_left_nil]; cases k1 <;> cases k2 <;> rfl
  | cons p t => rw [merge]; simp

theorem or64_loop {r1 r2 : R64} (fuel : Nat) {it1 it2 : AIt} {a b A : Bitmap} {res : R64} (h1 : IL r1 it1 a) (h2 : IL r2 it2 b)
    (hr : RL res A) (hb1 : Below A a) (hb2 : Below A b) (hf : a.length + b.length < fuel) :
    RL (or64Loop r1 r2 fuel it1 it2 res) (A ++ merge (fun _ c1 c2 => some (containerOr c1 c2)) true true a b) := by
  induction fuel generalizing it1 it2 a b A res with
  | zero => omega
  | succ fuel ih =>
    unfold or64Loop
    cases a with
    | nil =>
      cases b with
      | nil => rw [h1.nil, h2.nil, merge_left_nil]; simpa [keep] using hr
      | cons q t2 =>
        obtain ⟨n2, c2⟩ := q
        have g2 := h2.cons
        rw [h1.nil, g2.value]
        simp only
        have := ih h1 g2.next (hr.push g2 hb2.head c2) (below_nil _) (hb2.snoc h2.ks c2) (by simp at hf ⊢; omega)
        simpa [merge_left_nil, keep] using this
    | cons p t1 =>
      obtain ⟨n1, c1⟩ := p
      have g1 := h1.cons
      cases b with
      | nil =>
        rw [h2.nil, g1.value]
        simp only
        have := ih g1.next h2 (hr.push g1 hb1.head c1) (hb1.snoc h1.ks c1) (below_nil _) (by simp at hf ⊢; omega)
        simpa [merge_right_nil, keep] using this
      | cons q t2 =>
        obtain ⟨n2, c2⟩ := q
        have g2 := h2.cons
        rw [g1.value, g2.value]
        simp only
        obtain ⟨he, hl⟩ := cmp_iters g1 g2
        simp only [List.length_cons] at hf
        by_cases e : n1 = n2
        · rw [if_pos (he.2 e)]
          subst e
          rw [merge_cons_eq]
          have := ih g1.next g2.next (hr.push g1 hb1.head (containerOr c1 c2)) (hb1.snoc h1.ks _) (hb2.snoc h2.ks _) (by omega)
          simpa using this
        · rw [if_neg (fun hh => e (he.1 hh))]
          by_cases hlt : n1 < n2
          · rw [if_pos (hl.2 hlt), merge_cons_lt _ _ _ hlt]
            have := ih g1.next h2 (hr.push g1 hb1.head c1) (hb1.snoc h1.ks c1) (below_cons_lt (a := []) (c1 := c1) hb2 h2.ks hlt c1)
              (by simp only [List.length_cons]; omega)
            simpa [keep] using this
          · have hlt' : n2 < n1 := by omega
            rw [if_neg (fun hh => hlt (hl.1 hh)), merge_cons_gt _ _ _ hlt']
            have := ih h1 g2.next (hr.push g2 hb2.head c2) (below_cons_lt (a := []) (c1 := c1) hb1 h1.ks hlt' c2) (hb2.snoc h2.ks c2)
              (by simp only [List.length_cons]; omega)
            simpa [keep] using this

theorem or64_merge {f : Nat → Container → Container → Container}
    (hg : ∀ k c1 c2, CNe c1 → CNe c2 → Rep (f k c1 c2) (union (chas c1) (chas c2))) {a b : Bitmap} (ha : BQ CNe a) (hb : BQ CNe b) :
    BQ CNe (merge (fun k c1 c2 => some (f k c1 c2)) true true a b) ∧
    ∀ x, bhas (merge (fun k c1 c2 => some (f k c1 c2)) true true a b) x = Spec.union (bhas a) (bhas b) x := by
  refine merge64_spec (P1 := CNe) (P2 := CNe) (P := CNe) (op := fun a b => a || b) ?_ (by simp) (by simp) (by simp)
    (fun _ _ h => h) (fun _ _ h => h) ha hb
  intro k c1 c2 c h1 h2 h
  have hr := hg k c1 c2 h1 h2
  simp only [Option.some.injEq] at h
  rw [h] at hr
  exact ⟨union_cne hr h1, hr.has⟩

theorem r64Or_spec {r1 r2 : R64} {s t : NSet} (h1 : Rep64 r1 s) (h2 : Rep64 r2 t) : Rep64 (r64Or r1 r2) (Spec.union s t) := by
  rep64 h1 a
  rep64 h2 b
  have hl := or64_loop (A := []) FUEL h1.rl.init h2.rl.init rl_none (fun p hp => by simp at hp) (fun p hp => by simp at hp)
    (p48_fuel h1.rl.length h2.rl.length)
  rw [List.nil_append] at hl
  have hm := or64_merge (f := fun _ => containerOr) (fun k c1 c2 h1 h2 => containerOr_spec h1.1.rep h2.1.rep) h1.bq h2.bq
  exact ⟨_, B64.of_bq hl hm.1, hm.2⟩

theorem xor64_loop {r1 r2 : R64} (fuel : Nat) {it1 it2 : AIt} {a b A : Bitmap} {res : R64} (h1 : IL r1 it1 a) (h2 : IL r2 it2 b)
    (hr : RL res A) (hb1 : Below A a) (hb2 : Below A b) (hf : a.length + b.length < fuel) :
    RL (xor64Loop r1 r2 fuel it1 it2 res) (A ++ merge (keepNz fun _ => containerXor) true true a b) := by
  induction fuel generalizing it1 it2 a b A res with
  | zero => omega
  | succ fuel ih =>
    unfold xor64Loop
    cases a with
    | nil =>
      cases b with
      | nil => rw [h1.nil, h2.nil, merge_left_nil]; simpa [keep] using hr
      | cons q t2 =>
        obtain ⟨n2, c2⟩ := q
        have g2 := h2.cons
        rw [h1.nil, g2.value]
        simp only
        have := ih h1 g2.next (hr.push g2 hb2.head c2) (below_nil _) (hb2.snoc h2.ks c2) (by simp at hf ⊢; omega)
        simpa [merge_left_nil, keep] using this
    | cons p t1 =>
      obtain ⟨n1, c1⟩ := p
      have g1 := h1.cons
      cases b with
      | nil =>
        rw [h2.nil, g1.value]
        simp only
        have := ih g1.next h2 (hr.push g1 hb1.head c1) (hb1.snoc h1.ks c1) (below_nil _) (by simp at hf ⊢; omega)
        simpa [merge_right_nil, keep] using this
      | cons q t2 =>
        obtain ⟨n2, c2⟩ := q
        have g2 := h2.cons
        rw [g1.value, g2.value]
        simp only
        obtain ⟨he, hl⟩ := cmp_iters g1 g2
        simp only [List.length_cons] at hf
        by_cases e : n1 = n2
        · rw [if_pos (he.2 e)]
          subst e
          rw [merge_cons_eq]
          by_cases hz : containerNonzero (containerXor c1 c2) = true
          · have := ih g1.next g2.next (hr.push g1 hb1.head (containerXor c1 c2)) (hb1.snoc h1.ks _) (hb2.snoc h2.ks _) (by omega)
            simpa [keepNz, hz] using this
          · have := ih g1.next g2.next hr hb1.tail hb2.tail (by omega)
            simpa [keepNz, hz] using this
        · rw [if_neg (fun hh => e (he.1 hh))]
          by_cases hlt : n1 < n2
          · rw [if_pos (hl.2 hlt), merge_cons_lt _ _ _ hlt]
            have := ih g1.next h2 (hr.push g1 hb1.head c1) (hb1.snoc h1.ks c1) (below_cons_lt (a := []) (c1 := c1) hb2 h2.ks hlt c1)
              (by simp only [List.length_cons]; omega)
            simpa [keep] using this
          · have hlt' : n2 < n1 := by omega
            rw [if_neg (fun hh => hlt (hl.1 hh)), merge_cons_gt _ _ _ hlt']
            have := ih h1 g2.next (hr.push g2 hb2.head c2) (below_cons_lt (a := []) (c1 := c1) hb1 h1.ks hlt' c2) (hb2.snoc h2.ks c2)
              (by simp only [List.length_cons]; omega)
            simpa [keep] using this

theorem xor64_merge {f : Nat → Container → Container → Container}
    (hg : ∀ k c1 c2, CNe c1 → CNe c2 → Rep (f k c1 c2) (Spec.symm (chas c1) (chas c2))) {a b : Bitmap} (ha : BQ CNe a) (hb : BQ CNe b) :
    BQ CNe (merge (keepNz f) true true a b) ∧
    ∀ x, bhas (merge (keepNz f) true true a b) x = Spec.symm (bhas a) (bhas b) x := by
  refine merge64_spec (P1 := CNe) (P2 := CNe) (P := CNe) (op := fun a b => a != b) ?_ ?_ (by simp) (by simp)
    (fun _ _ h => h) (fun _ _ h => h) ha hb
  · intro k c1 c2 c h1 h2 h
    exact keepNz_some (hg k c1 c2 h1 h2) h
  · intro k c1 c2 h1 h2 h
    exact keepNz_none (hg k c1 c2 h1 h2).lrep h

theorem r64Xor_spec {r1 r2 : R64} {s t : NSet} (h1 : Rep64 r1 s) (h2 : Rep64 r2 t) : Rep64 (r64Xor r1 r2) (Spec.symm s t) := by
  rep64 h1 a
  rep64 h2 b
  have hl := xor64_loop (A := []) FUEL h1.rl.init h2.rl.init rl_none (fun p hp => by simp at hp) (fun p hp => by simp at hp)
    (p48_fuel h1.rl.length h2.rl.length)
  rw [List.nil_append] at hl
  have hm := xor64_merge (f := fun _ => containerXor) (fun k c1 c2 h1 h2 => containerXor_spec h1.1.rep h2.1.rep) h1.bq h2.bq
  exact ⟨_, B64.of_bq hl hm.1, hm.2⟩

theorem andnot64_loop {r1 r2 : R64} (fuel : Nat) {it1 it2 : AIt} {a b A : Bitmap} {res : R64} (h1 : IL r1 it1 a) (h2 : IL r2 it2 b)
    (hr : RL res A) (hb1 : Below A a) (hf : a.length + b.length < fuel) :
    RL (andnot64Loop r1 r2 fuel it1 it2 res) (A ++ merge (keepNz fun _ => containerAndnot) true false a b) := by
  induction fuel generalizing it1 it2 a b A res with
  | zero => omega
  | succ fuel ih =>
    unfold andnot64Loop
    cases a with
    | nil => rw [h1.nil, merge_nil_left]; simpa using hr
    | cons p t1 =>
      obtain ⟨n1, c1⟩ := p
      have g1 := h1.cons
      cases b with
      | nil =>
        rw [h2.nil, g1.value]
        simp only
        have := ih g1.next h2 (hr.push g1 hb1.head c1) (hb1.snoc h1.ks c1) (by simp at hf ⊢; omega)
        simpa [merge_right_nil, keep] using this
      | cons q t2 =>
        obtain ⟨n2, c2⟩ := q
        have g2 := h2.cons
        rw [g1.value, g2.value]
        simp only
        obtain ⟨he, hl⟩ := cmp_iters g1 g2
        simp only [List.length_cons] at hf
        by_cases e : n1 = n2
        · rw [if_pos (he.2 e)]
          subst e
          rw [merge_cons_eq]
          by_cases hz : containerNonzero (containerAndnot c1 c2) = true
          · have := ih g1.next g2.next (hr.push g1 hb1.head (containerAndnot c1 c2)) (hb1.snoc h1.ks _) (by omega)
            simpa [keepNz, hz] using this
          · have := ih g1.next g2.next hr hb1.tail (by omega)
            simpa [keepNz, hz] using this
        · rw [if_neg (fun hh => e (he.1 hh))]
          by_cases hlt : n1 < n2
          · rw [if_pos (hl.2 hlt), merge_cons_lt _ _ _ hlt]
            have := ih g1.next h2 (hr.push g1 hb1.head c1) (hb1.snoc h1.ks c1) (by simp only [List.length_cons]; omega)
            simpa [keep] using this
          · have hlt' : n2 < n1 := by omega
            rw [if_neg (fun hh => hlt (hl.1 hh)), merge_cons_gt _ _ _ hlt']
            have := ih h1 g2.next hr hb1 (by simp only [List.length_cons]; omega)
            simpa [keep] using this

theorem andnot64_merge {f : Nat → Container → Container → Container}
    (hg : ∀ k c1 c2, CNe c1 → CNe c2 → Rep (f k c1 c2) (diff (chas c1) (chas c2))) {a b : Bitmap} (ha : BQ CNe a) (hb : BQ CNe b) :
    BQ CNe (merge (keepNz f) true false a b) ∧
    ∀ x, bhas (merge (keepNz f) true false a b) x = Spec.diff (bhas a) (bhas b) x := by
  refine merge64_spec (P1 := CNe) (P2 := CNe) (P := CNe) (op := fun a b => a && !b) ?_ ?_ (by simp) (by simp)
    (fun _ _ h => h) (by simp) ha hb
  · intro k c1 c2 c h1 h2 h
    exact keepNz_some (hg k c1 c2 h1 h2) h
  · intro k c1 c2 h1 h2 h
    exact keepNz_none (hg k c1 c2 h1 h2).lrep h

theorem r64Andnot_spec {r1 r2 : R64} {s t : NSet} (h1 : Rep64 r1 s) (h2 : Rep64 r2 t) : Rep64 (r64Andnot r1 r2) (Spec.diff s t) := by
  rep64 h1 a
  rep64 h2 b
  have hl := andnot64_loop (A := []) FUEL h1.rl.init h2.rl.init rl_none (fun p hp => by simp at hp)
    (p48_fuel h1.rl.length h2.rl.length)
  rw [List.nil_append] at hl
  have hm := andnot64_merge (f := fun _ => containerAndnot) (fun k c1 c2 h1 h2 => containerAndnot_spec h1.1.rep h2.1.rep) h1.bq h2.bq
  exact ⟨_, B64.of_bq hl hm.1, hm.2⟩

/-! ### In place -/

/-- The bytes of a key. -/
def keyOf (n : Nat) : List Nat := (splitKey (n * 65536)).1

theorem ICons.keyOf {r : R64} {it : AIt} {n : Nat} {c : Container} {t : Bitmap} (h : ICons r it n c t) : keyOf n = it.key := by
  unfold CRoaring.keyOf
  rw [← h.num, splitKey_combine h.key]

theorem andInplace64_loop {r2 : R64} (shared : List Nat → Bool) (fuel : Nat) {r1 : R64} {it1 it2 : AIt} {a b A : Bitmap}
    (h : RL r1 (A ++ a)) (h1 : IL r1 it1 a) (h2 : IL r2 it2 b) (hf : a.length + b.length < fuel) :
    RL (andInplace64Loop shared r2 fuel r1 it1 it2)
      (A ++ merge (keepNz fun k => chooseAnd (shared (keyOf k))) false false a b) := by
  induction fuel generalizing r1 it1 it2 a b A with
  | zero => omega
  | succ fuel ih =>
    unfold andInplace64Loop
    cases a with
    | nil => rw [h1.nil, merge_nil_left]; simpa using h
    | cons p t1 =>
      obtain ⟨n1, c1⟩ := p
      have g1 := h1.cons
      cases b with
      | nil =>
        rw [h2.nil, g1.value]
        simp only
        obtain ⟨e1, e2⟩ := h.erase_at h1
        have := ih e1 e2 h2 (by simp at hf ⊢; omega)
        simpa [merge_right_nil, keep] using this
      | cons q t2 =>
        obtain ⟨n2, c2⟩ := q
        have g2 := h2.cons
        rw [g1.value, g2.value]
        simp only
        obtain ⟨he, hl⟩ := cmp_iters g1 g2
        simp only [List.length_cons] at hf
        by_cases e : n1 = n2
        · rw [if_pos (he.2 e)]
          subst e
          rw [merge_cons_eq]
          simp only [keepNz, g1.keyOf]
          by_cases hz : containerNonzero (chooseAnd (shared it1.key) c1 c2) = true
          · obtain ⟨e1, e2⟩ := h.store_at h1 (chooseAnd (shared it1.key) c1 c2)
            have := ih (A := A ++ [(n1, chooseAnd (shared it1.key) c1 c2)]) (by simpa using e1) e2 g2.next (by omega)
            simpa [hz] using this
          · obtain ⟨e1, e2⟩ := h.erase_at h1
            have := ih e1 e2 g2.next (by omega)
            simpa [hz] using this
        · rw [if_neg (fun hh => e (he.1 hh))]
          by_cases hlt : n1 < n2
          · rw [if_pos (hl.2 hlt), merge_cons_lt _ _ _ hlt]
            obtain ⟨e1, e2⟩ := h.erase_at h1
            have := ih e1 e2 h2 (by simp only [List.length_cons]; omega)
            simpa [keep] using this
          · rw [if_neg (fun hh => hlt (hl.1 hh))]
            have e1 := g1.num
            have hd := dropLt_lt (c := c2) (t := t2) (show n2 < n1 by omega)
            have h2' := h2.drop g1.key (by omega)
            rw [e1] at h2'
            have := ih h h1 h2' (by simp only [List.length_cons] at hd ⊢; omega)
            rwa [merge_drop_right] at this

theorem chooseAnd_rep {b : Bool} {c1 c2 : Container} (h1 : CNe c1) (h2 : CNe c2) :
    Rep (chooseAnd b c1 c2) (inter (chas c1) (chas c2)) := by
  unfold chooseAnd
  split
  · exact containerAnd_spec h1.1.rep h2.1.rep
  · exact containerIand_spec h1.1.rep h2.1.rep

theorem r64AndInplace_spec (same : Bool) (shared : List Nat → Bool) {r1 r2 : R64} {s t : NSet} (h1 : Rep64 r1 s) (h2 : Rep64 r2 t)
    (hs : same = true → r1 = r2) : Rep64 (r64AndInplace same shared r1 r2) (Spec.inter s t) := by
  rep64 h1 a
  rep64 h2 b
  cases same with
  | true =>
    have e := hs rfl
    subst e
    have e := h1.rl.unique h2.rl
    subst e
    simp only [r64AndInplace, if_true]
    exact h1.rep.congr fun x => by simp [Spec.inter]
  | false =>
    simp only [r64AndInplace, Bool.false_eq_true, if_false]
    have hl := andInplace64_loop (A := []) shared FUEL (by simpa using h1.rl) h1.rl.init h2.rl.init
      (p48_fuel h1.rl.length h2.rl.length)
    rw [List.nil_append] at hl
    have hm := merge64_spec (P1 := CNe) (P2 := CNe) (P := CNe) (f := keepNz fun k => chooseAnd (shared (keyOf k))) (k1 := false) (k2 := false)
      (op := fun a b => a && b)
      (fun k c1 c2 c h1 h2 h => keepNz_some (chooseAnd_rep h1 h2) h)
      (fun k c1 c2 h1 h2 h => keepNz_none (g := fun k => chooseAnd (shared (keyOf k))) (chooseAnd_rep h1 h2).lrep h)
      (by simp) (by simp) (by simp) (by simp) h1.bq h2.bq
    exact ⟨_, B64.of_bq hl hm.1, hm.2⟩

theorem RL.below {A a : Bitmap} {r : R64} (h : RL r (A ++ a)) : Below A a := (ks_append.1 h.ks).2.2

theorem merge_head (f : Nat → Container → Container → Option Container) (k2 : Bool) {n : Nat} (c : Container) (a : Bitmap) {b : Bitmap}
    (hb : ∀ p ∈ b, n < p.1) : merge f true k2 ((n, c) :: a) b = (n, c) :: merge f true k2 a b := by
  cases b with
  | nil => simp [merge_right_nil, keep]
  | cons q t =>
    obtain ⟨m, d⟩ := q
    rw [merge_cons_lt _ _ _ (hb (m, d) (by simp))]
    simp [keep]

theorem orInplace64_loop {r2 : R64} (shared : List Nat → Bool) (caps : List Nat → Nat) (fuel : Nat) {r1 : R64} {it1 it2 : AIt}
    {a b A : Bitmap} (h : RL r1 (A ++ a)) (h1 : IL r1 it1 a) (h2 : IL r2 it2 b) (hb : Below A b)
    (hf : a.length + 2 * b.length < fuel) :
    RL (orInplace64Loop shared caps r2 fuel r1 it1 it2)
      (A ++ merge (fun k c1 c2 => some (chooseOr64 (shared (keyOf k)) (caps (keyOf k)) c1 c2)) true true a b) := by
  induction fuel generalizing r1 it1 it2 a b A with
  | zero => omega
  | succ fuel ih =>
    unfold orInplace64Loop
    cases a with
    | nil =>
      cases b with
      | nil => rw [h1.nil, h2.nil, merge_left_nil]; simpa [keep] using h
      | cons q t2 =>
        obtain ⟨n2, c2⟩ := q
        have g2 := h2.cons
        rw [h1.nil, g2.value]
        simp only
        have en := g2.num
        have hh := h.insert_at it1 g2.key (by rw [en]; exact hb.head) (by simp) c2
        rw [en] at hh
        have := ih hh.1 hh.2 g2.next hb.tail (by simp at hf ⊢; omega)
        rw [merge_head _ _ _ _ (ks_cons.1 h2.ks).1] at this
        simpa [merge_left_nil, keep] using this
    | cons p t1 =>
      obtain ⟨n1, c1⟩ := p
      have g1 := h1.cons
      cases b with
      | nil =>
        rw [h2.nil, g1.value]
        simp only
        have := ih (A := A ++ [(n1, c1)]) (by simpa using h) g1.next h2 (below_nil _) (by simp at hf ⊢; omega)
        simpa [merge_right_nil, keep] using this
      | cons q t2 =>
        obtain ⟨n2, c2⟩ := q
        have g2 := h2.cons
        rw [g1.value, g2.value]
        simp only
        obtain ⟨he, hl⟩ := cmp_iters g1 g2
        simp only [List.length_cons] at hf
        by_cases e : n1 = n2
        · rw [if_pos (he.2 e)]
          subst e
          rw [merge_cons_eq]
          simp only [g1.keyOf]
          obtain ⟨e1, e2⟩ := h.store_at h1 (chooseOr64 (shared it1.key) (caps it1.key) c1 c2)
          have := ih (A := A ++ [(n1, chooseOr64 (shared it1.key) (caps it1.key) c1 c2)]) (by simpa using e1) e2 g2.next
            (hb.snoc h2.ks _) (by omega)
          simpa using this
        · rw [if_neg (fun hh => e (he.1 hh))]
          by_cases hlt : n1 < n2
          · rw [if_pos (hl.2 hlt), merge_cons_lt _ _ _ hlt]
            have := ih (A := A ++ [(n1, c1)]) (by simpa using h) g1.next h2 (below_cons_lt (a := []) (c1 := c1) hb h2.ks hlt c1)
              (by simp only [List.length_cons]; omega)
            simpa [keep] using this
          · have hlt' : n2 < n1 := by omega
            rw [if_neg (fun hh => hlt (hl.1 hh)), merge_cons_gt _ _ _ hlt']
            have en := g2.num
            have hh := h.insert_at it1 g2.key (by rw [en]; exact hb.head)
              (by rw [en]; intro p hp; rcases List.mem_cons.1 hp with rfl | hp
                  · exact hlt'
                  · have := (ks_cons.1 h1.ks).1 p hp; omega) c2
            rw [en] at hh
            have := ih hh.1 hh.2 g2.next hb.tail (by simp only [List.length_cons]; omega)
            rw [merge_head _ _ _ _ (ks_cons.1 h2.ks).1] at this
            simpa [keep] using this

theorem chooseOr64_rep {b : Bool} (cap : Nat) {c1 c2 : Container} (h1 : CNe c1) (h2 : CNe c2) :
    Rep (chooseOr64 b cap c1 c2) (union (chas c1) (chas c2)) := by
  unfold chooseOr64
  split
  · exact containerOr_spec h1.1.rep h2.1.rep
  · exact containerIor_spec _ h1.1.rep h2.1.rep

theorem p48_fuel2 {n m : Nat} (h1 : n ≤ P48) (h2 : m ≤ P48) : n + 2 * m < FUEL := by
  unfold P48 at h1 h2; unfold FUEL; omega

theorem r64OrInplace_spec (same : Bool) (shared : List Nat → Bool) (caps : List Nat → Nat) {r1 r2 : R64} {s t : NSet}
    (h1 : Rep64 r1 s) (h2 : Rep64 r2 t) (hs : same = true → r1 = r2) :
    Rep64 (r64OrInplace same shared caps r1 r2) (Spec.union s t) := by
  rep64 h1 a
  rep64 h2 b
  cases same with
  | true =>
    have e := hs rfl
    subst e
    have e := h1.rl.unique h2.rl
    subst e
    simp only [r64OrInplace, if_true]
    exact h1.rep.congr fun x => by simp [Spec.union]
  | false =>
    simp only [r64OrInplace, Bool.false_eq_true, if_false]
    have hl := orInplace64_loop (A := []) shared caps FUEL (by simpa using h1.rl) h1.rl.init h2.rl.init (fun p hp => by simp at hp)
      (p48_fuel2 h1.rl.length h2.rl.length)
    rw [List.nil_append] at hl
    have hm := or64_merge (f := fun k => chooseOr64 (shared (keyOf k)) (caps (keyOf k)))
      (fun k c1 c2 h1 h2 => chooseOr64_rep _ h1 h2) h1.bq h2.bq
    exact ⟨_, B64.of_bq hl hm.1, hm.2⟩

theorem xorInplace64_loop {r2 : R64} (shared : List Nat → Bool) (fuel : Nat) {r1 : R64} {it1 it2 : AIt}
    {a b A : Bitmap} (h : RL r1 (A ++ a)) (h1 : it1.value = none ∧ a = [] ∨ IL r1 it1 a) (h2 : IL r2 it2 b) (hb : Below A b)
    (hf : a.length + b.length < fuel) :
    RL (xorInplace64Loop shared r2 fuel r1 it1 it2)
      (A ++ merge (keepNz fun k => chooseXor (shared (keyOf k))) true true a b) := by
  induction fuel generalizing r1 it1 it2 a b A with
  | zero => omega
  | succ fuel ih =>
    unfold xorInplace64Loop
    cases a with
    | nil =>
      have hv : it1.value = none := by
        rcases h1 with h1 | h1
        · exact h1.1
        · exact h1.nil
      rw [hv]
      cases b with
      | nil => rw [h2.nil, merge_left_nil]; simpa [keep] using h
      | cons q t2 =>
        obtain ⟨n2, c2⟩ := q
        have g2 := h2.cons
        rw [g2.value]
        simp only
        have en := g2.num
        have hh := h.insert (B := []) g2.key (by rw [en]; exact hb.head) (by simp) c2
        rw [en] at hh
        have := ih (A := A ++ [(n2, c2)]) (a := []) (by simpa using hh) (Or.inl ⟨hv, rfl⟩) g2.next (hb.snoc h2.ks c2) (by simp at hf ⊢; omega)
        simpa [merge_left_nil, keep] using this
    | cons p t1 =>
      obtain ⟨n1, c1⟩ := p
      have h1 : IL r1 it1 ((n1, c1) :: t1) := by
        rcases h1 with h1 | h1
        · simp at h1
        · exact h1
      have g1 := h1.cons
      cases b with
      | nil =>
        rw [h2.nil, g1.value]
        simp only
        have := ih (A := A ++ [(n1, c1)]) (by simpa using h) (Or.inr g1.next) h2 (below_nil _) (by simp at hf ⊢; omega)
        simpa [merge_right_nil, keep] using this
      | cons q t2 =>
        obtain ⟨n2, c2⟩ := q
        have g2 := h2.cons
        rw [g1.value, g2.value]
        simp only
        obtain ⟨he, hl⟩ := cmp_iters g1 g2
        simp only [List.length_cons] at hf
        by_cases e : n1 = n2
        · rw [if_pos (he.2 e)]
          subst e
          rw [merge_cons_eq]
          simp only [keepNz, g1.keyOf]
          by_cases hz : containerNonzero (chooseXor (shared it1.key) c1 c2) = true
          · obtain ⟨e1, e2⟩ := h.store_at h1 (chooseXor (shared it1.key) c1 c2)
            have := ih (A := A ++ [(n1, chooseXor (shared it1.key) c1 c2)]) (by simpa using e1) (Or.inr e2) g2.next
              (hb.snoc h2.ks _) (by omega)
            simpa [hz] using this
          · obtain ⟨e1, e2⟩ := h.erase_at h1
            have := ih e1 (Or.inr e2) g2.next hb.tail (by omega)
            simpa [hz] using this
        · rw [if_neg (fun hh => e (he.1 hh))]
          by_cases hlt : n1 < n2
          · rw [if_pos (hl.2 hlt), merge_cons_lt _ _ _ hlt]
            have := ih (A := A ++ [(n1, c1)]) (by simpa using h) (Or.inr g1.next) h2 (below_cons_lt (a := []) (c1 := c1) hb h2.ks hlt c1)
              (by simp only [List.length_cons]; omega)
            simpa [keep] using this
          · have hlt' : n2 < n1 := by omega
            rw [if_neg (fun hh => hlt (hl.1 hh)), merge_cons_gt _ _ _ hlt']
            have en := g2.num
            have hh := h.insert_at it1 g2.key (by rw [en]; exact hb.head)
              (by rw [en]; intro p hp; rcases List.mem_cons.1 hp with rfl | hp
                  · exact hlt'
                  · have := (ks_cons.1 h1.ks).1 p hp; omega) c2
            rw [en] at hh
            have := ih (A := A ++ [(n2, c2)]) (by simpa using hh.1) (Or.inr hh.2.cons.next) g2.next (hb.snoc h2.ks c2)
              (by simp only [List.length_cons]; omega)
            simpa [keep] using this

theorem chooseXor_rep {b : Bool} {c1 c2 : Container} (h1 : CNe c1) (h2 : CNe c2) :
    Rep (chooseXor b c1 c2) (Spec.symm (chas c1) (chas c2)) := by
  unfold chooseXor
  split
  · exact containerXor_spec h1.1.rep h2.1.rep
  · exact containerIxor_spec h1.1.rep h2.1.rep

theorem r64XorInplace_spec (shared : List Nat → Bool) {r1 r2 : R64} {s t : NSet}
    (h1 : Rep64 r1 s) (h2 : Rep64 r2 t) : Rep64 (r64XorInplace shared r1 r2) (Spec.symm s t) := by
  rep64 h1 a
  rep64 h2 b
  have hl := xorInplace64_loop (A := []) shared FUEL (by simpa using h1.rl) (Or.inr h1.rl.init) h2.rl.init (fun p hp => by simp at hp)
    (p48_fuel h1.rl.length h2.rl.length)
  rw [List.nil_append] at hl
  have hm := xor64_merge (f := fun k => chooseXor (shared (keyOf k)))
    (fun k c1 c2 h1 h2 => chooseXor_rep h1 h2) h1.bq h2.bq
  exact ⟨_, B64.of_bq hl hm.1, hm.2⟩

theorem andnotInplace64_loop {r2 : R64} (shared : List Nat → Bool) (fuel : Nat) {r1 : R64} {it1 it2 : AIt}
    {a b A : Bitmap} (h : RL r1 (A ++ a)) (h1 : IL r1 it1 a) (h2 : IL r2 it2 b) (hf : a.length + b.length < fuel) :
    RL (andnotInplace64Loop shared r2 fuel r1 it1 it2)
      (A ++ merge (keepNz fun k => chooseAndnot (shared (keyOf k))) true false a b) := by
  induction fuel generalizing r1 it1 it2 a b A with
  | zero => omega
  | succ fuel ih =>
    unfold andnotInplace64Loop
    cases a with
    | nil => rw [h1.nil, merge_nil_left]; simpa using h
    | cons p t1 =>
      obtain ⟨n1, c1⟩ := p
      have g1 := h1.cons
      cases b with
      | nil =>
        rw [h2.nil, g1.value]
        simp only
        have := ih (A := A ++ [(n1, c1)]) (by simpa using h) g1.next h2 (by simp at hf ⊢; omega)
        simpa [merge_right_nil, keep] using this
      | cons q t2 =>
        obtain ⟨n2, c2⟩ := q
        have g2 := h2.cons
        rw [g1.value, g2.value]
        simp only
        obtain ⟨he, hl⟩ := cmp_iters g1 g2
        simp only [List.length_cons] at hf
        by_cases e : n1 = n2
        · rw [if_pos (he.2 e)]
          subst e
          rw [merge_cons_eq]
          simp only [keepNz, g1.keyOf]
          by_cases hz : containerNonzero (chooseAndnot (shared it1.key) c1 c2) = true
          · obtain ⟨e1, e2⟩ := h.store_at h1 (chooseAndnot (shared it1.key) c1 c2)
            have := ih (A := A ++ [(n1, chooseAndnot (shared it1.key) c1 c2)]) (by simpa using e1) e2 g2.next (by omega)
            simpa [hz] using this
          · obtain ⟨e1, e2⟩ := h.erase_at h1
            have := ih e1 e2 g2.next (by omega)
            simpa [hz] using this
        · rw [if_neg (fun hh => e (he.1 hh))]
          by_cases hlt : n1 < n2
          · rw [if_pos (hl.2 hlt), merge_cons_lt _ _ _ hlt]
            have := ih (A := A ++ [(n1, c1)]) (by simpa using h) g1.next h2 (by simp only [List.length_cons]; omega)
            simpa [keep] using this
          · have hlt' : n2 < n1 := by omega
            rw [if_neg (fun hh => hlt (hl.1 hh)), merge_cons_gt _ _ _ hlt']
            have := ih h h1 g2.next (by simp only [List.length_cons]; omega)
            simpa [keep] using this

theorem chooseAndnot_rep {b : Bool} {c1 c2 : Container} (h1 : CNe c1) (h2 : CNe c2) :
    Rep (chooseAndnot b c1 c2) (diff (chas c1) (chas c2)) := by
  unfold chooseAndnot
  split
  · exact containerAndnot_spec h1.1.rep h2.1.rep
  · exact containerIandnot_spec h1.1.rep h2.1.rep

theorem r64AndnotInplace_spec (shared : List Nat → Bool) {r1 r2 : R64} {s t : NSet}
    (h1 : Rep64 r1 s) (h2 : Rep64 r2 t) : Rep64 (r64AndnotInplace shared r1 r2) (Spec.diff s t) := by
  rep64 h1 a
  rep64 h2 b
  have hl := andnotInplace64_loop (A := []) shared FUEL (by simpa using h1.rl) h1.rl.init h2.rl.init
    (p48_fuel h1.rl.length h2.rl.length)
  rw [List.nil_append] at hl
  have hm := andnot64_merge (f := fun k => chooseAndnot (shared (keyOf k)))
    (fun k c1 c2 h1 h2 => chooseAndnot_rep h1 h2) h1.bq h2.bq
  exact ⟨_, B64.of_bq hl hm.1, hm.2⟩

end CRoaring
