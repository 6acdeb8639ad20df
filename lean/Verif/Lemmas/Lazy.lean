import Verif.Model.Lazy
import Verif.Lemmas.Query2

set_option linter.unusedSimpArgs false
set_option linter.unusedVariables false

/-! Lazy operations, repair, many-way operations. -/

namespace CRoaring
open Spec

/-- A lazily computed bitmap. -/
abbrev LBInv (r : Bitmap) : Prop := BP LNe r

theorem LNe.lrep {c : Container} (h : LNe c) : LRep c (chas c) := ⟨h.1, fun _ => rfl⟩

theorem LRep.lne {c : Container} {s : NSet} (h : LRep c s) {x : Nat} (hx : s x = true) : LNe c :=
  ⟨h.inv, x, by rw [h.has]; exact hx⟩

theorem BP.lazy {r : Bitmap} (h : BInv r) : LBInv r := BP.mono h fun _ hc => hc.lne

theorem LRep.full {c : Container} {s : NSet} (h : LRep c s) (hf : containerIsFull c = true) {x : Nat} (hx : x < 65536) :
    s x = true := by
  cases c with
  | bitset b =>
    have hc : b.card = 65536 := by simpa [containerIsFull] using hf
    rcases h.inv.2 with e | e
    · rw [e] at hc; exact absurd hc (by decide)
    · rw [e] at hc
      have := card_eq_n.1 (show card 65536 (bitAt b.words) = 65536 by omega) x hx
      rw [← h.has]; exact this
  | array l => exact (containerIsFull_iff (lrep_arr h)).1 hf x hx
  | run rs => exact (containerIsFull_iff (lrep_run h)).1 hf x hx

theorem containerToBitset_lrep {c : Container} {s : NSet} (h : LRep c s) : LRep (.bitset (containerToBitset c)) s := by
  cases c with
  | bitset b => exact h
  | array l =>
    have h2 := bitsetFromArray_spec (l := l) fun p hp => h.inv.1.lt p hp
    exact lrep_bitOK h2.1 fun x => by rw [containerToBitset, h2.2, ← h.has]; simp [chas]
  | run rs =>
    have h2 := bitsetFromRun_spec (rs := rs) h.inv
    exact lrep_bitOK h2.1 fun x => by rw [containerToBitset, h2.2, ← h.has]; rfl

theorem chooseLazyOr_spec (conv : Bool) {c1 c2 : Container} {s t : NSet} (h1 : LRep c1 s) (h2 : LRep c2 t) :
    LRep (chooseLazyOr conv c1 c2) (union s t) := by
  unfold chooseLazyOr
  split
  · exact containerLazyIor_spec 0 (containerToBitset_lrep h1) h2
  · exact containerLazyOr_spec h1 h2

theorem chooseLazyIor_spec (conv : Bool) (cap : Nat) {c1 c2 : Container} {s t : NSet} (h1 : LRep c1 s) (h2 : LRep c2 t) :
    LRep (chooseLazyIor conv cap c1 c2) (union s t) := by
  unfold chooseLazyIor
  split
  · simp only
    split
    · exact containerLazyIor_spec cap h1 h2
    · exact containerLazyIor_spec cap (containerToBitset_lrep h1) h2
  · rename_i hf
    have hf : containerIsFull c1 = true := by simpa using hf
    refine h1.congr fun x => ?_
    by_cases hx : x < 65536
    · simp [union, h1.full hf hx]
    · have e1 : s x = false := by
        cases e : s x
        · rfl
        · exact absurd (h1.lt e) hx
      have e2 : t x = false := by
        cases e : t x
        · rfl
        · exact absurd (h2.lt e) hx
      simp [union, e1, e2]

theorem chooseLazyLazy_spec (cap1 cap2 : Nat) {c1 c2 : Container} {s t : NSet} (h1 : LRep c1 s) (h2 : LRep c2 t) :
    LRep (chooseLazyLazy cap1 cap2 c1 c2) (union s t) := by
  unfold chooseLazyLazy
  split
  · exact (containerLazyIor_spec cap2 h2 h1).comm_union
  · exact containerLazyIor_spec cap1 h1 h2

theorem merge_lor {f : Nat → Container → Container → Container}
    (hf : ∀ k c1 c2, LNe c1 → LNe c2 → LRep (f k c1 c2) (union (chas c1) (chas c2)))
    {a b : Bitmap} (ha : LBInv a) (hb : LBInv b) :
    LBInv (merge (fun k c1 c2 => some (f k c1 c2)) true true a b) ∧
      ∀ x, bhas (merge (fun k c1 c2 => some (f k c1 c2)) true true a b) x = (bhas a x || bhas b x) := by
  refine merge_spec (P1 := LNe) (P2 := LNe) (P := LNe) ?_ (by simp) (by simp) (by simp) (fun _ _ h => h)
    (fun _ _ h => h) ha hb
  intro k c1 c2 c h1 h2 h
  have hr := hf k c1 c2 h1 h2
  simp only [Option.some.injEq] at h
  rw [h] at hr
  obtain ⟨y, hy⟩ := h1.2
  exact ⟨hr.lne (x := y) (by simp [union, hy]), hr.has⟩

theorem rbLazyOrLoop_eq (conv : Bool) (a b : Bitmap) :
    rbLazyOrLoop conv a b = merge (fun k c1 c2 => some (chooseLazyOr conv c1 c2)) true true a b := by
  fun_induction rbLazyOrLoop conv a b with
  | case1 => simp [merge, keep]
  | case2 x1 h => cases x1 <;> simp [merge, keep]
  | case3 => rw [merge, if_pos rfl]; simp_all [keep]
  | case4 => rw [merge, if_neg (by assumption), if_pos (by assumption)]; simp_all [keep]
  | case5 => rw [merge, if_neg (by assumption), if_neg (by assumption)]; simp_all [keep]

theorem rbLazyOrInplaceLoop_eq (conv : Bool) (caps : Nat → Nat) (a b : Bitmap) :
    rbLazyOrInplaceLoop conv caps a b = merge (fun k c1 c2 => some (chooseLazyIor conv (caps k) c1 c2)) true true a b := by
  fun_induction rbLazyOrInplaceLoop conv caps a b with
  | case1 => simp [merge, keep]
  | case2 x1 h => cases x1 <;> simp [merge, keep]
  | case3 => rw [merge, if_pos rfl]; simp_all [keep]
  | case4 => rw [merge, if_neg (by assumption), if_pos (by assumption)]; simp_all [keep]
  | case5 => rw [merge, if_neg (by assumption), if_neg (by assumption)]; simp_all [keep]

theorem rbLazyLazyLoop_eq (caps1 caps2 : Nat → Nat) (a b : Bitmap) : rbLazyLazyLoop caps1 caps2 a b =
    merge (fun k c1 c2 => some (chooseLazyLazy (caps1 k) (caps2 k) c1 c2)) true true a b := by
  fun_induction rbLazyLazyLoop caps1 caps2 a b with
  | case1 => simp [merge, keep]
  | case2 x1 h => cases x1 <;> simp [merge, keep]
  | case3 => rw [merge, if_pos rfl]; simp_all [keep]
  | case4 => rw [merge, if_neg (by assumption), if_pos (by assumption)]; simp_all [keep]
  | case5 => rw [merge, if_neg (by assumption), if_neg (by assumption)]; simp_all [keep]

theorem rbLazyXorLoop_eq (a b : Bitmap) :
    rbLazyXorLoop a b = merge (keepNz fun _ => containerLazyXor) true true a b := by
  fun_induction rbLazyXorLoop a b with
  | case1 => simp [merge, keep]
  | case2 x1 h => cases x1 <;> simp [merge, keep]
  | case3 c1 t1 s c2 t2 c hc ih =>
    rw [merge, if_pos rfl, ih]
    simp only [keepNz]
    rw [if_pos hc]; rfl
  | case4 c1 t1 s c2 t2 c hc ih =>
    rw [merge, if_pos rfl, ih]
    simp only [keepNz]
    rw [if_neg hc]; rfl
  | case5 => rw [merge, if_neg (by assumption), if_pos (by assumption)]; simp_all [keep]
  | case6 => rw [merge, if_neg (by assumption), if_neg (by assumption)]; simp_all [keep]

theorem rbLazyXorInplaceLoop_eq (shared : Nat → Bool) (a b : Bitmap) : rbLazyXorInplaceLoop shared a b =
    merge (keepNz fun k => chooseLazyXor (shared k)) true true a b := by
  fun_induction rbLazyXorInplaceLoop shared a b with
  | case1 => simp [merge, keep]
  | case2 x1 h => cases x1 <;> simp [merge, keep]
  | case3 c1 t1 s c2 t2 c hc ih =>
    rw [merge, if_pos rfl, ih]
    simp only [keepNz]
    rw [if_pos hc]; rfl
  | case4 c1 t1 s c2 t2 c hc ih =>
    rw [merge, if_pos rfl, ih]
    simp only [keepNz]
    rw [if_neg hc]; rfl
  | case5 => rw [merge, if_neg (by assumption), if_pos (by assumption)]; simp_all [keep]
  | case6 => rw [merge, if_neg (by assumption), if_neg (by assumption)]; simp_all [keep]

theorem rbLazyOr_spec (conv : Bool) {a b : Bitmap} (ha : LBInv a) (hb : LBInv b) :
    LBInv (rbLazyOr conv a b) ∧ ∀ x, bhas (rbLazyOr conv a b) x = (bhas a x || bhas b x) := by
  unfold rbLazyOr
  split
  · have e := len_zero_nil (by assumption : a.length = 0)
    subst e
    exact ⟨hb, fun x => by simp [bhas_nil, rbCopy]⟩
  split
  · have e := len_zero_nil (by assumption : b.length = 0)
    subst e
    exact ⟨ha, fun x => by simp [bhas_nil, rbCopy]⟩
  rw [rbLazyOrLoop_eq]
  exact merge_lor (f := fun k c1 c2 => chooseLazyOr conv c1 c2) (fun k c1 c2 h1 h2 => chooseLazyOr_spec conv h1.lrep h2.lrep) ha hb

theorem rbLazyOrInplace_spec (conv : Bool) (caps : Nat → Nat) {a b : Bitmap} (ha : LBInv a) (hb : LBInv b) :
    LBInv (rbLazyOrInplace conv caps a b) ∧ ∀ x, bhas (rbLazyOrInplace conv caps a b) x = (bhas a x || bhas b x) := by
  unfold rbLazyOrInplace
  split
  · have e := len_zero_nil (by assumption : b.length = 0)
    subst e
    exact ⟨ha, fun x => by simp [bhas_nil]⟩
  split
  · have e := len_zero_nil (by assumption : a.length = 0)
    subst e
    exact ⟨hb, fun x => by simp [bhas_nil, rbOverwrite]⟩
  rw [rbLazyOrInplaceLoop_eq]
  exact merge_lor (f := fun k c1 c2 => chooseLazyIor conv (caps k) c1 c2)
    (fun k c1 c2 h1 h2 => chooseLazyIor_spec conv _ h1.lrep h2.lrep) ha hb

theorem lazyOrFromLazyInputs_spec (caps1 caps2 : Nat → Nat) {a b : Bitmap} (ha : LBInv a) (hb : LBInv b) :
    LBInv (lazyOrFromLazyInputs caps1 caps2 a b) ∧
      ∀ x, bhas (lazyOrFromLazyInputs caps1 caps2 a b) x = (bhas a x || bhas b x) := by
  unfold lazyOrFromLazyInputs
  split
  · have e := len_zero_nil (by assumption : a.length = 0)
    subst e
    exact ⟨hb, fun x => by simp [bhas_nil]⟩
  split
  · have e := len_zero_nil (by assumption : b.length = 0)
    subst e
    exact ⟨ha, fun x => by simp [bhas_nil]⟩
  rw [rbLazyLazyLoop_eq]
  exact merge_lor (f := fun k c1 c2 => chooseLazyLazy (caps1 k) (caps2 k) c1 c2)
    (fun k c1 c2 h1 h2 => chooseLazyLazy_spec _ _ h1.lrep h2.lrep) ha hb

theorem keepNz_lsome {g : Nat → Container → Container → Container} {k : Nat} {c1 c2 c : Container} {s : NSet}
    (hr : LRep (g k c1 c2) s) (h : keepNz g k c1 c2 = some c) : LNe c ∧ ∀ x, chas c x = s x := by
  simp only [keepNz] at h
  split at h
  · rename_i hn
    simp only [Option.some.injEq] at h
    subst h
    obtain ⟨x, hx⟩ := (containerNonzero_iff hr).1 hn
    exact ⟨hr.lne hx, hr.has⟩
  · simp at h

theorem rbLazyXor_spec {a b : Bitmap} (ha : LBInv a) (hb : LBInv b) :
    LBInv (rbLazyXor a b) ∧ ∀ x, bhas (rbLazyXor a b) x = (bhas a x != bhas b x) := by
  unfold rbLazyXor
  split
  · have e := len_zero_nil (by assumption : a.length = 0)
    subst e
    exact ⟨hb, fun x => by simp [bhas_nil, rbCopy]⟩
  split
  · have e := len_zero_nil (by assumption : b.length = 0)
    subst e
    exact ⟨ha, fun x => by simp [bhas_nil, rbCopy]⟩
  rw [rbLazyXorLoop_eq]
  refine merge_spec (P1 := LNe) (P2 := LNe) (P := LNe) (op := fun a b => a != b) ?_ ?_ (by simp) (by simp)
    (fun _ _ h => h) (fun _ _ h => h) ha hb
  · intro k c1 c2 c h1 h2 h
    exact keepNz_lsome (g := fun _ => containerLazyXor) (containerLazyXor_spec h1.lrep h2.lrep) h
  · intro k c1 c2 h1 h2 h
    exact keepNz_none (g := fun _ => containerLazyXor) (containerLazyXor_spec h1.lrep h2.lrep) h

theorem chooseLazyXor_spec (sh : Bool) {c1 c2 : Container} {s t : NSet} (h1 : LRep c1 s) (h2 : Rep c2 t) :
    LRep (chooseLazyXor sh c1 c2) (symm s t) := by
  unfold chooseLazyXor
  split
  · exact containerLazyXor_spec h1 h2.lrep
  · exact containerLazyIxor_spec h1 h2

theorem rbLazyXorInplace_spec (shared : Nat → Bool) {a b : Bitmap} (ha : LBInv a) (hb : BInv b) :
    LBInv (rbLazyXorInplace shared a b) ∧ ∀ x, bhas (rbLazyXorInplace shared a b) x = (bhas a x != bhas b x) := by
  unfold rbLazyXorInplace
  split
  · have e := len_zero_nil (by assumption : b.length = 0)
    subst e
    exact ⟨ha, fun x => by simp [bhas_nil]⟩
  split
  · have e := len_zero_nil (by assumption : a.length = 0)
    subst e
    exact ⟨hb.lazy, fun x => by simp [bhas_nil, rbOverwrite]⟩
  rw [rbLazyXorInplaceLoop_eq]
  refine merge_spec (P1 := LNe) (P2 := CNe) (P := LNe) (op := fun a b => a != b) ?_ ?_ (by simp) (by simp)
    (fun _ _ h => h) (fun _ _ h => h.lne) ha hb
  · intro k c1 c2 c h1 h2 h
    exact keepNz_lsome (g := fun k => chooseLazyXor (shared k)) (chooseLazyXor_spec _ h1.lrep h2.1.rep) h
  · intro k c1 c2 h1 h2 h
    exact keepNz_none (g := fun k => chooseLazyXor (shared k)) (chooseLazyXor_spec _ h1.lrep h2.1.rep) h

theorem rbRepair_spec {r : Bitmap} (h : LBInv r) : BInv (rbRepair r) ∧ ∀ x, bhas (rbRepair r) x = bhas r x := by
  induction r with
  | nil => exact ⟨trivial, fun v => rfl⟩
  | cons p t ih =>
    obtain ⟨k, c⟩ := p
    obtain ⟨i1, i2⟩ := ih h.2.2.2
    have hr := containerRepair_spec h.2.1.lrep
    obtain ⟨y, hy⟩ := h.2.1.2
    refine ⟨⟨h.1, hr.cne hy, ?_, i1⟩, fun v => ?_⟩
    · intro q hq
      obtain ⟨q', hq', rfl⟩ := List.mem_map.1 hq
      exact h.2.2.1 q' hq'
    · show bhas ((k, containerRepair c) :: rbRepair t) v = _
      simp only [bhas_cons, i2, hr.has]

theorem bhas_any_cons (x : Bitmap) (xs : List Bitmap) (v : Nat) :
    (x :: xs).any (fun r => bhas r v) = (bhas x v || xs.any (fun r => bhas r v)) := rfl

theorem foldl_lazyOr (caps : Nat → Nat → Nat) (xs : List Bitmap) : ∀ (i : Nat) (a : Bitmap), LBInv a → (∀ x ∈ xs, BInv x) →
    LBInv ((xs.zipIdx i).foldl (fun a p => rbLazyOrInplace true (caps p.2) a p.1) a) ∧
    ∀ v, bhas ((xs.zipIdx i).foldl (fun a p => rbLazyOrInplace true (caps p.2) a p.1) a) v =
      (bhas a v || xs.any (fun r => bhas r v)) := by
  induction xs with
  | nil => intro i a ha _; exact ⟨ha, fun v => by simp⟩
  | cons x xs ih =>
    intro i a ha hx
    have h1 := rbLazyOrInplace_spec true (caps i) ha (hx x (by simp)).lazy
    have h2 := ih (i + 1) _ h1.1 fun y hy => hx y (by simp [hy])
    simp only [List.zipIdx_cons, List.foldl_cons]
    exact ⟨h2.1, fun v => by rw [h2.2, h1.2, bhas_any_cons, Bool.or_assoc]⟩

theorem rbOrMany_spec (caps : Nat → Nat → Nat) {xs : List Bitmap} (hx : ∀ x ∈ xs, BInv x) :
    BInv (rbOrMany caps xs) ∧ ∀ v, bhas (rbOrMany caps xs) v = xs.any (fun r => bhas r v) := by
  match xs, hx with
  | [], _ => exact ⟨trivial, fun v => by simp [rbOrMany, bhas_nil]⟩
  | [x0], hx => exact ⟨hx x0 (by simp), fun v => by simp [rbOrMany, rbCopy]⟩
  | x0 :: x1 :: xs, hx =>
    have h1 := rbLazyOr_spec true (hx x0 (by simp)).lazy (hx x1 (by simp)).lazy
    have h2 := foldl_lazyOr caps xs 0 _ h1.1 fun y hy => hx y (by simp [hy])
    have h3 := rbRepair_spec h2.1
    simp only [rbOrMany]
    exact ⟨h3.1, fun v => by rw [h3.2, h2.2, h1.2, bhas_any_cons, bhas_any_cons, Bool.or_assoc]⟩

/-- Exclusive or of the truth values of a list. -/
def xorAll (xs : List Bitmap) (v : Nat) : Bool := xs.foldr (fun r b => bhas r v != b) false

theorem foldl_lazyXor (shared : Nat → Nat → Bool) (xs : List Bitmap) : ∀ (i : Nat) (a : Bitmap), LBInv a → (∀ x ∈ xs, BInv x) →
    LBInv ((xs.zipIdx i).foldl (fun a p => rbLazyXorInplace (shared p.2) a p.1) a) ∧
    ∀ v, bhas ((xs.zipIdx i).foldl (fun a p => rbLazyXorInplace (shared p.2) a p.1) a) v =
      (bhas a v != xorAll xs v) := by
  induction xs with
  | nil => intro i a ha _; exact ⟨ha, fun v => by simp [xorAll]⟩
  | cons x xs ih =>
    intro i a ha hx
    have h1 := rbLazyXorInplace_spec (shared i) ha (hx x (by simp))
    have h2 := ih (i + 1) _ h1.1 fun y hy => hx y (by simp [hy])
    simp only [List.zipIdx_cons, List.foldl_cons]
    refine ⟨h2.1, fun v => ?_⟩
    rw [h2.2, h1.2]
    show _ = (bhas a v != (bhas x v != xorAll xs v))
    cases bhas a v <;> cases bhas x v <;> cases xorAll xs v <;> rfl

theorem rbXorMany_spec (shared : Nat → Nat → Bool) {xs : List Bitmap} (hx : ∀ x ∈ xs, BInv x) :
    BInv (rbXorMany shared xs) ∧ ∀ v, bhas (rbXorMany shared xs) v = xorAll xs v := by
  match xs, hx with
  | [], _ => exact ⟨trivial, fun v => by simp [rbXorMany, bhas_nil, xorAll]⟩
  | [x0], hx => exact ⟨hx x0 (by simp), fun v => by simp [rbXorMany, rbCopy, xorAll]⟩
  | x0 :: x1 :: xs, hx =>
    have h1 := rbLazyXor_spec (hx x0 (by simp)).lazy (hx x1 (by simp)).lazy
    have h2 := foldl_lazyXor shared xs 0 _ h1.1 fun y hy => hx y (by simp [hy])
    have h3 := rbRepair_spec h2.1
    simp only [rbXorMany]
    refine ⟨h3.1, fun v => ?_⟩
    rw [h3.2, h2.2, h1.2]
    show _ = (bhas x0 v != (bhas x1 v != xorAll xs v))
    cases bhas x0 v <;> cases bhas x1 v <;> cases xorAll xs v <;> rfl

/-! ### The priority queue keeps its elements -/

section queue
variable {β : Type} [Inhabited β]

theorem pqAt_eq {pq : PQOf β} {i : Nat} (h : i < pq.length) : pqAt pq i = pq[i] := by
  rw [pqAt, List.getD_eq_getElem?_getD, List.getElem?_eq_getElem h]; rfl

theorem set_swap {pq : PQOf β} {i j : Nat} (hi : i < pq.length) (hj : j < pq.length) (hne : i ≠ j) (t : PQElemOf β) :
    ((pq.set i (pqAt pq j)).set j t).Perm (pq.set i t) := by
  have h := Array.swap_perm (xs := (pq.set i t).toArray) (i := i) (j := j) (by simpa using hi) (by simpa using hj)
  rw [Array.perm_iff_toList_perm, Array.toList_swap] at h
  simp only [List.getElem_toArray, List.getElem_set_self, List.set_set] at h
  rw [List.getElem_set_ne hne, ← pqAt_eq hj] at h
  exact h

theorem pqUp_perm (t : PQElemOf β) (pq : PQOf β) (i : Nat) (hi : i < pq.length) : (pqUp t pq i).Perm (pq.set i t) := by
  fun_induction pqUp t pq i with
  | case1 pq i h p hlt ih =>
    have hp : p < i := by simp only [p, Nat.shiftRight_eq_div_pow]; omega
    have h1 := ih (by rw [List.length_set]; omega)
    exact h1.trans (set_swap hi (by omega) (by omega) t)
  | case2 => exact List.Perm.refl _
  | case3 => exact List.Perm.refl _

theorem pqAdd_perm (pq : PQOf β) (t : PQElemOf β) : (pqAdd pq t).Perm (t :: pq) := by
  rw [pqAdd]
  refine (pqUp_perm t _ _ (by simp)).trans ?_
  rw [List.set_append_right _ _ (Nat.le_refl _), Nat.sub_self, List.set_cons_zero]
  exact List.perm_append_comm

theorem pqDown_perm (ai : PQElemOf β) (pq : PQOf β) (i : Nat) (hi : i < pq.length) : (pqDown ai pq i).Perm (pq.set i ai) := by
  fun_induction pqDown ai pq i with
  | case1 pq i h l hlt ih =>
    have hl : l < pq.length ∧ l ≠ i := by simp only [l, pqBest]; split <;> omega
    exact (ih (by rw [List.length_set]; exact hl.1)).trans (set_swap hi hl.1 (Ne.symm hl.2) ai)
  | case2 => exact List.Perm.refl _
  | case3 => exact List.Perm.refl _

theorem percolateDown_perm (pq : PQOf β) (i : Nat) (hi : i < pq.length) : (percolateDown pq i).Perm pq := by
  have h := pqDown_perm (pqAt pq i) pq i hi
  rw [pqAt_eq hi, List.set_getElem_self] at h
  rw [percolateDown, pqAt_eq hi]
  exact h

theorem pqHeapify_perm (i : Nat) (pq : PQOf β) (hi : i < pq.length) : (pqHeapify pq i).Perm pq := by
  induction i generalizing pq with
  | zero => exact percolateDown_perm pq 0 hi
  | succ i ih =>
    have h := percolateDown_perm pq (i + 1) hi
    exact (ih _ (by rw [h.length_eq]; omega)).trans h

theorem pqPoll_perm (pq : PQOf β) (h : 0 < pq.length) : ((pqPoll pq).1 :: (pqPoll pq).2).Perm pq := by
  obtain ⟨a, t, e⟩ := List.exists_cons_of_ne_nil (show pq ≠ [] by rintro rfl; simp at h)
  subst e
  have ha : pqAt (a :: t) 0 = a := rfl
  unfold pqPoll
  simp only [ha]
  rcases List.eq_nil_or_concat t with e | ⟨m, z, e⟩
  · subst e
    simp
  · rw [List.concat_eq_append] at e
    subst e
    rw [if_pos (by simp)]
    have hz : pqAt (a :: (m ++ [z])) ((a :: (m ++ [z])).length - 1) = z := by
      rw [pqAt_eq (by simp)]
      simp
    have htk : (a :: (m ++ [z])).take ((a :: (m ++ [z])).length - 1) = a :: m := by simp
    simp only [hz, htk, List.set_cons_zero]
    refine List.Perm.cons a ?_
    refine (percolateDown_perm _ 0 (by simp)).trans ?_
    exact List.perm_append_comm (l₁ := [z])

end queue

/-- What the queue knows about its elements. -/
def PQOk (e : PQElem) : Prop := LBInv e.bitmap ∧ (e.isTemp = false → BInv e.bitmap)

theorem pqCombine_spec (sz : Bitmap → Nat) (caps1 caps2 : Nat → Nat) {x1 x2 : PQElem} (h1 : PQOk x1) (h2 : PQOk x2) :
    PQOk (pqCombine sz caps1 caps2 x1 x2) ∧
      ∀ v, bhas (pqCombine sz caps1 caps2 x1 x2).bitmap v = (bhas x1.bitmap v || bhas x2.bitmap v) := by
  unfold pqCombine
  split
  · have h := lazyOrFromLazyInputs_spec caps1 caps2 h1.1 h2.1
    exact ⟨⟨h.1, by simp⟩, h.2⟩
  split
  · have h := rbLazyOrInplace_spec false caps2 h2.1 h1.1
    exact ⟨⟨h.1, by simp⟩, fun v => by rw [h.2, Bool.or_comm]⟩
  split
  · have h := rbLazyOrInplace_spec false caps1 h1.1 h2.1
    exact ⟨⟨h.1, by simp⟩, h.2⟩
  · have h := rbLazyOr_spec false h1.1 h2.1
    exact ⟨⟨h.1, by simp⟩, h.2⟩

theorem perm_any {a b : PQ} (h : a.Perm b) (v : Nat) :
    a.any (fun e => bhas e.bitmap v) = b.any (fun e => bhas e.bitmap v) := h.any_eq

theorem pqLoop_spec (sz : Bitmap → Nat) (caps : Nat → Nat → Nat) (n : Nat) : ∀ (pq : PQ), 0 < pq.length →
    pq.length ≤ n + 1 → (∀ e ∈ pq, PQOk e) →
    (pqLoop sz caps n pq).length = 1 ∧ (∀ e ∈ pqLoop sz caps n pq, PQOk e) ∧
    ∀ v, (pqLoop sz caps n pq).any (fun e => bhas e.bitmap v) = pq.any (fun e => bhas e.bitmap v) := by
  induction n with
  | zero => intro pq h0 h1 hk; exact ⟨by simp only [pqLoop]; omega, hk, fun v => rfl⟩
  | succ n ih =>
    intro pq h0 hn hk
    rw [pqLoop]
    split
    · rename_i h1
      have p1 := pqPoll_perm pq h0
      generalize pqPoll pq = r1 at p1 ⊢
      obtain ⟨x1, pq1⟩ := r1
      simp only at p1 ⊢
      have l1 := p1.length_eq
      simp only [List.length_cons] at l1
      have p2 := pqPoll_perm pq1 (by omega)
      generalize pqPoll pq1 = r2 at p2 ⊢
      obtain ⟨x2, pq2⟩ := r2
      simp only at p2 ⊢
      have l2 := p2.length_eq
      simp only [List.length_cons] at l2
      have hk1 : ∀ e ∈ x1 :: pq1, PQOk e := fun e he => hk e (p1.subset he)
      have hk2 : ∀ e ∈ x2 :: pq2, PQOk e := fun e he => hk1 e (by simp [p2.subset he])
      have hc := pqCombine_spec sz (caps (2 * n)) (caps (2 * n + 1)) (hk1 x1 (by simp)) (hk2 x2 (by simp))
      have p3 := pqAdd_perm pq2 (pqCombine sz (caps (2 * n)) (caps (2 * n + 1)) x1 x2)
      have l3 := p3.length_eq
      simp only [List.length_cons] at l3
      have h := ih (pqAdd pq2 (pqCombine sz (caps (2 * n)) (caps (2 * n + 1)) x1 x2)) (by omega) (by omega) (fun e he => by
        rcases List.mem_cons.1 (p3.subset he) with rfl | he
        · exact hc.1
        · exact hk2 e (by simp [he]))
      refine ⟨h.1, h.2.1, fun v => ?_⟩
      rw [h.2.2, perm_any p3, ← perm_any p1, List.any_cons, List.any_cons, hc.2, ← perm_any p2, List.any_cons,
        Bool.or_assoc]
    · exact ⟨by omega, hk, fun v => rfl⟩

theorem rbOrManyHeap_spec (sz : Bitmap → Nat) (caps : Nat → Nat → Nat) {xs : List Bitmap} (hx : ∀ x ∈ xs, BInv x) :
    BInv (rbOrManyHeap sz caps xs) ∧ ∀ v, bhas (rbOrManyHeap sz caps xs) v = xs.any (fun r => bhas r v) := by
  match xs, hx with
  | [], _ => exact ⟨trivial, fun v => by simp [rbOrManyHeap, bhas_nil]⟩
  | [x0], hx => exact ⟨hx x0 (by simp), fun v => by simp [rbOrManyHeap, rbCopy]⟩
  | x0 :: x1 :: xs, hx =>
    rw [rbOrManyHeap]
    generalize hL : x0 :: x1 :: xs = L at hx ⊢
    have hlen : 2 ≤ L.length := by rw [← hL]; simp
    have p := pqHeapify_perm (L.length / 2) (L.map (fun r => ⟨sz r, false, r⟩)) (by rw [List.length_map]; omega)
    rw [← createPq] at p
    have hl := p.length_eq
    rw [List.length_map] at hl
    have h := pqLoop_spec sz caps (createPq sz L).length (createPq sz L) (by omega) (by omega) (fun e he => by
      obtain ⟨r, hr, rfl⟩ := List.mem_map.1 (p.subset he)
      exact ⟨(hx r hr).lazy, fun _ => hx r hr⟩)
    generalize pqLoop sz caps (createPq sz L).length (createPq sz L) = q at h ⊢
    obtain ⟨e, rfl⟩ : ∃ e, q = [e] := List.length_eq_one_iff.1 h.1
    have he : (pqPoll [e]).1 = e := rfl
    have h3 := rbRepair_spec (h.2.1 e (by simp)).1
    rw [he]
    refine ⟨h3.1, fun v => ?_⟩
    have := h.2.2 v
    rw [perm_any p, List.any_map] at this
    rw [h3.2]
    simpa [Function.comp_def] using this

end CRoaring
