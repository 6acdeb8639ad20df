import Verif.Lemmas.ArtHeapLive
import Verif.Model.ArtHeapShrink
/-
Shrinking: the lists of unused places in ascending order, and one node moved.
-/
set_option linter.unusedSimpArgs false
set_option linter.unusedVariables false
namespace CRoaring
open Spec

section
variable {V : Type}

/-- As `HOk`, with ascending lists for the types in `P`. -/
structure HOrd (H : ArtHeap V) (U : ArtRef → Prop) (P : ArtTy → Prop) : Prop where
  used : ∀ r, U r → r.idx < (H.nodes r.ty).length
  free : ∀ t, ∃ l : List Nat, l.Nodup ∧ (∀ i, i ∈ l ↔ i < (H.nodes t).length ∧ ¬ U ⟨t, i⟩) ∧ Chain H t (H.first t) l ∧ (P t → l.Pairwise (· < ·))

theorem HOk.ord {H : ArtHeap V} {U : ArtRef → Prop} (h : HOk H U) : HOrd H U (fun _ => False) :=
  ⟨h.used, fun t => by obtain ⟨l, a, b, c⟩ := h.free t; exact ⟨l, a, b, c, fun h => h.elim⟩⟩

theorem HOrd.hok {H : ArtHeap V} {U : ArtRef → Prop} {P : ArtTy → Prop} (h : HOrd H U P) : HOk H U :=
  ⟨h.used, fun t => by obtain ⟨l, a, b, c, _⟩ := h.free t; exact ⟨l, a, b, c⟩⟩

theorem HOrd.congr {H : ArtHeap V} {U W : ArtRef → Prop} {P : ArtTy → Prop} (h : HOrd H U P) (e : ∀ r, U r ↔ W r) : HOrd H W P := by
  have : U = W := funext fun r => propext (e r)
  exact this ▸ h

theorem HOrd.mono {H : ArtHeap V} {U : ArtRef → Prop} {P Q : ArtTy → Prop} (h : HOrd H U P) (e : ∀ t, Q t → P t) : HOrd H U Q :=
  ⟨h.used, fun t => by obtain ⟨l, a, b, c, d⟩ := h.free t; exact ⟨l, a, b, c, fun h => d (e t h)⟩⟩

theorem poke_at {H : ArtHeap V} {r : ArtRef} (hb : r.idx < (H.nodes r.ty).length) (s : ArtSlot V) :
    ∃ H', H.poke (H.deref r) s = .ok H' ∧ Poked H H' r s := poke_ok (deref_valid H r) hb s

/-- Numbers below a bound, without repetition. -/
theorem nodup_lt_length : ∀ (n : Nat) (l : List Nat), l.Nodup → (∀ x ∈ l, x < n) → l.length ≤ n
  | 0, [], _, _ => Nat.le_refl _
  | 0, x :: l, _, h => absurd (h x (List.mem_cons_self ..)) (Nat.not_lt_zero _)
  | n + 1, l, hn, h => by
    have h1 : (l.erase n).length ≤ n := by
      refine nodup_lt_length n _ (hn.erase n) (fun x hx => ?_)
      have h2 := h x (List.mem_of_mem_erase hx)
      have h3 : x ≠ n := fun e => by subst e; exact (List.Nodup.not_mem_erase hn) hx
      omega
    have h2 : l.length ≤ (l.erase n).length + 1 := by
      rw [List.length_erase]; split <;> omega
    omega

theorem nextFree_ok {H : ArtHeap V} {t : ArtTy} {i n : Nat} (h : H.get ⟨t, i⟩ = some (.free n)) : H.nextFree t i = .ok n := by
  unfold ArtHeap.nextFree
  rw [peek_ok (deref_valid H ⟨t, i⟩) h]; rfl

/-! ### Sorting -/

theorem freeMarks_ok {H : ArtHeap V} {t : ArtTy} : ∀ (l : List Nat) (a fuel : Nat), Chain H t a l → (∀ x ∈ l, x < (H.nodes t).length) → l.length < fuel →
    H.freeMarks t fuel a = .ok l
  | [], a, 0, _, _, hf => by simp at hf
  | [], a, fuel + 1, h, _, _ => by
    have h : a = _ := h
    unfold ArtHeap.freeMarks
    rw [if_neg (by omega)]
  | x :: l, a, 0, _, _, hf => by simp at hf
  | x :: l, a, fuel + 1, ⟨h1, n, h2, h3⟩, hx, hf => by
    subst h1
    unfold ArtHeap.freeMarks
    rw [if_pos (hx a (List.mem_cons_self ..)), nextFree_ok h2, ok_bind, freeMarks_ok l n fuel h3 (fun y hy => hx y (List.mem_cons_of_mem _ hy))
      (by simpa using hf), ok_bind]

/-- The marked indices from `i` on, ascending. -/
def marksFrom (cap : Nat) (marks : List Nat) (i : Nat) : List Nat := (List.range' i (cap - i)).filter (fun j => decide (j ∈ marks))

theorem marksFrom_step {cap i : Nat} (marks : List Nat) (h : i < cap) :
    marksFrom cap marks i = if i ∈ marks then i :: marksFrom cap marks (i + 1) else marksFrom cap marks (i + 1) := by
  unfold marksFrom
  rw [show cap - i = (cap - (i + 1)) + 1 by omega, List.range'_succ, List.filter_cons]
  simp

theorem mem_marksFrom {cap i j : Nat} {marks : List Nat} : j ∈ marksFrom cap marks i ↔ i ≤ j ∧ j < cap ∧ j ∈ marks := by
  unfold marksFrom
  simp only [List.mem_filter, List.mem_range'_1, decide_eq_true_eq]
  constructor
  · rintro ⟨⟨h1, h2⟩, h3⟩; exact ⟨h1, by omega, h3⟩
  · rintro ⟨h1, h2, h3⟩; exact ⟨⟨h1, by omega⟩, h3⟩

theorem relink_ok {t : ArtTy} {marks : List Nat} {cap : Nat} : ∀ (i : Nat) (H : ArtHeap V) (first : Nat), i ≤ cap → (H.nodes t).length = cap →
    Chain H t first (marksFrom cap marks i) →
    ∃ H' f, ArtHeap.relink t marks i H first = .ok (H', f) ∧ Chain H' t f (marksFrom cap marks 0) ∧ H'.first = H.first ∧ H'.gen = H.gen ∧
      (∀ u, (H'.nodes u).length = (H.nodes u).length) ∧ ∀ x : ArtRef, ¬ (x.ty = t ∧ x.idx ∈ marks) → H'.get x = H.get x
  | 0, H, first, _, _, hc => ⟨H, first, rfl, hc, rfl, rfl, fun _ => rfl, fun _ _ => rfl⟩
  | i + 1, H, first, hi, hl, hc => by
    have hs := marksFrom_step marks (show i < cap by omega)
    unfold ArtHeap.relink
    by_cases hm : i ∈ marks
    · rw [if_pos hm]
      rw [if_pos hm] at hs
      obtain ⟨H1, e1, hw⟩ := poke_at (r := ⟨t, i⟩) (show i < (H.nodes t).length by omega) (.free first)
      have hc1 : Chain H1 t i (marksFrom cap marks i) := by
        rw [hs]
        refine ⟨rfl, first, ?_, Chain.congr (hw.len t) (fun x hx => ?_) hc⟩
        · rw [hw.get, if_pos rfl]
        · rw [hw.get, if_neg]
          intro e
          have := (mem_marksFrom.1 hx).1
          injection e with _ e
          omega
      obtain ⟨H', f, g1, g2, g3, g4, g5, g6⟩ := relink_ok i H1 i (by omega) (by rw [hw.len]; exact hl) hc1
      refine ⟨H', f, ?_, g2, by rw [g3, hw.first], by rw [g4, hw.gen], fun u => by rw [g5, hw.len], fun x hx => ?_⟩
      · rw [e1, ok_bind, g1]
      · rw [g6 x hx, hw.get, if_neg]
        rintro rfl
        exact hx ⟨rfl, hm⟩
    · rw [if_neg hm]
      rw [if_neg hm] at hs
      exact relink_ok i H first (by omega) hl (hs ▸ hc)

theorem sortFree_ok {H : ArtHeap V} {U : ArtRef → Prop} {P : ArtTy → Prop} (h : HOrd H U P) (t : ArtTy) :
    ∃ H', H.sortFree t = .ok H' ∧ HOrd H' U (fun u => P u ∨ u = t) ∧ (∀ x, U x → H'.get x = H.get x) ∧ ∀ u, (H'.nodes u).length = (H.nodes u).length := by
  obtain ⟨l, a1, a2, a3, a4⟩ := h.free t
  have hlen : l.length < (H.nodes t).length + 1 := by
    have := nodup_lt_length _ l a1 (fun x hx => ((a2 x).1 hx).1)
    omega
  have hm := freeMarks_ok l _ ((H.nodes t).length + 1) a3 (fun x hx => ((a2 x).1 hx).1) hlen
  have h0 : Chain H t (H.nodes t).length (marksFrom (H.nodes t).length l (H.nodes t).length) := by
    simp [marksFrom, Chain]
  obtain ⟨H1, f, g1, g2, g3, g4, g5, g6⟩ := relink_ok _ H _ (Nat.le_refl _) rfl h0
  have hget : ∀ x, U x → H1.get x = H.get x := by
    intro x hx
    refine g6 x ?_
    rintro ⟨rfl, h2⟩
    exact ((a2 _).1 h2).2 hx
  refine ⟨{ H1 with first := updTy H1.first t f }, ?_, ⟨fun r hr => ?_, fun u => ?_⟩, hget, g5⟩
  · unfold ArtHeap.sortFree
    rw [hm, ok_bind, g1, ok_bind]
  · show r.idx < (H1.nodes r.ty).length
    rw [g5]; exact h.used r hr
  · by_cases hu : u = t
    · subst hu
      refine ⟨marksFrom (H.nodes u).length l 0, ?_, fun i => ?_, ?_, fun _ => ?_⟩
      · exact (List.nodup_range' ..).filter _
      · show _ ↔ i < (H1.nodes u).length ∧ _
        rw [mem_marksFrom, a2, g5]
        constructor
        · exact fun h => h.2.2
        · exact fun h => ⟨Nat.zero_le _, h.1, h⟩
      · show Chain _ u (updTy H1.first u f u) _
        rw [updTy_same]
        exact Chain.congr (H := H1) (H' := { H1 with first := updTy H1.first u f }) rfl (fun _ _ => rfl) g2
      · exact (List.pairwise_lt_range' ..).filter _
    · obtain ⟨m, b1, b2, b3, b4⟩ := h.free u
      refine ⟨m, b1, fun i => ?_, ?_, ?_⟩
      · show _ ↔ i < (H1.nodes u).length ∧ _
        rw [g5]; exact b2 i
      · show Chain _ u (updTy H1.first t f u) m
        rw [updTy_ne _ _ hu, g3]
        refine Chain.congr (H := H) (H' := { H1 with first := updTy H.first t f }) (g5 u) (fun x hx => ?_) b3
        exact g6 ⟨u, x⟩ (fun e => hu e.1)
      · rintro (h | h)
        · exact b4 h
        · exact absurd h hu

theorem sortFreeLists_ok {H : ArtHeap V} {U : ArtRef → Prop} (h : HOk H U) :
    ∃ H', H.sortFreeLists = .ok H' ∧ HOrd H' U (fun _ => True) ∧ (∀ x, U x → H'.get x = H.get x) ∧ ∀ u, (H'.nodes u).length = (H.nodes u).length := by
  obtain ⟨H1, e1, h1, g1, l1⟩ := sortFree_ok h.ord .leaf
  obtain ⟨H2, e2, h2, g2, l2⟩ := sortFree_ok h1 .n4
  obtain ⟨H3, e3, h3, g3, l3⟩ := sortFree_ok h2 .n16
  obtain ⟨H4, e4, h4, g4, l4⟩ := sortFree_ok h3 .n48
  obtain ⟨H5, e5, h5, g5, l5⟩ := sortFree_ok h4 .n256
  refine ⟨H5, ?_, h5.mono (fun t _ => by cases t <;> simp), fun x hx => by rw [g5 x hx, g4 x hx, g3 x hx, g2 x hx, g1 x hx],
    fun u => by rw [l5, l4, l3, l2, l1]⟩
  simp only [ArtHeap.sortFreeLists, artTypes, List.foldlM_cons, List.foldlM_nil, e1, e2, e3, e4, e5, ok_bind]
  rfl

/-! ### One node moved -/

/-- The places `l` from `a` on, the last of which names `b`. -/
def Seg (H : ArtHeap V) (t : ArtTy) : Nat → List Nat → Nat → Prop
  | a, [], b => a = b
  | a, x :: l, b => a = x ∧ ∃ next, H.get ⟨t, x⟩ = some (.free next) ∧ Seg H t next l b

theorem Seg.chain {H : ArtHeap V} {t : ArtTy} {b : Nat} {l2 : List Nat} (h2 : Chain H t b l2) : ∀ {l1 : List Nat} {a : Nat}, Seg H t a l1 b → Chain H t a (l1 ++ l2)
  | [], _, h => by have h : _ = b := h; exact h ▸ h2
  | _ :: _, _, ⟨h1, n, h3, h4⟩ => ⟨h1, n, h3, Seg.chain h2 h4⟩

theorem Seg.redirect {H H' : ArtHeap V} {t : ArtTy} {b c z : Nat} : ∀ {l : List Nat} {a : Nat}, Seg H t a (l ++ [z]) b → (∀ x ∈ l, H'.get ⟨t, x⟩ = H.get ⟨t, x⟩) →
    H'.get ⟨t, z⟩ = some (.free c) → Seg H' t a (l ++ [z]) c
  | [], a, ⟨h1, n, h2, h3⟩, _, hz => ⟨h1, c, hz, rfl⟩
  | x :: l, a, ⟨h1, n, h2, h3⟩, hx, hz => ⟨h1, n, by rw [hx x (List.mem_cons_self ..)]; exact h2,
      Seg.redirect h3 (fun y hy => hx y (List.mem_cons_of_mem _ hy)) hz⟩

theorem freeBefore_ok {H : ArtHeap V} {t : ArtTy} {f : Nat} (hf : f < (H.nodes t).length) : ∀ (l : List Nat) (cur a fuel : Nat), Chain H t a l →
    l.Pairwise (· < ·) → f ∉ l → l.length < fuel →
    ∃ l1 l2 b, l = l1 ++ l2 ∧ (∀ x ∈ l1, x < f) ∧ (∀ x ∈ l2, f < x) ∧ Seg H t a l1 b ∧ Chain H t b l2 ∧ f < b ∧
      H.freeBefore t f fuel cur a = .ok (l1.getLast?.getD cur, b)
  | _, _, _, 0, _, _, _, h => by simp at h
  | [], cur, a, fuel + 1, h, _, _, _ => by
    have h : a = _ := h
    refine ⟨[], [], a, rfl, by simp, by simp, rfl, h, by omega, ?_⟩
    unfold ArtHeap.freeBefore
    rw [if_neg (by omega)]; rfl
  | x :: l, cur, a, fuel + 1, ⟨h1, n, h2, h3⟩, hs, hn, hl => by
    subst h1
    rw [List.pairwise_cons] at hs
    unfold ArtHeap.freeBefore
    by_cases ha : a < f
    · obtain ⟨l1, l2, b, e, g1, g2, g3, g4, g5, g6⟩ := freeBefore_ok hf l a n fuel h3 hs.2 (fun h => hn (List.mem_cons_of_mem _ h)) (by simpa using hl)
      refine ⟨a :: l1, l2, b, by rw [e]; rfl, ?_, g2, ⟨rfl, n, h2, g3⟩, g4, g5, ?_⟩
      · intro x hx
        rcases List.mem_cons.1 hx with rfl | hx
        · exact ha
        · exact g1 x hx
      · rw [if_pos ha, nextFree_ok h2, ok_bind, g6]
        cases l1 with
        | nil => rfl
        | cons y l1 => simp [List.getLast?_cons]
    · have hne : f ≠ a := fun e => hn (e ▸ List.mem_cons_self ..)
      refine ⟨[], a :: l, a, rfl, by simp, ?_, rfl, ⟨rfl, n, h2, h3⟩, by omega, ?_⟩
      · intro x hx
        rcases List.mem_cons.1 hx with rfl | hx
        · omega
        · have := hs.1 x hx; omega
      · rw [if_neg ha]; rfl

/-- A node has been moved from `r` to `r'`, to a lower place or not at all. -/
structure Shifted (H H' : ArtHeap V) (U : ArtRef → Prop) (r r' : ArtRef) : Prop where
  ty : r'.ty = r.ty
  here : H'.get r' = H.get r
  new : r' = r ∨ ¬ U r'
  frame : ∀ x, U x → x ≠ r → H'.get x = H.get x
  ord : HOrd H' (fun x => (U x ∧ x ≠ r) ∨ x = r') (fun _ => True)
  low : r'.idx < H'.first r'.ty
  mono : ∀ t, H.first t ≤ H'.first t
  len : ∀ t, (H'.nodes t).length = (H.nodes t).length
  gen : H'.gen = H.gen

theorem moveToShrink_ok {H : ArtHeap V} {U : ArtRef → Prop} (h : HOrd H U (fun _ => True)) {r : ArtRef} (hr : U r) :
    ∃ H' r', H.moveToShrink r = .ok (H', r') ∧ Shifted H H' U r r' := by
  unfold ArtHeap.moveToShrink
  by_cases hlow : r.idx < H.first r.ty
  · rw [if_pos hlow]
    refine ⟨H, r, rfl, rfl, rfl, Or.inl rfl, fun _ _ _ => rfl, h.congr (fun x => ?_), hlow, fun _ => Nat.le_refl _, fun _ => rfl, rfl⟩
    constructor
    · intro hx
      by_cases e : x = r
      · exact Or.inr e
      · exact Or.inl ⟨hx, e⟩
    · rintro (hx | rfl)
      · exact hx.1
      · exact hr
  · rw [if_neg hlow]
    have hrl := h.used r hr
    obtain ⟨l, a1, a2, a3, a4⟩ := h.free r.ty
    have a4 := a4 trivial
    cases l with
    | nil =>
      have a3 : H.first r.ty = _ := a3
      omega
    | cons z l =>
      obtain ⟨h1, a, h2, h3⟩ := a3
      rw [h1] at hlow ⊢
      rw [List.pairwise_cons] at a4
      rw [List.nodup_cons] at a1
      have hz := (a2 z).1 (List.mem_cons_self ..)
      have hzr : z ≠ r.idx := by
        intro e
        refine hz.2 ?_
        rw [e]; exact hr
      have hzref : (⟨r.ty, z⟩ : ArtRef) ≠ r := by
        intro e; rw [← e] at hzr; exact hzr rfl
      have hrn : r.idx ∉ l := fun hm => ((a2 r.idx).1 (List.mem_cons_of_mem _ hm)).2 hr
      obtain ⟨s, hs⟩ : ∃ s, H.get r = some s := ⟨_, List.getElem?_eq_getElem hrl⟩
      obtain ⟨H1, e1, hw1⟩ := poke_at (r := ⟨r.ty, z⟩) hz.1 s
      have hch1 : Chain H1 r.ty a l := by
        refine Chain.congr (hw1.len _) (fun x hx => ?_) h3
        rw [hw1.get, if_neg]
        intro e
        injection e with _ e
        exact a1.1 (e ▸ hx)
      have hlen : l.length < (H1.nodes r.ty).length + 1 := by
        have := nodup_lt_length _ l a1.2 (fun x hx => ((a2 x).1 (List.mem_cons_of_mem _ hx)).1)
        rw [hw1.len]
        omega
      obtain ⟨l1, l2, b, el, b1, b2, b3, b4, b5, b6⟩ := freeBefore_ok (f := r.idx) (by rw [hw1.len]; exact hrl) l a a _ hch1 a4.2 hrn hlen
      obtain ⟨H2, e2, hw2⟩ := poke_at (H := H1) (r := r) (by show r.idx < (H1.nodes r.ty).length; rw [hw1.len]; exact hrl) (.free b)
      -- the list afterwards
      have third : ∃ H3, H2.linkFrom r.ty (l1.getLast?.getD a) r.idx = .ok H3 ∧
          H3.gen = H2.gen ∧ H3.first = H2.first ∧ (∀ u, (H3.nodes u).length = (H2.nodes u).length) ∧
          (∀ x : ArtRef, ¬ (x.ty = r.ty ∧ x.idx ∈ l1) → H3.get x = H2.get x) ∧
          Chain H3 r.ty (if r.idx < a then r.idx else a) (l1 ++ r.idx :: l2) := by
        have hc2 : ∀ H3 : ArtHeap V, (∀ u, (H3.nodes u).length = (H2.nodes u).length) → (∀ x : ArtRef, ¬ (x.ty = r.ty ∧ x.idx ∈ l1) → H3.get x = H2.get x) →
            Chain H3 r.ty r.idx (r.idx :: l2) := by
          intro H3 hl3 hg3
          refine ⟨rfl, b, ?_, Chain.congr (by rw [hl3, hw2.len]) (fun x hx => ?_) b4⟩
          · show H3.get r = _
            rw [hg3 r (fun hh => by have := b1 _ hh.2; omega), hw2.get, if_pos rfl]
          · rw [hg3 ⟨r.ty, x⟩ (fun hh => by have := b1 _ hh.2; have := b2 _ hx; simp at *; omega), hw2.get, if_neg]
            intro e
            have := b2 x hx
            rw [← e] at this
            simp at this
        rcases List.eq_nil_or_concat l1 with rfl | ⟨l1', w, rfl⟩
        · have b3 : a = b := b3
          refine ⟨H2, ?_, rfl, rfl, fun _ => rfl, fun _ _ => rfl, ?_⟩
          · unfold ArtHeap.linkFrom
            rw [if_neg]
            show ¬ a < r.idx
            omega
          · rw [if_pos (by omega)]
            exact hc2 H2 (fun _ => rfl) (fun _ _ => rfl)
        · rw [List.concat_eq_append] at *
          have hwm : w ∈ l1' ++ [w] := by simp
          have hwlt := b1 w hwm
          have hwl : w ∈ l := by rw [el]; exact List.mem_append_left _ hwm
          have hgl : (l1' ++ [w]).getLast?.getD a = w := by simp
          unfold ArtHeap.linkFrom
          rw [hgl, if_pos hwlt]
          obtain ⟨H3, e3, hw3⟩ := poke_at (H := H2) (r := ⟨r.ty, w⟩)
            (by show w < (H2.nodes r.ty).length; rw [hw2.len, hw1.len]; exact ((a2 w).1 (List.mem_cons_of_mem _ hwl)).1) (.free r.idx)
          have hg3 : ∀ x : ArtRef, ¬ (x.ty = r.ty ∧ x.idx ∈ l1' ++ [w]) → H3.get x = H2.get x := by
            intro x hx
            rw [hw3.get, if_neg]
            rintro rfl
            exact hx ⟨rfl, hwm⟩
          refine ⟨H3, e3, hw3.gen, hw3.first, hw3.len, hg3, ?_⟩
          have hal : ¬ r.idx < a := by
            cases l1' with
            | nil => have := b3.1; omega
            | cons y l1' => have := b3.1; have := b1 y (by simp); omega
          rw [if_neg hal]
          refine Seg.chain (hc2 H3 hw3.len hg3) (Seg.redirect b3 (fun x hx => ?_) ?_)
          · have hsx : x ≠ w := by
              have hp : (l1' ++ [w] ++ l2).Pairwise (· < ·) := el ▸ a4.2
              rw [List.append_assoc, List.pairwise_append] at hp
              have := hp.2.2 x hx w (by simp)
              omega
            rw [hw3.get, if_neg (by intro e; injection e with _ e; exact hsx e), hw2.get, if_neg]
            intro e
            have := b1 x (List.mem_append_left _ hx)
            rw [← e] at this; simp at this
          · rw [hw3.get, if_pos rfl]
      obtain ⟨H3, e3, c1, c2, c3, c4, c5⟩ := third
      have hl3 : ∀ u, (H3.nodes u).length = (H.nodes u).length := fun u => by rw [c3, hw2.len, hw1.len]
      have hnew : ¬ U ⟨r.ty, z⟩ := hz.2
      have hzl1 : z ∉ l1 := fun hm => a1.1 (el ▸ List.mem_append_left _ hm)
      have hgz : H3.get ⟨r.ty, z⟩ = H.get r := by
        rw [c4 _ (fun hh => hzl1 hh.2), hw2.get, if_neg hzref, hw1.get, if_pos rfl, hs]
      have hframe : ∀ x, U x → x ≠ r → H3.get x = H.get x := by
        intro x hx hxr
        have : ¬ (x.ty = r.ty ∧ x.idx ∈ l1) := by
          rintro ⟨g1, g2⟩
          refine ((a2 x.idx).1 (List.mem_cons_of_mem _ (el ▸ List.mem_append_left _ g2))).2 ?_
          rw [← g1]; exact hx
        rw [c4 x this, hw2.get, if_neg hxr, hw1.get, if_neg]
        rintro rfl
        exact hnew hx
      have hza : z < a ∧ z < r.idx := by
        refine ⟨?_, by omega⟩
        cases l with
        | nil => have h3 : a = _ := h3; have := hz.1; omega
        | cons y l => have := h3.1; have := a4.1 y (by simp); omega
      refine ⟨{ H3 with first := updTy H3.first r.ty (if r.idx < a then r.idx else a) }, ⟨r.ty, z⟩, ?_, rfl, hgz, Or.inr hnew, hframe, ⟨?_, ?_⟩, ?_, ?_, hl3, ?_⟩
      · rw [nextFree_ok h2, ok_bind, peek_ok (deref_valid H r) hs, ok_bind, e1, ok_bind, b6, ok_bind, e2, ok_bind]
        simp only
        rw [e3, ok_bind]
      · rintro x (⟨hx, _⟩ | rfl)
        · show x.idx < (H3.nodes x.ty).length
          rw [hl3]; exact h.used x hx
        · show z < (H3.nodes r.ty).length
          rw [hl3]; exact hz.1
      · intro u
        by_cases hu : u = r.ty
        · subst hu
          have hpair : (l1 ++ r.idx :: l2).Pairwise (· < ·) := by
            have hp : (l1 ++ l2).Pairwise (· < ·) := el ▸ a4.2
            rw [List.pairwise_append] at hp
            rw [List.pairwise_append, List.pairwise_cons]
            refine ⟨hp.1, ⟨b2, hp.2.1⟩, fun x hx y hy => ?_⟩
            rcases List.mem_cons.1 hy with rfl | hy
            · exact b1 x hx
            · exact hp.2.2 x hx y hy
          refine ⟨l1 ++ r.idx :: l2, hpair.imp (fun hab => Nat.ne_of_lt hab), fun i => ?_, ?_, fun _ => hpair⟩
          · show _ ↔ i < (H3.nodes r.ty).length ∧ _
            rw [hl3]
            have hmem : i ∈ l1 ++ r.idx :: l2 ↔ i = r.idx ∨ i ∈ l := by
              rw [el]; simp only [List.mem_append, List.mem_cons]
              constructor
              · rintro (h | h | h)
                · exact Or.inr (Or.inl h)
                · exact Or.inl h
                · exact Or.inr (Or.inr h)
              · rintro (h | h | h)
                · exact Or.inr (Or.inl h)
                · exact Or.inl h
                · exact Or.inr (Or.inr h)
            rw [hmem]
            have ha2 := a2 i
            rw [List.mem_cons] at ha2
            constructor
            · rintro (rfl | hi)
              · refine ⟨hrl, ?_⟩
                rintro (⟨_, h⟩ | h)
                · exact h rfl
                · exact hzref h.symm
              · obtain ⟨g1, g2⟩ := ha2.1 (Or.inr hi)
                refine ⟨g1, ?_⟩
                rintro (⟨h, _⟩ | h)
                · exact g2 h
                · injection h with _ h
                  exact a1.1 (h ▸ hi)
            · rintro ⟨g1, g2⟩
              by_cases hir : i = r.idx
              · exact Or.inl hir
              · refine Or.inr ?_
                rcases ha2.2 ⟨g1, fun h => g2 (Or.inl ⟨h, fun e => hir (by rw [← e])⟩)⟩ with h | h
                · exact absurd (Or.inr (by rw [h])) g2
                · exact h
          · show Chain _ r.ty (updTy H3.first r.ty _ r.ty) _
            rw [updTy_same]
            exact Chain.congr (H := H3) (H' := { H3 with first := updTy H3.first r.ty (if r.idx < a then r.idx else a) }) rfl (fun _ _ => rfl) c5
        · obtain ⟨m, d1, d2, d3, d4⟩ := h.free u
          refine ⟨m, d1, fun i => ?_, ?_, d4⟩
          · show _ ↔ i < (H3.nodes u).length ∧ _
            rw [hl3, d2]
            have h1 : (⟨u, i⟩ : ArtRef) ≠ r := fun e => hu (by rw [← e])
            have h2 : (⟨u, i⟩ : ArtRef) ≠ ⟨r.ty, z⟩ := fun e => by injection e with e _; exact hu e
            simp [h1, h2]
          · show Chain _ u (updTy H3.first r.ty _ u) m
            rw [updTy_ne _ _ hu, c2, hw2.first, hw1.first]
            refine Chain.congr (H := H) (H' := { H3 with first := updTy H.first r.ty (if r.idx < a then r.idx else a) }) (hl3 u) (fun x hx => ?_) d3
            show H3.get ⟨u, x⟩ = _
            rw [c4 _ (fun hh => hu hh.1), hw2.get, if_neg (fun e => hu (by rw [← e])), hw1.get, if_neg (fun e => by injection e with e _; exact hu e)]
      · show z < updTy H3.first r.ty _ r.ty
        rw [updTy_same]
        split <;> omega
      · intro u
        show _ ≤ updTy H3.first r.ty _ u
        by_cases hu : u = r.ty
        · rw [hu, updTy_same, h1]
          split <;> omega
        · rw [updTy_ne _ _ hu, c2, hw2.first, hw1.first]
          exact Nat.le_refl _
      · show H3.gen = _
        rw [c1, hw2.gen, hw1.gen]

end
end CRoaring
