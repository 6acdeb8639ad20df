import Verif.Model.CowMany
import Verif.Lemmas.Cow10
import Verif.Lemmas.Lazy
import Verif.Lemmas.Offset

set_option linter.unusedSimpArgs false
set_option linter.unusedVariables false

/-! The lazy operations of the heap model compute the values of `Verif/Model/Lazy.lean` and keep the heap invariant. -/

namespace CRoaring
open Spec

theorem replaceC_sh {o : Bool} {h h' : Heap} {r r' : Ref} {c : Container} (e : replaceC o h r c = some (r', h'))
    (hr : r.sh = false) : r'.sh = false := by
  unfold replaceC at e
  split at e
  · cases hw : writeC h r c with
    | none => simp [hw] at e
    | some h2 => simp [hw] at e; rw [← e.1]; exact hr
  · cases hw : freeC (newC h c).2 r with
    | none => simp [hw] at e
    | some h2 => simp [hw] at e; rw [← e.1]; rfl

theorem hLazyOrPair_spec {g : Bool} (o conv : Bool) {h : Heap} {L : List Ref} (i : HInv g h L) {r1 r2 : Ref}
    (m1 : r1 ∈ L) (m2 : r2 ∈ L) : ∃ r h', hLazyOrPair o conv h r1 r2 = some (r, h') ∧ HInv g h' (r :: L) ∧
      valC h' r = chooseLazyOr conv (valC h r1) (valC h r2) ∧ Keep h h' L := by
  simp only [hLazyOrPair, i.live m1, i.live m2, Option.bind_eq_bind, Option.bind_some, chooseLazyOr]
  split
  · obtain ⟨i1, v1, s1, q1⟩ := newC_spec i (.bitset (containerToBitset (valC h r1)))
    obtain ⟨r', h', e, i2, v2, q2⟩ := replaceC_spec i1 (o := o) (fun _ => s1)
      (containerLazyIor 0 (.bitset (containerToBitset (valC h r1))) (valC h r2))
    exact ⟨r', h', e, i2, v2, q1.trans q2 (List.Subset.refl _) (List.Subset.refl _)⟩
  · obtain ⟨i1, v1, s1, q1⟩ := newC_spec i (containerLazyOr (valC h r1) (valC h r2))
    exact ⟨_, _, rfl, i1, v1, q1⟩

theorem hLazyIorOperand_spec {g : Bool} (conv : Bool) {h : Heap} {l : List Ref} {r1 : Ref} (i : HInv g h (r1 :: l)) :
    ∃ r h', hLazyIorOperand conv h r1 = some (r, h') ∧ HInv g h' (r :: l) ∧ r.sh = false ∧
      valC h' r = (if conv = false || isBitset (valC h r1) then valC h r1
        else .bitset (containerToBitset (valC h r1))) ∧ Keep h h' l := by
  simp only [hLazyIorOperand, i.live (r := r1) (by simp), Option.bind_eq_bind, Option.bind_some]
  split
  · obtain ⟨r, h', e, i1, v1, s1, q1⟩ := unshareC_spec i
    exact ⟨r, h', e, i1, s1, v1, q1⟩
  · obtain ⟨i1, v1, s1, q1⟩ := newC_spec i (.bitset (containerToBitset (valC h r1)))
    obtain ⟨h', e, i2, q2⟩ := freeC_spec (r := r1)
      (l := (newC h (.bitset (containerToBitset (valC h r1)))).1 :: l) (i1.perm (by count_tac))
    exact ⟨_, h', by simp [e], i2, s1, by rw [q2 _ (by simp), v1], q1.trans q2 (by sub_tac) (by sub_tac)⟩

theorem hLazyIorPair_spec {g : Bool} (o conv : Bool) (cap : Nat) {h : Heap} {l : List Ref} {r1 r2 : Ref}
    (i : HInv g h (r1 :: l)) (m2 : r2 ∈ l) : ∃ r h', hLazyIorPair o conv cap h r1 r2 = some (r, h') ∧
      HInv g h' (r :: l) ∧ valC h' r = chooseLazyIor conv cap (valC h r1) (valC h r2) ∧ Keep h h' l := by
  simp only [hLazyIorPair, i.live (r := r1) (by simp), Option.bind_eq_bind, Option.bind_some, chooseLazyIor]
  split
  · obtain ⟨r, h1, e1, i1, s1, v1, q1⟩ := hLazyIorOperand_spec conv i
    simp only [e1, Option.bind_some, i1.live (r := r) (by simp), i1.live (r := r2) (by simp [m2]), v1, q1 r2 m2]
    obtain ⟨r', h', e, i2, v2, q2⟩ := replaceC_spec i1 (o := o) (fun _ => s1)
      (containerLazyIor cap (if conv = false || isBitset (valC h r1) then valC h r1
        else .bitset (containerToBitset (valC h r1))) (valC h r2))
    exact ⟨r', h', e, i2, v2, q1.trans q2 (List.Subset.refl _) (List.Subset.refl _)⟩
  · exact ⟨r1, h, rfl, i, rfl, Keep.refl _ _⟩

theorem hLazyLazyPair_spec {g : Bool} (o : Bool) (cap1 cap2 : Nat) {h : Heap} {l : List Ref} {r1 r2 : Ref}
    (i : HInv g h (r1 :: r2 :: l)) : ∃ r h', hLazyLazyPair o cap1 cap2 h r1 r2 = some (r, h') ∧
      HInv g h' (r :: l) ∧ valC h' r = chooseLazyLazy cap1 cap2 (valC h r1) (valC h r2) ∧ Keep h h' l := by
  obtain ⟨a, h1, e1, i1, v1, s1, q1⟩ := unshareC_spec i
  obtain ⟨b, h2, e2, i2, v2, s2, q2⟩ := unshareC_spec (r := r2) (l := a :: l) (i1.perm (by count_tac))
  have va : valC h2 a = valC h r1 := by rw [q2 a (by simp), v1]
  have vb : valC h2 b = valC h r2 := by rw [v2, q1 r2 (by simp)]
  have q12 : Keep h h2 l := q1.trans q2 (by sub_tac) (by sub_tac)
  simp only [hLazyLazyPair, e1, e2, Option.bind_eq_bind, Option.bind_some, i2.live (r := a) (by simp),
    i2.live (r := b) (by simp), va, vb, chooseLazyLazy]
  split
  · obtain ⟨c, h3, e3, i3, v3, q3⟩ := replaceC_spec i2 (o := o) (fun _ => s2)
      (containerLazyIor cap2 (valC h r2) (valC h r1))
    obtain ⟨h4, e4, i4, q4⟩ := freeC_spec (r := a) (l := c :: l) (i3.perm (by count_tac))
    exact ⟨c, h4, by simp [e3, e4], i4, by rw [q4 c (by simp), v3],
      q12.trans (q3.trans q4 (l := l) (by sub_tac) (by sub_tac)) (List.Subset.refl _) (List.Subset.refl _)⟩
  · obtain ⟨c, h3, e3, i3, v3, q3⟩ := replaceC_spec (r := a) (l := b :: l) (i2.perm (by count_tac)) (o := o)
      (fun _ => s1) (containerLazyIor cap1 (valC h r1) (valC h r2))
    obtain ⟨h4, e4, i4, q4⟩ := freeC_spec (r := b) (l := c :: l) (i3.perm (by count_tac))
    exact ⟨c, h4, by simp [e3, e4], i4, by rw [q4 c (by simp), v3],
      q12.trans (q3.trans q4 (l := l) (by sub_tac) (by sub_tac)) (List.Subset.refl _) (List.Subset.refl _)⟩

theorem hLazyOrLoop_spec {g : Bool} (o : Nat → Bool) (conv : Bool) : ∀ (n : Nat) (s1 s2 : List Slot) (h : Heap) (l : List Ref),
    s1.length + s2.length ≤ n → HInv g h (refs s1 ++ (refs s2 ++ l)) →
    ∃ a s1' s2' h', hLazyOrLoop o conv g g h s1 s2 = some (a, s1', s2', h') ∧
      HInv g h' (refs a ++ (refs s1' ++ (refs s2' ++ l))) ∧
      vw h' a = rbLazyOrLoop conv (vw h s1) (vw h s2) ∧ vw h' s1' = vw h s1 ∧ vw h' s2' = vw h s2 ∧ Keep h h' l := by
  intro n
  induction n with
  | zero =>
    intro s1 s2 h l hn i
    have e1 : s1 = [] := List.length_eq_zero_iff.1 (by omega)
    have e2 : s2 = [] := List.length_eq_zero_iff.1 (by omega)
    subst e1 e2
    exact ⟨[], [], [], h, by simp [hLazyOrLoop, copySlots], i, by simp [rbLazyOrLoop], rfl, rfl, Keep.refl _ _⟩
  | succ n ih =>
    intro s1 s2 h l hn i
    cases s1 with
    | nil =>
      obtain ⟨a, s2', h', e, i', w1, w2, q⟩ := copySlots_spec (s := s2) (l := l) i
      exact ⟨a, [], s2', h', by simp [hLazyOrLoop, e], i', by simp [rbLazyOrLoop, w1], rfl, w2, q⟩
    | cons p1 t1 =>
      cases s2 with
      | nil =>
        obtain ⟨a, s1', h', e, i', w1, w2, q⟩ := copySlots_spec (s := p1 :: t1) (l := l) i
        exact ⟨a, s1', [], h', by simp [hLazyOrLoop, e], i', by simp [rbLazyOrLoop, w1], w2, rfl, q⟩
      | cons p2 t2 =>
        obtain ⟨k1, r1⟩ := p1
        obtain ⟨k2, r2⟩ := p2
        simp only [List.length_cons] at hn
        rw [hLazyOrLoop]
        simp only [vw_cons]
        rw [rbLazyOrLoop]
        by_cases e : k1 = k2
        · subst e
          simp only [if_true]
          obtain ⟨rn, h1, en, i1, v1, q1⟩ := hLazyOrPair_spec (o k1) conv i (r1 := r1) (r2 := r2) (by simp) (by simp)
          obtain ⟨a, s1', s2', h', e2, i2, w2, w3, w4, q2⟩ := ih t1 t2 h1 (rn :: r1 :: r2 :: l)
            (by omega) (i1.perm (by count_tac))
          refine ⟨(k1, rn) :: a, (k1, r1) :: s1', (k1, r2) :: s2', h', by simp [en, e2],
            i2.perm (by count_tac), ?_, ?_, ?_, q1.trans q2 (by sub_tac) (by sub_tac)⟩
          · simp only [vw_cons]
            rw [w2, q2 _ (by simp), v1, Keep.vw (s := t1) (q1.mono (by sub_tac)), Keep.vw (s := t2) (q1.mono (by sub_tac))]
          · simp only [vw_cons]
            rw [w3, q2 r1 (by simp), q1 r1 (by simp), Keep.vw (s := t1) (q1.mono (by sub_tac))]
          · simp only [vw_cons]
            rw [w4, q2 r2 (by simp), q1 r2 (by simp), Keep.vw (s := t2) (q1.mono (by sub_tac))]
        · rw [if_neg e, if_neg e]
          by_cases hl : k1 < k2
          · rw [if_pos hl, if_pos hl]
            obtain ⟨x, y, h1, e1, i1, v1, v2, q1⟩ := getCopyOf_spec (r := r1)
              (l := refs t1 ++ (refs ((k2, r2) :: t2) ++ l)) (i.perm (by count_tac))
            obtain ⟨a, s1', s2', h', e2, i2, w2, w3, w4, q2⟩ := ih t1 ((k2, r2) :: t2) h1 (x :: y :: l)
              (by simp only [List.length_cons]; omega) (i1.perm (by count_tac))
            refine ⟨(k1, x) :: a, (k1, y) :: s1', s2', h', by simp [e1, e2],
              i2.perm (by count_tac), ?_, ?_, ?_, q1.trans q2 (by sub_tac) (by sub_tac)⟩
            · simp only [vw_cons]
              rw [w2, q2 x (by simp), v1, Keep.vw (s := t1) (q1.mono (by sub_tac)),
                Keep.vw (s := (k2, r2) :: t2) (q1.mono (by sub_tac))]
              rfl
            · simp only [vw_cons]
              rw [w3, q2 y (by simp), v2, Keep.vw (s := t1) (q1.mono (by sub_tac))]
            · rw [w4, Keep.vw (s := (k2, r2) :: t2) (q1.mono (by sub_tac))]
              rfl
          · rw [if_neg hl, if_neg hl]
            obtain ⟨x, y, h1, e1, i1, v1, v2, q1⟩ := getCopyOf_spec (r := r2)
              (l := refs ((k1, r1) :: t1) ++ (refs t2 ++ l)) (i.perm (by count_tac))
            obtain ⟨a, s1', s2', h', e2, i2, w2, w3, w4, q2⟩ := ih ((k1, r1) :: t1) t2 h1 (x :: y :: l)
              (by simp only [List.length_cons]; omega) (i1.perm (by count_tac))
            refine ⟨(k2, x) :: a, s1', (k2, y) :: s2', h', by simp [e1, e2],
              i2.perm (by count_tac), ?_, ?_, ?_, q1.trans q2 (by sub_tac) (by sub_tac)⟩
            · simp only [vw_cons]
              rw [w2, q2 x (by simp), v1, Keep.vw (s := t2) (q1.mono (by sub_tac)),
                Keep.vw (s := (k1, r1) :: t1) (q1.mono (by sub_tac))]
              rfl
            · rw [w3, Keep.vw (s := (k1, r1) :: t1) (q1.mono (by sub_tac))]
              rfl
            · simp only [vw_cons]
              rw [w4, q2 y (by simp), v2, Keep.vw (s := t2) (q1.mono (by sub_tac))]


theorem hLazyXorLoop_spec {g : Bool} : ∀ (n : Nat) (s1 s2 : List Slot) (h : Heap) (l : List Ref),
    s1.length + s2.length ≤ n → HInv g h (refs s1 ++ (refs s2 ++ l)) →
    ∃ a s1' s2' h', hLazyXorLoop g g h s1 s2 = some (a, s1', s2', h') ∧
      HInv g h' (refs a ++ (refs s1' ++ (refs s2' ++ l))) ∧
      vw h' a = rbLazyXorLoop (vw h s1) (vw h s2) ∧ vw h' s1' = vw h s1 ∧ vw h' s2' = vw h s2 ∧ Keep h h' l := by
  intro n
  induction n with
  | zero =>
    intro s1 s2 h l hn i
    have e1 : s1 = [] := List.length_eq_zero_iff.1 (by omega)
    have e2 : s2 = [] := List.length_eq_zero_iff.1 (by omega)
    subst e1 e2
    exact ⟨[], [], [], h, by simp [hLazyXorLoop, copySlots], i, by simp [rbLazyXorLoop], rfl, rfl, Keep.refl _ _⟩
  | succ n ih =>
    intro s1 s2 h l hn i
    cases s1 with
    | nil =>
      obtain ⟨a, s2', h', e, i', w1, w2, q⟩ := copySlots_spec (s := s2) (l := l) i
      exact ⟨a, [], s2', h', by simp [hLazyXorLoop, e], i', by simp [rbLazyXorLoop, w1], rfl, w2, q⟩
    | cons p1 t1 =>
      cases s2 with
      | nil =>
        obtain ⟨a, s1', h', e, i', w1, w2, q⟩ := copySlots_spec (s := p1 :: t1) (l := l) i
        exact ⟨a, s1', [], h', by simp [hLazyXorLoop, e], i', by simp [rbLazyXorLoop, w1], w2, rfl, q⟩
      | cons p2 t2 =>
        obtain ⟨k1, r1⟩ := p1
        obtain ⟨k2, r2⟩ := p2
        simp only [List.length_cons] at hn
        rw [hLazyXorLoop]
        simp only [vw_cons]
        rw [rbLazyXorLoop]
        by_cases e : k1 = k2
        · subst e
          simp only [if_true, i.live (r := r1) (by simp), i.live (r := r2) (by simp), Option.bind_eq_bind,
            Option.bind_some]
          generalize containerLazyXor (valC h r1) (valC h r2) = c
          obtain ⟨i1, v1, _, q1⟩ := newC_spec i c
          by_cases hz : containerNonzero c = true
          · obtain ⟨a, s1', s2', h', e2, i2, w2, w3, w4, q2⟩ := ih t1 t2 _ ((newC h c).1 :: r1 :: r2 :: l)
              (by omega) (i1.perm (by count_tac))
            refine ⟨(k1, (newC h c).1) :: a, (k1, r1) :: s1', (k1, r2) :: s2', h', by simp [hz, e2],
              i2.perm (by count_tac), ?_, ?_, ?_, q1.trans q2 (by sub_tac) (by sub_tac)⟩
            · simp only [vw_cons, hz, if_true]
              rw [w2, q2 _ (by simp), v1, Keep.vw (s := t1) (q1.mono (by sub_tac)), Keep.vw (s := t2) (q1.mono (by sub_tac))]
            · simp only [vw_cons]
              rw [w3, q2 r1 (by simp), q1 r1 (by simp), Keep.vw (s := t1) (q1.mono (by sub_tac))]
            · simp only [vw_cons]
              rw [w4, q2 r2 (by simp), q1 r2 (by simp), Keep.vw (s := t2) (q1.mono (by sub_tac))]
          · obtain ⟨h3, e3, i3, q3⟩ := freeC_spec i1
            have q13 := q1.trans q3 (List.Subset.refl _) (List.Subset.refl _)
            obtain ⟨a, s1', s2', h', e2, i2, w2, w3, w4, q2⟩ := ih t1 t2 h3 (r1 :: r2 :: l)
              (by omega) (i3.perm (by count_tac))
            refine ⟨a, (k1, r1) :: s1', (k1, r2) :: s2', h', by simp [hz, e3, e2],
              i2.perm (by count_tac), ?_, ?_, ?_, q13.trans q2 (by sub_tac) (by sub_tac)⟩
            · simp only [hz]
              rw [w2, Keep.vw (s := t1) (q13.mono (by sub_tac)), Keep.vw (s := t2) (q13.mono (by sub_tac))]
              rfl
            · simp only [vw_cons]
              rw [w3, q2 r1 (by simp), q13 r1 (by simp), Keep.vw (s := t1) (q13.mono (by sub_tac))]
            · simp only [vw_cons]
              rw [w4, q2 r2 (by simp), q13 r2 (by simp), Keep.vw (s := t2) (q13.mono (by sub_tac))]
        · rw [if_neg e, if_neg e]
          by_cases hl : k1 < k2
          · rw [if_pos hl, if_pos hl]
            obtain ⟨x, y, h1, e1, i1, v1, v2, q1⟩ := getCopyOf_spec (r := r1)
              (l := refs t1 ++ (refs ((k2, r2) :: t2) ++ l)) (i.perm (by count_tac))
            obtain ⟨a, s1', s2', h', e2, i2, w2, w3, w4, q2⟩ := ih t1 ((k2, r2) :: t2) h1 (x :: y :: l)
              (by simp only [List.length_cons]; omega) (i1.perm (by count_tac))
            refine ⟨(k1, x) :: a, (k1, y) :: s1', s2', h', by simp [e1, e2],
              i2.perm (by count_tac), ?_, ?_, ?_, q1.trans q2 (by sub_tac) (by sub_tac)⟩
            · simp only [vw_cons]
              rw [w2, q2 x (by simp), v1, Keep.vw (s := t1) (q1.mono (by sub_tac)),
                Keep.vw (s := (k2, r2) :: t2) (q1.mono (by sub_tac))]
              rfl
            · simp only [vw_cons]
              rw [w3, q2 y (by simp), v2, Keep.vw (s := t1) (q1.mono (by sub_tac))]
            · rw [w4, Keep.vw (s := (k2, r2) :: t2) (q1.mono (by sub_tac))]
              rfl
          · rw [if_neg hl, if_neg hl]
            obtain ⟨x, y, h1, e1, i1, v1, v2, q1⟩ := getCopyOf_spec (r := r2)
              (l := refs ((k1, r1) :: t1) ++ (refs t2 ++ l)) (i.perm (by count_tac))
            obtain ⟨a, s1', s2', h', e2, i2, w2, w3, w4, q2⟩ := ih ((k1, r1) :: t1) t2 h1 (x :: y :: l)
              (by simp only [List.length_cons]; omega) (i1.perm (by count_tac))
            refine ⟨(k2, x) :: a, s1', (k2, y) :: s2', h', by simp [e1, e2],
              i2.perm (by count_tac), ?_, ?_, ?_, q1.trans q2 (by sub_tac) (by sub_tac)⟩
            · simp only [vw_cons]
              rw [w2, q2 x (by simp), v1, Keep.vw (s := t2) (q1.mono (by sub_tac)),
                Keep.vw (s := (k1, r1) :: t1) (q1.mono (by sub_tac))]
              rfl
            · rw [w3, Keep.vw (s := (k1, r1) :: t1) (q1.mono (by sub_tac))]
              rfl
            · simp only [vw_cons]
              rw [w4, q2 y (by simp), v2, Keep.vw (s := t2) (q1.mono (by sub_tac))]

theorem hLazyOrInplaceLoop_spec {g : Bool} (o : Nat → Bool) (conv : Bool) (caps : Nat → Nat) :
    ∀ (n : Nat) (s1 s2 : List Slot) (h : Heap) (l : List Ref),
    s1.length + s2.length ≤ n → HInv g h (refs s1 ++ (refs s2 ++ l)) →
    ∃ a s2' h', hLazyOrInplaceLoop o conv caps g h s1 s2 = some (a, s2', h') ∧
      HInv g h' (refs a ++ (refs s2' ++ l)) ∧
      vw h' a = rbLazyOrInplaceLoop conv caps (vw h s1) (vw h s2) ∧ vw h' s2' = vw h s2 ∧ Keep h h' l := by
  intro n
  induction n with
  | zero =>
    intro s1 s2 h l hn i
    have e1 : s1 = [] := List.length_eq_zero_iff.1 (by omega)
    have e2 : s2 = [] := List.length_eq_zero_iff.1 (by omega)
    subst e1 e2
    exact ⟨[], [], h, by simp [hLazyOrInplaceLoop, copySlots], i, by simp [rbLazyOrInplaceLoop], rfl, Keep.refl _ _⟩
  | succ n ih =>
    intro s1 s2 h l hn i
    cases s1 with
    | nil =>
      obtain ⟨a, s2', h', e, i', w1, w2, q⟩ := copySlots_spec (s := s2) (l := l) i
      exact ⟨a, s2', h', by simp [hLazyOrInplaceLoop, e], i', by simp [rbLazyOrInplaceLoop, w1], w2, q⟩
    | cons p1 t1 =>
      cases s2 with
      | nil =>
        exact ⟨p1 :: t1, [], h, by simp [hLazyOrInplaceLoop], i, by simp [rbLazyOrInplaceLoop], rfl, Keep.refl _ _⟩
      | cons p2 t2 =>
        obtain ⟨k1, r1⟩ := p1
        obtain ⟨k2, r2⟩ := p2
        simp only [List.length_cons] at hn
        rw [hLazyOrInplaceLoop]
        simp only [vw_cons]
        rw [rbLazyOrInplaceLoop]
        by_cases e : k1 = k2
        · subst e
          simp only [if_true]
          obtain ⟨r', h1, e1, i1, v1, q1⟩ := hLazyIorPair_spec (o k1) conv (caps k1) (r1 := r1) (r2 := r2)
            (l := refs t1 ++ (r2 :: refs t2 ++ l)) (i.perm (by count_tac)) (by simp)
          obtain ⟨a, s2', h', e2, i2, w2, w4, q2⟩ := ih t1 t2 h1 (r' :: r2 :: l)
            (by omega) (i1.perm (by count_tac))
          refine ⟨(k1, r') :: a, (k1, r2) :: s2', h', by simp [e1, e2],
            i2.perm (by count_tac), ?_, ?_, q1.trans q2 (by sub_tac) (by sub_tac)⟩
          · simp only [vw_cons]
            rw [w2, q2 r' (by simp), v1, Keep.vw (s := t1) (q1.mono (by sub_tac)), Keep.vw (s := t2) (q1.mono (by sub_tac))]
          · simp only [vw_cons]
            rw [w4, q2 r2 (by simp), q1 r2 (by simp), Keep.vw (s := t2) (q1.mono (by sub_tac))]
        · rw [if_neg e, if_neg e]
          by_cases hl : k1 < k2
          · rw [if_pos hl, if_pos hl]
            obtain ⟨a, s2', h', e2, i2, w2, w4, q2⟩ := ih t1 ((k2, r2) :: t2) h (r1 :: l)
              (by simp only [List.length_cons]; omega) (i.perm (by count_tac))
            refine ⟨(k1, r1) :: a, s2', h', by simp [e2],
              i2.perm (by count_tac), ?_, w4, q2.mono (by sub_tac)⟩
            simp only [vw_cons]
            rw [w2, q2 r1 (by simp)]
            rfl
          · rw [if_neg hl, if_neg hl]
            obtain ⟨x, y, h1, e1, i1, v1, v2, q1⟩ := getCopyOf_spec (r := r2)
              (l := refs ((k1, r1) :: t1) ++ (refs t2 ++ l)) (i.perm (by count_tac))
            obtain ⟨a, s2', h', e2, i2, w2, w4, q2⟩ := ih ((k1, r1) :: t1) t2 h1 (x :: y :: l)
              (by simp only [List.length_cons]; omega) (i1.perm (by count_tac))
            refine ⟨(k2, x) :: a, (k2, y) :: s2', h', by simp [e1, e2],
              i2.perm (by count_tac), ?_, ?_, q1.trans q2 (by sub_tac) (by sub_tac)⟩
            · simp only [vw_cons]
              rw [w2, q2 x (by simp), v1, Keep.vw (s := t2) (q1.mono (by sub_tac)),
                Keep.vw (s := (k1, r1) :: t1) (q1.mono (by sub_tac))]
              rfl
            · simp only [vw_cons]
              rw [w4, q2 y (by simp), v2, Keep.vw (s := t2) (q1.mono (by sub_tac))]

theorem hLazyXorInplaceLoop_spec {g : Bool} (o shared : Nat → Bool) :
    ∀ (n : Nat) (s1 s2 : List Slot) (h : Heap) (l : List Ref),
    s1.length + s2.length ≤ n → HInv g h (refs s1 ++ (refs s2 ++ l)) → (∀ p ∈ s1, shared p.1 = p.2.sh) →
    ∃ a s2' h', hLazyXorInplaceLoop o g h s1 s2 = some (a, s2', h') ∧
      HInv g h' (refs a ++ (refs s2' ++ l)) ∧
      vw h' a = rbLazyXorInplaceLoop shared (vw h s1) (vw h s2) ∧ vw h' s2' = vw h s2 ∧ Keep h h' l := by
  intro n
  induction n with
  | zero =>
    intro s1 s2 h l hn i hsh
    have e1 : s1 = [] := List.length_eq_zero_iff.1 (by omega)
    have e2 : s2 = [] := List.length_eq_zero_iff.1 (by omega)
    subst e1 e2
    exact ⟨[], [], h, by simp [hLazyXorInplaceLoop, copySlots], i, by simp [rbLazyXorInplaceLoop], rfl, Keep.refl _ _⟩
  | succ n ih =>
    intro s1 s2 h l hn i hsh
    cases s1 with
    | nil =>
      obtain ⟨a, s2', h', e, i', w1, w2, q⟩ := copySlots_spec (s := s2) (l := l) i
      exact ⟨a, s2', h', by simp [hLazyXorInplaceLoop, e], i', by simp [rbLazyXorInplaceLoop, w1], w2, q⟩
    | cons p1 t1 =>
      cases s2 with
      | nil =>
        exact ⟨p1 :: t1, [], h, by simp [hLazyXorInplaceLoop], i, by simp [rbLazyXorInplaceLoop], rfl, Keep.refl _ _⟩
      | cons p2 t2 =>
        obtain ⟨k1, r1⟩ := p1
        obtain ⟨k2, r2⟩ := p2
        have hs1 : shared k1 = r1.sh := hsh (k1, r1) List.mem_cons_self
        have hst : ∀ p ∈ t1, shared p.1 = p.2.sh := fun p hp => hsh p (List.mem_cons_of_mem _ hp)
        simp only [List.length_cons] at hn
        rw [hLazyXorInplaceLoop]
        simp only [vw_cons]
        rw [rbLazyXorInplaceLoop]
        by_cases e : k1 = k2
        · subst e
          simp only [if_true, i.live (r := r1) (by simp), Option.bind_eq_bind, Option.bind_some, hs1,
            i.live (r := r2) (by simp)]
          generalize chooseLazyXor r1.sh (valC h r1) (valC h r2) = c
          obtain ⟨r', h1, e1, i1, v1, q1⟩ := replaceShared_spec (r := r1) (l := refs t1 ++ (r2 :: refs t2 ++ l))
            (i.perm (by count_tac)) (o k1) c
          simp only [e1, Option.bind_some]
          by_cases hz : containerNonzero c = true
          · obtain ⟨a, s2', h', e2, i2, w2, w4, q2⟩ := ih t1 t2 h1 (r' :: r2 :: l)
              (by omega) (i1.perm (by count_tac)) hst
            refine ⟨(k1, r') :: a, (k1, r2) :: s2', h', by simp [hz, e2],
              i2.perm (by count_tac), ?_, ?_, q1.trans q2 (by sub_tac) (by sub_tac)⟩
            · simp only [vw_cons, hz, if_true]
              rw [w2, q2 r' (by simp), v1, Keep.vw (s := t1) (q1.mono (by sub_tac)), Keep.vw (s := t2) (q1.mono (by sub_tac))]
            · simp only [vw_cons]
              rw [w4, q2 r2 (by simp), q1 r2 (by simp), Keep.vw (s := t2) (q1.mono (by sub_tac))]
          · obtain ⟨h3, e3, i3, q3⟩ := freeC_spec i1
            have q13 := q1.trans q3 (List.Subset.refl _) (List.Subset.refl _)
            obtain ⟨a, s2', h', e2, i2, w2, w4, q2⟩ := ih t1 t2 h3 (r2 :: l)
              (by omega) (i3.perm (by count_tac)) hst
            refine ⟨a, (k1, r2) :: s2', h', by simp [hz, e3, e2],
              i2.perm (by count_tac), ?_, ?_, q13.trans q2 (by sub_tac) (by sub_tac)⟩
            · simp only [hz]
              rw [w2, Keep.vw (s := t1) (q13.mono (by sub_tac)), Keep.vw (s := t2) (q13.mono (by sub_tac))]
              rfl
            · simp only [vw_cons]
              rw [w4, q2 r2 (by simp), q13 r2 (by simp), Keep.vw (s := t2) (q13.mono (by sub_tac))]
        · rw [if_neg e, if_neg e]
          by_cases hl : k1 < k2
          · rw [if_pos hl, if_pos hl]
            obtain ⟨a, s2', h', e2, i2, w2, w4, q2⟩ := ih t1 ((k2, r2) :: t2) h (r1 :: l)
              (by simp only [List.length_cons]; omega) (i.perm (by count_tac)) hst
            refine ⟨(k1, r1) :: a, s2', h', by simp [e2],
              i2.perm (by count_tac), ?_, w4, q2.mono (by sub_tac)⟩
            simp only [vw_cons]
            rw [w2, q2 r1 (by simp)]
            rfl
          · rw [if_neg hl, if_neg hl]
            obtain ⟨x, y, h1, e1, i1, v1, v2, q1⟩ := getCopyOf_spec (r := r2)
              (l := refs ((k1, r1) :: t1) ++ (refs t2 ++ l)) (i.perm (by count_tac))
            obtain ⟨a, s2', h', e2, i2, w2, w4, q2⟩ := ih ((k1, r1) :: t1) t2 h1 (x :: y :: l)
              (by simp only [List.length_cons]; omega) (i1.perm (by count_tac)) hsh
            refine ⟨(k2, x) :: a, (k2, y) :: s2', h', by simp [e1, e2],
              i2.perm (by count_tac), ?_, ?_, q1.trans q2 (by sub_tac) (by sub_tac)⟩
            · simp only [vw_cons]
              rw [w2, q2 x (by simp), v1, Keep.vw (s := t2) (q1.mono (by sub_tac)),
                Keep.vw (s := (k1, r1) :: t1) (q1.mono (by sub_tac))]
              rfl
            · simp only [vw_cons]
              rw [w4, q2 y (by simp), v2, Keep.vw (s := t2) (q1.mono (by sub_tac))]

theorem hLazyLazyLoop_spec {g : Bool} (o : Nat → Bool) (caps1 caps2 : Nat → Nat) :
    ∀ (n : Nat) (s1 s2 : List Slot) (h : Heap) (l : List Ref),
    s1.length + s2.length ≤ n → HInv g h (refs s1 ++ (refs s2 ++ l)) →
    ∃ a h', hLazyLazyLoop o caps1 caps2 h s1 s2 = some (a, h') ∧ HInv g h' (refs a ++ l) ∧
      vw h' a = rbLazyLazyLoop caps1 caps2 (vw h s1) (vw h s2) ∧ Keep h h' l := by
  intro n
  induction n with
  | zero =>
    intro s1 s2 h l hn i
    have e1 : s1 = [] := List.length_eq_zero_iff.1 (by omega)
    have e2 : s2 = [] := List.length_eq_zero_iff.1 (by omega)
    subst e1 e2
    exact ⟨[], h, by simp [hLazyLazyLoop], i, by simp [rbLazyLazyLoop], Keep.refl _ _⟩
  | succ n ih =>
    intro s1 s2 h l hn i
    cases s1 with
    | nil => exact ⟨s2, h, by simp [hLazyLazyLoop], i, by simp [rbLazyLazyLoop], Keep.refl _ _⟩
    | cons p1 t1 =>
      cases s2 with
      | nil => exact ⟨p1 :: t1, h, by simp [hLazyLazyLoop], i, by simp [rbLazyLazyLoop], Keep.refl _ _⟩
      | cons p2 t2 =>
        obtain ⟨k1, r1⟩ := p1
        obtain ⟨k2, r2⟩ := p2
        simp only [List.length_cons] at hn
        rw [hLazyLazyLoop]
        simp only [vw_cons]
        rw [rbLazyLazyLoop]
        by_cases e : k1 = k2
        · subst e
          simp only [if_true]
          obtain ⟨r', h1, e1, i1, v1, q1⟩ := hLazyLazyPair_spec (o k1) (caps1 k1) (caps2 k1) (r1 := r1) (r2 := r2)
            (l := refs t1 ++ (refs t2 ++ l)) (i.perm (by count_tac))
          obtain ⟨a, h', e2, i2, w2, q2⟩ := ih t1 t2 h1 (r' :: l) (by omega) (i1.perm (by count_tac))
          refine ⟨(k1, r') :: a, h', by simp [e1, e2], i2.perm (by count_tac), ?_,
            q1.trans q2 (by sub_tac) (by sub_tac)⟩
          simp only [vw_cons]
          rw [w2, q2 r' (by simp), v1, Keep.vw (s := t1) (q1.mono (by sub_tac)), Keep.vw (s := t2) (q1.mono (by sub_tac))]
        · rw [if_neg e, if_neg e]
          by_cases hl : k1 < k2
          · rw [if_pos hl, if_pos hl]
            obtain ⟨a, h', e2, i2, w2, q2⟩ := ih t1 ((k2, r2) :: t2) h (r1 :: l)
              (by simp only [List.length_cons]; omega) (i.perm (by count_tac))
            refine ⟨(k1, r1) :: a, h', by simp [e2], i2.perm (by count_tac), ?_, q2.mono (by sub_tac)⟩
            simp only [vw_cons]
            rw [w2, q2 r1 (by simp)]
            rfl
          · rw [if_neg hl, if_neg hl]
            obtain ⟨a, h', e2, i2, w2, q2⟩ := ih ((k1, r1) :: t1) t2 h (r2 :: l)
              (by simp only [List.length_cons]; omega) (i.perm (by count_tac))
            refine ⟨(k2, r2) :: a, h', by simp [e2], i2.perm (by count_tac), ?_, q2.mono (by sub_tac)⟩
            simp only [vw_cons]
            rw [w2, q2 r2 (by simp)]
            rfl

theorem hRepairLoop_spec {g : Bool} (o : Nat → Bool) {s : List Slot} {h : Heap} {l : List Ref}
    (i : HInv g h (refs s ++ l)) : ∃ a h', hRepairLoop o h s = some (a, h') ∧ HInv g h' (refs a ++ l) ∧
      vw h' a = rbRepair (vw h s) ∧ (∀ p ∈ a, p.2.sh = false) ∧ Keep h h' l := by
  induction s generalizing h l with
  | nil => exact ⟨[], h, rfl, i, rfl, by simp, Keep.refl _ _⟩
  | cons p t ih =>
    obtain ⟨k, r⟩ := p
    obtain ⟨r1, h1, e1, i1, v1, s1, q1⟩ := unshareC_spec (r := r) (l := refs t ++ l) (i.perm (by count_tac))
    obtain ⟨r2, h2, e2, i2, v2, q2⟩ := replaceC_spec i1 (o := o k) (fun _ => s1) (containerRepair (valC h r))
    obtain ⟨a, h', e3, i3, w3, s3, q3⟩ := ih (h := h2) (l := r2 :: l) (i2.perm (by count_tac))
    have q12 := q1.trans q2 (List.Subset.refl _) (List.Subset.refl _)
    refine ⟨(k, r2) :: a, h', by simp [hRepairLoop, e1, i1.live (r := r1) (by simp), v1, e2, e3],
      i3.perm (by count_tac), ?_, ?_, q12.trans q3 (by sub_tac) (by sub_tac)⟩
    · simp only [vw_cons]
      rw [w3, q3 r2 (by simp), v2, Keep.vw (s := t) (q12.mono (by sub_tac))]
      rfl
    · intro p hp
      rcases List.mem_cons.1 hp with rfl | hp
      · exact replaceC_sh e2 s1
      · exact s3 p hp

section
variable {g : Bool}

theorem hLazyOrLoop_self (o : Nat → Bool) (conv : Bool) {c1 c2 : Bool} (s : List Slot) : ∀ (h : Heap) (L : List Ref), HInv g h L → refs s ⊆ L →
    ∃ a h', hLazyOrLoop o conv c1 c2 h s s = some (a, s, s, h') ∧ HInv g h' (refs a ++ L) ∧
      vw h' a = rbLazyOrLoop conv (vw h s) (vw h s) ∧ Keep h h' L := by
  induction s with
  | nil =>
    intro h L i hs
    exact ⟨[], h, by simp [hLazyOrLoop, copySlots], i, by simp [rbLazyOrLoop], Keep.refl _ _⟩
  | cons p t ih =>
    intro h L i hs
    obtain ⟨k, r⟩ := p
    obtain ⟨h1, h2⟩ := refs_sub_cons hs
    obtain ⟨rn, hn, en, i1, v1, q1⟩ := hLazyOrPair_spec (o k) conv i (r1 := r) (r2 := r) h1 h1
    obtain ⟨a, h', e, i', w, q⟩ := ih _ _ i1 (fun r hr => List.mem_cons_of_mem _ (h2 hr))
    refine ⟨(k, rn) :: a, h', ?_, i'.perm (by count_tac), ?_,
      q1.trans q (List.Subset.refl _) (by sub_tac)⟩
    · rw [hLazyOrLoop]
      simp [en, e]
    · rw [vw_cons, vw_cons, rbLazyOrLoop]
      simp only [if_true, w, Keep.vw (q1.mono h2)]
      rw [q _ (by simp), v1]

theorem hLazyXorLoop_self {c1 c2 : Bool} (s : List Slot) : ∀ (h : Heap) (L : List Ref), HInv g h L → refs s ⊆ L →
    ∃ a h', hLazyXorLoop c1 c2 h s s = some (a, s, s, h') ∧ HInv g h' (refs a ++ L) ∧
      vw h' a = rbLazyXorLoop (vw h s) (vw h s) ∧ Keep h h' L := by
  induction s with
  | nil =>
    intro h L i hs
    exact ⟨[], h, by simp [hLazyXorLoop, copySlots], i, by simp [rbLazyXorLoop], Keep.refl _ _⟩
  | cons p t ih =>
    intro h L i hs
    obtain ⟨k, r⟩ := p
    obtain ⟨h1, h2⟩ := refs_sub_cons hs
    obtain ⟨i1, v1, _, q1⟩ := newC_spec i (containerLazyXor (valC h r) (valC h r))
    by_cases hz : containerNonzero (containerLazyXor (valC h r) (valC h r)) = true
    · obtain ⟨a, h', e, i', w, q⟩ := ih _ _ i1 (fun r hr => List.mem_cons_of_mem _ (h2 hr))
      refine ⟨(k, (newC h (containerLazyXor (valC h r) (valC h r))).1) :: a, h', ?_, i'.perm (by count_tac), ?_,
        q1.trans q (List.Subset.refl _) (by sub_tac)⟩
      · rw [hLazyXorLoop]
        simp [i.live (r := r) h1, e, hz]
      · rw [vw_cons, vw_cons, rbLazyXorLoop]
        simp only [if_true, w, Keep.vw (q1.mono h2), hz]
        rw [q _ (by simp), v1]
    · obtain ⟨h3, e3, i3, q3⟩ := freeC_spec i1
      obtain ⟨a, h', e, i', w, q⟩ := ih _ _ i3 h2
      have q13 := q1.trans q3 (List.Subset.refl _) (List.Subset.refl _)
      refine ⟨a, h', ?_, i'.perm (by count_tac), ?_, q13.trans q (List.Subset.refl _) (by sub_tac)⟩
      · rw [hLazyXorLoop]
        simp [i.live (r := r) h1, e, hz, e3]
      · rw [vw_cons, rbLazyXorLoop]
        simp only [if_true, w, Keep.vw (q13.mono h2), hz]
        simp

end

end CRoaring
