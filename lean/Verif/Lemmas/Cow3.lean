import Verif.Lemmas.Cow2

set_option linter.unusedSimpArgs false
set_option linter.unusedVariables false

namespace CRoaring
open Spec

theorem hXorLoop_spec {g : Bool} : ∀ (n : Nat) (s1 s2 : List Slot) (h : Heap) (l : List Ref),
    s1.length + s2.length ≤ n → HInv g h (refs s1 ++ (refs s2 ++ l)) →
    ∃ a s1' s2' h', hXorLoop g g h s1 s2 = some (a, s1', s2', h') ∧
      HInv g h' (refs a ++ (refs s1' ++ (refs s2' ++ l))) ∧
      vw h' a = rbXorLoop (vw h s1) (vw h s2) ∧ vw h' s1' = vw h s1 ∧ vw h' s2' = vw h s2 ∧ Keep h h' l := by
  intro n
  induction n with
  | zero =>
    intro s1 s2 h l hn i
    have e1 : s1 = [] := List.length_eq_zero_iff.1 (by omega)
    have e2 : s2 = [] := List.length_eq_zero_iff.1 (by omega)
    subst e1 e2
    exact ⟨[], [], [], h, by simp [hXorLoop, copySlots], i, by simp [rbXorLoop], rfl, rfl, Keep.refl _ _⟩
  | succ n ih =>
    intro s1 s2 h l hn i
    cases s1 with
    | nil =>
      obtain ⟨a, s2', h', e, i', w1, w2, q⟩ := copySlots_spec (s := s2) (l := l) i
      exact ⟨a, [], s2', h', by simp [hXorLoop, e], i', by simp [rbXorLoop, w1], rfl, w2, q⟩
    | cons p1 t1 =>
      cases s2 with
      | nil =>
        obtain ⟨a, s1', h', e, i', w1, w2, q⟩ := copySlots_spec (s := p1 :: t1) (l := l) i
        exact ⟨a, s1', [], h', by simp [hXorLoop, e], i', by simp [rbXorLoop, w1], w2, rfl, q⟩
      | cons p2 t2 =>
        obtain ⟨k1, r1⟩ := p1
        obtain ⟨k2, r2⟩ := p2
        simp only [List.length_cons] at hn
        rw [hXorLoop]
        simp only [vw_cons]
        rw [rbXorLoop]
        by_cases e : k1 = k2
        · subst e
          simp only [if_true, i.live (r := r1) (by simp), i.live (r := r2) (by simp), Option.bind_eq_bind,
            Option.bind_some]
          generalize containerXor (valC h r1) (valC h r2) = c
          obtain ⟨i1, v1, _, q1⟩ := newC_spec i c
          by_cases hz : containerNonzero c = true
          · obtain ⟨a, s1', s2', h', e2, i2, w2, w3, w4, q2⟩ := ih t1 t2 _ ((newC h c).1 :: r1 :: r2 :: l)
              (by omega) (i1.perm (by count_tac))
            refine ⟨(k1, (newC h c).1) :: a, (k1, r1) :: s1', (k1, r2) :: s2', h', by simp [hz, e2],
              i2.perm (by count_tac), ?_, ?_, ?_, q1.trans q2 (by sub_tac) (by sub_tac)⟩
            · simp only [vw_cons, hz, if_true]
              rw [w2, q2 _ (by simp), v1, Keep.vw (s := t1) (q1.mono (by sub_tac)), Keep.vw (s := t2) (q1.mono (by sub_tac))]
            · simp only [vw_cons]
              rw [w3, q2 r1 (by simp), q1 r1 (by simp), Keep.vw (s := t1) (q1.mono (by sub_tac))]
            · simp only [vw_cons]
              rw [w4, q2 r2 (by simp), q1 r2 (by simp), Keep.vw (s := t2) (q1.mono (by sub_tac))]
          · obtain ⟨h3, e3, i3, q3⟩ := freeC_spec i1
            have q13 := q1.trans q3 (List.Subset.refl _) (List.Subset.refl _)
            obtain ⟨a, s1', s2', h', e2, i2, w2, w3, w4, q2⟩ := ih t1 t2 h3 (r1 :: r2 :: l)
              (by omega) (i3.perm (by count_tac))
            refine ⟨a, (k1, r1) :: s1', (k1, r2) :: s2', h', by simp [hz, e3, e2],
              i2.perm (by count_tac), ?_, ?_, ?_, q13.trans q2 (by sub_tac) (by sub_tac)⟩
            · simp only [hz]
              rw [w2, Keep.vw (s := t1) (q13.mono (by sub_tac)), Keep.vw (s := t2) (q13.mono (by sub_tac))]
              rfl
            · simp only [vw_cons]
              rw [w3, q2 r1 (by simp), q13 r1 (by simp), Keep.vw (s := t1) (q13.mono (by sub_tac))]
            · simp only [vw_cons]
              rw [w4, q2 r2 (by simp), q13 r2 (by simp), Keep.vw (s := t2) (q13.mono (by sub_tac))]
        · rw [if_neg e, if_neg e]
          by_cases hl : k1 < k2
          · rw [if_pos hl, if_pos hl]
            obtain ⟨x, y, h1, e1, i1, v1, v2, q1⟩ := getCopyOf_spec (r := r1)
              (l := refs t1 ++ (refs ((k2, r2) :: t2) ++ l)) (i.perm (by count_tac))
            obtain ⟨a, s1', s2', h', e2, i2, w2, w3, w4, q2⟩ := ih t1 ((k2, r2) :: t2) h1 (x :: y :: l)
              (by simp only [List.length_cons]; omega) (i1.perm (by count_tac))
            refine ⟨(k1, x) :: a, (k1, y) :: s1', s2', h', by simp [e1, e2],
              i2.perm (by count_tac), ?_, ?_, ?_, q1.trans q2 (by sub_tac) (by sub_tac)⟩
            · simp only [vw_cons]
              rw [w2, q2 x (by simp), v1, Keep.vw (s := t1) (q1.mono (by sub_tac)),
                Keep.vw (s := (k2, r2) :: t2) (q1.mono (by sub_tac))]
              rfl
            · simp only [vw_cons]
              rw [w3, q2 y (by simp), v2, Keep.vw (s := t1) (q1.mono (by sub_tac))]
            · rw [w4, Keep.vw (s := (k2, r2) :: t2) (q1.mono (by sub_tac))]
              rfl
          · rw [if_neg hl, if_neg hl]
            obtain ⟨x, y, h1, e1, i1, v1, v2, q1⟩ := getCopyOf_spec (r := r2)
              (l := refs ((k1, r1) :: t1) ++ (refs t2 ++ l)) (i.perm (by count_tac))
            obtain ⟨a, s1', s2', h', e2, i2, w2, w3, w4, q2⟩ := ih ((k1, r1) :: t1) t2 h1 (x :: y :: l)
              (by simp only [List.length_cons]; omega) (i1.perm (by count_tac))
            refine ⟨(k2, x) :: a, s1', (k2, y) :: s2', h', by simp [e1, e2],
              i2.perm (by count_tac), ?_, ?_, ?_, q1.trans q2 (by sub_tac) (by sub_tac)⟩
            · simp only [vw_cons]
              rw [w2, q2 x (by simp), v1, Keep.vw (s := t2) (q1.mono (by sub_tac)),
                Keep.vw (s := (k1, r1) :: t1) (q1.mono (by sub_tac))]
              rfl
            · rw [w3, Keep.vw (s := (k1, r1) :: t1) (q1.mono (by sub_tac))]
              rfl
            · simp only [vw_cons]
              rw [w4, q2 y (by simp), v2, Keep.vw (s := t2) (q1.mono (by sub_tac))]

theorem hAndnotLoop_spec {g : Bool} : ∀ (n : Nat) (s1 s2 : List Slot) (h : Heap) (L : List Ref),
    s1.length + s2.length ≤ n → HInv g h (refs s1 ++ L) → refs s2 ⊆ L →
    ∃ a s1' h', hAndnotLoop g h s1 s2 = some (a, s1', h') ∧ HInv g h' (refs a ++ (refs s1' ++ L)) ∧
      vw h' a = rbAndnotLoop (vw h s1) (vw h s2) ∧ vw h' s1' = vw h s1 ∧ Keep h h' L := by
  intro n
  induction n with
  | zero =>
    intro s1 s2 h L hn i b2
    have e1 : s1 = [] := List.length_eq_zero_iff.1 (by omega)
    subst e1
    exact ⟨[], [], h, by rw [hAndnotLoop], i, by simp [rbAndnotLoop], rfl, Keep.refl _ _⟩
  | succ n ih =>
    intro s1 s2 h L hn i b2
    cases s1 with
    | nil => exact ⟨[], [], h, by rw [hAndnotLoop], i, by simp [rbAndnotLoop], rfl, Keep.refl _ _⟩
    | cons p1 t1 =>
      cases s2 with
      | nil =>
        obtain ⟨a, s1', h', e, i', w1, w2, q⟩ := copySlots_spec (s := p1 :: t1) (l := L) i
        exact ⟨a, s1', h', by simp [hAndnotLoop, e], i', by simp [rbAndnotLoop, w1], w2, q⟩
      | cons p2 t2 =>
        obtain ⟨k1, r1⟩ := p1
        obtain ⟨k2, r2⟩ := p2
        have c2 := refs_sub_cons b2
        simp only [List.length_cons] at hn
        rw [hAndnotLoop]
        simp only [vw_cons]
        rw [rbAndnotLoop]
        by_cases e : k1 = k2
        · subst e
          simp only [if_true, i.live (r := r1) (by simp), i.live (r := r2) (by simp [c2.1]), Option.bind_eq_bind,
            Option.bind_some]
          generalize containerAndnot (valC h r1) (valC h r2) = c
          obtain ⟨i1, v1, _, q1⟩ := newC_spec i c
          have qt : Keep h (newC h c).2 (refs t2) :=
            q1.mono (fun x hx => List.mem_append_right _ (c2.2 hx))
          by_cases hz : containerNonzero c = true
          · obtain ⟨a, s1', h', e2, i2, w2, w3, q2⟩ := ih t1 t2 _ ((newC h c).1 :: r1 :: L) (by omega)
              (i1.perm (by count_tac)) (fun x hx => by simp [c2.2 hx])
            refine ⟨(k1, (newC h c).1) :: a, (k1, r1) :: s1', h', by simp [hz, e2], i2.perm (by count_tac), ?_, ?_,
              q1.trans q2 (by sub_tac) (by sub_tac)⟩
            · simp only [vw_cons, hz, if_true]
              rw [w2, q2 _ List.mem_cons_self, v1, Keep.vw (s := t1) (q1.mono (by sub_tac)), Keep.vw qt]
            · simp only [vw_cons]
              rw [w3, q2 r1 (by simp), q1 r1 (by simp), Keep.vw (s := t1) (q1.mono (by sub_tac))]
          · obtain ⟨h3, e3, i3, q3⟩ := freeC_spec i1
            have q13 := q1.trans q3 (List.Subset.refl _) (List.Subset.refl _)
            have qt3 : Keep h h3 (refs t2) :=
              q13.mono (fun x hx => List.mem_append_right _ (c2.2 hx))
            obtain ⟨a, s1', h', e2, i2, w2, w3, q2⟩ := ih t1 t2 h3 (r1 :: L) (by omega) (i3.perm (by count_tac))
              (fun x hx => by simp [c2.2 hx])
            refine ⟨a, (k1, r1) :: s1', h', by simp [hz, e3, e2], i2.perm (by count_tac), ?_, ?_,
              q13.trans q2 (by sub_tac) (by sub_tac)⟩
            · simp only [hz]
              rw [w2, Keep.vw (s := t1) (q13.mono (by sub_tac)), Keep.vw qt3]
              rfl
            · simp only [vw_cons]
              rw [w3, q2 r1 (by simp), q13 r1 (by simp), Keep.vw (s := t1) (q13.mono (by sub_tac))]
        · rw [if_neg e, if_neg e]
          by_cases hl : k1 < k2
          · rw [if_pos hl, if_pos hl]
            have em := max_adv (x := k2) h (s := (k1, r1) :: t1) (by simp)
            have hlen := hAdv_length (s := (k1, r1) :: t1) k2 (by simp)
            simp only [hAdv] at hlen
            simp only [em] at hlen ⊢
            simp only [vw_cons] at hlen ⊢
            generalize hm : raAdvanceFrom ((k1, valC h r1) :: vw h t1) k2 1 = m at hlen ⊢
            have er : refs ((k1, r1) :: t1) =
                refs (((k1, r1) :: t1).take m) ++ refs (((k1, r1) :: t1).drop m) := by
              rw [← refs_append, List.take_append_drop]
            have ev : vw h ((k1, r1) :: t1) = vw h (((k1, r1) :: t1).take m) ++ vw h (((k1, r1) :: t1).drop m) := by
              rw [← vw_append, List.take_append_drop]
            have evt := vw_take h ((k1, r1) :: t1) m
            have evd := vw_drop h ((k1, r1) :: t1) m
            rw [er] at i
            rw [vw_cons] at ev evt evd
            simp only at evt evd ev
            generalize ((k1, r1) :: t1).take m = A at *
            generalize ((k1, r1) :: t1).drop m = B at *
            obtain ⟨a, s1', h1, e1, i1, w1, w2, q1⟩ := copySlots_spec (s := A) (l := refs B ++ L)
              (i.perm (by count_tac))
            obtain ⟨b, t1', h', e2, i2, w3, w4, q2⟩ := ih B ((k2, r2) :: t2) h1 (refs a ++ (refs s1' ++ L))
              (by simp only [List.length_cons] at hlen ⊢; omega) (i1.perm (by count_tac))
              (fun x hx => by simp only [List.mem_append]; exact Or.inr (Or.inr (b2 hx)))
            have qb : Keep h h1 (refs ((k2, r2) :: t2)) :=
              q1.mono (fun x hx => List.mem_append_right _ (b2 hx))
            refine ⟨a ++ b, s1' ++ t1', h', by simp [e1, e2], i2.perm (by count_tac), ?_, ?_,
              q1.trans q2 (by sub_tac) (by sub_tac)⟩
            · rw [vw_append, w3, Keep.vw (s := a) (q2.mono (by sub_tac)), w1,
                Keep.vw (s := B) (q1.mono (by sub_tac)), Keep.vw qb, evt, evd]
              rw [raAdvance, hm]
              rfl
            · rw [vw_append, w4, Keep.vw (s := s1') (q2.mono (by sub_tac)), w2,
                Keep.vw (s := B) (q1.mono (by sub_tac)), ← ev]
          · rw [if_neg hl, if_neg hl]
            obtain ⟨a, s1', h', e2, i2, w2, w3, q2⟩ := ih ((k1, r1) :: t1) (hAdv ((k2, r2) :: t2) k1) h L
              (by have := hAdv_length (s := (k2, r2) :: t2) k1 (by simp)
                  simp only [List.length_cons] at this ⊢; omega) i
              (fun x hx => b2 (hAdv_subset _ _ hx))
            refine ⟨a, s1', h', e2, i2, ?_, w3, q2⟩
            rw [w2, vw_hAdv h (by simp)]
            rfl

theorem hAdvanceFreeing_spec {g : Bool} (x : Nat) {s : List Slot} {h : Heap} {l : List Ref}
    (i : HInv g h (refs s ++ l)) : ∃ s' h', hAdvanceFreeing x h s = some (s', h') ∧ HInv g h' (refs s' ++ l) ∧
      vw h' s' = raAdvanceFreeing x (vw h s) ∧ Keep h h' l ∧ s' ⊆ s := by
  induction s generalizing h with
  | nil => exact ⟨[], h, rfl, i, rfl, Keep.refl _ _, List.Subset.refl _⟩
  | cons p t ih =>
    obtain ⟨k, r⟩ := p
    simp only [hAdvanceFreeing, vw_cons, raAdvanceFreeing]
    by_cases hk : k < x
    · rw [if_pos hk, if_pos hk]
      obtain ⟨h1, e1, i1, q1⟩ := freeC_spec (r := r) (l := refs t ++ l) (i.perm (by count_tac))
      obtain ⟨s', h', e2, i2, w2, q2, sb⟩ := ih i1
      refine ⟨s', h', by simp [e1, e2], i2, ?_, q1.trans q2 (by sub_tac) (by sub_tac),
        List.subset_cons_of_subset _ sb⟩
      rw [w2, Keep.vw (q1.mono (by sub_tac))]
    · rw [if_neg hk, if_neg hk]
      exact ⟨_, h, rfl, i, rfl, Keep.refl _ _, List.Subset.refl _⟩

theorem hAndInplaceLoop_spec {g : Bool} (o shared : Nat → Bool) : ∀ (n : Nat) (s1 s2 : List Slot) (h : Heap)
    (L : List Ref), s1.length + s2.length ≤ n → HInv g h (refs s1 ++ L) → refs s2 ⊆ L →
    (∀ p ∈ s1, shared p.1 = p.2.sh) →
    ∃ a h', hAndInplaceLoop o h s1 s2 = some (a, h') ∧ HInv g h' (refs a ++ L) ∧
      vw h' a = rbAndInplaceLoop shared (vw h s1) (vw h s2) ∧ Keep h h' L := by
  intro n
  induction n with
  | zero =>
    intro s1 s2 h L hn i b2 hsh
    have e1 : s1 = [] := List.length_eq_zero_iff.1 (by omega)
    subst e1
    exact ⟨[], h, by rw [hAndInplaceLoop], i, by simp [rbAndInplaceLoop], Keep.refl _ _⟩
  | succ n ih =>
    intro s1 s2 h L hn i b2 hsh
    cases s1 with
    | nil => exact ⟨[], h, by rw [hAndInplaceLoop], i, by simp [rbAndInplaceLoop], Keep.refl _ _⟩
    | cons p1 t1 =>
      cases s2 with
      | nil =>
        obtain ⟨h', e, i', q⟩ := freeSlots_spec (s := p1 :: t1) (l := L) i
        exact ⟨[], h', by simp [hAndInplaceLoop, e], i', by simp [rbAndInplaceLoop], q⟩
      | cons p2 t2 =>
        obtain ⟨k1, r1⟩ := p1
        obtain ⟨k2, r2⟩ := p2
        have c2 := refs_sub_cons b2
        have hs1 : shared k1 = r1.sh := hsh (k1, r1) List.mem_cons_self
        have hst : ∀ p ∈ t1, shared p.1 = p.2.sh := fun p hp => hsh p (List.mem_cons_of_mem _ hp)
        simp only [List.length_cons] at hn
        rw [hAndInplaceLoop]
        simp only [vw_cons]
        rw [rbAndInplaceLoop]
        by_cases e : k1 = k2
        · subst e
          simp only [if_true, i.live (r := r1) (by simp), i.live (r := r2) (by simp [c2.1]), Option.bind_eq_bind,
            Option.bind_some, hs1]
          generalize chooseAnd r1.sh (valC h r1) (valC h r2) = c
          obtain ⟨r', h1, e1, i1, v1, q1⟩ := replaceShared_spec (r := r1) (l := refs t1 ++ L)
            (i.perm (by count_tac)) (o k1) c
          have qt : Keep h h1 (refs t2) := q1.mono (fun x hx => List.mem_append_right _ (c2.2 hx))
          simp only [e1, Option.bind_some]
          by_cases hz : containerNonzero c = true
          · obtain ⟨a, h', e2, i2, w2, q2⟩ := ih t1 t2 h1 (r' :: L) (by omega)
              (i1.perm (by count_tac)) (fun x hx => by simp [c2.2 hx]) hst
            refine ⟨(k1, r') :: a, h', by simp [hz, e2], i2.perm (by count_tac), ?_,
              q1.trans q2 (by sub_tac) (by sub_tac)⟩
            simp only [vw_cons, hz, if_true]
            rw [w2, q2 _ List.mem_cons_self, v1, Keep.vw (s := t1) (q1.mono (by sub_tac)), Keep.vw qt]
          · obtain ⟨h3, e3, i3, q3⟩ := freeC_spec i1
            have q13 := q1.trans q3 (List.Subset.refl _) (List.Subset.refl _)
            have qt3 : Keep h h3 (refs t2) := q13.mono (fun x hx => List.mem_append_right _ (c2.2 hx))
            obtain ⟨a, h', e2, i2, w2, q2⟩ := ih t1 t2 h3 L (by omega) i3 c2.2 hst
            refine ⟨a, h', by simp [hz, e3, e2], i2, ?_, q13.trans q2 (by sub_tac) (by sub_tac)⟩
            simp only [hz]
            rw [w2, Keep.vw (s := t1) (q13.mono (by sub_tac)), Keep.vw qt3]
            rfl
        · rw [if_neg e, if_neg e]
          by_cases hl : k1 < k2
          · rw [if_pos hl, if_pos hl]
            obtain ⟨h1, e1, i1, q1⟩ := freeC_spec (r := r1) (l := refs t1 ++ L) (i.perm (by count_tac))
            obtain ⟨t', h3, e3, i3, w3, q3, sb⟩ := hAdvanceFreeing_spec k2 i1
            have hlt := hAdvanceFreeing_length e3
            obtain ⟨a, h', e2, i2, w2, q2⟩ := ih t' ((k2, r2) :: t2) h3 L
              (by simp only [List.length_cons]; omega) i3 b2 (fun p hp => hst p (sb hp))
            have q13 : Keep h h3 L := q1.trans q3 (by sub_tac) (by sub_tac)
            refine ⟨a, h', ?_, i2, ?_, q13.trans q2 (List.Subset.refl _) (List.Subset.refl _)⟩
            · simp only [e1, Option.bind_eq_bind, Option.bind_some]
              split
              · rename_i x y hxy
                rw [e3] at hxy
                simp only [Option.some.injEq, Prod.mk.injEq] at hxy
                rw [← hxy.1, ← hxy.2]; exact e2
              · rename_i hxy; rw [e3] at hxy; cases hxy
            · rw [w2, w3, Keep.vw (s := (k2, r2) :: t2) (q13.mono b2), Keep.vw (s := t1) (q1.mono (by sub_tac))]
              rfl
          · rw [if_neg hl, if_neg hl]
            obtain ⟨a, h', e2, i2, w2, q2⟩ := ih ((k1, r1) :: t1) (hAdv ((k2, r2) :: t2) k1) h L
              (by have := hAdv_length (s := (k2, r2) :: t2) k1 (by simp)
                  simp only [List.length_cons] at this ⊢; omega) i
              (fun x hx => b2 (hAdv_subset _ _ hx)) hsh
            refine ⟨a, h', e2, i2, ?_, q2⟩
            rw [w2, vw_hAdv h (by simp)]
            rfl

end CRoaring
