import Verif.Lemmas.Cow

set_option linter.unusedSimpArgs false
set_option linter.unusedVariables false

/-! The set operations of the copy-on-write model compute the values of `Verif/Model/Bitmap.lean` and keep the
heap invariant. -/

namespace CRoaring
open Spec

theorem keysOf_skel (h : Heap) (s : List Slot) : keysOf (skel s) = keysOf (vw h s) := by
  simp [keysOf, skel, vw]

theorem vw_length (h : Heap) (s : List Slot) : (vw h s).length = s.length := by simp [vw]

theorem skel_length (s : List Slot) : (skel s).length = s.length := by simp [skel]

theorem raGetIndex_skel (h : Heap) (s : List Slot) (k : Nat) : raGetIndex (skel s) k = raGetIndex (vw h s) k := by
  simp only [raGetIndex, keysOf_skel h, vw_length, skel_length]

theorem raAdvanceFrom_skel (h : Heap) (s : List Slot) (k l : Nat) :
    raAdvanceFrom (skel s) k l = raAdvanceFrom (vw h s) k l := by
  simp only [raAdvanceFrom, keysOf_skel h, vw_length, skel_length]

theorem raAdvanceFrom_pos {r : Bitmap} {x : Nat} (h : r ≠ []) : 1 ≤ raAdvanceFrom r x 1 := by
  have := raAdvance_length_lt r x h
  simp only [raAdvance, List.length_drop] at this
  omega

theorem vw_drop (h : Heap) (s : List Slot) (n : Nat) : vw h (s.drop n) = (vw h s).drop n := by
  simp [vw, List.map_drop]

theorem vw_take (h : Heap) (s : List Slot) (n : Nat) : vw h (s.take n) = (vw h s).take n := by
  simp [vw, List.map_take]

theorem refs_drop_subset (s : List Slot) (n : Nat) : refs (s.drop n) ⊆ refs s := by
  intro r hr
  obtain ⟨p, hp, e⟩ := List.mem_map.1 hr
  exact List.mem_map.2 ⟨p, List.mem_of_mem_drop hp, e⟩

/-- The suffix reached by the galloping search. -/
def hAdv (s : List Slot) (x : Nat) : List Slot := s.drop (max 1 (raAdvanceFrom (skel s) x 1))

theorem max_adv {s : List Slot} {x : Nat} (h : Heap) (hs : s ≠ []) :
    max 1 (raAdvanceFrom (skel s) x 1) = raAdvanceFrom (vw h s) x 1 := by
  rw [raAdvanceFrom_skel h]
  have : 1 ≤ raAdvanceFrom (vw h s) x 1 := raAdvanceFrom_pos (by intro e; apply hs; simpa [vw] using e)
  omega

theorem vw_hAdv (h : Heap) {s : List Slot} {x : Nat} (hs : s ≠ []) : vw h (hAdv s x) = raAdvance (vw h s) x := by
  rw [hAdv, max_adv h hs, vw_drop, raAdvance]

theorem hAdv_length {s : List Slot} (x : Nat) (hs : s ≠ []) : (hAdv s x).length < s.length := by
  have := List.length_pos_iff.2 hs
  simp only [hAdv, List.length_drop]
  omega

theorem hAdv_subset (s : List Slot) (x : Nat) : refs (hAdv s x) ⊆ refs s := refs_drop_subset _ _

theorem refs_sub_cons {p : Slot} {t : List Slot} {L : List Ref} (h : refs (p :: t) ⊆ L) : p.2 ∈ L ∧ refs t ⊆ L := by
  simpa using h

theorem hAndLoop_spec {g : Bool} : ∀ (n : Nat) (s1 s2 : List Slot) (h : Heap) (L : List Ref),
    s1.length + s2.length ≤ n → HInv g h L → refs s1 ⊆ L → refs s2 ⊆ L →
    ∃ a h', hAndLoop h s1 s2 = some (a, h') ∧ HInv g h' (refs a ++ L) ∧
      vw h' a = rbAnd (vw h s1) (vw h s2) ∧ Keep h h' L := by
  intro n
  induction n with
  | zero =>
    intro s1 s2 h L hn i b1 b2
    have e1 : s1 = [] := List.length_eq_zero_iff.1 (by omega)
    subst e1
    refine ⟨[], h, by rw [hAndLoop], i, by simp [rbAnd], Keep.refl _ _⟩
  | succ n ih =>
    intro s1 s2 h L hn i b1 b2
    cases s1 with
    | nil => exact ⟨[], h, by rw [hAndLoop], i, by simp [rbAnd], Keep.refl _ _⟩
    | cons p1 t1 =>
      cases s2 with
      | nil => exact ⟨[], h, by simp [hAndLoop], i, by simp [rbAnd], Keep.refl _ _⟩
      | cons p2 t2 =>
        obtain ⟨k1, r1⟩ := p1
        obtain ⟨k2, r2⟩ := p2
        have c1 := refs_sub_cons b1
        have c2 := refs_sub_cons b2
        simp only [List.length_cons] at hn
        rw [hAndLoop]
        simp only [vw_cons]
        rw [rbAnd]
        by_cases e : k1 = k2
        · subst e
          simp only [if_true, i.live c1.1, i.live c2.1, Option.bind_eq_bind, Option.bind_some]
          generalize containerAnd (valC h r1) (valC h r2) = c
          obtain ⟨i1, v1, _, q1⟩ := newC_spec i c
          by_cases hz : containerNonzero c = true
          · obtain ⟨a, h', e2, i2, w2, q2⟩ := ih t1 t2 _ _ (by omega) i1
              (List.subset_cons_of_subset _ c1.2) (List.subset_cons_of_subset _ c2.2)
            refine ⟨(k1, (newC h c).1) :: a, h', by simp [hz, e2], i2.perm (by count_tac), ?_,
              q1.trans q2 (by sub_tac) (by sub_tac)⟩
            simp only [vw_cons, hz, if_true]
            rw [w2, q2 _ List.mem_cons_self, v1, Keep.vw (q1.mono c1.2), Keep.vw (q1.mono c2.2)]
          · obtain ⟨h3, e3, i3, q3⟩ := freeC_spec i1
            obtain ⟨a, h', e2, i2, w2, q2⟩ := ih t1 t2 h3 L (by omega) i3 c1.2 c2.2
            have q13 := q1.trans q3 (List.Subset.refl _) (List.Subset.refl _)
            refine ⟨a, h', by simp [hz, e3, e2], i2, ?_, q13.trans q2 (List.Subset.refl _) (List.Subset.refl _)⟩
            simp only [hz]
            rw [w2, Keep.vw (q13.mono c1.2), Keep.vw (q13.mono c2.2)]
            rfl
        · rw [if_neg e, if_neg e]
          by_cases hl : k1 < k2
          · rw [if_pos hl, if_pos hl]
            obtain ⟨a, h', e2, i2, w2, q2⟩ := ih (hAdv ((k1, r1) :: t1) k2) ((k2, r2) :: t2) h L
              (by have := hAdv_length (s := (k1, r1) :: t1) k2 (by simp)
                  simp only [List.length_cons] at this ⊢; omega) i
              (fun x hx => b1 (hAdv_subset _ _ hx)) b2
            refine ⟨a, h', e2, i2, ?_, q2⟩
            rw [w2, vw_hAdv h (by simp)]
            rfl
          · rw [if_neg hl, if_neg hl]
            obtain ⟨a, h', e2, i2, w2, q2⟩ := ih ((k1, r1) :: t1) (hAdv ((k2, r2) :: t2) k1) h L
              (by have := hAdv_length (s := (k2, r2) :: t2) k1 (by simp)
                  simp only [List.length_cons] at this ⊢; omega) i b1
              (fun x hx => b2 (hAdv_subset _ _ hx))
            refine ⟨a, h', e2, i2, ?_, q2⟩
            rw [w2, vw_hAdv h (by simp)]
            rfl

theorem hOrLoop_spec {g : Bool} : ∀ (n : Nat) (s1 s2 : List Slot) (h : Heap) (l : List Ref),
    s1.length + s2.length ≤ n → HInv g h (refs s1 ++ (refs s2 ++ l)) →
    ∃ a s1' s2' h', hOrLoop g g h s1 s2 = some (a, s1', s2', h') ∧
      HInv g h' (refs a ++ (refs s1' ++ (refs s2' ++ l))) ∧
      vw h' a = rbOrLoop (vw h s1) (vw h s2) ∧ vw h' s1' = vw h s1 ∧ vw h' s2' = vw h s2 ∧ Keep h h' l := by
  intro n
  induction n with
  | zero =>
    intro s1 s2 h l hn i
    have e1 : s1 = [] := List.length_eq_zero_iff.1 (by omega)
    have e2 : s2 = [] := List.length_eq_zero_iff.1 (by omega)
    subst e1 e2
    exact ⟨[], [], [], h, by simp [hOrLoop, copySlots], i, by simp [rbOrLoop], rfl, rfl, Keep.refl _ _⟩
  | succ n ih =>
    intro s1 s2 h l hn i
    cases s1 with
    | nil =>
      obtain ⟨a, s2', h', e, i', w1, w2, q⟩ := copySlots_spec (s := s2) (l := l) i
      exact ⟨a, [], s2', h', by simp [hOrLoop, e], i', by simp [rbOrLoop, w1], rfl, w2, q⟩
    | cons p1 t1 =>
      cases s2 with
      | nil =>
        obtain ⟨a, s1', h', e, i', w1, w2, q⟩ := copySlots_spec (s := p1 :: t1) (l := l) i
        exact ⟨a, s1', [], h', by simp [hOrLoop, e], i', by simp [rbOrLoop, w1], w2, rfl, q⟩
      | cons p2 t2 =>
        obtain ⟨k1, r1⟩ := p1
        obtain ⟨k2, r2⟩ := p2
        simp only [List.length_cons] at hn
        rw [hOrLoop]
        simp only [vw_cons]
        rw [rbOrLoop]
        by_cases e : k1 = k2
        · subst e
          simp only [if_true, i.live (r := r1) (by simp), i.live (r := r2) (by simp), Option.bind_eq_bind,
            Option.bind_some]
          generalize containerOr (valC h r1) (valC h r2) = c
          obtain ⟨i1, v1, _, q1⟩ := newC_spec i c
          obtain ⟨a, s1', s2', h', e2, i2, w2, w3, w4, q2⟩ := ih t1 t2 _ ((newC h c).1 :: r1 :: r2 :: l)
            (by omega) (i1.perm (by count_tac))
          refine ⟨(k1, (newC h c).1) :: a, (k1, r1) :: s1', (k1, r2) :: s2', h', by simp [e2],
            i2.perm (by count_tac), ?_, ?_, ?_, q1.trans q2 (by sub_tac) (by sub_tac)⟩
          · simp only [vw_cons]
            rw [w2, q2 _ (by simp), v1, Keep.vw (s := t1) (q1.mono (by sub_tac)), Keep.vw (s := t2) (q1.mono (by sub_tac))]
          · simp only [vw_cons]
            rw [w3, q2 r1 (by simp), q1 r1 (by simp), Keep.vw (s := t1) (q1.mono (by sub_tac))]
          · simp only [vw_cons]
            rw [w4, q2 r2 (by simp), q1 r2 (by simp), Keep.vw (s := t2) (q1.mono (by sub_tac))]
        · rw [if_neg e, if_neg e]
          by_cases hl : k1 < k2
          · rw [if_pos hl, if_pos hl]
            obtain ⟨x, y, h1, e1, i1, v1, v2, q1⟩ := getCopyOf_spec (r := r1)
              (l := refs t1 ++ (refs ((k2, r2) :: t2) ++ l)) (i.perm (by count_tac))
            obtain ⟨a, s1', s2', h', e2, i2, w2, w3, w4, q2⟩ := ih t1 ((k2, r2) :: t2) h1 (x :: y :: l)
              (by simp only [List.length_cons]; omega) (i1.perm (by count_tac))
            refine ⟨(k1, x) :: a, (k1, y) :: s1', s2', h', by simp [e1, e2],
              i2.perm (by count_tac), ?_, ?_, ?_, q1.trans q2 (by sub_tac) (by sub_tac)⟩
            · simp only [vw_cons]
              rw [w2, q2 x (by simp), v1, Keep.vw (s := t1) (q1.mono (by sub_tac)),
                Keep.vw (s := (k2, r2) :: t2) (q1.mono (by sub_tac))]
              rfl
            · simp only [vw_cons]
              rw [w3, q2 y (by simp), v2, Keep.vw (s := t1) (q1.mono (by sub_tac))]
            · rw [w4, Keep.vw (s := (k2, r2) :: t2) (q1.mono (by sub_tac))]
              rfl
          · rw [if_neg hl, if_neg hl]
            obtain ⟨x, y, h1, e1, i1, v1, v2, q1⟩ := getCopyOf_spec (r := r2)
              (l := refs ((k1, r1) :: t1) ++ (refs t2 ++ l)) (i.perm (by count_tac))
            obtain ⟨a, s1', s2', h', e2, i2, w2, w3, w4, q2⟩ := ih ((k1, r1) :: t1) t2 h1 (x :: y :: l)
              (by simp only [List.length_cons]; omega) (i1.perm (by count_tac))
            refine ⟨(k2, x) :: a, s1', (k2, y) :: s2', h', by simp [e1, e2],
              i2.perm (by count_tac), ?_, ?_, ?_, q1.trans q2 (by sub_tac) (by sub_tac)⟩
            · simp only [vw_cons]
              rw [w2, q2 x (by simp), v1, Keep.vw (s := t2) (q1.mono (by sub_tac)),
                Keep.vw (s := (k1, r1) :: t1) (q1.mono (by sub_tac))]
              rfl
            · rw [w3, Keep.vw (s := (k1, r1) :: t1) (q1.mono (by sub_tac))]
              rfl
            · simp only [vw_cons]
              rw [w4, q2 y (by simp), v2, Keep.vw (s := t2) (q1.mono (by sub_tac))]

end CRoaring
