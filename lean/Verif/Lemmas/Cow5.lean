import Verif.Lemmas.Cow4
import Verif.Lemmas.Flip

set_option linter.unusedSimpArgs false
set_option linter.unusedVariables false

namespace CRoaring
open Spec

theorem vw_split {h : Heap} {s : List Slot} {A B : Bitmap} (e : vw h s = A ++ B) :
    ∃ A' B', s = A' ++ B' ∧ vw h A' = A ∧ vw h B' = B := by
  simp only [vw] at e
  obtain ⟨A', B', e1, e2, e3⟩ := List.map_eq_append_iff.1 e
  exact ⟨A', B', e1, e2, e3⟩

theorem vw_split_mid {h : Heap} {s : List Slot} {A B : Bitmap} {k : Nat} {c : Container}
    (e : vw h s = A ++ (k, c) :: B) :
    ∃ A' r B', s = A' ++ (k, r) :: B' ∧ vw h A' = A ∧ vw h B' = B ∧ valC h r = c := by
  obtain ⟨A', B', e1, e2, e3⟩ := vw_split e
  cases B' with
  | nil => simp at e3
  | cons p t =>
    obtain ⟨k', r⟩ := p
    simp only [vw_cons, List.cons.injEq, Prod.mk.injEq] at e3
    obtain ⟨⟨rfl, e4⟩, e5⟩ := e3
    exact ⟨A', r, t, e1, e2, e5, e4⟩

/-- The position of a key in the cells of a bitmap. -/
theorem slot_split {P : Container → Prop} {h : Heap} {s : List Slot} (b : BP P (vw h s)) (k : Nat) :
    (∃ A r B, s = A ++ (k, r) :: B ∧ raGetIndex (skel s) k = A.length) ∨
    (∃ A B, s = A ++ B ∧ raGetIndex (skel s) k = -((A.length : Int) + 1)) := by
  rw [raGetIndex_skel h]
  rcases ra_split b k with ⟨A, c, B, e, _, _, hi⟩ | ⟨A, B, e, _, _, hi⟩
  · obtain ⟨A', r, B', e1, e2, _, _⟩ := vw_split_mid e
    exact Or.inl ⟨A', r, B', e1, by rw [hi, ← e2, vw_length]⟩
  · obtain ⟨A', B', e1, e2, _⟩ := vw_split e
    exact Or.inr ⟨A', B', e1, by rw [hi, ← e2, vw_length]⟩

theorem slotAt_mid (A : List Slot) (p : Slot) (B : List Slot) : slotAt (A ++ p :: B) A.length = p := by
  simp [slotAt]

theorem slots_set_mid (A : List Slot) (p q : Slot) (B : List Slot) : (A ++ p :: B).set A.length q = A ++ q :: B := by
  simp

theorem neg_idx (n : Nat) : (-(-((n : Int) + 1)) - 1).toNat = n := by omega

theorem hAdd_spec {g : Bool} (o : Nat → Bool) {h : Heap} {x : HBitmap} {l : List Ref} (v : Nat)
    (i : HInv g h (refs x.slots ++ l)) (b : BInv (vw h x.slots)) :
    ∃ x' h', hAdd o h x v = some (x', h') ∧ x'.cow = x.cow ∧ HInv g h' (refs x'.slots ++ l) ∧
      vw h' x'.slots = rbAdd (vw h x.slots) v ∧ Keep h h' l := by
  have hidx := raGetIndex_skel h x.slots (v / 65536)
  rcases slot_split b (v / 65536) with ⟨A, r, B, e, hi⟩ | ⟨A, B, e, hi⟩
  · simp only [hAdd, rbAdd, ← hidx, hi]
    rw [if_pos (by omega), if_pos (by omega)]
    simp only [Int.toNat_natCast]
    rw [e] at i ⊢
    simp only [slotAt_mid]
    obtain ⟨r1, h1, e1, i1, v1, s1, q1⟩ := unshareC_spec (r := r) (l := refs A ++ (refs B ++ l))
      (i.perm (by count_tac))
    simp only [e1, Option.bind_eq_bind, Option.bind_some, i1.live (r := r1) (by simp), v1]
    obtain ⟨r2, h2, e2, i2, v2, q2⟩ := replaceC_spec i1 (o := o (v / 65536)) (fun _ => s1)
      (containerAdd (v % 65536) (valC h r))
    have q12 := q1.trans q2 (List.Subset.refl _) (List.Subset.refl _)
    refine ⟨⟨x.cow, (A ++ (v / 65536, r) :: B).set A.length (v / 65536, r2)⟩, h2, by simp only [e2, Option.bind_some], rfl, ?_, ?_, q12.mono (by sub_tac)⟩
    · simp only [slots_set_mid]; exact i2.perm (by count_tac)
    · simp only [slots_set_mid, vw_append, vw_cons]
      have := raSet_mid (vw h A) (v / 65536) (valC h r) (containerAdd (v % 65536) (valC h r)) (vw h B)
      rw [vw_length] at this
      have hc := contAt_mid (vw h A) (v / 65536) (valC h r) (vw h B)
      rw [vw_length] at hc
      rw [hc, this, v2, Keep.vw (s := A) (q12.mono (by sub_tac)), Keep.vw (s := B) (q12.mono (by sub_tac))]
  · simp only [hAdd, rbAdd, ← hidx, hi]
    rw [if_neg (by omega), if_neg (by omega)]
    simp only [neg_idx]
    rw [e] at i ⊢
    obtain ⟨i1, v1, _, q1⟩ := newC_spec i (containerAdd (v % 65536) (.array []))
    refine ⟨_, _, rfl, rfl, ?_, ?_, q1.mono (by sub_tac)⟩
    · simp only [List.take_left, List.drop_left]; exact i1.perm (by count_tac)
    · simp only [List.take_left, List.drop_left, vw_append, vw_cons]
      have := raInsertAt_mid (vw h A) (vw h B) (v / 65536) (containerAdd (v % 65536) (.array []))
      rw [vw_length] at this
      rw [this, v1, Keep.vw (s := A) (q1.mono (by sub_tac)), Keep.vw (s := B) (q1.mono (by sub_tac))]

theorem hRemove_spec {g : Bool} (o : Nat → Bool) {h : Heap} {x : HBitmap} {l : List Ref} (v : Nat)
    (i : HInv g h (refs x.slots ++ l)) (b : BInv (vw h x.slots)) :
    ∃ x' h', hRemove o h x v = some (x', h') ∧ x'.cow = x.cow ∧ HInv g h' (refs x'.slots ++ l) ∧
      vw h' x'.slots = rbRemove (vw h x.slots) v ∧ Keep h h' l := by
  have hidx := raGetIndex_skel h x.slots (v / 65536)
  rcases slot_split b (v / 65536) with ⟨A, r, B, e, hi⟩ | ⟨A, B, e, hi⟩
  · simp only [hRemove, rbRemove, ← hidx, hi]
    rw [if_pos (by omega), if_pos (by omega)]
    simp only [Int.toNat_natCast]
    rw [e] at i ⊢
    simp only [slotAt_mid]
    obtain ⟨r1, h1, e1, i1, v1, s1, q1⟩ := unshareC_spec (r := r) (l := refs A ++ (refs B ++ l))
      (i.perm (by count_tac))
    simp only [e1, Option.bind_eq_bind, Option.bind_some, i1.live (r := r1) (by simp), v1]
    have hc := contAt_mid (vw h A) (v / 65536) (valC h r) (vw h B)
    rw [vw_length] at hc
    simp only [vw_append, vw_cons, hc]
    generalize containerRemove (v % 65536) (valC h r) = c
    obtain ⟨r2, h2, e2, i2, v2, q2⟩ := replaceC_spec i1 (o := o (v / 65536)) (fun _ => s1) c
    have q12 := q1.trans q2 (List.Subset.refl _) (List.Subset.refl _)
    simp only [e2, Option.bind_some, i2.live (r := r2) (by simp), v2]
    by_cases hz : containerNonzero c = true
    · simp only [hz, if_true]
      refine ⟨_, h2, rfl, rfl, ?_, ?_, q12.mono (by sub_tac)⟩
      · simp only [slots_set_mid]; exact i2.perm (by count_tac)
      · simp only [slots_set_mid, vw_append, vw_cons]
        have := raSet_mid (vw h A) (v / 65536) (valC h r) c (vw h B)
        rw [vw_length] at this
        rw [this, v2, Keep.vw (s := A) (q12.mono (by sub_tac)), Keep.vw (s := B) (q12.mono (by sub_tac))]
    · simp only [hz]
      obtain ⟨h3, e3, i3, q3⟩ := freeC_spec i2
      have q13 := q12.trans q3 (List.Subset.refl _) (List.Subset.refl _)
      have ed : (A ++ (v / 65536, r) :: B).take A.length ++ (A ++ (v / 65536, r) :: B).drop (A.length + 1) = A ++ B := by
        rw [List.take_left, show A ++ (v / 65536, r) :: B = (A ++ [(v / 65536, r)]) ++ B by simp,
          show A.length + 1 = (A ++ [(v / 65536, r)]).length by simp, List.drop_left]
      refine ⟨⟨x.cow, A ++ B⟩, h3, by simp [e3, ed], rfl, i3.perm (by count_tac), ?_, q13.mono (by sub_tac)⟩
      have := raRemoveAt_mid (vw h A) (v / 65536) (valC h r) (vw h B)
      rw [vw_length] at this
      simp only [vw_append]
      rw [Keep.vw (s := A) (q13.mono (by sub_tac)), Keep.vw (s := B) (q13.mono (by sub_tac))]
      simp only [Bool.false_eq_true, if_false]
      exact this.symm
  · simp only [hRemove, rbRemove, ← hidx, hi]
    rw [if_neg (by omega), if_neg (by omega)]
    exact ⟨x, h, rfl, rfl, i, rfl, Keep.refl _ _⟩

theorem hInplaceFlip_spec {g : Bool} (o : Nat → Bool) (f : Container → Container) (z : Container) {h : Heap}
    {s : List Slot} {l : List Ref} (k : Nat) (i : HInv g h (refs s ++ l)) (b : BInv (vw h s)) :
    ∃ s' h', hInplaceFlip o f z h s k = some (s', h') ∧ HInv g h' (refs s' ++ l) ∧
      vw h' s' = flipWith (vw h s) k f z ∧ Keep h h' l := by
  have hidx := raGetIndex_skel h s k
  rcases slot_split b k with ⟨A, r, B, e, hi⟩ | ⟨A, B, e, hi⟩
  · simp only [hInplaceFlip, flipWith, ← hidx, hi]
    rw [if_pos (by omega), if_pos (by omega)]
    simp only [Int.toNat_natCast]
    rw [e] at i ⊢
    simp only [slotAt_mid]
    obtain ⟨r1, h1, e1, i1, v1, s1, q1⟩ := unshareC_spec (r := r) (l := refs A ++ (refs B ++ l))
      (i.perm (by count_tac))
    simp only [e1, Option.bind_eq_bind, Option.bind_some, i1.live (r := r1) (by simp), v1]
    have hc := contAt_mid (vw h A) k (valC h r) (vw h B)
    rw [vw_length] at hc
    simp only [vw_append, vw_cons, hc]
    generalize f (valC h r) = c
    obtain ⟨r2, h2, e2, i2, v2, q2⟩ := replaceC_spec i1 (o := o k) (fun _ => s1) c
    have q12 := q1.trans q2 (List.Subset.refl _) (List.Subset.refl _)
    simp only [e2, Option.bind_some]
    by_cases hz : containerCard c ≠ 0
    · rw [if_pos hz, if_pos hz]
      refine ⟨_, h2, rfl, ?_, ?_, q12.mono (by sub_tac)⟩
      · simp only [slots_set_mid]; exact i2.perm (by count_tac)
      · simp only [slots_set_mid, vw_append, vw_cons]
        have := raSet_mid (vw h A) k (valC h r) c (vw h B)
        rw [vw_length] at this
        rw [this, v2, Keep.vw (s := A) (q12.mono (by sub_tac)), Keep.vw (s := B) (q12.mono (by sub_tac))]
    · rw [if_neg hz, if_neg hz]
      obtain ⟨h3, e3, i3, q3⟩ := freeC_spec i2
      have q13 := q12.trans q3 (List.Subset.refl _) (List.Subset.refl _)
      have ed : (A ++ (k, r) :: B).take A.length ++ (A ++ (k, r) :: B).drop (A.length + 1) = A ++ B := by
        rw [List.take_left, show A ++ (k, r) :: B = (A ++ [(k, r)]) ++ B by simp,
          show A.length + 1 = (A ++ [(k, r)]).length by simp, List.drop_left]
      refine ⟨A ++ B, h3, by simp [e3, ed], i3.perm (by count_tac), ?_, q13.mono (by sub_tac)⟩
      have := raRemoveAt_mid (vw h A) k (valC h r) (vw h B)
      rw [vw_length] at this
      simp only [vw_append]
      rw [Keep.vw (s := A) (q13.mono (by sub_tac)), Keep.vw (s := B) (q13.mono (by sub_tac))]
      exact this.symm
  · simp only [hInplaceFlip, flipWith, ← hidx, hi]
    rw [if_neg (by omega), if_neg (by omega)]
    simp only [neg_idx]
    rw [e] at i ⊢
    obtain ⟨i1, v1, _, q1⟩ := newC_spec i z
    refine ⟨_, _, rfl, ?_, ?_, q1.mono (by sub_tac)⟩
    · simp only [List.take_left, List.drop_left]; exact i1.perm (by count_tac)
    · simp only [List.take_left, List.drop_left, vw_append, vw_cons]
      have := raInsertAt_mid (vw h A) (vw h B) k z
      rw [vw_length] at this
      rw [this, v1, Keep.vw (s := A) (q1.mono (by sub_tac)), Keep.vw (s := B) (q1.mono (by sub_tac))]

end CRoaring
