import Verif.Lemmas.Cow3

set_option linter.unusedSimpArgs false
set_option linter.unusedVariables false

namespace CRoaring
open Spec

theorem hOrInplaceLoop_spec {g : Bool} (o shared : Nat → Bool) (caps : Nat → Nat) :
    ∀ (n : Nat) (s1 s2 : List Slot) (h : Heap) (l : List Ref),
    s1.length + s2.length ≤ n → HInv g h (refs s1 ++ (refs s2 ++ l)) → (∀ p ∈ s1, shared p.1 = p.2.sh) →
    ∃ a s2' h', hOrInplaceLoop o caps g h s1 s2 = some (a, s2', h') ∧
      HInv g h' (refs a ++ (refs s2' ++ l)) ∧
      vw h' a = rbOrInplaceLoop shared caps (vw h s1) (vw h s2) ∧ vw h' s2' = vw h s2 ∧ Keep h h' l := by
  intro n
  induction n with
  | zero =>
    intro s1 s2 h l hn i hsh
    have e1 : s1 = [] := List.length_eq_zero_iff.1 (by omega)
    have e2 : s2 = [] := List.length_eq_zero_iff.1 (by omega)
    subst e1 e2
    exact ⟨[], [], h, by simp [hOrInplaceLoop, copySlots], i, by simp [rbOrInplaceLoop], rfl, Keep.refl _ _⟩
  | succ n ih =>
    intro s1 s2 h l hn i hsh
    cases s1 with
    | nil =>
      obtain ⟨a, s2', h', e, i', w1, w2, q⟩ := copySlots_spec (s := s2) (l := l) i
      exact ⟨a, s2', h', by simp [hOrInplaceLoop, e], i', by simp [rbOrInplaceLoop, w1], w2, q⟩
    | cons p1 t1 =>
      cases s2 with
      | nil =>
        exact ⟨p1 :: t1, [], h, by simp [hOrInplaceLoop], i, by simp [rbOrInplaceLoop], rfl, Keep.refl _ _⟩
      | cons p2 t2 =>
        obtain ⟨k1, r1⟩ := p1
        obtain ⟨k2, r2⟩ := p2
        have hs1 : shared k1 = r1.sh := hsh (k1, r1) List.mem_cons_self
        have hst : ∀ p ∈ t1, shared p.1 = p.2.sh := fun p hp => hsh p (List.mem_cons_of_mem _ hp)
        simp only [List.length_cons] at hn
        rw [hOrInplaceLoop]
        simp only [vw_cons]
        rw [rbOrInplaceLoop]
        by_cases e : k1 = k2
        · subst e
          simp only [if_true, i.live (r := r1) (by simp), Option.bind_eq_bind, Option.bind_some, hs1]
          by_cases hf : containerIsFull (valC h r1) = true
          · obtain ⟨a, s2', h', e2, i2, w2, w4, q2⟩ := ih t1 t2 h (r1 :: r2 :: l)
              (by omega) (i.perm (by count_tac)) hst
            refine ⟨(k1, r1) :: a, (k1, r2) :: s2', h', by simp [hf, e2],
              i2.perm (by count_tac), ?_, ?_, q2.mono (by sub_tac)⟩
            · simp only [vw_cons]
              rw [w2, q2 r1 (by simp)]
              simp [chooseOr, hf]
            · simp only [vw_cons]
              rw [w4, q2 r2 (by simp)]
          · simp only [hf, Bool.not_false, if_true, i.live (r := r2) (by simp), Option.bind_some]
            generalize chooseOr r1.sh (caps k1) (valC h r1) (valC h r2) = c
            obtain ⟨r', h1, e1, i1, v1, q1⟩ := replaceShared_spec (r := r1) (l := refs t1 ++ (r2 :: refs t2 ++ l))
              (i.perm (by count_tac)) (o k1) c
            obtain ⟨a, s2', h', e2, i2, w2, w4, q2⟩ := ih t1 t2 h1 (r' :: r2 :: l)
              (by omega) (i1.perm (by count_tac)) hst
            refine ⟨(k1, r') :: a, (k1, r2) :: s2', h', by simp [e1, e2],
              i2.perm (by count_tac), ?_, ?_, q1.trans q2 (by sub_tac) (by sub_tac)⟩
            · simp only [vw_cons]
              rw [w2, q2 r' (by simp), v1, Keep.vw (s := t1) (q1.mono (by sub_tac)), Keep.vw (s := t2) (q1.mono (by sub_tac))]
            · simp only [vw_cons]
              rw [w4, q2 r2 (by simp), q1 r2 (by simp), Keep.vw (s := t2) (q1.mono (by sub_tac))]
        · rw [if_neg e, if_neg e]
          by_cases hl : k1 < k2
          · rw [if_pos hl, if_pos hl]
            obtain ⟨a, s2', h', e2, i2, w2, w4, q2⟩ := ih t1 ((k2, r2) :: t2) h (r1 :: l)
              (by simp only [List.length_cons]; omega) (i.perm (by count_tac)) hst
            refine ⟨(k1, r1) :: a, s2', h', by simp [e2],
              i2.perm (by count_tac), ?_, w4, q2.mono (by sub_tac)⟩
            simp only [vw_cons]
            rw [w2, q2 r1 (by simp)]
            rfl
          · rw [if_neg hl, if_neg hl]
            obtain ⟨x, y, h1, e1, i1, v1, v2, q1⟩ := getCopyOf_spec (r := r2)
              (l := refs ((k1, r1) :: t1) ++ (refs t2 ++ l)) (i.perm (by count_tac))
            obtain ⟨a, s2', h', e2, i2, w2, w4, q2⟩ := ih ((k1, r1) :: t1) t2 h1 (x :: y :: l)
              (by simp only [List.length_cons]; omega) (i1.perm (by count_tac)) hsh
            refine ⟨(k2, x) :: a, (k2, y) :: s2', h', by simp [e1, e2],
              i2.perm (by count_tac), ?_, ?_, q1.trans q2 (by sub_tac) (by sub_tac)⟩
            · simp only [vw_cons]
              rw [w2, q2 x (by simp), v1, Keep.vw (s := t2) (q1.mono (by sub_tac)),
                Keep.vw (s := (k1, r1) :: t1) (q1.mono (by sub_tac))]
              rfl
            · simp only [vw_cons]
              rw [w4, q2 y (by simp), v2, Keep.vw (s := t2) (q1.mono (by sub_tac))]

theorem hXorInplaceLoop_spec {g : Bool} (o shared : Nat → Bool) :
    ∀ (n : Nat) (s1 s2 : List Slot) (h : Heap) (l : List Ref),
    s1.length + s2.length ≤ n → HInv g h (refs s1 ++ (refs s2 ++ l)) → (∀ p ∈ s1, shared p.1 = p.2.sh) →
    ∃ a s2' h', hXorInplaceLoop o g h s1 s2 = some (a, s2', h') ∧
      HInv g h' (refs a ++ (refs s2' ++ l)) ∧
      vw h' a = rbXorInplaceLoop shared (vw h s1) (vw h s2) ∧ vw h' s2' = vw h s2 ∧ Keep h h' l := by
  intro n
  induction n with
  | zero =>
    intro s1 s2 h l hn i hsh
    have e1 : s1 = [] := List.length_eq_zero_iff.1 (by omega)
    have e2 : s2 = [] := List.length_eq_zero_iff.1 (by omega)
    subst e1 e2
    exact ⟨[], [], h, by simp [hXorInplaceLoop, copySlots], i, by simp [rbXorInplaceLoop], rfl, Keep.refl _ _⟩
  | succ n ih =>
    intro s1 s2 h l hn i hsh
    cases s1 with
    | nil =>
      obtain ⟨a, s2', h', e, i', w1, w2, q⟩ := copySlots_spec (s := s2) (l := l) i
      exact ⟨a, s2', h', by simp [hXorInplaceLoop, e], i', by simp [rbXorInplaceLoop, w1], w2, q⟩
    | cons p1 t1 =>
      cases s2 with
      | nil =>
        exact ⟨p1 :: t1, [], h, by simp [hXorInplaceLoop], i, by simp [rbXorInplaceLoop], rfl, Keep.refl _ _⟩
      | cons p2 t2 =>
        obtain ⟨k1, r1⟩ := p1
        obtain ⟨k2, r2⟩ := p2
        have hs1 : shared k1 = r1.sh := hsh (k1, r1) List.mem_cons_self
        have hst : ∀ p ∈ t1, shared p.1 = p.2.sh := fun p hp => hsh p (List.mem_cons_of_mem _ hp)
        simp only [List.length_cons] at hn
        rw [hXorInplaceLoop]
        simp only [vw_cons]
        rw [rbXorInplaceLoop]
        by_cases e : k1 = k2
        · subst e
          simp only [if_true, i.live (r := r1) (by simp), Option.bind_eq_bind, Option.bind_some, hs1,
            i.live (r := r2) (by simp)]
          generalize chooseXor r1.sh (valC h r1) (valC h r2) = c
          obtain ⟨r', h1, e1, i1, v1, q1⟩ := replaceShared_spec (r := r1) (l := refs t1 ++ (r2 :: refs t2 ++ l))
            (i.perm (by count_tac)) (o k1) c
          simp only [e1, Option.bind_some]
          by_cases hz : containerNonzero c = true
          · obtain ⟨a, s2', h', e2, i2, w2, w4, q2⟩ := ih t1 t2 h1 (r' :: r2 :: l)
              (by omega) (i1.perm (by count_tac)) hst
            refine ⟨(k1, r') :: a, (k1, r2) :: s2', h', by simp [hz, e2],
              i2.perm (by count_tac), ?_, ?_, q1.trans q2 (by sub_tac) (by sub_tac)⟩
            · simp only [vw_cons, hz, if_true]
              rw [w2, q2 r' (by simp), v1, Keep.vw (s := t1) (q1.mono (by sub_tac)), Keep.vw (s := t2) (q1.mono (by sub_tac))]
            · simp only [vw_cons]
              rw [w4, q2 r2 (by simp), q1 r2 (by simp), Keep.vw (s := t2) (q1.mono (by sub_tac))]
          · obtain ⟨h3, e3, i3, q3⟩ := freeC_spec i1
            have q13 := q1.trans q3 (List.Subset.refl _) (List.Subset.refl _)
            obtain ⟨a, s2', h', e2, i2, w2, w4, q2⟩ := ih t1 t2 h3 (r2 :: l)
              (by omega) (i3.perm (by count_tac)) hst
            refine ⟨a, (k1, r2) :: s2', h', by simp [hz, e3, e2],
              i2.perm (by count_tac), ?_, ?_, q13.trans q2 (by sub_tac) (by sub_tac)⟩
            · simp only [hz]
              rw [w2, Keep.vw (s := t1) (q13.mono (by sub_tac)), Keep.vw (s := t2) (q13.mono (by sub_tac))]
              rfl
            · simp only [vw_cons]
              rw [w4, q2 r2 (by simp), q13 r2 (by simp), Keep.vw (s := t2) (q13.mono (by sub_tac))]
        · rw [if_neg e, if_neg e]
          by_cases hl : k1 < k2
          · rw [if_pos hl, if_pos hl]
            obtain ⟨a, s2', h', e2, i2, w2, w4, q2⟩ := ih t1 ((k2, r2) :: t2) h (r1 :: l)
              (by simp only [List.length_cons]; omega) (i.perm (by count_tac)) hst
            refine ⟨(k1, r1) :: a, s2', h', by simp [e2],
              i2.perm (by count_tac), ?_, w4, q2.mono (by sub_tac)⟩
            simp only [vw_cons]
            rw [w2, q2 r1 (by simp)]
            rfl
          · rw [if_neg hl, if_neg hl]
            obtain ⟨x, y, h1, e1, i1, v1, v2, q1⟩ := getCopyOf_spec (r := r2)
              (l := refs ((k1, r1) :: t1) ++ (refs t2 ++ l)) (i.perm (by count_tac))
            obtain ⟨a, s2', h', e2, i2, w2, w4, q2⟩ := ih ((k1, r1) :: t1) t2 h1 (x :: y :: l)
              (by simp only [List.length_cons]; omega) (i1.perm (by count_tac)) hsh
            refine ⟨(k2, x) :: a, (k2, y) :: s2', h', by simp [e1, e2],
              i2.perm (by count_tac), ?_, ?_, q1.trans q2 (by sub_tac) (by sub_tac)⟩
            · simp only [vw_cons]
              rw [w2, q2 x (by simp), v1, Keep.vw (s := t2) (q1.mono (by sub_tac)),
                Keep.vw (s := (k1, r1) :: t1) (q1.mono (by sub_tac))]
              rfl
            · simp only [vw_cons]
              rw [w4, q2 y (by simp), v2, Keep.vw (s := t2) (q1.mono (by sub_tac))]

theorem hAndnotInplaceLoop_spec {g : Bool} (o shared : Nat → Bool) : ∀ (n : Nat) (s1 s2 : List Slot) (h : Heap)
    (L : List Ref), s1.length + s2.length ≤ n → HInv g h (refs s1 ++ L) → refs s2 ⊆ L →
    (∀ p ∈ s1, shared p.1 = p.2.sh) →
    ∃ a h', hAndnotInplaceLoop o h s1 s2 = some (a, h') ∧ HInv g h' (refs a ++ L) ∧
      vw h' a = rbAndnotInplaceLoop shared (vw h s1) (vw h s2) ∧ Keep h h' L := by
  intro n
  induction n with
  | zero =>
    intro s1 s2 h L hn i b2 hsh
    have e1 : s1 = [] := List.length_eq_zero_iff.1 (by omega)
    subst e1
    exact ⟨[], h, by rw [hAndnotInplaceLoop], i, by simp [rbAndnotInplaceLoop], Keep.refl _ _⟩
  | succ n ih =>
    intro s1 s2 h L hn i b2 hsh
    cases s1 with
    | nil => exact ⟨[], h, by rw [hAndnotInplaceLoop], i, by simp [rbAndnotInplaceLoop], Keep.refl _ _⟩
    | cons p1 t1 =>
      cases s2 with
      | nil =>
        exact ⟨p1 :: t1, h, by simp [hAndnotInplaceLoop], i, by simp [rbAndnotInplaceLoop], Keep.refl _ _⟩
      | cons p2 t2 =>
        obtain ⟨k1, r1⟩ := p1
        obtain ⟨k2, r2⟩ := p2
        have c2 := refs_sub_cons b2
        have hs1 : shared k1 = r1.sh := hsh (k1, r1) List.mem_cons_self
        have hst : ∀ p ∈ t1, shared p.1 = p.2.sh := fun p hp => hsh p (List.mem_cons_of_mem _ hp)
        simp only [List.length_cons] at hn
        rw [hAndnotInplaceLoop]
        simp only [vw_cons]
        rw [rbAndnotInplaceLoop]
        by_cases e : k1 = k2
        · subst e
          simp only [if_true, i.live (r := r1) (by simp), i.live (r := r2) (by simp [c2.1]), Option.bind_eq_bind,
            Option.bind_some, hs1]
          generalize chooseAndnot r1.sh (valC h r1) (valC h r2) = c
          obtain ⟨r', h1, e1, i1, v1, q1⟩ := replaceShared_spec (r := r1) (l := refs t1 ++ L)
            (i.perm (by count_tac)) (o k1) c
          have qt : Keep h h1 (refs t2) := q1.mono (fun x hx => List.mem_append_right _ (c2.2 hx))
          simp only [e1, Option.bind_some]
          by_cases hz : containerNonzero c = true
          · obtain ⟨a, h', e2, i2, w2, q2⟩ := ih t1 t2 h1 (r' :: L) (by omega)
              (i1.perm (by count_tac)) (fun x hx => by simp [c2.2 hx]) hst
            refine ⟨(k1, r') :: a, h', by simp [hz, e2], i2.perm (by count_tac), ?_,
              q1.trans q2 (by sub_tac) (by sub_tac)⟩
            simp only [vw_cons, hz, if_true]
            rw [w2, q2 _ List.mem_cons_self, v1, Keep.vw (s := t1) (q1.mono (by sub_tac)), Keep.vw qt]
          · obtain ⟨h3, e3, i3, q3⟩ := freeC_spec i1
            have q13 := q1.trans q3 (List.Subset.refl _) (List.Subset.refl _)
            have qt3 : Keep h h3 (refs t2) := q13.mono (fun x hx => List.mem_append_right _ (c2.2 hx))
            obtain ⟨a, h', e2, i2, w2, q2⟩ := ih t1 t2 h3 L (by omega) i3 c2.2 hst
            refine ⟨a, h', by simp [hz, e3, e2], i2, ?_, q13.trans q2 (by sub_tac) (by sub_tac)⟩
            simp only [hz]
            rw [w2, Keep.vw (s := t1) (q13.mono (by sub_tac)), Keep.vw qt3]
            rfl
        · rw [if_neg e, if_neg e]
          by_cases hl : k1 < k2
          · rw [if_pos hl, if_pos hl]
            obtain ⟨a, h', e2, i2, w2, q2⟩ := ih t1 ((k2, r2) :: t2) h (r1 :: L)
              (by simp only [List.length_cons]; omega) (i.perm (by count_tac))
              (fun x hx => List.mem_cons_of_mem _ (b2 hx)) hst
            refine ⟨(k1, r1) :: a, h', by simp [e2], i2.perm (by count_tac), ?_, q2.mono (by sub_tac)⟩
            simp only [vw_cons]
            rw [w2, q2 r1 (by simp)]
            rfl
          · rw [if_neg hl, if_neg hl]
            obtain ⟨a, h', e2, i2, w2, q2⟩ := ih ((k1, r1) :: t1) (hAdv ((k2, r2) :: t2) k1) h L
              (by have := hAdv_length (s := (k2, r2) :: t2) k1 (by simp)
                  simp only [List.length_cons] at this ⊢; omega) i
              (fun x hx => b2 (hAdv_subset _ _ hx)) hsh
            refine ⟨a, h', e2, i2, ?_, q2⟩
            rw [w2, vw_hAdv h (by simp)]
            rfl

/-! ## Operations on one bitmap -/

theorem hRunOptimizeLoop_spec {g : Bool} (o : Nat → Bool) {s : List Slot} {h : Heap} {l : List Ref}
    (i : HInv g h (refs s ++ l)) : ∃ a h', hRunOptimizeLoop o h s = some (a, h') ∧ HInv g h' (refs a ++ l) ∧
      vw h' a = (rbRunOptimize (vw h s)).1 ∧ Keep h h' l := by
  induction s generalizing h l with
  | nil => exact ⟨[], h, rfl, i, rfl, Keep.refl _ _⟩
  | cons p t ih =>
    obtain ⟨k, r⟩ := p
    obtain ⟨r1, h1, e1, i1, v1, s1, q1⟩ := unshareC_spec (r := r) (l := refs t ++ l) (i.perm (by count_tac))
    obtain ⟨r2, h2, e2, i2, v2, q2⟩ := replaceC_spec i1 (o := o k) (fun _ => s1) (convertRunOptimize (valC h r))
    obtain ⟨a, h', e3, i3, w3, q3⟩ := ih (h := h2) (l := r2 :: l) (i2.perm (by count_tac))
    have q12 := q1.trans q2 (List.Subset.refl _) (List.Subset.refl _)
    refine ⟨(k, r2) :: a, h', ?_, i3.perm (by count_tac), ?_, q12.trans q3 (by sub_tac) (by sub_tac)⟩
    · simp [hRunOptimizeLoop, e1, i1.live (r := r1) (by simp), v1, e2, e3]
    · simp only [vw_cons]
      rw [w3, q3 r2 (by simp), v2, Keep.vw (s := t) (q12.mono (by sub_tac))]
      rfl

theorem hRemoveRunLoop_spec {g : Bool} {s : List Slot} {h : Heap} {l : List Ref}
    (i : HInv g h (refs s ++ l)) : ∃ a h', hRemoveRunLoop h s = some (a, h') ∧ HInv g h' (refs a ++ l) ∧
      vw h' a = (rbRemoveRunCompression (vw h s)).1 ∧ Keep h h' l := by
  induction s generalizing h l with
  | nil => exact ⟨[], h, rfl, i, rfl, Keep.refl _ _⟩
  | cons p t ih =>
    obtain ⟨k, r⟩ := p
    simp only [hRemoveRunLoop, i.live (r := r) (by simp), Option.bind_eq_bind, Option.bind_some]
    by_cases hr : isRun (valC h r) = true
    · rw [if_pos hr]
      obtain ⟨r2, h2, e2, i2, v2, q2⟩ := replaceC_spec (o := false) (r := r) (l := refs t ++ l)
        (i.perm (by count_tac)) (by simp) (removeRun (valC h r))
      obtain ⟨a, h', e3, i3, w3, q3⟩ := ih (h := h2) (l := r2 :: l) (i2.perm (by count_tac))
      refine ⟨(k, r2) :: a, h', ?_, i3.perm (by count_tac), ?_, q2.trans q3 (by sub_tac) (by sub_tac)⟩
      · simp only [replaceC, Bool.false_eq_true, if_false, Option.map_eq_some_iff, Prod.mk.injEq] at e2
        obtain ⟨hx, ea, eb, ec⟩ := e2
        subst ec
        simp [ea, e3, eb]
      · simp only [vw_cons]
        rw [w3, q3 r2 (by simp), v2, Keep.vw (s := t) (q2.mono (by sub_tac))]
        rfl
    · rw [if_neg hr]
      obtain ⟨a, h', e3, i3, w3, q3⟩ := ih (h := h) (l := r :: l) (i.perm (by count_tac))
      refine ⟨(k, r) :: a, h', by simp [e3], i3.perm (by count_tac), ?_, q3.mono (by sub_tac)⟩
      simp only [vw_cons]
      rw [w3, q3 r (by simp)]
      have : removeRun (valC h r) = valC h r := by
        cases hv : valC h r <;> simp_all [removeRun, isRun]
      simp [rbRemoveRunCompression, this]

theorem hRemoveRangeLoop_spec {g : Bool} (o : Nat → Bool) (min max minKey maxKey : Nat) {s : List Slot} {h : Heap}
    {l : List Ref} (i : HInv g h (refs s ++ l)) :
    ∃ a h', hRemoveRangeLoop o min max minKey maxKey h s = some (a, h') ∧ HInv g h' (refs a ++ l) ∧
      vw h' a = rbRemoveRangeLoop min max minKey maxKey (vw h s) ∧ Keep h h' l := by
  induction s generalizing h l with
  | nil => exact ⟨[], h, rfl, i, rfl, Keep.refl _ _⟩
  | cons p t ih =>
    obtain ⟨k, r⟩ := p
    simp only [hRemoveRangeLoop, vw_cons, rbRemoveRangeLoop]
    by_cases hk : k ≤ maxKey
    · rw [if_pos hk, if_pos hk]
      obtain ⟨r1, h1, e1, i1, v1, s1, q1⟩ := unshareC_spec (r := r) (l := refs t ++ l) (i.perm (by count_tac))
      simp only [e1, Option.bind_eq_bind, Option.bind_some, i1.live (r := r1) (by simp), v1]
      generalize containerRemoveRange (if minKey = k then min % 65536 else 0)
        (if maxKey = k then max % 65536 else 65535) (valC h r) = oc
      cases oc with
      | some c =>
        obtain ⟨r2, h2, e2, i2, v2, q2⟩ := replaceC_spec i1 (o := o k) (fun _ => s1) c
        obtain ⟨a, h', e3, i3, w3, q3⟩ := ih (h := h2) (l := r2 :: l) (i2.perm (by count_tac))
        have q12 := q1.trans q2 (List.Subset.refl _) (List.Subset.refl _)
        refine ⟨(k, r2) :: a, h', by simp [e2, e3], i3.perm (by count_tac), ?_, q12.trans q3 (by sub_tac) (by sub_tac)⟩
        simp only [vw_cons]
        rw [w3, q3 r2 (by simp), v2, Keep.vw (s := t) (q12.mono (by sub_tac))]
      | none =>
        obtain ⟨h2, e2, i2, q2⟩ := freeC_spec i1
        obtain ⟨a, h', e3, i3, w3, q3⟩ := ih (h := h2) (l := l) i2
        have q12 := q1.trans q2 (List.Subset.refl _) (List.Subset.refl _)
        refine ⟨a, h', by simp [e2, e3], i3, ?_, q12.trans q3 (by sub_tac) (by sub_tac)⟩
        rw [w3, Keep.vw (s := t) (q12.mono (by sub_tac))]
    · rw [if_neg hk, if_neg hk]
      exact ⟨_, h, rfl, i, rfl, Keep.refl _ _⟩

end CRoaring
