import Verif.Lemmas.Cow5

set_option linter.unusedSimpArgs false
set_option linter.unusedVariables false

namespace CRoaring
open Spec

theorem ite_bind_some {α β : Type} {c : Prop} [Decidable c] {a : Option α} {b r : α} (K : α → Option β)
    (e : (if c then a else some b) = some r) : (if c then a.bind K else K b) = K r := by
  by_cases hc : c
  · rw [if_pos hc] at e ⊢; rw [e]; rfl
  · rw [if_neg hc] at e ⊢; cases e; rfl

theorem hFlipPart_spec {g : Bool} (o : Nat → Bool) {h : Heap} {s : List Slot} {l : List Ref} (k a b : Nat)
    (i : HInv g h (refs s ++ l)) (bi : BInv (vw h s)) :
    ∃ s' h', hFlipPart o h s k a b = some (s', h') ∧ HInv g h' (refs s' ++ l) ∧
      vw h' s' = inplaceFlip (vw h s) k a b ∧ Keep h h' l :=
  hInplaceFlip_spec o _ _ k i bi

theorem hFlipKeys_spec {g : Bool} (o : Nat → Bool) {l : List Ref} : ∀ (ks : List Nat) {h : Heap} {s : List Slot},
    (∀ k ∈ ks, k < 65536) → HInv g h (refs s ++ l) → BInv (vw h s) →
    ∃ s' h', hFlipKeys o ks h s = some (s', h') ∧ HInv g h' (refs s' ++ l) ∧
      vw h' s' = ks.foldl inplaceFullyFlip (vw h s) ∧ Keep h h' l ∧ BInv (vw h' s') := by
  intro ks
  induction ks with
  | nil => intro h s _ i b; exact ⟨s, h, rfl, i, rfl, Keep.refl _ _, b⟩
  | cons k t ih =>
    intro h s hk i b
    obtain ⟨s1, h1, e1, i1, w1, q1⟩ := hInplaceFlip_spec o containerNot (containerRangeOfOnes 0 65536) k i b
    have w1' : vw h1 s1 = inplaceFullyFlip (vw h s) k := w1
    have b1 : BInv (vw h1 s1) := by rw [w1']; exact (inplaceFullyFlip_spec b (hk k (by simp))).1
    obtain ⟨s2, h2, e2, i2, w2, q2, b2⟩ := ih (fun k hk' => hk k (List.mem_cons_of_mem _ hk')) i1 b1
    refine ⟨s2, h2, by simp [hFlipKeys, e1, e2], i2, ?_, q1.trans q2 (List.Subset.refl _) (List.Subset.refl _), b2⟩
    rw [w2, w1']; rfl

theorem hFlipInplaceClosed_spec {g : Bool} (o : Nat → Bool) {h : Heap} {x : HBitmap} {l : List Ref} {rs re : Nat}
    (hre : re < 4294967296) (i : HInv g h (refs x.slots ++ l)) (b : BInv (vw h x.slots)) :
    ∃ x' h', hFlipInplaceClosed o h x rs re = some (x', h') ∧ x'.cow = x.cow ∧ HInv g h' (refs x'.slots ++ l) ∧
      vw h' x'.slots = rbFlipInplaceClosed (vw h x.slots) rs re ∧ Keep h h' l := by
  unfold hFlipInplaceClosed rbFlipInplaceClosed
  by_cases h0 : rs > re
  · rw [if_pos h0, if_pos h0]
    exact ⟨x, h, rfl, rfl, i, rfl, Keep.refl _ _⟩
  rw [if_neg h0, if_neg h0]
  simp only []
  have hkk : rs / 65536 ≤ re / 65536 := Nat.div_le_div_right (by omega)
  by_cases hk : rs / 65536 = re / 65536
  · simp only [hk, if_true]
    obtain ⟨s1, h1, e1, i1, w1, q1⟩ := hFlipPart_spec o (re / 65536) (rs % 65536) (re % 65536) i b
    exact ⟨⟨x.cow, s1⟩, h1, by simp [e1], rfl, i1, w1, q1⟩
  · simp only [hk, if_false]
    have hP : ∃ s1 h1, (if rs % 65536 > 0 then hFlipPart o h x.slots (rs / 65536) (rs % 65536) 65535
          else some (x.slots, h)) = some (s1, h1) ∧ HInv g h1 (refs s1 ++ l) ∧
        vw h1 s1 = (if rs % 65536 > 0 then (inplaceFlip (vw h x.slots) (rs / 65536) (rs % 65536) 65535, rs / 65536 + 1)
          else (vw h x.slots, rs / 65536)).1 ∧ Keep h h1 l ∧ BInv (vw h1 s1) := by
      by_cases hp : rs % 65536 > 0
      · simp only [hp, if_true]
        obtain ⟨s1, h1, e1, i1, w1, q1⟩ := hFlipPart_spec o (rs / 65536) (rs % 65536) 65535 i b
        refine ⟨s1, h1, e1, i1, w1, q1, ?_⟩
        rw [w1]
        exact (inplaceFlip_spec b (by omega) (by omega) (by omega)).1
      · simp only [hp, if_false]
        exact ⟨_, h, rfl, i, rfl, Keep.refl _ _, b⟩
    obtain ⟨s1, h1, e1, i1, w1, q1, b1⟩ := hP
    simp only [Option.bind_eq_bind, Option.bind_some]
    rw [ite_bind_some _ e1]
    have hlo : (if rs % 65536 > 0 then rs / 65536 + 1 else rs / 65536) =
        (if rs % 65536 > 0 then (inplaceFlip (vw h x.slots) (rs / 65536) (rs % 65536) 65535, rs / 65536 + 1)
          else (vw h x.slots, rs / 65536)).2 := by split <;> rfl
    rw [hlo]
    generalize (if rs % 65536 > 0 then (inplaceFlip (vw h x.slots) (rs / 65536) (rs % 65536) 65535, rs / 65536 + 1)
          else (vw h x.slots, rs / 65536)) = pr at *
    have hhi : (if re % 65536 ≠ 65535 then re / 65536 - 1 else re / 65536) < 65536 := by split <;> omega
    generalize hiE : (if re % 65536 ≠ 65535 then re / 65536 - 1 else re / 65536) = hi at *
    obtain ⟨s2, h2, e2, i2, w2, q2, b2⟩ := hFlipKeys_spec o (List.range' pr.2 (hi + 1 - pr.2))
      (by intro k hk; have h1 := (List.mem_range'_1.1 hk).1; have h2 := (List.mem_range'_1.1 hk).2; omega) i1 b1
    simp only [e2, Option.bind_some]
    have w2' : vw h2 s2 = forKeys inplaceFullyFlip pr.2 hi pr.1 := by rw [w2, w1]; rfl
    have q12 := q1.trans q2 (List.Subset.refl _) (List.Subset.refl _)
    by_cases hp : re % 65536 ≠ 65535
    · rw [if_pos hp, if_pos hp]
      obtain ⟨s3, h3, e3, i3, w3, q3⟩ := hFlipPart_spec o (hi + 1) 0 (re % 65536) i2 b2
      refine ⟨⟨x.cow, s3⟩, h3, by simp [e3], rfl, i3, ?_, q12.trans q3 (List.Subset.refl _) (List.Subset.refl _)⟩
      rw [w3, w2']
    · rw [if_neg hp, if_neg hp]
      exact ⟨⟨x.cow, s2⟩, h2, rfl, rfl, i2, w2', q12⟩

theorem hInsertFlipped_spec {g : Bool} (f : Container → Container) (z : Container) {h : Heap}
    {ans s : List Slot} {L : List Ref} (k : Nat) (i : HInv g h (refs ans ++ L)) (hs : refs s ⊆ L)
    (b : BInv (vw h s)) :
    ∃ a' h', hInsertFlipped f z h ans s k = some (a', h') ∧ HInv g h' (refs a' ++ L) ∧
      vw h' a' = insertWith (vw h ans) (vw h s) k f z ∧ Keep h h' L := by
  have hidx := raGetIndex_skel h s k
  have hj := raGetIndex_skel h ans k
  have hins : ∀ (j : Nat) (c : Container), ∃ a' h', some (ans.take j ++ (k, (newC h c).1) :: ans.drop j, (newC h c).2) =
      some (a', h') ∧ HInv g h' (refs a' ++ L) ∧ vw h' a' = raInsertAt (vw h ans) j k c ∧ Keep h h' L := by
    intro j c
    obtain ⟨i1, v1, _, q1⟩ := newC_spec i c
    refine ⟨_, _, rfl, ?_, ?_, q1.mono (by sub_tac)⟩
    · have er : refs ans = refs (ans.take j) ++ refs (ans.drop j) := by
        rw [← refs_append, List.take_append_drop]
      rw [er] at i1
      exact i1.perm (by count_tac)
    · have q1' : Keep h (newC h c).2 (refs ans) := q1.mono (by sub_tac)
      simp only [vw_append, vw_cons, v1]
      rw [vw_take, vw_drop, Keep.vw q1']
      rfl
  simp only [hInsertFlipped, insertWith, ← hidx, ← hj]
  rcases slot_split b k with ⟨A, r, B, e, hi⟩ | ⟨A, B, e, hi⟩
  · simp only [hi]
    rw [if_pos (by omega), if_pos (by omega)]
    simp only [Int.toNat_natCast]
    have hr : r ∈ L := hs (by rw [e]; simp)
    have hsl : slotAt s A.length = (k, r) := by rw [e, slotAt_mid]
    have hc : contAt (vw h s) A.length = valC h r := by
      rw [e, vw_append, vw_cons]
      have := contAt_mid (vw h A) k (valC h r) (vw h B)
      rwa [vw_length] at this
    simp only [hsl, i.live (r := r) (by simp [hr]), Option.bind_eq_bind, Option.bind_some, hc]
    generalize f (valC h r) = c
    by_cases hz : containerCard c ≠ 0
    · rw [if_pos hz, if_pos hz]
      exact hins _ c
    · rw [if_neg hz, if_neg hz]
      obtain ⟨i1, v1, _, q1⟩ := newC_spec i c
      obtain ⟨h3, e3, i3, q3⟩ := freeC_spec i1
      have q13 := q1.trans q3 (List.Subset.refl _) (List.Subset.refl _)
      exact ⟨ans, h3, by simp [e3], i3, Keep.vw (q13.mono (by sub_tac)), q13.mono (by sub_tac)⟩
  · simp only [hi]
    rw [if_neg (by omega), if_neg (by omega)]
    exact hins _ z

theorem hInsertKeys_spec {g : Bool} {s : List Slot} {L : List Ref} (hs : refs s ⊆ L) : ∀ (ks : List Nat) {h : Heap}
    {ans : List Slot}, HInv g h (refs ans ++ L) → BInv (vw h s) →
    ∃ a' h', hInsertKeys s ks h ans = some (a', h') ∧ HInv g h' (refs a' ++ L) ∧
      vw h' a' = ks.foldl (fun a hb => insertFullyFlipped a (vw h s) hb) (vw h ans) ∧ Keep h h' L := by
  intro ks
  induction ks with
  | nil => intro h ans i b; exact ⟨ans, h, rfl, i, rfl, Keep.refl _ _⟩
  | cons k t ih =>
    intro h ans i b
    obtain ⟨a1, h1, e1, i1, w1, q1⟩ := hInsertFlipped_spec containerNot (containerRangeOfOnes 0 65536) k i hs b
    have w1' : vw h1 a1 = insertFullyFlipped (vw h ans) (vw h s) k := w1
    have ws : vw h1 s = vw h s := Keep.vw (q1.mono hs)
    obtain ⟨a2, h2, e2, i2, w2, q2⟩ := ih i1 (by rw [ws]; exact b)
    refine ⟨a2, h2, by simp [hInsertKeys, e1, e2], i2, ?_, q1.trans q2 (List.Subset.refl _) (List.Subset.refl _)⟩
    rw [w2, w1', ws]; rfl

/-- The middle part of `rbFlipClosed`. -/
def rbFlipMiddle (ans x1 : Bitmap) (rs re : Nat) : Bitmap :=
  if rs / 65536 = re / 65536 then insertFlipped ans x1 (rs / 65536) (rs % 65536) (re % 65536)
  else
    let p := if rs % 65536 > 0 then (insertFlipped ans x1 (rs / 65536) (rs % 65536) 65535, rs / 65536 + 1)
      else (ans, rs / 65536)
    let hi := if re % 65536 ≠ 65535 then re / 65536 - 1 else re / 65536
    let a := forKeys (fun a hb => insertFullyFlipped a x1 hb) p.2 hi p.1
    if re % 65536 ≠ 65535 then insertFlipped a x1 (hi + 1) 0 (re % 65536) else a

theorem rbFlipClosed_middle {x : Bitmap} {rs re : Nat} (h0 : ¬ rs > re) :
    rbFlipClosed x rs re = rbFlipMiddle (raCopiesUntil x (rs / 65536)) x rs re ++ raCopiesAfter x (re / 65536) := by
  have hkk : rs / 65536 ≤ re / 65536 := Nat.div_le_div_right (by omega)
  unfold rbFlipClosed rbFlipMiddle
  rw [if_neg h0]
  simp only []
  by_cases hk : rs / 65536 = re / 65536
  · rw [if_pos hk, if_pos hk]
  · rw [if_neg hk, if_neg hk]
    by_cases hp : re % 65536 ≠ 65535
    · simp only [hp, if_true, ne_eq, not_false_eq_true]
      rw [show re / 65536 - 1 + 1 = re / 65536 by omega]
    · simp only [hp, if_false]

theorem hFlipMiddle_spec {g : Bool} {h : Heap} {ans s : List Slot} {L : List Ref} (rs re : Nat)
    (i : HInv g h (refs ans ++ L)) (hs : refs s ⊆ L) (b : BInv (vw h s)) :
    ∃ a' h', hFlipMiddle h ans s rs re = some (a', h') ∧ HInv g h' (refs a' ++ L) ∧
      vw h' a' = rbFlipMiddle (vw h ans) (vw h s) rs re ∧ Keep h h' L := by
  unfold hFlipMiddle rbFlipMiddle
  simp only []
  by_cases hk : rs / 65536 = re / 65536
  · rw [if_pos hk, if_pos hk]
    exact hInsertFlipped_spec _ _ _ i hs b
  · rw [if_neg hk, if_neg hk]
    have hP : ∃ s1 h1, (if rs % 65536 > 0 then hInsertPart h ans s (rs / 65536) (rs % 65536) 65535
          else some (ans, h)) = some (s1, h1) ∧ HInv g h1 (refs s1 ++ L) ∧
        vw h1 s1 = (if rs % 65536 > 0 then (insertFlipped (vw h ans) (vw h s) (rs / 65536) (rs % 65536) 65535, rs / 65536 + 1)
          else (vw h ans, rs / 65536)).1 ∧ Keep h h1 L := by
      by_cases hp : rs % 65536 > 0
      · simp only [hp, if_true]
        exact hInsertFlipped_spec _ _ _ i hs b
      · simp only [hp, if_false]
        exact ⟨_, h, rfl, i, rfl, Keep.refl _ _⟩
    obtain ⟨s1, h1, e1, i1, w1, q1⟩ := hP
    simp only [Option.bind_eq_bind, Option.bind_some]
    rw [ite_bind_some _ e1]
    have hlo : (if rs % 65536 > 0 then rs / 65536 + 1 else rs / 65536) =
        (if rs % 65536 > 0 then (insertFlipped (vw h ans) (vw h s) (rs / 65536) (rs % 65536) 65535, rs / 65536 + 1)
          else (vw h ans, rs / 65536)).2 := by split <;> rfl
    rw [hlo]
    generalize (if rs % 65536 > 0 then (insertFlipped (vw h ans) (vw h s) (rs / 65536) (rs % 65536) 65535, rs / 65536 + 1)
          else (vw h ans, rs / 65536)) = pr at *
    generalize (if re % 65536 ≠ 65535 then re / 65536 - 1 else re / 65536) = hi at *
    have ws1 : vw h1 s = vw h s := Keep.vw (q1.mono hs)
    obtain ⟨s2, h2, e2, i2, w2, q2⟩ := hInsertKeys_spec hs (List.range' pr.2 (hi + 1 - pr.2)) i1 (by rw [ws1]; exact b)
    simp only [e2, Option.bind_some]
    have w2' : vw h2 s2 = forKeys (fun a hb => insertFullyFlipped a (vw h s) hb) pr.2 hi pr.1 := by
      rw [w2, w1, ws1]; rfl
    have ws2 : vw h2 s = vw h s := by rw [Keep.vw (q2.mono hs), ws1]
    have q12 := q1.trans q2 (List.Subset.refl _) (List.Subset.refl _)
    by_cases hp : re % 65536 ≠ 65535
    · rw [if_pos hp, if_pos hp]
      obtain ⟨s3, h3, e3, i3, w3, q3⟩ := hInsertFlipped_spec (containerNotRange 0 (re % 65536 + 1))
        (containerRangeOfOnes 0 (re % 65536 + 1)) (hi + 1) i2 hs (by rw [ws2]; exact b)
      refine ⟨s3, h3, e3, i3, ?_, q12.trans q3 (List.Subset.refl _) (List.Subset.refl _)⟩
      rw [w3, w2', ws2]; rfl
    · rw [if_neg hp, if_neg hp]
      exact ⟨s2, h2, rfl, i2, w2', q12⟩

theorem take_takeWhile (h : Heap) (s : List Slot) (k : Nat) :
    vw h (s.take (s.takeWhile (fun p => decide (p.1 < k))).length) = raCopiesUntil (vw h s) k := by
  have : s.take (s.takeWhile (fun p => decide (p.1 < k))).length = s.takeWhile (fun p => decide (p.1 < k)) := by
    conv => { lhs; arg 2; rw [← List.takeWhile_append_dropWhile (p := fun p => decide (p.1 < k)) (l := s)] }
    rw [List.take_left]
  rw [this, raCopiesUntil, vw, vw, List.takeWhile_map]
  rfl

theorem hFlipClosed_spec {g : Bool} {h : Heap} {x : HBitmap} {l : List Ref} (rs re : Nat) (hg : x.cow = g)
    (i : HInv g h (refs x.slots ++ l)) (b : BInv (vw h x.slots)) :
    ∃ a x' h', hFlipClosed h x rs re = some (a, x', h') ∧ a.cow = g ∧ x'.cow = g ∧
      HInv g h' (refs a.slots ++ (refs x'.slots ++ l)) ∧ vw h' a.slots = rbFlipClosed (vw h x.slots) rs re ∧
      vw h' x'.slots = vw h x.slots ∧ Keep h h' l := by
  by_cases h0 : rs > re
  · unfold hFlipClosed rbFlipClosed
    rw [if_pos h0, if_pos h0]
    obtain ⟨a, s', h', e, i', w1, w2, q⟩ := copySlots_spec i
    exact ⟨⟨g, a⟩, ⟨g, s'⟩, h', by simp [hCopy, hg, e], rfl, rfl, i', w1, w2, q⟩
  · rw [rbFlipClosed_middle h0]
    unfold hFlipClosed
    rw [if_neg h0]
    simp only [hg]
    have et := take_takeWhile h x.slots (rs / 65536)
    generalize (x.slots.takeWhile (fun p => decide (p.1 < rs / 65536))).length = n at *
    have er : refs x.slots = refs (x.slots.take n) ++ refs (x.slots.drop n) := by
      rw [← refs_append, List.take_append_drop]
    have ev : vw h x.slots = vw h (x.slots.take n) ++ vw h (x.slots.drop n) := by
      rw [← vw_append, List.take_append_drop]
    rw [er] at i
    generalize x.slots.take n = A at *
    generalize x.slots.drop n = B at *
    obtain ⟨a, A', h1, e1, i1, w1, w2, q1⟩ := copySlots_spec (s := A) (l := refs B ++ l) (i.perm (by count_tac))
    simp only [e1, Option.bind_eq_bind, Option.bind_some]
    have wx : vw h1 (A' ++ B) = vw h x.slots := by
      rw [vw_append, w2, Keep.vw (s := B) (q1.mono (by sub_tac)), ← ev]
    generalize hs : A' ++ B = s at *
    have i1' : HInv g h1 (refs a ++ (refs s ++ l)) := by rw [← hs]; exact i1.perm (by count_tac)
    obtain ⟨m1, h2, e2, i2, w3, q2⟩ := hFlipMiddle_spec (s := s) rs re i1' (by sub_tac) (by rw [wx]; exact b)
    simp only [e2, Option.bind_some]
    have hidx := raGetIndex_skel h1 s (re / 65536)
    rw [wx] at hidx
    generalize hm : (if raGetIndex (skel s) (re / 65536) ≥ 0 then (raGetIndex (skel s) (re / 65536) + 1).toNat
      else (-raGetIndex (skel s) (re / 65536) - 1).toNat) = m
    have er2 : refs s = refs (s.take m) ++ refs (s.drop m) := by
      rw [← refs_append, List.take_append_drop]
    have ws2 : vw h2 s = vw h x.slots := by rw [Keep.vw (q2.mono (by sub_tac)), wx]
    have ev2 : vw h x.slots = vw h2 (s.take m) ++ vw h2 (s.drop m) := by
      rw [← vw_append, List.take_append_drop, ws2]
    have edrop : vw h2 (s.drop m) = raCopiesAfter (vw h x.slots) (re / 65536) := by
      rw [vw_drop, ws2, raCopiesAfter, ← hidx, ← hm]
      split <;> rfl
    rw [er2] at i2
    generalize s.take m = C at *
    generalize s.drop m = D at *
    obtain ⟨d, D', h3, e3, i3, w4, w5, q3⟩ := copySlots_spec (s := D) (l := refs m1 ++ (refs C ++ l))
      (i2.perm (by count_tac))
    refine ⟨⟨g, m1 ++ d⟩, ⟨g, C ++ D'⟩, h3, by simp [e3], rfl, rfl, i3.perm (by count_tac), ?_, ?_, ?_⟩
    · simp only [vw_append]
      rw [w4, edrop, Keep.vw (s := m1) (q3.mono (by sub_tac)), w3, w1, et, wx]
    · simp only [vw_append]
      rw [w5, Keep.vw (s := C) (q3.mono (by sub_tac)), ← ev2]
    · have q12 : Keep h h2 l := q1.trans q2 (by sub_tac) (by sub_tac)
      exact q12.trans q3 (List.Subset.refl _) (by sub_tac)

end CRoaring
