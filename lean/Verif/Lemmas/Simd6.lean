import Verif.Lemmas.Simd5
set_option linter.unusedSimpArgs false
set_option linter.unusedVariables false
/-
The loop of `union_vector16` and `xor_vector16`.
-/
namespace CRoaring
open Spec

/-- The array `g mem` lies in the memory at offset `o` or later, or outside of it: a change of the memory before index `o + i`
does not change the values from index `i` on. -/
def View (g : List Nat → List Nat) (o : Nat) : Prop :=
  ∀ m m' i, m'.length = m.length → m'.drop (o + i) = m.drop (o + i) → (g m').length = (g m).length ∧ (g m').drop i = (g m).drop i

theorem view_const (A : List Nat) (o : Nat) : View (fun _ => A) o := fun _ _ _ _ _ => ⟨rfl, rfl⟩

theorem view_window (o k : Nat) : View (fun m => (m.drop o).take k) o := by
  intro m m' i hl hd
  refine ⟨by simp [hl], ?_⟩
  simp only [List.drop_take, List.drop_drop, hd]

theorem view_drop {g : List Nat → List Nat} {o : Nat} (h : View g o) (j : Nat) : View (fun m => (g m).drop j) (o + j) := by
  intro m m' i hl hd
  have := h m m' (j + i) hl (by rw [← Nat.add_assoc]; exact hd)
  simp only [List.length_drop, List.drop_drop, this.1, this.2, and_self]

theorem view_mono {g : List Nat → List Nat} {o o' : Nat} (h : View g o) (ho : o' ≤ o) : View g o' := by
  intro m m' i hl hd
  exact h m m' i hl (drop_mono hd (by omega))

/-! ### The first half of a merge -/

theorem countP_lt_of_sorted {m M : List Nat} (h : NSorted (m ++ M)) {z w : Nat} (hw : w ∈ m) (hz : z ≤ w) :
    (m ++ M).countP (fun x => decide (x < z)) < m.length := by
  have hM : M.countP (fun x => decide (x < z)) = 0 := by
    rw [List.countP_eq_zero]
    intro x hx
    have := (List.pairwise_append.1 h).2.2 w hw x hx
    simp; omega
  have hm : m.countP (fun x => decide (x < z)) < m.length := by
    rcases Nat.lt_or_ge (m.countP (fun x => decide (x < z))) m.length with h1 | h1
    · exact h1
    · have h2 := Nat.le_antisymm List.countP_le_length h1
      rw [List.countP_eq_length] at h2
      have := h2 w hw
      simp at this
      omega
  rw [List.countP_append, hM]
  omega

/-- If all values of one of the vectors are less than `z`, so is the smaller half. -/
theorem half_lt {m M V X : List Nat} (h : NSorted (m ++ M)) (hp : (m ++ M).Perm (V ++ X)) {z : Nat}
    (hV : V.length = m.length) (hlt : ∀ x ∈ V, x < z) : ∀ w ∈ m, w < z := by
  intro w hw
  rcases Nat.lt_or_ge w z with h1 | h1
  · exact h1
  · exfalso
    have h2 := countP_lt_of_sorted h hw h1
    rw [hp.countP_eq, List.countP_append] at h2
    have h3 : V.countP (fun x => decide (x < z)) = V.length := by
      rw [List.countP_eq_length]
      intro x hx
      simpa using hlt x hx
    omega

theorem half_lt' {m M V X : List Nat} (h : NSorted (m ++ M)) (hp : (m ++ M).Perm (V ++ X)) {z : Nat}
    (hV : X.length = m.length) (hlt : ∀ x ∈ X, x < z) : ∀ w ∈ m, w < z :=
  half_lt h (hp.trans List.perm_append_comm) hV hlt

/-! ### The invariant -/

/-- What a function that stores a vector does to the output: `em W` is what is in the output when the vectors that were stored are
`W`. -/
structure Stores (store : V8 → V8 → V8 × Nat) (em : List Nat → List Nat) : Prop where
  first : ∀ new : V8, new.length = 8 → (store (List.replicate 8 65535) new).1 = em new ++ List.replicate (8 - (em new).length) 0 ∧
    (store (List.replicate 8 65535) new).2 = (em new).length ∧ (em new).length ≤ 8
  next : ∀ (W : List Nat) (last new : V8), last.length = 8 → new.length = 8 → ∃ F : List Nat, F.length ≤ 8 ∧
    em (W ++ last ++ new) = em (W ++ last) ++ F ∧
    (store last new).1 = F ++ List.replicate (8 - F.length) 0 ∧ (store last new).2 = F.length

/-- `W`: the values of the vectors that have been stored. -/
structure MergeInv (gA gB : List Nat → List Nat) (A B : List Nat) (cap : Nat) (em : List Nat → List Nat) (s : MergeSt) (W : List Nat) :
    Prop where
  a8 : 8 * s.pos1 ≤ A.length
  b8 : 8 * s.pos2 ≤ B.length
  p1 : 1 ≤ s.pos1
  p2 : 1 ≤ s.pos2
  lmax : s.vecMax.length = 8
  llast : s.last.length = 8
  wlast : ∃ W0, W = W0 ++ s.last
  wlen : W.length = 8 * (s.pos1 + s.pos2) - 8
  sorted : NSorted (W ++ s.vecMax)
  perm : (W ++ s.vecMax).Perm (A.take (8 * s.pos1) ++ B.take (8 * s.pos2))
  ltA : ∀ w ∈ W, ∀ z ∈ A.drop (8 * s.pos1), w < z
  ltB : ∀ w ∈ W, ∀ z ∈ B.drop (8 * s.pos2), w < z
  memA : (gA s.mem).length = A.length ∧ (gA s.mem).drop (8 * s.pos1) = A.drop (8 * s.pos1)
  memB : (gB s.mem).length = B.length ∧ (gB s.mem).drop (8 * s.pos2) = B.drop (8 * s.pos2)
  mlen : s.mem.length = cap
  nlen : s.n = (em W).length
  nle : s.n ≤ W.length
  out : s.mem.take s.n = em W

theorem nsorted_of_ssorted {l : List Nat} (h : SSorted l) : NSorted l := List.Pairwise.imp Nat.le_of_lt h

theorem store_views {gA : List Nat → List Nat} {A : List Nat} {o p : Nat} (hv : View gA o) {mem mem' : List Nat}
    (hl : mem'.length = mem.length) {n : Nat} (hd : mem'.drop n = mem.drop n) (hn : n ≤ o + p)
    (h : (gA mem).length = A.length ∧ (gA mem).drop p = A.drop p) :
    (gA mem').length = A.length ∧ (gA mem').drop p = A.drop p := by
  have := hv mem mem' p hl (drop_mono hd hn)
  exact ⟨this.1.trans h.1, this.2.trans h.2⟩

section
variable {store : V8 → V8 → V8 × Nat} {em : List Nat → List Nat} {gA gB : List Nat → List Nat} {A B : List Nat} {cap : Nat}

/-- One merge and store, with a block of `A`. -/
theorem mergeEmit_A (hst : Stores store em) (hA : SSorted A) (hB : SSorted B) (vA : View gA B.length) (vB : View gB A.length)
    (hcap : A.length + B.length ≤ cap) {s : MergeSt} {W : List Nat} (h : MergeInv gA gB A B cap em s W)
    (hroom : 8 * (s.pos1 + 1) ≤ A.length)
    (hmax : ∀ x ∈ s.vecMax, ∀ z ∈ B.drop (8 * s.pos2), x < z) :
    ∃ s' W', mergeEmit store { s with pos1 := s.pos1 + 1 } (blk A (8 * s.pos1)) = .ok s' ∧ MergeInv gA gB A B cap em s' W' ∧
      s'.pos1 = s.pos1 + 1 ∧ s'.pos2 = s.pos2 := by
  obtain ⟨W0, hW0⟩ := h.wlast
  have hVs : NSorted (blk A (8 * s.pos1)) := nsorted_of_ssorted (blk_sorted hA _)
  have hVl : (blk A (8 * s.pos1)).length = 8 := blk_length (by omega)
  have hXs : NSorted s.vecMax := (List.pairwise_append.1 h.sorted).2.1
  obtain ⟨m1, m2, m3, m4⟩ := sseMerge_spec hVs hXs hVl h.lmax
  obtain ⟨P, hS⟩ : ∃ P, sseMerge (blk A (8 * s.pos1)) s.vecMax = P := ⟨_, rfl⟩
  rw [hS] at m1 m2 m3 m4
  obtain ⟨F, f1, f2, f3, f4⟩ := hst.next W0 s.last P.1 h.llast m1
  rw [← hW0] at f2
  have hwl := h.wlen
  have hnl := h.nle
  have hp1 := h.p1
  have hp2 := h.p2
  have hb8 := h.b8
  obtain ⟨M', t1, t2, t3, t4⟩ := storeu_take (C := s.mem) (n := s.n) (F := F) (Z := List.replicate (8 - F.length) 0)
    (by rw [List.length_append, List.length_replicate, h.mlen]; omega)
  rw [List.length_append, List.length_replicate, show F.length + (8 - F.length) = 8 by omega] at t4
  have hsA : ∀ z ∈ A.drop (8 * (s.pos1 + 1)), ∀ x ∈ blk A (8 * s.pos1), x < z := by
    intro z hz x hx
    refine take_lt_drop hA (i := 8 * (s.pos1 + 1)) ?_ hz
    rw [show 8 * (s.pos1 + 1) = 8 * s.pos1 + 8 by omega, mem_take_blk]
    exact Or.inr hx
  refine ⟨{ s with pos1 := s.pos1 + 1, vecMax := P.2, last := P.1, mem := M', n := s.n + F.length },
    W ++ P.1, ?_, ?_, rfl, rfl⟩
  · rw [mergeEmit]
    simp only
    rw [hS, f3, f4, t1, ok_bind]
  · constructor
    · exact hroom
    · exact h.b8
    · simp
    · exact h.p2
    · exact m2
    · exact m1
    · exact ⟨W, rfl⟩
    · simp only [List.length_append, m1]; omega
    · -- sorted
      rw [List.append_assoc, NSorted, List.pairwise_append]
      refine ⟨(List.pairwise_append.1 h.sorted).1, m3, ?_⟩
      intro w hw y hy
      rcases List.mem_append.1 ((m4.mem_iff).1 hy) with h1 | h1
      · exact Nat.le_of_lt (h.ltA w hw y (mem_blk_drop h1))
      · exact (List.pairwise_append.1 h.sorted).2.2 w hw y h1
    · -- permutation
      rw [List.append_assoc]
      refine (List.Perm.append_left W m4).trans ?_
      have e : A.take (8 * (s.pos1 + 1)) = A.take (8 * s.pos1) ++ blk A (8 * s.pos1) := by
        rw [show 8 * (s.pos1 + 1) = 8 * s.pos1 + 8 by omega, List.take_add, blk]
      simp only [e]
      refine ((List.Perm.append_left W List.perm_append_comm).trans ?_)
      rw [← List.append_assoc, List.append_assoc (A.take _)]
      refine (List.Perm.append_right _ h.perm).trans ?_
      rw [List.append_assoc]
      exact List.Perm.append_left _ List.perm_append_comm
    · intro w hw z hz
      rcases List.mem_append.1 hw with h1 | h1
      · exact h.ltA w h1 z (drop_drop_mem (p := fun z => z ∈ A.drop (8 * s.pos1)) (fun _ hx => hx) (by dsimp only; omega) z hz)
      · exact half_lt m3 m4 (by rw [m1, hVl]) (hsA z hz) w h1
    · intro w hw z hz
      rcases List.mem_append.1 hw with h1 | h1
      · exact h.ltB w h1 z hz
      · exact half_lt' m3 m4 (by rw [m1, h.lmax]) (fun x hx => hmax x hx z hz) w h1
    · exact store_views vA t2 t4 (by simp; omega) ⟨h.memA.1, drop_mono h.memA.2 (by dsimp only; omega)⟩
    · exact store_views vB t2 t4 (by simp; omega) h.memB
    · simp only [t2, h.mlen]
    · simp only [f2, List.length_append, h.nlen]
    · simp only [List.length_append, m1]; omega
    · simp only [t3, h.out, f2]

/-- One merge and store, with a block of `B`. -/
theorem mergeEmit_B (hst : Stores store em) (hA : SSorted A) (hB : SSorted B) (vA : View gA B.length) (vB : View gB A.length)
    (hcap : A.length + B.length ≤ cap) {s : MergeSt} {W : List Nat} (h : MergeInv gA gB A B cap em s W)
    (hroom : 8 * (s.pos2 + 1) ≤ B.length)
    (hmax : ∀ x ∈ s.vecMax, ∀ z ∈ A.drop (8 * s.pos1), x < z) :
    ∃ s' W', mergeEmit store { s with pos2 := s.pos2 + 1 } (blk B (8 * s.pos2)) = .ok s' ∧ MergeInv gA gB A B cap em s' W' ∧
      s'.pos2 = s.pos2 + 1 ∧ s'.pos1 = s.pos1 := by
  obtain ⟨W0, hW0⟩ := h.wlast
  have hVs : NSorted (blk B (8 * s.pos2)) := nsorted_of_ssorted (blk_sorted hB _)
  have hVl : (blk B (8 * s.pos2)).length = 8 := blk_length (by omega)
  have hXs : NSorted s.vecMax := (List.pairwise_append.1 h.sorted).2.1
  obtain ⟨m1, m2, m3, m4⟩ := sseMerge_spec hVs hXs hVl h.lmax
  obtain ⟨P, hS⟩ : ∃ P, sseMerge (blk B (8 * s.pos2)) s.vecMax = P := ⟨_, rfl⟩
  rw [hS] at m1 m2 m3 m4
  obtain ⟨F, f1, f2, f3, f4⟩ := hst.next W0 s.last P.1 h.llast m1
  rw [← hW0] at f2
  have hwl := h.wlen
  have hnl := h.nle
  have hp1 := h.p1
  have hp2 := h.p2
  have ha8 := h.a8
  obtain ⟨M', t1, t2, t3, t4⟩ := storeu_take (C := s.mem) (n := s.n) (F := F) (Z := List.replicate (8 - F.length) 0)
    (by rw [List.length_append, List.length_replicate, h.mlen]; omega)
  rw [List.length_append, List.length_replicate, show F.length + (8 - F.length) = 8 by omega] at t4
  have hsB : ∀ z ∈ B.drop (8 * (s.pos2 + 1)), ∀ x ∈ blk B (8 * s.pos2), x < z := by
    intro z hz x hx
    refine take_lt_drop hB (i := 8 * (s.pos2 + 1)) ?_ hz
    rw [show 8 * (s.pos2 + 1) = 8 * s.pos2 + 8 by omega, mem_take_blk]
    exact Or.inr hx
  refine ⟨{ s with pos2 := s.pos2 + 1, vecMax := P.2, last := P.1, mem := M', n := s.n + F.length },
    W ++ P.1, ?_, ?_, rfl, rfl⟩
  · rw [mergeEmit]
    simp only
    rw [hS, f3, f4, t1, ok_bind]
  · constructor
    · exact h.a8
    · exact hroom
    · exact h.p1
    · simp
    · exact m2
    · exact m1
    · exact ⟨W, rfl⟩
    · simp only [List.length_append, m1]; omega
    · -- sorted
      rw [List.append_assoc, NSorted, List.pairwise_append]
      refine ⟨(List.pairwise_append.1 h.sorted).1, m3, ?_⟩
      intro w hw y hy
      rcases List.mem_append.1 ((m4.mem_iff).1 hy) with h1 | h1
      · exact Nat.le_of_lt (h.ltB w hw y (mem_blk_drop h1))
      · exact (List.pairwise_append.1 h.sorted).2.2 w hw y h1
    · -- permutation
      rw [List.append_assoc]
      refine (List.Perm.append_left W m4).trans ?_
      have e : B.take (8 * (s.pos2 + 1)) = B.take (8 * s.pos2) ++ blk B (8 * s.pos2) := by
        rw [show 8 * (s.pos2 + 1) = 8 * s.pos2 + 8 by omega, List.take_add, blk]
      simp only [e]
      refine ((List.Perm.append_left W List.perm_append_comm).trans ?_)
      rw [← List.append_assoc, ← List.append_assoc]
      exact List.Perm.append_right _ h.perm
    · intro w hw z hz
      rcases List.mem_append.1 hw with h1 | h1
      · exact h.ltA w h1 z hz
      · exact half_lt' m3 m4 (by rw [m1, h.lmax]) (fun x hx => hmax x hx z hz) w h1
    · intro w hw z hz
      rcases List.mem_append.1 hw with h1 | h1
      · exact h.ltB w h1 z (drop_drop_mem (p := fun z => z ∈ B.drop (8 * s.pos2)) (fun _ hx => hx) (by dsimp only; omega) z hz)
      · exact half_lt m3 m4 (by rw [m1, hVl]) (hsB z hz) w h1
    · exact store_views vA t2 t4 (by simp; omega) h.memA
    · exact store_views vB t2 t4 (by simp; omega) ⟨h.memB.1, drop_mono h.memB.2 (by dsimp only; omega)⟩
    · simp only [t2, h.mlen]
    · simp only [f2, List.length_append, h.nlen]
    · simp only [List.length_append, m1]; omega
    · simp only [t3, h.out, f2]

/-- The values in the register are less than what is unread in one array if the next value of the other is not greater. -/
theorem max_lt {s : MergeSt} {W : List Nat} (h : MergeInv gA gB A B cap em s W) (hA : SSorted A) (hB : SSorted B)
    (ha : 8 * s.pos1 < A.length) (hb : 8 * s.pos2 < B.length) :
    (A[8 * s.pos1] ≤ B[8 * s.pos2] → ∀ x ∈ s.vecMax, ∀ z ∈ B.drop (8 * s.pos2), x < z) ∧
    (B[8 * s.pos2] ≤ A[8 * s.pos1] → ∀ x ∈ s.vecMax, ∀ z ∈ A.drop (8 * s.pos1), x < z) := by
  have hxA : ∀ x ∈ s.vecMax, x < A[8 * s.pos1] ∨ x < B[8 * s.pos2] := by
    intro x hx
    have hm := (h.perm.mem_iff).1 (List.mem_append.2 (Or.inr hx))
    rcases List.mem_append.1 hm with h1 | h1
    · exact Or.inl (take_lt_drop hA h1 (by rw [List.drop_eq_getElem_cons ha]; exact List.mem_cons_self))
    · exact Or.inr (take_lt_drop hB h1 (by rw [List.drop_eq_getElem_cons hb]; exact List.mem_cons_self))
  have hge : ∀ {A : List Nat}, SSorted A → ∀ {i : Nat} (hi : i < A.length), ∀ z ∈ A.drop i, A[i] ≤ z := by
    intro A hA i hi z hz
    rw [List.drop_eq_getElem_cons hi] at hz
    rcases List.mem_cons.1 hz with rfl | hz
    · exact Nat.le_refl _
    · refine Nat.le_of_lt (take_lt_drop hA (i := i + 1) ?_ hz)
      rw [List.mem_iff_getElem]
      exact ⟨i, by simp; omega, by simp⟩
  constructor
  · intro hc x hx z hz
    have := hge hB hb z hz
    rcases hxA x hx with h1 | h1 <;> omega
  · intro hc x hx z hz
    have := hge hA ha z hz
    rcases hxA x hx with h1 | h1 <;> omega

theorem mergeLoop_spec (hst : Stores store em) (hA : SSorted A) (hB : SSorted B) (vA : View gA B.length) (vB : View gB A.length)
    (hcap : A.length + B.length ≤ cap) (fuel curA curB : Nat) (s : MergeSt) (W : List Nat) (h : MergeInv gA gB A B cap em s W)
    (ha : s.pos1 < A.length / 8) (hb : s.pos2 < B.length / 8) (ca : curA = A[8 * s.pos1]) (cb : curB = B[8 * s.pos2])
    (hf : (A.length / 8 - s.pos1) + (B.length / 8 - s.pos2) < fuel) :
    ∃ s' W', mergeLoop store gA gB (A.length / 8) (B.length / 8) fuel curA curB s = .ok s' ∧ MergeInv gA gB A B cap em s' W' ∧
      (s'.pos1 = A.length / 8 ∨ s'.pos2 = B.length / 8) := by
  induction fuel generalizing curA curB s W with
  | zero => omega
  | succ fuel ih =>
    rw [mergeLoop]
    obtain ⟨g1, g2⟩ := max_lt h hA hB (by omega) (by omega)
    by_cases hc : curA ≤ curB
    · obtain ⟨s', W', e, hI, q1, q2⟩ := mergeEmit_A hst hA hB vA vB hcap h (by omega) (g1 (by omega))
      have el : loadu (gA s.mem) (8 * s.pos1) = .ok (blk A (8 * s.pos1)) := by
        rw [loadu_eq (by rw [h.memA.1]; omega), h.memA.2, blk]
      rw [if_pos hc, el, ok_bind]
      simp only
      by_cases hl : s.pos1 + 1 < A.length / 8
      · have er : read16 (gA s.mem) (8 * (s.pos1 + 1)) = .ok (A[8 * (s.pos1 + 1)]) := by
          rw [read16_eq (by rw [h.memA.1]; omega), drop_congr h.memA.1 h.memA.2 (by omega) (by omega)]
        rw [if_pos hl, er, ok_bind, e, ok_bind]
        exact ih _ _ s' W' hI (by omega) (by omega) (by simp only [q1]) (by simp only [q2, cb]) (by omega)
      · rw [if_neg hl]
        exact ⟨s', W', e, hI, Or.inl (by omega)⟩
    · obtain ⟨s', W', e, hI, q1, q2⟩ := mergeEmit_B hst hA hB vA vB hcap h (by omega) (g2 (by omega))
      have el : loadu (gB s.mem) (8 * s.pos2) = .ok (blk B (8 * s.pos2)) := by
        rw [loadu_eq (by rw [h.memB.1]; omega), h.memB.2, blk]
      rw [if_neg hc, el, ok_bind]
      simp only
      by_cases hl : s.pos2 + 1 < B.length / 8
      · have er : read16 (gB s.mem) (8 * (s.pos2 + 1)) = .ok (B[8 * (s.pos2 + 1)]) := by
          rw [read16_eq (by rw [h.memB.1]; omega), drop_congr h.memB.1 h.memB.2 (by omega) (by omega)]
        rw [if_pos hl, er, ok_bind, e, ok_bind]
        exact ih _ _ s' W' hI (by omega) (by omega) (by simp only [q2, ca]) (by simp only [q1]) (by omega)
      · rw [if_neg hl]
        exact ⟨s', W', e, hI, Or.inr (by omega)⟩

theorem mergeVec_spec (hst : Stores store em) (hA : SSorted A) (hB : SSorted B) (vA : View gA B.length) (vB : View gB A.length)
    (hcap : A.length + B.length ≤ cap) {mem : List Nat} (hm : mem.length = cap) (eA : gA mem = A) (eB : gB mem = B)
    (ha : 8 ≤ A.length) (hb : 8 ≤ B.length) :
    ∃ s W, mergeVec store gA gB A.length B.length mem = .ok s ∧ MergeInv gA gB A B cap em s W ∧
      (s.pos1 = A.length / 8 ∨ s.pos2 = B.length / 8) := by
  have hAl : (blk A 0).length = 8 := blk_length (by omega)
  have hBl : (blk B 0).length = 8 := blk_length (by omega)
  obtain ⟨m1, m2, m3, m4⟩ := sseMerge_spec (nsorted_of_ssorted (blk_sorted hA 0)) (nsorted_of_ssorted (blk_sorted hB 0)) hAl hBl
  obtain ⟨P, hS⟩ : ∃ P, sseMerge (blk A 0) (blk B 0) = P := ⟨_, rfl⟩
  rw [hS] at m1 m2 m3 m4
  obtain ⟨f1, f2, f3⟩ := hst.first _ m1
  obtain ⟨M', t1, t2, t3, t4⟩ := storeu_take (C := mem) (n := 0) (F := em P.1)
    (Z := List.replicate (8 - (em P.1).length) 0)
    (by rw [List.length_append, List.length_replicate]; omega)
  rw [List.length_append, List.length_replicate, show (em P.1).length +
    (8 - (em P.1).length) = 8 by omega] at t4
  have hltA : ∀ {A : List Nat}, SSorted A → ∀ z ∈ A.drop 8, ∀ x ∈ blk A 0, x < z := by
    intro A hA z hz x hx
    refine take_lt_drop hA (i := 8) ?_ hz
    simpa [blk] using hx
  have hI : MergeInv gA gB A B cap em { pos1 := 1, pos2 := 1, vecMax := P.2, last := P.1, mem := M', n := 0 + (em P.1).length }
      P.1 := by
    constructor
    · simpa using ha
    · simpa using hb
    · simp
    · simp
    · exact m2
    · exact m1
    · exact ⟨[], rfl⟩
    · simp [m1]
    · exact m3
    · simpa [blk] using m4
    · intro w hw z hz
      exact half_lt m3 m4 (by rw [m1, hAl]) (hltA hA z (by simpa using hz)) w hw
    · intro w hw z hz
      exact half_lt' m3 m4 (by rw [m1, hBl]) (hltA hB z (by simpa using hz)) w hw
    · exact store_views vA t2 t4 (by simp) ⟨by rw [eA], by rw [eA]⟩
    · exact store_views vB t2 t4 (by simp) ⟨by rw [eB], by rw [eB]⟩
    · simp only [t2, hm]
    · simp
    · simp only [m1]; omega
    · simp only [t3, List.take_zero, List.nil_append]
  have e1 : loadu (gA mem) 0 = .ok (blk A 0) := by rw [eA, loadu_eq (by omega), blk]
  have e2 : loadu (gB mem) 0 = .ok (blk B 0) := by rw [eB, loadu_eq (by omega), blk]
  rw [mergeVec, e1, ok_bind, e2, ok_bind, mergeEmit]
  simp only
  rw [hS, f1, f2, t1, ok_bind, ok_bind]
  by_cases hc : 1 < A.length / 8 ∧ 1 < B.length / 8
  · have r1 : read16 (gA M') 8 = .ok (A[8]) := by
      have := hI.memA
      simp only [Nat.mul_one] at this
      rw [read16_eq (by rw [this.1]; omega), drop_congr this.1 this.2 (Nat.le_refl _) (by omega)]
    have r2 : read16 (gB M') 8 = .ok (B[8]) := by
      have := hI.memB
      simp only [Nat.mul_one] at this
      rw [read16_eq (by rw [this.1]; omega), drop_congr this.1 this.2 (Nat.le_refl _) (by omega)]
    rw [if_pos hc]
    simp only
    rw [r1, ok_bind, r2, ok_bind]
    exact mergeLoop_spec hst hA hB vA vB hcap _ _ _ _ _ hI hc.1 hc.2 rfl rfl (by simp only; omega)
  · rw [if_neg hc]
    refine ⟨_, _, rfl, hI, ?_⟩
    simp only
    omega

end

end CRoaring
