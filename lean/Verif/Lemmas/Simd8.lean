import Verif.Lemmas.Simd7
set_option linter.unusedSimpArgs false
set_option linter.unusedVariables false
/-
`union_vector16`: the result.
-/
namespace CRoaring
open Spec

theorem getLastD_append {W l : List Nat} (h : l ≠ []) (p q : Nat) : (W ++ l).getLastD p = l.getLastD q := by
  rw [List.getLastD_eq_getLast?, List.getLastD_eq_getLast?, List.getLast?_append]
  cases e : l.getLast? with
  | none => simp [List.getLast?_eq_none_iff] at e; exact absurd e h
  | some v => rfl

theorem ne_nil_of_length8 {l : List Nat} (h : l.length = 8) : l ≠ [] := by
  intro e; rw [e] at h; simp at h

/-- `store_unique` leaves out repeated values. -/
theorem stores_unique : Stores storeUnique (dedupFrom 65535) := by
  constructor
  · intro new hn
    have h := storeUnique_spec (old := List.replicate 8 65535) (by simp) hn
    have e : (List.replicate 8 65535).getLastD 0 = 65535 := rfl
    rw [e] at h
    exact ⟨h.1, h.2, hn ▸ dedupFrom_length _ _⟩
  · intro W last new hl hn
    have h := storeUnique_spec hl hn
    exact ⟨_, hn ▸ dedupFrom_length _ _, by rw [dedupFrom_append, getLastD_append (ne_nil_of_length8 hl) _ 0], h.1, h.2⟩

theorem count_le_two {A B : List Nat} (hA : SSorted A) (hB : SSorted B) (i j x : Nat) :
    (A.take i ++ B.take j).count x = (if x ∈ A.take i then 1 else 0) + (if x ∈ B.take j then 1 else 0) := by
  have hc : ∀ {L : List Nat}, SSorted L → ∀ k, (L.take k).count x = if x ∈ L.take k then 1 else 0 := by
    intro L hL k
    have hn : (L.take k).Nodup := sorted_nodup (hL.sublist (List.take_sublist _ _))
    by_cases h : x ∈ L.take k
    · rw [if_pos h, hn.count, if_pos h]
    · rw [if_neg h, List.count_eq_zero_of_not_mem h]
  rw [List.count_append, hc hA, hc hB]

section
variable {em : List Nat → List Nat} {gA gB : List Nat → List Nat} {A B : List Nat} {cap : Nat}

/-- The first value is not 65535: the arrays have at least eight values. -/
theorem minv_head {s : MergeSt} {W : List Nat} (h : MergeInv gA gB A B cap em s W) (hA : SSorted A) (rA : ∀ x ∈ A, x < 65536) :
    ∃ w t, W = w :: t ∧ w < 65535 := by
  have hwl := h.wlen
  have hp1 := h.p1
  have hp2 := h.p2
  have ha8 := h.a8
  cases hW : W with
  | nil => rw [hW] at hwl; simp at hwl; omega
  | cons w t =>
    refine ⟨w, t, rfl, ?_⟩
    have hm : A[0] ∈ W ++ s.vecMax := by
      rw [h.perm.mem_iff, List.mem_append]
      refine Or.inl ?_
      rw [List.mem_iff_getElem]
      exact ⟨0, by simp; omega, by simp⟩
    have hs := h.sorted
    rw [hW, List.cons_append] at hm hs
    have hle : w ≤ A[0] := by
      rcases List.mem_cons.1 hm with e | hm
      · omega
      · exact (List.pairwise_cons.1 hs).1 _ hm
    have h01 := rdL_strict hA (i := 0) (j := 1) (by omega) (by omega)
    rw [rdL_eq (by omega), rdL_eq (by omega)] at h01
    have := rA A[1] (List.getElem_mem _)
    omega

/-- What is in the output and what `store_unique` makes of the register, together: the values seen so far, in order. -/
theorem stream_sorted {s : MergeSt} {W : List Nat} (h : MergeInv gA gB A B cap (dedupFrom 65535) s W) (hA : SSorted A) (hB : SSorted B)
    (rA : ∀ x ∈ A, x < 65536) :
    SSorted (dedupFrom 65535 W ++ dedupFrom (s.last.getLastD 0) s.vecMax) ∧
    (∀ x, x ∈ dedupFrom 65535 W ++ dedupFrom (s.last.getLastD 0) s.vecMax ↔ x ∈ A.take (8 * s.pos1) ∨ x ∈ B.take (8 * s.pos2)) ∧
    (∀ x ∈ dedupFrom 65535 W, x ∈ W) ∧ dedupFrom (s.last.getLastD 0) s.vecMax ≠ [] := by
  obtain ⟨w, t, hW, hw⟩ := minv_head h hA rA
  obtain ⟨W0, hW0⟩ := h.wlast
  have hs := h.sorted
  have e1 : dedupFrom 65535 W ++ dedupFrom (s.last.getLastD 0) s.vecMax = dd (W ++ s.vecMax) := by
    have : dedupFrom 65535 (W ++ s.vecMax) = dd (W ++ s.vecMax) := by
      rw [hW, List.cons_append, dedupFrom, if_neg (by omega), dd]
    rw [← this, dedupFrom_append]
    congr 2
    rw [hW0, getLastD_append (ne_nil_of_length8 h.llast) _ 0]
  have e2 : dedupFrom 65535 W = dd W := by rw [hW, dedupFrom, if_neg (by omega), dd]
  refine ⟨by rw [e1]; exact dd_sorted hs, fun x => by rw [e1, mem_dd hs, h.perm.mem_iff, List.mem_append], ?_, ?_⟩
  · intro x hx
    rw [e2] at hx
    exact (mem_dd (List.pairwise_append.1 hs).1 x).1 hx
  · intro he
    -- eight equal values
    have hns : NSorted (s.last.getLastD 0 :: s.vecMax) := by
      refine List.pairwise_cons.2 ⟨?_, (List.pairwise_append.1 hs).2.1⟩
      intro y hy
      refine (List.pairwise_append.1 hs).2.2 _ ?_ y hy
      rw [hW0, List.mem_append]
      refine Or.inr ?_
      rw [List.getLastD_eq_getLast?, List.getLast?_eq_some_getLast (ne_nil_of_length8 h.llast)]
      exact List.getLast_mem _
    have hall : ∀ x ∈ s.vecMax, x = s.last.getLastD 0 := by
      intro x hx
      rcases Decidable.em (x = s.last.getLastD 0) with h1 | h1
      · exact h1
      · have := (mem_dedupFrom hns x).2 ⟨hx, h1⟩
        rw [he] at this
        cases this
    have hrep : s.vecMax = List.replicate 8 (s.last.getLastD 0) := List.eq_replicate_iff.2 ⟨h.lmax, hall⟩
    have hcnt := h.perm.count_eq (s.last.getLastD 0)
    rw [count_le_two hA hB, List.count_append, hrep, List.count_replicate_self] at hcnt
    split at hcnt <;> split at hcnt <;> omega

end

/-- The end of `union_vector16`. -/
theorem unionEnd_spec {g g' : List Nat → List Nat} {i j left n o' : Nat} {buffer mem F T R : List Nat}
    (hT : readN (g mem) i T.length = .ok T) (hb : buffer.length = 16) (hF : buffer.take left = F) (hl : left = F.length) (h8 : left ≤ 8)
    (hk : T.length < 8) (hne : F ≠ []) (v' : View g' o') (hR : (g' mem).drop j = R) (ho : n + (F.length + T.length) ≤ o' + j)
    (hcap : n + (F.length + T.length) + R.length ≤ mem.length) :
    ∃ L mem', NSorted L ∧ L.Perm (F ++ T) ∧ unionEnd g g' i T.length j R.length buffer left mem n = .ok (mem', n + (unionU16 (dd L) R).length) ∧
      mem'.length = mem.length ∧ mem'.take (n + (unionU16 (dd L) R).length) = mem.take n ++ unionU16 (dd L) R := by
  obtain ⟨b1, s1, s2, s3, _⟩ := storeu_take (C := buffer) (n := left) (F := T) (Z := []) (by simp; omega)
  rw [List.append_nil] at s1
  rw [hF] at s3
  have hFp : 0 < F.length := List.length_pos_iff.2 hne
  obtain ⟨q1, q2, q3⟩ := qsort16_spec b1 (left + T.length) (by omega)
  rw [s3] at q3
  obtain ⟨b2, u1, u2, u3⟩ := unique16_spec (buf := qsort16 b1 (left + T.length)) (len := left + T.length) (by omega) (by omega)
  refine ⟨(qsort16 b1 (left + T.length)).take (left + T.length), ?_⟩
  generalize hL : (qsort16 b1 (left + T.length)).take (left + T.length) = L at q2 q3 u1 u3
  have hLl : L.length = F.length + T.length := by rw [q3.length_eq, List.length_append]
  have hdl := dd_length L
  have w1 : Win ((fun _ => b2) mem) (dd L) 0 := by
    intro k _ hk
    have := congrArg (fun l => l[k]?) u3
    simp only [List.getElem?_take, if_pos hk] at this
    exact this
  have w2 : Win ((fun m => (g' m).drop j) mem) R 0 := by
    intro k _ hk
    simp only [hR]
  obtain ⟨m', e1, e2, e3⟩ := unionMem_spec (g1 := fun _ => b2) (g2 := fun m => (g' m).drop j) (S1 := dd L) (S2 := R) (mem := mem)
    (base := n) (view_const b2 (n + R.length)) (view_drop v' j) (by omega) (by omega) (by omega) w1 w2
  refine ⟨m', q2, q3, ?_, e2, e3⟩
  rw [unionEnd, hT, ok_bind, s1, ok_bind, u1, ok_bind]
  simp only
  rw [e1, ok_bind]

/-- What the end of `union_vector16` gives, together with what is in the output, is the union. -/
theorem union_assemble {A B E F T R L : List Nat} {i j : Nat} (hA : SSorted A) (hB : SSorted B) (hEF : SSorted (E ++ F))
    (hm : ∀ x, x ∈ E ++ F ↔ x ∈ A.take i ∨ x ∈ B.take j) (hT : T = A.drop i) (hR : R = B.drop j)
    (ltA : ∀ w ∈ E, ∀ z ∈ A.drop i, w < z) (ltB : ∀ w ∈ E, ∀ z ∈ B.drop j, w < z) (hL : NSorted L) (hp : L.Perm (F ++ T)) :
    E ++ unionU16 (dd L) R = unionU16 A B := by
  have hE : SSorted E := hEF.sublist (List.sublist_append_left _ _)
  have hRs : SSorted R := hR ▸ hB.sublist (List.drop_sublist _ _)
  apply sorted_unique
  · refine sorted_append hE (unionU16_sorted (dd_sorted hL) hRs) ?_
    intro x hx y hy
    rw [mem_unionU16, mem_dd hL, hp.mem_iff, List.mem_append] at hy
    rcases hy with (hy | hy) | hy
    · exact (List.pairwise_append.1 hEF).2.2 x hx y hy
    · exact ltA x hx y (hT ▸ hy)
    · exact ltB x hx y (hR ▸ hy)
  · exact unionU16_sorted hA hB
  · intro x
    rw [List.mem_append, mem_unionU16, mem_unionU16, mem_dd hL, hp.mem_iff, List.mem_append]
    have h1 := hm x
    rw [List.mem_append] at h1
    have h2 : x ∈ A ↔ x ∈ A.take i ∨ x ∈ A.drop i := ⟨fun h => mem_take_or_drop i h, fun h => h.elim List.mem_of_mem_take List.mem_of_mem_drop⟩
    have h3 : x ∈ B ↔ x ∈ B.take j ∨ x ∈ B.drop j := ⟨fun h => mem_take_or_drop j h, fun h => h.elim List.mem_of_mem_take List.mem_of_mem_drop⟩
    rw [h2, h3, hT, hR]
    constructor
    · rintro (h | (h | h) | h)
      · rcases h1.1 (Or.inl h) with h | h
        · exact Or.inl (Or.inl h)
        · exact Or.inr (Or.inl h)
      · rcases h1.1 (Or.inr h) with h | h
        · exact Or.inl (Or.inl h)
        · exact Or.inr (Or.inl h)
      · exact Or.inl (Or.inr h)
      · exact Or.inr (Or.inr h)
    · rintro ((h | h) | (h | h))
      · rcases h1.2 (Or.inl h) with h | h
        · exact Or.inl h
        · exact Or.inr (Or.inl (Or.inl h))
      · exact Or.inr (Or.inl (Or.inr h))
      · rcases h1.2 (Or.inr h) with h | h
        · exact Or.inl h
        · exact Or.inr (Or.inl (Or.inl h))
      · exact Or.inr (Or.inr h)

theorem unionU16_comm {A B : List Nat} (hA : SSorted A) (hB : SSorted B) : unionU16 A B = unionU16 B A := by
  apply sorted_unique (unionU16_sorted hA hB) (unionU16_sorted hB hA)
  intro x
  rw [mem_unionU16, mem_unionU16]
  exact Or.comm

theorem readN_tail {g A : List Nat} {i : Nat} (h : g.length = A.length ∧ g.drop i = A.drop i) (hi : i ≤ A.length) :
    readN g i (A.drop i).length = .ok (A.drop i) := by
  rw [readN, if_pos (by rw [List.length_drop, h.1]; omega), h.2, List.take_of_length_le (Nat.le_refl _)]

/-- `union_vector16`, where the output may overlap the inputs. -/
theorem unionVector16_spec {gA gB : List Nat → List Nat} {A B mem : List Nat} (hA : SSorted A) (hB : SSorted B)
    (rA : ∀ x ∈ A, x < 65536) (vA : View gA B.length) (vB : View gB A.length) (eA : gA mem = A) (eB : gB mem = B)
    (hcap : A.length + B.length ≤ mem.length) :
    ∃ mem', unionVector16 gA gB A.length B.length mem = .ok (mem', (unionU16 A B).length) ∧ mem'.length = mem.length ∧
      mem'.take (unionU16 A B).length = unionU16 A B := by
  rw [unionVector16]
  by_cases h8 : A.length < 8 ∨ B.length < 8
  · rw [if_pos h8]
    have := unionMem_spec (g1 := gA) (g2 := gB) (S1 := A) (S2 := B) (mem := mem) (base := 0) vA vB (by omega) (by omega) (by omega)
      (by intro k _ _; rw [eA]) (by intro k _ _; rw [eB])
    simpa using this
  · rw [if_neg h8]
    obtain ⟨s, W, e, hI, hend⟩ := mergeVec_spec stores_unique hA hB vA vB hcap rfl eA eB (by omega) (by omega)
    obtain ⟨g1, g2, g3, g4⟩ := stream_sorted hI hA hB rA
    obtain ⟨u1, u2⟩ := storeUnique_spec hI.llast hI.lmax
    have hFl : (dedupFrom (s.last.getLastD 0) s.vecMax).length ≤ 8 := hI.lmax ▸ dedupFrom_length _ _
    have ha8 := hI.a8
    have hb8 := hI.b8
    have hwl := hI.wlen
    have hnl := hI.nle
    have hmem := hI.mlen
    have hp1 := hI.p1
    generalize hFd : dedupFrom (s.last.getLastD 0) s.vecMax = F at g1 g2 g4 u1 u2 hFl
    obtain ⟨bf, c1, c2, c3, _⟩ := storeu_take (C := List.replicate 16 0) (n := 0) (F := F) (Z := List.replicate (8 - F.length) 0)
      (by simp; omega)
    have hbl : bf.length = 16 := by rw [c2]; simp
    have hbF : bf.take F.length = F := by simpa using c3
    rw [e, ok_bind]
    simp only
    rw [u1, u2, c1, ok_bind]
    by_cases hc : s.pos1 = A.length / 8
    · rw [if_pos hc]
      have hTl : (A.drop (8 * s.pos1)).length = A.length - 8 * (A.length / 8) := by rw [List.length_drop, hc]
      have hRl : (B.drop (8 * s.pos2)).length = B.length - 8 * s.pos2 := List.length_drop ..
      obtain ⟨L, m', k1, k2, k3, k4, k5⟩ := unionEnd_spec (g := gA) (g' := gB) (i := 8 * s.pos1) (j := 8 * s.pos2) (n := s.n)
        (F := F) (T := A.drop (8 * s.pos1)) (R := B.drop (8 * s.pos2)) (readN_tail hI.memA ha8) hbl hbF rfl hFl (by omega) g4 vB hI.memB.2
        (by omega) (by omega)
      have hu := union_assemble hA hB g1 g2 rfl rfl (fun w hw => hI.ltA w (g3 w hw)) (fun w hw => hI.ltB w (g3 w hw)) k1 k2
      have hlen := congrArg List.length hu
      rw [List.length_append, ← hI.nlen] at hlen
      rw [hTl, hRl] at k3
      rw [k3]
      rw [hlen] at k5 ⊢
      refine ⟨m', rfl, by omega, ?_⟩
      rw [k5, hI.out, hu]
    · rw [if_neg hc]
      have hc2 : s.pos2 = B.length / 8 := by omega
      have hTl : (B.drop (8 * s.pos2)).length = B.length - 8 * (B.length / 8) := by rw [List.length_drop, hc2]
      have hRl : (A.drop (8 * s.pos1)).length = A.length - 8 * s.pos1 := List.length_drop ..
      obtain ⟨L, m', k1, k2, k3, k4, k5⟩ := unionEnd_spec (g := gB) (g' := gA) (i := 8 * s.pos2) (j := 8 * s.pos1) (n := s.n)
        (F := F) (T := B.drop (8 * s.pos2)) (R := A.drop (8 * s.pos1)) (readN_tail hI.memB hb8) hbl hbF rfl hFl (by omega) g4 vA hI.memA.2
        (by omega) (by omega)
      have hu := union_assemble hB hA g1 (fun x => (g2 x).trans Or.comm) rfl rfl (fun w hw => hI.ltB w (g3 w hw))
        (fun w hw => hI.ltA w (g3 w hw)) k1 k2
      rw [unionU16_comm hB hA] at hu
      have hlen := congrArg List.length hu
      rw [List.length_append, ← hI.nlen] at hlen
      rw [hTl, hRl] at k3
      rw [k3]
      rw [hlen] at k5 ⊢
      refine ⟨m', rfl, by omega, ?_⟩
      rw [k5, hI.out, hu]

/-- `fast_union_uint16` with AVX2. -/
theorem fastUnionVector16_spec {gA gB : List Nat → List Nat} {A B mem : List Nat} (hA : SSorted A) (hB : SSorted B)
    (rA : ∀ x ∈ A, x < 65536) (rB : ∀ x ∈ B, x < 65536) (vA : View gA B.length) (vB : View gB A.length) (eA : gA mem = A) (eB : gB mem = B)
    (hcap : A.length + B.length ≤ mem.length) :
    ∃ mem', fastUnionVector16 gA gB A.length B.length mem = .ok (mem', (unionU16 A B).length) ∧ mem'.length = mem.length ∧
      mem'.take (unionU16 A B).length = unionU16 A B := by
  rw [fastUnionVector16]
  by_cases h : A.length < B.length
  · rw [if_pos h]
    exact unionVector16_spec hA hB rA vA vB eA eB hcap
  · rw [if_neg h, unionU16_comm hA hB]
    exact unionVector16_spec hB hA rB vB vA eB eA (by omega)

/-- `fast_union_uint16` without AVX2. -/
theorem fastUnionMem_spec {gA gB : List Nat → List Nat} {A B mem : List Nat} (hA : SSorted A) (hB : SSorted B)
    (vA : View gA B.length) (vB : View gB A.length) (eA : gA mem = A) (eB : gB mem = B)
    (hcap : A.length + B.length ≤ mem.length) :
    ∃ mem', fastUnionMem gA gB A.length B.length mem = .ok (mem', (unionU16 A B).length) ∧ mem'.length = mem.length ∧
      mem'.take (unionU16 A B).length = unionU16 A B := by
  rw [fastUnionMem]
  by_cases h : A.length < B.length
  · rw [if_pos h]
    have := unionMem_spec (g1 := gA) (g2 := gB) (S1 := A) (S2 := B) (mem := mem) (base := 0) vA vB (by omega) (by omega) (by omega)
      (by intro k _ _; rw [eA]) (by intro k _ _; rw [eB])
    simpa using this
  · rw [if_neg h, unionU16_comm hA hB]
    have := unionMem_spec (g1 := gB) (g2 := gA) (S1 := B) (S2 := A) (mem := mem) (base := 0) vB vA (by omega) (by omega) (by omega)
      (by intro k _ _; rw [eB]) (by intro k _ _; rw [eA])
    simpa using this

end CRoaring
