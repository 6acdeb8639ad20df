import Verif.Lemmas.BitmapMem8
import Verif.Lemmas.BitmapMem5
import Verif.Lemmas.Lazy
import Verif.Model.BitmapMemLazy
set_option linter.unusedSimpArgs false
set_option linter.unusedVariables false

/-! Bitmaps in memory: the lazy operations and their repair. -/

namespace CRoaring
open Spec

variable {E : RbEnv} {Q : CRel}

theorem CHolds.isBitset {o : CBuf} {c : Container} (h : CHolds o c) : o.isBitset = isBitset c := by
  cases o <;> cases c <;> first | rfl | exact h.elim

theorem cToBitsetBuf_spec {o : CBuf} {c : Container} (h : CHolds o c) : Gives (cToBitsetBuf o) (.bitset (containerToBitset c)) := by
  rw [cToBitsetBuf, CHolds.load h, ok_bind]
  exact gives_ok rfl

theorem chooseLazyOrBuf_spec (hE : RbEnvOK E) (conv : Bool) {o1 o2 : CBuf} {c1 c2 : Container} (h1 : CHolds o1 c1) (h2 : CHolds o2 c2) (n1 : LNe c1) (n2 : LNe c2) :
    Gives (cChooseLazyOrBuf E conv o1 o2) (chooseLazyOr conv c1 c2) := by
  rw [cChooseLazyOrBuf, chooseLazyOr, h1.isBitset, h2.isBitset]
  split
  · obtain ⟨o, e, h⟩ := cToBitsetBuf_spec h1
    have hl := containerToBitset_lrep n1.lrep
    have := cLazyIorBuf_spec hE.m h h2 hl.1 n2.1 trivial n2.run
    rw [e, ok_bind]
    cases o <;> first | exact this | exact h.elim
  · exact cLazyOrBuf_spec hE.m h1 h2 n1.1 n2.1 n1.run n2.run

theorem rbLazyOrLoopBuf_spec (hE : RbEnvOK E) (conv : Bool) {x1 x2 : RaBuf} (fuel : Nat) : ∀ {A1 t1 A2 t2 acc : Bitmap} {s1 s2 : Nat} {c1 c2 : Container} {ans : RaBuf},
    RHolds x1 (A1 ++ (s1, c1) :: t1) → LBInv (A1 ++ (s1, c1) :: t1) → RHolds x2 (A2 ++ (s2, c2) :: t2) → LBInv (A2 ++ (s2, c2) :: t2) →
    RHolds ans acc → t1.length + t2.length < fuel →
    (acc ++ merge (fun _ c1 c2 => some (chooseLazyOr conv c1 c2)) true true ((s1, c1) :: t1) ((s2, c2) :: t2)).length ≤ 65536 →
    RGives (rbLazyOrLoopBuf E conv x1 x2 fuel A1.length A2.length s1 s2 ans)
      (acc ++ merge (fun _ c1 c2 => some (chooseLazyOr conv c1 c2)) true true ((s1, c1) :: t1) ((s2, c2) :: t2)) := by
  induction fuel with
  | zero => intros; omega
  | succ fuel ih =>
    intro A1 t1 A2 t2 acc s1 s2 c1 c2 ans h1 i1 h2 i2 ha hf hl
    have n1 := (bp_mid.1 i1).2.2.1
    have n2 := (bp_mid.1 i2).2.2.1
    have lc1 := bp_split_lt i1
    have lc2 := bp_split_lt i2
    rw [rbLazyOrLoopBuf]
    split
    · rename_i hs
      subst hs
      obtain ⟨o1, e1, g1⟩ := h1.cont lc1
      obtain ⟨o2, e2, g2⟩ := h2.cont lc2
      obtain ⟨o, e, g⟩ := chooseLazyOrBuf_spec hE conv g1 g2 n1 n2
      rw [merge_same, ← List.append_assoc] at hl ⊢
      obtain ⟨a', e3, h3⟩ := ha.append hE (k := s1) (by simp only [optCell, List.length_append, List.length_singleton] at hl; omega) g
      rw [e1, ok_bind, e2, ok_bind, e, ok_bind, e3, ok_bind]
      simp only [tail_eq h1, tail_eq h2]
      cases t1 with
      | nil =>
        rw [if_pos rfl]
        rw [merge_end1, keep_true] at hl ⊢
        exact appendRest hE h2.next h3 hl (next_length _ _)
      | cons q1 u1 =>
      rw [if_neg (by simp)]
      cases t2 with
      | nil =>
        rw [if_pos rfl]
        rw [merge_end2, keep_true] at hl ⊢
        exact appendRest hE h1.next h3 hl (next_length _ _)
      | cons q2 u2 =>
      rw [if_neg (by simp), next_length, next_length A2, h1.next.key (bp_split_lt i1.next), ok_bind, h2.next.key (bp_split_lt i2.next), ok_bind]
      simp only [List.length_cons] at hf
      exact ih h1.next i1.next h2.next i2.next h3 (by omega) hl
    · rename_i hs
      split
      · rename_i hlt
        obtain ⟨o1, e1, g1⟩ := h1.cont lc1
        obtain ⟨o, e, g⟩ := cCloneBuf_spec hE.m g1
        rw [merge_lt hlt, ← List.append_assoc, keep_true] at hl ⊢
        obtain ⟨a', e3, h3⟩ := ha.append hE (k := s1) (by simp only [List.length_append, List.length_singleton] at hl; omega) g
        rw [e1, ok_bind, e, ok_bind, e3, ok_bind]
        simp only [tail_eq h1]
        cases t1 with
        | nil =>
          rw [if_pos rfl]
          rw [merge_end1, keep_true] at hl ⊢
          exact appendRest hE h2 h3 hl rfl
        | cons q1 u1 =>
        rw [if_neg (by simp), next_length, h1.next.key (bp_split_lt i1.next), ok_bind]
        simp only [List.length_cons] at hf
        exact ih h1.next i1.next h2 i2 h3 (by omega) hl
      · rename_i hlt
        obtain ⟨o1, e1, g1⟩ := h2.cont lc2
        obtain ⟨o, e, g⟩ := cCloneBuf_spec hE.m g1
        rw [merge_more (by omega), ← List.append_assoc, keep_true] at hl ⊢
        obtain ⟨a', e3, h3⟩ := ha.append hE (k := s2) (by simp only [List.length_append, List.length_singleton] at hl; omega) g
        rw [e1, ok_bind, e, ok_bind, e3, ok_bind]
        simp only [tail_eq h2]
        cases t2 with
        | nil =>
          rw [if_pos rfl]
          rw [merge_end2, keep_true] at hl ⊢
          exact appendRest hE h1 h3 hl rfl
        | cons q2 u2 =>
        rw [if_neg (by simp), next_length A2, h2.next.key (bp_split_lt i2.next), ok_bind]
        simp only [List.length_cons] at hf
        exact ih h1 i1 h2.next i2.next h3 (by omega) hl

theorem rbLazyOrBuf_spec (hE : RbEnvOK E) (conv : Bool) {x1 x2 : RaBuf} {r1 r2 : Bitmap} (h1 : RHolds x1 r1) (i1 : LBInv r1) (h2 : RHolds x2 r2) (i2 : LBInv r2) :
    RGives (rbLazyOrBuf E conv x1 x2) (rbLazyOr conv r1 r2) := by
  have hl := (rbLazyOr_spec conv i1 i2).1.length_le
  rw [rbLazyOr] at hl ⊢
  rw [rbLazyOrBuf, h1.size, h2.size]
  split
  · exact rbCopyBuf_spec hE h2
  · rename_i n1
    rw [if_neg n1] at hl
    split
    · exact rbCopyBuf_spec hE h1
    · rename_i n2
      rw [if_neg n2] at hl
      rw [rbLazyOrLoop_eq] at hl ⊢
      cases r1 with
      | nil => simp at n1
      | cons p1 t1 =>
      cases r2 with
      | nil => simp at n2
      | cons p2 t2 =>
      rw [rquery_head h1, ok_bind, rquery_head h2, ok_bind]
      exact rbLazyOrLoopBuf_spec hE conv _ (A1 := []) (A2 := []) (acc := []) h1 i1 h2 i2 (raInitBuf_spec hE _).1 (by simp; omega) hl

theorem lazyIorCellBuf_spec (hE : RbEnvOK E) (conv : Bool) {x1 x2 : RaBuf} {A1 t1 A2 t2 : Bitmap} {s : Nat} {c1 c2 : Container}
    (h1 : RHolds x1 (A1 ++ (s, c1) :: t1)) (l1 : A1.length < 65536) (n1 : LNe c1) (h2 : RHolds x2 (A2 ++ (s, c2) :: t2)) (l2 : A2.length < 65536) (n2 : LNe c2) :
    ∃ cap, RGives (rbLazyIorCellBuf E conv x1 x2 A1.length A2.length) (A1 ++ (s, chooseLazyIor conv cap c1 c2) :: t1) := by
  obtain ⟨o1, e1, g1⟩ := h1.cont l1
  obtain ⟨o2, e2, g2⟩ := h2.cont l2
  have ho : ∃ o, cLazyOperandBuf conv o1 = .ok o ∧ CHolds o (if conv = false || isBitset c1 then c1 else .bitset (containerToBitset c1)) := by
    rw [cLazyOperandBuf, g1.isBitset]
    split
    · exact ⟨o1, rfl, g1⟩
    · exact cToBitsetBuf_spec g1
  have hn : LInv (if conv = false || isBitset c1 then c1 else .bitset (containerToBitset c1)) ∧
      NonEmptyRun (if conv = false || isBitset c1 then c1 else .bitset (containerToBitset c1)) := by
    split
    · exact ⟨n1.1, n1.run⟩
    · exact ⟨(containerToBitset_lrep n1.lrep).1, trivial⟩
  obtain ⟨o', e', g'⟩ := ho
  obtain ⟨o, e, g⟩ := cLazyIorBuf_spec hE.m g' g2 hn.1 n2.1 hn.2 n2.run
  refine ⟨o'.capacity, ?_⟩
  rw [rbLazyIorCellBuf, e1, ok_bind, CHolds.isFull g1 n1.run, ok_bind, chooseLazyIor]
  split
  · rw [e', ok_bind, e2, ok_bind, e, ok_bind]
    obtain ⟨b, e3, h3, _⟩ := h1.set g
    exact ⟨b, e3, h3⟩
  · exact ⟨x1, rfl, h1⟩

theorem rbLazyOrInplaceLoopBuf_spec (hE : RbEnvOK E) (conv : Bool) {x2 : RaBuf} (fuel : Nat) : ∀ {t1 A2 t2 acc : Bitmap} {s1 s2 : Nat} {c1 c2 : Container} {x1 : RaBuf} {L : Nat},
    RHolds x1 (acc ++ (s1, c1) :: t1) → L = x1.size → BK (acc ++ (s1, c1) :: t1) → LBInv ((s1, c1) :: t1) → RHolds x2 (A2 ++ (s2, c2) :: t2) →
    LBInv (A2 ++ (s2, c2) :: t2) → (∀ p ∈ acc, ∀ q ∈ (s2, c2) :: t2, p.1 < q.1) → t1.length + t2.length < fuel →
    ∃ caps : Nat → Nat, RGives (rbLazyOrInplaceLoopBuf E conv x2 fuel L acc.length A2.length s1 s2 x1)
      (acc ++ merge (fun k c1 c2 => some (chooseLazyIor conv (caps k) c1 c2)) true true ((s1, c1) :: t1) ((s2, c2) :: t2)) := by
  induction fuel with
  | zero => intros; omega
  | succ fuel ih =>
    intro t1 A2 t2 acc s1 s2 c1 c2 x1 L h1 hL k1 i1 h2 i2 hk hf
    have n1 := i1.2.1
    have n2 := (bp_mid.1 i2).2.2.1
    have lc1 := bp_split_lt k1
    have lc2 := bp_split_lt i2
    have hb2 := bp_mid.1 i2
    have ht2 : LBInv t2 := (bp_append.1 hb2.1).2.1
    have hb1 := bp_mid.1 k1
    rw [rbLazyOrInplaceLoopBuf]
    split
    · rename_i hs
      subst hs
      obtain ⟨cap, x', e, h3⟩ := lazyIorCellBuf_spec hE conv h1 lc1 n1 h2 lc2 n2
      have hz : L = x'.size := by rw [hL, h1.size, h3.size]; simp
      have k3 : BK (acc ++ (s1, chooseLazyIor conv cap c1 c2) :: t1) := bp_mid.2 ⟨hb1.1, hb1.2.1, trivial, hb1.2.2.2⟩
      have hk3 : ∀ p ∈ acc ++ [(s1, chooseLazyIor conv cap c1 c2)], ∀ q ∈ t2, p.1 < q.1 := by
        intro p hp q hq
        rcases List.mem_append.1 hp with hp | hp
        · exact hk p hp q (by simp [hq])
        · simp only [List.mem_singleton] at hp
          subst hp
          exact hb2.2.2.2.2 q hq
      rw [e, ok_bind]
      rw [hz]
      simp only [tail_eq h3, tail_eq h2]
      cases t1 with
      | nil =>
        refine ⟨fun _ => cap, ?_⟩
        rw [if_pos rfl, merge_same, ← List.append_assoc, merge_end1, keep_true]
        refine appendRest hE h2.next (by simpa [optCell] using h3) ?_ (next_length _ _)
        exact bk_len (bp_append.1 k3.next).1 ht2.bk hk3
      | cons q1 u1 =>
      rw [if_neg (by simp)]
      cases t2 with
      | nil =>
        refine ⟨fun _ => cap, ?_⟩
        rw [if_pos rfl, merge_same, ← List.append_assoc, merge_end2, keep_true]
        exact ⟨x', rfl, by simpa [optCell] using h3⟩
      | cons q2 u2 =>
      rw [if_neg (by simp), next_length acc (s1, chooseLazyIor conv cap c1 c2), next_length A2, h3.next.key (bp_split_lt k3.next), ok_bind,
        h2.next.key (bp_split_lt i2.next), ok_bind]
      simp only [List.length_cons] at hf
      obtain ⟨caps, h⟩ := ih (L := x'.size) h3.next rfl k3.next i1.2.2.2 h2.next i2.next hk3 (by omega)
      refine ⟨fun k => if k = s1 then cap else caps k, ?_⟩
      rw [merge_same, ← List.append_assoc]
      simp only [if_true]
      rw [merge_congr (g := fun k c1 c2 => some (chooseLazyIor conv (caps k) c1 c2))]
      · exact h
      · intro p hp c1 c2
        have := i1.2.2.1 p hp
        rw [if_neg (by omega)]
    · rename_i hs
      split
      · rename_i hlt
        have hk3 : ∀ p ∈ acc ++ [(s1, c1)], ∀ q ∈ (s2, c2) :: t2, p.1 < q.1 := by
          intro p hp q hq
          rcases List.mem_append.1 hp with hp | hp
          · exact hk p hp q hq
          · simp only [List.mem_singleton] at hp
            subst hp
            rcases List.mem_cons.1 hq with rfl | hq
            · exact hlt
            · have := hb2.2.2.2.2 q hq
              simp only
              omega
        rw [hL]
        simp only [tail_eq h1]
        cases t1 with
        | nil =>
          refine ⟨fun _ => 0, ?_⟩
          rw [if_pos rfl, merge_lt hlt, ← List.append_assoc, merge_end1, keep_true, keep_true]
          exact appendRest hE h2 h1 (bk_len k1 (bp_append.1 i2).2.1.bk hk3) rfl
        | cons q1 u1 =>
        rw [if_neg (by simp), next_length acc (s1, c1), h1.next.key (bp_split_lt k1.next), ok_bind]
        simp only [List.length_cons] at hf
        obtain ⟨caps, h⟩ := ih (L := x1.size) h1.next rfl k1.next i1.2.2.2 h2 i2 hk3 (by omega)
        refine ⟨caps, ?_⟩
        rw [merge_lt hlt, ← List.append_assoc]
        exact h
      · rename_i hlt
        have k3 : BK (acc ++ (s2, c2) :: (s1, c1) :: t1) := by
          refine bp_mid.2 ⟨k1, hb2.2.1, trivial, fun p hp => hk p hp (s2, c2) (by simp), ?_⟩
          intro p hp
          rcases List.mem_cons.1 hp with rfl | hp
          · simp only; omega
          · have := i1.2.2.1 p hp; omega
        have hk3 : ∀ p ∈ acc ++ [(s2, c2)], ∀ q ∈ t2, p.1 < q.1 := by
          intro p hp q hq
          rcases List.mem_append.1 hp with hp | hp
          · exact hk p hp q (by simp [hq])
          · simp only [List.mem_singleton] at hp
            subst hp
            exact hb2.2.2.2.2 q hq
        obtain ⟨o1, e1, g1⟩ := h2.cont lc2
        obtain ⟨o, e, g⟩ := cCloneBuf_spec hE.m g1
        have hlen := k3.length_le
        obtain ⟨x', e3, h3⟩ := h1.insert hE (by simp at hlen ⊢; omega) (k := s2) g
        have hz : L + 1 = x'.size := by rw [hL, h1.size, h3.size]; simp; omega
        rw [e1, ok_bind, e, ok_bind, e3, ok_bind, hz]
        simp only [tail_eq h2, tail_eq h3]
        cases t2 with
        | nil =>
          refine ⟨fun _ => 0, ?_⟩
          rw [if_pos rfl, if_neg (by simp), merge_more (by omega), ← List.append_assoc, merge_end2, keep_true, keep_true]
          exact ⟨x', rfl, h3.next⟩
        | cons q2 u2 =>
        rw [if_neg (by simp), next_length A2, h2.next.key (bp_split_lt i2.next), ok_bind]
        simp only [List.length_cons] at hf
        obtain ⟨caps, h⟩ := ih (L := x'.size) h3.next rfl k3.next i1 h2.next i2.next hk3 (by omega)
        refine ⟨caps, ?_⟩
        rw [merge_more (by omega), ← List.append_assoc, next_length acc (s2, c2)]
        exact h

theorem rbLazyOrInplaceBuf_spec (hE : RbEnvOK E) (conv : Bool) {x1 x2 : RaBuf} {r1 r2 : Bitmap} (h1 : RHolds x1 r1) (i1 : LBInv r1) (h2 : RHolds x2 r2) (i2 : LBInv r2) :
    ∃ caps, RGives (rbLazyOrInplaceBuf E conv x1 x2) (rbLazyOrInplace conv caps r1 r2) := by
  rw [rbLazyOrInplaceBuf, h1.size, h2.size]
  simp only [rbLazyOrInplace]
  split
  · exact ⟨fun _ => 0, x1, rfl, h1⟩
  · rename_i n2
    split
    · exact ⟨fun _ => 0, rbOverwriteBuf_spec hE h1 h2⟩
    · rename_i n1
      cases r1 with
      | nil => simp at n1
      | cons p1 t1 =>
      cases r2 with
      | nil => simp at n2
      | cons p2 t2 =>
      rw [rquery_head h1, ok_bind, rquery_head h2, ok_bind]
      obtain ⟨caps, h⟩ := rbLazyOrInplaceLoopBuf_spec hE conv ((p1 :: t1).length + (p2 :: t2).length) (A2 := []) (acc := []) (L := (p1 :: t1).length) h1 h1.size.symm
        i1.bk i1 h2 i2 (by simp) (by simp; omega)
      refine ⟨caps, ?_⟩
      rw [rbLazyOrInplaceLoop_eq]
      exact h

theorem rbLazyXorLoopBuf_spec (hE : RbEnvOK E) {x1 x2 : RaBuf} (fuel : Nat) : ∀ {A1 t1 A2 t2 acc : Bitmap} {s1 s2 : Nat} {c1 c2 : Container} {ans : RaBuf},
    RHolds x1 (A1 ++ (s1, c1) :: t1) → LBInv (A1 ++ (s1, c1) :: t1) → RHolds x2 (A2 ++ (s2, c2) :: t2) → LBInv (A2 ++ (s2, c2) :: t2) →
    RHolds ans acc → t1.length + t2.length < fuel →
    (acc ++ merge (keepNz fun _ => containerLazyXor) true true ((s1, c1) :: t1) ((s2, c2) :: t2)).length ≤ 65536 →
    RGives (rbLazyXorLoopBuf E x1 x2 fuel A1.length A2.length s1 s2 ans)
      (acc ++ merge (keepNz fun _ => containerLazyXor) true true ((s1, c1) :: t1) ((s2, c2) :: t2)) := by
  induction fuel with
  | zero => intros; omega
  | succ fuel ih =>
    intro A1 t1 A2 t2 acc s1 s2 c1 c2 ans h1 i1 h2 i2 ha hf hl
    have n1 := (bp_mid.1 i1).2.2.1
    have n2 := (bp_mid.1 i2).2.2.1
    have lc1 := bp_split_lt i1
    have lc2 := bp_split_lt i2
    rw [rbLazyXorLoopBuf]
    split
    · rename_i hs
      subst hs
      obtain ⟨o1, e1, g1⟩ := h1.cont lc1
      obtain ⟨o2, e2, g2⟩ := h2.cont lc2
      obtain ⟨o, e, g⟩ := cLazyXorBuf_spec hE.m g1 g2 n1.1 n2.1
      rw [merge_same, ← List.append_assoc] at hl ⊢
      simp only [keepNz] at hl ⊢
      obtain ⟨a', e3, h3⟩ := raAppendNonzeroBuf_spec hE ha (k := s1) g (by rw [List.length_append] at hl; simp only; omega)
      simp only at h3
      rw [e1, ok_bind, e2, ok_bind, e, ok_bind, e3, ok_bind]
      simp only [tail_eq h1, tail_eq h2]
      cases t1 with
      | nil =>
        rw [if_pos rfl]
        rw [merge_end1, keep_true] at hl ⊢
        exact appendRest hE h2.next h3 hl (next_length _ _)
      | cons q1 u1 =>
      rw [if_neg (by simp)]
      cases t2 with
      | nil =>
        rw [if_pos rfl]
        rw [merge_end2, keep_true] at hl ⊢
        exact appendRest hE h1.next h3 hl (next_length _ _)
      | cons q2 u2 =>
      rw [if_neg (by simp), next_length, next_length A2, h1.next.key (bp_split_lt i1.next), ok_bind, h2.next.key (bp_split_lt i2.next), ok_bind]
      simp only [List.length_cons] at hf
      exact ih h1.next i1.next h2.next i2.next h3 (by omega) hl
    · rename_i hs
      split
      · rename_i hlt
        obtain ⟨o1, e1, g1⟩ := h1.cont lc1
        obtain ⟨o, e, g⟩ := cCloneBuf_spec hE.m g1
        rw [merge_lt hlt, ← List.append_assoc, keep_true] at hl ⊢
        obtain ⟨a', e3, h3⟩ := ha.append hE (k := s1) (by simp only [List.length_append, List.length_singleton] at hl; omega) g
        rw [e1, ok_bind, e, ok_bind, e3, ok_bind]
        simp only [tail_eq h1]
        cases t1 with
        | nil =>
          rw [if_pos rfl]
          rw [merge_end1, keep_true] at hl ⊢
          exact appendRest hE h2 h3 hl rfl
        | cons q1 u1 =>
        rw [if_neg (by simp), next_length, h1.next.key (bp_split_lt i1.next), ok_bind]
        simp only [List.length_cons] at hf
        exact ih h1.next i1.next h2 i2 h3 (by omega) hl
      · rename_i hlt
        obtain ⟨o1, e1, g1⟩ := h2.cont lc2
        obtain ⟨o, e, g⟩ := cCloneBuf_spec hE.m g1
        rw [merge_more (by omega), ← List.append_assoc, keep_true] at hl ⊢
        obtain ⟨a', e3, h3⟩ := ha.append hE (k := s2) (by simp only [List.length_append, List.length_singleton] at hl; omega) g
        rw [e1, ok_bind, e, ok_bind, e3, ok_bind]
        simp only [tail_eq h2]
        cases t2 with
        | nil =>
          rw [if_pos rfl]
          rw [merge_end2, keep_true] at hl ⊢
          exact appendRest hE h1 h3 hl rfl
        | cons q2 u2 =>
        rw [if_neg (by simp), next_length A2, h2.next.key (bp_split_lt i2.next), ok_bind]
        simp only [List.length_cons] at hf
        exact ih h1 i1 h2.next i2.next h3 (by omega) hl

theorem rbLazyXorBuf_spec (hE : RbEnvOK E) {x1 x2 : RaBuf} {r1 r2 : Bitmap} (h1 : RHolds x1 r1) (i1 : LBInv r1) (h2 : RHolds x2 r2) (i2 : LBInv r2) :
    RGives (rbLazyXorBuf E x1 x2) (rbLazyXor r1 r2) := by
  have hl := (rbLazyXor_spec i1 i2).1.length_le
  rw [rbLazyXor] at hl ⊢
  rw [rbLazyXorBuf, h1.size, h2.size]
  split
  · exact rbCopyBuf_spec hE h2
  · rename_i n1
    rw [if_neg n1] at hl
    split
    · exact rbCopyBuf_spec hE h1
    · rename_i n2
      rw [if_neg n2] at hl
      rw [rbLazyXorLoop_eq] at hl ⊢
      cases r1 with
      | nil => simp at n1
      | cons p1 t1 =>
      cases r2 with
      | nil => simp at n2
      | cons p2 t2 =>
      rw [rquery_head h1, ok_bind, rquery_head h2, ok_bind]
      exact rbLazyXorLoopBuf_spec hE _ (A1 := []) (A2 := []) (acc := []) h1 i1 h2 i2 (raInitBuf_spec hE _).1 (by simp; omega) hl

theorem rbLazyXorInplaceLoopBuf_spec (hE : RbEnvOK E) {x2 : RaBuf} (fuel : Nat) : ∀ {t1 A2 t2 acc : Bitmap} {s1 s2 : Nat} {c1 c2 : Container} {x1 : RaBuf} {L : Nat},
    RHolds x1 (acc ++ (s1, c1) :: t1) → L = x1.size → BK (acc ++ (s1, c1) :: t1) → LBInv ((s1, c1) :: t1) → RHolds x2 (A2 ++ (s2, c2) :: t2) →
    BInv (A2 ++ (s2, c2) :: t2) → (∀ p ∈ acc, ∀ q ∈ (s2, c2) :: t2, p.1 < q.1) → t1.length + t2.length < fuel →
    RGives (rbLazyXorInplaceLoopBuf E x2 fuel L acc.length A2.length s1 s2 x1)
      (acc ++ merge (keepNz fun _ => chooseLazyXor false) true true ((s1, c1) :: t1) ((s2, c2) :: t2)) := by
  induction fuel with
  | zero => intros; omega
  | succ fuel ih =>
    intro t1 A2 t2 acc s1 s2 c1 c2 x1 L h1 hL k1 i1 h2 i2 hk hf
    have n1 := i1.2.1
    have n2 := (bp_mid.1 i2).2.2.1
    have lc1 := bp_split_lt k1
    have lc2 := bp_split_lt i2
    have hb2 := bp_mid.1 i2
    have ht2 : BInv t2 := (bp_append.1 hb2.1).2.1
    have hb1 := bp_mid.1 k1
    rw [rbLazyXorInplaceLoopBuf]
    split
    · rename_i hs
      subst hs
      obtain ⟨o1, e1, g1⟩ := h1.cont lc1
      obtain ⟨o2, e2, g2⟩ := h2.cont lc2
      obtain ⟨o, e, g⟩ := cLazyIxorBuf_spec hE.m g1 g2 n1.1 n2.1
      obtain ⟨x', e3, h3⟩ := rbXorCellBuf_spec h1 g
      simp only at h3 e3
      rw [merge_same, ← List.append_assoc]
      simp only [keepNz, chooseLazyXor, Bool.false_eq_true, if_false]
      have k3 : BK ((acc ++ optCell s1 (if containerNonzero (containerLazyIxor c1 c2) = true then some (containerLazyIxor c1 c2) else none)) ++ t1) := by
        split
        · simp only [optCell, List.append_assoc, List.singleton_append]
          exact bp_mid.2 ⟨hb1.1, hb1.2.1, trivial, hb1.2.2.2⟩
        · simpa [optCell] using hb1.1
      have hk3 : ∀ p ∈ acc ++ optCell s1 (if containerNonzero (containerLazyIxor c1 c2) = true then some (containerLazyIxor c1 c2) else none),
          ∀ q ∈ t2, p.1 < q.1 := by
        intro p hp q hq
        rcases List.mem_append.1 hp with hp | hp
        · exact hk p hp q (by simp [hq])
        · have hps : p.1 = s1 := by
            split at hp
            · simp only [optCell, List.mem_singleton] at hp
              rw [hp]
            · simp [optCell] at hp
          rw [hps]
          exact hb2.2.2.2.2 q hq
      rw [e1, ok_bind, e2, ok_bind, e, ok_bind, hL, e3, ok_bind]
      simp only [tail_eq' h3, tail_eq h2]
      cases t1 with
      | nil =>
        rw [if_pos rfl, merge_end1, keep_true]
        refine appendRest hE h2.next (by simpa using h3) ?_ (next_length _ _)
        exact bk_len (bp_append.1 k3).1 ht2.bk hk3
      | cons q1 u1 =>
      rw [if_neg (by simp)]
      cases t2 with
      | nil =>
        rw [if_pos rfl, merge_end2, keep_true]
        exact ⟨x', rfl, h3⟩
      | cons q2 u2 =>
      rw [if_neg (by simp), next_length A2, h3.key (bp_split_lt k3), ok_bind, h2.next.key (bp_split_lt i2.next), ok_bind]
      simp only [List.length_cons] at hf
      exact ih (L := x'.size) h3 rfl k3 i1.2.2.2 h2.next i2.next hk3 (by omega)
    · rename_i hs
      split
      · rename_i hlt
        have hk3 : ∀ p ∈ acc ++ [(s1, c1)], ∀ q ∈ (s2, c2) :: t2, p.1 < q.1 := by
          intro p hp q hq
          rcases List.mem_append.1 hp with hp | hp
          · exact hk p hp q hq
          · simp only [List.mem_singleton] at hp
            subst hp
            rcases List.mem_cons.1 hq with rfl | hq
            · exact hlt
            · have := hb2.2.2.2.2 q hq
              simp only
              omega
        rw [hL]
        simp only [tail_eq h1]
        cases t1 with
        | nil =>
          rw [if_pos rfl, merge_lt hlt, ← List.append_assoc, merge_end1, keep_true, keep_true]
          exact appendRest hE h2 h1 (bk_len k1 (bp_append.1 i2).2.1.bk hk3) rfl
        | cons q1 u1 =>
        rw [if_neg (by simp), next_length acc (s1, c1), h1.next.key (bp_split_lt k1.next), ok_bind]
        simp only [List.length_cons] at hf
        have h := ih (L := x1.size) h1.next rfl k1.next i1.2.2.2 h2 i2 hk3 (by omega)
        rw [merge_lt hlt, ← List.append_assoc]
        exact h
      · rename_i hlt
        have k3 : BK (acc ++ (s2, c2) :: (s1, c1) :: t1) := by
          refine bp_mid.2 ⟨k1, hb2.2.1, trivial, fun p hp => hk p hp (s2, c2) (by simp), ?_⟩
          intro p hp
          rcases List.mem_cons.1 hp with rfl | hp
          · simp only; omega
          · have := i1.2.2.1 p hp; omega
        have hk3 : ∀ p ∈ acc ++ [(s2, c2)], ∀ q ∈ t2, p.1 < q.1 := by
          intro p hp q hq
          rcases List.mem_append.1 hp with hp | hp
          · exact hk p hp q (by simp [hq])
          · simp only [List.mem_singleton] at hp
            subst hp
            exact hb2.2.2.2.2 q hq
        obtain ⟨o1, e1, g1⟩ := h2.cont lc2
        obtain ⟨o, e, g⟩ := cCloneBuf_spec hE.m g1
        have hlen := k3.length_le
        obtain ⟨x', e3, h3⟩ := h1.insert hE (by simp at hlen ⊢; omega) (k := s2) g
        have hz : L + 1 = x'.size := by rw [hL, h1.size, h3.size]; simp; omega
        rw [e1, ok_bind, e, ok_bind, e3, ok_bind, hz]
        simp only [tail_eq h2, tail_eq h3]
        cases t2 with
        | nil =>
          rw [if_pos rfl, if_neg (by simp), merge_more (by omega), ← List.append_assoc, merge_end2, keep_true, keep_true]
          exact ⟨x', rfl, h3.next⟩
        | cons q2 u2 =>
        rw [if_neg (by simp), next_length A2, h2.next.key (bp_split_lt i2.next), ok_bind]
        simp only [List.length_cons] at hf
        have h := ih (L := x'.size) h3.next rfl k3.next i1 h2.next i2.next hk3 (by omega)
        rw [merge_more (by omega), ← List.append_assoc, next_length acc (s2, c2)]
        exact h

theorem rbLazyXorInplaceBuf_spec (hE : RbEnvOK E) {x1 x2 : RaBuf} {r1 r2 : Bitmap} (h1 : RHolds x1 r1) (i1 : LBInv r1) (h2 : RHolds x2 r2) (i2 : BInv r2) :
    RGives (rbLazyXorInplaceBuf E x1 x2) (rbLazyXorInplace (fun _ => false) r1 r2) := by
  rw [rbLazyXorInplaceBuf, h1.size, h2.size]
  simp only [rbLazyXorInplace]
  split
  · exact ⟨x1, rfl, h1⟩
  · rename_i n2
    split
    · exact rbOverwriteBuf_spec hE h1 h2
    · rename_i n1
      cases r1 with
      | nil => simp at n1
      | cons p1 t1 =>
      cases r2 with
      | nil => simp at n2
      | cons p2 t2 =>
      rw [rquery_head h1, ok_bind, rquery_head h2, ok_bind, rbLazyXorInplaceLoop_eq]
      exact rbLazyXorInplaceLoopBuf_spec hE ((p1 :: t1).length + (p2 :: t2).length) (A2 := []) (acc := []) (L := (p1 :: t1).length) h1 h1.size.symm
        i1.bk i1 h2 i2 (by simp) (by simp; omega)

theorem rbRepairLoopBuf_spec (hE : RbEnvOK E) (B : Bitmap) : ∀ {A : Bitmap} {b : RaBuf}, RHolds b (A ++ B) → (∀ p ∈ B, LInv p.2) →
    RGives (rbRepairLoopBuf E B.length A.length b) (A ++ rbRepair B) := by
  induction B with
  | nil => intro A b h _; exact ⟨b, rfl, h⟩
  | cons p t ih =>
    intro A b h hi
    obtain ⟨k, c⟩ := p
    obtain ⟨⟨o, h3, h4⟩, _⟩ := cellsAt_cons.1 (cellsAt_append.1 h.cells).2
    rw [Nat.zero_add] at h3
    obtain ⟨o2, e2, h2⟩ := cRepairBuf_spec hE.m h4 (hi (k, c) (by simp))
    obtain ⟨b', e3, h5, _⟩ := h.set h2
    rw [List.length_cons, rbRepairLoopBuf, cellAt_eq h3, ok_bind, e2, ok_bind, e3, ok_bind]
    have := ih (A := A ++ [(k, containerRepair c)]) (b := b') (by simpa using h5) fun p hp => hi p (by simp [hp])
    simpa [rbRepair] using this

theorem rbRepairBuf_spec (hE : RbEnvOK E) {b : RaBuf} {r : Bitmap} (h : RHolds b r) (hr : LBInv r) : RGives (rbRepairBuf E b) (rbRepair r) := by
  rw [rbRepairBuf, h.size]
  exact rbRepairLoopBuf_spec hE r (A := []) (by simpa using h) fun p hp => (hr.all p hp).1

end CRoaring
