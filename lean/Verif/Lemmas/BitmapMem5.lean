import Verif.Lemmas.BitmapMem4
set_option linter.unusedSimpArgs false
set_option linter.unusedVariables false

/-! Bitmaps in memory: differences. -/

namespace CRoaring
open Spec

variable {E : RbEnv} {Q : CRel}

theorem rbAndnotLoopBuf_spec (hE : RbEnvOK E) {x1 x2 : RaBuf} (fuel : Nat) : ∀ {A1 t1 A2 t2 acc : Bitmap} {s1 s2 : Nat} {c1 c2 : Container} {ans : RaBuf},
    RHolds x1 (A1 ++ (s1, c1) :: t1) → BInv (A1 ++ (s1, c1) :: t1) → RHolds x2 (A2 ++ (s2, c2) :: t2) → BInv (A2 ++ (s2, c2) :: t2) →
    RHolds ans acc → t1.length + t2.length < fuel →
    (acc ++ merge (keepNz fun _ => containerAndnot) true false ((s1, c1) :: t1) ((s2, c2) :: t2)).length ≤ 65536 →
    RGives (rbAndnotLoopBuf E x1 x2 fuel A1.length A2.length ans)
      (acc ++ merge (keepNz fun _ => containerAndnot) true false ((s1, c1) :: t1) ((s2, c2) :: t2)) := by
  induction fuel with
  | zero => intros; omega
  | succ fuel ih =>
    intro A1 t1 A2 t2 acc s1 s2 c1 c2 ans h1 i1 h2 i2 ha hf hl
    have n1 := (bp_mid.1 i1).2.2.1
    have n2 := (bp_mid.1 i2).2.2.1
    have lc1 := bp_split_lt i1
    have lc2 := bp_split_lt i2
    rw [rbAndnotLoopBuf, h1.key lc1, ok_bind, h2.key lc2, ok_bind]
    simp only
    split
    · rename_i hs
      subst hs
      obtain ⟨o1, e1, g1⟩ := h1.cont lc1
      obtain ⟨o2, e2, g2⟩ := h2.cont lc2
      obtain ⟨o, e, g⟩ := cAndnotBuf_spec hE.m g1 g2 n1.1 n2.1 n1.run n2.run
      rw [merge_same, ← List.append_assoc] at hl ⊢
      simp only [keepNz] at hl ⊢
      obtain ⟨a', e3, h3⟩ := raAppendNonzeroBuf_spec hE ha (k := s1) g (by rw [List.length_append] at hl; simp only; omega)
      simp only at h3
      rw [e1, ok_bind, e2, ok_bind, e, ok_bind, e3, ok_bind]
      simp only [tail_eq h1, tail_eq h2]
      cases t1 with
      | nil =>
        rw [if_pos rfl]
        rw [merge_end1, keep_false] at hl ⊢
        split
        · exact appendRest hE h1.next h3 hl (next_length _ _)
        · exact ⟨a', rfl, by simpa using h3⟩
      | cons q1 u1 =>
      rw [if_neg (by simp)]
      cases t2 with
      | nil =>
        rw [if_pos rfl]
        rw [merge_end2, keep_true] at hl ⊢
        exact appendRest hE h1.next h3 hl (next_length _ _)
      | cons q2 u2 =>
      rw [if_neg (by simp), next_length, next_length A2]
      simp only [List.length_cons] at hf
      exact ih h1.next i1.next h2.next i2.next h3 (by omega) hl
    · rename_i hs
      split
      · rename_i hlt
        obtain ⟨C, D, e1, e2, e3, e4, e5, e6⟩ := h1.advance (x := s2) i1 hlt
        have hlen : t1.length + 1 = C.length + D.length := by
          have := congrArg List.length e1
          simpa using this
        have h1' : RHolds x1 (A1 ++ (C ++ D)) := by rw [← e1]; exact h1
        have i1' : BInv (A1 ++ (C ++ D)) := by rw [← e1]; exact i1
        rw [e1, ← merge_take_left _ _ C e6 D, ← List.append_assoc] at hl ⊢
        obtain ⟨a', e7, h7⟩ := raAppendCopyRangeBuf_spec hE h1' ha (by rw [List.length_append] at hl; omega) rfl rfl
        rw [e4, ok_bind, e7, ok_bind]
        have hsz := h1'.size
        simp only [List.length_append] at hsz
        cases D with
        | nil =>
          rw [if_pos (by simp at hsz; omega), merge_end1, keep_false, List.append_nil]
          exact ⟨a', rfl, h7⟩
        | cons d D =>
          rw [if_neg (by simp at hsz; omega), ← List.length_append]
          simp only [List.length_cons] at hlen
          exact ih (by simpa using h1') (by simpa using i1') h2 i2 h7 (by omega) hl
      · rename_i hlt
        obtain ⟨C, D, e1, e2, e3, e4, e5, e6⟩ := h2.advance (x := s1) i2 (by omega)
        have hlen : t2.length + 1 = C.length + D.length := by
          have := congrArg List.length e1
          simpa using this
        have h2' : RHolds x2 (A2 ++ (C ++ D)) := by rw [← e1]; exact h2
        have i2' : BInv (A2 ++ (C ++ D)) := by rw [← e1]; exact i2
        rw [merge_more (by omega), keep_false, List.nil_append, ← merge_drop_right, ← e3] at hl ⊢
        rw [e4, ok_bind]
        have hsz := h2'.size
        simp only [List.length_append] at hsz
        cases D with
        | nil =>
          rw [if_pos (by simp at hsz; omega)]
          rw [merge_end2, keep_true] at hl ⊢
          exact appendRest hE h1 ha hl rfl
        | cons d D =>
          rw [if_neg (by simp at hsz; omega), ← List.length_append]
          simp only [List.length_cons] at hlen
          exact ih h1 i1 (by simpa using h2') (by simpa using i2') ha (by omega) hl

theorem rbAndnotBuf_spec (hE : RbEnvOK E) {x1 x2 : RaBuf} {r1 r2 : Bitmap} (h1 : RHolds x1 r1) (i1 : BInv r1) (h2 : RHolds x2 r2) (i2 : BInv r2) :
    RGives (rbAndnotBuf E x1 x2) (rbAndnot r1 r2) := by
  have hl := (rbAndnot_spec i1 i2).1.length_le
  rw [rbAndnot] at hl ⊢
  rw [rbAndnotBuf, h1.size, h2.size]
  split
  · exact ⟨_, rfl, (raInitBuf_spec hE _).1⟩
  · rename_i n1
    rw [if_neg n1] at hl
    split
    · exact rbCopyBuf_spec hE h1
    · rename_i n2
      rw [if_neg n2] at hl
      rw [rbAndnotLoop_eq i1 i2] at hl ⊢
      cases r1 with
      | nil => simp at n1
      | cons p1 t1 =>
      cases r2 with
      | nil => simp at n2
      | cons p2 t2 =>
      exact rbAndnotLoopBuf_spec hE _ (A1 := []) (A2 := []) (acc := []) h1 i1 h2 i2 (raInitBuf_spec hE _).1 (by simp; omega) hl

theorem rbAndnotEndBuf_spec {x1 : RaBuf} {acc B1 : Bitmap} {pos1 L : Nat} (ha : CellsAt (fun _ => CHolds) x1.mem 0 acc)
    (h1 : CellsAt (fun _ => CHolds) x1.mem pos1 B1) (hp : L = pos1 + B1.length) (hm : L ≤ x1.mem.length) (hle : acc.length ≤ pos1) :
    RGives (rbAndnotEndBuf L pos1 acc.length x1) (acc ++ B1) := by
  rw [rbAndnotEndBuf]
  split
  · rw [rbSlideBuf]
    split
    · rename_i hgt
      obtain ⟨m', e, q1, q2, q3, q4⟩ := moveCells_spec (mem := x1.mem) (dst := acc.length) (src := pos1) (n := L - pos1) (by omega) (by omega)
      rw [raCopyRangeBuf, e, ok_bind, ok_bind]
      refine ⟨_, rfl, ?_, ?_, ?_⟩
      · simp [raDownsizeBuf]; omega
      · simp [raDownsizeBuf]; omega
      · show CellsAt _ m' 0 _
        refine cellsAt_append.2 ⟨ha.congr fun j hj => q3 _ (by omega), ?_⟩
        rw [Nat.zero_add]
        exact h1.congr fun j hj => q2 j (by omega)
    · rename_i hgt
      rw [ok_bind]
      have hpe : pos1 = acc.length := by omega
      subst hpe
      refine ⟨_, rfl, ?_, ?_, ?_⟩
      · simp [raDownsizeBuf]; omega
      · simp [raDownsizeBuf]; omega
      · exact cellsAt_append.2 ⟨ha, by rw [Nat.zero_add]; exact h1⟩
  · have hn : B1 = [] := List.length_eq_zero_iff.1 (by omega)
    subst hn
    refine ⟨_, rfl, ?_, ?_, ?_⟩
    · simp [raDownsizeBuf]
    · simp [raDownsizeBuf]; simp at hp; omega
    · simpa [raDownsizeBuf] using ha

theorem rbKeepCellBuf_spec {x1 : RaBuf} {acc t : Bitmap} {pos s : Nat} {c : Container} (ha : CellsAt (fun _ => CHolds) x1.mem 0 acc)
    (h1 : CellsAt (fun _ => CHolds) x1.mem pos ((s, c) :: t)) (hp : acc.length ≤ pos) (hl : pos < 65536) :
    ∃ b, rbKeepCellBuf x1 pos acc.length s = .ok b ∧ CellsAt (fun _ => CHolds) b.mem 0 (acc ++ [(s, c)]) ∧
      CellsAt (fun _ => CHolds) b.mem (pos + 1) t ∧ b.mem.length = x1.mem.length := by
  obtain ⟨⟨o, hm, _⟩, ht⟩ := cellsAt_cons.1 h1
  have hpm : pos < x1.mem.length := by
    have := List.getElem?_eq_some_iff.1 hm
    exact this.1
  rw [rbKeepCellBuf]
  split
  · rename_i hne
    obtain ⟨o1, e1, g1⟩ := h1.cont hl
    rw [e1, ok_bind, raReplaceBuf, setCell_eq (by omega), ok_bind]
    refine ⟨_, rfl, ?_, ht.set_ne (by omega) _, by simp⟩
    refine cellsAt_append.2 ⟨ha.set_ne (by omega) _, ?_⟩
    rw [Nat.zero_add]
    exact CellsAt.set_here (by omega) (cellsAt_nil _ _) g1 rfl
  · rename_i hne
    have hpe : pos = acc.length := by omega
    subst hpe
    refine ⟨x1, rfl, cellsAt_append.2 ⟨ha, ?_⟩, ht, rfl⟩
    rw [Nat.zero_add]
    obtain ⟨hh, _⟩ := cellsAt_cons.1 h1
    exact cellsAt_cons.2 ⟨hh, cellsAt_nil _ _⟩

theorem rbAndnotInplaceLoopBuf_spec (hE : RbEnvOK E) {x2 : RaBuf} {L : Nat} (hL : L ≤ 65536) (fuel : Nat) :
    ∀ {t1 A2 t2 acc : Bitmap} {s1 s2 : Nat} {c1 c2 : Container} {x1 : RaBuf} {pos1 : Nat},
    CellsAt (fun _ => CHolds) x1.mem 0 acc → CellsAt (fun _ => CHolds) x1.mem pos1 ((s1, c1) :: t1) → L = pos1 + t1.length + 1 → L ≤ x1.mem.length →
    acc.length ≤ pos1 → BInv ((s1, c1) :: t1) → RHolds x2 (A2 ++ (s2, c2) :: t2) → BInv (A2 ++ (s2, c2) :: t2) → t1.length + t2.length < fuel →
    RGives (rbAndnotInplaceLoopBuf E L x2 fuel pos1 A2.length acc.length s1 s2 x1)
      (acc ++ merge (keepNz fun _ => chooseAndnot false) true false ((s1, c1) :: t1) ((s2, c2) :: t2)) := by
  induction fuel with
  | zero => intros; omega
  | succ fuel ih =>
    intro t1 A2 t2 acc s1 s2 c1 c2 x1 pos1 ha h1 hp hm hle i1 h2 i2 hf
    have n1 := i1.2.1
    have n2 := (bp_mid.1 i2).2.2.1
    have lc2 := bp_split_lt i2
    have ht := (cellsAt_cons.1 h1).2
    rw [rbAndnotInplaceLoopBuf]
    split
    · rename_i hs
      subst hs
      obtain ⟨o1, e1, g1⟩ := h1.cont (by omega)
      obtain ⟨o2, e2, g2⟩ := h2.cont lc2
      obtain ⟨o, e, g⟩ := cIandnotBuf_spec hE.m g1 g2 n1.1 n2.1 n1.run n2.run
      rw [e1, ok_bind, e2, ok_bind, e, ok_bind, merge_same, ← List.append_assoc]
      obtain ⟨b, e3, q1, q2, q3, q4⟩ := rbKeepNonzeroBuf_spec ha ht hle (by omega) (k := s1) g
      rw [e3, ok_bind]
      simp only [keepNz, chooseAndnot, Bool.false_eq_true, if_false] at q1 ⊢
      have hacc : (acc ++ optCell s1 (if containerNonzero (containerIandnot c1 c2) = true then some (containerIandnot c1 c2) else none)).length ≤ pos1 + 1 := by
        split <;> simp [optCell] <;> omega
      cases t1 with
      | nil =>
        rw [if_pos (by simp at hp; omega), merge_end1, keep_false]
        exact rbAndnotEndBuf_spec q1 q2 (by simp at hp ⊢; omega) (by omega) hacc
      | cons q1' u1 =>
      rw [if_neg (by simp at hp; omega)]
      cases t2 with
      | nil =>
        rw [if_pos ((tail_eq h2).2 rfl), merge_end2, keep_true]
        exact rbAndnotEndBuf_spec q1 q2 (by simp at hp ⊢; omega) (by omega) hacc
      | cons q2' u2 =>
      simp only [List.length_cons] at hf hp
      rw [if_neg (by rw [tail_eq h2]; simp), next_length A2, q2.key (by omega), ok_bind, h2.next.key (bp_split_lt i2.next), ok_bind]
      exact ih q1 q2 (by omega) (by omega) hacc i1.2.2.2 h2.next i2.next (by omega)
    · rename_i hs
      split
      · rename_i hlt
        obtain ⟨b, e3, q1, q2, q3⟩ := rbKeepCellBuf_spec ha h1 hle (by omega)
        have hacc : (acc ++ [(s1, c1)]).length ≤ pos1 + 1 := by simp; omega
        rw [e3, ok_bind, merge_lt hlt, ← List.append_assoc, keep_true, next_length acc (s1, c1)]
        cases t1 with
        | nil =>
          rw [if_pos (by simp at hp; omega), merge_end1, keep_false]
          exact rbAndnotEndBuf_spec q1 q2 (by simp at hp ⊢; omega) (by omega) hacc
        | cons q1' u1 =>
        simp only [List.length_cons] at hf hp
        rw [if_neg (by omega), q2.key (by omega), ok_bind]
        exact ih q1 q2 (by omega) (by omega) hacc i1.2.2.2 h2 i2 (by omega)
      · rename_i hlt
        obtain ⟨C, D, e1, e2, e3, e4, e5, e6⟩ := h2.advance (x := s1) i2 (by omega)
        have hlen : t2.length + 1 = C.length + D.length := by
          have := congrArg List.length e1
          simpa using this
        have h2' : RHolds x2 (A2 ++ (C ++ D)) := by rw [← e1]; exact h2
        have i2' : BInv (A2 ++ (C ++ D)) := by rw [← e1]; exact i2
        rw [merge_more (by omega), keep_false, List.nil_append, ← merge_drop_right, ← e3, e4, ok_bind]
        have hsz := h2'.size
        simp only [List.length_append] at hsz
        cases D with
        | nil =>
          rw [if_pos (by simp at hsz; omega), merge_end2, keep_true]
          exact rbAndnotEndBuf_spec ha h1 (by simp; omega) hm hle
        | cons d D =>
          have h2'' : RHolds x2 ((A2 ++ C) ++ d :: D) := by simpa using h2'
          have i2'' : BInv ((A2 ++ C) ++ d :: D) := by simpa using i2'
          rw [if_neg (by simp at hsz; omega), ← List.length_append, h2''.key (bp_split_lt i2''), ok_bind]
          simp only [List.length_cons] at hlen
          exact ih ha h1 hp hm hle i1 h2'' i2'' (by omega)

theorem rbAndnotInplaceBuf_spec (hE : RbEnvOK E) {x1 x2 : RaBuf} {r1 r2 : Bitmap} (h1 : RHolds x1 r1) (i1 : BInv r1) (h2 : RHolds x2 r2) (i2 : BInv r2) :
    RGives (rbAndnotInplaceBuf E x1 x2) (rbAndnotInplace (fun _ => false) r1 r2) := by
  rw [rbAndnotInplaceBuf, h1.size, h2.size]
  simp only [rbAndnotInplace]
  split
  · exact ⟨x1, rfl, h1⟩
  · rename_i n2
    split
    · exact rbClearBuf_spec hE x1
    · rename_i n1
      have hl := i1.length_le
      have hz := h1.size
      have hle := h1.le
      cases r1 with
      | nil => simp at n1
      | cons p1 t1 =>
      cases r2 with
      | nil => simp at n2
      | cons p2 t2 =>
      rw [rquery_head h1, ok_bind, rquery_head h2, ok_bind, rbAndnotInplaceLoop_eq _ i1 i2]
      exact rbAndnotInplaceLoopBuf_spec hE (L := (p1 :: t1).length) hl _ (A2 := []) (acc := []) (pos1 := 0) (cellsAt_nil _ _) h1.cells (by simp)
        (by omega) (by simp) i1 h2 i2 (by simp; omega)

end CRoaring
