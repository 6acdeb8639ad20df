import Verif.Lemmas.BitmapMem2
set_option linter.unusedSimpArgs false
set_option linter.unusedVariables false

/-! Bitmaps in memory: intersections and unions. -/

namespace CRoaring
open Spec

variable {E : RbEnv} {Q : CRel}

/-! ### Merging -/

/-- The cell of a container, if there is one. -/
def optCell (k : Nat) : Option Container → Bitmap
  | some c => [(k, c)]
  | none => []

variable {f : Nat → Container → Container → Option Container} {k1 k2 : Bool}

theorem merge_same (f : Nat → Container → Container → Option Container) (k1 k2 : Bool) (s : Nat) (c1 c2 : Container) (t1 t2 : Bitmap) :
    merge f k1 k2 ((s, c1) :: t1) ((s, c2) :: t2) = optCell s (f s c1 c2) ++ merge f k1 k2 t1 t2 := by
  rw [merge, if_pos rfl]
  cases f s c1 c2 <;> rfl

theorem merge_lt {s1 s2 : Nat} (h : s1 < s2) (c1 c2 : Container) (t1 t2 : Bitmap) :
    merge f k1 k2 ((s1, c1) :: t1) ((s2, c2) :: t2) = keep k1 [(s1, c1)] ++ merge f k1 k2 t1 ((s2, c2) :: t2) := by
  rw [merge, if_neg (by omega), if_pos h]

theorem merge_more {s1 s2 : Nat} (h : s2 < s1) (c1 c2 : Container) (t1 t2 : Bitmap) :
    merge f k1 k2 ((s1, c1) :: t1) ((s2, c2) :: t2) = keep k2 [(s2, c2)] ++ merge f k1 k2 ((s1, c1) :: t1) t2 := by
  rw [merge, if_neg (by omega), if_neg (by omega)]

theorem merge_end1 (b : Bitmap) : merge f k1 k2 [] b = keep k2 b := by rw [merge]
theorem merge_end2 (a : Bitmap) : merge f k1 k2 a [] = keep k1 a := by
  cases a
  · simp [merge, keep]
  · simp [merge]

/-! ### Cells -/

theorem CellsAt.key {b : RaBuf} {i : Nat} {p : Nat × Container} {t : Bitmap} (h : CellsAt Q b.mem i (p :: t)) (hl : i < 65536) :
    raKeyBuf b i = .ok p.1 := by
  obtain ⟨⟨c, h1, _⟩, _⟩ := cellsAt_cons.1 h
  rw [raKeyBuf, Nat.mod_eq_of_lt hl, cellAt_eq h1, ok_bind]

theorem CellsAt.cont {b : RaBuf} {i : Nat} {p : Nat × Container} {t : Bitmap} (h : CellsAt Q b.mem i (p :: t)) (hl : i < 65536) :
    ∃ c, raContBuf b i = .ok c ∧ Q p.1 c p.2 := by
  obtain ⟨⟨c, h1, h2⟩, _⟩ := cellsAt_cons.1 h
  exact ⟨c, by rw [raContBuf, Nat.mod_eq_of_lt hl, cellAt_eq h1, ok_bind], h2⟩

theorem raAdvanceFreeingBuf_spec {b : RaBuf} (x : Nat) (B : Bitmap) : ∀ {pos : Nat}, CellsAt Q b.mem pos B →
    ∃ C, B = C ++ dropLt x B ∧ raAdvanceFreeingBuf b x B.length pos = .ok (pos + C.length) := by
  induction B with
  | nil => intro pos h; exact ⟨[], rfl, rfl⟩
  | cons p t ih =>
    intro pos h
    obtain ⟨k, c⟩ := p
    obtain ⟨⟨o, h1, _⟩, h2⟩ := cellsAt_cons.1 h
    rw [List.length_cons, raAdvanceFreeingBuf, cellAt_eq h1, ok_bind]
    simp only [dropLt]
    split
    · obtain ⟨C, e1, e2⟩ := ih h2
      exact ⟨(k, c) :: C, by rw [List.cons_append, ← e1], by rw [e2, List.length_cons]; congr 1; omega⟩
    · exact ⟨[], rfl, rfl⟩

theorem raAppendNonzeroBuf_spec (hE : RbEnvOK E) {ans : RaBuf} {acc : Bitmap} (h : RHolds ans acc) {k : Nat} {o : CBuf} {c : Container}
    (hc : CHolds o c) (hl : (acc ++ optCell k (if containerNonzero c then some c else none)).length ≤ 65536) :
    RGives (raAppendNonzeroBuf E ans k o) (acc ++ optCell k (if containerNonzero c then some c else none)) := by
  rw [raAppendNonzeroBuf, CHolds.nonzero hc]
  split
  · rename_i hn
    rw [hn] at hl
    simp only [if_true, optCell, List.length_append, List.length_singleton] at hl
    exact h.append hE (by omega) hc
  · exact ⟨ans, rfl, by simpa [optCell] using h⟩

theorem rbKeepNonzeroBuf_spec {x1 : RaBuf} {acc t : Bitmap} {pos : Nat} (h1 : CellsAt (fun _ => CHolds) x1.mem 0 acc)
    (h2 : CellsAt (fun _ => CHolds) x1.mem (pos + 1) t) (hp : acc.length ≤ pos) (hl : pos < x1.mem.length) {k : Nat} {o : CBuf} {c : Container}
    (hc : CHolds o c) :
    ∃ b, rbKeepNonzeroBuf x1 acc.length k o = .ok (b, (acc ++ optCell k (if containerNonzero c then some c else none)).length) ∧
      CellsAt (fun _ => CHolds) b.mem 0 (acc ++ optCell k (if containerNonzero c then some c else none)) ∧
      CellsAt (fun _ => CHolds) b.mem (pos + 1) t ∧ b.size = x1.size ∧ b.mem.length = x1.mem.length := by
  rw [rbKeepNonzeroBuf, CHolds.nonzero hc]
  split
  · rw [raReplaceBuf, setCell_eq (by omega)]
    refine ⟨⟨x1.size, x1.mem.set acc.length (k, o)⟩, ?_, ?_, h2.set_ne (by omega) _, rfl, by simp⟩
    · simp [ok_bind, optCell]
    · refine cellsAt_append.2 ⟨h1.set_ne (by omega) _, ?_⟩
      rw [Nat.zero_add]
      exact CellsAt.set_here (by omega) (cellsAt_nil _ _) hc rfl
  · exact ⟨x1, by simp [optCell], by simpa [optCell] using h1, h2, rfl, rfl⟩

/-! ### Intersection -/

theorem rbAndLoopBuf_spec (hE : RbEnvOK E) {x1 x2 : RaBuf} (fuel : Nat) : ∀ {A1 B1 A2 B2 acc : Bitmap} {ans : RaBuf},
    RHolds x1 (A1 ++ B1) → BInv (A1 ++ B1) → RHolds x2 (A2 ++ B2) → BInv (A2 ++ B2) → RHolds ans acc → B1.length + B2.length < fuel →
    (acc ++ merge (keepNz fun _ => containerAnd) false false B1 B2).length ≤ 65536 →
    RGives (rbAndLoopBuf E x1 x2 fuel A1.length A2.length ans) (acc ++ merge (keepNz fun _ => containerAnd) false false B1 B2) := by
  induction fuel with
  | zero => intros; omega
  | succ fuel ih =>
    intro A1 B1 A2 B2 acc ans h1 i1 h2 i2 ha hf hl
    have z1 := h1.size
    have z2 := h2.size
    rw [List.length_append] at z1 z2
    rw [rbAndLoopBuf]
    cases B1 with
    | nil =>
      rw [if_neg (by simp at z1; omega), merge_end1]
      exact ⟨ans, rfl, by simpa [keep] using ha⟩
    | cons p1 t1 =>
    cases B2 with
    | nil =>
      rw [if_neg (by simp at z2; omega), merge_end2]
      exact ⟨ans, rfl, by simpa [keep] using ha⟩
    | cons p2 t2 =>
    obtain ⟨s1, c1⟩ := p1
    obtain ⟨s2, c2⟩ := p2
    simp only [List.length_cons] at z1 z2 hf
    have n1 := (bp_mid.1 i1).2.2.1
    have n2 := (bp_mid.1 i2).2.2.1
    rw [if_pos ⟨by omega, by omega⟩, h1.key (bp_split_lt i1), ok_bind, h2.key (bp_split_lt i2), ok_bind]
    simp only
    split
    · rename_i hs
      subst hs
      obtain ⟨o1, e1, g1⟩ := h1.cont (bp_split_lt i1)
      obtain ⟨o2, e2, g2⟩ := h2.cont (bp_split_lt i2)
      obtain ⟨o, e, g⟩ := cAndBuf_spec hE.m g1 g2 n1.1 n2.1 n1.run n2.run
      rw [e1, ok_bind, e2, ok_bind, e, ok_bind]
      rw [merge_same, ← List.append_assoc] at hl ⊢
      obtain ⟨a', e3, h3⟩ := raAppendNonzeroBuf_spec hE ha (k := s1) g (by simp only [keepNz, List.length_append] at hl ⊢; omega)
      rw [e3, ok_bind]
      have := ih (A1 := A1 ++ [(s1, c1)]) (B1 := t1) (A2 := A2 ++ [(s1, c2)]) (B2 := t2) (by simpa using h1) (by simpa using i1)
        (by simpa using h2) (by simpa using i2) h3 (by omega) hl
      simpa [keepNz] using this
    · rename_i hs
      split
      · rename_i hlt
        obtain ⟨C, D, e1, e2, e3, e4, e5, e6⟩ := h1.advance i1 hlt
        rw [e4, ok_bind]
        rw [merge_lt hlt, ← merge_drop_left, ← e3] at hl ⊢
        have hlen : t1.length + 1 = C.length + D.length := by
          have := congrArg List.length e1
          simpa using this
        have := ih (A1 := A1 ++ C) (B1 := D) (A2 := A2) (B2 := (s2, c2) :: t2) (ans := ans) (acc := acc) (by rw [List.append_assoc, ← e1]; exact h1)
          (by rw [List.append_assoc, ← e1]; exact i1) h2 i2 ha (by simp; omega) (by simpa [keep] using hl)
        simpa [keep] using this
      · rename_i hlt
        obtain ⟨C, D, e1, e2, e3, e4, e5, e6⟩ := h2.advance (x := s1) i2 (by omega)
        rw [e4, ok_bind]
        rw [merge_more (by omega), ← merge_drop_right, ← e3] at hl ⊢
        have hlen : t2.length + 1 = C.length + D.length := by
          have := congrArg List.length e1
          simpa using this
        have := ih (A1 := A1) (B1 := (s1, c1) :: t1) (A2 := A2 ++ C) (B2 := D) (ans := ans) (acc := acc) h1 i1 (by rw [List.append_assoc, ← e1]; exact h2)
          (by rw [List.append_assoc, ← e1]; exact i2) ha (by simp; omega) (by simpa [keep] using hl)
        simpa [keep] using this

theorem rbAndBuf_spec (hE : RbEnvOK E) {x1 x2 : RaBuf} {r1 r2 : Bitmap} (h1 : RHolds x1 r1) (i1 : BInv r1) (h2 : RHolds x2 r2) (i2 : BInv r2) :
    RGives (rbAndBuf E x1 x2) (rbAnd r1 r2) := by
  have hl := (rbAnd_spec i1 i2).1.length_le
  rw [rbAnd_eq i1 i2] at hl ⊢
  exact rbAndLoopBuf_spec hE _ (A1 := []) (A2 := []) (acc := []) h1 i1 h2 i2 (raInitBuf_spec hE _).1 (by rw [h1.size, h2.size]; omega) hl

theorem rbAndInplaceLoopBuf_spec (hE : RbEnvOK E) {x2 : RaBuf} {L : Nat} (hL : L ≤ 65536) (fuel : Nat) :
    ∀ {B1 A2 B2 acc : Bitmap} {x1 : RaBuf} {pos1 : Nat},
    CellsAt (fun _ => CHolds) x1.mem 0 acc → CellsAt (fun _ => CHolds) x1.mem pos1 B1 → x1.size = L → L = pos1 + B1.length → L ≤ x1.mem.length →
    acc.length ≤ pos1 → BInv B1 → RHolds x2 (A2 ++ B2) → BInv (A2 ++ B2) → B1.length + B2.length < fuel →
    ∃ b, rbAndInplaceLoopBuf E L x2 fuel pos1 A2.length acc.length x1 =
        .ok (b, (acc ++ merge (keepNz fun k => chooseAnd false) false false B1 B2).length) ∧
      RHolds ⟨(acc ++ merge (keepNz fun k => chooseAnd false) false false B1 B2).length, b.mem⟩
        (acc ++ merge (keepNz fun k => chooseAnd false) false false B1 B2) := by
  induction fuel with
  | zero => intros; omega
  | succ fuel ih =>
    intro B1 A2 B2 acc x1 pos1 ha h1 hz hp hm hle i1 h2 i2 hf
    have z2 := h2.size
    rw [List.length_append] at z2
    rw [rbAndInplaceLoopBuf]
    cases B1 with
    | nil =>
      rw [if_neg (by simp at hp; omega), merge_end1]
      exact ⟨x1, by simp [keep], by simp [keep], by simp [keep]; omega, by simpa [keep] using ha⟩
    | cons p1 t1 =>
    cases B2 with
    | nil =>
      rw [if_neg (by simp at z2; omega), merge_end2]
      exact ⟨x1, by simp [keep], by simp [keep], by simp [keep]; omega, by simpa [keep] using ha⟩
    | cons p2 t2 =>
    obtain ⟨s1, c1⟩ := p1
    obtain ⟨s2, c2⟩ := p2
    simp only [List.length_cons] at hp z2 hf
    have n1 := i1.2.1
    have n2 := (bp_mid.1 i2).2.2.1
    rw [if_pos ⟨by omega, by omega⟩, h1.key (by omega), ok_bind, h2.key (bp_split_lt i2), ok_bind]
    simp only
    split
    · rename_i hs
      subst hs
      obtain ⟨o1, e1, g1⟩ := h1.cont (by omega)
      obtain ⟨o2, e2, g2⟩ := h2.cont (bp_split_lt i2)
      obtain ⟨o, e, g⟩ := cIandBuf_spec hE.m g1 g2 n1.1 n2.1 n1.run n2.run
      rw [e1, ok_bind, e2, ok_bind, e, ok_bind, merge_same, ← List.append_assoc]
      obtain ⟨b, e3, q1, q2, q3, q4⟩ := rbKeepNonzeroBuf_spec ha (cellsAt_cons.1 h1).2 hle (by omega) (k := s1) g
      rw [e3, ok_bind]
      have hacc : (acc ++ optCell s1 (if containerNonzero (containerIand c1 c2) = true then some (containerIand c1 c2) else none)).length ≤ pos1 + 1 := by
        split <;> simp [optCell] <;> omega
      have := ih (x1 := b) (pos1 := pos1 + 1) (A2 := A2 ++ [(s1, c2)]) (B2 := t2) q1 q2 (by omega) (by omega) (by omega) hacc i1.2.2.2
        (by simpa using h2) (by simpa using i2) (by omega)
      simpa [keepNz, chooseAnd] using this
    · rename_i hs
      split
      · rename_i hlt
        obtain ⟨C, e1, e2⟩ := raAdvanceFreeingBuf_spec s2 _ h1
        rw [show x1.size - pos1 = ((s1, c1) :: t1).length by simp; omega, e2, ok_bind]
        have e3 : dropLt s2 ((s1, c1) :: t1) = dropLt s2 t1 := by simp [dropLt, hlt]
        have hlen : t1.length + 1 = C.length + (dropLt s2 t1).length := by
          rw [← e3]
          have := congrArg List.length e1
          simpa using this
        rw [merge_lt hlt, ← merge_drop_left]
        rw [e3] at e1
        rw [e1] at h1 i1
        have hC : 0 < C.length := by
          cases C with
          | nil =>
            have := congrArg List.length e1
            have hd : (dropLt s2 t1).length ≤ t1.length := by
              obtain ⟨D, hD, _⟩ := dropLt_suffix s2 t1
              have := congrArg List.length hD
              simp at this
              omega
            simp at this
            omega
          | cons _ _ => simp
        have := ih (x1 := x1) (pos1 := pos1 + C.length) (A2 := A2) (B2 := (s2, c2) :: t2) (acc := acc) ha (cellsAt_append.1 h1).2 hz (by omega) hm (by omega)
          (bp_append.1 i1).2.1 h2 i2 (by simp; omega)
        simpa [keep] using this
      · rename_i hlt
        obtain ⟨C, D, e1, e2, e3, e4, e5, e6⟩ := h2.advance (x := s1) i2 (by omega)
        rw [e4, ok_bind]
        rw [merge_more (by omega), ← merge_drop_right, ← e3]
        have hlen : t2.length + 1 = C.length + D.length := by
          have := congrArg List.length e1
          simpa using this
        have := ih (x1 := x1) (pos1 := pos1) (B1 := (s1, c1) :: t1) (A2 := A2 ++ C) (B2 := D) (acc := acc) ha h1 hz (by simp; omega) hm hle i1
          (by rw [List.append_assoc, ← e1]; exact h2) (by rw [List.append_assoc, ← e1]; exact i2) (by simp; omega)
        simpa [keep] using this

theorem rbAndInplaceBuf_spec (hE : RbEnvOK E) {x1 x2 : RaBuf} {r1 r2 : Bitmap} (h1 : RHolds x1 r1) (i1 : BInv r1) (h2 : RHolds x2 r2) (i2 : BInv r2) :
    RGives (rbAndInplaceBuf E x1 x2) (rbAndInplace false (fun _ => false) r1 r2) := by
  rw [rbAndInplace, if_neg (by simp), rbAndInplaceLoop_eq _ i1 i2]
  have hl := i1.length_le
  have hz := h1.size
  have hle := h1.le
  obtain ⟨b, e, hb⟩ := rbAndInplaceLoopBuf_spec hE (L := x1.size) (by omega) (x1.size + x2.size + 1) (x1 := x1) (pos1 := 0) (acc := []) (A2 := [])
    (cellsAt_nil _ _) h1.cells rfl (by omega) hle (by simp) i1 h2 i2 (by rw [h1.size, h2.size]; omega)
  rw [rbAndInplaceBuf]
  refine ⟨raDownsizeBuf b _, ?_, hb⟩
  have e' : rbAndInplaceLoopBuf E x1.size x2 (x1.size + x2.size + 1) 0 0 0 x1 = _ := e
  rw [e', ok_bind]

end CRoaring
