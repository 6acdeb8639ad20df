import Verif.Lemmas.BitmapMem3
set_option linter.unusedSimpArgs false
set_option linter.unusedVariables false

/-! Bitmaps in memory: unions and symmetric differences. -/

namespace CRoaring
open Spec

variable {E : RbEnv} {Q : CRel}

theorem merge_congr {f g : Nat → Container → Container → Option Container} {k1 k2 : Bool} {a b : Bitmap}
    (h : ∀ p ∈ a, ∀ c1 c2, f p.1 c1 c2 = g p.1 c1 c2) : merge f k1 k2 a b = merge g k1 k2 a b := by
  fun_induction merge f k1 k2 a b with
  | case1 => rw [merge]
  | case2 x1 hx => rw [merge_end2]
  | case3 c1 t1 s c2 t2 ih =>
    rw [merge_same, ← ih fun p hp => h p (by simp [hp]), ← h (s, c1) (by simp)]
    simp only
    cases f s c1 c2 <;> rfl
  | case4 s1 c1 t1 s2 c2 t2 hne hlt ih => rw [merge_lt hlt, ih fun p hp => h p (by simp [hp])]
  | case5 s1 c1 t1 s2 c2 t2 hne hlt ih => rw [merge_more (by omega), ih h]

/-- Only the keys matter. -/
abbrev BK (r : Bitmap) : Prop := BP (fun _ => True) r

theorem BP.bk {P : Container → Prop} {r : Bitmap} (h : BP P r) : BK r := h.mono fun _ _ => trivial

theorem tail_eq {x : RaBuf} {A t : Bitmap} {p : Nat × Container} (h : RQ Q x (A ++ p :: t)) : A.length + 1 = x.size ↔ t = [] := by
  have := h.size
  simp only [List.length_append, List.length_cons] at this
  rw [← List.length_eq_zero_iff]
  omega

theorem RQ.next {x : RaBuf} {A t : Bitmap} {p : Nat × Container} (h : RQ Q x (A ++ p :: t)) : RQ Q x ((A ++ [p]) ++ t) := by simpa using h
theorem BP.next {P : Container → Prop} {A t : Bitmap} {p : Nat × Container} (h : BP P (A ++ p :: t)) : BP P ((A ++ [p]) ++ t) := by simpa using h

theorem next_length (A : Bitmap) (p : Nat × Container) : A.length + 1 = (A ++ [p]).length := by simp

/-! ### Union -/

theorem rbOrLoopBuf_spec (hE : RbEnvOK E) {x1 x2 : RaBuf} (fuel : Nat) : ∀ {A1 t1 A2 t2 acc : Bitmap} {s1 s2 : Nat} {c1 c2 : Container} {ans : RaBuf},
    RHolds x1 (A1 ++ (s1, c1) :: t1) → BInv (A1 ++ (s1, c1) :: t1) → RHolds x2 (A2 ++ (s2, c2) :: t2) → BInv (A2 ++ (s2, c2) :: t2) →
    RHolds ans acc → t1.length + t2.length < fuel →
    (acc ++ merge (fun _ c1 c2 => some (containerOr c1 c2)) true true ((s1, c1) :: t1) ((s2, c2) :: t2)).length ≤ 65536 →
    RGives (rbOrLoopBuf E x1 x2 fuel A1.length A2.length s1 s2 ans)
      (acc ++ merge (fun _ c1 c2 => some (containerOr c1 c2)) true true ((s1, c1) :: t1) ((s2, c2) :: t2)) := by
  induction fuel with
  | zero => intros; omega
  | succ fuel ih =>
    intro A1 t1 A2 t2 acc s1 s2 c1 c2 ans h1 i1 h2 i2 ha hf hl
    have n1 := (bp_mid.1 i1).2.2.1
    have n2 := (bp_mid.1 i2).2.2.1
    have lc1 := bp_split_lt i1
    have lc2 := bp_split_lt i2
    rw [rbOrLoopBuf]
    split
    · rename_i hs
      subst hs
      obtain ⟨o1, e1, g1⟩ := h1.cont lc1
      obtain ⟨o2, e2, g2⟩ := h2.cont lc2
      obtain ⟨o, e, g⟩ := cOrBuf_spec hE.m g1 g2 n1.1.linv n2.1.linv n1.run n2.run
      rw [merge_same, ← List.append_assoc] at hl ⊢
      obtain ⟨a', e3, h3⟩ := ha.append hE (k := s1) (by simp only [optCell, List.length_append, List.length_singleton] at hl; omega) g
      rw [e1, ok_bind, e2, ok_bind, e, ok_bind, e3, ok_bind]
      simp only [tail_eq h1, tail_eq h2]
      cases t1 with
      | nil =>
        rw [if_pos rfl]
        rw [merge_end1, keep_true] at hl ⊢
        exact appendRest hE h2.next h3 hl (next_length _ _)
      | cons q1 u1 =>
      rw [if_neg (by simp)]
      cases t2 with
      | nil =>
        rw [if_pos rfl]
        rw [merge_end2, keep_true] at hl ⊢
        exact appendRest hE h1.next h3 hl (next_length _ _)
      | cons q2 u2 =>
      rw [if_neg (by simp), next_length, next_length A2, h1.next.key (bp_split_lt i1.next), ok_bind, h2.next.key (bp_split_lt i2.next), ok_bind]
      simp only [List.length_cons] at hf
      exact ih h1.next i1.next h2.next i2.next h3 (by omega) hl
    · rename_i hs
      split
      · rename_i hlt
        obtain ⟨o1, e1, g1⟩ := h1.cont lc1
        obtain ⟨o, e, g⟩ := cCloneBuf_spec hE.m g1
        rw [merge_lt hlt, ← List.append_assoc, keep_true] at hl ⊢
        obtain ⟨a', e3, h3⟩ := ha.append hE (k := s1) (by simp only [List.length_append, List.length_singleton] at hl; omega) g
        rw [e1, ok_bind, e, ok_bind, e3, ok_bind]
        simp only [tail_eq h1]
        cases t1 with
        | nil =>
          rw [if_pos rfl]
          rw [merge_end1, keep_true] at hl ⊢
          exact appendRest hE h2 h3 hl rfl
        | cons q1 u1 =>
        rw [if_neg (by simp), next_length, h1.next.key (bp_split_lt i1.next), ok_bind]
        simp only [List.length_cons] at hf
        exact ih h1.next i1.next h2 i2 h3 (by omega) hl
      · rename_i hlt
        obtain ⟨o1, e1, g1⟩ := h2.cont lc2
        obtain ⟨o, e, g⟩ := cCloneBuf_spec hE.m g1
        rw [merge_more (by omega), ← List.append_assoc, keep_true] at hl ⊢
        obtain ⟨a', e3, h3⟩ := ha.append hE (k := s2) (by simp only [List.length_append, List.length_singleton] at hl; omega) g
        rw [e1, ok_bind, e, ok_bind, e3, ok_bind]
        simp only [tail_eq h2]
        cases t2 with
        | nil =>
          rw [if_pos rfl]
          rw [merge_end2, keep_true] at hl ⊢
          exact appendRest hE h1 h3 hl rfl
        | cons q2 u2 =>
        rw [if_neg (by simp), next_length A2, h2.next.key (bp_split_lt i2.next), ok_bind]
        simp only [List.length_cons] at hf
        exact ih h1 i1 h2.next i2.next h3 (by omega) hl

theorem rquery_head {x : RaBuf} {p : Nat × Container} {t : Bitmap} (h : RQ Q x (p :: t)) : raKeyBuf x 0 = .ok p.1 :=
  RQ.key (A := []) h (by simp)

theorem rbOrBuf_spec (hE : RbEnvOK E) {x1 x2 : RaBuf} {r1 r2 : Bitmap} (h1 : RHolds x1 r1) (i1 : BInv r1) (h2 : RHolds x2 r2) (i2 : BInv r2) :
    RGives (rbOrBuf E x1 x2) (rbOr r1 r2) := by
  have hl := (rbOr_spec i1 i2).1.length_le
  rw [rbOr] at hl ⊢
  rw [rbOrBuf, h1.size, h2.size]
  split
  · exact rbCopyBuf_spec hE h2
  · rename_i n1
    rw [if_neg n1] at hl
    split
    · exact rbCopyBuf_spec hE h1
    · rename_i n2
      rw [if_neg n2] at hl
      rw [rbOrLoop_eq] at hl ⊢
      cases r1 with
      | nil => simp at n1
      | cons p1 t1 =>
      cases r2 with
      | nil => simp at n2
      | cons p2 t2 =>
      rw [rquery_head h1, ok_bind, rquery_head h2, ok_bind]
      exact rbOrLoopBuf_spec hE _ (A1 := []) (A2 := []) (acc := []) h1 i1 h2 i2 (raInitBuf_spec hE _).1 (by simp; omega) hl

theorem rbIorCellBuf_spec (hE : RbEnvOK E) {x1 x2 : RaBuf} {A1 t1 A2 t2 : Bitmap} {s : Nat} {c1 c2 : Container} (h1 : RHolds x1 (A1 ++ (s, c1) :: t1))
    (l1 : A1.length < 65536) (n1 : CNe c1) (h2 : RHolds x2 (A2 ++ (s, c2) :: t2)) (l2 : A2.length < 65536) (n2 : CNe c2) :
    ∃ cap, RGives (rbIorCellBuf E x1 x2 A1.length A2.length) (A1 ++ (s, chooseOr false cap c1 c2) :: t1) := by
  obtain ⟨o1, e1, g1⟩ := h1.cont l1
  obtain ⟨o2, e2, g2⟩ := h2.cont l2
  obtain ⟨o, e, g⟩ := cIorBuf_spec hE.m g1 g2 n1.1.linv n2.1.linv n1.run n2.run
  refine ⟨o1.capacity, ?_⟩
  rw [rbIorCellBuf, e1, ok_bind, CHolds.isFull g1 n1.run, ok_bind, chooseOr]
  split
  · rw [e2, ok_bind, e, ok_bind, if_neg (by simp)]
    obtain ⟨b, e3, h3, _⟩ := h1.set g
    exact ⟨b, e3, h3⟩
  · exact ⟨x1, rfl, h1⟩

theorem bk_len {a b : Bitmap} (h1 : BK a) (h2 : BK b) (h : ∀ p ∈ a, ∀ q ∈ b, p.1 < q.1) : (a ++ b).length ≤ 65536 :=
  (bp_append.2 ⟨h1, h2, h⟩ : BK (a ++ b)).length_le

theorem rbOrInplaceLoopBuf_spec (hE : RbEnvOK E) {x2 : RaBuf} (fuel : Nat) : ∀ {t1 A2 t2 acc : Bitmap} {s1 s2 : Nat} {c1 c2 : Container} {x1 : RaBuf} {L : Nat},
    RHolds x1 (acc ++ (s1, c1) :: t1) → L = x1.size → BK (acc ++ (s1, c1) :: t1) → BInv ((s1, c1) :: t1) → RHolds x2 (A2 ++ (s2, c2) :: t2) →
    BInv (A2 ++ (s2, c2) :: t2) → (∀ p ∈ acc, ∀ q ∈ (s2, c2) :: t2, p.1 < q.1) → t1.length + t2.length < fuel →
    ∃ caps : Nat → Nat, RGives (rbOrInplaceLoopBuf E x2 fuel L acc.length A2.length s1 s2 x1)
      (acc ++ merge (fun k c1 c2 => some (chooseOr false (caps k) c1 c2)) true true ((s1, c1) :: t1) ((s2, c2) :: t2)) := by
  induction fuel with
  | zero => intros; omega
  | succ fuel ih =>
    intro t1 A2 t2 acc s1 s2 c1 c2 x1 L h1 hL k1 i1 h2 i2 hk hf
    have n1 := i1.2.1
    have n2 := (bp_mid.1 i2).2.2.1
    have lc1 := bp_split_lt k1
    have lc2 := bp_split_lt i2
    have hb2 := bp_mid.1 i2
    have ht2 : BInv t2 := (bp_append.1 hb2.1).2.1
    have hb1 := bp_mid.1 k1
    rw [rbOrInplaceLoopBuf]
    split
    · rename_i hs
      subst hs
      obtain ⟨cap, x', e, h3⟩ := rbIorCellBuf_spec hE h1 lc1 n1 h2 lc2 n2
      have hz : L = x'.size := by rw [hL, h1.size, h3.size]; simp
      have k3 : BK (acc ++ (s1, chooseOr false cap c1 c2) :: t1) := bp_mid.2 ⟨hb1.1, hb1.2.1, trivial, hb1.2.2.2⟩
      have hk3 : ∀ p ∈ acc ++ [(s1, chooseOr false cap c1 c2)], ∀ q ∈ t2, p.1 < q.1 := by
        intro p hp q hq
        rcases List.mem_append.1 hp with hp | hp
        · exact hk p hp q (by simp [hq])
        · simp only [List.mem_singleton] at hp
          subst hp
          exact hb2.2.2.2.2 q hq
      rw [e, ok_bind]
      rw [hz]
      simp only [tail_eq h3, tail_eq h2]
      cases t1 with
      | nil =>
        refine ⟨fun _ => cap, ?_⟩
        rw [if_pos rfl, merge_same, ← List.append_assoc, merge_end1, keep_true]
        refine appendRest hE h2.next (by simpa [optCell] using h3) ?_ (next_length _ _)
        exact bk_len (bp_append.1 k3.next).1 ht2.bk hk3
      | cons q1 u1 =>
      rw [if_neg (by simp)]
      cases t2 with
      | nil =>
        refine ⟨fun _ => cap, ?_⟩
        rw [if_pos rfl, merge_same, ← List.append_assoc, merge_end2, keep_true]
        exact ⟨x', rfl, by simpa [optCell] using h3⟩
      | cons q2 u2 =>
      rw [if_neg (by simp), next_length acc (s1, chooseOr false cap c1 c2), next_length A2, h3.next.key (bp_split_lt k3.next), ok_bind,
        h2.next.key (bp_split_lt i2.next), ok_bind]
      simp only [List.length_cons] at hf
      obtain ⟨caps, h⟩ := ih (L := x'.size) h3.next rfl k3.next i1.2.2.2 h2.next i2.next hk3 (by omega)
      refine ⟨fun k => if k = s1 then cap else caps k, ?_⟩
      rw [merge_same, ← List.append_assoc]
      simp only [if_true]
      rw [merge_congr (g := fun k c1 c2 => some (chooseOr false (caps k) c1 c2))]
      · exact h
      · intro p hp c1 c2
        have := i1.2.2.1 p hp
        rw [if_neg (by omega)]
    · rename_i hs
      split
      · rename_i hlt
        have hk3 : ∀ p ∈ acc ++ [(s1, c1)], ∀ q ∈ (s2, c2) :: t2, p.1 < q.1 := by
          intro p hp q hq
          rcases List.mem_append.1 hp with hp | hp
          · exact hk p hp q hq
          · simp only [List.mem_singleton] at hp
            subst hp
            rcases List.mem_cons.1 hq with rfl | hq
            · exact hlt
            · have := hb2.2.2.2.2 q hq
              simp only
              omega
        rw [hL]
        simp only [tail_eq h1]
        cases t1 with
        | nil =>
          refine ⟨fun _ => 0, ?_⟩
          rw [if_pos rfl, merge_lt hlt, ← List.append_assoc, merge_end1, keep_true, keep_true]
          exact appendRest hE h2 h1 (bk_len k1 (bp_append.1 i2).2.1.bk hk3) rfl
        | cons q1 u1 =>
        rw [if_neg (by simp), next_length acc (s1, c1), h1.next.key (bp_split_lt k1.next), ok_bind]
        simp only [List.length_cons] at hf
        obtain ⟨caps, h⟩ := ih (L := x1.size) h1.next rfl k1.next i1.2.2.2 h2 i2 hk3 (by omega)
        refine ⟨caps, ?_⟩
        rw [merge_lt hlt, ← List.append_assoc]
        exact h
      · rename_i hlt
        have k3 : BK (acc ++ (s2, c2) :: (s1, c1) :: t1) := by
          refine bp_mid.2 ⟨k1, hb2.2.1, trivial, fun p hp => hk p hp (s2, c2) (by simp), ?_⟩
          intro p hp
          rcases List.mem_cons.1 hp with rfl | hp
          · simp only; omega
          · have := i1.2.2.1 p hp; omega
        have hk3 : ∀ p ∈ acc ++ [(s2, c2)], ∀ q ∈ t2, p.1 < q.1 := by
          intro p hp q hq
          rcases List.mem_append.1 hp with hp | hp
          · exact hk p hp q (by simp [hq])
          · simp only [List.mem_singleton] at hp
            subst hp
            exact hb2.2.2.2.2 q hq
        obtain ⟨o1, e1, g1⟩ := h2.cont lc2
        obtain ⟨o, e, g⟩ := cCloneBuf_spec hE.m g1
        have hlen := k3.length_le
        obtain ⟨x', e3, h3⟩ := h1.insert hE (by simp at hlen ⊢; omega) (k := s2) g
        have hz : L + 1 = x'.size := by rw [hL, h1.size, h3.size]; simp; omega
        rw [e1, ok_bind, e, ok_bind, e3, ok_bind, hz]
        simp only [tail_eq h2, tail_eq h3]
        cases t2 with
        | nil =>
          refine ⟨fun _ => 0, ?_⟩
          rw [if_pos rfl, if_neg (by simp), merge_more (by omega), ← List.append_assoc, merge_end2, keep_true, keep_true]
          exact ⟨x', rfl, h3.next⟩
        | cons q2 u2 =>
        rw [if_neg (by simp), next_length A2, h2.next.key (bp_split_lt i2.next), ok_bind]
        simp only [List.length_cons] at hf
        obtain ⟨caps, h⟩ := ih (L := x'.size) h3.next rfl k3.next i1 h2.next i2.next hk3 (by omega)
        refine ⟨caps, ?_⟩
        rw [merge_more (by omega), ← List.append_assoc, next_length acc (s2, c2)]
        exact h

theorem rbOrInplaceBuf_spec (hE : RbEnvOK E) {x1 x2 : RaBuf} {r1 r2 : Bitmap} (h1 : RHolds x1 r1) (i1 : BInv r1) (h2 : RHolds x2 r2) (i2 : BInv r2) :
    ∃ caps, RGives (rbOrInplaceBuf E x1 x2) (rbOrInplace (fun _ => false) caps r1 r2) := by
  rw [rbOrInplaceBuf, h1.size, h2.size]
  simp only [rbOrInplace]
  split
  · exact ⟨fun _ => 0, x1, rfl, h1⟩
  · rename_i n2
    split
    · exact ⟨fun _ => 0, rbOverwriteBuf_spec hE h1 h2⟩
    · rename_i n1
      cases r1 with
      | nil => simp at n1
      | cons p1 t1 =>
      cases r2 with
      | nil => simp at n2
      | cons p2 t2 =>
      rw [rquery_head h1, ok_bind, rquery_head h2, ok_bind]
      obtain ⟨caps, h⟩ := rbOrInplaceLoopBuf_spec hE ((p1 :: t1).length + (p2 :: t2).length) (A2 := []) (acc := []) (L := (p1 :: t1).length) h1 h1.size.symm
        i1.bk i1 h2 i2 (by simp) (by simp; omega)
      refine ⟨caps, ?_⟩
      rw [rbOrInplaceLoop_eq]
      exact h

/-! ### Symmetric difference -/

theorem rbXorLoopBuf_spec (hE : RbEnvOK E) {x1 x2 : RaBuf} (fuel : Nat) : ∀ {A1 t1 A2 t2 acc : Bitmap} {s1 s2 : Nat} {c1 c2 : Container} {ans : RaBuf},
    RHolds x1 (A1 ++ (s1, c1) :: t1) → BInv (A1 ++ (s1, c1) :: t1) → RHolds x2 (A2 ++ (s2, c2) :: t2) → BInv (A2 ++ (s2, c2) :: t2) →
    RHolds ans acc → t1.length + t2.length < fuel →
    (acc ++ merge (keepNz fun _ => containerXor) true true ((s1, c1) :: t1) ((s2, c2) :: t2)).length ≤ 65536 →
    RGives (rbXorLoopBuf E x1 x2 fuel A1.length A2.length s1 s2 ans)
      (acc ++ merge (keepNz fun _ => containerXor) true true ((s1, c1) :: t1) ((s2, c2) :: t2)) := by
  induction fuel with
  | zero => intros; omega
  | succ fuel ih =>
    intro A1 t1 A2 t2 acc s1 s2 c1 c2 ans h1 i1 h2 i2 ha hf hl
    have n1 := (bp_mid.1 i1).2.2.1
    have n2 := (bp_mid.1 i2).2.2.1
    have lc1 := bp_split_lt i1
    have lc2 := bp_split_lt i2
    rw [rbXorLoopBuf]
    split
    · rename_i hs
      subst hs
      obtain ⟨o1, e1, g1⟩ := h1.cont lc1
      obtain ⟨o2, e2, g2⟩ := h2.cont lc2
      obtain ⟨o, e, g⟩ := cXorBuf_spec hE.m g1 g2 n1.1.winv n2.1.winv
      rw [merge_same, ← List.append_assoc] at hl ⊢
      simp only [keepNz] at hl ⊢
      obtain ⟨a', e3, h3⟩ := raAppendNonzeroBuf_spec hE ha (k := s1) g (by rw [List.length_append] at hl; simp only; omega)
      simp only at h3
      rw [e1, ok_bind, e2, ok_bind, e, ok_bind, e3, ok_bind]
      simp only [tail_eq h1, tail_eq h2]
      cases t1 with
      | nil =>
        rw [if_pos rfl]
        rw [merge_end1, keep_true] at hl ⊢
        exact appendRest hE h2.next h3 hl (next_length _ _)
      | cons q1 u1 =>
      rw [if_neg (by simp)]
      cases t2 with
      | nil =>
        rw [if_pos rfl]
        rw [merge_end2, keep_true] at hl ⊢
        exact appendRest hE h1.next h3 hl (next_length _ _)
      | cons q2 u2 =>
      rw [if_neg (by simp), next_length, next_length A2, h1.next.key (bp_split_lt i1.next), ok_bind, h2.next.key (bp_split_lt i2.next), ok_bind]
      simp only [List.length_cons] at hf
      exact ih h1.next i1.next h2.next i2.next h3 (by omega) hl
    · rename_i hs
      split
      · rename_i hlt
        obtain ⟨o1, e1, g1⟩ := h1.cont lc1
        obtain ⟨o, e, g⟩ := cCloneBuf_spec hE.m g1
        rw [merge_lt hlt, ← List.append_assoc, keep_true] at hl ⊢
        obtain ⟨a', e3, h3⟩ := ha.append hE (k := s1) (by simp only [List.length_append, List.length_singleton] at hl; omega) g
        rw [e1, ok_bind, e, ok_bind, e3, ok_bind]
        simp only [tail_eq h1]
        cases t1 with
        | nil =>
          rw [if_pos rfl]
          rw [merge_end1, keep_true] at hl ⊢
          exact appendRest hE h2 h3 hl rfl
        | cons q1 u1 =>
        rw [if_neg (by simp), next_length, h1.next.key (bp_split_lt i1.next), ok_bind]
        simp only [List.length_cons] at hf
        exact ih h1.next i1.next h2 i2 h3 (by omega) hl
      · rename_i hlt
        obtain ⟨o1, e1, g1⟩ := h2.cont lc2
        obtain ⟨o, e, g⟩ := cCloneBuf_spec hE.m g1
        rw [merge_more (by omega), ← List.append_assoc, keep_true] at hl ⊢
        obtain ⟨a', e3, h3⟩ := ha.append hE (k := s2) (by simp only [List.length_append, List.length_singleton] at hl; omega) g
        rw [e1, ok_bind, e, ok_bind, e3, ok_bind]
        simp only [tail_eq h2]
        cases t2 with
        | nil =>
          rw [if_pos rfl]
          rw [merge_end2, keep_true] at hl ⊢
          exact appendRest hE h1 h3 hl rfl
        | cons q2 u2 =>
        rw [if_neg (by simp), next_length A2, h2.next.key (bp_split_lt i2.next), ok_bind]
        simp only [List.length_cons] at hf
        exact ih h1 i1 h2.next i2.next h3 (by omega) hl

theorem rbXorBuf_spec (hE : RbEnvOK E) {x1 x2 : RaBuf} {r1 r2 : Bitmap} (h1 : RHolds x1 r1) (i1 : BInv r1) (h2 : RHolds x2 r2) (i2 : BInv r2) :
    RGives (rbXorBuf E x1 x2) (rbXor r1 r2) := by
  have hl := (rbXor_spec i1 i2).1.length_le
  rw [rbXor] at hl ⊢
  rw [rbXorBuf, h1.size, h2.size]
  split
  · exact rbCopyBuf_spec hE h2
  · rename_i n1
    rw [if_neg n1] at hl
    split
    · exact rbCopyBuf_spec hE h1
    · rename_i n2
      rw [if_neg n2] at hl
      rw [rbXorLoop_eq] at hl ⊢
      cases r1 with
      | nil => simp at n1
      | cons p1 t1 =>
      cases r2 with
      | nil => simp at n2
      | cons p2 t2 =>
      rw [rquery_head h1, ok_bind, rquery_head h2, ok_bind]
      exact rbXorLoopBuf_spec hE _ (A1 := []) (A2 := []) (acc := []) h1 i1 h2 i2 (raInitBuf_spec hE _).1 (by simp; omega) hl

theorem rbXorCellBuf_spec {x1 : RaBuf} {A t : Bitmap} {s : Nat} {c1 c : Container} (h1 : RHolds x1 (A ++ (s, c1) :: t)) {o : CBuf} (g : CHolds o c) :
    ∃ b, rbXorCellBuf x1 x1.size A.length o = .ok (b, (A ++ optCell s (if containerNonzero c then some c else none)).length, b.size) ∧
      RHolds b ((A ++ optCell s (if containerNonzero c then some c else none)) ++ t) := by
  rw [rbXorCellBuf, CHolds.nonzero g]
  split
  · obtain ⟨b, e, h, _⟩ := h1.set g
    refine ⟨b, ?_, by simpa [optCell] using h⟩
    rw [e, ok_bind, h.size, h1.size]
    simp [optCell]
  · obtain ⟨b, e, h, _⟩ := h1.remove
    refine ⟨b, ?_, by simpa [optCell] using h⟩
    rw [e, ok_bind, h.size, h1.size]
    simp [optCell]

theorem tail_eq' {x : RaBuf} {A t : Bitmap} (h : RQ Q x (A ++ t)) : A.length = x.size ↔ t = [] := by
  have := h.size
  simp only [List.length_append] at this
  rw [← List.length_eq_zero_iff]
  omega

theorem rbXorInplaceLoopBuf_spec (hE : RbEnvOK E) {x2 : RaBuf} (fuel : Nat) : ∀ {t1 A2 t2 acc : Bitmap} {s1 s2 : Nat} {c1 c2 : Container} {x1 : RaBuf} {L : Nat},
    RHolds x1 (acc ++ (s1, c1) :: t1) → L = x1.size → BK (acc ++ (s1, c1) :: t1) → BInv ((s1, c1) :: t1) → RHolds x2 (A2 ++ (s2, c2) :: t2) →
    BInv (A2 ++ (s2, c2) :: t2) → (∀ p ∈ acc, ∀ q ∈ (s2, c2) :: t2, p.1 < q.1) → t1.length + t2.length < fuel →
    RGives (rbXorInplaceLoopBuf E x2 fuel L acc.length A2.length s1 s2 x1)
      (acc ++ merge (keepNz fun _ => chooseXor false) true true ((s1, c1) :: t1) ((s2, c2) :: t2)) := by
  induction fuel with
  | zero => intros; omega
  | succ fuel ih =>
    intro t1 A2 t2 acc s1 s2 c1 c2 x1 L h1 hL k1 i1 h2 i2 hk hf
    have n1 := i1.2.1
    have n2 := (bp_mid.1 i2).2.2.1
    have lc1 := bp_split_lt k1
    have lc2 := bp_split_lt i2
    have hb2 := bp_mid.1 i2
    have ht2 : BInv t2 := (bp_append.1 hb2.1).2.1
    have hb1 := bp_mid.1 k1
    rw [rbXorInplaceLoopBuf]
    split
    · rename_i hs
      subst hs
      obtain ⟨o1, e1, g1⟩ := h1.cont lc1
      obtain ⟨o2, e2, g2⟩ := h2.cont lc2
      obtain ⟨o, e, g⟩ := cIxorBuf_spec hE.m g1 g2 n1.1 n2.1
      obtain ⟨x', e3, h3⟩ := rbXorCellBuf_spec h1 g
      simp only at h3 e3
      rw [merge_same, ← List.append_assoc]
      simp only [keepNz, chooseXor, Bool.false_eq_true, if_false]
      have k3 : BK ((acc ++ optCell s1 (if containerNonzero (containerIxor c1 c2) = true then some (containerIxor c1 c2) else none)) ++ t1) := by
        split
        · simp only [optCell, List.append_assoc, List.singleton_append]
          exact bp_mid.2 ⟨hb1.1, hb1.2.1, trivial, hb1.2.2.2⟩
        · simpa [optCell] using hb1.1
      have hk3 : ∀ p ∈ acc ++ optCell s1 (if containerNonzero (containerIxor c1 c2) = true then some (containerIxor c1 c2) else none),
          ∀ q ∈ t2, p.1 < q.1 := by
        intro p hp q hq
        rcases List.mem_append.1 hp with hp | hp
        · exact hk p hp q (by simp [hq])
        · have hps : p.1 = s1 := by
            split at hp
            · simp only [optCell, List.mem_singleton] at hp
              rw [hp]
            · simp [optCell] at hp
          rw [hps]
          exact hb2.2.2.2.2 q hq
      rw [e1, ok_bind, e2, ok_bind, e, ok_bind, hL, e3, ok_bind]
      simp only [tail_eq' h3, tail_eq h2]
      cases t1 with
      | nil =>
        rw [if_pos rfl, merge_end1, keep_true]
        refine appendRest hE h2.next (by simpa using h3) ?_ (next_length _ _)
        exact bk_len (bp_append.1 k3).1 ht2.bk hk3
      | cons q1 u1 =>
      rw [if_neg (by simp)]
      cases t2 with
      | nil =>
        rw [if_pos rfl, merge_end2, keep_true]
        exact ⟨x', rfl, h3⟩
      | cons q2 u2 =>
      rw [if_neg (by simp), next_length A2, h3.key (bp_split_lt k3), ok_bind, h2.next.key (bp_split_lt i2.next), ok_bind]
      simp only [List.length_cons] at hf
      exact ih (L := x'.size) h3 rfl k3 i1.2.2.2 h2.next i2.next hk3 (by omega)
    · rename_i hs
      split
      · rename_i hlt
        have hk3 : ∀ p ∈ acc ++ [(s1, c1)], ∀ q ∈ (s2, c2) :: t2, p.1 < q.1 := by
          intro p hp q hq
          rcases List.mem_append.1 hp with hp | hp
          · exact hk p hp q hq
          · simp only [List.mem_singleton] at hp
            subst hp
            rcases List.mem_cons.1 hq with rfl | hq
            · exact hlt
            · have := hb2.2.2.2.2 q hq
              simp only
              omega
        rw [hL]
        simp only [tail_eq h1]
        cases t1 with
        | nil =>
          rw [if_pos rfl, merge_lt hlt, ← List.append_assoc, merge_end1, keep_true, keep_true]
          exact appendRest hE h2 h1 (bk_len k1 (bp_append.1 i2).2.1.bk hk3) rfl
        | cons q1 u1 =>
        rw [if_neg (by simp), next_length acc (s1, c1), h1.next.key (bp_split_lt k1.next), ok_bind]
        simp only [List.length_cons] at hf
        have h := ih (L := x1.size) h1.next rfl k1.next i1.2.2.2 h2 i2 hk3 (by omega)
        rw [merge_lt hlt, ← List.append_assoc]
        exact h
      · rename_i hlt
        have k3 : BK (acc ++ (s2, c2) :: (s1, c1) :: t1) := by
          refine bp_mid.2 ⟨k1, hb2.2.1, trivial, fun p hp => hk p hp (s2, c2) (by simp), ?_⟩
          intro p hp
          rcases List.mem_cons.1 hp with rfl | hp
          · simp only; omega
          · have := i1.2.2.1 p hp; omega
        have hk3 : ∀ p ∈ acc ++ [(s2, c2)], ∀ q ∈ t2, p.1 < q.1 := by
          intro p hp q hq
          rcases List.mem_append.1 hp with hp | hp
          · exact hk p hp q (by simp [hq])
          · simp only [List.mem_singleton] at hp
            subst hp
            exact hb2.2.2.2.2 q hq
        obtain ⟨o1, e1, g1⟩ := h2.cont lc2
        obtain ⟨o, e, g⟩ := cCloneBuf_spec hE.m g1
        have hlen := k3.length_le
        obtain ⟨x', e3, h3⟩ := h1.insert hE (by simp at hlen ⊢; omega) (k := s2) g
        have hz : L + 1 = x'.size := by rw [hL, h1.size, h3.size]; simp; omega
        rw [e1, ok_bind, e, ok_bind, e3, ok_bind, hz]
        simp only [tail_eq h2, tail_eq h3]
        cases t2 with
        | nil =>
          rw [if_pos rfl, if_neg (by simp), merge_more (by omega), ← List.append_assoc, merge_end2, keep_true, keep_true]
          exact ⟨x', rfl, h3.next⟩
        | cons q2 u2 =>
        rw [if_neg (by simp), next_length A2, h2.next.key (bp_split_lt i2.next), ok_bind]
        simp only [List.length_cons] at hf
        have h := ih (L := x'.size) h3.next rfl k3.next i1 h2.next i2.next hk3 (by omega)
        rw [merge_more (by omega), ← List.append_assoc, next_length acc (s2, c2)]
        exact h

theorem rbXorInplaceBuf_spec (hE : RbEnvOK E) {x1 x2 : RaBuf} {r1 r2 : Bitmap} (h1 : RHolds x1 r1) (i1 : BInv r1) (h2 : RHolds x2 r2) (i2 : BInv r2) :
    RGives (rbXorInplaceBuf E x1 x2) (rbXorInplace (fun _ => false) r1 r2) := by
  rw [rbXorInplaceBuf, h1.size, h2.size]
  simp only [rbXorInplace]
  split
  · exact ⟨x1, rfl, h1⟩
  · rename_i n2
    split
    · exact rbOverwriteBuf_spec hE h1 h2
    · rename_i n1
      cases r1 with
      | nil => simp at n1
      | cons p1 t1 =>
      cases r2 with
      | nil => simp at n2
      | cons p2 t2 =>
      rw [rquery_head h1, ok_bind, rquery_head h2, ok_bind, rbXorInplaceLoop_eq]
      exact rbXorInplaceLoopBuf_spec hE ((p1 :: t1).length + (p2 :: t2).length) (A2 := []) (acc := []) (L := (p1 :: t1).length) h1 h1.size.symm
        i1.bk i1 h2 i2 (by simp) (by simp; omega)

end CRoaring
