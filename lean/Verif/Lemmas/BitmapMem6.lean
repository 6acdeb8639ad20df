import Verif.Lemmas.BitmapMem2
import Verif.Lemmas.Range
import Verif.Model.BitmapMemRange
set_option linter.unusedSimpArgs false
set_option linter.unusedVariables false

/-! Bitmaps in memory: ranges. -/

namespace CRoaring
open Spec

variable {E : RbEnv} {Q : CRel}

/-! ### `ra_shift_tail` -/

theorem raShiftTailBuf_right (hE : RbEnvOK E) {b : RaBuf} {A S : Bitmap} (h : RQ Q b (A ++ S)) {d : Nat} (hd : 0 < d)
    (hl : (A ++ S).length + d ≤ 65536) :
    ∃ b', raShiftTailBuf E b S.length d = .ok b' ∧ b'.size = A.length + d + S.length ∧ b'.size ≤ b'.mem.length ∧
      CellsAt Q b'.mem 0 A ∧ CellsAt Q b'.mem (A.length + d) S := by
  obtain ⟨b1, e1, h1, h2⟩ := h.extend hE hl
  have hs := h1.size
  simp only [List.length_append] at hs h2
  obtain ⟨hA, hS⟩ := cellsAt_append.1 h1.cells
  obtain ⟨m, e2, hm, hm1, hm2, hm3⟩ := moveCells_spec (mem := b1.mem) (dst := A.length + d) (src := A.length) (n := S.length) (by omega) (by omega)
  rw [raShiftTailBuf, raShiftRoomBuf, if_pos (by omega), Int.toNat_natCast, e1, ok_bind]
  simp only
  rw [show b1.size - S.length = A.length by omega, if_neg (by omega), show ((A.length : Int) + (d : Int)).toNat = A.length + d by omega, e2, ok_bind]
  refine ⟨_, rfl, by simp only; omega, by simp only; omega, ?_, ?_⟩
  · exact hA.congr fun j hj => by simpa using hm2 j (by omega)
  · exact hS.congr fun j hj => by rw [hm1 j hj, Nat.zero_add]

theorem raShiftTailBuf_left {b : RaBuf} {A S : Bitmap} {d : Nat} (hs : b.size = A.length + d + S.length) (hl : b.size ≤ b.mem.length)
    (hA : CellsAt Q b.mem 0 A) (hS : CellsAt Q b.mem (A.length + d) S) :
    ∃ b', raShiftTailBuf E b S.length (-(d : Int)) = .ok b' ∧ RQ Q b' (A ++ S) := by
  obtain ⟨m, e2, hm, hm1, hm2, hm3⟩ := moveCells_spec (mem := b.mem) (dst := A.length) (src := A.length + d) (n := S.length) (by omega) (by omega)
  rw [raShiftTailBuf, raShiftRoomBuf, if_neg (by omega), ok_bind]
  simp only
  rw [show b.size - S.length = A.length + d by omega, if_neg (by omega), show (((A.length + d : Nat) : Int) + -(d : Int)).toNat = A.length by omega,
    e2, ok_bind]
  refine ⟨_, rfl, by simp only [List.length_append]; omega, by simp only; omega, cellsAt_append.2 ⟨?_, ?_⟩⟩
  · exact hA.congr fun j hj => by simpa using hm2 j (by omega)
  · rw [Nat.zero_add]
    exact hS.congr fun j hj => hm1 j hj

/-! ### Adding a range -/

theorem addRangeBuf_loop (hE : RbEnvOK E) {min max : Nat} (hmm : min ≤ max) {C : Bitmap} (hC : BInv C)
    (hCk : ∀ p ∈ C, min / 65536 ≤ p.1) {P : Bitmap} (hP : ∀ p ∈ P, p.1 < min / 65536) :
    ∀ (n : Nat) (C' T : Bitmap) (ra : RaBuf), C' = C.filter (fun p => decide (p.1 < min / 65536 + n)) → C'.length ≤ n →
      min / 65536 + n ≤ max / 65536 + 1 → CellsAt (fun _ => CHolds) ra.mem 0 (P ++ C') → CellsAt (fun _ => CHolds) ra.mem (P.length + n) T →
      P.length + n ≤ ra.mem.length →
      ∃ ra', rbAddRangeLoopBuf E min max (min / 65536) (max / 65536) n ra ((P.length : Int) + C'.length - 1) ((P.length : Int) + n - 1) = .ok ra' ∧
        ra'.size = ra.size ∧ ra'.mem.length = ra.mem.length ∧
        CellsAt (fun _ => CHolds) ra'.mem 0 (P ++ cellsFrom (min / 65536) n (addedC min max C) ++ T) := by
  intro n
  induction n with
  | zero =>
    intro C' T ra h1 h2 _ hc ht _
    have e1 : C' = [] := List.length_eq_zero_iff.1 (by omega)
    refine ⟨ra, rfl, rfl, rfl, ?_⟩
    rw [e1, List.append_nil] at hc
    have : cellsFrom (min / 65536) 0 (addedC min max C) = [] := rfl
    rw [this, List.append_nil]
    exact cellsAt_append.2 ⟨hc, by simpa using ht⟩
  | succ n ih =>
    intro C' T ra h1 h2 hn hc ht hlen
    have hdst : ((P.length : Int) + (n + 1 : Nat) - 1).toNat = P.length + n := by omega
    -- what the write at `dst` does
    have hput : ∀ (D : Bitmap) (o : CBuf), D.length ≤ n → D = C.filter (fun p => decide (p.1 < min / 65536 + n)) →
        CellsAt (fun _ => CHolds) ra.mem 0 (P ++ D) → CHolds o (addedC min max C (min / 65536 + n)) →
        ∃ ra', (do let ra1 ← raReplaceIntBuf ra ((P.length : Int) + (n + 1 : Nat) - 1) (min / 65536 + n) o
                   rbAddRangeLoopBuf E min max (min / 65536) (max / 65536) n ra1 ((P.length : Int) + D.length - 1) ((P.length : Int) + (n + 1 : Nat) - 1 - 1)) = .ok ra' ∧
          ra'.size = ra.size ∧ ra'.mem.length = ra.mem.length ∧
          CellsAt (fun _ => CHolds) ra'.mem 0 (P ++ cellsFrom (min / 65536) (n + 1) (addedC min max C) ++ T) := by
      intro D o hD eD hcD ho
      rw [raReplaceIntBuf, if_neg (by omega), hdst, raReplaceBuf, setCell_eq (by omega), ok_bind, ok_bind]
      rw [show (P.length : Int) + (n + 1 : Nat) - 1 - 1 = (P.length : Int) + n - 1 by omega]
      obtain ⟨ra', e, g1, g2, g3⟩ := ih D ((min / 65536 + n, addedC min max C (min / 65536 + n)) :: T)
        ⟨ra.size, ra.mem.set (P.length + n) (min / 65536 + n, o)⟩ eD hD (by omega) (hcD.set_ne (by simp; omega) _)
        (CellsAt.set_here (by omega) ht ho rfl) (by simp; omega)
      refine ⟨ra', e, g1, by simpa using g2, ?_⟩
      rw [cellsFrom_succ]
      simpa using g3
    have hlh := low_le_high (key := min / 65536 + n) hmm (by omega) (by omega)
    rw [rbAddRangeLoopBuf]
    rcases ra_split hC (min / 65536 + n) with ⟨A, c, B, e, hA, hB, _⟩ | ⟨A, B, e, hA, hB, _⟩
    · have eA : C.filter (fun p => decide (p.1 < min / 65536 + n)) = A := by
        rw [e, List.filter_append, List.filter_cons]
        rw [if_neg (by simp)]
        rw [List.filter_eq_self.2 (by intro p hp; have := hA p hp; simpa using this),
          List.filter_eq_nil_iff.2 (by intro p hp; have := hB p hp; simp; omega)]
        simp
      have eC : C' = A ++ [(min / 65536 + n, c)] := by
        rw [h1, e, List.filter_append, List.filter_cons]
        rw [if_pos (by simp)]
        rw [List.filter_eq_self.2 (by intro p hp; have := hA p hp; simp; omega),
          List.filter_eq_nil_iff.2 (by intro p hp; have := hB p hp; simp; omega)]
      have hsrc : ((P.length : Int) + C'.length - 1).toNat = (P ++ A).length := by rw [eC]; simp; omega
      have hge : (P.length : Int) + C'.length - 1 ≥ 0 := by rw [eC]; simp; omega
      rw [eC, ← List.append_assoc] at hc
      obtain ⟨hc1, hc2⟩ := cellsAt_append.1 hc
      obtain ⟨⟨o, ho, hoc⟩, _⟩ := cellsAt_cons.1 hc2
      rw [Nat.zero_add] at ho
      have hinv : CInv c := (bp_mid.1 (e ▸ hC)).2.2.1.1
      obtain ⟨o2, e2, h2'⟩ := cAddRangeBuf_spec hE.m hoc hinv hlh.1 hlh.2
      have hadd : addedC min max C (min / 65536 + n) =
          containerAddRange (lowOf min (min / 65536) (min / 65536 + n)) (highOf max (max / 65536) (min / 65536 + n)) c := by
        unfold addedC
        rw [e, findC_mid hA]
      rw [raKeyIsBuf, if_pos hge, hsrc, cellAt_eq ho, ok_bind, ok_bind]
      simp only [beq_self_eq_true, if_true]
      rw [ok_bind]
      simp only
      rw [show (if min / 65536 = min / 65536 + n then min % 65536 else 0) = lowOf min (min / 65536) (min / 65536 + n) from rfl,
        show (if max / 65536 = min / 65536 + n then max % 65536 else 65535) = highOf max (max / 65536) (min / 65536 + n) from rfl, e2, ok_bind,
        show (P.length : Int) + C'.length - 1 - 1 = (P.length : Int) + A.length - 1 by rw [eC]; simp; omega]
      exact hput A o2 (by rw [eC] at h2; simp at h2; omega) eA.symm hc1 (by rw [hadd]; exact h2')
    · have hno : ∀ p ∈ C, p.1 ≠ min / 65536 + n := by
        intro p hp
        rw [e] at hp
        rcases List.mem_append.1 hp with hp | hp
        · have := hA p hp; omega
        · have := hB p hp; omega
      have eC : C' = C.filter (fun p => decide (p.1 < min / 65536 + n)) := by
        rw [h1]
        apply List.filter_congr
        intro p hp
        have := hno p hp
        apply decide_eq_decide.2
        omega
      have hCk' : ∀ p ∈ C', min / 65536 ≤ p.1 ∧ p.1 < min / 65536 + n := by
        intro p hp
        rw [eC] at hp
        have := List.mem_filter.1 hp
        exact ⟨hCk p this.1, by simpa using this.2⟩
      have hlenC : C'.length ≤ n := by
        have hsort : SSorted (keysOf C') := by
          rw [h1]
          exact List.Pairwise.sublist (List.Sublist.map _ List.filter_sublist) hC.sorted
        have h5 := nodup_length_le (a := keysOf C') (b := List.range' (min / 65536) n)
          (hsort.imp fun h => by omega) (by
            intro a ha
            obtain ⟨p, hp, rfl⟩ := List.mem_map.1 ha
            exact List.mem_range'_1.2 (hCk' p hp))
        simpa [keysOf] using h5
      have hkey : raKeyIsBuf ra ((P.length : Int) + C'.length - 1) (min / 65536 + n) = .ok false := by
        rw [raKeyIsBuf]
        split
        · rename_i hge
          rcases List.eq_nil_or_concat (P ++ C') with e0 | ⟨L, z, e0⟩
          · have := congrArg List.length e0
            simp at this
            obtain ⟨h3, h4⟩ := this
            rw [h3, h4] at hge
            simp at hge
          · have e0 : P ++ C' = L ++ [z] := by simpa using e0
            have hz : z.1 ≠ min / 65536 + n := by
              have : z ∈ P ++ C' := by rw [e0]; simp
              rcases List.mem_append.1 this with hz | hz
              · have := hP z hz; omega
              · have := hCk' z hz; omega
            have hl := congrArg List.length e0
            simp at hl
            rw [e0] at hc
            obtain ⟨⟨o, ho, hoc⟩, _⟩ := cellsAt_cons.1 (cellsAt_append.1 hc).2
            rw [Nat.zero_add] at ho
            rw [show ((P.length : Int) + C'.length - 1).toNat = L.length by omega, cellAt_eq ho, ok_bind]
            simp [hz]
        · rfl
      obtain ⟨c2, hc2, _⟩ := containerFromRange_spec (step := 1) (by omega) (Nat.lt_succ_of_le hlh.1) (by omega)
      have hg := cFromRangeBuf_spec hE.m (lowOf min (min / 65536) (min / 65536 + n)) (highOf max (max / 65536) (min / 65536 + n) + 1) 1 (by omega)
      rw [Nat.succ_eq_add_one] at hc2
      rw [hc2] at hg
      obtain ⟨o2, e2, h2'⟩ := hg
      have hadd : addedC min max C (min / 65536 + n) = c2 := by
        unfold addedC
        rw [findC_absent hno]
        simp only [hc2, Option.getD_some]
      rw [hkey, ok_bind, if_neg (by simp)]
      rw [show (if min / 65536 = min / 65536 + n then min % 65536 else 0) = lowOf min (min / 65536) (min / 65536 + n) from rfl,
        show (if max / 65536 = min / 65536 + n then max % 65536 else 65535) = highOf max (max / 65536) (min / 65536 + n) from rfl, e2, ok_bind]
      exact hput C' o2 hlenC eC hc (by rw [hadd]; exact h2')

theorem rbAddRangeClosedBuf_spec (hE : RbEnvOK E) {b : RaBuf} {r : Bitmap} (h : RHolds b r) (hr : BInv r) {min max : Nat} (hm : max < 4294967296) :
    RGives (rbAddRangeClosedBuf E b min max) (rbAddRangeClosed r min max) := by
  by_cases hmm : min > max
  · rw [rbAddRangeClosedBuf, rbAddRangeClosed, if_pos hmm, if_pos hmm]
    exact ⟨b, rfl, h⟩
  · have hmm' : min ≤ max := by omega
    have hkk : min / 65536 ≤ max / 65536 := Nat.div_le_div_right hmm'
    have hlen := (rbAddRangeClosed_spec hr (min := min) hm).1.length_le
    obtain ⟨P, C, S, e, hP, hC, hS, bP, bC, bS, hsuf, hpre, hClen, hform⟩ := addRange_layout hr hmm'
    rw [hform] at hlen ⊢
    have hz := h.size
    have hlr : r.length = P.length + C.length + S.length := by rw [e]; simp [Nat.add_assoc]
    rw [List.length_append, List.length_append, show (cellsFrom (min / 65536) (max / 65536 - min / 65536 + 1) (addedC min max C)).length =
      max / 65536 - min / 65536 + 1 by simp [cellsFrom]] at hlen
    rw [rbAddRangeClosedBuf, if_neg hmm, h.keys, ok_bind]
    simp only [hz, hsuf, Int.toNat_natCast, hpre]
    rw [show r.length - P.length - S.length = C.length by omega]
    have hroom : ∃ ra, rbAddRangeRoomBuf E b (max / 65536 - min / 65536 + 1) C.length S.length = .ok ra ∧
        ra.size = P.length + (max / 65536 - min / 65536 + 1) + S.length ∧ ra.size ≤ ra.mem.length ∧
        CellsAt (fun _ => CHolds) ra.mem 0 (P ++ C) ∧ CellsAt (fun _ => CHolds) ra.mem (P.length + (max / 65536 - min / 65536 + 1)) S := by
      rw [rbAddRangeRoomBuf]
      split
      · obtain ⟨ra, e1, g1, g2, g3, g4⟩ := raShiftTailBuf_right hE (A := P ++ C) (S := S) (by rw [← e]; exact h)
          (d := max / 65536 - min / 65536 + 1 - C.length) (by omega) (by simp; omega)
        simp only [List.length_append] at g1 g4
        refine ⟨ra, e1, by omega, g2, g3, ?_⟩
        rwa [show P.length + C.length + (max / 65536 - min / 65536 + 1 - C.length) = P.length + (max / 65536 - min / 65536 + 1) by omega] at g4
      · obtain ⟨g3, g4⟩ := cellsAt_append.1 (e ▸ h.cells)
        refine ⟨b, rfl, by omega, h.le, g3, ?_⟩
        rwa [Nat.zero_add, List.length_append, show P.length + C.length = P.length + (max / 65536 - min / 65536 + 1) by omega] at g4
    obtain ⟨ra, e1, g1, g2, g3, g4⟩ := hroom
    rw [e1, ok_bind, g1, show ((P.length + (max / 65536 - min / 65536 + 1) + S.length : Nat) : Int) - (S.length : Nat) - 1 =
      (P.length : Int) + (max / 65536 - min / 65536 + 1 : Nat) - 1 by omega]
    have hfil : C = C.filter (fun p => decide (p.1 < min / 65536 + (max / 65536 - min / 65536 + 1))) := by
      symm
      rw [List.filter_eq_self]
      intro p hp
      have := (hC p hp).2
      simp
      omega
    obtain ⟨ra', e2, k1, k2, k3⟩ := addRangeBuf_loop hE hmm' bC (fun p hp => (hC p hp).1) hP (max / 65536 - min / 65536 + 1) C S ra hfil hClen
      (by omega) g3 g4 (by omega)
    refine ⟨ra', e2, ?_, by omega, k3⟩
    rw [k1, g1]
    simp [cellsFrom]
    omega

/-! ### Removing a range -/

theorem removeRangeBuf_loop (hE : RbEnvOK E) {min max : Nat} (hmm : min ≤ max) (R : Bitmap) : ∀ (A : Bitmap) (g : Nat) (b : RaBuf), BInv R →
    (∀ p ∈ R, min / 65536 ≤ p.1) → CellsAt (fun _ => CHolds) b.mem 0 A → CellsAt (fun _ => CHolds) b.mem (A.length + g) R →
    A.length + g + R.length ≤ b.mem.length →
    ∃ b' D S, rbRemoveRangeLoopBuf E min max (min / 65536) (max / 65536) R.length (A.length + g) A.length b =
        .ok (b', A.length + g + (R.length - S.length), (A ++ D).length) ∧
      rbRemoveRangeLoop min max (min / 65536) (max / 65536) R = D ++ S ∧ S.length ≤ R.length ∧
      (A ++ D).length ≤ A.length + g + (R.length - S.length) ∧
      b'.size = b.size ∧ b'.mem.length = b.mem.length ∧ CellsAt (fun _ => CHolds) b'.mem 0 (A ++ D) ∧
      CellsAt (fun _ => CHolds) b'.mem (A.length + g + (R.length - S.length)) S := by
  induction R with
  | nil =>
    intro A g b _ _ hA hR hl
    exact ⟨b, [], [], by simp [rbRemoveRangeLoopBuf], rfl, by simp, by simp, rfl, rfl, by simpa using hA, cellsAt_nil _ _⟩
  | cons p t ih =>
    intro A g b hr hk hA hR hl
    obtain ⟨k, c⟩ := p
    rw [List.length_cons] at hl
    have hk1 : min / 65536 ≤ k := hk (k, c) (by simp)
    obtain ⟨⟨o, ho, hoc⟩, ht⟩ := cellsAt_cons.1 hR
    rw [List.length_cons, rbRemoveRangeLoopBuf, cellAt_eq ho, ok_bind, rbRemoveRangeLoop]
    simp only
    by_cases hkm : k ≤ max / 65536
    · rw [if_pos hkm, if_pos hkm]
      obtain ⟨h1, h2⟩ := low_le_high hmm hk1 hkm
      have hg := cRemoveRangeBuf_spec hE.m hoc hr.2.1.1 h1 h2
      rw [show (if min / 65536 = k then min % 65536 else 0) = lowOf min (min / 65536) k from rfl,
        show (if max / 65536 = k then max % 65536 else 65535) = highOf max (max / 65536) k from rfl]
      cases e : containerRemoveRange (lowOf min (min / 65536) k) (highOf max (max / 65536) k) c with
      | none =>
        rw [e] at hg
        have hg : cRemoveRangeBuf E.m (lowOf min (min / 65536) k) (highOf max (max / 65536) k) o = .ok none := hg
        rw [hg, ok_bind, rbKeepSomeBuf, ok_bind]
        obtain ⟨b', D, S, g1, g2, g3, g4, g5, g6, g7, g8⟩ := ih A (g + 1) b hr.2.2.2 (fun p hp => hk p (by simp [hp])) hA (by rwa [← Nat.add_assoc]) (by omega)
        refine ⟨b', D, S, ?_, g2, by omega, by omega, g5, g6, g7, ?_⟩
        · rw [← Nat.add_assoc] at g1
          simp only
          rw [g1]
          congr 3
          omega
        · rwa [show A.length + g + (t.length + 1 - S.length) = A.length + (g + 1) + (t.length - S.length) by omega]
      | some c' =>
        rw [e] at hg
        obtain ⟨o', e1, ho'⟩ := hg
        rw [e1, ok_bind, rbKeepSomeBuf, raReplaceBuf, setCell_eq (by omega), ok_bind, ok_bind, ok_bind]
        obtain ⟨b', D, S, g1, g2, g3, g4, g5, g6, g7, g8⟩ := ih (A ++ [(k, c')]) g ⟨b.size, b.mem.set A.length (k, o')⟩ hr.2.2.2
          (fun p hp => hk p (by simp [hp]))
          (cellsAt_append.2 ⟨hA.set_ne (by omega) _, by rw [Nat.zero_add]; exact CellsAt.set_here (by omega) (cellsAt_nil _ _) ho' rfl⟩)
          (by simp only [List.length_append, List.length_singleton]
              rw [show A.length + 1 + g = A.length + g + 1 by omega]
              exact ht.set_ne (by omega) _)
          (by simp; omega)
        simp only [List.length_append, List.length_singleton] at g1 g4 g8
        refine ⟨b', (k, c') :: D, S, ?_, by rw [g2]; rfl, by omega, by simp; omega, g5, by simpa using g6, by simpa using g7, ?_⟩
        · simp only
          rw [show A.length + g + 1 = A.length + 1 + g by omega, g1]
          congr 3
          · omega
          · simp; omega
        · rwa [show A.length + g + (t.length + 1 - S.length) = A.length + 1 + g + (t.length - S.length) by omega]
    · rw [if_neg hkm, if_neg hkm]
      exact ⟨b, [], (k, c) :: t, by simp, rfl, by simp, by simp, rfl, rfl, by simpa using hA, by simpa using hR⟩

theorem rbRemoveRangeClosedBuf_spec (hE : RbEnvOK E) {b : RaBuf} {r : Bitmap} (h : RHolds b r) (hr : BInv r) (min max : Nat) :
    RGives (rbRemoveRangeClosedBuf E b min max) (rbRemoveRangeClosed r min max) := by
  rw [rbRemoveRangeClosedBuf, rbRemoveRangeClosed]
  by_cases hmm : min > max
  · rw [if_pos hmm, if_pos hmm]
    exact ⟨b, rfl, h⟩
  · rw [if_neg hmm, if_neg hmm]
    have hz := h.size
    have hle := h.le
    obtain ⟨P, R, e, hP, hR⟩ := bp_exists_split hr (min / 65536)
    have hbr := (bp_append.1 (e ▸ hr)).2.1
    rw [h.keys, ok_bind]
    simp only [hz, countLess_keys hr e hP hR, Int.toNat_natCast]
    have hlr : r.length = P.length + R.length := by rw [e]; simp
    obtain ⟨g1, g2⟩ := cellsAt_append.1 (e ▸ h.cells)
    obtain ⟨b', D, S, k1, k2, k3, k4, k5, k6, k7, k8⟩ := removeRangeBuf_loop hE (by omega : min ≤ max) R P 0 b hbr hR g1 (by simpa using g2) (by omega)
    rw [show r.length - P.length = R.length by omega]
    simp only [Nat.add_zero] at k1 k4 k8
    rw [k1, ok_bind]
    simp only
    have et : r.take P.length ++ rbRemoveRangeLoop min max (min / 65536) (max / 65536) (r.drop P.length) = P ++ D ++ S := by
      rw [e, List.take_left, List.drop_left, k2, List.append_assoc]
    rw [et]
    split
    · rename_i hgt
      rw [k5, hz, show r.length - (P.length + (R.length - S.length)) = S.length by omega,
        show (((P ++ D).length : Nat) : Int) - ((P.length + (R.length - S.length) : Nat) : Int) =
          -((P.length + (R.length - S.length) - (P ++ D).length : Nat) : Int) by omega]
      obtain ⟨b2, e2, h2⟩ := raShiftTailBuf_left (E := E) (b := b') (A := P ++ D) (S := S) (d := P.length + (R.length - S.length) - (P ++ D).length)
        (by omega) (by omega) k7 (by rwa [show (P ++ D).length + (P.length + (R.length - S.length) - (P ++ D).length) = P.length + (R.length - S.length) by omega])
      exact ⟨b2, e2, h2⟩
    · rename_i hgt
      refine ⟨b', rfl, by rw [List.length_append]; omega, by omega, cellsAt_append.2 ⟨k7, ?_⟩⟩
      rwa [Nat.zero_add, show (P ++ D).length = P.length + (R.length - S.length) by omega]

end CRoaring
