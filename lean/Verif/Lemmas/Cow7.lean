import Verif.Lemmas.Cow6
import Verif.Lemmas.Range

set_option linter.unusedSimpArgs false
set_option linter.unusedVariables false

namespace CRoaring
open Spec

theorem hAddRangeLoop_spec {g : Bool} (o : Nat → Bool) {min max : Nat} {C : Bitmap} (hC : BInv C)
    (hCk : ∀ p ∈ C, min / 65536 ≤ p.1) (P S : List Slot) (hP : ∀ p ∈ P, p.1 < min / 65536) :
    ∀ (n : Nat) (h : Heap) (C' J D : List Slot) (l : List Ref), HInv g h (refs C' ++ l) →
      vw h C' = C.filter (fun p => decide (p.1 < min / 65536 + n)) → C'.length + J.length = n →
      ∃ E h', hAddRangeLoop o min max (min / 65536) (max / 65536) n h (P ++ (C' ++ J) ++ (D ++ S))
        ((P.length : Int) + C'.length - 1) ((P.length : Int) + n - 1) = some (P ++ E ++ (D ++ S), h') ∧
        HInv g h' (refs E ++ l) ∧ vw h' E = cellsFrom (min / 65536) n (addedC min max C) ∧ Keep h h' l := by
  intro n
  induction n with
  | zero =>
    intro h C' J D l i h1 h2
    have e1 : C' = [] := List.length_eq_zero_iff.1 (by omega)
    have e2 : J = [] := List.length_eq_zero_iff.1 (by omega)
    subst e1 e2
    exact ⟨[], h, by simp [hAddRangeLoop], i, by simp [cellsFrom], Keep.refl _ _⟩
  | succ n ih =>
    intro h C' J D l i h1 h2
    have hdst : ((P.length : Int) + (n + 1 : Nat) - 1).toNat = P.length + n := by omega
    have hs2 : (P.length : Int) + (n + 1 : Nat) - 1 - 1 = (P.length : Int) + n - 1 := by omega
    -- writing at `dst` drops the last cell of `C' ++ J`
    have hset : ∀ c, (P ++ (C' ++ J) ++ (D ++ S)).set (P.length + n) c =
        P ++ (C' ++ J).dropLast ++ ((c :: D) ++ S) := by
      intro c
      have hl : (C' ++ J).length = n + 1 := by simp; omega
      obtain ⟨M, z, e⟩ : ∃ M z, C' ++ J = M ++ [z] := by
        rcases List.eq_nil_or_concat (C' ++ J) with e | ⟨M, z, e⟩
        · rw [e] at hl; simp at hl
        · exact ⟨M, z, by simpa using e⟩
      rw [e] at hl ⊢
      have hM : M.length = n := by simpa using hl
      rw [List.dropLast_concat]
      have : P ++ (M ++ [z]) ++ (D ++ S) = (P ++ M) ++ z :: (D ++ S) := by simp
      rw [this, List.set_append_right _ _ (by simp; omega)]
      rw [show P.length + n - (P ++ M).length = 0 by simp; omega, List.set_cons_zero]
      simp
    -- the rest of the loop
    have hrest : ∀ (C2 J2 : List Slot) (h2 : Heap) (r : Ref), (C' ++ J).dropLast = C2 ++ J2 →
        C2.length + J2.length = n → HInv g h2 (r :: (refs C2 ++ l)) → valC h2 r = addedC min max C (min / 65536 + n) →
        vw h2 C2 = C.filter (fun p => decide (p.1 < min / 65536 + n)) → Keep h h2 l →
        ∃ E h', hAddRangeLoop o min max (min / 65536) (max / 65536) n h2
          ((P ++ (C' ++ J) ++ (D ++ S)).set (P.length + n) (min / 65536 + n, r))
          ((P.length : Int) + C2.length - 1) ((P.length : Int) + (n + 1 : Nat) - 1 - 1) = some (P ++ E ++ (D ++ S), h') ∧
          HInv g h' (refs E ++ l) ∧ vw h' E = cellsFrom (min / 65536) (n + 1) (addedC min max C) ∧ Keep h h' l := by
      intro C2 J2 h2 r e3 e4 i2 v2 w2 q2
      obtain ⟨E, h', e5, i5, w5, q5⟩ := ih h2 C2 J2 ((min / 65536 + n, r) :: D) (r :: l) (i2.perm (by count_tac)) w2 e4
      rw [hset, e3, hs2, e5]
      refine ⟨E ++ [(min / 65536 + n, r)], h', by simp, i5.perm (by count_tac), ?_, q2.trans q5 (List.Subset.refl _) (by sub_tac)⟩
      rw [cellsFrom_succ, vw_append, w5, vw_cons, vw_nil]
      simp only
      rw [q5 r (by simp), v2]
    rw [hAddRangeLoop]
    simp only [hdst]
    rcases ra_split hC (min / 65536 + n) with ⟨A, c, B, e, hA, hB, _⟩ | ⟨A, B, e, hA, hB, _⟩
    · -- the key is present in C
      have eA : C.filter (fun p => decide (p.1 < min / 65536 + n)) = A := by
        rw [e, List.filter_append, List.filter_cons]
        rw [if_neg (by simp)]
        rw [List.filter_eq_self.2 (by intro p hp; have := hA p hp; simpa using this),
          List.filter_eq_nil_iff.2 (by intro p hp; have := hB p hp; simp; omega)]
        simp
      have eC : vw h C' = A ++ [(min / 65536 + n, c)] := by
        rw [h1, e, List.filter_append, List.filter_cons]
        rw [if_pos (by simp)]
        rw [List.filter_eq_self.2 (by intro p hp; have := hA p hp; simp; omega),
          List.filter_eq_nil_iff.2 (by intro p hp; have := hB p hp; simp; omega)]
      obtain ⟨A', r, B', eC', wA, wB, vr⟩ := vw_split_mid eC
      have eB : B' = [] := by cases B' with
        | nil => rfl
        | cons => simp at wB
      subst eB
      have hsrc : ((P.length : Int) + C'.length - 1).toNat = (P ++ A').length := by rw [eC']; simp; omega
      have eL : P ++ (C' ++ J) ++ (D ++ S) = (P ++ A') ++ (min / 65536 + n, r) :: (J ++ (D ++ S)) := by
        rw [eC']; simp
      have hslot : slotAt (P ++ (C' ++ J) ++ (D ++ S)) ((P.length : Int) + C'.length - 1).toNat = (min / 65536 + n, r) := by
        rw [hsrc, eL, slotAt_mid]
      have hge : (P.length : Int) + C'.length - 1 ≥ 0 := by rw [eC']; simp; omega
      simp only [hslot]
      rw [if_pos ⟨hge, trivial⟩]
      obtain ⟨r1, h3, e3, i3, v3, s3, q3⟩ := unshareC_spec (r := r) (l := refs A' ++ l)
        (i.perm (by rw [eC']; count_tac))
      simp only [e3, Option.bind_eq_bind, Option.bind_some, i3.live (r := r1) (by simp), v3, vr]
      have hadd : addedC min max C (min / 65536 + n) =
          containerAddRange (if min / 65536 = min / 65536 + n then min % 65536 else 0)
            (if max / 65536 = min / 65536 + n then max % 65536 else 65535) c := by
        unfold addedC
        rw [e, findC_mid hA]
        rfl
      rw [← hadd]
      obtain ⟨r2, h4, e4, i4, v4, q4⟩ := replaceC_spec (o := o (min / 65536 + n)) i3 (fun _ => s3)
        (addedC min max C (min / 65536 + n))
      simp only [e4, Option.bind_some]
      have q34 := q3.trans q4 (List.Subset.refl _) (List.Subset.refl _)
      have hs1 : (P.length : Int) + C'.length - 1 - 1 = (P.length : Int) + A'.length - 1 := by rw [eC']; simp; omega
      rw [hs1]
      have hsub : ∃ J', (C' ++ J).dropLast = A' ++ J' ∧ A'.length + J'.length = n := by
        cases hJ : J with
        | nil =>
          refine ⟨[], ?_, ?_⟩
          · rw [eC']; simp
          · rw [eC', hJ] at h2; simp at h2 ⊢; exact h2
        | cons j J2 =>
          refine ⟨(min / 65536 + n, r) :: (j :: J2).dropLast, ?_, ?_⟩
          · rw [eC', List.dropLast_append_of_ne_nil (by simp)]; simp
          · rw [eC', hJ] at h2; simp at h2 ⊢; omega
      obtain ⟨J', e5, e6⟩ := hsub
      exact hrest A' J' h4 r2 e5 e6 i4 v4 (by rw [Keep.vw (q34.mono (by sub_tac)), wA, eA]) (q34.mono (by sub_tac))
    · -- the key is absent from C
      have hno : ∀ p ∈ C, p.1 ≠ min / 65536 + n := by
        intro p hp
        rw [e] at hp
        rcases List.mem_append.1 hp with hp | hp
        · have := hA p hp; omega
        · have := hB p hp; omega
      have eC : vw h C' = C.filter (fun p => decide (p.1 < min / 65536 + n)) := by
        rw [h1]
        apply List.filter_congr
        intro p hp
        have := hno p hp
        apply decide_eq_decide.2
        omega
      have hCk' : ∀ p ∈ C', min / 65536 ≤ p.1 ∧ p.1 < min / 65536 + n := by
        intro p hp
        have hp' : (p.1, valC h p.2) ∈ vw h C' := List.mem_map.2 ⟨p, hp, rfl⟩
        rw [eC] at hp'
        have := List.mem_filter.1 hp'
        exact ⟨hCk _ this.1, by simpa using this.2⟩
      have hcond : ¬ ((P.length : Int) + C'.length - 1 ≥ 0 ∧
          (slotAt (P ++ (C' ++ J) ++ (D ++ S)) ((P.length : Int) + C'.length - 1).toNat).1 = min / 65536 + n) := by
        rintro ⟨g1, g2⟩
        rcases List.eq_nil_or_concat C' with e0 | ⟨C2, z, e0⟩
        · rcases List.eq_nil_or_concat P with e1 | ⟨P2, z, e1⟩
          · rw [e0, e1] at g1; simp at g1
          · have e1 : P = P2 ++ [z] := by simpa using e1
            obtain ⟨zk, zc⟩ := z
            rw [e0, e1, show ((((P2 ++ [(zk, zc)]).length : Nat) : Int) + (([] : List Slot).length : Nat) - 1).toNat = P2.length by simp] at g2
            rw [show P2 ++ [(zk, zc)] ++ ([] ++ J) ++ (D ++ S) = P2 ++ (zk, zc) :: (J ++ (D ++ S)) by simp,
              slotAt_mid] at g2
            have := hP (zk, zc) (by rw [e1]; simp)
            simp only at this g2
            omega
        · have e0 : C' = C2 ++ [z] := by simpa using e0
          obtain ⟨zk, zc⟩ := z
          rw [e0, show ((P.length : Int) + ((C2 ++ [(zk, zc)]).length : Nat) - 1).toNat = (P ++ C2).length by simp; omega] at g2
          rw [show P ++ (C2 ++ [(zk, zc)] ++ J) ++ (D ++ S) = (P ++ C2) ++ (zk, zc) :: (J ++ (D ++ S)) by simp,
            slotAt_mid] at g2
          have := hCk' (zk, zc) (by rw [e0]; simp)
          simp only at this g2
          omega
      rw [if_neg hcond]
      -- C' is short: there is at least one cell in J
      have hlen : C'.length ≤ n := by
        have hsort : SSorted (keysOf (vw h C')) := by
          rw [h1]
          exact List.Pairwise.sublist (List.Sublist.map _ List.filter_sublist) hC.sorted
        have h5 := nodup_length_le (a := keysOf (vw h C')) (b := List.range' (min / 65536) n)
          (hsort.imp fun h => by omega) (by
            intro a ha
            obtain ⟨p, hp, rfl⟩ := List.mem_map.1 ha
            obtain ⟨q, hq, rfl⟩ := List.mem_map.1 hp
            exact List.mem_range'_1.2 (hCk' q hq))
        simpa [keysOf, vw_length] using h5
      have hJ : J ≠ [] := by
        intro hh
        rw [hh] at h2
        simp at h2
        omega
      have hadd : addedC min max C (min / 65536 + n) =
          (containerFromRange (if min / 65536 = min / 65536 + n then min % 65536 else 0)
            ((if max / 65536 = min / 65536 + n then max % 65536 else 65535) + 1) 1).getD (.array []) := by
        unfold addedC
        rw [findC_absent hno]
        rfl
      rw [← hadd]
      obtain ⟨i3, v3, _, q3⟩ := newC_spec i (addedC min max C (min / 65536 + n))
      exact hrest C' J.dropLast _ _ (List.dropLast_append_of_ne_nil hJ)
        (by rw [List.length_dropLast]; have := List.length_pos_iff.2 hJ; omega) i3 v3
        (by rw [Keep.vw (q3.mono (by sub_tac)), eC]) (q3.mono (by sub_tac))

theorem hAddRangeClosed_spec {g : Bool} (o : Nat → Bool) {h : Heap} {x : HBitmap} {l : List Ref} (min max : Nat)
    (i : HInv g h (refs x.slots ++ l)) (b : BInv (vw h x.slots)) :
    ∃ x' h', hAddRangeClosed o h x min max = some (x', h') ∧ x'.cow = x.cow ∧ HInv g h' (refs x'.slots ++ l) ∧
      vw h' x'.slots = rbAddRangeClosed (vw h x.slots) min max ∧ Keep h h' l := by
  by_cases hmm : min > max
  · refine ⟨x, h, by rw [hAddRangeClosed, if_pos hmm], rfl, i, by rw [rbAddRangeClosed, if_pos hmm], Keep.refl _ _⟩
  have hmm' : min ≤ max := by omega
  obtain ⟨P0, C0, S0, e, hP, hC, hS, bP, bC, bS, hsuf, hpre, hClen, hform⟩ := addRange_layout b hmm'
  obtain ⟨PC, S, eS, wPC, wS⟩ := vw_split e
  obtain ⟨P, C, ePC, wP, wC⟩ := vw_split wPC
  rw [hform]
  have lP : P0.length = P.length := by rw [← wP, vw_length]
  have lC : C0.length = C.length := by rw [← wC, vw_length]
  have lS : S0.length = S.length := by rw [← wS, vw_length]
  rw [vw_length, ← keysOf_skel] at hsuf
  rw [vw_length, ← keysOf_skel] at hpre
  rw [lS] at hsuf hpre
  rw [lP] at hpre
  rw [lC] at hClen
  unfold hAddRangeClosed
  rw [if_neg hmm]
  simp only [hsuf, Int.toNat_natCast, hpre]
  have hlen : x.slots.length = P.length + C.length + S.length := by rw [eS, ePC]; simp [Nat.add_assoc]
  have hcommon : x.slots.length - P.length - S.length = C.length := by omega
  rw [hcommon]
  have hra : ∃ J : List Slot, C.length + J.length = max / 65536 - min / 65536 + 1 ∧
      (if max / 65536 - min / 65536 + 1 > C.length then
        hShiftTail x.slots S.length (max / 65536 - min / 65536 + 1 - C.length) else x.slots) = P ++ (C ++ J) ++ ([] ++ S) := by
    split
    · refine ⟨(List.range (max / 65536 - min / 65536 + 1 - C.length)).map
        (fun j => slotAt x.slots (x.slots.length - S.length + j)), by simp; omega, ?_⟩
      have e1 : x.slots.length - S.length = PC.length := by rw [eS]; simp
      simp only [hShiftTail]
      conv => { lhs; arg 1; arg 1; rw [e1, eS, List.take_left] }
      conv => { lhs; arg 2; rw [e1, eS, List.drop_left] }
      rw [ePC]
      simp
    · exact ⟨[], by simp; omega, by rw [eS, ePC]; simp⟩
  obtain ⟨J, hJ1, hJ2⟩ := hra
  have hfil : vw h C = C0.filter (fun p => decide (p.1 < min / 65536 + (max / 65536 - min / 65536 + 1))) := by
    rw [wC]
    symm
    rw [List.filter_eq_self]
    intro p hp
    have := (hC p hp).2
    simp
    omega
  have hl2 : (P ++ (C ++ J) ++ ([] ++ S)).length = P.length + (max / 65536 - min / 65536 + 1) + S.length := by
    simp; omega
  have hPk : ∀ p ∈ P, p.1 < min / 65536 := by
    intro p hp
    exact hP (p.1, valC h p.2) (by rw [← wP]; exact List.mem_map.2 ⟨p, hp, rfl⟩)
  obtain ⟨E, h', e5, i5, w5, q5⟩ := hAddRangeLoop_spec o (min := min) (max := max) bC (fun p hp => (hC p hp).1) P S hPk
    (max / 65536 - min / 65536 + 1) h C J [] (refs P ++ (refs S ++ l))
    (i.perm (by rw [eS, ePC]; count_tac)) hfil hJ1
  rw [hJ2, hl2]
  rw [show ((P.length + (max / 65536 - min / 65536 + 1) + S.length : Nat) : Int) - (S.length : Nat) - 1 =
    (P.length : Int) + (max / 65536 - min / 65536 + 1 : Nat) - 1 by omega]
  simp only [e5, Option.bind_eq_bind, Option.bind_some]
  refine ⟨_, h', rfl, rfl, i5.perm (by count_tac), ?_, q5.mono (by sub_tac)⟩
  simp only [vw_append, vw_nil, List.nil_append]
  rw [w5, Keep.vw (s := P) (q5.mono (by sub_tac)), Keep.vw (s := S) (q5.mono (by sub_tac)), wP, wS]

end CRoaring
