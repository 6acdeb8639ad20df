import Verif.Model.Range
import Verif.Lemmas.Bulk

set_option linter.unusedSimpArgs false
set_option linter.unusedVariables false

/-! Range insertion, removal and tests. -/

namespace CRoaring
open Spec

/-! ### Consecutive cells -/

/-- Cells with the keys `k, ..., k+n-1`. -/
def cellsFrom (k n : Nat) (f : Nat → Container) : Bitmap := (List.range' k n).map (fun i => (i, f i))

theorem mem_cellsFrom {k n : Nat} {f : Nat → Container} {p : Nat × Container} :
    p ∈ cellsFrom k n f ↔ k ≤ p.1 ∧ p.1 < k + n ∧ p.2 = f p.1 := by
  simp only [cellsFrom, List.mem_map, List.mem_range'_1]
  constructor
  · rintro ⟨a, ⟨h1, h2⟩, rfl⟩; exact ⟨h1, h2, rfl⟩
  · rintro ⟨h1, h2, h3⟩; exact ⟨p.1, ⟨h1, h2⟩, by rw [← h3]⟩

theorem cellsFrom_succ (k n : Nat) (f : Nat → Container) :
    cellsFrom k (n + 1) f = cellsFrom k n f ++ [(k + n, f (k + n))] := by
  simp [cellsFrom, List.range'_concat]

theorem bp_cellsFrom {P : Container → Prop} {k n : Nat} {f : Nat → Container} (hk : k + n ≤ 65536)
    (h : ∀ i, k ≤ i → i < k + n → P (f i)) : BP P (cellsFrom k n f) := by
  induction n with
  | zero => trivial
  | succ n ih =>
    rw [cellsFrom_succ, bp_append]
    refine ⟨ih (by omega) fun i h1 h2 => h i h1 (by omega), ⟨by omega, h _ (by omega) (by omega), by simp, trivial⟩, ?_⟩
    intro p hp q hq
    simp only [List.mem_singleton] at hq
    subst hq
    exact (mem_cellsFrom.1 hp).2.1

theorem bhas_cellsFrom (k n : Nat) (f : Nat → Container) (x : Nat) :
    bhas (cellsFrom k n f) x = (decide (k ≤ x / 65536 ∧ x / 65536 < k + n) && chas (f (x / 65536)) (x % 65536)) := by
  induction n with
  | zero => 
    rw [decide_eq_false (by omega), Bool.false_and]
    rfl
  | succ n ih =>
    rw [cellsFrom_succ, bhas_append, ih, bhas_cons, bhas_nil, Bool.or_false]
    by_cases h : k + n = x / 65536
    · rw [beq_iff_eq.2 h, ← h]
      rw [decide_eq_false (show ¬ (k ≤ k + n ∧ k + n < k + n) by omega),
        decide_eq_true (show k ≤ k + n ∧ k + n < k + (n + 1) by omega)]
      rfl
    · rw [beq_eq_false_iff_ne.2 h, Bool.false_and, Bool.or_false]
      congr 1
      apply decide_eq_decide.2
      omega

/-- The container with a given key. -/
def findC (r : Bitmap) (k : Nat) : Option Container := (r.find? (fun p => p.1 == k)).map (·.2)

theorem findC_some {P : Container → Prop} {r : Bitmap} (h : BP P r) {k : Nat} {c : Container} (e : findC r k = some c) :
    P c ∧ ∀ y, y < 65536 → bhas r (k * 65536 + y) = chas c y := by
  simp only [findC, Option.map_eq_some_iff] at e
  obtain ⟨p, hp, rfl⟩ := e
  have hm := List.mem_of_find?_eq_some hp
  have hk : p.1 = k := by simpa using List.find?_some hp
  refine ⟨h.all p hm, fun y hy => ?_⟩
  obtain ⟨A, B, e⟩ := List.append_of_mem hm
  obtain ⟨k', c⟩ := p
  simp only at hk
  subst hk
  have hb := bp_mid.1 (e ▸ h)
  have hs := split_kx (k := k') hy
  rw [e, bhas_mid hb.2.2.2.1 hb.2.2.2.2, if_pos hs.1, hs.2]

theorem findC_none {r : Bitmap} {k : Nat} (e : findC r k = none) {x : Nat} (hx : x / 65536 = k) : bhas r x = false := by
  simp only [findC, Option.map_eq_none_iff, List.find?_eq_none, beq_iff_eq] at e
  exact bhas_ne fun p hp => by rw [hx]; exact e p hp

theorem findC_mid {A B : Bitmap} {k : Nat} {c : Container} (hA : ∀ p ∈ A, p.1 < k) :
    findC (A ++ (k, c) :: B) k = some c := by
  simp only [findC, List.find?_append]
  rw [List.find?_eq_none.2 (by intro p hp; have := hA p hp; simp; omega)]
  simp

theorem findC_absent {A : Bitmap} {k : Nat} (hA : ∀ p ∈ A, p.1 ≠ k) : findC A k = none := by
  simp only [findC, Option.map_eq_none_iff, List.find?_eq_none, beq_iff_eq]
  exact hA

/-! ### add_range_closed -/

/-- First low value added in the container of key `key`. -/
def lowOf (min minKey key : Nat) : Nat := if minKey = key then min % 65536 else 0
/-- Last low value added in the container of key `key`. -/
def highOf (max maxKey key : Nat) : Nat := if maxKey = key then max % 65536 else 65535

theorem low_high {min max key y : Nat} (hk : min / 65536 ≤ key) (hk2 : key ≤ max / 65536) (hy : y < 65536) :
    (lowOf min (min / 65536) key ≤ y ∧ y ≤ highOf max (max / 65536) key) ↔
      min ≤ key * 65536 + y ∧ key * 65536 + y ≤ max := by
  simp only [lowOf, highOf]
  split <;> split <;> omega

theorem low_le_high {min max key : Nat} (hmm : min ≤ max) (hk : min / 65536 ≤ key) (hk2 : key ≤ max / 65536) :
    lowOf min (min / 65536) key ≤ highOf max (max / 65536) key ∧ highOf max (max / 65536) key < 65536 := by
  simp only [lowOf, highOf]
  split <;> split <;> omega

/-- The container written for `key`. -/
def addedC (min max : Nat) (C : Bitmap) (key : Nat) : Container :=
  match findC C key with
  | some c => containerAddRange (lowOf min (min / 65536) key) (highOf max (max / 65536) key) c
  | none => (containerFromRange (lowOf min (min / 65536) key) (highOf max (max / 65536) key + 1) 1).getD (.array [])

theorem addedC_spec {min max : Nat} {C : Bitmap} (h : BInv C) {key : Nat} (hmm : min ≤ max)
    (hk : min / 65536 ≤ key) (hk2 : key ≤ max / 65536) :
    Rep (addedC min max C key) (fun y => decide (y < 65536) &&
      (decide (min ≤ key * 65536 + y ∧ key * 65536 + y ≤ max) || bhas C (key * 65536 + y))) := by
  obtain ⟨h1, h2⟩ := low_le_high hmm hk hk2
  unfold addedC
  cases e : findC C key with
  | some c =>
    obtain ⟨hc, hb⟩ := findC_some h e
    simp only
    refine (containerAddRange_spec hc.1.rep h1 h2).congr fun y => ?_
    by_cases hy : y < 65536
    · rw [hb y hy, decide_eq_true hy, Bool.true_and]
      congr 1
      apply decide_eq_decide.2
      exact low_high hk hk2 hy
    · rw [decide_eq_false hy, hc.1.rep.zero (by omega), Bool.or_false, Bool.false_and]
      apply decide_eq_false
      omega
  | none =>
    obtain ⟨c, hc1, hc2⟩ := containerFromRange_spec (step := 1) (by omega) (Nat.lt_succ_of_le h1) (by omega)
    simp only
    rw [hc1, Option.getD_some]
    refine hc2.congr fun y => ?_
    by_cases hy : y < 65536
    · rw [findC_none e (by omega), Bool.or_false, decide_eq_true hy, Bool.true_and]
      apply decide_eq_decide.2
      rw [← low_high hk hk2 hy, Nat.mod_one]
      omega
    · rw [decide_eq_false hy, Bool.false_and]
      apply decide_eq_false
      omega

theorem addRange_loop {min max : Nat} (hmm : min ≤ max) {C : Bitmap} (hC : BInv C)
    (hCk : ∀ p ∈ C, min / 65536 ≤ p.1) (P S : Bitmap) (hP : ∀ p ∈ P, p.1 < min / 65536) :
    ∀ (n : Nat) (C' J D : Bitmap), C' = C.filter (fun p => decide (p.1 < min / 65536 + n)) →
      C'.length + J.length = n →
      rbAddRangeLoop min max (min / 65536) (max / 65536) n (P ++ (C' ++ J) ++ (D ++ S))
        ((P.length : Int) + C'.length - 1) ((P.length : Int) + n - 1) =
      P ++ cellsFrom (min / 65536) n (addedC min max C) ++ (D ++ S) := by
  intro n
  induction n with
  | zero =>
    intro C' J D h1 h2
    have e1 : C' = [] := List.length_eq_zero_iff.1 (by omega)
    have e2 : J = [] := List.length_eq_zero_iff.1 (by omega)
    simp [rbAddRangeLoop, e1, e2, cellsFrom]
  | succ n ih =>
    intro C' J D h1 h2
    have hdst : ((P.length : Int) + (n + 1 : Nat) - 1).toNat = P.length + n := by omega
    -- writing at `dst` drops the last cell of `C' ++ J`
    have hset : ∀ c, (P ++ (C' ++ J) ++ (D ++ S)).set (P.length + n) c =
        P ++ (C' ++ J).dropLast ++ ((c :: D) ++ S) := by
      intro c
      have hl : (C' ++ J).length = n + 1 := by simp; omega
      obtain ⟨M, z, e⟩ : ∃ M z, C' ++ J = M ++ [z] := by
        rcases List.eq_nil_or_concat (C' ++ J) with e | ⟨M, z, e⟩
        · rw [e] at hl; simp at hl
        · exact ⟨M, z, by simpa using e⟩
      rw [e] at hl ⊢
      have hM : M.length = n := by simpa using hl
      rw [List.dropLast_concat]
      have : P ++ (M ++ [z]) ++ (D ++ S) = (P ++ M) ++ z :: (D ++ S) := by simp
      rw [this, List.set_append_right _ _ (by simp; omega)]
      rw [show P.length + n - (P ++ M).length = 0 by simp; omega, List.set_cons_zero]
      simp
    rw [rbAddRangeLoop]
    simp only [hdst]
    rcases ra_split hC (min / 65536 + n) with ⟨A, c, B, e, hA, hB, _⟩ | ⟨A, B, e, hA, hB, _⟩
    · -- the key is present in C
      have eA : C.filter (fun p => decide (p.1 < min / 65536 + n)) = A := by
        rw [e, List.filter_append, List.filter_cons]
        rw [if_neg (by simp)]
        rw [List.filter_eq_self.2 (by intro p hp; have := hA p hp; simpa using this),
          List.filter_eq_nil_iff.2 (by intro p hp; have := hB p hp; simp; omega)]
        simp
      have eC : C' = A ++ [(min / 65536 + n, c)] := by
        rw [h1, e, List.filter_append, List.filter_cons]
        rw [if_pos (by simp)]
        rw [List.filter_eq_self.2 (by intro p hp; have := hA p hp; simp; omega),
          List.filter_eq_nil_iff.2 (by intro p hp; have := hB p hp; simp; omega)]
      have hsrc : ((P.length : Int) + C'.length - 1).toNat = (P ++ A).length := by rw [eC]; simp; omega
      have eL : P ++ (C' ++ J) ++ (D ++ S) = (P ++ A) ++ (min / 65536 + n, c) :: (J ++ (D ++ S)) := by
        rw [eC]; simp
      have hkey : keyAt (P ++ (C' ++ J) ++ (D ++ S)) ((P.length : Int) + C'.length - 1).toNat = min / 65536 + n := by
        rw [hsrc, eL, keyAt_mid]
      have hcont : contAt (P ++ (C' ++ J) ++ (D ++ S)) ((P.length : Int) + C'.length - 1).toNat = c := by
        rw [hsrc, eL, contAt_mid]
      have hge : (P.length : Int) + C'.length - 1 ≥ 0 := by rw [eC]; simp; omega
      rw [if_pos ⟨hge, hkey⟩, hset]
      simp only [hcont]
      have hsub : ∃ J', (C' ++ J).dropLast = A ++ J' ∧ A.length + J'.length = n := by
        cases hJ : J with
        | nil =>
          refine ⟨[], ?_, ?_⟩
          · rw [eC]; simp
          · rw [eC, hJ] at h2; simp at h2 ⊢; exact h2
        | cons j J2 =>
          refine ⟨(min / 65536 + n, c) :: (j :: J2).dropLast, ?_, ?_⟩
          · rw [eC, List.dropLast_append_of_ne_nil (by simp)]; simp
          · rw [eC, hJ] at h2; simp at h2 ⊢; omega
      obtain ⟨J', e3, e4⟩ := hsub
      rw [e3]
      have hi := ih A J' ((min / 65536 + n, addedC min max C (min / 65536 + n)) :: D) eA.symm e4
      have hs1 : (P.length : Int) + C'.length - 1 - 1 = (P.length : Int) + A.length - 1 := by rw [eC]; simp; omega
      have hs2 : (P.length : Int) + (n + 1 : Nat) - 1 - 1 = (P.length : Int) + n - 1 := by omega
      rw [hs1, hs2]
      have hadd : addedC min max C (min / 65536 + n) =
          containerAddRange (if min / 65536 = min / 65536 + n then min % 65536 else 0)
            (if max / 65536 = min / 65536 + n then max % 65536 else 65535) c := by
        unfold addedC
        rw [e, findC_mid hA]
        rfl
      rw [← hadd, hi, cellsFrom_succ]
      simp
    · -- the key is absent from C
      have hno : ∀ p ∈ C, p.1 ≠ min / 65536 + n := by
        intro p hp
        rw [e] at hp
        rcases List.mem_append.1 hp with hp | hp
        · have := hA p hp; omega
        · have := hB p hp; omega
      have eC : C' = C.filter (fun p => decide (p.1 < min / 65536 + n)) := by
        rw [h1]
        apply List.filter_congr
        intro p hp
        have := hno p hp
        apply decide_eq_decide.2
        omega
      have hCk' : ∀ p ∈ C', min / 65536 ≤ p.1 ∧ p.1 < min / 65536 + n := by
        intro p hp
        rw [eC] at hp
        have := List.mem_filter.1 hp
        exact ⟨hCk p this.1, by simpa using this.2⟩
      have hcond : ¬ ((P.length : Int) + C'.length - 1 ≥ 0 ∧
          keyAt (P ++ (C' ++ J) ++ (D ++ S)) ((P.length : Int) + C'.length - 1).toNat = min / 65536 + n) := by
        rintro ⟨g1, g2⟩
        rcases List.eq_nil_or_concat C' with e0 | ⟨C2, z, e0⟩
        · rcases List.eq_nil_or_concat P with e1 | ⟨P2, z, e1⟩
          · rw [e0, e1] at g1; simp at g1
          · have e1 : P = P2 ++ [z] := by simpa using e1
            obtain ⟨zk, zc⟩ := z
            rw [e0, e1, show ((((P2 ++ [(zk, zc)]).length : Nat) : Int) + (([] : Bitmap).length : Nat) - 1).toNat = P2.length by simp] at g2
            rw [show P2 ++ [(zk, zc)] ++ ([] ++ J) ++ (D ++ S) = P2 ++ (zk, zc) :: (J ++ (D ++ S)) by simp,
              keyAt_mid] at g2
            have := hP (zk, zc) (by rw [e1]; simp)
            simp only at this
            omega
        · have e0 : C' = C2 ++ [z] := by simpa using e0
          obtain ⟨zk, zc⟩ := z
          rw [e0, show ((P.length : Int) + ((C2 ++ [(zk, zc)]).length : Nat) - 1).toNat = (P ++ C2).length by simp; omega] at g2
          rw [show P ++ (C2 ++ [(zk, zc)] ++ J) ++ (D ++ S) = (P ++ C2) ++ (zk, zc) :: (J ++ (D ++ S)) by simp,
            keyAt_mid] at g2
          have := hCk' (zk, zc) (by rw [e0]; simp)
          simp only at this
          omega
      rw [if_neg hcond, hset]
      -- C' is short: there is at least one cell in J
      have hlen : C'.length ≤ n := by
        have hsort : SSorted (keysOf C') := by
          rw [h1]
          exact List.Pairwise.sublist (List.Sublist.map _ List.filter_sublist) hC.sorted
        have h5 := nodup_length_le (a := keysOf C') (b := List.range' (min / 65536) n)
          (hsort.imp fun h => by omega) (by
            intro a ha
            obtain ⟨p, hp, rfl⟩ := List.mem_map.1 ha
            exact List.mem_range'_1.2 (hCk' p hp))
        simpa [keysOf] using h5
      have hJ : J ≠ [] := by
        intro hh
        rw [hh] at h2
        simp at h2
        omega
      rw [List.dropLast_append_of_ne_nil hJ]
      have hi := ih C' J.dropLast ((min / 65536 + n, addedC min max C (min / 65536 + n)) :: D) eC
        (by rw [List.length_dropLast]; have := List.length_pos_iff.2 hJ; omega)
      have hs2 : (P.length : Int) + (n + 1 : Nat) - 1 - 1 = (P.length : Int) + n - 1 := by omega
      rw [hs2]
      have hadd : addedC min max C (min / 65536 + n) =
          (containerFromRange (if min / 65536 = min / 65536 + n then min % 65536 else 0)
            ((if max / 65536 = min / 65536 + n then max % 65536 else 65535) + 1) 1).getD (.array []) := by
        unfold addedC
        rw [findC_absent hno]
        rfl
      rw [← hadd, hi, cellsFrom_succ]
      simp

theorem split3 {r : Bitmap} (h : BInv r) {a b : Nat} (hab : a ≤ b) :
    ∃ P C S, r = P ++ C ++ S ∧ (∀ p ∈ P, p.1 < a) ∧ (∀ p ∈ C, a ≤ p.1 ∧ p.1 ≤ b) ∧ (∀ p ∈ S, b < p.1) ∧
      BInv P ∧ BInv C ∧ BInv S := by
  obtain ⟨P, B, e1, hP, hB⟩ := bp_exists_split h a
  have h1 := bp_append.1 (e1 ▸ h)
  obtain ⟨C, S, e2, hC, hS⟩ := bp_exists_split h1.2.1 (b + 1)
  have h2 := bp_append.1 (e2 ▸ h1.2.1)
  refine ⟨P, C, S, by rw [e1, e2]; simp, hP, fun p hp => ⟨hB p (by rw [e2]; simp [hp]), ?_⟩, ?_, h1.1, h2.1, h2.2.1⟩
  · have := hC p hp; omega
  · intro p hp; have := hS p hp; omega

theorem lb_P {P B : Bitmap} {a : Nat} (hP : ∀ p ∈ P, p.1 < a) (hB : ∀ p ∈ B, a ≤ p.1) :
    lb (keysOf (P ++ B)) a = P.length := lb_keys_split hP hB

theorem countLess_keys {r P B : Bitmap} (h : BInv r) (e : r = P ++ B) {a : Nat} (hP : ∀ p ∈ P, p.1 < a)
    (hB : ∀ p ∈ B, a ≤ p.1) : countLess (rdL (keysOf r)) r.length a = P.length := by
  have hl : (keysOf r).length = r.length := by simp [keysOf]
  have h1 := countLess_spec (isLB_list h.sorted a)
  rw [hl] at h1
  rw [h1, e, lb_P hP hB]

theorem addRange_layout {r : Bitmap} (h : BInv r) {min max : Nat} (hmm : min ≤ max) :
    ∃ P C S, r = P ++ C ++ S ∧ (∀ p ∈ P, p.1 < min / 65536) ∧
      (∀ p ∈ C, min / 65536 ≤ p.1 ∧ p.1 ≤ max / 65536) ∧ (∀ p ∈ S, max / 65536 < p.1) ∧
      BInv P ∧ BInv C ∧ BInv S ∧
      countGreater (rdL (keysOf r)) r.length (max / 65536) = (S.length : Nat) ∧
      countLess (rdL (keysOf r)) (r.length - S.length) (min / 65536) = (P.length : Nat) ∧
      C.length ≤ max / 65536 - min / 65536 + 1 ∧
      rbAddRangeClosed r min max =
        P ++ cellsFrom (min / 65536) (max / 65536 - min / 65536 + 1) (addedC min max C) ++ S := by
  have hkk : min / 65536 ≤ max / 65536 := Nat.div_le_div_right hmm
  obtain ⟨P, C, S, e, hP, hC, hS, bP, bC, bS⟩ := split3 h hkk
  have hl : (keysOf r).length = r.length := by simp [keysOf]
  have hlen : r.length = P.length + C.length + S.length := by rw [e]; simp [Nat.add_assoc]
  have hsuf : countGreater (rdL (keysOf r)) r.length (max / 65536) = (S.length : Nat) := by
    have h1 := countGreater_list h.sorted (max / 65536)
    rw [hl] at h1
    rw [h1]
    have : lb (keysOf r) (max / 65536 + 1) = (P ++ C).length := by
      rw [e]
      refine lb_keys_split ?_ ?_
      · intro p hp
        rcases List.mem_append.1 hp with hp | hp
        · have := hP p hp; omega
        · have := (hC p hp).2; omega
      · intro p hp; have := hS p hp; omega
    rw [this]; simp; omega
  have hpre : countLess (rdL (keysOf r)) (r.length - S.length) (min / 65536) = (P.length : Nat) := by
    have h1 := countLess_trunc h.sorted (a := min / 65536) (b := max / 65536) hkk
    have : lb (keysOf r) (max / 65536 + 1) = r.length - S.length := by
      rw [e]
      rw [lb_keys_split (A := P ++ C) (B := S) ?_ ?_]
      · simp; omega
      · intro p hp
        rcases List.mem_append.1 hp with hp | hp
        · have := hP p hp; omega
        · have := (hC p hp).2; omega
      · intro p hp; have := hS p hp; omega
    rw [this] at h1
    rw [h1, e, List.append_assoc, lb_P hP]
    intro p hp
    rcases List.mem_append.1 hp with hp | hp
    · exact (hC p hp).1
    · have := hS p hp; omega
  have hClen : C.length ≤ max / 65536 - min / 65536 + 1 := by
    have h5 := nodup_length_le (a := keysOf C) (b := List.range' (min / 65536) (max / 65536 - min / 65536 + 1))
      (bC.sorted.imp fun h => by omega) (by
        intro a ha
        obtain ⟨p, hp, rfl⟩ := List.mem_map.1 ha
        have := hC p hp
        exact List.mem_range'_1.2 ⟨this.1, by omega⟩)
    simpa [keysOf] using h5
  refine ⟨P, C, S, e, hP, hC, hS, bP, bC, bS, hsuf, hpre, hClen, ?_⟩
  unfold rbAddRangeClosed
  rw [if_neg (by omega)]
  simp only [hsuf, Int.toNat_natCast, hpre]
  have hcommon : r.length - P.length - S.length = C.length := by omega
  rw [hcommon]
  -- the array after the shift
  have hra : ∃ J : Bitmap, C.length + J.length = max / 65536 - min / 65536 + 1 ∧
      (if max / 65536 - min / 65536 + 1 > C.length then
        raShiftTail r S.length (max / 65536 - min / 65536 + 1 - C.length) else r) = P ++ (C ++ J) ++ ([] ++ S) := by
    split
    · refine ⟨(List.range (max / 65536 - min / 65536 + 1 - C.length)).map
        (fun j => r.getD (r.length - S.length + j) (0, .array [])), by simp; omega, ?_⟩
      have e1 : r.length - S.length = (P ++ C).length := by simp; omega
      simp only [raShiftTail]
      conv => { lhs; arg 1; arg 1; rw [e1, e, List.take_left] }
      conv => { lhs; arg 2; rw [e1, e, List.drop_left] }
      simp
    · exact ⟨[], by simp; omega, by rw [e]; simp⟩
  obtain ⟨J, hJ1, hJ2⟩ := hra
  have hfil : C = C.filter (fun p => decide (p.1 < min / 65536 + (max / 65536 - min / 65536 + 1))) := by
    symm
    rw [List.filter_eq_self]
    intro p hp
    have := (hC p hp).2
    simp
    omega
  have hl2 : (P ++ (C ++ J) ++ ([] ++ S)).length = P.length + (max / 65536 - min / 65536 + 1) + S.length := by
    simp; omega
  have hloop := addRange_loop hmm bC (fun p hp => (hC p hp).1) P S hP (max / 65536 - min / 65536 + 1) C J [] hfil hJ1
  rw [hJ2, hl2]
  rw [show ((P.length + (max / 65536 - min / 65536 + 1) + S.length : Nat) : Int) - (S.length : Nat) - 1 =
    (P.length : Int) + (max / 65536 - min / 65536 + 1 : Nat) - 1 by omega]
  rw [hloop, List.nil_append]

theorem rbAddRangeClosed_spec {r : Bitmap} (h : BInv r) {min max : Nat} (hmax : max < 4294967296) :
    BInv (rbAddRangeClosed r min max) ∧
      ∀ x, bhas (rbAddRangeClosed r min max) x = (decide (min ≤ x ∧ x ≤ max) || bhas r x) := by
  by_cases hmm : min > max
  · unfold rbAddRangeClosed
    rw [if_pos hmm]
    refine ⟨h, fun x => ?_⟩
    rw [decide_eq_false (by omega)]; rfl
  · have hmm : min ≤ max := by omega
    have hkk : min / 65536 ≤ max / 65536 := Nat.div_le_div_right hmm
    obtain ⟨P, C, S, e, hP, hC, hS, bP, bC, bS, _, _, _, hform⟩ := addRange_layout h hmm
    rw [hform]
    have hD : BInv (cellsFrom (min / 65536) (max / 65536 - min / 65536 + 1) (addedC min max C)) := by
      refine bp_cellsFrom (by omega) fun i h1 h2 => ?_
      have hsp := addedC_spec bC hmm h1 (show i ≤ max / 65536 by omega)
      obtain ⟨h3, h4⟩ := low_le_high hmm h1 (show i ≤ max / 65536 by omega)
      have h5 := (low_high h1 (show i ≤ max / 65536 by omega) (y := lowOf min (min / 65536) i) (by omega)).1 ⟨Nat.le_refl _, h3⟩
      refine hsp.cne (x := lowOf min (min / 65536) i) ?_
      rw [decide_eq_true (by omega), decide_eq_true h5]; rfl
    refine ⟨?_, fun x => ?_⟩
    · refine bp_append.2 ⟨bp_append.2 ⟨bP, hD, ?_⟩, bS, ?_⟩
      · intro p hp q hq
        have := hP p hp
        have := (mem_cellsFrom.1 hq).1
        omega
      · intro p hp q hq
        have h1 := hS q hq
        rcases List.mem_append.1 hp with hp | hp
        · have := hP p hp; omega
        · have := (mem_cellsFrom.1 hp).2.1; omega
    · rw [e]
      simp only [bhas_append, bhas_cellsFrom]
      by_cases hx : min / 65536 ≤ x / 65536 ∧ x / 65536 ≤ max / 65536
      · rw [bhas_ne (r := P) fun p hp => by have := hP p hp; omega,
          bhas_ne (r := S) fun p hp => by have := hS p hp; omega]
        rw [decide_eq_true (show min / 65536 ≤ x / 65536 ∧ x / 65536 < min / 65536 + (max / 65536 - min / 65536 + 1) by omega)]
        rw [(addedC_spec bC hmm hx.1 hx.2).has, decide_eq_true (Nat.mod_lt x (by omega)),
          show x / 65536 * 65536 + x % 65536 = x by omega]
        simp
      · rw [decide_eq_false (show ¬ (min / 65536 ≤ x / 65536 ∧ x / 65536 < min / 65536 + (max / 65536 - min / 65536 + 1)) by omega),
          decide_eq_false (show ¬ (min ≤ x ∧ x ≤ max) by omega),
          bhas_ne (r := C) fun p hp => by have := hC p hp; omega]
        simp

/-! ### remove_range_closed -/

theorem rbRemoveRangeLoop_spec {min max : Nat} (hmm : min ≤ max) {r : Bitmap} (h : BInv r)
    (hk : ∀ p ∈ r, min / 65536 ≤ p.1) :
    BInv (rbRemoveRangeLoop min max (min / 65536) (max / 65536) r) ∧
      (∀ p ∈ rbRemoveRangeLoop min max (min / 65536) (max / 65536) r, ∃ q ∈ r, q.1 = p.1) ∧
      ∀ x, bhas (rbRemoveRangeLoop min max (min / 65536) (max / 65536) r) x =
        (bhas r x && !decide (min ≤ x ∧ x ≤ max)) := by
  induction r with
  | nil => exact ⟨trivial, by simp [rbRemoveRangeLoop], fun x => by simp [rbRemoveRangeLoop, bhas_nil]⟩
  | cons p t ih =>
    obtain ⟨k, c⟩ := p
    obtain ⟨i1, i2, i3⟩ := ih h.2.2.2 fun p hp => hk p (by simp [hp])
    have hk1 : min / 65536 ≤ k := hk (k, c) (by simp)
    rw [rbRemoveRangeLoop]
    by_cases hkm : k ≤ max / 65536
    · rw [if_pos hkm]
      obtain ⟨h1, h2⟩ := low_le_high hmm hk1 hkm
      have hsp := containerRemoveRange_spec h.2.1.1.rep h1 h2
      have hcell : ∀ x, x / 65536 = k → (chas c (x % 65536) &&
          !decide (lowOf min (min / 65536) k ≤ x % 65536 ∧ x % 65536 ≤ highOf max (max / 65536) k)) =
          (chas c (x % 65536) && !decide (min ≤ x ∧ x ≤ max)) := by
        intro x hx
        congr 2
        apply decide_eq_decide.2
        rw [low_high hk1 hkm (Nat.mod_lt x (by omega)), ← hx, show x / 65536 * 65536 + x % 65536 = x by omega]
      have htail : ∀ x, x / 65536 = k → bhas t x = false := fun x hx => bhas_gt h.2.2.1 (by omega)
      simp only
      rw [show containerRemoveRange (if min / 65536 = k then min % 65536 else 0)
        (if max / 65536 = k then max % 65536 else 65535) c =
        containerRemoveRange (lowOf min (min / 65536) k) (highOf max (max / 65536) k) c from rfl]
      rcases hsp with ⟨e, hz⟩ | ⟨c', e, hr, y, hy⟩
      · rw [e]
        refine ⟨i1, fun p hp => ?_, fun x => ?_⟩
        · obtain ⟨q, hq, e⟩ := i2 p hp
          exact ⟨q, by simp [hq], e⟩
        · simp only [i3, bhas_cons]
          by_cases hx : k = x / 65536
          · rw [htail x hx.symm, beq_iff_eq.2 hx]
            have := hz (x % 65536)
            rw [hcell x hx.symm] at this
            simp only [Bool.true_and, Bool.or_false, Bool.false_and]
            exact this.symm
          · rw [beq_eq_false_iff_ne.2 hx]; rfl
      · rw [e]
        refine ⟨⟨h.1, hr.cne hy, ?_, i1⟩, fun p hp => ?_, fun x => ?_⟩
        · intro p hp
          obtain ⟨q, hq, e⟩ := i2 p hp
          have := h.2.2.1 q hq
          omega
        · rcases List.mem_cons.1 hp with rfl | hp
          · exact ⟨(k, c), by simp, rfl⟩
          · obtain ⟨q, hq, e⟩ := i2 p hp
            exact ⟨q, by simp [hq], e⟩
        · simp only [bhas_cons, i3]
          by_cases hx : k = x / 65536
          · rw [htail x hx.symm, beq_iff_eq.2 hx, hr.has, hcell x hx.symm]
            simp
          · rw [beq_eq_false_iff_ne.2 hx]; rfl
    · rw [if_neg hkm]
      refine ⟨h, fun p hp => ⟨p, hp, rfl⟩, fun x => ?_⟩
      cases hx : bhas ((k, c) :: t) x with
      | false => rfl
      | true =>
        have := bhas_ge h hx
        rw [decide_eq_false (by omega)]; rfl

theorem rbRemoveRangeClosed_spec {r : Bitmap} (h : BInv r) (min max : Nat) :
    BInv (rbRemoveRangeClosed r min max) ∧
      ∀ x, bhas (rbRemoveRangeClosed r min max) x = (bhas r x && !decide (min ≤ x ∧ x ≤ max)) := by
  unfold rbRemoveRangeClosed
  by_cases hmm : min > max
  · rw [if_pos hmm]
    refine ⟨h, fun x => ?_⟩
    rw [decide_eq_false (by omega)]; simp
  · rw [if_neg hmm]
    obtain ⟨P, B, e, hP, hB⟩ := bp_exists_split h (min / 65536)
    have hb := bp_append.1 (e ▸ h)
    simp only [countLess_keys h e hP hB, Int.toNat_natCast]
    obtain ⟨i1, i2, i3⟩ := rbRemoveRangeLoop_spec (max := max) (show min ≤ max by omega) hb.2.1 hB
    rw [e, List.take_left, List.drop_left]
    refine ⟨bp_append.2 ⟨hb.1, i1, ?_⟩, fun x => ?_⟩
    · intro p hp q hq
      obtain ⟨q', hq', e⟩ := i2 q hq
      have := hB q' hq'
      have := hP p hp
      omega
    · rw [bhas_append, bhas_append, i3]
      by_cases hx : x / 65536 < min / 65536
      · rw [bhas_ne (r := B) fun p hp => by have := hB p hp; omega, decide_eq_false (by omega)]
        simp
      · rw [bhas_ne (r := P) fun p hp => by have := hP p hp; omega]
        simp

end CRoaring
