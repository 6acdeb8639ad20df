import Verif.Lemmas.Simd3
set_option linter.unusedSimpArgs false
set_option linter.unusedVariables false
/-
The vectorised difference.
-/
namespace CRoaring
open Spec

theorem map_getD_lt {v : List Nat} {p : Nat → Bool} {i : Nat} (h : i < v.length) : (v.map p).getD i false = p v[i] := by
  simp [List.getD_eq_getElem?_getD, h]

theorem map_getD_ge {v : List Nat} {p : Nat → Bool} {i : Nat} (h : v.length ≤ i) : (v.map p).getD i false = false := by
  simp [List.getD_eq_getElem?_getD, List.getElem?_eq_none h]

theorem bitMask_or (v : List Nat) (p q : Nat → Bool) : bitMask (v.map p) ||| bitMask (v.map q) = bitMask (v.map (fun x => p x || q x)) := by
  apply Nat.eq_of_testBit_eq
  intro i
  rw [Nat.testBit_or, testBit_bitMask, testBit_bitMask, testBit_bitMask]
  rcases Nat.lt_or_ge i v.length with h | h
  · rw [map_getD_lt h, map_getD_lt h, map_getD_lt h]
  · rw [map_getD_ge h, map_getD_ge h, map_getD_ge h]; rfl

theorem bitMask_xor_255 {v : List Nat} (hv : v.length = 8) (p : Nat → Bool) :
    bitMask (v.map p) ^^^ 255 = bitMask (v.map (fun x => !p x)) := by
  apply Nat.eq_of_testBit_eq
  intro i
  rw [Nat.testBit_xor, testBit_bitMask, testBit_bitMask, show (255 : Nat) = 2 ^ 8 - 1 from rfl, Nat.testBit_two_pow_sub_one]
  rcases Nat.lt_or_ge i v.length with h | h
  · have h8 : i < 8 := by omega
    rw [map_getD_lt h, map_getD_lt h]; simp [h8]
  · have h8 : ¬ i < 8 := by omega
    rw [map_getD_ge h, map_getD_ge h]; simp [h8]

theorem bitMask_false {v : List Nat} {p : Nat → Bool} (h : ∀ x ∈ v, p x = false) : bitMask (v.map p) = 0 := by
  apply Nat.eq_of_testBit_eq
  intro i
  rw [testBit_bitMask, Nat.zero_testBit]
  rcases Nat.lt_or_ge i v.length with h' | h'
  · rw [map_getD_lt h']; exact h _ (List.getElem_mem h')
  · rw [map_getD_ge h']

theorem bitMask_congr {v : List Nat} {p q : Nat → Bool} (h : ∀ x ∈ v, p x = q x) : bitMask (v.map p) = bitMask (v.map q) := by
  rw [List.map_congr_left h]

theorem diffU16_nil_right (as : List Nat) : differenceU16 as [] = as := by
  rw [differenceU16.eq_def]; cases as <;> rfl

theorem diffTail_spec {A B : List Nat} {cap : Nat} (fuel ia ib : Nat) (x : List Nat × Nat) (E : List Nat) (hia : ia ≤ A.length)
    (hl : x.1.length = cap) (hn : x.2 = E.length) (ht : x.1.take x.2 = E) (hr : E.length + (A.length - ia) ≤ cap)
    (hf : (A.length - ia) + (B.length - ib) < fuel) :
    ∃ ia' x' E', diffTail A B fuel ia ib x = .ok (ia', x') ∧ x'.1.length = cap ∧ x'.2 = E'.length ∧ x'.1.take x'.2 = E' ∧
      E' ++ A.drop ia' = E ++ differenceU16 (A.drop ia) (B.drop ib) ∧ ia' ≤ A.length ∧ E'.length + (A.length - ia') ≤ cap := by
  induction fuel generalizing ia ib x E with
  | zero => omega
  | succ fuel ih =>
    rw [diffTail]
    by_cases hc : ia < A.length ∧ ib < B.length
    · rw [if_pos hc, read16_eq hc.1, ok_bind, read16_eq hc.2, ok_bind, List.drop_eq_getElem_cons hc.1,
        List.drop_eq_getElem_cons hc.2, differenceU16]
      by_cases h1 : B[ib] < A[ia]
      · rw [if_pos h1, if_neg (by omega), if_neg (by omega), ← List.drop_eq_getElem_cons hc.1]
        exact ih ia (ib + 1) x E hia hl hn ht hr (by omega)
      · rw [if_neg h1]
        by_cases h2 : A[ia] < B[ib]
        · rw [if_pos h2, if_pos h2]
          obtain ⟨C', s1, s2, s3, _⟩ := write16_take (C := x.1) (n := x.2) (a := A[ia]) (by omega)
          rw [isectPut, s1, ok_bind, ok_bind, ← List.drop_eq_getElem_cons hc.2]
          obtain ⟨ia', x', E', e, r⟩ := ih (ia + 1) ib (C', x.2 + 1) (E ++ [A[ia]]) (by omega) (by simp; omega) (by simp [hn])
            (by simp [s3, ht]) (by simp; omega) (by omega)
          exact ⟨ia', x', E', e, r.1, r.2.1, r.2.2.1, by rw [r.2.2.2.1]; simp, r.2.2.2.2⟩
        · rw [if_neg h2, if_neg h2, if_pos (by omega)]
          exact ih (ia + 1) (ib + 1) x E (by omega) hl hn ht (by omega) (by omega)
    · rw [if_neg hc]
      refine ⟨ia, x, E, rfl, hl, hn, ht, ?_, hia, hr⟩
      by_cases ha : ia < A.length
      · rw [List.drop_eq_nil_of_le (as := B) (by omega), diffU16_nil_right]
      · rw [List.drop_eq_nil_of_le (as := A) (by omega), differenceU16.eq_def]

/-- One vector of the difference is stored. -/
theorem diffFlush_spec {x : DiffSt} {v : V8} {p : Nat → Bool} (hv : v.length = 8) (hm : x.mask = bitMask (v.map p))
    (hr : x.count + 8 ≤ x.C.length) :
    ∃ x', diffFlush x v = .ok x' ∧ x'.C.length = x.C.length ∧ x'.mask = 0 ∧
      x'.count = x.count + (v.filter (fun y => !p y)).length ∧
      x'.C.take x'.count = x.C.take x.count ++ v.filter (fun y => !p y) := by
  have hle : (v.filter (fun y => !p y)).length ≤ 8 := hv ▸ List.length_filter_le _ _
  obtain ⟨C', s1, s2, s3, _⟩ := storeu_take (C := x.C) (n := x.count) (F := v.filter (fun y => !p y))
    (Z := List.replicate (8 - (v.filter (fun y => !p y)).length) 0) (by rw [List.length_append, List.length_replicate]; omega)
  rw [diffFlush, hm, bitMask_xor_255 hv, compress_mask hv, s1, popcnt32_mask (by omega)]
  exact ⟨_, rfl, s2, rfl, rfl, s3⟩

/-- The values of `A` before `ia` that are not in `B`. -/
def diffE (A B : List Nat) (ia : Nat) : List Nat := (A.take ia).filter (fun x => !B.contains x)

theorem diffE_length (A B : List Nat) (ia : Nat) : (diffE A B ia).length ≤ ia := by
  rw [diffE]
  have := List.length_filter_le (fun x => !B.contains x) (A.take ia)
  rw [List.length_take] at this
  omega

theorem diffE_blk (A B : List Nat) (ia : Nat) : diffE A B (ia + 8) = diffE A B ia ++ (blk A ia).filter (fun x => !B.contains x) := by
  rw [diffE, diffE, blk, List.take_add, List.filter_append]

theorem diffMain_spec {A B C : List Nat} {count : Nat} (hA : SSorted A) (hB : SSorted B) (zA : ∀ x ∈ A, x ≠ 0)
    (zB : ∀ x ∈ B, x ≠ 0) (hC : count + A.length ≤ C.length) :
    ∃ C', diffMain A B C count = .ok (C', count + (differenceU16 A B).length) ∧ C'.length = C.length ∧
      C'.take (count + (differenceU16 A B).length) = C.take count ++ differenceU16 A B := by
  have hlc : (C.take count).length = count := by rw [List.length_take]; omega
  -- the vector part
  have hvec : ∃ ia ib x, diffVec A B C count = .ok (ia, ib, x) ∧ ia ≤ A.length ∧ ib ≤ B.length ∧ x.1.length = C.length ∧
        x.2 = count + (diffE A B ia).length ∧ x.1.take x.2 = C.take count ++ diffE A B ia ∧
        (∀ y ∈ B.take ib, ∀ z ∈ A.drop ia, y < z) := by
    rw [diffVec]
    by_cases h0 : 0 < A.length / 8 * 8 ∧ 0 < B.length / 8 * 8
    · rw [if_pos h0, loadu_eq (by omega), ok_bind, loadu_eq (by omega), ok_bind]
      obtain ⟨s, hs, hI, h1, h2, h3, h4, h5, h6, h7⟩ := vecLoop_spec (getA := fun _ => A) (A := A) (B := B)
        (cmp := cmpistrm) (go := goTrue) (emit := diffEmit) (flush := diffFlush) (sta := A.length / 8 * 8)
        (stb := B.length / 8 * 8) (by omega) (by omega) (by omega) (by omega)
        (fun ia ib x => x.C.length = C.length ∧ x.count = count + (diffE A B ia).length ∧
          x.C.take x.count = C.take count ++ diffE A B ia ∧
          x.mask = bitMask ((blk A ia).map (fun y => (B.take ib).contains y)) ∧
          (∀ y ∈ B.take ib, ∀ z ∈ A.drop (ia + 8), y < z) ∧
          (ia = A.length / 8 * 8 → ∀ y ∈ B.take ib, ∀ z ∈ A.drop ia, y < z)) (fun _ _ => True)
        (fun _ _ _ _ => ⟨rfl, rfl⟩)
        (by intro ia ib x hia hib hI; exact ⟨true, rfl, fun _ => trivial⟩)
        (by
          rintro ia ib x hia hib ⟨g1, g2, g3, g4, g5, g6⟩ _
          have hz : ∀ z ∈ A.drop (ia + 8), rdL A (ia + 7) < z := by
            intro z hz
            refine take_lt_drop hA (i := ia + 8) ?_ hz
            rw [rdL_eq (by omega), List.mem_iff_getElem]
            exact ⟨ia + 7, by simp; omega, by simp⟩
          have eM : cmpistrm (blk B ib) (blk A ia) = bitMask ((blk A ia).map (fun y => (blk B ib).contains y)) :=
            cmpistrm_eq (fun y hy => zB y (mem_blk hy)) (fun y hy => zA y (mem_blk hy))
          have eO : x.mask ||| cmpistrm (blk B ib) (blk A ia) = bitMask ((blk A ia).map (fun y => (B.take (ib + 8)).contains y)) := by
            rw [eM, g4, bitMask_or]
            apply bitMask_congr
            intro y hy
            have := mem_take_blk B ib y
            rw [Bool.eq_iff_iff]
            simp only [Bool.or_eq_true, List.contains_iff_mem]
            exact this.symm
          refine ⟨_, rfl, rfl, rfl, fun h => ?_, fun h => ⟨g1, g2, g3, eO, ?_, fun h' => by omega⟩⟩
          · -- the block of `A` is done
            have eF : x.mask ||| cmpistrm (blk B ib) (blk A ia) = bitMask ((blk A ia).map (fun y => B.contains y)) := by
              rw [eO]
              apply bitMask_congr
              intro y hy
              rw [Bool.eq_iff_iff]
              simp only [List.contains_iff_mem]
              refine ⟨fun h' => List.mem_of_mem_take h', fun h' => ?_⟩
              have h8 := le_of_mem_take hA (i := ia) (by omega) ((mem_take_blk A ia y).2 (Or.inr hy))
              exact mem_take_of_le hB (by omega) h' (by omega)
            have hdl := diffE_length A B ia
            obtain ⟨x'', f1, f2, f3, f4, f5⟩ := diffFlush_spec (x := { x with mask := x.mask ||| cmpistrm (blk B ib) (blk A ia) })
              (v := blk A ia) (blk_length (by omega)) eF (by simp; omega)
            simp only at f2 f4 f5
            have hlt : ∀ y ∈ B.take ib, ∀ z ∈ A.drop (ia + 8), y < z := g5
            have e1 : x''.C.length = C.length := by omega
            have e2 : x''.count = count + (diffE A B (ia + 8)).length := by rw [f4, g2, diffE_blk, List.length_append, Nat.add_assoc]
            have e3 : x''.C.take x''.count = C.take count ++ diffE A B (ia + 8) := by
              rw [f5, g3, diffE_blk, List.append_assoc]
            have hmask : ∀ ib', (∀ y ∈ B.take ib', ∀ z ∈ A.drop (ia + 8), y < z) →
                x''.mask = bitMask ((blk A (ia + 8)).map (fun y => (B.take ib').contains y)) := by
              intro ib' hb'
              rw [f3, bitMask_false]
              intro y hy
              rw [← Bool.not_eq_true, List.contains_iff_mem]
              intro hm
              exact absurd (hb' y hm y (mem_blk_drop hy)) (Nat.lt_irrefl _)
            refine ⟨x'', f1, ⟨e1, e2, e3, hmask _ hlt, fun y hy z hz => ?_, fun _ => hlt⟩, fun h' => ?_⟩
            · exact drop_drop_mem (hlt y hy) (by omega) z hz
            · have hlt' : ∀ y ∈ B.take (ib + 8), ∀ z ∈ A.drop (ia + 8), y < z := by
                intro y hy z hz'
                have := le_of_mem_take hB (i := ib) (by omega) hy
                have := hz z hz'
                omega
              exact ⟨e1, e2, e3, hmask _ hlt', fun y hy z hz => drop_drop_mem (hlt' y hy) (by omega) z hz, fun _ => hlt'⟩
          · intro y hy z hz'
            have := le_of_mem_take hB (i := ib) (by omega) hy
            have := hz z hz'
            omega)
        (A.length + B.length + 1) { ia := 0, ib := 0, va := (A.drop 0).take 8, vb := (B.drop 0).take 8, x := { C := C, count := count, mask := 0 } }
        (by simp; omega) (by simp; omega) (by simp) (by simp)
        ⟨rfl, by simp [diffE], by simp [diffE], by rw [bitMask_false]; simp, by simp, by simp⟩ rfl rfl (by simp; omega)
      rw [hs, ok_bind]
      obtain ⟨g1, g2, g3, g4, g5, g6⟩ := hI
      by_cases hc : s.ia < A.length / 8 * 8
      · have hib : s.ib = B.length / 8 * 8 := by
          rcases h7 with h7 | h7 | h7
          · omega
          · exact h7
          · cases h7
        have hpad : storeu (List.replicate 8 0) 0 (B.drop s.ib) = .ok (B.drop s.ib ++ List.replicate (8 - (B.length - s.ib)) 0) := by
          rw [storeu, if_pos (by simp; omega)]
          simp only [List.take_zero, List.nil_append, Nat.zero_add, List.drop_replicate, List.length_drop]
        rw [if_pos hc, hpad, ok_bind, loadu_eq (by simp; omega), ok_bind, h5 hc,
          List.drop_zero, List.take_of_length_le (by simp; omega), diffEmit, ok_bind,
          cmpistrm_pad (fun y hy => zB y (List.mem_of_mem_drop hy)) (fun y hy => zA y (mem_blk hy)), g4, bitMask_or]
        have eF : bitMask ((blk A s.ia).map (fun y => (B.take s.ib).contains y || (B.drop s.ib).contains y)) =
            bitMask ((blk A s.ia).map (fun y => B.contains y)) := by
          apply bitMask_congr
          intro y hy
          rw [Bool.eq_iff_iff]
          simp only [Bool.or_eq_true, List.contains_iff_mem]
          exact ⟨fun h => h.elim List.mem_of_mem_take List.mem_of_mem_drop, fun h => mem_take_or_drop _ h⟩
        have hdl := diffE_length A B s.ia
        obtain ⟨x'', f1, f2, f3, f4, f5⟩ := diffFlush_spec
          (x := { s.x with mask := bitMask ((blk A s.ia).map (fun y => (B.take s.ib).contains y || (B.drop s.ib).contains y)) })
          (v := blk A s.ia) (blk_length (by omega)) eF (by simp; omega)
        simp only at f2 f4 f5
        rw [f1, ok_bind]
        refine ⟨_, _, _, rfl, by omega, by omega, by simp; omega, ?_, ?_, g5⟩
        · simp only; rw [f4, g2, diffE_blk, List.length_append, Nat.add_assoc]
        · simp only; rw [f5, g3, diffE_blk, List.append_assoc]
      · rw [if_neg hc]
        exact ⟨_, _, _, rfl, by omega, by omega, g1, g2, g3, g6 (by omega)⟩
    · rw [if_neg h0]
      exact ⟨0, 0, (C, count), rfl, by omega, by omega, rfl, by simp [diffE], by simp [diffE], by simp⟩
  obtain ⟨ia, ib, x, e, hia, hib, hl, hn, ht, hlt⟩ := hvec
  have hdl := diffE_length A B ia
  obtain ⟨ia', x', E', e2, t1, t2, t3, t4, t5, t6⟩ := diffTail_spec (A := A) (B := B) (cap := C.length) (A.length + B.length + 1) ia ib x
    (C.take count ++ diffE A B ia) hia hl (by rw [List.length_append, hlc, hn]) ht
    (by rw [List.length_append, hlc]; omega) (by omega)
  have hsA : SSorted (A.drop ia) := hA.sublist (List.drop_sublist _ _)
  have hsB : SSorted (B.drop ib) := hB.sublist (List.drop_sublist _ _)
  have hD : diffE A B ia ++ differenceU16 (A.drop ia) (B.drop ib) = differenceU16 A B := by
    rw [differenceU16_eq hsA hsB, differenceU16_eq hA hB]
    have : A.filter (fun x => decide (x ∉ B)) = (A.take ia ++ A.drop ia).filter (fun x => decide (x ∉ B)) := by
      rw [List.take_append_drop]
    rw [this, List.filter_append, diffE]
    congr 1
    · apply List.filter_congr
      intro y hy
      rw [Bool.eq_iff_iff]
      simp
    · apply List.filter_congr
      intro y hy
      rw [Bool.eq_iff_iff, decide_eq_true_iff, decide_eq_true_iff]
      refine ⟨fun h hm => ?_, fun h hm => h (List.mem_of_mem_drop hm)⟩
      rcases mem_take_or_drop ib hm with h1 | h1
      · exact absurd (hlt y h1 y hy) (Nat.lt_irrefl _)
      · exact h h1
  rw [List.append_assoc, hD] at t4
  have hlen := congrArg List.length t4
  rw [List.length_append, List.length_append, hlc, List.length_drop] at hlen
  rw [diffMain, e, ok_bind, e2, ok_bind]
  by_cases hc : ia' < A.length
  · simp only [if_pos hc]
    obtain ⟨C', s1, s2, s3, _⟩ := storeu_take (C := x'.1) (n := x'.2) (F := A.drop ia') (Z := []) (by simp; omega)
    rw [List.append_nil] at s1
    rw [s1, ok_bind]
    rw [List.length_drop] at s3
    refine ⟨C', ?_, by omega, ?_⟩
    · rw [show x'.2 + (A.length - ia') = count + (differenceU16 A B).length by omega]
    · rw [← t4, show count + (differenceU16 A B).length = x'.2 + (A.length - ia') by omega, s3, t3]
  · simp only [if_neg hc]
    rw [List.drop_eq_nil_of_le (by omega), List.append_nil] at t4
    refine ⟨x'.1, ?_, t1, ?_⟩
    · rw [show count + (differenceU16 A B).length = x'.2 by omega]
    · rw [show count + (differenceU16 A B).length = x'.2 by omega, t3, t4]

theorem sorted_tail_nz {a : Nat} {l : List Nat} (h : SSorted (a :: l)) : ∀ x ∈ l, x ≠ 0 := by
  intro x hx h0
  have := (List.pairwise_cons.1 h).1 x hx
  omega

theorem sorted_nz {a : Nat} {l : List Nat} (h : SSorted (a :: l)) (ha : a ≠ 0) : ∀ x ∈ a :: l, x ≠ 0 := by
  intro x hx
  rcases List.mem_cons.1 hx with rfl | hx
  · exact ha
  · exact sorted_tail_nz h x hx

theorem differenceVector16_spec {A B C : List Nat} (hA : SSorted A) (hB : SSorted B) (hC : A.length ≤ C.length) :
    ∃ C', differenceVector16 A B C = .ok (C', (differenceU16 A B).length) ∧ C'.length = C.length ∧
      C'.take (differenceU16 A B).length = differenceU16 A B := by
  match A, B, hA, hB, hC with
  | [], B, _, _, _ =>
    rw [differenceVector16, differenceU16.eq_def]
    exact ⟨C, rfl, rfl, rfl⟩
  | a :: as, [], hA, hB, hC =>
    obtain ⟨C', s1, s2, s3, _⟩ := storeu_take (C := C) (n := 0) (F := a :: as) (Z := []) (by simpa using hC)
    rw [List.append_nil] at s1
    rw [differenceVector16, s1, diffU16_nil_right]
    · exact ⟨C', rfl, s2, by simpa using s3⟩
    · simp
  | a :: as, b :: bs, hA, hB, hC =>
    have hA' : SSorted as := (List.pairwise_cons.1 hA).2
    have hB' : SSorted bs := (List.pairwise_cons.1 hB).2
    rw [differenceVector16]
    rw [List.length_cons] at hC
    by_cases ha : a = 0
    · by_cases hb : b = 0
      · rw [if_pos ha, if_pos hb, differenceU16, if_neg (by omega), if_pos (by omega)]
        have := diffMain_spec (C := C) (count := 0) hA' hB' (sorted_tail_nz hA) (sorted_tail_nz hB) (by omega)
        simpa using this
      · rw [if_pos ha, if_neg hb, differenceU16, if_pos (by omega)]
        obtain ⟨C1, w1, w2, w3, _⟩ := write16_take (C := C) (n := 0) (a := 0) (by omega)
        obtain ⟨C', s1, s2, s3⟩ := diffMain_spec (C := C1) (count := 1) hA' hB (sorted_tail_nz hA) (sorted_nz hB hb) (by omega)
        rw [w1, ok_bind, s1]
        refine ⟨C', by rw [List.length_cons, Nat.add_comm], by omega, ?_⟩
        rw [List.length_cons, Nat.add_comm, s3]
        have : C1.take 1 = [0] := by simpa using w3
        rw [this, ha]
        rfl
    · by_cases hb : b = 0
      · rw [if_neg ha, if_pos hb, differenceU16, if_neg (by omega), if_neg (by omega)]
        have := diffMain_spec (C := C) (count := 0) hA hB' (sorted_nz hA ha) (sorted_tail_nz hB) (by simp; omega)
        simpa using this
      · rw [if_neg ha, if_neg hb]
        have := diffMain_spec (C := C) (count := 0) hA hB (sorted_nz hA ha) (sorted_nz hB hb) (by simp; omega)
        simpa using this

end CRoaring
