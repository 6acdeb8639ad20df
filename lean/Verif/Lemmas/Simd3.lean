import Verif.Lemmas.Simd2
set_option linter.unusedSimpArgs false
set_option linter.unusedVariables false
/-
The vectorised intersections.
-/
namespace CRoaring
open Spec

/-- The mask that one comparison of blocks gives. -/
def foundMask (A B : List Nat) (ia ib : Nat) : Nat := bitMask ((blk A ia).map (fun x => (blk B ib).contains x))

theorem drop_nz {A : List Nat} (hA : SSorted A) {i : Nat} (hi : i < A.length) (h : A[i] ≠ 0) : ∀ x ∈ A.drop i, x ≠ 0 := by
  intro x hx h0
  subst h0
  obtain ⟨j, hj, e⟩ := List.mem_iff_getElem.1 hx
  rw [List.length_drop] at hj
  rw [List.getElem_drop] at e
  cases j with
  | zero => exact h e
  | succ j =>
    have := rdL_strict hA (i := i) (j := i + (j + 1)) (by omega) (by omega)
    rw [rdL_eq (by omega), rdL_eq (by omega), e] at this
    omega

theorem drop_drop_mem {A : List Nat} {i j : Nat} {p : Nat → Prop} (h : ∀ x ∈ A.drop i, p x) (hij : i ≤ j) : ∀ x ∈ A.drop j, p x := by
  intro x hx
  have : A.drop j = (A.drop i).drop (j - i) := by rw [List.drop_drop]; congr 1; omega
  rw [this] at hx
  exact h x (List.mem_of_mem_drop hx)

/-- The vector part of an intersection, for any way of collecting what is found. -/
theorem vecIsect_spec {σ : Type} {getA : σ → List Nat} {A B : List Nat} {emit : σ → V8 → Nat → Out σ} {flush : σ → V8 → Out σ}
    (hA : SSorted A) (hB : SSorted B) (Inv : Nat → Nat → σ → Prop)
    (hget : ∀ ia ib x, Inv ia ib x → (getA x).length = A.length ∧ (getA x).drop ia = A.drop ia)
    (hstep : ∀ ia ib x, ia + 8 ≤ A.length → ib + 8 ≤ B.length → Inv ia ib x →
      ∃ x', emit x (blk A ia) (foundMask A B ia ib) = .ok x' ∧ (getA x').length = A.length ∧
        (getA x').drop ia = A.drop ia ∧
        (rdL A (ia + 7) ≤ rdL B (ib + 7) → ∃ x'', flush x' (blk A ia) = .ok x'' ∧ Inv (ia + 8) ib x'' ∧
          (rdL B (ib + 7) ≤ rdL A (ia + 7) → Inv (ia + 8) (ib + 8) x'')) ∧
        (rdL B (ib + 7) < rdL A (ia + 7) → Inv ia (ib + 8) x'))
    (x : σ) (hx : Inv 0 0 x) :
    ∃ ia ib x', vecIsect getA B emit flush A.length B.length x = .ok (ia, ib, x') ∧ Inv ia ib x' ∧ ia ≤ A.length ∧
      ib ≤ B.length := by
  rw [vecIsect]
  by_cases h0 : 0 < A.length / 8 * 8 ∧ 0 < B.length / 8 * 8
  · have ga := hget _ _ _ hx
    have gd : getA x = A := by simpa using ga.2
    rw [if_pos h0, gd, loadu_eq (by omega), ok_bind, loadu_eq (by omega), ok_bind]
    obtain ⟨s, hs, hI, h1, h2, h3, h4, h5, h6, h7⟩ := vecLoop_spec (getA := getA) (A := A) (B := B)
      (cmp := fun b a => cmpestrm b 8 a 8) (go := goZero B) (emit := emit) (flush := flush) (sta := A.length / 8 * 8)
      (stb := B.length / 8 * 8) (by omega) (by omega) (by omega) (by omega) Inv (fun _ _ => True) hget
      (by
        intro ia ib x hia hib hI
        have hg := hget _ _ _ hI
        refine ⟨decide (A[ia] = 0) || decide (B[ib] = 0), ?_, fun _ => trivial⟩
        rw [goZero, read16_eq (by omega), ok_bind, drop_congr hg.1 hg.2 (Nat.le_refl _) (by omega)]
        by_cases ha : A[ia] = 0
        · simp [ha]
        · rw [if_neg ha, read16_eq (by omega), ok_bind]
          simp [ha]
          rfl)
      (by
        intro ia ib x hia hib hI _
        simp only [cmpestrm_eq (blk_length (A := B) (i := ib) (by omega)) (blk_length (A := A) (i := ia) (by omega))]
        exact hstep ia ib x (by omega) (by omega) hI)
      (A.length + B.length + 1) { ia := 0, ib := 0, va := (A.drop 0).take 8, vb := (B.drop 0).take 8, x := x }
      (by simp; omega) (by simp; omega) (by simp) (by simp) hx rfl rfl (by simp; omega)
    rw [hs, ok_bind]
    by_cases hc : s.ia < A.length / 8 * 8 ∧ s.ib < B.length / 8 * 8
    · rw [if_pos hc]
      have hg := hget _ _ _ hI
      have hz : A[s.ia]'(by omega) ≠ 0 ∧ B[s.ib]'(by omega) ≠ 0 := by
        rcases h7 with h7 | h7 | h7
        · omega
        · omega
        · rw [goZero, read16_eq (by omega), ok_bind, drop_congr hg.1 hg.2 (Nat.le_refl _) (by omega)] at h7
          by_cases ha : A[s.ia]'(by omega) = 0
          · rw [if_pos ha] at h7; cases h7
          · rw [if_neg ha, read16_eq (by omega), ok_bind] at h7
            refine ⟨ha, fun hb => ?_⟩
            rw [hb] at h7
            cases h7
      obtain ⟨s', hs', hI', h1', h2', _⟩ := vecLoop_spec (getA := getA) (A := A) (B := B)
        (cmp := cmpistrm) (go := goTrue) (emit := emit) (flush := flush) (sta := A.length / 8 * 8)
        (stb := B.length / 8 * 8) (by omega) (by omega) (by omega) (by omega)
        (fun ia ib x => Inv ia ib x ∧ (∀ y ∈ A.drop ia, y ≠ 0) ∧ ∀ y ∈ B.drop ib, y ≠ 0) (fun _ _ => True)
        (fun ia ib x h => hget ia ib x h.1)
        (by intro ia ib x hia hib hI; exact ⟨true, rfl, fun _ => trivial⟩)
        (by
          intro ia ib x hia hib hI _
          obtain ⟨hI, na, nb⟩ := hI
          have e : cmpistrm (blk B ib) (blk A ia) = foundMask A B ia ib :=
            cmpistrm_eq (fun y hy => nb y (mem_blk_drop hy)) (fun y hy => na y (mem_blk_drop hy))
          rw [e]
          obtain ⟨x', e1, e2, e3, e4, e5⟩ := hstep ia ib x (by omega) (by omega) hI
          refine ⟨x', e1, e2, e3, fun h => ?_, fun h => ⟨e5 h, na, drop_drop_mem nb (by omega)⟩⟩
          obtain ⟨x'', f1, f2, f3⟩ := e4 h
          exact ⟨x'', f1, ⟨f2, drop_drop_mem na (by omega), nb⟩,
            fun h' => ⟨f3 h', drop_drop_mem na (by omega), drop_drop_mem nb (by omega)⟩⟩)
        (A.length + B.length + 1) s hc.1 hc.2 h3 h4 ⟨hI, drop_nz hA _ hz.1, drop_nz hB _ hz.2⟩ (h5 hc.1) (h6 hc.1 hc.2)
        (by omega)
      rw [hs', ok_bind]
      exact ⟨_, _, _, rfl, hI'.1, by omega, by omega⟩
    · rw [if_neg hc]
      exact ⟨_, _, _, rfl, hI, by omega, by omega⟩
  · rw [if_neg h0]
    exact ⟨0, 0, x, rfl, hx, by omega, by omega⟩

/-- The scalar loop at the end. -/
theorem isectTail_spec {σ : Type} {getA : σ → List Nat} {A B : List Nat} {put : σ → Nat → Out σ} {T : List Nat}
    (P : Nat → σ → List Nat → Prop)
    (hget : ∀ ia x E, P ia x E → (getA x).length = A.length ∧ (getA x).drop ia = A.drop ia)
    (hskip : ∀ ia x E, P ia x E → P (ia + 1) x E)
    (hput : ∀ ia x E, P ia x E → (h : ia < A.length) → E.length < T.length → ∃ x', put x A[ia] = .ok x' ∧ P (ia + 1) x' (E ++ [A[ia]]))
    (fuel : Nat) (ia ib : Nat) (x : σ) (E : List Nat) (hP : P ia x E) (hT : E ++ intersectU16 (A.drop ia) (B.drop ib) = T)
    (hf : (A.length - ia) + (B.length - ib) < fuel) :
    ∃ ia' x', isectTail getA B put A.length B.length fuel ia ib x = .ok x' ∧ P ia' x' T := by
  induction fuel generalizing ia ib x E with
  | zero => omega
  | succ fuel ih =>
    rw [isectTail]
    by_cases hc : ia < A.length ∧ ib < B.length
    · have hg := hget _ _ _ hP
      have e1 : read16 (getA x) ia = .ok (A[ia]) := by
        rw [read16_eq (by omega), drop_congr hg.1 hg.2 (Nat.le_refl _) hc.1]
      rw [if_pos hc, e1, ok_bind, read16_eq hc.2, ok_bind]
      rw [List.drop_eq_getElem_cons hc.1, List.drop_eq_getElem_cons hc.2, intersectU16] at hT
      by_cases h1 : A[ia] < B[ib]
      · rw [if_pos h1] at hT ⊢
        exact ih (ia + 1) ib x E (hskip _ _ _ hP) (by rw [List.drop_eq_getElem_cons hc.2]; exact hT) (by omega)
      · rw [if_neg h1] at hT ⊢
        by_cases h2 : B[ib] < A[ia]
        · rw [if_pos h2] at hT ⊢
          exact ih ia (ib + 1) x E hP (by rw [List.drop_eq_getElem_cons hc.1]; exact hT) (by omega)
        · rw [if_neg h2] at hT ⊢
          obtain ⟨x', e2, hP'⟩ := hput ia x E hP hc.1 (by rw [← hT]; simp)
          rw [e2, ok_bind]
          exact ih (ia + 1) (ib + 1) x' _ hP' (by rw [← hT]; simp) (by omega)
    · rw [if_neg hc]
      have : intersectU16 (A.drop ia) (B.drop ib) = [] := by
        by_cases ha : ia < A.length
        · rw [List.drop_eq_nil_of_le (as := B) (by omega), intersectU16.eq_def]
          cases A.drop ia <;> rfl
        · rw [List.drop_eq_nil_of_le (as := A) (by omega), intersectU16.eq_def]
      rw [this, List.append_nil] at hT
      exact ⟨ia, x, rfl, hT ▸ hP⟩

/-! ### `intersect_vector16` -/

theorem storeu_take {C F Z : List Nat} {n : Nat} (h : n + (F ++ Z).length ≤ C.length) :
    ∃ C', storeu C n (F ++ Z) = .ok C' ∧ C'.length = C.length ∧ C'.take (n + F.length) = C.take n ++ F ∧
      C'.drop (n + (F ++ Z).length) = C.drop (n + (F ++ Z).length) := by
  refine ⟨_, by rw [storeu, if_pos h], ?_, ?_, ?_⟩
  · simp only [List.length_append, List.length_take, List.length_drop] at h ⊢; omega
  · have hl : (C.take n).length = n := by simp only [List.length_take, List.length_append] at h ⊢; omega
    rw [List.append_assoc, List.append_assoc, List.take_append, hl, List.take_of_length_le (by omega),
      show n + F.length - n = F.length by omega, List.take_append, List.take_of_length_le (Nat.le_refl _),
      Nat.sub_self, List.take_zero, List.append_nil]
  · have hl : (C.take n).length = n := by simp only [List.length_take, List.length_append] at h ⊢; omega
    rw [List.drop_append, List.drop_eq_nil_of_le (by simp [hl]), List.nil_append]
    simp only [List.length_append, hl, List.length_append]
    simp

theorem write16_take {C : List Nat} {n a : Nat} (h : n < C.length) :
    ∃ C', write16 C n a = .ok C' ∧ C'.length = C.length ∧ C'.take (n + 1) = C.take n ++ [a] ∧
      C'.drop (n + 1) = C.drop (n + 1) := by
  refine ⟨C.set n a, by rw [write16, if_pos h], by simp, ?_, ?_⟩
  · rw [List.take_set, List.take_add_one, List.getElem?_eq_getElem h, Option.toList_some, List.set_append, if_neg (by simp; omega)]
    simp [List.length_take, Nat.min_eq_left (Nat.le_of_lt h)]
  · rw [List.drop_set_of_lt (by omega)]

/-- Eight lanes are stored; those that count are the values of the block that are also in the other block. -/
theorem compress_found {A B : List Nat} {ia ib : Nat} (h : ia + 8 ≤ A.length) :
    compress (blk A ia) (foundMask A B ia ib) = (blk A ia).filter (fun x => (blk B ib).contains x) ++
      List.replicate (8 - ((blk A ia).filter (fun x => (blk B ib).contains x)).length) 0 ∧
    popcnt32 (foundMask A B ia ib) = ((blk A ia).filter (fun x => (blk B ib).contains x)).length ∧
    ((blk A ia).filter (fun x => (blk B ib).contains x)).length ≤ 8 := by
  refine ⟨compress_mask (blk_length h) _, popcnt32_mask (by rw [blk_length h]; omega) _, ?_⟩
  have := List.length_filter_le (fun x => (blk B ib).contains x) (blk A ia)
  rw [blk_length h] at this
  exact this

theorem found_length {A B : List Nat} {ia ib : Nat} {E : List Nat} (h : Found A B ia ib E) :
    E.length ≤ A.length ∧ E.length ≤ B.length :=
  ⟨sorted_sub_length h.1 (fun x hx => ((h.2 x).1 hx).1), sorted_sub_length h.1 (fun x hx => ((h.2 x).1 hx).2.1)⟩

theorem found_zero (A B : List Nat) : Found A B 0 0 [] := ⟨by simp [SSorted], by simp⟩

theorem isectU16_length {A B : List Nat} (hA : SSorted A) (hB : SSorted B) :
    (intersectU16 A B).length ≤ A.length ∧ (intersectU16 A B).length ≤ B.length := by
  have h := found_end hA hB (found_zero A B)
  rw [intersectU16_eq hA hB]
  have hs : SSorted (A.filter (fun x => decide (x ∈ B))) := hA.sublist List.filter_sublist
  exact ⟨sorted_sub_length hs (fun x hx => (List.mem_filter.1 hx).1),
    sorted_sub_length hs (fun x hx => by simpa using (List.mem_filter.1 hx).2)⟩

theorem intersectVector16_spec {A B C : List Nat} (hA : SSorted A) (hB : SSorted B)
    (hC : Nat.min A.length B.length + 8 ≤ C.length) :
    ∃ C', intersectVector16 A B C = .ok (C', (intersectU16 A B).length) ∧ C'.length = C.length ∧
      C'.take (intersectU16 A B).length = intersectU16 A B := by
  have hCA : ∀ n, n ≤ A.length → n ≤ B.length → n + 8 ≤ C.length := by
    intro n h1 h2
    have : n ≤ Nat.min A.length B.length := Nat.le_min.2 ⟨h1, h2⟩
    omega
  obtain ⟨ia, ib, x, e, hI, h1, h2⟩ := vecIsect_spec (getA := fun _ => A) (emit := isectEmit) (flush := fun x _ => .ok x) hA hB
    (fun ia ib x => x.1.length = C.length ∧ ∃ E, x.2 = E.length ∧ x.1.take x.2 = E ∧ Found A B ia ib E)
    (fun _ _ _ _ => ⟨rfl, rfl⟩)
    (by
      rintro ia ib x ha hb ⟨hl, E, hx, ht, hE⟩
      obtain ⟨c1, c2, c3⟩ := compress_found (A := A) (B := B) (ia := ia) (ib := ib) ha
      have hlen := found_length hE
      have hroom := hCA E.length hlen.1 hlen.2
      obtain ⟨C', s1, s2, s3, _⟩ := storeu_take (C := x.1) (n := x.2)
        (F := (blk A ia).filter (fun y => (blk B ib).contains y))
        (Z := List.replicate (8 - ((blk A ia).filter (fun y => (blk B ib).contains y)).length) 0)
        (by rw [List.length_append, List.length_replicate]; omega)
      obtain ⟨f1, f2, f3⟩ := found_step hA hB ha hb hE
      have hn : ∀ ia' ib', Found A B ia' ib' (E ++ (blk A ia).filter (fun y => (blk B ib).contains y)) →
          C'.length = C.length ∧ ∃ E, x.2 + popcnt32 (foundMask A B ia ib) = E.length ∧
            C'.take (x.2 + popcnt32 (foundMask A B ia ib)) = E ∧ Found A B ia' ib' E := by
        intro ia' ib' hF
        exact ⟨by omega, _, by rw [c2, hx, List.length_append], by rw [c2, s3, ht], hF⟩
      refine ⟨(C', x.2 + popcnt32 (foundMask A B ia ib)), by rw [isectEmit, c1, s1]; rfl, rfl, rfl, fun h => ?_, fun h => hn _ _ (f2 (by omega))⟩
      exact ⟨_, rfl, hn _ _ (f1 h), fun h' => hn _ _ (f3 (by omega))⟩)
    (C, 0) ⟨rfl, [], rfl, rfl, found_zero A B⟩
  obtain ⟨hl, E, hx, ht, hE⟩ := hI
  have hlenU := isectU16_length hA hB
  have hroomU := hCA _ hlenU.1 hlenU.2
  obtain ⟨ia', x', e2, hP⟩ := isectTail_spec (getA := fun _ => A) (A := A) (B := B) (put := isectPut) (T := intersectU16 A B)
    (fun _ x E => x.1.length = C.length ∧ x.2 = E.length ∧ x.1.take x.2 = E)
    (fun _ _ _ _ => ⟨rfl, rfl⟩) (fun _ _ _ h => h)
    (by
      rintro ia x E ⟨p1, p2, p3⟩ h hlt
      obtain ⟨C', s1, s2, s3, _⟩ := write16_take (C := x.1) (n := x.2) (a := A[ia]) (by omega)
      exact ⟨(C', x.2 + 1), by rw [isectPut, s1]; rfl, by simp; omega, by simp [p2], by simp [s3, p3]⟩)
    (A.length + B.length + 1) ia ib x E ⟨hl, hx, ht⟩ (found_end hA hB hE) (by omega)
  refine ⟨x'.1, ?_, hP.1, ?_⟩
  · rw [intersectVector16, e, ok_bind, e2, ← hP.2.1]
  · rw [← hP.2.1]; exact hP.2.2

/-! ### `intersect_vector16_cardinality` -/

theorem intersectVector16Card_spec {A B : List Nat} (hA : SSorted A) (hB : SSorted B) :
    intersectVector16Card A B = .ok (intersectU16 A B).length := by
  obtain ⟨ia, ib, x, e, hI, h1, h2⟩ := vecIsect_spec (getA := fun _ => A) (emit := fun n _ r => .ok (n + popcnt32 r))
    (flush := fun x _ => .ok x) hA hB (fun ia ib x => ∃ E, x = E.length ∧ Found A B ia ib E)
    (fun _ _ _ _ => ⟨rfl, rfl⟩)
    (by
      rintro ia ib x ha hb ⟨E, hx, hE⟩
      obtain ⟨c1, c2, c3⟩ := compress_found (A := A) (B := B) (ia := ia) (ib := ib) ha
      obtain ⟨f1, f2, f3⟩ := found_step hA hB ha hb hE
      have hn : x + popcnt32 (foundMask A B ia ib) = (E ++ (blk A ia).filter (fun y => (blk B ib).contains y)).length := by
        rw [c2, hx, List.length_append]
      exact ⟨_, rfl, rfl, rfl, fun h => ⟨_, rfl, ⟨_, hn, f1 h⟩, fun h' => ⟨_, hn, f3 (by omega)⟩⟩,
        fun h => ⟨_, hn, f2 (by omega)⟩⟩)
    0 ⟨[], rfl, found_zero A B⟩
  obtain ⟨E, hx, hE⟩ := hI
  obtain ⟨ia', x', e2, hP⟩ := isectTail_spec (getA := fun _ => A) (A := A) (B := B) (put := fun n _ => .ok (n + 1))
    (T := intersectU16 A B) (fun _ x E => x = E.length)
    (fun _ _ _ _ => ⟨rfl, rfl⟩) (fun _ _ _ h => h)
    (by rintro ia x E p1 h hlt; exact ⟨_, rfl, by simp [p1]⟩)
    (A.length + B.length + 1) ia ib x E hx (found_end hA hB hE) (by omega)
  rw [intersectVector16Card, e, ok_bind, e2, hP]

/-! ### `intersect_vector16_inplace` -/

theorem inplRest_spec (x : InplSt) (n i : Nat) (h1 : i + n ≤ x.tmp.length) (h2 : x.count + n ≤ x.A.length) :
    ∃ x', inplRest x n i = .ok x' ∧ x'.tmpCount = x.tmpCount ∧ x'.count = x.count + n ∧ x'.A.length = x.A.length ∧
      x'.A.take (x.count + n) = x.A.take x.count ++ (x.tmp.drop i).take n ∧ x'.A.drop (x.count + n) = x.A.drop (x.count + n) := by
  induction n generalizing x i with
  | zero => exact ⟨x, rfl, rfl, rfl, rfl, by simp, by simp⟩
  | succ n ih =>
    obtain ⟨A', s1, s2, s3, s4⟩ := write16_take (C := x.A) (n := x.count) (a := x.tmp[i]) (by omega)
    rw [inplRest, read16_eq (by omega), ok_bind, inplPut, s1, ok_bind]
    obtain ⟨x', e, t1, t2, t3, t4, t5⟩ := ih { x with A := A', count := x.count + 1 } (i + 1) (by simp; omega) (by simp; omega)
    refine ⟨x', e, t1, by simp only [t2]; omega, by simp only [t3]; exact s2, ?_, ?_⟩
    · simp only at t4
      rw [show x.count + (n + 1) = x.count + 1 + n by omega, t4, s3, List.drop_eq_getElem_cons (l := x.tmp) (i := i) (by omega),
        List.take_succ_cons]
      simp
    · simp only at t5
      rw [show x.count + (n + 1) = x.count + 1 + n by omega, t5]
      exact drop_mono s4 (by omega)

/-- What has been found stays right if as many values of the block are skipped as are found in it. -/
theorem found_skip {A B : List Nat} (hA : SSorted A) (hB : SSorted B) {ia ib : Nat} {E P : List Nat} (h : Found A B ia ib (E ++ P))
    (hP : ∀ x ∈ P, x ∈ A.drop ia) : Found A B (ia + P.length) ib (E ++ P) := by
  refine ⟨h.1, fun x => ?_⟩
  rw [h.2]
  constructor
  · rintro ⟨h1, h2, h3 | h3⟩
    · refine ⟨h1, h2, Or.inl ?_⟩
      rw [List.take_add, List.mem_append]
      exact Or.inl h3
    · exact ⟨h1, h2, Or.inr h3⟩
  · rintro ⟨h1, h2, h3 | h3⟩
    · rw [List.take_add, List.mem_append] at h3
      rcases h3 with h3 | h3
      · exact ⟨h1, h2, Or.inl h3⟩
      · rcases mem_take_or_drop ib h2 with h4 | h4
        · exact ⟨h1, h2, Or.inr h4⟩
        · exfalso
          -- the values in `P` are smaller than `x`
          have hlt : ∀ y ∈ P, y < x := by
            intro y hy
            have hd := hP y hy
            rcases ((h.2 y).1 (List.mem_append.2 (Or.inr hy))).2.2 with h5 | h5
            · exact absurd (take_lt_drop hA h5 hd) (Nat.lt_irrefl _)
            · exact take_lt_drop hB h5 h4
          have hsP : SSorted P := h.1.sublist (List.sublist_append_right _ _)
          have hsD : SSorted (A.drop ia) := hA.sublist (List.drop_sublist _ _)
          obtain ⟨j, hj, e⟩ := List.mem_iff_getElem.1 h3
          rw [List.length_take] at hj
          rw [List.getElem_take] at e
          have hsub : ∀ y ∈ P, y ∈ (A.drop ia).take j := by
            intro y hy
            rcases mem_take_or_drop j (hP y hy) with h6 | h6
            · exact h6
            · exfalso
              have hl := hlt y hy
              obtain ⟨k, hk, e2⟩ := List.mem_iff_getElem.1 h6
              rw [List.length_drop] at hk
              rw [List.getElem_drop] at e2
              cases k with
              | zero => simp only [Nat.add_zero] at e2; omega
              | succ k =>
                have := rdL_strict hsD (i := j) (j := j + (k + 1)) (by omega) (by omega)
                rw [rdL_eq (by omega), rdL_eq (by omega), e, e2] at this
                omega
          have := sorted_sub_length hsP hsub
          rw [List.length_take] at this
          omega
    · exact ⟨h1, h2, Or.inr h3⟩

theorem intersectVector16Inplace_spec {A B : List Nat} (hA : SSorted A) (hB : SSorted B) :
    ∃ A', intersectVector16Inplace A B = .ok (A', (intersectU16 A B).length) ∧ A'.length = A.length ∧
      A'.take (intersectU16 A B).length = intersectU16 A B := by
  obtain ⟨ia, ib, x, e, hI, h1, h2⟩ := vecIsect_spec (getA := InplSt.A) (emit := inplEmit) (flush := inplFlush) hA hB
    (fun ia ib x => x.A.length = A.length ∧ x.A.drop ia = A.drop ia ∧ x.count ≤ ia ∧ x.tmp.length = 16 ∧
      x.tmpCount ≤ 16 ∧ (∀ y ∈ x.tmp.take x.tmpCount, y ∈ blk A ia) ∧
      Found A B ia ib (x.A.take x.count ++ x.tmp.take x.tmpCount))
    (fun _ _ _ h => ⟨h.1, h.2.1⟩)
    (by
      rintro ia ib x ha hb ⟨g1, g2, g3, g4, g4', g5, hE⟩
      obtain ⟨c1, c2, c3⟩ := compress_found (A := A) (B := B) (ia := ia) (ib := ib) ha
      have hst : SSorted (x.tmp.take x.tmpCount) := hE.1.sublist (List.sublist_append_right _ _)
      have g6 : x.tmpCount ≤ 8 := by
        have := sorted_sub_length hst g5
        rw [blk_length ha, List.length_take, g4] at this
        omega
      obtain ⟨T', s1, s2, s3, _⟩ := storeu_take (C := x.tmp) (n := x.tmpCount)
        (F := (blk A ia).filter (fun y => (blk B ib).contains y))
        (Z := List.replicate (8 - ((blk A ia).filter (fun y => (blk B ib).contains y)).length) 0)
        (by rw [List.length_append, List.length_replicate]; omega)
      obtain ⟨f1, f2, f3⟩ := found_step hA hB ha hb hE
      rw [List.append_assoc, ← s3, ← c2] at f1 f2 f3
      have hmem : ∀ y ∈ T'.take (x.tmpCount + popcnt32 (foundMask A B ia ib)), y ∈ blk A ia := by
        intro y hy
        rw [c2, s3, List.mem_append] at hy
        rcases hy with hy | hy
        · exact g5 y hy
        · exact (List.mem_filter.1 hy).1
      have hcnt : x.tmpCount + popcnt32 (foundMask A B ia ib) ≤ 16 := by omega
      refine ⟨{ x with tmp := T', tmpCount := x.tmpCount + popcnt32 (foundMask A B ia ib) },
        by rw [inplEmit, c1, s1]; rfl, g1, g2, fun h => ?_, fun h => ⟨g1, g2, g3, by simp; omega, hcnt, hmem, f2 (by omega)⟩⟩
      have hss : SSorted (T'.take (x.tmpCount + popcnt32 (foundMask A B ia ib))) :=
        (f1 h).1.sublist (List.sublist_append_right _ _)
      have g7 : x.tmpCount + popcnt32 (foundMask A B ia ib) ≤ 8 := by
        have := sorted_sub_length hss hmem
        rw [blk_length ha, List.length_take, s2, g4] at this
        omega
      have eT : T'.take 8 = T'.take (x.tmpCount + popcnt32 (foundMask A B ia ib)) ++
          (T'.drop (x.tmpCount + popcnt32 (foundMask A B ia ib))).take (8 - (x.tmpCount + popcnt32 (foundMask A B ia ib))) := by
        rw [← List.take_add]; congr 1; omega
      have l1 : (T'.take (x.tmpCount + popcnt32 (foundMask A B ia ib))).length = x.tmpCount + popcnt32 (foundMask A B ia ib) := by
        rw [List.length_take]; omega
      obtain ⟨A', t1, t2, t3, t4⟩ := storeu_take (C := x.A) (n := x.count)
        (F := T'.take (x.tmpCount + popcnt32 (foundMask A B ia ib)))
        (Z := (T'.drop (x.tmpCount + popcnt32 (foundMask A B ia ib))).take (8 - (x.tmpCount + popcnt32 (foundMask A B ia ib))))
        (by rw [← eT, List.length_take]; omega)
      rw [← eT, List.length_take, s2, g4] at t4
      rw [l1] at t3
      have u1 : storeu T' 0 (List.replicate 8 0) = .ok (List.replicate 8 0 ++ T'.drop 8) := by
        rw [storeu, if_pos (by simp; omega)]; simp
      refine ⟨{ A := A', count := x.count + (x.tmpCount + popcnt32 (foundMask A B ia ib)), tmp := List.replicate 8 0 ++ T'.drop 8, tmpCount := 0 }, ?_, ?_, ?_⟩
      · rw [inplFlush, eT, t1, ok_bind, u1]; rfl
      · refine ⟨by simp; omega, drop_mono (drop_mono (i := x.count + 8) t4 (by omega)
          |>.trans (drop_mono g2 (by omega)) |> fun z => z) (Nat.le_refl _), by simp; omega, by simp; omega, by simp, by simp, ?_⟩
        simp only [List.take_zero, List.append_nil]
        rw [t3]
        exact f1 h
      · intro h'
        refine ⟨by simp; omega, (drop_mono (i := x.count + 8) t4 (by omega)).trans (drop_mono g2 (by omega)), by simp; omega, by simp; omega,
          by simp, by simp, ?_⟩
        simp only [List.take_zero, List.append_nil]
        rw [t3]
        exact f3 (by omega))
    { A := A, count := 0, tmp := List.replicate 16 0, tmpCount := 0 }
    ⟨rfl, rfl, by simp, by simp, by simp, by simp, by simpa using found_zero A B⟩
  obtain ⟨g1, g2, g3, g4, g4', g5, hE⟩ := hI
  have hst : SSorted (x.tmp.take x.tmpCount) := hE.1.sublist (List.sublist_append_right _ _)
  have hlt : (x.tmp.take x.tmpCount).length = x.tmpCount := by rw [List.length_take]; omega
  have g6 : x.tmpCount ≤ 8 ∧ ia + x.tmpCount ≤ A.length := by
    have := sorted_sub_length hst g5
    rw [hlt] at this
    have hb : (blk A ia).length = min 8 (A.length - ia) := by simp [blk]
    omega
  obtain ⟨x', e1, t1, t2, t3, t4, t5⟩ := inplRest_spec x x.tmpCount 0 (by omega) (by omega)
  have hsk := found_skip hA hB hE (fun y hy => mem_blk_drop (g5 y hy))
  rw [hlt] at hsk
  obtain ⟨ia', x2, e2, hP⟩ := isectTail_spec (getA := InplSt.A) (A := A) (B := B) (put := inplPut) (T := intersectU16 A B)
    (fun ia x E => x.A.length = A.length ∧ x.A.drop ia = A.drop ia ∧ x.count = E.length ∧ x.A.take x.count = E ∧ x.count ≤ ia)
    (fun _ _ _ h => ⟨h.1, h.2.1⟩) (fun _ _ _ h => ⟨h.1, drop_mono h.2.1 (by omega), h.2.2.1, h.2.2.2.1, by omega⟩)
    (by
      rintro ia x E ⟨p1, p2, p3, p4, p5⟩ h hlt
      obtain ⟨C', s1, s2, s3, s4⟩ := write16_take (C := x.A) (n := x.count) (a := A[ia]) (by omega)
      refine ⟨{ x with A := C', count := x.count + 1 }, by rw [inplPut, s1]; rfl, by simp; omega, ?_, by simp [p3], by simp [s3, p4], by simp; omega⟩
      exact (drop_mono (i := x.count + 1) s4 (by omega)).trans (drop_mono p2 (by omega)))
    (A.length + B.length + 1) (ia + x'.tmpCount) ib x' (x.A.take x.count ++ x.tmp.take x.tmpCount)
    ⟨by omega, by
        rw [t1]
        exact (drop_mono t5 (by omega)).trans (drop_mono g2 (by omega)),
      by rw [List.length_append, hlt, t2, List.length_take]; omega, by rw [t2, t4]; simp, by omega⟩
    (by rw [t1]; exact found_end hA hB hsk) (by omega)
  refine ⟨x2.A, ?_, hP.1, ?_⟩
  · rw [intersectVector16Inplace]
    rw [e, ok_bind, e1, ok_bind, e2, ok_bind, hP.2.2.1]
  · rw [← hP.2.2.1]; exact hP.2.2.2.1

end CRoaring
