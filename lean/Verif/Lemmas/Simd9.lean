import Verif.Lemmas.Simd8
set_option linter.unusedSimpArgs false
set_option linter.unusedVariables false
/-
`xor_vector16`.
-/
namespace CRoaring
open Spec

/-- The values that occur once, in a sorted list where none occurs three times. -/
def sing : List Nat → List Nat
  | [] => []
  | [x] => [x]
  | x :: y :: t => if x = y then sing t else x :: sing (y :: t)

/-- The last value, unless it is equal to the one before it. -/
def fin1 : Nat → List Nat → List Nat
  | _, [] => []
  | q, [x] => if x = q then [] else [x]
  | _, x :: y :: t => fin1 x (y :: t)

theorem count2_tail {x : Nat} {l : List Nat} (h : ∀ z, (x :: l).count z ≤ 2) : ∀ z, l.count z ≤ 2 := by
  intro z
  have := h z
  rw [List.count_cons] at this
  omega

theorem not_mem_of_twice {x : Nat} {t : List Nat} (h : ∀ z, (x :: x :: t).count z ≤ 2) : x ∉ t := by
  intro hm
  have h1 := h x
  rw [List.count_cons_self, List.count_cons_self] at h1
  have := List.count_pos_iff.2 hm
  omega

theorem sing_spec (l : List Nat) : NSorted l → (∀ z, l.count z ≤ 2) →
    SSorted (sing l) ∧ ∀ z, z ∈ sing l ↔ l.count z = 1 := by
  induction l using sing.induct with
  | case1 => intro _ _; exact ⟨List.Pairwise.nil, by simp [sing]⟩
  | case2 x =>
    intro _ _
    refine ⟨List.pairwise_singleton _ _, ?_⟩
    intro z
    rw [sing, List.count_singleton]
    by_cases h : z = x
    · simp [h]
    · simp [h, Ne.symm h]
  | case3 x t ih =>
    intro hs hc
    obtain ⟨h1, h2⟩ := ih (List.Pairwise.of_cons (List.Pairwise.of_cons hs)) (count2_tail (count2_tail hc))
    rw [sing, if_pos rfl]
    refine ⟨h1, fun z => ?_⟩
    rw [h2]
    by_cases hz : z = x
    · subst hz
      have := List.count_eq_zero_of_not_mem (not_mem_of_twice hc)
      rw [List.count_cons_self, List.count_cons_self, this]
      omega
    · rw [List.count_cons_of_ne (Ne.symm hz), List.count_cons_of_ne (Ne.symm hz)]
  | case4 x y t hxy ih =>
    intro hs hc
    obtain ⟨h1, h2⟩ := ih (List.Pairwise.of_cons hs) (count2_tail hc)
    rw [sing, if_neg hxy]
    have hlt : ∀ z ∈ y :: t, x < z := by
      intro z hz
      have h3 : x ≤ y := (List.pairwise_cons.1 hs).1 y List.mem_cons_self
      rcases List.mem_cons.1 hz with e | hz
      · omega
      · have := (List.pairwise_cons.1 (List.Pairwise.of_cons hs)).1 z hz
        omega
    refine ⟨List.pairwise_cons.2 ⟨?_, h1⟩, fun z => ?_⟩
    · intro z hz
      refine hlt z (List.count_pos_iff.1 ?_)
      have := (h2 z).1 hz
      omega
    · by_cases hz : z = x
      · subst hz
        have : z ∉ y :: t := fun h => Nat.lt_irrefl _ (hlt z h)
        rw [List.count_cons_self, List.count_eq_zero_of_not_mem this]
        simp
      · rw [List.count_cons_of_ne (Ne.symm hz), List.mem_cons, ← h2]
        simp [hz]

theorem xorFrom_fin (l : List Nat) : ∀ p1 p2, NSorted (p1 :: l) → (∀ z, (p1 :: l).count z ≤ 2) →
    (p2 ≠ p1 → xorFrom p2 p1 l ++ fin1 p2 (p1 :: l) = sing (p1 :: l)) ∧
    (p1 ∉ l → xorFrom p1 p1 l ++ fin1 p1 (p1 :: l) = sing l) := by
  induction l with
  | nil =>
    intro p1 p2 _ _
    refine ⟨fun h => ?_, fun _ => ?_⟩
    · simp [xorFrom, fin1, sing, Ne.symm h]
    · simp [xorFrom, fin1, sing]
  | cons x t ih =>
    intro p1 p2 hs hc
    have hs' := List.Pairwise.of_cons hs
    have hc' := count2_tail hc
    refine ⟨fun h => ?_, fun h => ?_⟩
    · rw [xorFrom, fin1]
      by_cases hx : p1 = x
      · subst hx
        rw [if_pos (Or.inr rfl), sing, if_pos rfl]
        exact (ih p1 p2 hs' hc').2 (not_mem_of_twice hc)
      · rw [if_neg (by omega), sing, if_neg hx, List.cons_append, (ih x p1 hs' hc').1 hx]
    · have hx : p1 ≠ x := fun e => h (e ▸ List.mem_cons_self)
      rw [xorFrom, fin1, if_pos (Or.inl rfl)]
      exact (ih x p1 hs' hc').1 hx

theorem xorFrom_append (L : List Nat) (a b : Nat) (m : List Nat) : ∀ p2 p1,
    xorFrom p2 p1 (L ++ [a, b] ++ m) = xorFrom p2 p1 (L ++ [a, b]) ++ xorFrom a b m := by
  induction L with
  | nil =>
    intro p2 p1
    simp only [List.nil_append, List.cons_append, xorFrom]
    split <;> split <;> simp
  | cons x t ih =>
    intro p2 p1
    simp only [List.cons_append, xorFrom] at ih ⊢
    rw [ih]
    split <;> simp

theorem fin1_append (L : List Nat) (a b q : Nat) : fin1 q (L ++ [a, b]) = if b = a then [] else [b] := by
  induction L generalizing q with
  | nil => rfl
  | cons x t ih =>
    cases t with
    | nil => rfl
    | cons y t =>
      rw [List.cons_append, List.cons_append, fin1, ← List.cons_append, ih]

theorem xorFrom_length (p2 p1 : Nat) (l : List Nat) : (xorFrom p2 p1 l).length ≤ l.length := by
  induction l generalizing p2 p1 with
  | nil => simp [xorFrom]
  | cons x t ih =>
    have := ih p1 x
    rw [xorFrom]
    split <;> simp <;> omega

theorem xorFrom_sub (p2 p1 : Nat) (l : List Nat) : ∀ x ∈ xorFrom p2 p1 l, x ∈ p1 :: l := by
  induction l generalizing p2 p1 with
  | nil => simp [xorFrom]
  | cons y t ih =>
    intro x hx
    rw [xorFrom] at hx
    split at hx
    · exact List.mem_cons_of_mem _ (ih p1 y x hx)
    · rcases List.mem_cons.1 hx with e | hx
      · rw [e]; exact List.mem_cons_self
      · exact List.mem_cons_of_mem _ (ih p1 y x hx)

theorem split8 {l : List Nat} (h : l.length = 8) : l = l.take 6 ++ [l.getD 6 0, l.getD 7 0] := by
  apply List.ext_getElem (by simp [h])
  intro i h1 h2
  rcases Nat.lt_or_ge i 6 with h3 | h3
  · rw [List.getElem_append_left (by simp; omega), List.getElem_take]
  · rw [List.getElem_append_right (by simp; omega)]
    have h4 : i = 6 ∨ i = 7 := by omega
    rcases h4 with rfl | rfl <;> simp [h, List.getD_eq_getElem?_getD]

theorem stores_xor : Stores storeUniqueXor (xorFrom 65535 65535) := by
  constructor
  · intro new hn
    have h := storeUniqueXor_spec (old := List.replicate 8 65535) (by simp) hn
    have e1 : (List.replicate 8 65535).getD 6 0 = 65535 := rfl
    have e2 : (List.replicate 8 65535).getD 7 0 = 65535 := rfl
    rw [e1, e2] at h
    exact ⟨h.1, h.2, hn ▸ xorFrom_length _ _ _⟩
  · intro W last new hl hn
    have h := storeUniqueXor_spec hl hn
    refine ⟨_, hn ▸ xorFrom_length _ _ _, ?_, h.1, h.2⟩
    have e := split8 hl
    rw [show W ++ last = (W ++ last.take 6) ++ [last.getD 6 0, last.getD 7 0] by rw [List.append_assoc, ← e]]
    exact xorFrom_append _ _ _ _ _ _

/-- What has been written, what is in the register, and the last value: the values that have been seen once. -/
theorem xor_stream {gA gB : List Nat → List Nat} {A B : List Nat} {cap : Nat} {s : MergeSt} {W : List Nat}
    (h : MergeInv gA gB A B cap (xorFrom 65535 65535) s W) (hA : SSorted A) (hB : SSorted B) (rA : ∀ x ∈ A, x < 65536) :
    ∃ F, F = xorFrom (s.last.getD 6 0) (s.last.getD 7 0) s.vecMax ++
        (if s.vecMax.getD 7 0 = s.vecMax.getD 6 0 then [] else [s.vecMax.getD 7 0]) ∧
      SSorted (xorFrom 65535 65535 W ++ F) ∧
      (∀ x, x ∈ xorFrom 65535 65535 W ++ F ↔ ¬ (x ∈ A.take (8 * s.pos1) ↔ x ∈ B.take (8 * s.pos2))) ∧
      (∀ x ∈ xorFrom 65535 65535 W, x ∈ W) := by
  obtain ⟨w, t, hW, hw⟩ := minv_head h hA rA
  obtain ⟨W0, hW0⟩ := h.wlast
  have hs := h.sorted
  have hc : ∀ z, (W ++ s.vecMax).count z = (if z ∈ A.take (8 * s.pos1) then 1 else 0) + (if z ∈ B.take (8 * s.pos2) then 1 else 0) := by
    intro z
    rw [h.perm.count_eq, count_le_two hA hB]
  have hc2 : ∀ z, (W ++ s.vecMax).count z ≤ 2 := by
    intro z
    rw [hc]
    split <;> split <;> omega
  refine ⟨_, rfl, ?_⟩
  have e1 : xorFrom 65535 65535 W ++ (xorFrom (s.last.getD 6 0) (s.last.getD 7 0) s.vecMax ++
      (if s.vecMax.getD 7 0 = s.vecMax.getD 6 0 then [] else [s.vecMax.getD 7 0])) = sing (W ++ s.vecMax) := by
    rw [← List.append_assoc]
    have e2 : xorFrom 65535 65535 W ++ xorFrom (s.last.getD 6 0) (s.last.getD 7 0) s.vecMax = xorFrom 65535 65535 (W ++ s.vecMax) := by
      have e := split8 h.llast
      rw [show W = (W0 ++ s.last.take 6) ++ [s.last.getD 6 0, s.last.getD 7 0] by rw [List.append_assoc, ← e, ← hW0]]
      exact (xorFrom_append _ _ _ _ _ _).symm
    have e3 : fin1 65535 (W ++ s.vecMax) = if s.vecMax.getD 7 0 = s.vecMax.getD 6 0 then [] else [s.vecMax.getD 7 0] := by
      have e := split8 h.lmax
      rw [show W ++ s.vecMax = (W ++ s.vecMax.take 6) ++ [s.vecMax.getD 6 0, s.vecMax.getD 7 0] by rw [List.append_assoc, ← e]]
      exact fin1_append _ _ _ _
    rw [e2, ← e3]
    rw [hW, List.cons_append] at hs hc2 ⊢
    rw [xorFrom, if_pos (Or.inl rfl)]
    exact (xorFrom_fin (t ++ s.vecMax) w 65535 hs hc2).1 (by omega)
  obtain ⟨s1, s2⟩ := sing_spec _ hs hc2
  rw [e1]
  refine ⟨s1, fun x => ?_, ?_⟩
  · rw [s2, hc]
    by_cases h1 : x ∈ A.take (8 * s.pos1) <;> by_cases h2 : x ∈ B.take (8 * s.pos2) <;> simp [h1, h2]
  · intro x hx
    rw [hW, xorFrom, if_pos (Or.inl rfl)] at hx
    rw [hW]
    exact xorFrom_sub _ _ _ x hx

theorem uniqueXorLoop_spec (n i pos : Nat) (buf : List Nat) (hi : 1 ≤ i) (hb : i + n ≤ buf.length) (hp : pos ≤ i)
    (hs : NSorted (buf.getD (i - 1) 0 :: (buf.drop i).take n)) (hc : ∀ z, (buf.getD (i - 1) 0 :: (buf.drop i).take n).count z ≤ 2) :
    (1 ≤ pos → buf.getD (pos - 1) 0 = buf.getD (i - 1) 0 →
      ∃ buf' k, uniqueXorLoop n i pos buf = .ok (buf', k) ∧ buf'.length = buf.length ∧ k ≤ buf.length ∧
        buf'.take k = buf.take (pos - 1) ++ sing (buf.getD (i - 1) 0 :: (buf.drop i).take n)) ∧
    (buf.getD (i - 1) 0 ∉ (buf.drop i).take n →
      ∃ buf' k, uniqueXorLoop n i pos buf = .ok (buf', k) ∧ buf'.length = buf.length ∧ k ≤ buf.length ∧
        buf'.take k = buf.take pos ++ sing ((buf.drop i).take n)) := by
  induction n generalizing i pos buf with
  | zero =>
    refine ⟨fun h1 h2 => ⟨buf, pos, by simp [uniqueXorLoop], rfl, by omega, ?_⟩, fun h => ⟨buf, pos, by simp [uniqueXorLoop], rfl, by omega, ?_⟩⟩
    · rw [← h2, List.take_zero, sing, List.getD_eq_getElem?_getD, List.getElem?_eq_getElem (by omega)]
      obtain ⟨q, rfl⟩ : ∃ q, pos = q + 1 := ⟨pos - 1, by omega⟩
      rw [List.take_add_one, List.getElem?_eq_getElem (by omega)]
      rfl
    · simp [sing]
  | succ n ih =>
    have e1 : buf.getD (i - 1) 0 = buf[i - 1]'(by omega) := by
      rw [List.getD_eq_getElem?_getD, List.getElem?_eq_getElem (by omega)]; rfl
    have e0 : (buf.drop i).take (n + 1) = buf[i] :: (buf.drop (i + 1)).take n := by
      rw [List.drop_eq_getElem_cons (by omega), List.take_succ_cons]
    have ei : buf.getD i 0 = buf[i] := by rw [List.getD_eq_getElem?_getD, List.getElem?_eq_getElem (by omega)]; rfl
    rw [e1, e0] at hs hc ⊢
    have hs' := List.Pairwise.of_cons hs
    have hc' := count2_tail hc
    -- a new value is written
    have hw : buf[i] ≠ buf[i - 1]'(by omega) →
        ∃ buf' k, uniqueXorLoop (n + 1) i pos buf = .ok (buf', k) ∧ buf'.length = buf.length ∧ k ≤ buf.length ∧
          buf'.take k = buf.take pos ++ sing (buf[i] :: (buf.drop (i + 1)).take n) := by
      intro h
      rw [uniqueXorLoop, read16_eq (by omega), ok_bind, read16_eq (by omega), ok_bind, if_pos h]
      obtain ⟨b', w1, w2, w3, w4⟩ := write16_take (C := buf) (n := pos) (a := buf[i]) (by omega)
      rw [w1, ok_bind]
      have ep : b'[pos]? = some buf[i] := by
        have := congrArg (fun l => l[pos]?) w3
        simp only [List.getElem?_take, Nat.lt_succ_self, if_true] at this
        rw [this, List.getElem?_append_right (by simp; omega), List.length_take, Nat.min_eq_left (by omega), Nat.sub_self]
        rfl
      have e2 : b'.getD i 0 = buf[i] := by
        rw [List.getD_eq_getElem?_getD]
        rcases Nat.lt_or_ge pos i with h1 | h1
        · have : b'[i]? = buf[i]? := by
            have := congrArg (fun l => l[i - (pos + 1)]?) w4
            simp only [List.getElem?_drop] at this
            rw [show pos + 1 + (i - (pos + 1)) = i by omega] at this
            exact this
          rw [this, List.getElem?_eq_getElem (by omega)]; rfl
        · have hpi : pos = i := by omega
          have ep' : b'[i]? = some buf[i] := by rw [← ep, hpi]
          rw [ep']; rfl
      have e3 : b'.drop (i + 1) = buf.drop (i + 1) := drop_mono w4 (by omega)
      have := (ih (i + 1) (pos + 1) b' (by omega) (by omega) (by omega) (by rw [Nat.add_sub_cancel, e2, e3]; exact hs')
        (by rw [Nat.add_sub_cancel, e2, e3]; exact hc')).1 (by omega)
        (by rw [Nat.add_sub_cancel, Nat.add_sub_cancel, e2, List.getD_eq_getElem?_getD, ep]; rfl)
      obtain ⟨buf', k, g1, g2, g3, g4⟩ := this
      rw [Nat.add_sub_cancel, Nat.add_sub_cancel, e2, e3] at g4
      refine ⟨buf', k, g1, by omega, by omega, ?_⟩
      rw [g4]
      have := congrArg (List.take pos) w3
      rw [List.take_take, Nat.min_eq_left (by omega), List.take_append_of_le_length (by simp; omega), List.take_take, Nat.min_self] at this
      rw [this]
    refine ⟨fun h1 h2 => ?_, fun h => ?_⟩
    · by_cases hx : buf[i] = buf[i - 1]'(by omega)
      · have hx' : buf[i - 1]'(by omega) = buf[i] := hx.symm
        rw [uniqueXorLoop, read16_eq (by omega), ok_bind, read16_eq (by omega), ok_bind, if_neg (by omega), if_neg (by omega)]
        rw [hx'] at hc hs
        have := (ih (i + 1) (pos - 1) buf (by omega) (by omega) (by omega) (by rw [Nat.add_sub_cancel, ei]; exact hs')
          (by rw [Nat.add_sub_cancel, ei]; exact hc')).2 (by rw [Nat.add_sub_cancel, ei]; exact not_mem_of_twice hc)
        obtain ⟨buf', k, g1, g2, g3, g4⟩ := this
        refine ⟨buf', k, g1, g2, g3, ?_⟩
        rw [g4, sing, if_pos hx']
      · obtain ⟨buf', k, g1, g2, g3, g4⟩ := hw hx
        refine ⟨buf', k, g1, g2, g3, ?_⟩
        rw [g4, sing, if_neg (Ne.symm hx)]
        obtain ⟨q, rfl⟩ : ∃ q, pos = q + 1 := ⟨pos - 1, by omega⟩
        rw [Nat.add_sub_cancel, List.take_add_one]
        rw [Nat.add_sub_cancel, List.getD_eq_getElem?_getD, List.getElem?_eq_getElem (by omega)] at h2
        rw [List.getElem?_eq_getElem (by omega)]
        have h2' : buf[q]'(by omega) = buf[i - 1]'(by omega) := h2
        rw [h2']
        simp
    · exact hw (fun e => h (e ▸ List.mem_cons_self))

theorem uniqueXor16_spec {buf : List Nat} {len : Nat} (h1 : 1 ≤ len) (h2 : len ≤ buf.length) (hs : NSorted (buf.take len))
    (hc : ∀ z, (buf.take len).count z ≤ 2) :
    ∃ buf' k, uniqueXor16 buf len = .ok (buf', k) ∧ buf'.take k = sing (buf.take len) := by
  cases buf with
  | nil => simp at h2; omega
  | cons x t =>
    obtain ⟨len, rfl⟩ : ∃ k, len = k + 1 := ⟨len - 1, by omega⟩
    rw [List.take_succ_cons] at hs hc ⊢
    obtain ⟨b', k, g1, g2, g3, g4⟩ := (uniqueXorLoop_spec len 1 1 (x :: t) (by omega) (by simpa [Nat.add_comm] using h2) (by omega)
      (by simpa using hs) (by simpa using hc)).1 (by omega) rfl
    exact ⟨b', k, by rw [uniqueXor16, Nat.add_sub_cancel, g1], by simpa using g4⟩

theorem xorU16_nil_left (bs : List Nat) : xorU16 [] bs = bs := by
  cases bs <;> simp [xorU16]

/-- The end of `xor_vector16`. -/
theorem xorEnd_spec {A B : List Nat} {i j left n : Nat} {buffer mem F : List Nat} (hA : SSorted A) (hB : SSorted B) (hi : i ≤ A.length)
    (hj : j ≤ B.length) (hb : buffer.length = 17) (hF : buffer.take left = F) (hl : left = F.length) (h9 : left ≤ 9)
    (hk : A.length - i < 8) (hFs : SSorted F) :
    ∃ U, SSorted U ∧ (∀ x, x ∈ U ↔ ¬ (x ∈ F ↔ x ∈ A.drop i)) ∧ (n + (xorU16 U (B.drop j)).length ≤ mem.length →
      ∃ mem', xorEnd A B i (A.length - i) j buffer left mem n = .ok (mem', n + (xorU16 U (B.drop j)).length) ∧
      mem'.length = mem.length ∧ mem'.take (n + (xorU16 U (B.drop j)).length) = mem.take n ++ xorU16 U (B.drop j)) := by
  have hTl : (A.drop i).length = A.length - i := List.length_drop ..
  have hTs : SSorted (A.drop i) := hA.sublist (List.drop_sublist _ _)
  have hr : readN A i (A.length - i) = .ok (A.drop i) := hTl ▸ readN_tail ⟨rfl, rfl⟩ hi
  obtain ⟨b1, s1, s2, s3, _⟩ := storeu_take (C := buffer) (n := left) (F := A.drop i) (Z := []) (by simp; omega)
  rw [List.append_nil] at s1
  rw [hF, hTl] at s3
  by_cases h0 : left + (A.length - i) = 0
  · refine ⟨[], List.Pairwise.nil, ?_, fun hroom => ?_⟩
    · have hF0 : F = [] := List.length_eq_zero_iff.1 (by omega)
      have hT0 : A.drop i = [] := List.length_eq_zero_iff.1 (by omega)
      rw [hF0, hT0]
      simp
    · rw [xorU16_nil_left] at hroom ⊢
      obtain ⟨m', t1, t2, t3, _⟩ := storeu_take (C := mem) (n := n) (F := B.drop j) (Z := []) (by simpa using hroom)
      rw [List.append_nil] at t1
      refine ⟨m', ?_, t2, t3⟩
      rw [xorEnd, hr, ok_bind, s1, ok_bind, if_pos h0, t1, ok_bind, List.length_drop]
  · obtain ⟨q1, q2, q3⟩ := qsort16_spec b1 (left + (A.length - i)) (by omega)
    rw [s3] at q3
    have hcF : ∀ {L : List Nat}, SSorted L → ∀ z, L.count z = if z ∈ L then 1 else 0 := by
      intro L hL z
      rw [(sorted_nodup hL).count]
    have hcc : ∀ z, ((qsort16 b1 (left + (A.length - i))).take (left + (A.length - i))).count z =
        (if z ∈ F then 1 else 0) + (if z ∈ A.drop i then 1 else 0) := by
      intro z
      rw [q3.count_eq, List.count_append, hcF hFs, hcF hTs]
    have hc2 : ∀ z, ((qsort16 b1 (left + (A.length - i))).take (left + (A.length - i))).count z ≤ 2 := by
      intro z
      rw [hcc]
      split <;> split <;> omega
    obtain ⟨b2, k, u1, u2⟩ := uniqueXor16_spec (buf := qsort16 b1 (left + (A.length - i))) (len := left + (A.length - i)) (by omega) (by omega) q2 hc2
    obtain ⟨g1, g2⟩ := sing_spec _ q2 hc2
    refine ⟨_, g1, ?_, fun hroom => ?_⟩
    · intro x
      rw [g2, hcc]
      by_cases h1 : x ∈ F <;> by_cases h2 : x ∈ A.drop i <;> simp [h1, h2]
    · obtain ⟨m', t1, t2, t3, _⟩ := storeu_take (C := mem) (n := n)
        (F := xorU16 (sing ((qsort16 b1 (left + (A.length - i))).take (left + (A.length - i)))) (B.drop j)) (Z := []) (by simpa using hroom)
      rw [List.append_nil] at t1
      refine ⟨m', ?_, t2, t3⟩
      rw [xorEnd, hr, ok_bind, s1, ok_bind, if_neg h0, u1, ok_bind]
      simp only
      rw [u2, t1, ok_bind]

theorem drop_take_excl {A : List Nat} (hA : SSorted A) {i x : Nat} (h : x ∈ A.take i) : x ∉ A.drop i := by
  intro h2
  have := List.take_append_drop i A
  rw [← this] at hA
  exact Nat.lt_irrefl _ ((List.pairwise_append.1 hA).2.2 x h x h2)

theorem xor_assemble {A B E F U : List Nat} {i j : Nat} (hA : SSorted A) (hB : SSorted B) (hEF : SSorted (E ++ F))
    (hm : ∀ x, x ∈ E ++ F ↔ ¬ (x ∈ A.take i ↔ x ∈ B.take j))
    (ltA : ∀ w ∈ E, ∀ z ∈ A.drop i, w < z) (ltB : ∀ w ∈ E, ∀ z ∈ B.drop j, w < z) (hU : SSorted U)
    (hUm : ∀ x, x ∈ U ↔ ¬ (x ∈ F ↔ x ∈ A.drop i)) : E ++ xorU16 U (B.drop j) = xorU16 A B := by
  have hE : SSorted E := hEF.sublist (List.sublist_append_left _ _)
  have hRs : SSorted (B.drop j) := hB.sublist (List.drop_sublist _ _)
  have ltE : ∀ x ∈ E, x ∉ F ∧ x ∉ A.drop i ∧ x ∉ B.drop j := fun x hx =>
    ⟨fun h => Nat.lt_irrefl _ ((List.pairwise_append.1 hEF).2.2 x hx x h), fun h => Nat.lt_irrefl _ (ltA x hx x h),
      fun h => Nat.lt_irrefl _ (ltB x hx x h)⟩
  apply sorted_unique
  · refine sorted_append hE (xorU16_sorted hU hRs) ?_
    intro x hx y hy
    rw [mem_xorU16 hU hRs, hUm] at hy
    by_cases h1 : y ∈ F
    · exact (List.pairwise_append.1 hEF).2.2 x hx y h1
    · by_cases h2 : y ∈ A.drop i
      · exact ltA x hx y h2
      · by_cases h3 : y ∈ B.drop j
        · exact ltB x hx y h3
        · exact absurd hy (by simp [h1, h2, h3])
  · exact xorU16_sorted hA hB
  · intro x
    rw [List.mem_append, mem_xorU16 hU hRs, mem_xorU16 hA hB, hUm]
    have h1 := hm x
    rw [List.mem_append] at h1
    have h2 : x ∈ A ↔ x ∈ A.take i ∨ x ∈ A.drop i := ⟨fun h => mem_take_or_drop i h, fun h => h.elim List.mem_of_mem_take List.mem_of_mem_drop⟩
    have h3 : x ∈ B ↔ x ∈ B.take j ∨ x ∈ B.drop j := ⟨fun h => mem_take_or_drop j h, fun h => h.elim List.mem_of_mem_take List.mem_of_mem_drop⟩
    have h4 : x ∈ A.take i → x ∉ A.drop i := drop_take_excl hA
    have h5 : x ∈ B.take j → x ∉ B.drop j := drop_take_excl hB
    have h6 := ltE x
    rw [h2, h3]
    generalize (x ∈ A.take i) = a at *
    generalize (x ∈ A.drop i) = a' at *
    generalize (x ∈ B.take j) = b at *
    generalize (x ∈ B.drop j) = b' at *
    generalize (x ∈ E) = e at *
    generalize (x ∈ F) = f at *
    by_cases ha : a <;> by_cases ha' : a' <;> by_cases hb : b <;> by_cases hb' : b' <;> by_cases he : e <;> by_cases hf : f <;> simp_all

theorem xorU16_comm {A B : List Nat} (hA : SSorted A) (hB : SSorted B) : xorU16 A B = xorU16 B A := by
  apply sorted_unique (xorU16_sorted hA hB) (xorU16_sorted hB hA)
  intro x
  rw [mem_xorU16 hA hB, mem_xorU16 hB hA]
  exact not_congr iff_comm

theorem xorU16_length (A B : List Nat) : (xorU16 A B).length ≤ A.length + B.length := by
  fun_induction xorU16 A B <;> simp_all <;> omega

/-- `xor_vector16`. -/
theorem xorVector16_spec {A B mem : List Nat} (hA : SSorted A) (hB : SSorted B) (rA : ∀ x ∈ A, x < 65536)
    (hcap : A.length + B.length ≤ mem.length) :
    ∃ mem', xorVector16 A B mem = .ok (mem', (xorU16 A B).length) ∧ mem'.length = mem.length ∧
      mem'.take (xorU16 A B).length = xorU16 A B := by
  have hxl := xorU16_length A B
  rw [xorVector16]
  by_cases h8 : A.length < 8 ∨ B.length < 8
  · rw [if_pos h8]
    obtain ⟨m', t1, t2, t3, _⟩ := storeu_take (C := mem) (n := 0) (F := xorU16 A B) (Z := []) (by simp; omega)
    rw [List.append_nil] at t1
    exact ⟨m', by rw [t1, ok_bind], t2, by simpa using t3⟩
  · rw [if_neg h8]
    obtain ⟨s, W, e, hI, hend⟩ := mergeVec_spec stores_xor hA hB (view_const A _) (view_const B _) hcap rfl rfl rfl (by omega) (by omega)
    obtain ⟨F, f1, f2, f3, f4⟩ := xor_stream hI hA hB rA
    obtain ⟨u1, u2⟩ := storeUniqueXor_spec hI.llast hI.lmax
    have hGl : (xorFrom (s.last.getD 6 0) (s.last.getD 7 0) s.vecMax).length ≤ 8 := hI.lmax ▸ xorFrom_length _ _ _
    have ha8 := hI.a8
    have hb8 := hI.b8
    have hmem := hI.mlen
    generalize hGd : xorFrom (s.last.getD 6 0) (s.last.getD 7 0) s.vecMax = G at f1 u1 u2 hGl
    obtain ⟨bf, c1, c2, c3, _⟩ := storeu_take (C := List.replicate 17 0) (n := 0) (F := G) (Z := List.replicate (8 - G.length) 0)
      (by simp; omega)
    have hbl : bf.length = 17 := by rw [c2]; simp
    have hbF : bf.take G.length = G := by simpa using c3
    rw [e, ok_bind]
    simp only
    rw [u1, u2, c1, ok_bind]
    obtain ⟨b, hbe, hb1, hb2, hb3, hb4⟩ : ∃ b : List Nat × Nat, xorLast s.vecMax bf G.length = .ok b ∧ b.1.length = 17 ∧ b.1.take b.2 = F ∧ b.2 = F.length ∧ b.2 ≤ 9 := by
      rw [xorLast]
      by_cases hv : s.vecMax.getD 7 0 = s.vecMax.getD 6 0
      · rw [if_neg (by simpa using hv)]
        rw [if_pos hv, List.append_nil] at f1
        subst f1
        exact ⟨_, rfl, hbl, hbF, rfl, by omega⟩
      · rw [if_pos hv]
        rw [if_neg hv] at f1
        obtain ⟨b', w1, w2, w3, _⟩ := write16_take (C := bf) (n := G.length) (a := s.vecMax.getD 7 0) (by omega)
        refine ⟨(b', G.length + 1), by rw [w1, ok_bind], by simp only; omega, ?_, by rw [f1]; simp, by simp only; omega⟩
        simp only
        rw [w3, hbF, f1]
    have hF2 : SSorted F := f2.sublist (List.sublist_append_right _ _)
    have hfin : ∀ (b : List Nat × Nat), b.1.length = 17 → b.1.take b.2 = F → b.2 = F.length → b.2 ≤ 9 → ∃ mem',
        (if s.pos1 = A.length / 8 then xorEnd A B (8 * s.pos1) (A.length - 8 * (A.length / 8)) (8 * s.pos2) b.1 b.2 s.mem s.n
        else xorEnd B A (8 * s.pos2) (B.length - 8 * (B.length / 8)) (8 * s.pos1) b.1 b.2 s.mem s.n) = .ok (mem', (xorU16 A B).length) ∧
        mem'.length = mem.length ∧ mem'.take (xorU16 A B).length = xorU16 A B := by
      intro b hb1 hb2 hb3 hb4
      by_cases hc : s.pos1 = A.length / 8
      · rw [if_pos hc]
        obtain ⟨U, k1, k2, k3⟩ := xorEnd_spec (n := s.n) (mem := s.mem) hA hB ha8 hb8 hb1 hb2 hb3 hb4 (by omega) hF2
        have hu := xor_assemble hA hB f2 f3 (fun w hw => hI.ltA w (f4 w hw)) (fun w hw => hI.ltB w (f4 w hw)) k1 k2
        have hlen := congrArg List.length hu
        rw [List.length_append, ← hI.nlen] at hlen
        obtain ⟨m', k4, k5, k6⟩ := k3 (by omega)
        rw [hlen] at k4 k6
        rw [show A.length - 8 * (A.length / 8) = A.length - 8 * s.pos1 by omega]
        exact ⟨m', k4, by omega, by rw [k6, hI.out, hu]⟩
      · rw [if_neg hc]
        obtain ⟨U, k1, k2, k3⟩ := xorEnd_spec (n := s.n) (mem := s.mem) hB hA hb8 ha8 hb1 hb2 hb3 hb4 (by omega) hF2
        have hu := xor_assemble hB hA f2 (fun x => (f3 x).trans (not_congr iff_comm)) (fun w hw => hI.ltB w (f4 w hw))
          (fun w hw => hI.ltA w (f4 w hw)) k1 k2
        rw [xorU16_comm hB hA] at hu
        have hlen := congrArg List.length hu
        rw [List.length_append, ← hI.nlen] at hlen
        obtain ⟨m', k4, k5, k6⟩ := k3 (by omega)
        rw [hlen] at k4 k6
        rw [show B.length - 8 * (B.length / 8) = B.length - 8 * s.pos2 by omega]
        exact ⟨m', k4, by omega, by rw [k6, hI.out, hu]⟩
    obtain ⟨m', r1, r2, r3⟩ := hfin b hb1 hb2 hb3 hb4
    refine ⟨m', ?_, r2, r3⟩
    rw [hbe, ok_bind, ← r1]

end CRoaring
