import Verif.Lemmas.Simd6
set_option linter.unusedSimpArgs false
set_option linter.unusedVariables false
/-
`union_vector16`.
-/
namespace CRoaring
open Spec

/-! ### Leaving out repeated values -/

theorem dedupFrom_sorted {p : Nat} {l : List Nat} (h : NSorted (p :: l)) : SSorted (p :: dedupFrom p l) := by
  induction l generalizing p with
  | nil => simp [dedupFrom, SSorted]
  | cons x t ih =>
    obtain ⟨h1, h2⟩ := List.pairwise_cons.1 h
    have ih := ih h2
    rw [dedupFrom]
    by_cases hx : x = p
    · rw [if_pos hx]; subst hx; exact ih
    · rw [if_neg hx]
      have hpx := h1 x List.mem_cons_self
      refine List.pairwise_cons.2 ⟨?_, ih⟩
      intro y hy
      rcases List.mem_cons.1 hy with rfl | hy
      · omega
      · have := (List.pairwise_cons.1 ih).1 y hy
        omega

theorem mem_dedupFrom {p : Nat} {l : List Nat} (h : NSorted (p :: l)) (x : Nat) : x ∈ dedupFrom p l ↔ x ∈ l ∧ x ≠ p := by
  induction l generalizing p with
  | nil => simp [dedupFrom]
  | cons y t ih =>
    obtain ⟨h1, h2⟩ := List.pairwise_cons.1 h
    have ih := ih h2
    have hs := dedupFrom_sorted h2
    have hpy := h1 y List.mem_cons_self
    rw [dedupFrom]
    by_cases hy : y = p
    · rw [if_pos hy, ih, List.mem_cons]
      subst hy
      constructor
      · rintro ⟨a, b⟩; exact ⟨Or.inr a, b⟩
      · rintro ⟨a, b⟩; exact ⟨a.resolve_left b, b⟩
    · rw [if_neg hy, List.mem_cons, ih, List.mem_cons]
      constructor
      · rintro (rfl | ⟨a, b⟩)
        · exact ⟨Or.inl rfl, hy⟩
        · have := (List.pairwise_cons.1 h2).1 x a
          exact ⟨Or.inr a, by omega⟩
      · rintro ⟨rfl | a, b⟩
        · exact Or.inl rfl
        · by_cases e : x = y
          · exact Or.inl e
          · exact Or.inr ⟨a, e⟩

/-- Without repetitions. -/
def dd : List Nat → List Nat
  | [] => []
  | x :: t => x :: dedupFrom x t

theorem dd_sorted {l : List Nat} (h : NSorted l) : SSorted (dd l) := by
  cases l with
  | nil => exact List.Pairwise.nil
  | cons x t => exact dedupFrom_sorted h

theorem mem_dd {l : List Nat} (h : NSorted l) (x : Nat) : x ∈ dd l ↔ x ∈ l := by
  cases l with
  | nil => simp [dd]
  | cons y t =>
    rw [dd, List.mem_cons, List.mem_cons, mem_dedupFrom h]
    constructor
    · rintro (rfl | ⟨a, _⟩)
      · exact Or.inl rfl
      · exact Or.inr a
    · rintro (rfl | a)
      · exact Or.inl rfl
      · by_cases e : x = y
        · exact Or.inl e
        · exact Or.inr ⟨a, e⟩

theorem dd_length (l : List Nat) : (dd l).length ≤ l.length := by
  cases l with
  | nil => simp [dd]
  | cons x t => rw [dd]; have := dedupFrom_length x t; simp; omega

theorem uniqueLoop_spec (n i pos : Nat) (buf : List Nat) (hi : 1 ≤ i) (hb : i + n ≤ buf.length) (hp : pos ≤ i) :
    ∃ buf', uniqueLoop n i pos buf = .ok (buf', pos + (dedupFrom (buf.getD (i - 1) 0) ((buf.drop i).take n)).length) ∧
      buf'.length = buf.length ∧
      buf'.take (pos + (dedupFrom (buf.getD (i - 1) 0) ((buf.drop i).take n)).length) =
        buf.take pos ++ dedupFrom (buf.getD (i - 1) 0) ((buf.drop i).take n) := by
  induction n generalizing i pos buf with
  | zero => exact ⟨buf, by simp [uniqueLoop, dedupFrom], rfl, by simp [dedupFrom]⟩
  | succ n ih =>
    have e1 : buf.getD (i - 1) 0 = buf[i - 1]'(by omega) := by
      rw [List.getD_eq_getElem?_getD, List.getElem?_eq_getElem (by omega)]; rfl
    rw [uniqueLoop, read16_eq (by omega), ok_bind, read16_eq (by omega), ok_bind, e1, List.drop_eq_getElem_cons (by omega),
      List.take_succ_cons, dedupFrom]
    by_cases h : buf[i] = buf[i - 1]'(by omega)
    · rw [if_neg (by omega), if_pos h]
      have := ih (i + 1) pos buf (by omega) (by omega) (by omega)
      rw [show i + 1 - 1 = i by omega, List.getD_eq_getElem?_getD, List.getElem?_eq_getElem (by omega)] at this
      exact this
    · rw [if_pos h, if_neg h]
      obtain ⟨b', w1, w2, w3, w4⟩ := write16_take (C := buf) (n := pos) (a := buf[i]) (by omega)
      rw [w1, ok_bind]
      obtain ⟨buf', g1, g2, g3⟩ := ih (i + 1) (pos + 1) b' (by omega) (by omega) (by omega)
      have e2 : b'.getD (i + 1 - 1) 0 = buf[i] := by
        rw [show i + 1 - 1 = i by omega, List.getD_eq_getElem?_getD]
        rcases Nat.lt_or_ge pos i with h1 | h1
        · have : b'[i]? = buf[i]? := by
            have := congrArg (fun l => l[i - (pos + 1)]?) w4
            simp only [List.getElem?_drop] at this
            rw [show pos + 1 + (i - (pos + 1)) = i by omega] at this
            exact this
          rw [this, List.getElem?_eq_getElem (by omega)]; rfl
        · have hpi : pos = i := by omega
          subst hpi
          have : b'[pos]? = some buf[pos] := by
            have := congrArg (fun l => l[pos]?) w3
            simp only [List.getElem?_take, Nat.lt_succ_self, if_true] at this
            rw [this, List.getElem?_append_right (by simp; omega), List.length_take, Nat.min_eq_left (by omega), Nat.sub_self]
            rfl
          rw [this]; rfl
      have e3 : b'.drop (i + 1) = buf.drop (i + 1) := drop_mono w4 (by omega)
      rw [e2, e3] at g1 g3
      refine ⟨buf', ?_, by omega, ?_⟩
      · rw [g1, List.length_cons]
        congr 2; omega
      · rw [List.length_cons, show ∀ k, pos + (k + 1) = pos + 1 + k from fun k => by omega, g3, w3]
        simp

theorem unique16_spec {buf : List Nat} {len : Nat} (h1 : 1 ≤ len) (h2 : len ≤ buf.length) :
    ∃ buf', unique16 buf len = .ok (buf', (dd (buf.take len)).length) ∧ buf'.length = buf.length ∧
      buf'.take (dd (buf.take len)).length = dd (buf.take len) := by
  cases buf with
  | nil => simp at h2; omega
  | cons x t =>
    obtain ⟨len, rfl⟩ : ∃ k, len = k + 1 := ⟨len - 1, by omega⟩
    obtain ⟨b', g1, g2, g3⟩ := uniqueLoop_spec len 1 1 (x :: t) (by omega) (by simpa [Nat.add_comm] using h2) (by omega)
    refine ⟨b', ?_, g2, ?_⟩
    · rw [unique16, show len + 1 - 1 = len by omega, g1]
      simp [dd]; omega
    · rw [List.take_succ_cons, dd, List.length_cons, Nat.add_comm]
      simpa using g3

theorem qsort16_spec (buf : List Nat) (len : Nat) (h : len ≤ buf.length) :
    (qsort16 buf len).length = buf.length ∧ NSorted ((qsort16 buf len).take len) ∧
      ((qsort16 buf len).take len).Perm (buf.take len) := by
  have hl : ((buf.take len).mergeSort (fun a b => decide (a ≤ b))).length = len := by
    rw [List.length_mergeSort, List.length_take]; omega
  have e : (qsort16 buf len).take len = (buf.take len).mergeSort (fun a b => decide (a ≤ b)) := by
    rw [qsort16, List.take_append, List.take_of_length_le (by omega), hl, Nat.sub_self, List.take_zero, List.append_nil]
  refine ⟨?_, ?_, ?_⟩
  · rw [qsort16, List.length_append, hl, List.length_drop]; omega
  · rw [e]
    have := List.pairwise_mergeSort (le := fun a b : Nat => decide (a ≤ b)) (by intro a b c; simp; omega) (by intro a b; simp; omega)
      (buf.take len)
    exact this.imp (fun h => by simpa using h)
  · rw [e]; exact List.mergeSort_perm _ _

/-! ### `union_uint16` on memory -/

/-- The values of `g` from index `i` on are those of `S`. -/
def Win (g S : List Nat) (i : Nat) : Prop := ∀ k, i ≤ k → k < S.length → g[k]? = S[k]?

theorem win_mono {g S : List Nat} {i j : Nat} (h : Win g S i) (hij : i ≤ j) : Win g S j := fun k hk => h k (by omega)

theorem win_read {g S : List Nat} {i k : Nat} (h : Win g S i) (hik : i ≤ k) (hk : k < S.length) : read16 g k = .ok (S[k]) := by
  rw [read16, h k hik hk, List.getElem?_eq_getElem hk]

theorem win_readN {g S : List Nat} {i : Nat} (h : Win g S i) (hi : i < S.length) : readN g i (S.length - i) = .ok (S.drop i) := by
  have hl : S.length ≤ g.length := by
    have := h (S.length - 1) (by omega) (by omega)
    rw [List.getElem?_eq_getElem (by omega : S.length - 1 < S.length)] at this
    have := (List.getElem?_eq_some_iff.1 this).1
    omega
  rw [readN, if_pos (by omega)]
  congr 1
  apply List.ext_getElem?
  intro k
  rw [List.getElem?_take, List.getElem?_drop, List.getElem?_drop]
  by_cases hk : k < S.length - i
  · rw [if_pos hk, h (i + k) (by omega) (by omega)]
  · rw [if_neg hk, List.getElem?_eq_none (by omega)]

theorem win_view {g : List Nat → List Nat} {o i : Nat} {S m m' : List Nat} (hv : View g o) (hl : m'.length = m.length)
    (hd : m'.drop (o + i) = m.drop (o + i)) (h : Win (g m) S i) : Win (g m') S i := by
  intro k hk hS
  have := (hv m m' i hl hd).2
  have := congrArg (fun l => l[k - i]?) this
  simp only [List.getElem?_drop, show i + (k - i) = k by omega] at this
  rw [this, h k hk hS]

theorem unionU16_nil_left (bs : List Nat) : unionU16 [] bs = bs := by cases bs <;> simp [unionU16]

theorem unionLoop_spec {g1 g2 : List Nat → List Nat} {S1 S2 : List Nat} {o1 o2 base cap : Nat} {T : List Nat}
    (v1 : View g1 o1) (v2 : View g2 o2) (h1 : base + S2.length ≤ o1) (h2 : base + S1.length ≤ o2)
    (hcap : base + S1.length + S2.length ≤ cap)
    (fuel i j a b pos : Nat) (mem E : List Nat) (hi : i < S1.length) (hj : j < S2.length) (ea : a = S1[i]) (eb : b = S2[j])
    (w1 : Win (g1 mem) S1 i) (w2 : Win (g2 mem) S2 j) (hm : mem.length = cap) (hE : mem.take pos = E) (hn : pos = E.length)
    (hp : pos ≤ base + i + j) (hT : E ++ unionU16 (S1.drop i) (S2.drop j) = T)
    (hf : (S1.length - i) + (S2.length - j) < fuel) :
    ∃ i' j' pos' mem' E', unionMemLoop g1 g2 S1.length S2.length fuel i j a b pos mem = .ok (i', j', pos', mem') ∧
      (S1.length ≤ i' ∨ S2.length ≤ j') ∧ i' ≤ S1.length ∧ j' ≤ S2.length ∧ Win (g1 mem') S1 i' ∧ Win (g2 mem') S2 j' ∧ mem'.length = cap ∧
      mem'.take pos' = E' ∧ pos' = E'.length ∧ pos' ≤ base + i' + j' ∧ E' ++ unionU16 (S1.drop i') (S2.drop j') = T := by
  induction fuel generalizing i j a b pos mem E with
  | zero => omega
  | succ fuel ih =>
    rw [unionMemLoop]
    have hstep : ∀ v, ∃ m', write16 mem pos v = .ok m' ∧ m'.length = cap ∧ m'.take (pos + 1) = E ++ [v] ∧ Win (g1 m') S1 i ∧
        Win (g2 m') S2 j := by
      intro v
      obtain ⟨m', s1, s2, s3, s4⟩ := write16_take (C := mem) (n := pos) (a := v) (by omega)
      exact ⟨m', s1, by omega, by rw [s3, hE], win_view v1 s2 (drop_mono s4 (by omega)) w1, win_view v2 s2 (drop_mono s4 (by omega)) w2⟩
    rw [List.drop_eq_getElem_cons hi, List.drop_eq_getElem_cons hj, unionU16, ← ea, ← eb] at hT
    by_cases c1 : a < b
    · rw [if_pos c1] at hT ⊢
      obtain ⟨m', s1, s2, s3, x1, x2⟩ := hstep a
      rw [s1, ok_bind]
      have hT' : (E ++ [a]) ++ unionU16 (S1.drop (i + 1)) (S2.drop j) = T := by
        rw [← hT, List.drop_eq_getElem_cons hj, eb]; simp
      by_cases c3 : S1.length ≤ i + 1
      · rw [if_pos c3]
        exact ⟨_, _, _, _, _, rfl, Or.inl c3, by omega, by omega, win_mono x1 (by omega), x2, s2, s3, by simp [hn], by omega, hT'⟩
      · rw [if_neg c3, win_read x1 (by omega) (by omega), ok_bind]
        exact ih (i + 1) j _ b (pos + 1) m' (E ++ [a]) (by omega) hj rfl eb (win_mono x1 (by omega)) x2 s2 s3 (by simp [hn]) (by omega) hT' (by omega)
    · rw [if_neg c1] at hT ⊢
      by_cases c2 : b < a
      · rw [if_pos c2] at hT ⊢
        obtain ⟨m', s1, s2, s3, x1, x2⟩ := hstep b
        rw [s1, ok_bind]
        have hT' : (E ++ [b]) ++ unionU16 (S1.drop i) (S2.drop (j + 1)) = T := by
          rw [← hT, List.drop_eq_getElem_cons hi, ea]; simp
        by_cases c3 : S2.length ≤ j + 1
        · rw [if_pos c3]
          exact ⟨_, _, _, _, _, rfl, Or.inr c3, by omega, by omega, x1, win_mono x2 (by omega), s2, s3, by simp [hn], by omega, hT'⟩
        · rw [if_neg c3, win_read x2 (by omega) (by omega), ok_bind]
          exact ih i (j + 1) a _ (pos + 1) m' (E ++ [b]) hi (by omega) ea rfl x1 (win_mono x2 (by omega)) s2 s3 (by simp [hn]) (by omega) hT' (by omega)
      · rw [if_neg c2] at hT ⊢
        obtain ⟨m', s1, s2, s3, x1, x2⟩ := hstep a
        rw [s1, ok_bind]
        have hT' : (E ++ [a]) ++ unionU16 (S1.drop (i + 1)) (S2.drop (j + 1)) = T := by
          rw [← hT]; simp
        by_cases c3 : S1.length ≤ i + 1 ∨ S2.length ≤ j + 1
        · rw [if_pos c3]
          exact ⟨_, _, _, _, _, rfl, by omega, by omega, by omega, win_mono x1 (by omega), win_mono x2 (by omega), s2, s3, by simp [hn], by omega, hT'⟩
        · rw [if_neg c3, win_read x1 (by omega) (by omega), ok_bind, win_read x2 (by omega) (by omega), ok_bind]
          exact ih (i + 1) (j + 1) _ _ (pos + 1) m' (E ++ [a]) (by omega) (by omega) rfl rfl (win_mono x1 (by omega))
            (win_mono x2 (by omega)) s2 s3 (by simp [hn]) (by omega) hT' (by omega)

/-- `union_uint16`, where the output may begin in front of an input. -/
theorem unionMem_spec {g1 g2 : List Nat → List Nat} {S1 S2 mem : List Nat} {o1 o2 base : Nat}
    (v1 : View g1 o1) (v2 : View g2 o2) (h1 : base + S2.length ≤ o1) (h2 : base + S1.length ≤ o2)
    (hcap : base + S1.length + S2.length ≤ mem.length) (w1 : Win (g1 mem) S1 0) (w2 : Win (g2 mem) S2 0) :
    ∃ mem', unionMem g1 g2 S1.length S2.length mem base = .ok (mem', (unionU16 S1 S2).length) ∧ mem'.length = mem.length ∧
      mem'.take (base + (unionU16 S1 S2).length) = mem.take base ++ unionU16 S1 S2 := by
  have hcopy : ∀ (m S : List Nat) (p : Nat), p + S.length ≤ m.length → ∃ m', storeu m p S = .ok m' ∧ m'.length = m.length ∧
      m'.take (p + S.length) = m.take p ++ S := by
    intro m S p hp
    obtain ⟨m', s1, s2, s3, _⟩ := storeu_take (C := m) (n := p) (F := S) (Z := []) (by simpa using hp)
    exact ⟨m', by simpa using s1, s2, s3⟩
  rw [unionMem]
  by_cases c2 : S2.length = 0
  · have e2 : S2 = [] := List.length_eq_zero_iff.1 c2
    subst e2
    rw [if_pos c2]
    have er : readN (g1 mem) 0 S1.length = .ok S1 := by
      by_cases c : S1.length = 0
      · rw [List.length_eq_zero_iff.1 c]; simp [readN]
      · have := win_readN w1 (by omega)
        simpa using this
    obtain ⟨m', s1, s2, s3⟩ := hcopy mem S1 base (by simpa using hcap)
    rw [er, ok_bind, s1, ok_bind]
    have : unionU16 S1 [] = S1 := by cases S1 <;> simp [unionU16]
    rw [this]
    exact ⟨m', rfl, s2, s3⟩
  · rw [if_neg c2]
    by_cases c1 : S1.length = 0
    · have e1 : S1 = [] := List.length_eq_zero_iff.1 c1
      subst e1
      have er : readN (g2 mem) 0 S2.length = .ok S2 := by
        have := win_readN w2 (by omega)
        simpa using this
      obtain ⟨m', s1, s2, s3⟩ := hcopy mem S2 base (by simpa using hcap)
      rw [if_pos c1, er, ok_bind, s1, ok_bind, unionU16_nil_left]
      exact ⟨m', rfl, s2, s3⟩
    · rw [if_neg c1, win_read w1 (Nat.le_refl 0) (by omega), ok_bind, win_read w2 (Nat.le_refl 0) (by omega), ok_bind]
      have hbl : (mem.take base).length = base := by rw [List.length_take]; omega
      obtain ⟨i', j', pos', mem', E', e, k1, k2, k3, k4, k5, k6, k7, k8, k9, k10⟩ := unionLoop_spec (T := mem.take base ++ unionU16 S1 S2)
        v1 v2 h1 h2 hcap (S1.length + S2.length + 1) 0 0 _ _ base mem (mem.take base) (by omega) (by omega) rfl rfl w1 w2 rfl rfl
        (by omega) (by omega) (by simp) (by omega)
      have hlen := congrArg List.length k10
      rw [List.length_append, List.length_append, hbl] at hlen
      rw [e, ok_bind]
      simp only
      by_cases c3 : i' < S1.length
      · have hj : S2.drop j' = [] := List.drop_eq_nil_of_le (by omega)
        have hu : unionU16 (S1.drop i') [] = S1.drop i' := by cases S1.drop i' <;> simp [unionU16]
        rw [hj, hu] at k10 hlen
        obtain ⟨m', s1, s2, s3⟩ := hcopy mem' (S1.drop i') pos' (by rw [List.length_drop]; omega)
        rw [List.length_drop] at s3 hlen
        rw [if_pos c3, win_readN k4 c3, ok_bind, s1, ok_bind]
        refine ⟨m', ?_, by omega, ?_⟩
        · rw [show pos' + (S1.length - i') - base = (unionU16 S1 S2).length by omega]
        · rw [show base + (unionU16 S1 S2).length = pos' + (S1.length - i') by omega, s3, k7, k10]
      · rw [if_neg c3]
        have hi : S1.drop i' = [] := List.drop_eq_nil_of_le (by omega)
        rw [hi, unionU16_nil_left] at k10 hlen
        by_cases c4 : j' < S2.length
        · obtain ⟨m', s1, s2, s3⟩ := hcopy mem' (S2.drop j') pos' (by rw [List.length_drop]; omega)
          rw [List.length_drop] at s3 hlen
          rw [if_pos c4, win_readN k5 c4, ok_bind, s1, ok_bind]
          refine ⟨m', ?_, by omega, ?_⟩
          · rw [show pos' + (S2.length - j') - base = (unionU16 S1 S2).length by omega]
          · rw [show base + (unionU16 S1 S2).length = pos' + (S2.length - j') by omega, s3, k7, k10]
        · rw [if_neg c4]
          rw [List.drop_eq_nil_of_le (by omega), List.length_nil] at hlen
          rw [List.drop_eq_nil_of_le (by omega), List.append_nil] at k10
          refine ⟨mem', ?_, by omega, ?_⟩
          · rw [show pos' - base = (unionU16 S1 S2).length by omega]
          · rw [show base + (unionU16 S1 S2).length = pos' by omega, k7, k10]

end CRoaring
