import Verif.Model.ArrayMem
import Verif.Lemmas.Simd9
set_option linter.unusedSimpArgs false
set_option linter.unusedVariables false
/-
The scalar array routines on memory, with the output on top of an input.
-/
namespace CRoaring
open Spec

theorem intersectU16_nil_left (bs : List Nat) : intersectU16 [] bs = [] := by
  cases bs <;> simp [intersectU16]

theorem intersectU16_nil_right (as : List Nat) : intersectU16 as [] = [] := by
  cases as <;> simp [intersectU16]

/-! ### Intersection -/

theorem intersectMemLoop_spec {gA gB : List Nat → List Nat} {A B : List Nat} {cap : Nat} {T : List Nat}
    (vA : View gA 0) (vB : View gB 0) (hcap : A.length ≤ cap ∨ B.length ≤ cap)
    (fuel i j pos : Nat) (mem E : List Nat) (hi : i < A.length) (hj : j < B.length)
    (w1 : Win (gA mem) A i) (w2 : Win (gB mem) B j) (hm : mem.length = cap) (hE : mem.take pos = E) (hn : pos = E.length)
    (hpi : pos ≤ i) (hpj : pos ≤ j) (hT : E ++ intersectU16 (A.drop i) (B.drop j) = T)
    (hf : (A.length - i) + (B.length - j) < fuel) :
    ∃ mem', intersectMemLoop gA gB A.length B.length fuel i j pos mem = .ok (mem', T.length) ∧ mem'.length = cap ∧ mem'.take T.length = T := by
  induction fuel generalizing i j pos mem E with
  | zero => omega
  | succ fuel ih =>
    rw [intersectMemLoop, win_read w1 (Nat.le_refl _) hi, ok_bind, win_read w2 (Nat.le_refl _) hj, ok_bind]
    have hT0 := hT
    rw [List.drop_eq_getElem_cons hi, List.drop_eq_getElem_cons hj, intersectU16] at hT
    by_cases c1 : A[i] < B[j]
    · rw [if_pos c1] at hT ⊢
      have hT' : E ++ intersectU16 (A.drop (i + 1)) (B.drop j) = T := by
        rw [← hT, List.drop_eq_getElem_cons hj]
      by_cases c3 : i + 1 = A.length
      · rw [if_pos c3]
        rw [List.drop_eq_nil_of_le (by omega), intersectU16_nil_left, List.append_nil] at hT'
        subst hT'
        exact ⟨mem, by rw [hn], hm, by rw [← hn]; exact hE⟩
      · rw [if_neg c3]
        exact ih (i + 1) j pos mem E (by omega) hj (win_mono w1 (by omega)) w2 hm hE hn (by omega) hpj hT' (by omega)
    · rw [if_neg c1] at hT ⊢
      by_cases c2 : B[j] < A[i]
      · rw [if_pos c2] at hT ⊢
        have hT' : E ++ intersectU16 (A.drop i) (B.drop (j + 1)) = T := by
          rw [← hT, List.drop_eq_getElem_cons hi]
        by_cases c3 : j + 1 = B.length
        · rw [if_pos c3]
          rw [List.drop_eq_nil_of_le (i := j + 1) (by omega), intersectU16_nil_right, List.append_nil] at hT'
          subst hT'
          exact ⟨mem, by rw [hn], hm, by rw [← hn]; exact hE⟩
        · rw [if_neg c3]
          exact ih i (j + 1) pos mem E hi (by omega) w1 (win_mono w2 (by omega)) hm hE hn hpi (by omega) hT' (by omega)
      · rw [if_neg c2] at hT ⊢
        obtain ⟨m', s1, s2, s3, s4⟩ := write16_take (C := mem) (n := pos) (a := A[i]) (by omega)
        rw [hE] at s3
        have x1 : Win (gA m') A (i + 1) := win_view vA s2 (drop_mono s4 (by omega)) (win_mono w1 (by omega))
        have x2 : Win (gB m') B (j + 1) := win_view vB s2 (drop_mono s4 (by omega)) (win_mono w2 (by omega))
        have hT' : (E ++ [A[i]]) ++ intersectU16 (A.drop (i + 1)) (B.drop (j + 1)) = T := by rw [← hT]; simp
        rw [s1, ok_bind]
        by_cases c3 : i + 1 = A.length ∨ j + 1 = B.length
        · rw [if_pos c3]
          have : intersectU16 (A.drop (i + 1)) (B.drop (j + 1)) = [] := by
            rcases c3 with c3 | c3
            · rw [List.drop_eq_nil_of_le (by omega), intersectU16_nil_left]
            · rw [List.drop_eq_nil_of_le (i := j + 1) (by omega), intersectU16_nil_right]
          rw [this, List.append_nil] at hT'
          subst hT'
          have hl : (E ++ [A[i]]).length = pos + 1 := by simp [hn]
          exact ⟨m', by rw [hl], by omega, by rw [hl]; exact s3⟩
        · rw [if_neg c3]
          exact ih (i + 1) (j + 1) (pos + 1) m' (E ++ [A[i]]) (by omega) (by omega) x1 x2 (by omega) s3 (by simp [hn]) (by omega) (by omega)
            hT' (by omega)

/-- `intersect_uint16`; the output may be on top of either input. -/
theorem intersectMem_spec {gA gB : List Nat → List Nat} {A B mem : List Nat} (vA : View gA 0) (vB : View gB 0)
    (eA : Win (gA mem) A 0) (eB : Win (gB mem) B 0) (hcap : A.length ≤ mem.length ∨ B.length ≤ mem.length) :
    ∃ mem', intersectMem gA gB A.length B.length mem = .ok (mem', (intersectU16 A B).length) ∧ mem'.length = mem.length ∧
      mem'.take (intersectU16 A B).length = intersectU16 A B := by
  rw [intersectMem]
  by_cases h0 : A.length = 0 ∨ B.length = 0
  · rw [if_pos h0]
    have : intersectU16 A B = [] := by
      rcases h0 with h | h
      · rw [List.length_eq_zero_iff.1 h, intersectU16_nil_left]
      · rw [List.length_eq_zero_iff.1 h, intersectU16_nil_right]
    rw [this]
    exact ⟨mem, rfl, rfl, rfl⟩
  · rw [if_neg h0]
    exact intersectMemLoop_spec vA vB hcap _ 0 0 0 mem [] (by omega) (by omega) eA eB rfl rfl rfl (by omega) (by omega) rfl (by omega)

/-! ### Difference -/

theorem differenceMemLoop_spec {gA : List Nat → List Nat} {A B : List Nat} {cap : Nat} {T : List Nat}
    (vA : View gA 0) (hcap : A.length ≤ cap)
    (fuel i j a b pos : Nat) (mem E : List Nat) (hi : i < A.length) (hj : j < B.length) (ea : a = A[i]) (eb : b = B[j])
    (w1 : Win (gA mem) A i) (hm : mem.length = cap) (hE : mem.take pos = E) (hn : pos = E.length)
    (hpi : pos ≤ i) (hT : E ++ differenceU16 (A.drop i) (B.drop j) = T)
    (hf : (A.length - i) + (B.length - j) < fuel) :
    ∃ mem', differenceMemLoop gA B A.length fuel i j a b pos mem = .ok (mem', T.length) ∧ mem'.length = cap ∧ mem'.take T.length = T := by
  induction fuel generalizing i j a b pos mem E with
  | zero => omega
  | succ fuel ih =>
    rw [differenceMemLoop]
    have hnil : ∀ bs : List Nat, differenceU16 [] bs = [] := fun bs => by simp [differenceU16]
    have hrest : ∀ k, k < A.length → i ≤ k → E ++ A.drop k = T → ∃ mem', (do
        let v ← readN (gA mem) k (A.length - k)
        let mem ← storeu mem pos v
        Out.ok (mem, pos + (A.length - k))) = .ok (mem', T.length) ∧ mem'.length = cap ∧ mem'.take T.length = T := by
      intro k hk hik hT'
      have hl : (A.drop k).length = A.length - k := List.length_drop ..
      obtain ⟨m', t1, t2, t3, _⟩ := storeu_take (C := mem) (n := pos) (F := A.drop k) (Z := []) (by simp; omega)
      rw [List.append_nil] at t1
      rw [win_readN (win_mono w1 hik) hk, ok_bind, t1, ok_bind]
      have hTl : T.length = pos + (A.length - k) := by rw [← hT', List.length_append, hl, hn]
      refine ⟨m', by rw [hTl], by omega, ?_⟩
      rw [hTl, ← hl, t3, hE, hT']
    rw [List.drop_eq_getElem_cons hi, List.drop_eq_getElem_cons hj, differenceU16, ← ea, ← eb] at hT
    by_cases c1 : a < b
    · rw [if_pos c1] at hT ⊢
      obtain ⟨m', s1, s2, s3, s4⟩ := write16_take (C := mem) (n := pos) (a := a) (by omega)
      rw [hE] at s3
      have x1 : Win (gA m') A (i + 1) := win_view vA s2 (drop_mono s4 (by omega)) (win_mono w1 (by omega))
      rw [s1, ok_bind]
      have hT' : (E ++ [a]) ++ differenceU16 (A.drop (i + 1)) (B.drop j) = T := by
        rw [← hT, List.drop_eq_getElem_cons hj, eb]; simp
      by_cases c3 : A.length ≤ i + 1
      · rw [if_pos c3]
        rw [List.drop_eq_nil_of_le c3, hnil, List.append_nil] at hT'
        subst hT'
        have hl : (E ++ [a]).length = pos + 1 := by simp [hn]
        exact ⟨m', by rw [hl], by omega, by rw [hl]; exact s3⟩
      · rw [if_neg c3, win_read x1 (by omega) (by omega), ok_bind]
        exact ih (i + 1) j _ b (pos + 1) m' (E ++ [a]) (by omega) hj rfl eb x1 (by omega) s3 (by simp [hn]) (by omega) hT' (by omega)
    · rw [if_neg c1] at hT ⊢
      by_cases c2 : a = b
      · rw [if_pos c2] at hT ⊢
        by_cases c3 : A.length ≤ i + 1
        · rw [if_pos c3]
          rw [List.drop_eq_nil_of_le c3, hnil, List.append_nil] at hT
          subst hT
          exact ⟨mem, by rw [hn], hm, by rw [← hn]; exact hE⟩
        · rw [if_neg c3]
          by_cases c4 : B.length ≤ j + 1
          · rw [if_pos c4]
            rw [List.drop_eq_nil_of_le c4, diffU16_nil_right] at hT
            exact hrest (i + 1) (by omega) (by omega) hT
          · rw [if_neg c4, win_read w1 (by omega) (by omega), ok_bind, read16_eq (by omega), ok_bind]
            exact ih (i + 1) (j + 1) _ _ pos mem E (by omega) (by omega) rfl rfl (win_mono w1 (by omega)) hm hE hn (by omega) hT (by omega)
      · rw [if_neg c2] at hT ⊢
        have hT' : E ++ differenceU16 (A.drop i) (B.drop (j + 1)) = T := by
          rw [← hT, List.drop_eq_getElem_cons hi, ea]
        by_cases c4 : B.length ≤ j + 1
        · rw [if_pos c4]
          rw [List.drop_eq_nil_of_le c4, diffU16_nil_right] at hT'
          exact hrest i hi (Nat.le_refl _) hT'
        · rw [if_neg c4, read16_eq (by omega), ok_bind]
          exact ih i (j + 1) a _ pos mem E hi (by omega) ea rfl w1 hm hE hn hpi hT' (by omega)

/-- `difference_uint16`; the output may be on top of the first input. -/
theorem differenceMem_spec {gA : List Nat → List Nat} {A B mem : List Nat} (same : Bool) (vA : View gA 0)
    (eA : Win (gA mem) A 0) (hs : same = true → mem.take A.length = A) (hcap : A.length ≤ mem.length) :
    ∃ mem', differenceMem gA B A.length same mem = .ok (mem', (differenceU16 A B).length) ∧ mem'.length = mem.length ∧
      mem'.take (differenceU16 A B).length = differenceU16 A B := by
  rw [differenceMem]
  by_cases h0 : A.length = 0
  · rw [if_pos h0, List.length_eq_zero_iff.1 h0]
    exact ⟨mem, by simp [differenceU16], rfl, by simp [differenceU16]⟩
  · rw [if_neg h0]
    by_cases h1 : B.length = 0
    · rw [if_pos h1, List.length_eq_zero_iff.1 h1, diffU16_nil_right]
      cases same with
      | true => exact ⟨mem, rfl, rfl, hs rfl⟩
      | false =>
        obtain ⟨m', t1, t2, t3, _⟩ := storeu_take (C := mem) (n := 0) (F := A) (Z := []) (by simp; omega)
        rw [List.append_nil] at t1
        have := win_readN (i := 0) eA (by omega)
        rw [Nat.sub_zero, List.drop_zero] at this
        rw [if_neg (by simp), this, ok_bind, t1, ok_bind]
        exact ⟨m', rfl, t2, by simpa using t3⟩
    · rw [if_neg h1, win_read eA (Nat.le_refl _) (by omega), ok_bind, read16_eq (by omega), ok_bind]
      exact differenceMemLoop_spec vA hcap _ 0 0 _ _ 0 mem [] (by omega) (by omega) rfl rfl eA rfl rfl rfl (by omega) rfl (by omega)

/-! ### Skewed intersection -/

/-- Writing a value of the large array at its own index, or further left, leaves the part of the array from that index on as it is. -/
def Keeps (g : List Nat → List Nat) (L : List Nat) : Prop :=
  ∀ mem mem' pos m v, write16 mem pos v = .ok mem' → pos ≤ m → (hm : m < L.length) → L[m] = v → Win (g mem) L m → Win (g mem') L m

theorem keeps_const (L : List Nat) : Keeps (fun _ => L) L := fun _ _ _ _ _ _ _ _ _ h => h

theorem keeps_take (L : List Nat) : Keeps (fun m => m.take L.length) L := by
  intro mem mem' pos m v hw hp hm hv h k hk hkL
  have h1 := h k hk hkL
  simp only [List.getElem?_take, if_pos hkL] at h1 ⊢
  rw [← h1]
  by_cases hlt : pos < mem.length
  · obtain ⟨m2, s1, s2, s3, s4⟩ := write16_take (C := mem) (n := pos) (a := v) hlt
    rw [s1] at hw
    injection hw with hw
    subst hw
    rcases Nat.lt_or_ge pos k with h2 | h2
    · have := congrArg (fun l => l[k - (pos + 1)]?) s4
      simp only [List.getElem?_drop] at this
      rw [show pos + 1 + (k - (pos + 1)) = k by omega] at this
      exact this
    · have hpk : pos = k := by omega
      have hmk : m = k := by omega
      subst hpk
      subst hmk
      have := congrArg (fun l => l[m]?) s3
      simp only [List.getElem?_take, Nat.lt_succ_self, if_true] at this
      rw [this, h1, List.getElem?_append_right (by simp; omega), List.length_take, Nat.min_eq_left (by omega), Nat.sub_self,
        List.getElem?_eq_getElem hm, hv]
      rfl
  · rw [write16, if_neg hlt] at hw
    cases hw

theorem filter_take_le_lb {S L : List Nat} (hS : SSorted S) (hL : SSorted L) {q : Nat} (hq : q < S.length) :
    ((S.take q).filter (fun x => decide (x ∈ L))).length ≤ lb L S[q] := by
  have hnd : ((S.take q).filter (fun x => decide (x ∈ L))).Nodup :=
    sorted_nodup ((hS.sublist (List.take_sublist _ _)).sublist (List.filter_sublist))
  rw [lb, List.countP_eq_length_filter]
  refine List.Subperm.length_le (List.subperm_of_subset hnd ?_)
  intro x hx
  rw [List.mem_filter] at hx ⊢
  refine ⟨by simpa using hx.2, ?_⟩
  obtain ⟨k, hk, e⟩ := List.mem_iff_getElem.1 hx.1
  rw [List.length_take] at hk
  rw [List.getElem_take] at e
  have := rdL_strict hS (i := k) (j := q) (by omega) hq
  rw [rdL_eq (by omega), rdL_eq hq, e] at this
  simpa using this

section
variable {gS gL : List Nat → List Nat} {S L : List Nat} {cap : Nat}

/-- The state of `intersect_skewed_uint16` when the first `q` values of the small array have been treated. -/
structure SkewInv (gS gL : List Nat → List Nat) (S L : List Nat) (cap q w : Nat) (p : List Nat × Nat) : Prop where
  winS : Win (gS p.1) S q
  winL : Win (gL p.1) L w
  len : p.1.length = cap
  pos : p.2 = ((S.take q).filter (fun x => decide (x ∈ L))).length
  out : p.1.take p.2 = (S.take q).filter (fun x => decide (x ∈ L))

theorem filter_take_succ {S L : List Nat} {q : Nat} (hq : q < S.length) :
    (S.take (q + 1)).filter (fun x => decide (x ∈ L)) =
      (S.take q).filter (fun x => decide (x ∈ L)) ++ (if S[q] ∈ L then [S[q]] else []) := by
  rw [List.take_add_one, List.getElem?_eq_getElem hq, List.filter_append]
  congr 1
  by_cases h : S[q] ∈ L <;> simp [h]

theorem skew_write (hS : SSorted S) (hL : SSorted L) (vS : View gS 0) (kL : Keeps gL L) (hcap : S.length ≤ cap) {q w : Nat} {p : List Nat × Nat}
    (hq : q < S.length) (hw : w ≤ lb L S[q]) (h : SkewInv gS gL S L cap q w p) (hm : S[q] ∈ L) :
    ∃ m', write16 p.1 p.2 S[q] = .ok m' ∧ SkewInv gS gL S L cap (q + 1) (lb L S[q]) (m', p.2 + 1) := by
  have hpq : p.2 ≤ q := by
    have := List.length_filter_le (fun x => decide (x ∈ L)) (S.take q)
    rw [List.length_take] at this
    have := h.pos
    omega
  have hlb := filter_take_le_lb hS hL hq
  rw [← h.pos] at hlb
  have hlen := h.len
  obtain ⟨hl1, hl2⟩ := (mem_iff_rdL_lb hL S[q]).1 hm
  rw [rdL_eq hl1] at hl2
  obtain ⟨m', s1, s2, s3, s4⟩ := write16_take (C := p.1) (n := p.2) (a := S[q]) (by omega)
  refine ⟨m', s1, win_view vS s2 (drop_mono s4 (by omega)) (win_mono h.winS (by omega)), ?_, by simp only; omega, ?_, ?_⟩
  · exact kL _ _ _ _ _ s1 hlb hl1 hl2 (win_mono h.winL hw)
  · simp only
    rw [filter_take_succ hq, if_pos hm, List.length_append, ← h.pos]
    rfl
  · simp only
    rw [filter_take_succ hq, if_pos hm, s3, h.out]

theorem hitMem_spec (hS : SSorted S) (hL : SSorted L) (vS : View gS 0) (kL : Keeps gL L) (hcap : S.length ≤ cap) {q w t i : Nat}
    {p : List Nat × Nat} (hq : q < S.length) (ht : t = S[q]) (hi : i = lb L t) (hw : w ≤ lb L S[q]) (h : SkewInv gS gL S L cap q w p) :
    ∃ p', hitMem gL L.length i t p = .ok p' ∧ SkewInv gS gL S L cap (q + 1) (lb L S[q]) p' := by
  subst ht
  subst hi
  have hskip : S[q] ∉ L → SkewInv gS gL S L cap (q + 1) (lb L S[q]) p := by
    intro hn
    refine ⟨win_mono h.winS (by omega), win_mono h.winL hw, h.len, ?_, ?_⟩
    · rw [filter_take_succ hq, if_neg hn, List.append_nil]; exact h.pos
    · rw [filter_take_succ hq, if_neg hn, List.append_nil]; exact h.out
  rw [hitMem]
  by_cases c : lb L S[q] < L.length
  · rw [if_pos c, win_read h.winL hw c, ok_bind]
    by_cases e : L[lb L S[q]] = S[q]
    · rw [if_pos e]
      obtain ⟨m', s1, s2⟩ := skew_write hS hL vS kL hcap hq hw h (e ▸ List.getElem_mem _)
      exact ⟨_, by rw [s1, ok_bind], s2⟩
    · rw [if_neg e]
      refine ⟨p, rfl, hskip fun hm => e ?_⟩
      have := ((mem_iff_rdL_lb hL S[q]).1 hm).2
      rwa [rdL_eq c] at this
  · rw [if_neg c]
    exact ⟨p, rfl, hskip fun hm => c ((mem_iff_rdL_lb hL S[q]).1 hm).1⟩

theorem win_rdL {g L : List Nat} {w : Nat} (h : Win g L w) (i : Nat) (hi : i < L.length - w) : rdL g (w + i) = rdL L (w + i) := by
  have := h (w + i) (by omega) (by omega)
  rw [rdL, rdL, List.getD_eq_getElem?_getD, List.getD_eq_getElem?_getD, this]

theorem lane_win (hL : SSorted L) {w t : Nat} {g : List Nat} (h : Win g L w) (hw : w < L.length) :
    laneLoop (fun i => rdL g (w + i)) t (L.length - w) 0 = lb L t - w := by
  rw [← laneLoop_drop hL t w hw]
  exact laneLoop_congr (len := L.length - w) (fun i hi => win_rdL h i hi) _ _ (by omega) (by omega)

/-- Nothing is left in the large array. -/
theorem skew_end (hL : SSorted L) {q w : Nat} {p : List Nat × Nat} (hw : ∀ k, (hk : k < S.length) → q ≤ k → w ≤ lb L S[k])
    (h : SkewInv gS gL S L cap q w p) (hend : S.length ≤ q ∨ L.length ≤ w) :
    p.1.length = cap ∧ p.2 = (S.filter (fun x => decide (x ∈ L))).length ∧ p.1.take p.2 = S.filter (fun x => decide (x ∈ L)) := by
  have : S.filter (fun x => decide (x ∈ L)) = (S.take q).filter (fun x => decide (x ∈ L)) := by
    rcases hend with he | he
    · rw [List.take_of_length_le he]
    · conv => lhs; rw [← List.take_append_drop q S, List.filter_append]
      have : (S.drop q).filter (fun x => decide (x ∈ L)) = [] := by
        refine filter_ge_length hL w he ?_
        intro x hx
        obtain ⟨k, hk, e⟩ := List.mem_iff_getElem.1 hx
        rw [List.length_drop] at hk
        rw [List.getElem_drop] at e
        rw [← e]
        exact hw _ (by omega) (by omega)
      rw [this, List.append_nil]
  rw [this]
  exact ⟨h.len, h.pos, h.out⟩

theorem lb_idx (hS : SSorted S) {q w k : Nat} (hw : q < S.length) (hk : k < S.length) (h : q ≤ k) : lb L S[q] ≤ lb L S[k] := by
  apply lb_mono
  rcases Nat.lt_or_ge q k with h1 | h1
  · have := rdL_strict hS h1 hk
    rw [rdL_eq hw, rdL_eq hk] at this
    omega
  · have : q = k := by omega
    subst this
    exact Nat.le_refl _

/-- What `intersect_skewed_uint16` is to leave. -/
def SkewDone (S L : List Nat) (cap : Nat) (r : Out (List Nat × Nat)) : Prop :=
  ∃ m', r = .ok (m', (S.filter (fun x => decide (x ∈ L))).length) ∧ m'.length = cap ∧
    m'.take (S.filter (fun x => decide (x ∈ L))).length = S.filter (fun x => decide (x ∈ L))

theorem skewDone_of {r : Out (List Nat × Nat)} {p : List Nat × Nat} (h : r = .ok p)
    (h2 : p.1.length = cap ∧ p.2 = (S.filter (fun x => decide (x ∈ L))).length ∧ p.1.take p.2 = S.filter (fun x => decide (x ∈ L))) :
    SkewDone S L cap r := ⟨p.1, by rw [h, ← h2.2.1], h2.1, by rw [← h2.2.1]; exact h2.2.2⟩

theorem skewOneMem_spec (hS : SSorted S) (hL : SSorted L) (vS : View gS 0) (kL : Keeps gL L) (hcap : S.length ≤ cap) {q w : Nat}
    {p : List Nat × Nat} (hq : S.length ≤ q + 1) (hw : ∀ k, (hk : k < S.length) → q ≤ k → w ≤ lb L S[k]) (h : SkewInv gS gL S L cap q w p) :
    SkewDone S L cap (skewOneMem gS gL S.length L.length w q p.2 p.1) := by
  rw [skewOneMem]
  by_cases c : q < S.length ∧ w < L.length
  · rw [if_pos c, win_read h.winS (Nat.le_refl _) c.1, ok_bind]
    have hwq := hw q c.1 (Nat.le_refl _)
    have eb : binarySearch (fun i => rdL (gL p.1) (w + i)) (L.length - w) S[q] =
        binarySearch (fun i => rdL L (w + i)) (L.length - w) S[q] :=
      binarySearch_congr (fun i hi => win_rdL h.winL i hi) _
    have hb := bs_drop hL S[q] w hwq
    rw [eb]
    by_cases c2 : binarySearch (fun i => rdL L (w + i)) (L.length - w) S[q] ≥ 0
    · rw [if_pos c2] at hb ⊢
      have hm : S[q] ∈ L := by
        by_cases h1 : S[q] ∈ L
        · exact h1
        · simp [h1] at hb
      obtain ⟨m', s1, s2⟩ := skew_write hS hL vS kL hcap c.1 hwq h hm
      rw [s1, ok_bind]
      exact skewDone_of rfl (skew_end hL (fun k hk hqk => lb_idx (w := 0) hS c.1 hk (by omega)) s2 (Or.inl hq))
    · rw [if_neg c2] at hb ⊢
      have hm : S[q] ∉ L := by
        intro h1
        simp [h1] at hb
      have h' : SkewInv gS gL S L cap (q + 1) w p := by
        refine ⟨win_mono h.winS (by omega), h.winL, h.len, ?_, ?_⟩
        · rw [filter_take_succ c.1, if_neg hm, List.append_nil]; exact h.pos
        · rw [filter_take_succ c.1, if_neg hm, List.append_nil]; exact h.out
      exact skewDone_of (p := p) rfl (skew_end hL (fun k hk hqk => hw k hk (by omega)) h' (Or.inl hq))
  · rw [if_neg c]
    exact skewDone_of (p := p) rfl (skew_end hL hw h (by omega))

theorem skewTailMem_spec (hS : SSorted S) (hL : SSorted L) (vS : View gS 0) (kL : Keeps gL L) (hcap : S.length ≤ cap) {q w : Nat}
    {p : List Nat × Nat} (hq : S.length < q + 4 ∨ L.length ≤ w) (hw : ∀ k, (hk : k < S.length) → q ≤ k → w ≤ lb L S[k])
    (h : SkewInv gS gL S L cap q w p) :
    SkewDone S L cap (skewTailMem gS gL S.length L.length w q p.2 p.1) := by
  rw [skewTailMem]
  by_cases c : q + 2 ≤ S.length ∧ w < L.length
  · rw [if_pos c, win_read h.winS (Nat.le_refl _) (by omega), ok_bind, win_read h.winS (by omega) (by omega), ok_bind,
      binarySearch2_lanes, lane_win hL h.winL c.2, lane_win hL h.winL c.2]
    have h0 := hw q (by omega) (Nat.le_refl _)
    have h1 := hw (q + 1) (by omega) (by omega)
    simp only
    obtain ⟨p1, e1, i1⟩ := hitMem_spec (q := q) (i := w + (lb L S[q] - w)) hS hL vS kL hcap (by omega) rfl (by omega) h0 h
    rw [e1, ok_bind]
    obtain ⟨p2, e2, i2⟩ := hitMem_spec (q := q + 1) (i := w + (lb L S[q + 1] - w)) hS hL vS kL hcap (by omega) rfl (by omega)
      (lb_idx (w := 0) hS (by omega) (by omega) (by omega)) i1
    rw [e2, ok_bind, show w + (lb L S[q + 1] - w) = lb L S[q + 1] by omega]
    exact skewOneMem_spec hS hL vS kL hcap (by omega) (fun k hk hqk => lb_idx (w := 0) hS (by omega) hk (by omega)) i2
  · rw [if_neg c]
    by_cases c2 : S.length ≤ q + 1
    · exact skewOneMem_spec hS hL vS kL hcap c2 hw h
    · have : ¬ (q < S.length ∧ w < L.length) := by omega
      rw [skewOneMem, if_neg this]
      exact skewDone_of (p := p) rfl (skew_end hL hw h (by omega))

theorem skewLoopMem_spec (hS : SSorted S) (hL : SSorted L) (vS : View gS 0) (kL : Keeps gL L) (hcap : S.length ≤ cap) (fuel : Nat) :
    ∀ (q w : Nat) (p : List Nat × Nat), (∀ k, (hk : k < S.length) → q ≤ k → w ≤ lb L S[k]) → SkewInv gS gL S L cap q w p →
      S.length - q < fuel → SkewDone S L cap (skewLoopMem gS gL S.length L.length fuel w q p.2 p.1) := by
  induction fuel with
  | zero => intro q w p hw h hf; omega
  | succ fuel ih =>
    intro q w p hw h hf
    rw [skewLoopMem]
    by_cases c : q + 4 ≤ S.length ∧ w < L.length
    · rw [if_pos c, win_read h.winS (Nat.le_refl _) (by omega), ok_bind, win_read h.winS (by omega) (by omega), ok_bind,
        win_read h.winS (by omega) (by omega), ok_bind, win_read h.winS (by omega) (by omega), ok_bind,
        binarySearch4_lanes, lane_win hL h.winL c.2, lane_win hL h.winL c.2, lane_win hL h.winL c.2, lane_win hL h.winL c.2]
      have h0 := hw q (by omega) (Nat.le_refl _)
      have h1 := hw (q + 1) (by omega) (by omega)
      have h2 := hw (q + 2) (by omega) (by omega)
      have h3 := hw (q + 3) (by omega) (by omega)
      simp only
      obtain ⟨p1, e1, i1⟩ := hitMem_spec (q := q) (i := w + (lb L S[q] - w)) hS hL vS kL hcap (by omega) rfl (by omega) h0 h
      rw [e1, ok_bind]
      obtain ⟨p2, e2, i2⟩ := hitMem_spec (q := q + 1) (i := w + (lb L S[q + 1] - w)) hS hL vS kL hcap (by omega) rfl (by omega)
        (lb_idx (w := 0) hS (by omega) (by omega) (by omega)) i1
      rw [e2, ok_bind]
      obtain ⟨p3, e3, i3⟩ := hitMem_spec (q := q + 2) (i := w + (lb L S[q + 2] - w)) hS hL vS kL hcap (by omega) rfl (by omega)
        (lb_idx (w := 0) hS (by omega) (by omega) (by omega)) i2
      rw [e3, ok_bind]
      obtain ⟨p4, e4, i4⟩ := hitMem_spec (q := q + 3) (i := w + (lb L S[q + 3] - w)) hS hL vS kL hcap (by omega) rfl (by omega)
        (lb_idx (w := 0) hS (by omega) (by omega) (by omega)) i3
      rw [e4, ok_bind, show w + (lb L S[q + 3] - w) = lb L S[q + 3] by omega]
      exact ih (q + 4) _ p4 (fun k hk hqk => lb_idx (w := 0) hS (by omega) hk (by omega)) i4 (by omega)
    · rw [if_neg c]
      exact skewTailMem_spec hS hL vS kL hcap (by omega) hw h

end

/-- `intersect_skewed_uint16`; the output may be on top of either input. -/
theorem skewMem_spec {gS gL : List Nat → List Nat} {S L mem : List Nat} (hS : SSorted S) (hL : SSorted L) (vS : View gS 0) (kL : Keeps gL L)
    (eS : Win (gS mem) S 0) (eL : Win (gL mem) L 0) (hcap : S.length ≤ mem.length) :
    ∃ mem', skewMem gS gL S.length L.length mem = .ok (mem', (intersectSkewed S L).length) ∧ mem'.length = mem.length ∧
      mem'.take (intersectSkewed S L).length = intersectSkewed S L := by
  rw [intersectSkewed_eq hS hL, skewMem]
  by_cases h0 : S.length = 0
  · rw [if_pos h0, List.length_eq_zero_iff.1 h0]
    exact ⟨mem, rfl, rfl, rfl⟩
  · rw [if_neg h0]
    exact skewLoopMem_spec hS hL vS kL hcap (S.length + 1) 0 0 (mem, 0) (fun k hk _ => Nat.zero_le _) ⟨eS, eL, rfl, rfl, rfl⟩ (by omega)

end CRoaring
