import Verif.Lemmas.Range2

set_option linter.unusedSimpArgs false
set_option linter.unusedVariables false

/-! Flipping of ranges. -/

namespace CRoaring
open Spec

theorem flip_cell {hb a b : Nat} (hb2 : b ≤ 65536) {s : NSet} {x : Nat} (hx : x / 65536 = hb) :
    flipR s a b (x % 65536) = (decide (hb * 65536 + a ≤ x ∧ x < hb * 65536 + b) != s (x % 65536)) := by
  simp only [flipR]
  congr 1
  apply decide_eq_decide.2
  omega

theorem card_ne_zero {c : Container} {s : NSet} (h : Rep c s) : containerCard c ≠ 0 ↔ ∃ y, s y = true := by
  rw [containerCard_eq h]
  constructor
  · intro h1
    obtain ⟨y, _, hy⟩ := card_pos.1 (show 0 < card 65536 s by omega)
    exact ⟨y, hy⟩
  · rintro ⟨y, hy⟩
    have := card_pos.2 ⟨y, h.lt hy, hy⟩
    omega

/-- Common form of `inplaceFlip` and `inplaceFullyFlip`. -/
def flipWith (x1 : Bitmap) (hb : Nat) (N : Container → Container) (O : Container) : Bitmap :=
  let i := raGetIndex x1 hb
  if i ≥ 0 then
    let c := N (contAt x1 i.toNat)
    if containerCard c ≠ 0 then raSet x1 i.toNat c else raRemoveAt x1 i.toNat
  else raInsertAt x1 (-i - 1).toNat hb O

theorem flipWith_spec {x : Bitmap} (h : BInv x) {hb a b : Nat} (hk : hb < 65536) (hab : a < b) (hb2 : b ≤ 65536)
    {N : Container → Container} {O : Container} (hN : ∀ c s, Rep c s → Rep (N c) (flipR s a b)) (hO : Rep O (range a b)) :
    BInv (flipWith x hb N O) ∧
      ∀ v, bhas (flipWith x hb N O) v = (decide (hb * 65536 + a ≤ v ∧ v < hb * 65536 + b) != bhas x v) := by
  have hother : ∀ v, ¬ v / 65536 = hb → (decide (hb * 65536 + a ≤ v ∧ v < hb * 65536 + b) != bhas x v) = bhas x v := by
    intro v hv
    rw [decide_eq_false (by omega)]
    simp
  rcases ra_split h hb with ⟨A, c, B, e, hA, hB, hi⟩ | ⟨A, B, e, hA, hB, hi⟩
  · have hbm := bp_mid.1 (e ▸ h)
    have hr := hN c _ hbm.2.2.1.1.rep
    by_cases hn : containerCard (N c) ≠ 0
    · have e2 : flipWith x hb N O = A ++ (hb, N c) :: B := by
        simp only [flipWith, hi, Int.toNat_natCast]
        rw [if_pos (by omega), e, contAt_mid, if_pos hn, raSet_mid]
      obtain ⟨y, hy⟩ := (card_ne_zero hr).1 hn
      rw [e2]
      refine ⟨bp_mid.2 ⟨hbm.1, hbm.2.1, hr.cne hy, hA, hB⟩, fun v => ?_⟩
      rw [bhas_mid hA hB]
      split
      · rename_i hv
        rw [hr.has, flip_cell hb2 hv, e, bhas_mid hA hB, if_pos hv]
      · rename_i hv
        rw [hother v hv, e, bhas_mid hA hB, if_neg hv]
    · have e2 : flipWith x hb N O = A ++ B := by
        simp only [flipWith, hi, Int.toNat_natCast]
        rw [if_pos (by omega), e, contAt_mid, if_neg hn, raRemoveAt_mid]
      rw [e2]
      refine ⟨hbm.1, fun v => ?_⟩
      by_cases hv : v / 65536 = hb
      · rw [bhas_gap hA hB hv, e, bhas_mid hA hB, if_pos hv, ← flip_cell hb2 hv]
        cases hh : flipR (chas c) a b (v % 65536)
        · rfl
        · exact absurd ((card_ne_zero hr).2 ⟨_, hh⟩) hn
      · rw [hother v hv, e, bhas_mid hA hB, if_neg hv]
  · have e2 : flipWith x hb N O = A ++ (hb, O) :: B := by
      simp only [flipWith, hi]
      rw [if_neg (by omega), show (-(-((A.length : Int) + 1)) - 1).toNat = A.length by omega, e, raInsertAt_mid]
    rw [e2]
    refine ⟨bp_mid.2 ⟨e ▸ h, hk, hO.cne (x := a) (by simp [range]; omega), hA, hB⟩, fun v => ?_⟩
    rw [bhas_mid hA hB]
    split
    · rename_i hv
      rw [hO.has, e, bhas_gap hA hB hv]
      simp only [range, Bool.bne_false, ← Bool.decide_and]
      apply decide_eq_decide.2
      omega
    · rename_i hv
      rw [hother v hv, e]

theorem inplaceFlip_spec {x : Bitmap} (h : BInv x) {hb a b : Nat} (hk : hb < 65536) (hab : a ≤ b) (hb2 : b < 65536) :
    BInv (inplaceFlip x hb a b) ∧
      ∀ v, bhas (inplaceFlip x hb a b) v = (decide (hb * 65536 + a ≤ v ∧ v < hb * 65536 + (b + 1)) != bhas x v) :=
  flipWith_spec (N := containerNotRange a (b + 1)) h hk (by omega) (by omega)
    (fun c s hc => containerNotRange_spec hc (by omega) (by omega)) (containerRangeOfOnes_spec (by omega) (by omega))

theorem inplaceFullyFlip_spec {x : Bitmap} (h : BInv x) {hb : Nat} (hk : hb < 65536) :
    BInv (inplaceFullyFlip x hb) ∧
      ∀ v, bhas (inplaceFullyFlip x hb) v = (decide (hb * 65536 ≤ v ∧ v < (hb + 1) * 65536) != bhas x v) := by
  have := flipWith_spec (N := containerNot) (a := 0) (b := 65536) h hk (by omega) (by omega)
    (fun c s hc => containerNot_spec hc) (containerRangeOfOnes_spec (by omega) (by omega))
  refine ⟨this.1, fun v => ?_⟩
  rw [show hb * 65536 = hb * 65536 + 0 by omega, show (hb + 1) * 65536 = hb * 65536 + 65536 by omega]
  exact this.2 v

theorem flip_compose {lo mid hi v : Nat} (h1 : lo ≤ mid) (h2 : mid ≤ hi) (b : Bool) :
    (decide (mid ≤ v ∧ v < hi) != (decide (lo ≤ v ∧ v < mid) != b)) = (decide (lo ≤ v ∧ v < hi) != b) := by
  by_cases e1 : mid ≤ v ∧ v < hi
  · rw [decide_eq_true e1, decide_eq_false (by omega), decide_eq_true (by omega)]; cases b <;> rfl
  · rw [decide_eq_false e1]
    by_cases e2 : lo ≤ v ∧ v < mid
    · rw [decide_eq_true e2, decide_eq_true (by omega)]; cases b <;> rfl
    · rw [decide_eq_false e2, decide_eq_false (by omega)]; cases b <;> rfl

/-- `x'` is `x` with the values of `[lo, hi)` flipped. -/
def FlippedTo (x : Bitmap) (lo hi : Nat) (x' : Bitmap) : Prop :=
  BInv x' ∧ ∀ v, bhas x' v = (decide (lo ≤ v ∧ v < hi) != bhas x v)

theorem FlippedTo.trans {x y z : Bitmap} {lo mid hi : Nat} (h1 : FlippedTo x lo mid y) (h2 : FlippedTo y mid hi z)
    (e1 : lo ≤ mid) (e2 : mid ≤ hi) : FlippedTo x lo hi z :=
  ⟨h2.1, fun v => by rw [h2.2, h1.2, flip_compose e1 e2]⟩

theorem FlippedTo.refl {x : Bitmap} (h : BInv x) (lo : Nat) : FlippedTo x lo lo x :=
  ⟨h, fun v => by rw [decide_eq_false (by omega)]; simp⟩

theorem forKeys_flip {x : Bitmap} (h : BInv x) {k : Nat} (n : Nat) (hk : k + n ≤ 65536) :
    FlippedTo x (k * 65536) ((k + n) * 65536) ((List.range' k n).foldl inplaceFullyFlip x) := by
  induction n with
  | zero => exact FlippedTo.refl h _
  | succ n ih =>
    rw [List.range'_concat, List.foldl_append]
    have i := ih (by omega)
    simp only [List.foldl_cons, List.foldl_nil, Nat.one_mul]
    refine i.trans ?_ (by omega) (by omega)
    exact inplaceFullyFlip_spec i.1 (by omega)

theorem rbFlipInplaceClosed_spec {x : Bitmap} (h : BInv x) {rs re : Nat} (hre : re < 4294967296) :
    BInv (rbFlipInplaceClosed x rs re) ∧
      ∀ v, bhas (rbFlipInplaceClosed x rs re) v = (decide (rs ≤ v ∧ v ≤ re) != bhas x v) := by
  unfold rbFlipInplaceClosed
  by_cases h1 : rs > re
  · rw [if_pos h1]
    exact ⟨h, fun v => by rw [decide_eq_false (by omega)]; simp⟩
  rw [if_neg h1]
  simp only
  suffices hh : FlippedTo x rs (re + 1) (if rs / 65536 = re / 65536 then inplaceFlip x (rs / 65536) (rs % 65536) (re % 65536)
      else _) from ⟨hh.1, fun v => (hh.2 v).trans (by congr 1; apply decide_eq_decide.2; omega)⟩
  by_cases hk : rs / 65536 = re / 65536
  · rw [if_pos hk]
    have := inplaceFlip_spec h (hb := rs / 65536) (a := rs % 65536) (b := re % 65536) (by omega) (by omega) (by omega)
    refine ⟨this.1, fun v => (this.2 v).trans ?_⟩
    congr 1
    apply decide_eq_decide.2; omega
  · rw [if_neg hk]
    -- first container
    have hfirst : ∃ y k, (if rs % 65536 > 0 then (inplaceFlip x (rs / 65536) (rs % 65536) 65535, rs / 65536 + 1)
        else (x, rs / 65536)) = (y, k) ∧ FlippedTo x rs (k * 65536) y ∧ rs ≤ k * 65536 ∧ k ≤ re / 65536 := by
      by_cases h0 : rs % 65536 > 0
      · refine ⟨_, _, if_pos h0, ?_, by omega, by omega⟩
        have := inplaceFlip_spec h (hb := rs / 65536) (a := rs % 65536) (b := 65535) (by omega) (by omega) (by omega)
        refine ⟨this.1, fun v => (this.2 v).trans ?_⟩
        congr 1
        apply decide_eq_decide.2; omega
      · refine ⟨_, _, if_neg h0, ?_, by omega, by omega⟩
        rw [show rs / 65536 * 65536 = rs by omega]
        exact FlippedTo.refl h _
    obtain ⟨y, k, e, hy, hk1, hk2⟩ := hfirst
    rw [e]
    simp only [forKeys]
    by_cases h5 : re % 65536 ≠ 65535
    · rw [if_pos h5, if_pos h5, show re / 65536 - 1 + 1 = re / 65536 by omega]
      have h6 := forKeys_flip hy.1 (k := k) (re / 65536 - k) (by omega)
      rw [show k + (re / 65536 - k) = re / 65536 by omega] at h6
      have h7 := hy.trans h6 hk1 (by omega)
      have e1 : rs ≤ re / 65536 * 65536 := Nat.le_trans hk1 (Nat.mul_le_mul_right _ hk2)
      have e2 : re / 65536 * 65536 ≤ re + 1 := Nat.le_succ_of_le (Nat.div_mul_le_self _ _)
      have h8 := inplaceFlip_spec h7.1 (hb := re / 65536) (a := 0) (b := re % 65536) (by omega) (by omega) (by omega)
      refine h7.trans (mid := re / 65536 * 65536) ⟨h8.1, fun v => (h8.2 v).trans ?_⟩ e1 e2
      have e3 : (re / 65536 * 65536 + 0 ≤ v ∧ v < re / 65536 * 65536 + (re % 65536 + 1)) ↔
        (re / 65536 * 65536 ≤ v ∧ v < re + 1) := by omega
      rw [decide_eq_decide.2 e3]
    · rw [if_neg h5, if_neg h5]
      have h6 := forKeys_flip hy.1 (k := k) (re / 65536 + 1 - k) (by omega)
      rw [show (k + (re / 65536 + 1 - k)) * 65536 = re + 1 by omega] at h6
      exact hy.trans h6 hk1 (by omega)

/-! ### The allocating version -/

/-- Common form of `insertFlipped` and `insertFullyFlipped`. -/
def insertWith (ans x1 : Bitmap) (hb : Nat) (N : Container → Container) (O : Container) : Bitmap :=
  let i := raGetIndex x1 hb
  let j := raGetIndex ans hb
  if i ≥ 0 then
    let c := N (contAt x1 i.toNat)
    if containerCard c ≠ 0 then raInsertAt ans (-j - 1).toNat hb c else ans
  else raInsertAt ans (-j - 1).toNat hb O

/-- The answer holds the wanted values for all the keys below `cur`, and no other key. -/
structure Upto (T : NSet) (cur : Nat) (ans : Bitmap) : Prop where
  inv : BInv ans
  keys : ∀ p ∈ ans, p.1 < cur
  has : ∀ v, bhas ans v = (decide (v / 65536 < cur) && T v)

theorem insertAt_end {ans : Bitmap} (h : BInv ans) {hb : Nat} (hk : ∀ p ∈ ans, p.1 < hb) (c : Container) :
    raInsertAt ans (-raGetIndex ans hb - 1).toNat hb c = ans ++ [(hb, c)] := by
  rcases ra_split h hb with ⟨A, c, B, e, hA, hB, hi⟩ | ⟨A, B, e, hA, hB, hi⟩
  · have := hk (hb, c) (by rw [e]; simp)
    simp only at this
    omega
  · have hB0 : B = [] := by
      rcases B with _ | ⟨p, t⟩
      · rfl
      · have := hk p (by rw [e]; simp)
        have := hB p (by simp)
        omega
    subst hB0
    rw [hi, show (-(-((A.length : Int) + 1)) - 1).toNat = A.length by omega, e, raInsertAt_mid, List.append_nil]

theorem insertWith_spec {x ans : Bitmap} (h : BInv x) {hb a b : Nat} {T : NSet} (hk : hb < 65536) (hab : a < b) (hb2 : b ≤ 65536)
    {N : Container → Container} {O : Container} (hN : ∀ c s, Rep c s → Rep (N c) (flipR s a b)) (hO : Rep O (range a b))
    (ha : Upto T hb ans)
    (hT : ∀ v, v / 65536 = hb → T v = (decide (hb * 65536 + a ≤ v ∧ v < hb * 65536 + b) != bhas x v)) :
    Upto T (hb + 1) (insertWith ans x hb N O) := by
  have happ : ∀ c, CNe c → (∀ v, v / 65536 = hb → chas c (v % 65536) = T v) → Upto T (hb + 1) (ans ++ [(hb, c)]) := by
    intro c hc hv
    refine ⟨bp_append.2 ⟨ha.inv, ⟨hk, hc, by simp, trivial⟩, ?_⟩, ?_, fun v => ?_⟩
    · intro p hp q hq
      have := ha.keys p hp
      simp only [List.mem_singleton] at hq
      subst hq; exact this
    · intro p hp
      rcases List.mem_append.1 hp with hp | hp
      · have := ha.keys p hp; omega
      · simp only [List.mem_singleton] at hp
        subst hp; exact Nat.lt_succ_self _
    · rw [bhas_append, ha.has, bhas_cons, bhas_nil, Bool.or_false]
      by_cases e : v / 65536 = hb
      · rw [decide_eq_false (by omega), decide_eq_true (by omega), hv v e, beq_iff_eq.2 e.symm]; simp
      · rw [beq_eq_false_iff_ne.2 (fun h => e h.symm), Bool.false_and, Bool.or_false]
        congr 1
        apply decide_eq_decide.2; omega
  rcases ra_split h hb with ⟨A, c, B, e, hA, hB, hi⟩ | ⟨A, B, e, hA, hB, hi⟩
  · have hbm := bp_mid.1 (e ▸ h)
    have hr := hN c _ hbm.2.2.1.1.rep
    have hx : ∀ v, v / 65536 = hb → flipR (chas c) a b (v % 65536) = T v := by
      intro v hv
      rw [hT v hv, flip_cell hb2 hv, e, bhas_mid hA hB, if_pos hv]
    have hc : contAt x A.length = c := by rw [e, contAt_mid]
    simp only [insertWith, hi, Int.toNat_natCast, hc]
    rw [if_pos (by omega), insertAt_end ha.inv ha.keys]
    by_cases hn : containerCard (N c) ≠ 0
    · rw [if_pos hn]
      obtain ⟨y, hy⟩ := (card_ne_zero hr).1 hn
      exact happ _ (hr.cne hy) fun v hv => by rw [hr.has, hx v hv]
    · rw [if_neg hn]
      refine ⟨ha.inv, fun p hp => Nat.lt_succ_of_lt (ha.keys p hp), fun v => ?_⟩
      rw [ha.has]
      by_cases e : v / 65536 = hb
      · rw [← hx v e]
        cases hh : flipR (chas c) a b (v % 65536)
        · simp
        · exact absurd ((card_ne_zero hr).2 ⟨_, hh⟩) hn
      · congr 1
        apply decide_eq_decide.2; omega
  · simp only [insertWith, hi]
    rw [if_neg (by omega), insertAt_end ha.inv ha.keys]
    refine happ _ (hO.cne (x := a) (by simp [range]; omega)) fun v hv => ?_
    rw [hO.has, hT v hv, e, bhas_gap hA hB hv]
    simp only [range, Bool.bne_false, ← Bool.decide_and]
    apply decide_eq_decide.2; omega

theorem insertFlipped_spec {x ans : Bitmap} (h : BInv x) {hb a b : Nat} {T : NSet} (hk : hb < 65536) (hab : a ≤ b) (hb2 : b < 65536)
    (ha : Upto T hb ans)
    (hT : ∀ v, v / 65536 = hb → T v = (decide (hb * 65536 + a ≤ v ∧ v < hb * 65536 + (b + 1)) != bhas x v)) :
    Upto T (hb + 1) (insertFlipped ans x hb a b) :=
  insertWith_spec (N := containerNotRange a (b + 1)) h hk (by omega) (by omega)
    (fun c s hc => containerNotRange_spec hc (by omega) (by omega)) (containerRangeOfOnes_spec (by omega) (by omega)) ha hT

theorem insertFullyFlipped_spec {x ans : Bitmap} (h : BInv x) {hb : Nat} {T : NSet} (hk : hb < 65536) (ha : Upto T hb ans)
    (hT : ∀ v, v / 65536 = hb → T v = !bhas x v) :
    Upto T (hb + 1) (insertFullyFlipped ans x hb) :=
  insertWith_spec (N := containerNot) (a := 0) (b := 65536) h hk (by omega) (by omega)
    (fun c s hc => containerNot_spec hc) (containerRangeOfOnes_spec (by omega) (by omega)) ha fun v hv => by
      rw [hT v hv, decide_eq_true (by omega)]; cases bhas x v <;> rfl

theorem forKeys_insert {x ans : Bitmap} (h : BInv x) {k : Nat} {T : NSet} (n : Nat) (hk : k + n ≤ 65536) (ha : Upto T k ans)
    (hT : ∀ v, k ≤ v / 65536 → v / 65536 < k + n → T v = !bhas x v) :
    Upto T (k + n) ((List.range' k n).foldl (fun a hb => insertFullyFlipped a x hb) ans) := by
  induction n with
  | zero => exact ha
  | succ n ih =>
    rw [List.range'_concat, List.foldl_append]
    have i := ih (by omega) fun v h1 h2 => hT v h1 (by omega)
    simp only [List.foldl_cons, List.foldl_nil, Nat.one_mul]
    exact insertFullyFlipped_spec (hb := k + n) h (by omega) i fun v hv => hT v (by omega) (by omega)

theorem takeWhile_split {A B : Bitmap} {k : Nat} (hA : ∀ p ∈ A, p.1 < k) (hB : ∀ p ∈ B, k ≤ p.1) :
    raCopiesUntil (A ++ B) k = A := by
  unfold raCopiesUntil
  rw [List.takeWhile_append_of_pos (fun p hp => by simpa using hA p hp)]
  cases B with
  | nil => simp
  | cons p t =>
    have := hB p (by simp)
    rw [List.takeWhile_cons, if_neg (by simp; omega), List.append_nil]

theorem copiesUntil_spec {x : Bitmap} (h : BInv x) {T : NSet} {k : Nat} (hT : ∀ v, v / 65536 < k → T v = bhas x v) :
    Upto T k (raCopiesUntil x k) := by
  obtain ⟨A, B, e, hA, hB⟩ := bp_exists_split h k
  have hb := bp_append.1 (e ▸ h)
  rw [e, takeWhile_split hA hB]
  refine ⟨hb.1, hA, fun v => ?_⟩
  by_cases hv : v / 65536 < k
  · rw [decide_eq_true hv, hT v hv, e, bhas_append, bhas_ne (r := B) fun p hp => by have := hB p hp; omega]
    simp
  · rw [decide_eq_false hv, bhas_ne fun p hp => by have := hA p hp; omega]; rfl

theorem copiesAfter_spec {x ans : Bitmap} (h : BInv x) {T : NSet} {k : Nat} (ha : Upto T (k + 1) ans)
    (hT : ∀ v, k < v / 65536 → T v = bhas x v) :
    BInv (ans ++ raCopiesAfter x k) ∧ ∀ v, bhas (ans ++ raCopiesAfter x k) v = T v := by
  have hh : ∃ B, raCopiesAfter x k = B ∧ BInv B ∧ (∀ p ∈ B, k < p.1) ∧ ∀ v, k < v / 65536 → bhas B v = bhas x v := by
    rcases ra_split h k with ⟨A, c, B, e, hA, hB, hi⟩ | ⟨A, B, e, hA, hB, hi⟩
    · have hbm := bp_mid.1 (e ▸ h)
      refine ⟨B, ?_, (bp_append.1 hbm.1).2.1, hB, fun v hv => ?_⟩
      · simp only [raCopiesAfter, hi]
        rw [if_pos (by omega), e, show A ++ (k, c) :: B = (A ++ [(k, c)]) ++ B by simp,
          show ((A.length : Int) + 1).toNat = (A ++ [(k, c)]).length by simp, List.drop_left]
      · rw [e, bhas_mid hA hB, if_neg (by omega), bhas_append, bhas_ne (r := A) fun p hp => by have := hA p hp; omega]
        simp
    · refine ⟨B, ?_, (bp_append.1 (e ▸ h)).2.1, hB, fun v hv => ?_⟩
      · simp only [raCopiesAfter, hi]
        rw [if_neg (by omega), show (-(-((A.length : Int) + 1)) - 1).toNat = A.length by omega, e, List.drop_left]
      · rw [e, bhas_append, bhas_ne (r := A) fun p hp => by have := hA p hp; omega]
        simp
  obtain ⟨B, e, b1, b2, b3⟩ := hh
  rw [e]
  refine ⟨bp_append.2 ⟨ha.inv, b1, fun p hp q hq => ?_⟩, fun v => ?_⟩
  · have := ha.keys p hp
    have := b2 q hq
    omega
  · rw [bhas_append, ha.has]
    by_cases hv : k < v / 65536
    · rw [decide_eq_false (by omega), b3 v hv, hT v hv]; simp
    · rw [decide_eq_true (by omega), bhas_ne (r := B) fun p hp => by have := b2 p hp; omega]; simp

theorem rbFlipClosed_spec {x : Bitmap} (h : BInv x) {rs re : Nat} (hre : re < 4294967296) :
    BInv (rbFlipClosed x rs re) ∧
      ∀ v, bhas (rbFlipClosed x rs re) v = (decide (rs ≤ v ∧ v ≤ re) != bhas x v) := by
  unfold rbFlipClosed
  by_cases h1 : rs > re
  · rw [if_pos h1]
    exact ⟨h, fun v => by rw [decide_eq_false (by omega)]; simp [rbCopy]⟩
  rw [if_neg h1]
  simp only
  have hTlow : ∀ v, v / 65536 < rs / 65536 → (decide (rs ≤ v ∧ v ≤ re) != bhas x v) = bhas x v := by
    intro v hv
    rw [decide_eq_false (by omega)]; simp
  have hThigh : ∀ v, re / 65536 < v / 65536 → (decide (rs ≤ v ∧ v ≤ re) != bhas x v) = bhas x v := by
    intro v hv
    rw [decide_eq_false (by omega)]; simp
  have h0 := copiesUntil_spec (T := fun v => decide (rs ≤ v ∧ v ≤ re) != bhas x v) h hTlow
  have hmid : ∀ v, rs ≤ v → v ≤ re → (decide (rs ≤ v ∧ v ≤ re) != bhas x v) = !bhas x v := by
    intro v h1 h2
    rw [decide_eq_true ⟨h1, h2⟩]; cases bhas x v <;> rfl
  by_cases hk : rs / 65536 = re / 65536
  · rw [if_pos hk]
    refine copiesAfter_spec h (T := fun v => decide (rs ≤ v ∧ v ≤ re) != bhas x v) ?_ hThigh
    rw [← hk]
    refine insertFlipped_spec h (by omega) (by omega) (by omega) h0 fun v hv => ?_
    congr 1
    apply decide_eq_decide.2; omega
  · rw [if_neg hk]
    have hfirst : ∃ y k, (if rs % 65536 > 0 then (insertFlipped (raCopiesUntil x (rs / 65536)) x (rs / 65536) (rs % 65536) 65535, rs / 65536 + 1)
        else (raCopiesUntil x (rs / 65536), rs / 65536)) = (y, k) ∧
          Upto (fun v => decide (rs ≤ v ∧ v ≤ re) != bhas x v) k y ∧ rs ≤ k * 65536 ∧ k ≤ re / 65536 := by
      by_cases h2 : rs % 65536 > 0
      · refine ⟨_, _, if_pos h2, ?_, by omega, by omega⟩
        refine insertFlipped_spec h (by omega) (by omega) (by omega) h0 fun v hv => ?_
        congr 1
        apply decide_eq_decide.2; omega
      · exact ⟨_, _, if_neg h2, h0, by omega, by omega⟩
    obtain ⟨y, k, e, hy, hk1, hk2⟩ := hfirst
    rw [e]
    simp only [forKeys]
    by_cases h5 : re % 65536 ≠ 65535
    · rw [if_pos h5, if_pos h5, show re / 65536 - 1 + 1 = re / 65536 by omega]
      have h6 := forKeys_insert h (k := k) (re / 65536 - k) (by omega) hy
        (fun v v1 v2 => hmid v (by omega) (by omega))
      rw [show k + (re / 65536 - k) = re / 65536 by omega] at h6
      refine copiesAfter_spec h (T := fun v => decide (rs ≤ v ∧ v ≤ re) != bhas x v) ?_ hThigh
      refine insertFlipped_spec h (by omega) (by omega) (by omega) h6 fun v hv => ?_
      congr 1
      apply decide_eq_decide.2; omega
    · rw [if_neg h5, if_neg h5]
      have h6 := forKeys_insert h (k := k) (re / 65536 + 1 - k) (by omega) hy
        (fun v v1 v2 => hmid v (by omega) (by omega))
      rw [show k + (re / 65536 + 1 - k) = re / 65536 + 1 by omega] at h6
      exact copiesAfter_spec h (T := fun v => decide (rs ≤ v ∧ v ≤ re) != bhas x v) h6 hThigh

end CRoaring
