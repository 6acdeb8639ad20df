import Verif.Model.Iter
import Verif.Lemmas.Query

set_option linter.unusedSimpArgs false
set_option linter.unusedVariables false

/-! Container iterators. -/

namespace CRoaring
open Spec

/-- `o` is the least element of `s` that is at least `a`, if there is one. -/
def NextOf (s : NSet) (a : Nat) : Option Nat → Prop
  | some y => s y = true ∧ a ≤ y ∧ ∀ z, a ≤ z → z < y → s z = false
  | none => ∀ z, a ≤ z → s z = false

/-- `o` is the greatest element of `s` below `a`, if there is one. -/
def PrevOf (s : NSet) (a : Nat) : Option Nat → Prop
  | some y => s y = true ∧ y < a ∧ ∀ z, y < z → z < a → s z = false
  | none => ∀ z, z < a → s z = false

/-- The container iterator `idx` is on the value `v`. -/
def CIt : Container → Int → Nat → Prop
  | .bitset b, idx, v => idx = v ∧ bitAt b.words v = true
  | .array l, idx, v => ∃ A B, l = A ++ v :: B ∧ idx = A.length
  | .run rs, idx, v => ∃ A r B, rs = A ++ r :: B ∧ idx = A.length ∧ r.1 ≤ v ∧ v ≤ r.1 + r.2

theorem CIt.has {c : Container} {idx : Int} {v : Nat} (h : CIt c idx v) : chas c v = true := by
  cases c with
  | bitset b => exact h.2
  | array l => obtain ⟨A, B, rfl, _⟩ := h; simp [chas]
  | run rs =>
    obtain ⟨A, r, B, rfl, _, h1, h2⟩ := h
    exact runHas_iff.2 ⟨r, by simp, h1, h2⟩

theorem NextOf.congr {s t : NSet} (h : ∀ x, s x = t x) {a : Nat} {o : Option Nat} (hn : NextOf s a o) : NextOf t a o := by
  cases o with
  | none => intro z hz; rw [← h]; exact hn z hz
  | some y => exact ⟨by rw [← h]; exact hn.1, hn.2.1, fun z h1 h2 => by rw [← h]; exact hn.2.2 z h1 h2⟩

/-! ### Bitsets -/

theorem firstBit_eq (ws : List Word) (i : Nat) (h : ∃ x, bitAt ws x = true) : firstBit i ws = bitsetMinLoop i ws := by
  induction ws generalizing i with
  | nil => obtain ⟨x, hx⟩ := h; rw [bitAt_ge (by simp)] at hx; exact absurd hx (by simp)
  | cons w ws ih =>
    rw [firstBit, bitsetMinLoop]
    by_cases hw : w = 0#64
    · rw [if_pos hw, if_neg (by simp [hw])]
      refine ih (i + 1) ?_
      obtain ⟨x, hx⟩ := h
      refine ⟨x - 64, ?_⟩
      by_cases hlt : x < 64
      · rw [bitAt_cons_lt _ _ hlt, hw] at hx; simp at hx
      · rw [← bitAt_cons_add w, show 64 + (x - 64) = x by omega]; exact hx
    · rw [if_neg hw, if_pos hw]; omega

theorem prevBit_spec (ws : List Word) (x : Nat) (k : Nat) : ∀ (word : Word), k * 64 ≤ x →
    (∀ i, i < 64 → word.getLsbD i = (bitAt ws (k * 64 + i) && decide (k * 64 + i < x))) →
    (∀ y, y < x → (k + 1) * 64 ≤ y → bitAt ws y = false) → PrevOf (bitAt ws) x (prevBit ws word k) := by
  have some_case : ∀ (k : Nat) (word : Word), ¬ word = 0#64 →
      (∀ i, i < 64 → word.getLsbD i = (bitAt ws (k * 64 + i) && decide (k * 64 + i < x))) →
      (∀ y, y < x → (k + 1) * 64 ≤ y → bitAt ws y = false) →
      PrevOf (bitAt ws) x (some (k * 64 + (63 - clz word))) := by
    intro k word hw h1 h2
    obtain ⟨c1, c2, c3⟩ := clz_spec hw
    have h3 := h1 (63 - clz word) (by omega)
    rw [c2] at h3
    have h3 := h3.symm
    simp only [Bool.and_eq_true, decide_eq_true_eq] at h3
    refine ⟨h3.1, h3.2, fun z hz1 hz2 => ?_⟩
    rcases Nat.lt_or_ge z ((k + 1) * 64) with hlt | hge
    · have h4 := h1 (z - k * 64) (by omega)
      rw [c3 _ (by omega), show k * 64 + (z - k * 64) = z by omega, decide_eq_true hz2, Bool.and_true] at h4
      exact h4.symm
    · exact h2 z hz2 hge
  have zero_case : ∀ (k : Nat) (word : Word), word = 0#64 →
      (∀ i, i < 64 → word.getLsbD i = (bitAt ws (k * 64 + i) && decide (k * 64 + i < x))) →
      (∀ y, y < x → (k + 1) * 64 ≤ y → bitAt ws y = false) → ∀ y, y < x → k * 64 ≤ y → bitAt ws y = false := by
    intro k word hw h1 h2 y hy1 hy2
    rcases Nat.lt_or_ge y ((k + 1) * 64) with hlt | hge
    · have h4 := h1 (y - k * 64) (by omega)
      rw [hw, show k * 64 + (y - k * 64) = y by omega, decide_eq_true hy1, Bool.and_true] at h4
      simpa using h4.symm
    · exact h2 y hy1 hge
  induction k with
  | zero =>
    intro word hkx h1 h2
    rw [prevBit]
    by_cases hw : word = 0#64
    · rw [if_pos hw]
      intro z hz
      exact zero_case 0 word hw h1 h2 z hz (by omega)
    · rw [if_neg hw]
      have := some_case 0 word hw h1 h2
      rwa [Nat.zero_mul, Nat.zero_add] at this
  | succ k ih =>
    intro word hkx h1 h2
    rw [prevBit]
    by_cases hw : word = 0#64
    · rw [if_pos hw]
      have hz := zero_case (k + 1) word hw h1 h2
      refine ih (wd ws k) (by omega) (fun i hi => ?_) hz
      rw [decide_eq_true (by omega), Bool.and_true, Nat.mul_comm, bitAt_word _ _ _ hi]
    · rw [if_neg hw]
      exact some_case (k + 1) word hw h1 h2

theorem lastBit_eq (ws : List Word) (n y : Nat) (h : prevBit ws (wd ws n) n = some y) : lastBit ws n = y := by
  induction n with
  | zero =>
    rw [prevBit] at h
    rw [lastBit]
    split at h
    · exact absurd h (by simp)
    · rename_i hw; rw [if_neg hw]; simpa using h
  | succ n ih =>
    rw [prevBit] at h
    rw [lastBit]
    split at h
    · rename_i hw; rw [if_pos hw]; exact ih h
    · rename_i hw; rw [if_neg hw]; simpa using h

theorem wd_bit (ws : List Word) (k i : Nat) (hi : i < 64) : (wd ws k).getLsbD i = bitAt ws (k * 64 + i) := by
  rw [Nat.mul_comm, bitAt_word _ _ _ hi]

theorem bitset_last {b : Bitset} (hl : b.words.length = 1024) (hne : ∃ x, bitAt b.words x = true) :
    PrevOf (bitAt b.words) 65536 (some (lastBit b.words (NWORDS - 1))) := by
  have h := prevBit_spec b.words 65536 1023 (wd b.words 1023) (by omega) (fun i hi => by
    rw [wd_bit _ _ _ hi, decide_eq_true (by omega), Bool.and_true]) (fun y h1 h2 => by omega)
  cases e : prevBit b.words (wd b.words 1023) 1023 with
  | none =>
    rw [e] at h
    obtain ⟨x, hx⟩ := hne
    rw [h x (bitAt_lt hl hx)] at hx
    exact absurd hx (by simp)
  | some y =>
    rw [e] at h
    rw [show NWORDS - 1 = 1023 from rfl, lastBit_eq _ _ _ e]
    exact h

theorem bitset_next {b : Bitset} (hl : b.words.length = 1024) {v : Nat} (hv : bitAt b.words v = true) :
    NextOf (bitAt b.words) (v + 1) (containerIteratorNext (.bitset b) v v).2 ∧
    ∀ v', (containerIteratorNext (.bitset b) v v).2 = some v' → CIt (.bitset b) (containerIteratorNext (.bitset b) v v).1 v' := by
  have hlt := bitAt_lt hl hv
  simp only [containerIteratorNext, show ((v : Int) + 1).toNat = v + 1 by omega, NWORDS]
  by_cases hk : (v + 1) / 64 ≥ 1024
  · rw [if_pos hk]
    refine ⟨fun z hz => ?_, fun v' h => by simp at h⟩
    rw [bitAt_ge (by omega)]
  · rw [if_neg hk]
    have hs := indexEqualOrLargerLoop_spec b.words hl (wd b.words ((v + 1) / 64) &&& (ones <<< ((v + 1) % 64)))
      ((v + 1) / 64) (1024 - 1 - (v + 1) / 64) (by omega) (v + 1) (by omega) (fun i hi => by
        rw [BitVec.getLsbD_and, wd_bit _ _ _ hi, ones_shl_getLsbD, decide_eq_true hi, Bool.true_and]
        congr 1
        rw [decide_eq_decide]
        omega) (fun y h1 h2 => by omega)
    rcases hs with ⟨e, hs⟩ | ⟨y, e, h1, h2, h3⟩
    · rw [e, if_pos rfl]
      exact ⟨fun z hz => hs z hz, fun v' h => by simp at h⟩
    · have hy := bitAt_lt hl h2
      rw [e, if_neg (by omega), Int.toNat_natCast, Nat.mod_eq_of_lt hy]
      refine ⟨⟨h2, h1, h3⟩, fun v' h => ?_⟩
      simp only [Option.some.injEq] at h
      subst h
      exact ⟨rfl, h2⟩

theorem bitset_prev {b : Bitset} (hl : b.words.length = 1024) {v : Nat} (hv : bitAt b.words v = true) :
    PrevOf (bitAt b.words) v (containerIteratorPrev (.bitset b) v v).2 ∧
    ∀ v', (containerIteratorPrev (.bitset b) v v).2 = some v' → CIt (.bitset b) (containerIteratorPrev (.bitset b) v v).1 v' := by
  have hlt := bitAt_lt hl hv
  simp only [containerIteratorPrev]
  by_cases h0 : (v : Int) - 1 < 0
  · rw [if_pos h0]
    exact ⟨fun z hz => by omega, fun v' h => by simp at h⟩
  · rw [if_neg h0, show ((v : Int) - 1).toNat = v - 1 by omega]
    have h := prevBit_spec b.words v ((v - 1) / 64) (wd b.words ((v - 1) / 64) &&& (ones >>> (63 - (v - 1) % 64)))
      (by omega) (fun i hi => by
        rw [BitVec.getLsbD_and, wd_bit _ _ _ hi, ones_shr_getLsbD]
        congr 1
        rw [decide_eq_decide]
        omega) (fun y h1 h2 => by omega)
    generalize prevBit b.words _ _ = o at h ⊢
    cases o with
    | none => exact ⟨h, fun v' h => by simp at h⟩
    | some y =>
      have hy := bitAt_lt hl h.1
      simp only [Nat.mod_eq_of_lt hy]
      refine ⟨h, fun v' e => ?_⟩
      simp only [Option.some.injEq] at e
      subst e
      exact ⟨rfl, h.1⟩

/-! ### Arrays -/

theorem rdL_mid (A : List Nat) (v : Nat) (B : List Nat) : rdL (A ++ v :: B) A.length = v := by
  simp [rdL]

theorem array_nbr {A B : List Nat} {v : Nat} (h : SSorted (A ++ v :: B)) :
    (∀ a ∈ A, a < v) ∧ (∀ b ∈ B, v < b) ∧ SSorted A ∧ SSorted B := by
  have h1 := List.pairwise_append.1 h
  have h2 := List.pairwise_cons.1 h1.2.1
  exact ⟨fun a ha => h1.2.2 a ha v (by simp), h2.1, h1.1, h2.2⟩

theorem array_next {l : List Nat} (h : SSorted l) {idx : Int} {v : Nat} (hc : CIt (.array l) idx v) :
    NextOf (chas (.array l)) (v + 1) (containerIteratorNext (.array l) idx v).2 ∧
    ∀ v', (containerIteratorNext (.array l) idx v).2 = some v' → CIt (.array l) (containerIteratorNext (.array l) idx v).1 v' := by
  obtain ⟨A, B, rfl, rfl⟩ := hc
  obtain ⟨h1, h2, _, h4⟩ := array_nbr h
  simp only [containerIteratorNext, show ((A.length : Int) + 1).toNat = A.length + 1 by omega]
  cases B with
  | nil =>
    rw [if_neg (by simp)]
    refine ⟨fun z hz => ?_, fun v' h => by simp at h⟩
    simp only [chas, decide_eq_false_iff_not, List.mem_append, List.mem_singleton]
    rintro (hh | hh)
    · have := h1 z hh; omega
    · omega
  | cons b B =>
    have e : A ++ v :: b :: B = (A ++ [v]) ++ b :: B := by simp
    have e2 : rdL (A ++ v :: b :: B) (A.length + 1) = b := by
      rw [e, show A.length + 1 = (A ++ [v]).length by simp, rdL_mid]
    rw [if_pos (by simp; omega), e2]
    have hb := h2 b (by simp)
    refine ⟨⟨by simp [chas], hb, fun z hz1 hz2 => ?_⟩, fun v' hh => ?_⟩
    · simp only [chas, decide_eq_false_iff_not, List.mem_append, List.mem_cons]
      rintro (hh | hh | hh | hh)
      · have := h1 z hh; omega
      · omega
      · omega
      · have := (List.pairwise_cons.1 h4).1 z hh; omega
    · simp only [Option.some.injEq] at hh
      subst hh
      exact ⟨A ++ [v], B, e, by simp⟩

theorem array_prev {l : List Nat} (h : SSorted l) {idx : Int} {v : Nat} (hc : CIt (.array l) idx v) :
    PrevOf (chas (.array l)) v (containerIteratorPrev (.array l) idx v).2 ∧
    ∀ v', (containerIteratorPrev (.array l) idx v).2 = some v' → CIt (.array l) (containerIteratorPrev (.array l) idx v).1 v' := by
  obtain ⟨A, B, rfl, rfl⟩ := hc
  obtain ⟨h1, h2, h3, h4⟩ := array_nbr h
  simp only [containerIteratorPrev]
  rcases List.eq_nil_or_concat A with rfl | ⟨A, a, rfl⟩
  · rw [if_pos (by simp)]
    refine ⟨fun z hz => ?_, fun v' h => by simp at h⟩
    simp only [chas, decide_eq_false_iff_not, List.nil_append, List.mem_cons]
    rintro (hh | hh)
    · omega
    · have := h2 z hh; omega
  · rw [List.concat_eq_append] at *
    have e : (A ++ [a]) ++ v :: B = A ++ a :: v :: B := by simp
    rw [if_neg (by simp), show (((A ++ [a]).length : Int) - 1).toNat = A.length by simp, e, rdL_mid]
    have ha := h1 a (by simp)
    have h5 := List.pairwise_append.1 h3
    refine ⟨⟨by simp [chas], ha, fun z hz1 hz2 => ?_⟩, fun v' hh => ?_⟩
    · simp only [chas, decide_eq_false_iff_not, List.mem_append, List.mem_cons]
      rintro (hh | hh | hh | hh)
      · have := h5.2.2 z hh a (by simp); omega
      · omega
      · omega
      · have := h2 z hh; omega
    · simp only [Option.some.injEq] at hh
      subst hh
      exact ⟨A, v :: B, rfl, by simp⟩

/-! ### Runs -/

theorem runHas_false {rs : List Rle} {z : Nat} (h : ∀ r ∈ rs, z < r.1 ∨ r.1 + r.2 < z) : runHas rs z = false := by
  rw [Bool.eq_false_iff]
  intro hh
  obtain ⟨r, hr, h1, h2⟩ := runHas_iff.1 hh
  have := h r hr
  omega

theorem run_next {rs : List Rle} (h : RunOK rs) {idx : Int} {v : Nat} (hc : CIt (.run rs) idx v) :
    NextOf (chas (.run rs)) (v + 1) (containerIteratorNext (.run rs) idx v).2 ∧
    ∀ v', (containerIteratorNext (.run rs) idx v).2 = some v' → CIt (.run rs) (containerIteratorNext (.run rs) idx v).1 v' := by
  obtain ⟨A, r, B, rfl, rfl, hv1, hv2⟩ := hc
  obtain ⟨k1, k2, k3, k4, k5⟩ := runOK_mid.1 h
  simp only [containerIteratorNext, Int.toNat_natCast, rdR_mid, show ((A.length : Int) + 1).toNat = A.length + 1 by omega]
  by_cases he : v = 65535
  · rw [if_pos he]
    refine ⟨fun z hz => runHas_false fun r' hr' => ?_, fun v' h => by simp at h⟩
    have := h.lt r' hr'
    omega
  · rw [if_neg he]
    by_cases hlt : v < r.1 + r.2
    · rw [if_pos hlt]
      refine ⟨⟨runHas_iff.2 ⟨r, by simp, by omega, by omega⟩, by omega, fun z h1 h2 => by omega⟩, fun v' hh => ?_⟩
      simp only [Option.some.injEq] at hh
      subst hh
      exact ⟨A, r, B, rfl, rfl, by omega, by omega⟩
    · rw [if_neg hlt]
      cases B with
      | nil =>
        rw [if_neg (by simp)]
        refine ⟨fun z hz => runHas_false fun r' hr' => ?_, fun v' h => by simp at h⟩
        rcases List.mem_append.1 hr' with hr' | hr'
        · have := k4 r' hr'; omega
        · simp only [List.mem_singleton] at hr'; subst hr'; omega
      | cons b B =>
        rw [if_pos (by simp; omega), rdR_mid_succ]
        have hb := k5 b (by simp)
        have hbB := runOK_cons.1 k2
        refine ⟨⟨runHas_iff.2 ⟨b, by simp, by omega, by omega⟩, by omega, fun z h1 h2 => runHas_false fun r' hr' => ?_⟩, fun v' hh => ?_⟩
        · simp only [List.mem_append, List.mem_cons] at hr'
          rcases hr' with hr' | rfl | rfl | hr'
          · have := k4 r' hr'; omega
          · omega
          · omega
          · have := hbB.2.1 r' hr'; omega
        · simp only [Option.some.injEq] at hh
          subst hh
          exact ⟨A ++ [r], b, B, by simp, by simp, by omega, by omega⟩

theorem run_prev {rs : List Rle} (h : RunOK rs) {idx : Int} {v : Nat} (hc : CIt (.run rs) idx v) :
    PrevOf (chas (.run rs)) v (containerIteratorPrev (.run rs) idx v).2 ∧
    ∀ v', (containerIteratorPrev (.run rs) idx v).2 = some v' → CIt (.run rs) (containerIteratorPrev (.run rs) idx v).1 v' := by
  obtain ⟨A, r, B, rfl, rfl, hv1, hv2⟩ := hc
  obtain ⟨k1, k2, k3, k4, k5⟩ := runOK_mid.1 h
  simp only [containerIteratorPrev, Int.toNat_natCast, rdR_mid]
  by_cases he : v = 0
  · rw [if_pos he]
    exact ⟨fun z hz => by omega, fun v' h => by simp at h⟩
  · rw [if_neg he]
    by_cases hlt : v - 1 ≥ r.1
    · rw [if_pos hlt]
      refine ⟨⟨runHas_iff.2 ⟨r, by simp, by omega, by omega⟩, by omega, fun z h1 h2 => by omega⟩, fun v' hh => ?_⟩
      simp only [Option.some.injEq] at hh
      subst hh
      exact ⟨A, r, B, rfl, rfl, by omega, by omega⟩
    · rw [if_neg hlt]
      rcases List.eq_nil_or_concat A with rfl | ⟨A, a, rfl⟩
      · rw [if_pos (by simp)]
        refine ⟨fun z hz => runHas_false fun r' hr' => ?_, fun v' h => by simp at h⟩
        simp only [List.nil_append, List.mem_cons] at hr'
        rcases hr' with rfl | hr'
        · omega
        · have := k5 r' hr'; omega
      · rw [List.concat_eq_append] at *
        have e : (A ++ [a]) ++ r :: B = A ++ a :: r :: B := by simp
        rw [if_neg (by simp), show (((A ++ [a]).length : Int) - 1).toNat = A.length by simp, e, rdR_mid]
        have ha := k4 a (by simp)
        have h5 := runOK_append.1 k1
        have halt := h.lt a (by simp)
        rw [Nat.mod_eq_of_lt halt]
        refine ⟨⟨runHas_iff.2 ⟨a, by simp, by omega, by omega⟩, by omega, fun z h1 h2 => runHas_false fun r' hr' => ?_⟩, fun v' hh => ?_⟩
        · simp only [List.mem_append, List.mem_cons] at hr'
          rcases hr' with hr' | rfl | rfl | hr'
          · have := h5.2.2 r' hr' a (by simp); omega
          · omega
          · omega
          · have := k5 r' hr'; omega
        · simp only [Option.some.injEq] at hh
          subst hh
          exact ⟨A, a, r :: B, rfl, by simp, by omega, by omega⟩

/-! ### All containers -/

theorem containerNext_spec {c : Container} (h : CInv c) {idx : Int} {v : Nat} (hc : CIt c idx v) :
    NextOf (chas c) (v + 1) (containerIteratorNext c idx v).2 ∧
    ∀ v', (containerIteratorNext c idx v).2 = some v' → CIt c (containerIteratorNext c idx v).1 v' := by
  cases c with
  | bitset b => obtain ⟨rfl, hv⟩ := hc; exact bitset_next h.1.len hv
  | array l => exact array_next h.1.sorted hc
  | run rs => exact run_next h hc

theorem containerPrev_spec {c : Container} (h : CInv c) {idx : Int} {v : Nat} (hc : CIt c idx v) :
    PrevOf (chas c) v (containerIteratorPrev c idx v).2 ∧
    ∀ v', (containerIteratorPrev c idx v).2 = some v' → CIt c (containerIteratorPrev c idx v).1 v' := by
  cases c with
  | bitset b => obtain ⟨rfl, hv⟩ := hc; exact bitset_prev h.1.len hv
  | array l => exact array_prev h.1.sorted hc
  | run rs => exact run_prev h hc

theorem containerInit_spec {c : Container} (h : CNe c) :
    CIt c (containerInitIterator c).1 (containerInitIterator c).2 ∧ NextOf (chas c) 0 (some (containerInitIterator c).2) := by
  obtain ⟨h, hne⟩ := h
  cases c with
  | bitset b =>
    have h1 := bitsetMin_spec (b := b) hne
    have h2 := bitAt_lt h.1.len h1.1
    simp only [containerInitIterator, firstBit_eq _ _ hne]
    rw [show bitsetMinLoop 0 b.words = bitsetMin b from rfl, Nat.mod_eq_of_lt h2]
    refine ⟨⟨rfl, h1.1⟩, h1.1, by omega, fun z _ hz => ?_⟩
    rw [Bool.eq_false_iff]
    intro hh
    have := h1.2 z hh
    omega
  | array l =>
    cases l with
    | nil => obtain ⟨x, hx⟩ := hne; simp [chas] at hx
    | cons a l =>
      refine ⟨⟨[], l, rfl, rfl⟩, by simp [containerInitIterator, chas, rdL], by omega, fun z _ hz => ?_⟩
      have := List.pairwise_cons.1 h.1.sorted
      simp only [containerInitIterator, rdL, List.getD_cons_zero] at hz
      simp only [chas, decide_eq_false_iff_not, List.mem_cons]
      rintro (hh | hh)
      · omega
      · have := this.1 z hh; omega
  | run rs =>
    cases rs with
    | nil => obtain ⟨x, hx⟩ := hne; simp [chas] at hx
    | cons a l =>
      have hh := runOK_cons.1 h
      refine ⟨⟨[], a, l, rfl, rfl, by simp [containerInitIterator, rdR], by simp [containerInitIterator, rdR]⟩,
        runHas_iff.2 ⟨a, by simp, by simp [containerInitIterator, rdR], by simp [containerInitIterator, rdR]⟩, by omega,
        fun z _ hz => runHas_false fun r hr => ?_⟩
      simp only [containerInitIterator, rdR, List.getD_cons_zero] at hz
      rcases List.mem_cons.1 hr with rfl | hr
      · omega
      · have := hh.2.1 r hr; omega

theorem containerInitLast_spec {c : Container} (h : CNe c) :
    CIt c (containerInitIteratorLast c).1 (containerInitIteratorLast c).2 ∧
      PrevOf (chas c) 65536 (some (containerInitIteratorLast c).2) := by
  obtain ⟨h, hne⟩ := h
  cases c with
  | bitset b =>
    have h1 := bitset_last h.1.len hne
    have h2 := bitAt_lt h.1.len h1.1
    simp only [containerInitIteratorLast]
    rw [Nat.mod_eq_of_lt h2]
    exact ⟨⟨rfl, h1.1⟩, h1⟩
  | array l =>
    rcases List.eq_nil_or_concat l with rfl | ⟨A, a, rfl⟩
    · obtain ⟨x, hx⟩ := hne; simp [chas] at hx
    · rw [List.concat_eq_append] at *
      simp only [containerInitIteratorLast, show (A ++ [a]).length - 1 = A.length by simp, rdL_mid]
      have h1 := array_nbr h.1.sorted
      refine ⟨⟨A, [], rfl, by simp⟩, by simp [chas], h.1.lt a (by simp), fun z hz _ => ?_⟩
      simp only [chas, decide_eq_false_iff_not, List.mem_append, List.mem_singleton]
      rintro (hh | hh)
      · have := h1.1 z hh; omega
      · omega
  | run rs =>
    rcases List.eq_nil_or_concat rs with rfl | ⟨A, a, rfl⟩
    · obtain ⟨x, hx⟩ := hne; simp [chas] at hx
    · rw [List.concat_eq_append] at *
      simp only [containerInitIteratorLast, show (A ++ [a]).length - 1 = A.length by simp, rdR_mid]
      have h1 := runOK_mid.1 h
      have hlt := h.lt a (by simp)
      rw [Nat.mod_eq_of_lt hlt]
      refine ⟨⟨A, a, [], rfl, by simp, by omega, by omega⟩, runHas_iff.2 ⟨a, by simp, by omega, by omega⟩, hlt,
        fun z hz _ => runHas_false fun r hr => ?_⟩
      rcases List.mem_append.1 hr with hr | hr
      · have := h1.2.2.2.1 r hr; omega
      · simp only [List.mem_singleton] at hr; subst hr; omega

theorem split_at {l : List Nat} {i : Nat} (h : i < l.length) : ∃ A B, l = A ++ rdL l i :: B ∧ A.length = i := by
  refine ⟨l.take i, l.drop (i + 1), ?_, by simp; omega⟩
  rw [rdL_eq h]
  simp

theorem containerLowerBound_spec {c : Container} (h : CNe c) (idx : Int) {val : Nat} (hv : val ≤ containerMax c) :
    ∃ v', (containerIteratorLowerBound c idx val).2 = some v' ∧ NextOf (chas c) val (some v') ∧
      CIt c (containerIteratorLowerBound c idx val).1 v' := by
  have hmax := containerMax_spec h.1.rep h.2
  have hlt := h.1.rep.lt hmax.1
  unfold containerIteratorLowerBound
  rw [if_neg (by omega)]
  obtain ⟨h, hne⟩ := h
  cases c with
  | bitset b =>
    rcases bitsetIndexEqualOrLarger_spec h.1.len (x := val) (by omega) with ⟨_, e⟩ | ⟨y, e, h1, h2, h3⟩
    · rw [show chas (.bitset b) = bitAt b.words from rfl, e _ hv] at hmax
      exact absurd hmax.1 (by simp)
    · have hy := bitAt_lt h.1.len h2
      simp only [e]
      refine ⟨y, by simp only [u16]; congr 1; omega, ⟨h2, h1, h3⟩, rfl, h2⟩
  | array l =>
    have hl := lb_le l val
    have hs := h.1.sorted
    have hi : lb l val < l.length := by
      rcases Nat.lt_or_ge (lb l val) l.length with hh | hh
      · exact hh
      · exfalso
        have h1 : containerMax (.array l) ∈ l := by simpa [chas] using hmax.1
        have h2 : ∀ a ∈ l, a < val := by
          have : l.countP (· < val) = l.length := by have : lb l val = l.length := by omega
                                                     exact this
          rw [List.countP_eq_length] at this
          simpa using this
        have := h2 _ h1
        omega
    simp only [arrayIndexEqualOrLarger_eq hs, if_pos hi, Int.toNat_natCast]
    obtain ⟨A, B, e, hA⟩ := split_at hi
    refine ⟨_, rfl, ?_, A, B, e, by omega⟩
    have hle : val ≤ rdL l (lb l val) := by
      have := (rdL_lt_iff hs hi (x := val))
      omega
    refine ⟨?_, hle, fun z h1 h2 => ?_⟩
    · have := rdL_mem hi
      simpa [chas] using this
    · simp only [chas, decide_eq_false_iff_not]
      intro hz
      obtain ⟨i, hi', rfl⟩ := List.mem_iff_getElem.1 hz
      rw [← rdL_eq hi'] at h1 h2
      have h3 := rdL_lt_iff hs val hi'
      rcases Nat.lt_trichotomy i (lb l val) with h4 | h4 | h4
      · omega
      · rw [h4] at h2; omega
      · have := rdL_strict hs h4 hi'; omega
  | run rs =>
    obtain ⟨A, B, rfl, hA, hB, e⟩ := runIndexEqualOrLarger_spec h val
    cases B with
    | nil =>
      obtain ⟨r, hr, h1, h2⟩ := runHas_iff.1 hmax.1
      have := hA r (by simpa using hr)
      omega
    | cons b B =>
      rw [if_neg (by simp)] at e
      have hk := runOK_mid.1 h
      have hb := hB b (by simp)
      simp only [e, Int.toNat_natCast, rdR_mid]
      by_cases hle : b.1 ≤ val
      · rw [if_pos hle]
        exact ⟨val, rfl, ⟨runHas_iff.2 ⟨b, by simp, hle, hb⟩, by omega, fun z h1 h2 => by omega⟩, A, b, B, rfl, rfl, hle, hb⟩
      · rw [if_neg hle]
        refine ⟨b.1, rfl, ⟨runHas_iff.2 ⟨b, by simp, by omega, by omega⟩, by omega, fun z h1 h2 => runHas_false fun r hr => ?_⟩,
          A, b, B, rfl, rfl, by omega, by omega⟩
        simp only [List.mem_append, List.mem_cons] at hr
        rcases hr with hr | rfl | hr
        · have := hA r hr; omega
        · omega
        · have := hk.2.2.2.2 r hr; omega

/-! ### Values from a position on -/

/-- The elements of `s` below `n` that are at least `v`, in increasing order. -/
def fromL (n : Nat) (s : NSet) (v : Nat) : List Nat := (enum n s).filter (fun x => decide (v ≤ x))

theorem mem_fromL {n : Nat} {s : NSet} {v x : Nat} : x ∈ fromL n s v ↔ x < n ∧ s x = true ∧ v ≤ x := by
  simp only [fromL, List.mem_filter, mem_enum, decide_eq_true_eq, and_assoc]

theorem fromL_sorted (n : Nat) (s : NSet) (v : Nat) : SSorted (fromL n s v) := (enum_sorted n s).filter _

theorem fromL_none {n : Nat} {s : NSet} {v : Nat} (h : NextOf s v none) : fromL n s v = [] := by
  rw [List.eq_nil_iff_forall_not_mem]
  intro x hx
  obtain ⟨_, h1, h2⟩ := mem_fromL.1 hx
  rw [h x h2] at h1
  exact absurd h1 (by simp)

theorem fromL_next {n : Nat} {s : NSet} {v y : Nat} (h : NextOf s v (some y)) (hy : y < n) :
    fromL n s v = y :: fromL n s (y + 1) := by
  refine sorted_ext (fromL_sorted _ _ _) (List.pairwise_cons.2 ⟨fun a ha => ?_, fromL_sorted _ _ _⟩) fun x => ?_
  · have := (mem_fromL.1 ha).2.2; omega
  · rw [List.mem_cons, mem_fromL, mem_fromL]
    constructor
    · rintro ⟨h1, h2, h3⟩
      rcases Nat.lt_trichotomy x y with h4 | h4 | h4
      · rw [h.2.2 x h3 h4] at h2; exact absurd h2 (by simp)
      · exact Or.inl h4
      · exact Or.inr ⟨h1, h2, by omega⟩
    · rintro (rfl | ⟨h1, h2, h3⟩)
      · exact ⟨hy, h.1, h.2.1⟩
      · have := h.2.1; exact ⟨h1, h2, by omega⟩

theorem fromL_skip {n : Nat} {s : NSet} {v w : Nat} (hvw : v ≤ w) (h : ∀ x, v ≤ x → x < w → s x = false) :
    fromL n s v = fromL n s w := by
  refine sorted_ext (fromL_sorted _ _ _) (fromL_sorted _ _ _) fun x => ?_
  rw [mem_fromL, mem_fromL]
  constructor
  · rintro ⟨h1, h2, h3⟩
    refine ⟨h1, h2, ?_⟩
    rcases Nat.lt_or_ge x w with h4 | h4
    · rw [h x h3 h4] at h2; exact absurd h2 (by simp)
    · exact h4
  · rintro ⟨h1, h2, h3⟩; exact ⟨h1, h2, by omega⟩

theorem fromL_range {n : Nat} {s : NSet} {v m : Nat} (h : ∀ x, v ≤ x → x < v + m → s x = true) (hn : v + m ≤ n) :
    fromL n s v = List.range' v m ++ fromL n s (v + m) := by
  refine sorted_ext (fromL_sorted _ _ _) (List.pairwise_append.2 ⟨List.pairwise_lt_range', fromL_sorted _ _ _, fun a ha b hb => ?_⟩) fun x => ?_
  · have := (mem_fromL.1 hb).2.2
    rw [List.mem_range'_1] at ha
    omega
  · rw [List.mem_append, mem_fromL, mem_fromL, List.mem_range'_1]
    constructor
    · rintro ⟨h1, h2, h3⟩
      rcases Nat.lt_or_ge x (v + m) with h4 | h4
      · exact Or.inl ⟨h3, h4⟩
      · exact Or.inr ⟨h1, h2, h4⟩
    · rintro (⟨h1, h2⟩ | ⟨h1, h2, h3⟩)
      · exact ⟨by omega, h x h1 h2, h1⟩
      · exact ⟨h1, h2, by omega⟩

theorem fromL_ge {n : Nat} {s : NSet} {v : Nat} (h : n ≤ v) : fromL n s v = [] := by
  rw [List.eq_nil_iff_forall_not_mem]
  intro x hx
  obtain ⟨h0, h1, h2⟩ := mem_fromL.1 hx
  omega

/-! ### Bulk reads -/

theorem map_rdL_append (A B : List Nat) (high n : Nat) (h : n ≤ B.length) :
    (List.range n).map (fun i => high ||| rdL (A ++ B) (A.length + i)) = (B.take n).map (fun x => high ||| x) := by
  apply List.ext_getElem
  · simp; omega
  · intro i h1 h2
    simp only [List.length_map, List.length_range] at h1
    simp only [List.getElem_map, List.getElem_range, List.getElem_take]
    rw [rdL_eq (by simp; omega)]
    simp

theorem array_read {l : List Nat} (h : ArrOK l) (high : Nat) {count : Nat} (hc0 : 0 < count) (hl : l.length ≤ 4096)
    {idx : Int} {v : Nat} (hc : CIt (.array l) idx v) :
    (containerIteratorRead (.array l) idx high count v).1 = ((fromL 65536 (chas (.array l)) v).take count).map (fun x => high ||| x) ∧
    (containerIteratorRead (.array l) idx high count v).2.2 = (fromL 65536 (chas (.array l)) v)[count]? ∧
    ∀ v', (containerIteratorRead (.array l) idx high count v).2.2 = some v' →
      CIt (.array l) (containerIteratorRead (.array l) idx high count v).2.1 v' := by
  obtain ⟨A, B, rfl, rfl⟩ := hc
  obtain ⟨h1, h2, h3, h4⟩ := array_nbr h.sorted
  have ef : fromL 65536 (chas (.array (A ++ v :: B))) v = v :: B := by
    refine sorted_ext (fromL_sorted _ _ _) (List.pairwise_cons.2 ⟨h2, h4⟩) fun x => ?_
    rw [mem_fromL]
    simp only [chas, decide_eq_true_eq, List.mem_append, List.mem_cons]
    constructor
    · rintro ⟨_, hh | hh, h5⟩
      · have := h1 x hh; omega
      · exact hh
    · intro hh
      refine ⟨h.lt x (by simp [hh]), Or.inr hh, ?_⟩
      rcases hh with rfl | hh
      · omega
      · have := h2 x hh; omega
  have hlen : (A ++ v :: B).length = A.length + (B.length + 1) := by simp
  simp only [containerIteratorRead, if_neg (show ¬ count = 0 by omega), Int.toNat_natCast]
  rw [ef, show u32 (((A ++ v :: B).length : Int) - A.length) = (v :: B).length by simp only [u32, hlen, List.length_cons]; rw [hlen] at hl; omega]
  rw [map_rdL_append A (v :: B) high _ (Nat.min_le_left _ _)]
  have et : (v :: B).take (Nat.min (v :: B).length count) = (v :: B).take count := by
    rcases Nat.le_total (v :: B).length count with h5 | h5
    · rw [show Nat.min (v :: B).length count = (v :: B).length from Nat.min_eq_left h5, List.take_of_length_le h5,
        List.take_of_length_le (Nat.le_refl _)]
    · rw [show Nat.min (v :: B).length count = count from Nat.min_eq_right h5]
  rw [et]
  rcases Nat.lt_or_ge count (v :: B).length with h5 | h5
  · rw [show Nat.min (v :: B).length count = count from Nat.min_eq_right (by omega)]
    rw [if_pos (by rw [hlen]; simp at h5; omega), show ((A.length : Int) + count).toNat = A.length + count by omega]
    have h6 : rdL (A ++ v :: B) (A.length + count) = (v :: B)[count] := by
      rw [rdL_eq (by simp at h5 ⊢; omega)]
      simp
    refine ⟨rfl, by rw [h6, List.getElem?_eq_getElem h5], fun v' hh => ?_⟩
    simp only [Option.some.injEq] at hh
    subst hh
    obtain ⟨A', B', e, hA'⟩ := split_at (l := A ++ v :: B) (i := A.length + count) (by simp at h5 ⊢; omega)
    exact ⟨A', B', e, by show (A.length : Int) + count = A'.length; omega⟩
  · rw [show Nat.min (v :: B).length count = (v :: B).length from Nat.min_eq_left h5]
    rw [if_neg (by rw [hlen]; simp)]
    exact ⟨rfl, by rw [List.getElem?_eq_none h5], fun v' hh => by simp at hh⟩

theorem map_range_add (high v n : Nat) :
    (List.range n).map (fun i => high ||| (v + i)) = (List.range' v n).map (fun x => high ||| x) := by
  rw [List.range'_eq_map_range, List.map_map]
  rfl

theorem take_range'_le {v m c : Nat} (h : c ≤ m) : (List.range' v m).take c = List.range' v c := by
  obtain ⟨d, rfl⟩ := Nat.exists_eq_add_of_le h
  rw [← List.range'_append_1, List.take_left' (by simp)]

theorem get_range'_lt {v m c : Nat} (h : c < m) : (List.range' v m)[c]? = some (v + c) := by
  rw [List.getElem?_eq_getElem (by simpa using h), List.getElem_range']
  simp

theorem run_from {A B : List Rle} {r : Rle} (h : RunOK (A ++ r :: B)) {v : Nat} (h1 : r.1 ≤ v) (h2 : v ≤ r.1 + r.2) :
    fromL 65536 (runHas (A ++ r :: B)) v =
      List.range' v (r.1 + r.2 + 1 - v) ++ fromL 65536 (runHas (A ++ r :: B)) (r.1 + r.2 + 1) := by
  have hlt := h.lt r (by simp)
  have := fromL_range (n := 65536) (s := runHas (A ++ r :: B)) (v := v) (m := r.1 + r.2 + 1 - v)
    (fun x h3 h4 => runHas_iff.2 ⟨r, by simp, by omega, by omega⟩) (by omega)
  rwa [show v + (r.1 + r.2 + 1 - v) = r.1 + r.2 + 1 by omega] at this

theorem run_read (high : Nat) (B : List Rle) : ∀ (A : List Rle) (r : Rle) (fuel v count : Nat), RunOK (A ++ r :: B) →
    B.length < fuel → 0 < count → r.1 ≤ v → v ≤ r.1 + r.2 →
    (readRuns (A ++ r :: B) high fuel A.length v count).1 =
      ((fromL 65536 (runHas (A ++ r :: B)) v).take count).map (fun x => high ||| x) ∧
    (readRuns (A ++ r :: B) high fuel A.length v count).2.2 = (fromL 65536 (runHas (A ++ r :: B)) v)[count]? ∧
    ∀ v', (readRuns (A ++ r :: B) high fuel A.length v count).2.2 = some v' →
      CIt (.run (A ++ r :: B)) (readRuns (A ++ r :: B) high fuel A.length v count).2.1 v' := by
  induction B with
  | nil =>
    intro A r fuel v count h hf hc h1 h2
    obtain ⟨fuel, rfl⟩ : ∃ f, fuel = f + 1 := ⟨fuel - 1, by simp at hf; omega⟩
    have hlt := h.lt r (by simp)
    have hk := runOK_mid.1 h
    rw [run_from h h1 h2]
    have hnil : fromL 65536 (runHas (A ++ [r])) (r.1 + r.2 + 1) = [] := fromL_none fun z hz => runHas_false fun r' hr' => by
      rcases List.mem_append.1 hr' with hr' | hr'
      · have := hk.2.2.2.1 r' hr'; omega
      · simp only [List.mem_singleton] at hr'; subst hr'; omega
    rw [hnil, List.append_nil]
    simp only [readRuns, Int.toNat_natCast, rdR_mid]
    rw [show u32 (((r.1 + r.2 : Nat) : Int) - v + 1) = r.1 + r.2 + 1 - v by simp only [u32]; omega]
    generalize hm : r.1 + r.2 + 1 - v = m
    rcases Nat.lt_or_ge count m with h5 | h5
    · rw [show Nat.min m count = count from Nat.min_eq_right (by omega), map_range_add]
      rw [if_neg (by omega), if_neg (by omega)]
      refine ⟨?_, ?_, fun v' hh => ?_⟩
      · rw [take_range'_le (by omega)]
      · rw [get_range'_lt h5, Nat.mod_eq_of_lt (by omega)]
      · simp only [Option.some.injEq] at hh
        subst hh
        exact ⟨A, r, [], rfl, rfl, by omega, by omega⟩
    · rw [show Nat.min m count = m from Nat.min_eq_left h5, map_range_add]
      rw [if_pos (by omega), if_neg (by simp)]
      exact ⟨by rw [List.take_of_length_le (by simp; omega)], by rw [List.getElem?_eq_none (by simp; omega)], fun v' hh => by simp at hh⟩
  | cons b B ih =>
    intro A r fuel v count h hf hc h1 h2
    obtain ⟨fuel, rfl⟩ : ∃ f, fuel = f + 1 := ⟨fuel - 1, by simp at hf; omega⟩
    have hlt := h.lt r (by simp)
    have hk := runOK_mid.1 h
    have hb := hk.2.2.2.2 b (by simp)
    have e : A ++ r :: b :: B = (A ++ [r]) ++ b :: B := by simp
    have eL : ((A.length : Int) + 1) = ((A ++ [r]).length : Nat) := by simp
    rw [run_from h h1 h2]
    have hskip : fromL 65536 (runHas (A ++ r :: b :: B)) (r.1 + r.2 + 1) = fromL 65536 (runHas (A ++ r :: b :: B)) b.1 := by
      refine fromL_skip (by omega) fun z hz1 hz2 => runHas_false fun r' hr' => ?_
      simp only [List.mem_append, List.mem_cons] at hr'
      rcases hr' with hr' | rfl | rfl | hr'
      · have := hk.2.2.2.1 r' hr'; omega
      · omega
      · omega
      · have := (runOK_cons.1 hk.2.1).2.1 r' hr'; omega
    rw [hskip]
    simp only [readRuns, Int.toNat_natCast, rdR_mid]
    rw [show u32 (((r.1 + r.2 : Nat) : Int) - v + 1) = r.1 + r.2 + 1 - v by simp only [u32]; omega]
    generalize hm : r.1 + r.2 + 1 - v = m
    rcases Nat.lt_or_ge count m with h5 | h5
    · rw [show Nat.min m count = count from Nat.min_eq_right (by omega), map_range_add]
      rw [if_neg (by omega), if_neg (by omega)]
      refine ⟨?_, ?_, fun v' hh => ?_⟩
      · rw [List.take_append_of_le_length (by simp; omega), take_range'_le (by omega)]
      · rw [List.getElem?_append_left (by simp; omega), get_range'_lt h5, Nat.mod_eq_of_lt (by omega)]
      · simp only [Option.some.injEq] at hh
        subst hh
        exact ⟨A, r, b :: B, rfl, rfl, by omega, by omega⟩
    · rw [show Nat.min m count = m from Nat.min_eq_left h5, map_range_add]
      rw [if_pos (by omega), if_pos (by simp; omega), show ((A.length : Int) + 1).toNat = A.length + 1 by omega, rdR_mid_succ]
      by_cases h6 : m < count
      · rw [if_pos h6]
        have hi := ih (A ++ [r]) b fuel b.1 (count - m) (e ▸ h) (by simp at hf; omega) (by omega) (by omega) (by omega)
        rw [← eL, ← e] at hi
        refine ⟨?_, ?_, hi.2.2⟩
        · simp only
          rw [hi.1, List.take_append, List.map_append, List.length_range', List.take_of_length_le (l := List.range' v m) (by simp; omega)]
        · rw [hi.2.1, List.getElem?_append_right (by simp; omega), List.length_range']
      · rw [if_neg h6]
        have h7 : count = m := by omega
        have hbl := h.lt b (by simp)
        have hcons := fromL_next (n := 65536) (s := runHas (A ++ r :: b :: B)) (v := b.1) (y := b.1)
          ⟨runHas_iff.2 ⟨b, by simp, by omega, by omega⟩, by omega, fun z h1 h2 => by omega⟩ (by omega)
        refine ⟨?_, ?_, fun v' hh => ?_⟩
        · rw [List.take_append_of_le_length (by simp; omega), List.take_of_length_le (by simp; omega)]
        · rw [List.getElem?_append_right (by simp; omega), List.length_range', h7, Nat.sub_self, hcons]
          rfl
        · simp only [Option.some.injEq] at hh
          subst hh
          exact ⟨A ++ [r], b, B, e, eL, by omega, by omega⟩

/-! Bitsets. -/

theorem readWord_spec (high base : Nat) (count : Nat) : ∀ (w : Word),
    (readWord high base count w).1 = ((extractWord w base).take count).map (fun x => high ||| x) ∧
    extractWord (readWord high base count w).2 base = (extractWord w base).drop count := by
  induction count with
  | zero => intro w; simp [readWord]
  | succ n ih =>
    intro w
    rw [readWord]
    by_cases hw : w = 0#64
    · rw [if_pos hw, hw, extractWord]; simp [extractWord]
    · rw [if_neg hw, extractWord, dif_neg hw]
      simp only [List.take_succ_cons, List.map_cons, List.drop_succ_cons]
      have := ih (w &&& (w - 1#64))
      exact ⟨by rw [this.1, Nat.add_comm], this.2⟩

theorem extractWord_nil {w : Word} {base : Nat} : extractWord w base = [] ↔ w = 0#64 := by
  constructor
  · intro h
    rw [extractWord] at h
    by_cases hw : w = 0#64
    · exact hw
    · rw [dif_neg hw] at h; exact absurd h (by simp)
  · rintro rfl
    rw [extractWord]; simp

theorem from_word {ws : List Word} (hl : ws.length = 1024) {v : Nat} (hv : v < 65536) :
    fromL 65536 (bitAt ws) v =
      extractWord (wd ws (v / 64) &&& (ones <<< (v % 64))) (v / 64 * 64) ++ fromL 65536 (bitAt ws) ((v / 64 + 1) * 64) := by
  refine sorted_ext (fromL_sorted _ _ _) (List.pairwise_append.2 ⟨extractWord_sorted _ _, fromL_sorted _ _ _, fun a ha b hb => ?_⟩) fun x => ?_
  · have := (mem_fromL.1 hb).2.2
    have := (mem_extractWord _ _ _).1 ha
    omega
  · rw [List.mem_append, mem_fromL, mem_fromL, mem_extractWord]
    constructor
    · rintro ⟨h1, h2, h3⟩
      rcases Nat.lt_or_ge x ((v / 64 + 1) * 64) with h4 | h4
      · refine Or.inl ⟨by omega, by omega, ?_⟩
        rw [BitVec.getLsbD_and, wd_bit _ _ _ (by omega), ones_shl_getLsbD, show v / 64 * 64 + (x - v / 64 * 64) = x by omega, h2,
          decide_eq_true (by omega), decide_eq_true (by omega)]
        rfl
      · exact Or.inr ⟨h1, h2, h4⟩
    · rintro (⟨h1, h2, h3⟩ | ⟨h1, h2, h3⟩)
      · rw [BitVec.getLsbD_and, wd_bit _ _ _ (by omega), ones_shl_getLsbD, show v / 64 * 64 + (x - v / 64 * 64) = x by omega] at h3
        simp only [Bool.and_eq_true, decide_eq_true_eq] at h3
        exact ⟨by omega, h3.1, by omega⟩
      · exact ⟨h1, h2, by omega⟩

theorem from_word0 {ws : List Word} (hl : ws.length = 1024) {k : Nat} (hk : k < 1024) :
    fromL 65536 (bitAt ws) (k * 64) = extractWord (wd ws k) (k * 64) ++ fromL 65536 (bitAt ws) ((k + 1) * 64) := by
  have := from_word hl (v := k * 64) (by omega)
  rw [show k * 64 / 64 = k by omega, show k * 64 % 64 = 0 by omega] at this
  have e : wd ws k &&& (ones <<< 0) = wd ws k := by
    apply word_ext
    intro i hi
    rw [BitVec.getLsbD_and, ones_shl_getLsbD, decide_eq_true hi, decide_eq_true (by omega)]
    simp
  rw [this, e]

/-- The values of the word `w` at index `k` and of the words behind it. -/
def restL (ws : List Word) (k : Nat) (w : Word) : List Nat :=
  extractWord w (k * 64) ++ fromL 65536 (bitAt ws) ((k + 1) * 64)

theorem skipWords_spec {ws : List Word} (hl : ws.length = 1024) (n : Nat) : ∀ (k : Nat) (w : Word), k + n = 1023 →
    restL ws (skipWords ws w k n).1 (skipWords ws w k n).2 = restL ws k w ∧ k ≤ (skipWords ws w k n).1 ∧
    (skipWords ws w k n).1 ≤ 1023 ∧
    ((skipWords ws w k n).2 = 0#64 → restL ws k w = []) ∧ (w = 0#64 → (skipWords ws w k n).2 ≠ 0#64 → k < (skipWords ws w k n).1) := by
  induction n with
  | zero =>
    intro k w hk
    refine ⟨rfl, Nat.le_refl _, by rw [skipWords]; omega, fun h => ?_, fun h h' => absurd h h'⟩
    rw [skipWords] at h
    rw [restL, extractWord_nil.2 h, fromL_ge (by omega)]
    rfl
  | succ n ih =>
    intro k w hk
    rw [skipWords]
    by_cases hw : w = 0#64
    · rw [if_pos hw]
      obtain ⟨i1, i2, i3, i4, i5⟩ := ih (k + 1) (wd ws (k + 1)) (by omega)
      have e : restL ws k w = restL ws (k + 1) (wd ws (k + 1)) := by
        rw [restL, extractWord_nil.2 hw, List.nil_append, from_word0 hl (by omega), restL]
      rw [e]
      exact ⟨i1, by omega, i3, i4, fun _ _ => by omega⟩
    · rw [if_neg hw]
      exact ⟨rfl, Nat.le_refl _, by omega, fun h => absurd h hw, fun h => absurd h hw⟩

theorem readBits_spec {ws : List Word} (hl : ws.length = 1024) (high : Nat) (fuel : Nat) : ∀ (k : Nat) (w : Word) (count : Nat),
    k < 1024 → 1024 ≤ fuel + k → 0 < count →
    (readBits ws high fuel k w count).1 = ((restL ws k w).take count).map (fun x => high ||| x) ∧
    restL ws (readBits ws high fuel k w count).2.1 (readBits ws high fuel k w count).2.2 = (restL ws k w).drop count ∧
    ((readBits ws high fuel k w count).2.2 = 0#64 → (restL ws k w).drop count = []) := by
  induction fuel with
  | zero => intro k w count hk hf; omega
  | succ fuel ih =>
    intro k w count hk hf hc
    obtain ⟨r1, r2⟩ := readWord_spec high (k * 64) count w
    rw [readBits]
    generalize readWord high (k * 64) count w = p at r1 r2 ⊢
    obtain ⟨s1, s2, s3, s4, s5⟩ := skipWords_spec hl (NWORDS - 1 - k) k p.2 (by simp only [NWORDS]; omega)
    simp only
    generalize skipWords ws p.2 k (NWORDS - 1 - k) = q at s1 s2 s3 s4 s5 ⊢
    have hlen : p.1.length = min count (extractWord w (k * 64)).length := by rw [r1]; simp
    have hr : restL ws k p.2 = (extractWord w (k * 64)).drop count ++ fromL 65536 (bitAt ws) ((k + 1) * 64) := by
      rw [restL, r2]
    by_cases hcond : q.2 ≠ 0#64 ∧ p.1.length < count
    · rw [if_pos hcond]
      have hle : (extractWord w (k * 64)).length < count := by omega
      have hp2 : p.2 = 0#64 := extractWord_nil.1 (by rw [r2, List.drop_eq_nil_of_le (by omega)])
      have hkq := s5 hp2 hcond.1
      obtain ⟨i1, i2, i3⟩ := ih q.1 q.2 (count - p.1.length) (by omega) (by omega) (by omega)
      have hl2 : p.1.length = (extractWord w (k * 64)).length := by omega
      have hr2 : restL ws q.1 q.2 = fromL 65536 (bitAt ws) ((k + 1) * 64) := by
        rw [s1, hr, List.drop_eq_nil_of_le (by omega), List.nil_append]
      have hd : (restL ws k w).drop count = (restL ws q.1 q.2).drop (count - p.1.length) := by
        rw [hr2, restL, List.drop_append, List.drop_eq_nil_of_le (by omega), List.nil_append, hl2]
      refine ⟨?_, by rw [i2, hd], fun h => by rw [hd]; exact i3 h⟩
      simp only
      rw [i1, hl2, r1, hr2, restL, List.take_append, List.map_append]
    · rw [if_neg hcond]
      have hfull : q.2 = 0#64 ∨ count ≤ (extractWord w (k * 64)).length := by
        by_cases hq : q.2 = 0#64
        · exact Or.inl hq
        · right
          have : ¬ p.1.length < count := fun h => hcond ⟨hq, h⟩
          omega
      have hd : (restL ws k w).drop count = restL ws k p.2 := by
        rcases hfull with hq | hle
        · have h0 := s4 hq
          rw [h0]
          rw [hr] at h0
          obtain ⟨h1, h2⟩ := List.append_eq_nil_iff.1 h0
          rw [restL, h2, List.append_nil]
          exact h1
        · rw [hr, restL, List.drop_append_of_le_length hle]
      have ht : (restL ws k w).take count = (extractWord w (k * 64)).take count := by
        rcases hfull with hq | hle
        · have h0 := s4 hq
          rw [hr] at h0
          rw [restL, (List.append_eq_nil_iff.1 h0).2, List.append_nil]
        · rw [restL, List.take_append_of_le_length hle]
      exact ⟨by rw [r1, ht], by rw [s1, hd], fun h => by rw [hd]; exact s4 h⟩

theorem bitset_read {b : Bitset} (hl : b.words.length = 1024) (high : Nat) {count : Nat} (hc0 : 0 < count)
    {v : Nat} (hv : bitAt b.words v = true) :
    (containerIteratorRead (.bitset b) v high count v).1 = ((fromL 65536 (bitAt b.words) v).take count).map (fun x => high ||| x) ∧
    (containerIteratorRead (.bitset b) v high count v).2.2 = (fromL 65536 (bitAt b.words) v)[count]? ∧
    ∀ v', (containerIteratorRead (.bitset b) v high count v).2.2 = some v' →
      CIt (.bitset b) (containerIteratorRead (.bitset b) v high count v).2.1 v' := by
  have hlt := bitAt_lt hl hv
  simp only [containerIteratorRead, if_neg (show ¬ count = 0 by omega), Int.toNat_natCast]
  obtain ⟨i1, i2, i3⟩ := readBits_spec hl high NWORDS (v / 64) (wd b.words (v / 64) &&& (ones <<< (v % 64))) count
    (by omega) (by simp only [NWORDS]; omega) hc0
  have er : restL b.words (v / 64) (wd b.words (v / 64) &&& (ones <<< (v % 64))) = fromL 65536 (bitAt b.words) v :=
    (from_word hl hlt).symm
  rw [er] at i1 i2 i3
  generalize readBits b.words high NWORDS _ _ count = q at i1 i2 i3 ⊢
  by_cases hq : q.2.2 = 0#64
  · rw [if_neg (by simpa using hq)]
    refine ⟨i1, ?_, fun v' hh => by simp at hh⟩
    have := List.drop_eq_nil_iff.1 (i3 hq)
    rw [List.getElem?_eq_none this]
  · rw [if_pos hq]
    have hh : ((fromL 65536 (bitAt b.words) v).drop count)[0]? = some (q.2.1 * 64 + ctz q.2.2) := by
      rw [← i2, restL, extractWord, dif_neg hq, Nat.add_comm]
      rfl
    rw [List.getElem?_drop, Nat.add_zero] at hh
    have hm := mem_fromL.1 (List.mem_of_getElem? hh)
    rw [Nat.mod_eq_of_lt hm.1]
    refine ⟨i1, hh.symm, fun v' h => ?_⟩
    simp only [Option.some.injEq] at h
    subst h
    exact ⟨rfl, hm.2.1⟩

theorem containerRead_spec {c : Container} (h : CInv c) (high : Nat) {count : Nat} (hc0 : 0 < count) {idx : Int} {v : Nat}
    (hc : CIt c idx v) :
    (containerIteratorRead c idx high count v).1 = ((fromL 65536 (chas c) v).take count).map (fun x => high ||| x) ∧
    (containerIteratorRead c idx high count v).2.2 = (fromL 65536 (chas c) v)[count]? ∧
    ∀ v', (containerIteratorRead c idx high count v).2.2 = some v' → CIt c (containerIteratorRead c idx high count v).2.1 v' := by
  cases c with
  | bitset b => obtain ⟨rfl, hv⟩ := hc; exact bitset_read h.1.len high hc0 hv
  | array l => exact array_read h.1 high hc0 h.2 hc
  | run rs =>
    obtain ⟨A, r, B, rfl, rfl, h1, h2⟩ := hc
    have := run_read high B A r (A ++ r :: B).length v count h (by simp; omega) hc0 h1 h2
    simp only [containerIteratorRead, if_neg (show ¬ count = 0 by omega)]
    exact this

end CRoaring
