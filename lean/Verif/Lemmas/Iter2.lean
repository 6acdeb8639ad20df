import Verif.Lemmas.Iter

set_option linter.unusedSimpArgs false
set_option linter.unusedVariables false
set_option linter.constructorNameAsVariable false

/-! Iterators over bitmaps. -/

namespace CRoaring
open Spec

/-- The iterator is on the value `w`. -/
structure AtV (r : Bitmap) (it : Iter) (w : Nat) (A : Bitmap) (c : Container) (B : Bitmap) : Prop where
  eq : r = A ++ (w / 65536, c) :: B
  ci : it.containerIndex = A.length
  hv : it.hasValue = true
  cont : it.container = c
  high : it.highbits = (w / 65536) <<< 16
  cit : CIt c it.cit (w % 65536)
  cur : it.currentValue = w

/-- The iterator is behind the last value. -/
structure EndV (r : Bitmap) (it : Iter) : Prop where
  ci : it.containerIndex = r.length
  hv : it.hasValue = false
  cur : it.currentValue = 4294967295

/-- The iterator is before the first value. -/
structure BegV (r : Bitmap) (it : Iter) : Prop where
  ci : it.containerIndex = -1
  hv : it.hasValue = false
  cur : it.currentValue = 4294967295

def LandsF (r : Bitmap) (it : Iter) : Option Nat → Prop
  | some w => ∃ A c B, AtV r it w A c B
  | none => EndV r it

def LandsB (r : Bitmap) (it : Iter) : Option Nat → Prop
  | some w => ∃ A c B, AtV r it w A c B
  | none => BegV r it

theorem lor_high {y k : Nat} (h : y < 65536) : k <<< 16 ||| y = k * 65536 + y := by rw [Nat.or_comm, lor_shl h]

theorem next_in {A B : Bitmap} {k : Nat} {c : Container} (h : BInv (A ++ (k, c) :: B)) {a m : Nat}
    (hm : NextOf (chas c) a (some m)) : NextOf (bhas (A ++ (k, c) :: B)) (k * 65536 + a) (some (k * 65536 + m)) := by
  obtain ⟨h1, h2, h3, h4, h5⟩ := bp_mid.1 h
  have hlt := h3.1.rep.lt hm.1
  refine ⟨?_, by have := hm.2.1; omega, fun z hz1 hz2 => ?_⟩
  · rw [bhas_mid h4 h5, if_pos (by omega), show (k * 65536 + m) % 65536 = m by omega]; exact hm.1
  · rw [bhas_mid h4 h5, if_pos (by omega)]
    exact hm.2.2 _ (by omega) (by omega)

theorem prev_in {A B : Bitmap} {k : Nat} {c : Container} (h : BInv (A ++ (k, c) :: B)) {a m : Nat} (ha : a ≤ 65536)
    (hm : PrevOf (chas c) a (some m)) : PrevOf (bhas (A ++ (k, c) :: B)) (k * 65536 + a) (some (k * 65536 + m)) := by
  obtain ⟨h1, h2, h3, h4, h5⟩ := bp_mid.1 h
  have hlt := hm.2.1
  refine ⟨?_, by omega, fun z hz1 hz2 => ?_⟩
  · rw [bhas_mid h4 h5, if_pos (by omega), show (k * 65536 + m) % 65536 = m by omega]; exact hm.1
  · rw [bhas_mid h4 h5, if_pos (by omega)]
    exact hm.2.2 _ (by omega) (by omega)

theorem next_split {A B : Bitmap} {a : Nat} (hA : ∀ x, bhas A x = true → x < a) (hB : ∀ x, bhas B x = true → a ≤ x)
    {o : Option Nat} (h : NextOf (bhas B) 0 o) : NextOf (bhas (A ++ B)) a o := by
  have hAf : ∀ z, a ≤ z → bhas A z = false := fun z hz => by
    rw [Bool.eq_false_iff]; intro hh; have := hA z hh; omega
  cases o with
  | none => intro z hz; rw [bhas_append, hAf z hz, h z (by omega)]; rfl
  | some y =>
    refine ⟨by rw [bhas_append, h.1, Bool.or_true], hB y h.1, fun z h1 h2 => ?_⟩
    rw [bhas_append, hAf z h1, h.2.2 z (by omega) h2]; rfl

theorem prev_split {A B : Bitmap} {a n : Nat} (hA : ∀ x, bhas A x = true → x < a) (hB : ∀ x, bhas B x = true → a ≤ x)
    (hn : ∀ x, bhas A x = true → x < n) {o : Option Nat} (h : PrevOf (bhas A) n o) : PrevOf (bhas (A ++ B)) a o := by
  have hBf : ∀ z, z < a → bhas B z = false := fun z hz => by
    rw [Bool.eq_false_iff]; intro hh; have := hB z hh; omega
  have hnf : ∀ z, n ≤ z → bhas A z = false := fun z hz => by
    rw [Bool.eq_false_iff]; intro hh; have := hn z hh; omega
  cases o with
  | none =>
    intro z hz
    rw [bhas_append, hBf z hz, Bool.or_false]
    rcases Nat.lt_or_ge z n with h1 | h1
    · exact h z h1
    · exact hnf z h1
  | some y =>
    refine ⟨by rw [bhas_append, h.1, Bool.true_or], hA y h.1, fun z h1 h2 => ?_⟩
    rw [bhas_append, hBf z h2, Bool.or_false]
    rcases Nat.lt_or_ge z n with h3 | h3
    · exact h.2.2 z h1 h3
    · exact hnf z h3

theorem partialInit_mid {A B : Bitmap} {k : Nat} {c : Container} {it : Iter} (hci : it.containerIndex = A.length) :
    iterPartialInit (A ++ (k, c) :: B) it =
      { it with hasValue := true, container := c, highbits := k <<< 16, currentValue := 0 } := by
  unfold iterPartialInit
  rw [if_neg (by rw [hci, List.length_append, List.length_cons]; omega)]
  simp only [hci, Int.toNat_natCast, contAt_mid, keyAt_mid]

theorem loadFirst_spec {A B : Bitmap} (h : BInv (A ++ B)) {it : Iter} (hci : it.containerIndex = A.length) :
    ∃ o, NextOf (bhas B) 0 o ∧ LandsF (A ++ B) (loadFirst (A ++ B) it) o := by
  cases B with
  | nil =>
    refine ⟨none, fun z _ => rfl, ?_⟩
    rw [List.append_nil]
    unfold loadFirst iterPartialInit
    rw [if_pos (Or.inl (by omega))]
    exact ⟨hci, rfl, rfl⟩
  | cons p B =>
    obtain ⟨k, c⟩ := p
    obtain ⟨h1, h2, h3, h4, h5⟩ := bp_mid.1 h
    obtain ⟨i1, i2⟩ := containerInit_spec h3
    have hlt := h3.1.rep.lt i2.1
    have hB := (bp_append.1 h).2.1
    refine ⟨some (k * 65536 + (containerInitIterator c).2), ?_, A, c, B, ?_⟩
    · have := next_in (A := []) hB i2
      simp only [List.nil_append, Nat.add_zero] at this
      refine ⟨this.1, by omega, fun z _ hz => ?_⟩
      rcases Nat.lt_or_ge z (k * 65536) with h6 | h6
      · rw [Bool.eq_false_iff]
        intro hh
        obtain ⟨p, hp, e, _⟩ := bhas_key hh
        rcases List.mem_cons.1 hp with rfl | hp
        · simp only at e; omega
        · have := h5 p hp; omega
      · exact this.2.2 z h6 hz
    · unfold loadFirst
      rw [partialInit_mid hci]
      simp only [if_true]
      have e1 : (k * 65536 + (containerInitIterator c).2) / 65536 = k := by omega
      have e2 : (k * 65536 + (containerInitIterator c).2) % 65536 = (containerInitIterator c).2 := by omega
      exact ⟨by rw [e1], hci, rfl, rfl, by rw [e1], by rw [e2]; exact i1, lor_high hlt⟩

theorem loadLast_spec {A B : Bitmap} (h : BInv (A ++ B)) {it : Iter} (hci : it.containerIndex = (A.length : Int) - 1) :
    ∃ o, PrevOf (bhas A) 4294967296 o ∧ LandsB (A ++ B) (loadLast (A ++ B) it) o := by
  rcases List.eq_nil_or_concat A with rfl | ⟨A, ⟨k, c⟩, rfl⟩
  · refine ⟨none, fun z _ => rfl, ?_⟩
    unfold loadLast iterPartialInit
    rw [if_pos (Or.inr (by simp at hci; omega))]
    exact ⟨by simpa using hci, rfl, rfl⟩
  · rw [List.concat_eq_append] at *
    have e : (A ++ [(k, c)]) ++ B = A ++ (k, c) :: B := by simp
    have hAb := (bp_append.1 h).1
    obtain ⟨_, hk, h3, h4, _⟩ := bp_mid.1 hAb
    obtain ⟨i1, i2⟩ := containerInitLast_spec h3
    have hlt := h3.1.rep.lt i2.1
    have hci : it.containerIndex = A.length := by simp at hci; omega
    rw [e]
    refine ⟨some (k * 65536 + (containerInitIteratorLast c).2), ?_, A, c, B, ?_⟩
    · have := prev_in hAb (by omega) i2
      refine ⟨this.1, by omega, fun z hz1 hz2 => ?_⟩
      rcases Nat.lt_or_ge z (k * 65536 + 65536) with h6 | h6
      · exact this.2.2 z hz1 h6
      · rw [Bool.eq_false_iff]
        intro hh
        obtain ⟨p, hp, e, _⟩ := bhas_key hh
        rcases List.mem_append.1 hp with hp | hp
        · have := h4 p hp; omega
        · simp only [List.mem_singleton] at hp; subst hp; simp only at e; omega
    · unfold loadLast
      rw [partialInit_mid hci]
      simp only [if_true]
      have e1 : (k * 65536 + (containerInitIteratorLast c).2) / 65536 = k := by omega
      have e2 : (k * 65536 + (containerInitIteratorLast c).2) % 65536 = (containerInitIteratorLast c).2 := by omega
      exact ⟨by rw [e1], hci, rfl, rfl, by rw [e1], by rw [e2]; exact i1, lor_high hlt⟩

theorem iterInit_spec {r : Bitmap} (h : BInv r) (junk : Iter) :
    ∃ o, NextOf (bhas r) 0 o ∧ LandsF r (iterInit r junk) o := by
  have := loadFirst_spec (A := []) (B := r) h (it := { junk with containerIndex := 0 }) rfl
  exact this

theorem iterInitLast_spec {r : Bitmap} (h : BInv r) (junk : Iter) :
    ∃ o, PrevOf (bhas r) 4294967296 o ∧ LandsB r (iterInitLast r junk) o := by
  have := loadLast_spec (A := r) (B := []) (by rwa [List.append_nil]) (it := { junk with containerIndex := (r.length : Int) - 1 }) rfl
  rwa [List.append_nil] at this

theorem iterAdvance_at {r : Bitmap} (h : BInv r) {it : Iter} {w : Nat} {A B : Bitmap} {c : Container} (hat : AtV r it w A c B) :
    ∃ o, NextOf (bhas r) (w + 1) o ∧ LandsF r (iterAdvance r it) o := by
  obtain ⟨er, hci, hhv, hcont, hhigh, hcit, hcur⟩ := hat
  subst hcont
  subst hcur
  have hb := bp_mid.1 (er ▸ h)
  obtain ⟨n1, n2⟩ := containerNext_spec hb.2.2.1.1 hcit
  unfold iterAdvance
  rw [if_neg (by rw [hci, er, List.length_append, List.length_cons]; omega), if_neg (by omega)]
  simp only
  generalize hp : containerIteratorNext it.container it.cit (it.currentValue % 65536) = p at n1 n2
  obtain ⟨idx, o⟩ := p
  cases o with
  | some v =>
    have hv := hb.2.2.1.1.rep.lt n1.1
    have hn := next_in (er ▸ h) n1
    rw [← er, show it.currentValue / 65536 * 65536 + (it.currentValue % 65536 + 1) = it.currentValue + 1 by omega] at hn
    refine ⟨_, hn, A, it.container, B, ?_⟩
    have e1 : (it.currentValue / 65536 * 65536 + v) / 65536 = it.currentValue / 65536 := by omega
    have e2 : (it.currentValue / 65536 * 65536 + v) % 65536 = v := by omega
    exact ⟨by rw [e1]; exact er, hci, rfl, rfl, by rw [e1]; exact hhigh, by rw [e2]; exact n2 v rfl,
      by show it.highbits ||| v = _; rw [hhigh, lor_high hv]⟩
  | none =>
    have e : r = (A ++ [(it.currentValue / 65536, it.container)]) ++ B := by rw [er]; simp
    obtain ⟨o, ho1, ho2⟩ := loadFirst_spec (A := A ++ [(it.currentValue / 65536, it.container)]) (B := B) (e ▸ h)
      (it := { it with cit := idx, containerIndex := it.containerIndex + 1 }) (by simp [hci])
    rw [← e] at ho2
    refine ⟨o, ?_, ho2⟩
    rw [e]
    refine next_split (fun x hx => ?_) (fun x hx => ?_) ho1
    · rw [bhas_append, Bool.or_eq_true] at hx
      rcases hx with hx | hx
      · obtain ⟨p, hp, e, _⟩ := bhas_key hx
        have := hb.2.2.2.1 p hp
        omega
      · obtain ⟨p, hp, e, hh⟩ := bhas_key hx
        simp only [List.mem_singleton] at hp
        subst hp
        rcases Nat.lt_or_ge x (it.currentValue + 1) with h1 | h1
        · exact h1
        · have := n1 (x % 65536) (by simp only at e; omega)
          rw [this] at hh
          exact absurd hh (by simp)
    · obtain ⟨p, hp, e, _⟩ := bhas_key hx
      have := hb.2.2.2.2 p hp
      omega

theorem iterAdvance_beg {r : Bitmap} (h : BInv r) {it : Iter} (hat : BegV r it) :
    ∃ o, NextOf (bhas r) 0 o ∧ LandsF r (iterAdvance r it) o := by
  unfold iterAdvance
  rw [if_neg (by rw [hat.ci]; omega), if_pos (by rw [hat.ci]; omega)]
  exact loadFirst_spec (A := []) (B := r) h (it := { it with containerIndex := 0 }) rfl

theorem iterAdvance_end {r : Bitmap} {it : Iter} (hat : EndV r it) : EndV r (iterAdvance r it) := by
  unfold iterAdvance
  rw [if_pos (by rw [hat.ci]; omega)]
  exact ⟨hat.ci, rfl, hat.cur⟩

theorem iterPrevious_at {r : Bitmap} (h : BInv r) {it : Iter} {w : Nat} {A B : Bitmap} {c : Container} (hat : AtV r it w A c B) :
    ∃ o, PrevOf (bhas r) w o ∧ LandsB r (iterPrevious r it) o := by
  obtain ⟨er, hci, hhv, hcont, hhigh, hcit, hcur⟩ := hat
  subst hcont
  subst hcur
  have hb := bp_mid.1 (er ▸ h)
  obtain ⟨n1, n2⟩ := containerPrev_spec hb.2.2.1.1 hcit
  unfold iterPrevious
  rw [if_neg (by omega), if_neg (by rw [hci, er, List.length_append, List.length_cons]; omega)]
  simp only
  generalize hp : containerIteratorPrev it.container it.cit (it.currentValue % 65536) = p at n1 n2
  obtain ⟨idx, o⟩ := p
  cases o with
  | some v =>
    have hv := hb.2.2.1.1.rep.lt n1.1
    have hn := prev_in (er ▸ h) (by omega) n1
    rw [← er, show it.currentValue / 65536 * 65536 + it.currentValue % 65536 = it.currentValue by omega] at hn
    refine ⟨_, hn, A, it.container, B, ?_⟩
    have e1 : (it.currentValue / 65536 * 65536 + v) / 65536 = it.currentValue / 65536 := by omega
    have e2 : (it.currentValue / 65536 * 65536 + v) % 65536 = v := by omega
    exact ⟨by rw [e1]; exact er, hci, rfl, rfl, by rw [e1]; exact hhigh, by rw [e2]; exact n2 v rfl,
      by show it.highbits ||| v = _; rw [hhigh, lor_high hv]⟩
  | none =>
    obtain ⟨o, ho1, ho2⟩ := loadLast_spec (A := A) (B := (it.currentValue / 65536, it.container) :: B) (er ▸ h)
      (it := { it with cit := idx, containerIndex := it.containerIndex - 1 }) (by simp [hci])
    rw [← er] at ho2
    refine ⟨o, ?_, ho2⟩
    rw [er]
    have hA : ∀ x, bhas A x = true → x < it.currentValue / 65536 * 65536 := fun x hx => by
      obtain ⟨p, hp, e, _⟩ := bhas_key hx
      have := hb.2.2.2.1 p hp
      omega
    refine prev_split (n := 4294967296) (fun x hx => by have := hA x hx; omega) (fun x hx => ?_) (fun x hx => ?_) ho1
    · obtain ⟨p, hp, e, hh⟩ := bhas_key hx
      rcases List.mem_cons.1 hp with rfl | hp
      · rcases Nat.lt_or_ge x it.currentValue with h1 | h1
        · have := n1 (x % 65536) (by simp only at e; omega)
          rw [this] at hh
          exact absurd hh (by simp)
        · exact h1
      · have := hb.2.2.2.2 p hp
        omega
    · exact bhas_lt (bp_append.1 (er ▸ h)).1 hx

theorem iterPrevious_end {r : Bitmap} (h : BInv r) {it : Iter} (hat : EndV r it) :
    ∃ o, PrevOf (bhas r) 4294967296 o ∧ LandsB r (iterPrevious r it) o := by
  unfold iterPrevious
  rw [if_neg (by rw [hat.ci]; omega), if_pos (by rw [hat.ci]; omega)]
  have := loadLast_spec (A := r) (B := []) (by rwa [List.append_nil]) (it := { it with containerIndex := (r.length : Int) - 1 }) rfl
  rwa [List.append_nil] at this

theorem iterPrevious_beg {r : Bitmap} {it : Iter} (hat : BegV r it) : BegV r (iterPrevious r it) := by
  unfold iterPrevious
  rw [if_pos (by rw [hat.ci]; omega)]
  exact ⟨hat.ci, rfl, hat.cur⟩

theorem iterMove_spec {r : Bitmap} (h : BInv r) (it : Iter) {val : Nat} (hval : val < 4294967296) :
    ∃ o, NextOf (bhas r) val o ∧ LandsF r (iterMove r it val) o := by
  unfold iterMove
  rw [show val / 65536 % 65536 = val / 65536 by omega]
  simp only
  rcases ra_split h (val / 65536) with ⟨A, c, B, e, hA, hB, hi⟩ | ⟨A, B, e, hA, hB, hi⟩
  · rw [hi, if_pos (by omega), Int.toNat_natCast]
    have hb := bp_mid.1 (e ▸ h)
    have hct : contAt r A.length = c := by rw [e, contAt_mid]
    have hmax := containerMax_spec hb.2.2.1.1.rep hb.2.2.1.2
    rw [hct]
    by_cases hlt : containerMax c < val % 65536
    · rw [if_pos hlt]
      have e' : r = (A ++ [(val / 65536, c)]) ++ B := by rw [e]; simp
      obtain ⟨o, ho1, ho2⟩ := loadFirst_spec (A := A ++ [(val / 65536, c)]) (B := B) (e' ▸ h)
        (it := { it with containerIndex := (A.length : Int) + 1 }) (by simp)
      rw [← e'] at ho2
      refine ⟨o, ?_, ho2⟩
      rw [e']
      refine next_split (fun x hx => ?_) (fun x hx => ?_) ho1
      · rw [bhas_append, Bool.or_eq_true] at hx
        rcases hx with hx | hx
        · obtain ⟨p, hp, e, _⟩ := bhas_key hx
          have := hA p hp
          omega
        · obtain ⟨p, hp, e, hh⟩ := bhas_key hx
          simp only [List.mem_singleton] at hp
          subst hp
          have := hmax.2 _ hh
          simp only at e
          omega
      · obtain ⟨p, hp, e, _⟩ := bhas_key hx
        have := hB p hp
        omega
    · rw [if_neg hlt]
      unfold loadFirstGe iterPartialInit
      have hsz : ¬ ((A.length : Int) ≥ r.length ∨ (A.length : Int) < 0) := by rw [e]; simp; omega
      have hkt : keyAt r A.length = val / 65536 := by rw [e, keyAt_mid]
      simp only [if_neg hsz, Int.toNat_natCast, hct, hkt, if_true]
      obtain ⟨v', l1, l2, l3⟩ := containerLowerBound_spec hb.2.2.1 (containerInitIterator c).1 (val := val % 65536) (by omega)
      have hv := hb.2.2.1.1.rep.lt l2.1
      have hn := next_in (e ▸ h) l2
      rw [← e, show val / 65536 * 65536 + val % 65536 = val by omega] at hn
      rw [l1]
      refine ⟨_, hn, A, c, B, ?_⟩
      have e1 : (val / 65536 * 65536 + v') / 65536 = val / 65536 := by omega
      have e2 : (val / 65536 * 65536 + v') % 65536 = v' := by omega
      exact ⟨by rw [e1]; exact e, rfl, rfl, rfl, by rw [e1], by rw [e2]; exact l3, lor_high hv⟩
  · rw [hi, if_neg (by omega)]
    obtain ⟨o, ho1, ho2⟩ := loadFirst_spec (A := A) (B := B) (e ▸ h)
      (it := { it with containerIndex := -(-((A.length : Int) + 1)) - 1 }) (by simp)
    rw [← e] at ho2
    refine ⟨o, ?_, ho2⟩
    rw [e]
    refine next_split (fun x hx => ?_) (fun x hx => ?_) ho1
    · obtain ⟨p, hp, e, _⟩ := bhas_key hx
      have := hA p hp
      omega
    · obtain ⟨p, hp, e, _⟩ := bhas_key hx
      have := hB p hp
      omega

/-- The values from the iterator's position on. -/
def restO (s : NSet) : Option Nat → List Nat
  | some w => fromL 4294967296 s w
  | none => []

theorem restO_next {s : NSet} {a : Nat} {o : Option Nat} (h : NextOf s a o) (hlt : ∀ x, s x = true → x < 4294967296) :
    restO s o = fromL 4294967296 s a := by
  cases o with
  | none => exact (fromL_none h).symm
  | some w => exact (fromL_skip h.2.1 h.2.2).symm

theorem from_mid {A B : Bitmap} {k : Nat} {c : Container} (h : BInv (A ++ (k, c) :: B)) {a : Nat} :
    fromL 4294967296 (bhas (A ++ (k, c) :: B)) (k * 65536 + a) =
      (fromL 65536 (chas c) a).map (fun x => k <<< 16 ||| x) ++ fromL 4294967296 (bhas B) (k * 65536 + a) := by
  obtain ⟨h1, h2, h3, h4, h5⟩ := bp_mid.1 h
  have hmap : (fromL 65536 (chas c) a).map (fun x => k <<< 16 ||| x) = (fromL 65536 (chas c) a).map (fun x => k * 65536 + x) :=
    List.map_congr_left (fun x hx => lor_high (mem_fromL.1 hx).1)
  rw [hmap]
  have hbk : ∀ {x}, bhas B x = true → k < x / 65536 := fun {x} hx => by
    obtain ⟨p, hp, e, _⟩ := bhas_key hx
    have := h5 p hp
    omega
  apply sorted_ext (fromL_sorted _ _ _)
  · refine List.pairwise_append.2 ⟨?_, fromL_sorted _ _ _, ?_⟩
    · rw [List.pairwise_map]
      exact (fromL_sorted _ _ _).imp (fun hab => by omega)
    · intro x hx y hy
      obtain ⟨z, hz, rfl⟩ := List.mem_map.1 hx
      have := hbk (mem_fromL.1 hy).2.1
      have := (mem_fromL.1 hz).1
      omega
  · intro x
    rw [List.mem_append, List.mem_map, mem_fromL, mem_fromL]
    constructor
    · rintro ⟨a1, a2, a3⟩
      by_cases hk : x / 65536 = k
      · rw [bhas_mid h4 h5, if_pos hk] at a2
        exact Or.inl ⟨x % 65536, mem_fromL.2 ⟨by omega, a2, by omega⟩, by omega⟩
      · refine Or.inr ⟨a1, ?_, a3⟩
        rw [bhas_append, Bool.or_eq_true, bhas_cons, Bool.or_eq_true] at a2
        rcases a2 with a2 | a2 | a2
        · obtain ⟨p, hp, e, _⟩ := bhas_key a2
          have := h4 p hp
          omega
        · simp at a2; omega
        · exact a2
    · rintro (⟨z, hz, rfl⟩ | ⟨a1, a2, a3⟩)
      · obtain ⟨z1, z2, z3⟩ := mem_fromL.1 hz
        refine ⟨by omega, ?_, by omega⟩
        rw [bhas_mid h4 h5, if_pos (by omega), show (k * 65536 + z) % 65536 = z by omega]
        exact z2
      · refine ⟨a1, ?_, a3⟩
        rw [bhas_append, bhas_cons, a2]
        simp

theorem landsF_none {r : Bitmap} {it : Iter} (h : LandsF r it none) : it.hasValue = false := h.hv

theorem iterReadLoop_spec {r : Bitmap} (h : BInv r) (fuel : Nat) : ∀ (it : Iter) (count : Nat) (o : Option Nat),
    LandsF r it o → (r.length : Int) < fuel + it.containerIndex →
    (iterReadLoop r fuel it count).1 = (restO (bhas r) o).take count ∧
    LandsF r (iterReadLoop r fuel it count).2 ((restO (bhas r) o)[count]?) := by
  induction fuel with
  | zero =>
    intro it count o hl hf
    cases o with
    | none => have := hl.ci; omega
    | some w =>
      obtain ⟨A, c, B, hat⟩ := hl
      have := hat.ci
      rw [hat.eq, List.length_append, List.length_cons] at hf
      omega
  | succ fuel ih =>
    intro it count o hl hf
    cases o with
    | none =>
      rw [iterReadLoop, hl.hv]
      simp only [Bool.false_and, Bool.false_eq_true, if_false, restO, List.take_nil, List.getElem?_nil]
      exact ⟨trivial, hl⟩
    | some w =>
      have hl0 := hl
      obtain ⟨A, c, B, er, hci, hhv, hcont, hhigh, hcit, hcur⟩ := hl
      have hw : bhas r w = true := by
        have hb := bp_mid.1 (er ▸ h)
        rw [er, bhas_mid hb.2.2.2.1 hb.2.2.2.2, if_pos rfl]
        exact hcit.has
      have hw32 := bhas_lt h hw
      have hcons : restO (bhas r) (some w) = w :: fromL 4294967296 (bhas r) (w + 1) :=
        fromL_next ⟨hw, Nat.le_refl _, fun z h1 h2 => by omega⟩ hw32
      rw [iterReadLoop]
      rcases Nat.eq_zero_or_pos count with hc0 | hc0
      · subst hc0
        rw [if_neg (by simp)]
        simp only [List.take_zero, hcons, List.getElem?_cons_zero]
        exact ⟨trivial, hl0⟩
      · rw [if_pos (by simp [hhv, hc0])]
        subst hcont
        subst hcur
        have hb := bp_mid.1 (er ▸ h)
        obtain ⟨n1, n2, n3⟩ := containerRead_spec hb.2.2.1.1 it.highbits hc0 hcit
        have hfm := from_mid (er ▸ h) (a := it.currentValue % 65536)
        rw [← er, show it.currentValue / 65536 * 65536 + it.currentValue % 65536 = it.currentValue by omega, ← hhigh] at hfm
        have hrest : restO (bhas r) (some it.currentValue) = fromL 4294967296 (bhas r) it.currentValue := rfl
        rw [hrest, hfm]
        generalize hp : containerIteratorRead it.container it.cit it.highbits count (it.currentValue % 65536) = p at n1 n2 n3
        obtain ⟨out, idx, o⟩ := p
        simp only at n1 n2 n3
        cases o with
        | some v =>
          have hlen : count < (fromL 65536 (chas it.container) (it.currentValue % 65536)).length :=
            (List.getElem?_eq_some_iff.1 n2.symm).1
          have hv : v ∈ fromL 65536 (chas it.container) (it.currentValue % 65536) := List.mem_of_getElem? n2.symm
          have hv := (mem_fromL.1 hv).1
          rw [List.take_append_of_le_length (by rw [List.length_map]; omega),
            List.getElem?_append_left (by rw [List.length_map]; omega), List.getElem?_map, ← n2]
          refine ⟨by rw [← List.map_take]; exact n1, A, it.container, B, ?_⟩
          simp only
          have e0 : it.highbits ||| v = it.currentValue / 65536 * 65536 + v := by rw [hhigh, lor_high hv]
          have e1 : (it.highbits ||| v) / 65536 = it.currentValue / 65536 := by rw [e0]; omega
          have e2 : (it.highbits ||| v) % 65536 = v := by rw [e0]; omega
          exact ⟨by rw [e1]; exact er, hci, rfl, rfl, by rw [e1]; exact hhigh, by rw [e2]; exact n3 v rfl, rfl⟩
        | none =>
          have hlen := List.getElem?_eq_none_iff.1 n2.symm
          have e : r = (A ++ [(it.currentValue / 65536, it.container)]) ++ B := by rw [er]; simp
          have hBB : BInv B := (bp_append.1 (e ▸ h)).2.1
          obtain ⟨o, ho1, ho2⟩ := loadFirst_spec (A := A ++ [(it.currentValue / 65536, it.container)]) (B := B) (e ▸ h)
            (it := { it with cit := idx, containerIndex := it.containerIndex + 1 }) (by simp [hci])
          rw [← e] at ho2
          have hbk : ∀ {x}, bhas B x = true → it.currentValue / 65536 < x / 65536 := fun {x} hx => by
            obtain ⟨p, hp, e, _⟩ := bhas_key hx
            have := hb.2.2.2.2 p hp
            omega
          have hr1 : restO (bhas r) o = fromL 4294967296 (bhas B) it.currentValue := by
            have hnx : NextOf (bhas r) ((it.currentValue / 65536 + 1) * 65536) o := by
              rw [e]
              refine next_split (fun x hx => ?_) (fun x hx => by have := hbk hx; omega) ho1
              obtain ⟨p, hp, e, _⟩ := bhas_key hx
              rcases List.mem_append.1 hp with hp | hp
              · have := hb.2.2.2.1 p hp
                omega
              · simp only [List.mem_singleton] at hp
                subst hp
                simp only at e
                omega
            rw [restO_next hnx (fun x hx => bhas_lt h hx)]
            apply sorted_ext (fromL_sorted _ _ _) (fromL_sorted _ _ _)
            intro x
            rw [mem_fromL, mem_fromL, e, bhas_append, Bool.or_eq_true]
            constructor
            · rintro ⟨a1, a2 | a2, a3⟩
              · obtain ⟨p, hp, e, _⟩ := bhas_key a2
                rcases List.mem_append.1 hp with hp | hp
                · have := hb.2.2.2.1 p hp
                  omega
                · simp only [List.mem_singleton] at hp
                  subst hp
                  simp only at e
                  omega
              · exact ⟨a1, a2, by omega⟩
            · rintro ⟨a1, a2, a3⟩
              exact ⟨a1, Or.inr a2, by have := hbk a2; omega⟩
          have hci2 : (loadFirst r { it with cit := idx, containerIndex := it.containerIndex + 1 }).containerIndex
              = it.containerIndex + 1 := by
            unfold loadFirst iterPartialInit
            simp only
            split <;> simp
          obtain ⟨i1, i2⟩ := ih _ (count - out.length) o ho2 (by rw [hci2]; omega)
          have hol : out.length = (fromL 65536 (chas it.container) (it.currentValue % 65536)).length := by
            rw [n1, List.length_map, List.length_take]; omega
          rw [List.take_of_length_le hlen] at n1
          rw [List.take_append, List.getElem?_append_right (by rw [List.length_map]; exact hlen), List.length_map,
            List.take_of_length_le (by rw [List.length_map]; exact hlen), ← n1, ← hol, ← hr1]
          exact ⟨by show out ++ _ = _; rw [i1], i2⟩

theorem iterRead_spec {r : Bitmap} (h : BInv r) {it : Iter} {o : Option Nat} (hl : LandsF r it o) (count : Nat) :
    (iterRead r it count).1 = (restO (bhas r) o).take count ∧
    LandsF r (iterRead r it count).2 ((restO (bhas r) o)[count]?) := by
  apply iterReadLoop_spec h _ _ _ _ hl
  cases o with
  | none => rw [hl.ci]; push_cast; omega
  | some w =>
    obtain ⟨A, c, B, hat⟩ := hl
    rw [hat.ci]; push_cast; omega

theorem iterRead_novalue {r : Bitmap} {it : Iter} (hv : it.hasValue = false) (count : Nat) :
    iterRead r it count = ([], it) := by
  rw [iterRead, iterReadLoop, hv]
  rfl

/-! ### Positions -/

/-- The iterator is at position `i`: 0 is before the first value, `i` is on the value of rank `i`, and one more than the
cardinality is behind the last value. -/
def RelI (r : Bitmap) (it : Iter) (i : Nat) : Prop :=
  (i = 0 ∧ BegV r it) ∨ (∃ w A c B, AtV r it w A c B ∧ bhas r w = true ∧ i = card w (bhas r) + 1) ∨
  (i = card 4294967296 (bhas r) + 1 ∧ EndV r it)

theorem atV_has {r : Bitmap} (h : BInv r) {it : Iter} {w : Nat} {A c B} (hat : AtV r it w A c B) : bhas r w = true := by
  have hb := bp_mid.1 (hat.eq ▸ h)
  rw [hat.eq, bhas_mid hb.2.2.2.1 hb.2.2.2.2, if_pos rfl]
  exact hat.cit.has

theorem enum_split {n w : Nat} {s : NSet} (h : w ≤ n) : enum n s = enum w s ++ fromL n s w := by
  apply sorted_ext (enum_sorted _ _)
  · refine List.pairwise_append.2 ⟨enum_sorted _ _, fromL_sorted _ _ _, fun x hx y hy => ?_⟩
    have := (mem_enum.1 hx).1
    have := (mem_fromL.1 hy).2.2
    omega
  · intro x
    rw [List.mem_append, mem_enum, mem_enum, mem_fromL]
    constructor
    · rintro ⟨a, b⟩
      rcases Nat.lt_or_ge x w with h1 | h1
      · exact Or.inl ⟨h1, b⟩
      · exact Or.inr ⟨a, b, h1⟩
    · rintro (⟨a, b⟩ | ⟨a, b, _⟩)
      · exact ⟨by omega, b⟩
      · exact ⟨a, b⟩

theorem fromL_drop {n w : Nat} {s : NSet} (h : w ≤ n) : fromL n s w = (enum n s).drop (card w s) := by
  rw [enum_split h]
  exact List.drop_left.symm

theorem card_from {n w : Nat} {s : NSet} (h : w ≤ n) : card n s = card w s + (fromL n s w).length := by
  show (enum n s).length = _
  rw [enum_split h, List.length_append]
  rfl

theorem card_gap {a w : Nat} {s : NSet} (h : a ≤ w) (hz : ∀ z, a ≤ z → z < w → s z = false) : card w s = card a s := by
  rw [card_from h]
  have : fromL w s a = [] := by
    apply List.eq_nil_iff_forall_not_mem.2
    intro x hx
    obtain ⟨x1, x2, x3⟩ := mem_fromL.1 hx
    rw [hz x x3 x1] at x2
    exact absurd x2 (by simp)
  rw [this]; rfl

theorem rel_landsF {r : Bitmap} (h : BInv r) {it : Iter} {a : Nat} {o : Option Nat} (hn : NextOf (bhas r) a o)
    (hl : LandsF r it o) (ha : a ≤ 4294967296) : RelI r it (card a (bhas r) + 1) := by
  cases o with
  | none => exact Or.inr (Or.inr ⟨by rw [card_gap ha (fun z h1 _ => hn z h1)], hl⟩)
  | some w =>
    obtain ⟨A, c, B, hat⟩ := hl
    exact Or.inr (Or.inl ⟨w, A, c, B, hat, hn.1, by rw [card_gap hn.2.1 hn.2.2]⟩)

theorem rel_landsB {r : Bitmap} (h : BInv r) {it : Iter} {a : Nat} {o : Option Nat} (hn : PrevOf (bhas r) a o)
    (hl : LandsB r it o) : RelI r it (card a (bhas r)) := by
  cases o with
  | none =>
    refine Or.inl ⟨?_, hl⟩
    rw [card_gap (Nat.zero_le a) (fun z _ h1 => hn z h1)]
    rfl
  | some w =>
    obtain ⟨A, c, B, hat⟩ := hl
    refine Or.inr (Or.inl ⟨w, A, c, B, hat, hn.1, ?_⟩)
    rw [card_gap (a := w + 1) hn.2.1 (fun z h1 h2 => hn.2.2 z (by omega) h2), card_succ, hn.1]
    simp

theorem rel_init {r : Bitmap} (h : BInv r) (junk : Iter) : RelI r (iterInit r junk) 1 := by
  obtain ⟨o, h1, h2⟩ := iterInit_spec h junk
  exact rel_landsF h h1 h2 (by omega)

theorem rel_init_last {r : Bitmap} (h : BInv r) (junk : Iter) :
    RelI r (iterInitLast r junk) (card 4294967296 (bhas r)) := by
  obtain ⟨o, h1, h2⟩ := iterInitLast_spec h junk
  exact rel_landsB h h1 h2

theorem rel_advance {r : Bitmap} (h : BInv r) {it : Iter} {i : Nat} (hr : RelI r it i) :
    RelI r (iterAdvance r it) (min (i + 1) (card 4294967296 (bhas r) + 1)) := by
  rcases hr with ⟨rfl, hb⟩ | ⟨w, A, c, B, hat, hw, rfl⟩ | ⟨rfl, he⟩
  · obtain ⟨o, h1, h2⟩ := iterAdvance_beg h hb
    rw [show min (0 + 1) (card 4294967296 (bhas r) + 1) = 1 by omega]
    exact rel_landsF h h1 h2 (by omega)
  · obtain ⟨o, h1, h2⟩ := iterAdvance_at h hat
    have hlt := bhas_lt h hw
    have h3 := rel_landsF h h1 h2 hlt
    have := card_lt_of_mem hlt hw
    rw [card_succ, hw] at h3
    rw [show min (card w (bhas r) + 1 + 1) (card 4294967296 (bhas r) + 1) = card w (bhas r) + 1 + 1 by omega]
    exact h3
  · rw [show min (card 4294967296 (bhas r) + 1 + 1) (card 4294967296 (bhas r) + 1) = card 4294967296 (bhas r) + 1 by omega]
    exact Or.inr (Or.inr ⟨rfl, iterAdvance_end he⟩)

theorem rel_previous {r : Bitmap} (h : BInv r) {it : Iter} {i : Nat} (hr : RelI r it i) :
    RelI r (iterPrevious r it) (i - 1) := by
  rcases hr with ⟨rfl, hb⟩ | ⟨w, A, c, B, hat, hw, rfl⟩ | ⟨rfl, he⟩
  · exact Or.inl ⟨rfl, iterPrevious_beg hb⟩
  · obtain ⟨o, h1, h2⟩ := iterPrevious_at h hat
    rw [Nat.add_sub_cancel]
    exact rel_landsB h h1 h2
  · obtain ⟨o, h1, h2⟩ := iterPrevious_end h he
    rw [Nat.add_sub_cancel]
    exact rel_landsB h h1 h2

theorem rel_move {r : Bitmap} (h : BInv r) (it : Iter) {v : Nat} (hv : v < 4294967296) :
    RelI r (iterMove r it v) (card v (bhas r) + 1) := by
  obtain ⟨o, h1, h2⟩ := iterMove_spec h it hv
  exact rel_landsF h h1 h2 (by omega)

theorem rel_read {r : Bitmap} (h : BInv r) {it : Iter} {i : Nat} (hr : RelI r it i) (count : Nat) :
    (iterRead r it count).1 =
      (if 1 ≤ i then (((enum 4294967296 (bhas r)).drop (i - 1)).take count) else []) ∧
    RelI r (iterRead r it count).2 (if 1 ≤ i then min (i + count) (card 4294967296 (bhas r) + 1) else i) := by
  rcases hr with ⟨rfl, hb⟩ | ⟨w, A, c, B, hat, hw, rfl⟩ | ⟨rfl, he⟩
  · rw [iterRead_novalue hb.hv]
    exact ⟨rfl, Or.inl ⟨rfl, hb⟩⟩
  · have hlt := bhas_lt h hw
    obtain ⟨h1, h2⟩ := iterRead_spec h (o := some w) ⟨A, c, B, hat⟩ count
    simp only [restO] at h1 h2
    rw [if_pos (by omega), if_pos (by omega), Nat.add_sub_cancel, ← fromL_drop (by omega)]
    refine ⟨h1, ?_⟩
    have hcs := card_from (s := bhas r) (n := 4294967296) (w := w) (by omega)
    cases hg : (fromL 4294967296 (bhas r) w)[count]? with
    | none =>
      rw [hg] at h2
      have := List.getElem?_eq_none_iff.1 hg
      exact Or.inr (Or.inr ⟨by omega, h2⟩)
    | some y =>
      rw [hg] at h2
      have hl := (List.getElem?_eq_some_iff.1 hg).1
      rw [fromL_drop (by omega), List.getElem?_drop] at hg
      obtain ⟨x, x1, x2, x3, x4⟩ := enum_getElem_lt (n := 4294967296) (s := bhas r) (k := card w (bhas r) + count) (by omega)
      obtain rfl : y = x := by rw [x1] at hg; exact (Option.some.inj hg).symm
      obtain ⟨A, c, B, hat⟩ := h2
      exact Or.inr (Or.inl ⟨y, A, c, B, hat, x3, by omega⟩)
  · rw [iterRead_novalue he.hv, if_pos (by omega), if_pos (by omega)]
    refine ⟨?_, Or.inr (Or.inr ⟨by omega, he⟩)⟩
    rw [Nat.add_sub_cancel, List.drop_of_length_le (by exact Nat.le_refl _)]
    simp

theorem rel_seen {r : Bitmap} (h : BInv r) {it : Iter} {i : Nat} (hr : RelI r it i) :
    (it.hasValue, it.currentValue) =
      (match (if 1 ≤ i then (enum 4294967296 (bhas r))[i - 1]? else none) with
       | some v => (true, v)
       | none => (false, 4294967295)) := by
  rcases hr with ⟨rfl, hb⟩ | ⟨w, A, c, B, hat, hw, rfl⟩ | ⟨rfl, he⟩
  · rw [hb.hv, hb.cur]; rfl
  · rw [if_pos (by omega), Nat.add_sub_cancel, enum_getElem_card (bhas_lt h hw) hw, hat.hv, hat.cur]
  · rw [if_pos (by omega), Nat.add_sub_cancel, List.getElem?_eq_none_iff.2 (by exact Nat.le_refl _), he.hv, he.cur]

end CRoaring
