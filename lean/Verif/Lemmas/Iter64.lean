import Verif.Model.Iter64
import Verif.Lemmas.Iter2
import Verif.Lemmas.R64g
/-
Iteration over 64-bit bitmaps.
-/
set_option linter.unusedSimpArgs false
set_option linter.unusedVariables false
namespace CRoaring
open Spec

/-- Membership in terms of the leaves. -/
theorem Rep64.mem_iff {r : R64} {s : NSet} (h : Rep64 r s) (x : Nat) :
    s x = true ↔ ∃ k c, RHas r k c ∧ keyNum k = x / 65536 ∧ chas c (x % 65536) = true := by
  rep64 h l
  constructor
  · intro hx
    obtain ⟨p, hp, e, hc⟩ := bhas_key hx
    obtain ⟨k, hk, hn⟩ := (h.rl.mem p.1 p.2).1 hp
    exact ⟨k, p.2, hk, by omega, hc⟩
  · rintro ⟨k, c, hk, hn, hc⟩
    have hm := (h.rl.mem (keyNum k) c).2 ⟨k, hk, rfl⟩
    obtain ⟨A, B, rfl⟩ := List.append_of_mem hm
    obtain ⟨_, h4, h5⟩ := ks_mid.1 h.rl.ks
    rw [bhas_mid h4 h5, if_pos hn.symm]; exact hc

/-- The set restricted to one leaf. -/
theorem Rep64.leaf {r : R64} {s : NSet} (h : Rep64 r s) {k : List Nat} {c : Container} (hk : RHas r k c) {x : Nat}
    (hx : x / 65536 = keyNum k) : s x = chas c (x % 65536) := by
  have hok := h.inv.1
  cases hc : chas c (x % 65536) with
  | true => exact (h.mem_iff x).2 ⟨k, c, hk, hx.symm, hc⟩
  | false =>
    rw [Bool.eq_false_iff]
    intro hs
    obtain ⟨k', c', h1, h2, h3⟩ := (h.mem_iff x).1 hs
    have : k' = k := key_inj (hok.key h1) (hok.key hk) (by omega)
    subst this
    rw [RHas.unique hok h1 hk, hc] at h3; cases h3

/-- The iterator stands on the value `w`. -/
structure At64 (r : R64) (it : Iter64) (w : Nat) (c : Container) : Prop where
  at_ : RAt r it.artIt c
  num : keyNum it.artIt.key = w / 65536
  high : it.high48 = w / 65536 * 65536
  hv : it.hasValue = true
  cit : CIt c it.cit (w % 65536)
  val : it.value = w

/-- The iterator is behind the last value. -/
structure End64 (it : Iter64) : Prop where
  av : it.artIt.value = none
  hv : it.hasValue = false
  sat : it.satFwd = true

/-- The iterator is before the first value. -/
structure Beg64 (it : Iter64) : Prop where
  av : it.artIt.value = none
  hv : it.hasValue = false
  sat : it.satFwd = false

def Lands64F (r : R64) (it : Iter64) : Option Nat → Prop
  | some w => ∃ c, At64 r it w c
  | none => End64 it

def Lands64B (r : R64) (it : Iter64) : Option Nat → Prop
  | some w => ∃ c, At64 r it w c
  | none => Beg64 it

theorem lor_low {n y : Nat} (h : y < 65536) : n * 65536 ||| y = n * 65536 + y := by
  have := lor_high (k := n) h
  rwa [Nat.shiftLeft_eq] at this

theorem leafFirst_spec {r : R64} {s : NSet} (h : Rep64 r s) {it : Iter64} {X : Nat} (hf : RFirst r X it.artIt)
    {c : Container} (hc : it.artIt.value = some c) :
    ∃ w, NextOf s (X * 65536) (some w) ∧ At64 r (it64LeafFirst it) w c := by
  unfold RFirst at hf
  rw [hc] at hf
  simp only at hf
  obtain ⟨h1, h2, h3⟩ := hf
  have hh := h1.has h.inv.1
  have hk := h.inv.1.key hh
  have hne := h.inv.2 _ _ hh
  obtain ⟨i1, i2⟩ := containerInit_spec hne
  have hlt := hne.1.rep.lt i2.1
  generalize hm : (containerInitIterator c).2 = m at *
  have e1 : (keyNum it.artIt.key * 65536 + m) / 65536 = keyNum it.artIt.key := by omega
  have e2 : (keyNum it.artIt.key * 65536 + m) % 65536 = m := by omega
  refine ⟨keyNum it.artIt.key * 65536 + m, ⟨?_, by omega, ?_⟩, ?_⟩
  · rw [h.leaf hh e1, e2]; exact i2.1
  · intro z hz1 hz2
    rw [Bool.eq_false_iff]
    intro hs
    obtain ⟨k', c', g1, g2, g3⟩ := (h.mem_iff z).1 hs
    have := h3 k' c' g1 (by omega)
    have hz : z / 65536 = keyNum it.artIt.key := by omega
    rw [h.leaf hh hz, i2.2.2 (z % 65536) (by omega) (by omega)] at hs
    cases hs
  · unfold it64LeafFirst
    rw [hc]
    simp only
    rw [hm, combineKey_eq hk (by omega), Nat.add_zero]
    exact ⟨h1, e1.symm, by rw [e1], rfl, by rw [e2]; exact i1, lor_low hlt⟩

theorem leafLast_spec {r : R64} {s : NSet} (h : Rep64 r s) {it : Iter64} {X : Nat} (hf : RLast r X it.artIt)
    {c : Container} (hc : it.artIt.value = some c) :
    ∃ w, PrevOf s (X * 65536) (some w) ∧ At64 r (it64LeafLast it) w c := by
  unfold RLast at hf
  rw [hc] at hf
  simp only at hf
  obtain ⟨h1, h2, h3⟩ := hf
  have hh := h1.has h.inv.1
  have hk := h.inv.1.key hh
  have hne := h.inv.2 _ _ hh
  obtain ⟨i1, i2⟩ := containerInitLast_spec hne
  have hlt := hne.1.rep.lt i2.1
  generalize hm : (containerInitIteratorLast c).2 = m at *
  have e1 : (keyNum it.artIt.key * 65536 + m) / 65536 = keyNum it.artIt.key := by omega
  have e2 : (keyNum it.artIt.key * 65536 + m) % 65536 = m := by omega
  refine ⟨keyNum it.artIt.key * 65536 + m, ⟨?_, by omega, ?_⟩, ?_⟩
  · rw [h.leaf hh e1, e2]; exact i2.1
  · intro z hz1 hz2
    rw [Bool.eq_false_iff]
    intro hs
    obtain ⟨k', c', g1, g2, g3⟩ := (h.mem_iff z).1 hs
    have := h3 k' c' g1 (by omega)
    have hz : z / 65536 = keyNum it.artIt.key := by omega
    rw [h.leaf hh hz, i2.2.2 (z % 65536) (by omega) (by omega)] at hs
    cases hs
  · unfold it64LeafLast
    rw [hc]
    simp only
    rw [hm, combineKey_eq hk (by omega), Nat.add_zero]
    exact ⟨h1, e1.symm, by rw [e1], rfl, by rw [e2]; exact i1, lor_low hlt⟩

/-- No value from `X * 65536` on. -/
theorem rfirst_none {r : R64} {s : NSet} (h : Rep64 r s) {it : AIt} {X : Nat} (hf : RFirst r X it)
    (hc : it.value = none) : NextOf s (X * 65536) none := by
  unfold RFirst at hf
  rw [hc] at hf
  intro z hz
  rw [Bool.eq_false_iff]
  intro hs
  obtain ⟨k', c', g1, g2, g3⟩ := (h.mem_iff z).1 hs
  have := hf k' c' g1
  omega

theorem rlast_none {r : R64} {s : NSet} (h : Rep64 r s) {it : AIt} {X : Nat} (hf : RLast r X it)
    (hc : it.value = none) : PrevOf s (X * 65536) none := by
  unfold RLast at hf
  rw [hc] at hf
  intro z hz
  rw [Bool.eq_false_iff]
  intro hs
  obtain ⟨k', c', g1, g2, g3⟩ := (h.mem_iff z).1 hs
  have := hf k' c' g1
  omega

theorem it64InitAt_first {r : R64} {s : NSet} (h : Rep64 r s) (it : Iter64) :
    ∃ o, NextOf s 0 o ∧ Lands64F r (it64InitAt r it true) o := by
  have hf := artInit_first h.inv.1
  unfold it64InitAt
  simp only
  cases hc : (artInitIterator r true).value with
  | none =>
    simp only [Option.isSome_none, Bool.false_eq_true, if_false]
    exact ⟨none, by have := rfirst_none h hf hc; rwa [Nat.zero_mul] at this, hc, rfl, rfl⟩
  | some c =>
    simp only [Option.isSome_some, if_true]
    obtain ⟨w, h1, h2⟩ := leafFirst_spec h (it := { it with artIt := artInitIterator r true, hasValue := true }) (X := 0) hf hc
    exact ⟨some w, by rwa [Nat.zero_mul] at h1, c, h2⟩

theorem it64InitAt_last {r : R64} {s : NSet} (h : Rep64 r s) (it : Iter64) :
    ∃ o, PrevOf s TOP64 o ∧ Lands64B r (it64InitAt r it false) o := by
  have hf := artInit_last h.inv.1
  have e : (256 ^ 6) * 65536 = TOP64 := by unfold TOP64; decide
  unfold it64InitAt
  simp only
  cases hc : (artInitIterator r false).value with
  | none =>
    simp only [Option.isSome_none, Bool.false_eq_true, if_false]
    exact ⟨none, by have := rlast_none h hf hc; rwa [e] at this, hc, rfl, rfl⟩
  | some c =>
    simp only [Option.isSome_some, if_true, Bool.false_eq_true, if_false]
    obtain ⟨w, h1, h2⟩ := leafLast_spec h (it := { it with artIt := artInitIterator r false, hasValue := true }) hf hc
    exact ⟨some w, by rwa [e] at h1, c, h2⟩

/-- Moving on within the container of `w`, or to the next leaf. -/
theorem next64_leaf {r : R64} {s : NSet} (h : Rep64 r s) {it : Iter64} {k : List Nat} {c : Container} {a : Nat}
    (hh : RHas r k c) (hz : ∀ z, a ≤ z → z / 65536 = keyNum k → s z = false) (ha : keyNum k * 65536 ≤ a) (ha2 : a ≤ (keyNum k + 1) * 65536)
    (hf : RFirst r (keyNum k + 1) it.artIt) :
    ∃ o, NextOf s a o ∧ Lands64F r (if it.artIt.value.isSome then it64LeafFirst it else { it with satFwd := true, hasValue := false }) o := by
  have key : ∀ o, NextOf s ((keyNum k + 1) * 65536) o → NextOf s a o := by
    intro o ho
    cases o with
    | none =>
      intro z hz'
      rcases Nat.lt_or_ge z ((keyNum k + 1) * 65536) with hlt | hge
      · exact hz z hz' (by omega)
      · exact ho z hge
    | some w =>
      refine ⟨ho.1, by have := ho.2.1; omega, fun z hz1 hz2 => ?_⟩
      rcases Nat.lt_or_ge z ((keyNum k + 1) * 65536) with hlt | hge
      · exact hz z hz1 (by omega)
      · exact ho.2.2 z hge hz2
  cases hc : it.artIt.value with
  | none =>
    simp only [Option.isSome_none, Bool.false_eq_true, if_false]
    exact ⟨none, key _ (rfirst_none h hf hc), hc, rfl, rfl⟩
  | some c =>
    simp only [Option.isSome_some, if_true]
    obtain ⟨w, h1, h2⟩ := leafFirst_spec h hf hc
    exact ⟨some w, key _ h1, c, h2⟩

theorem prev64_leaf {r : R64} {s : NSet} (h : Rep64 r s) {it : Iter64} {k : List Nat} {c : Container} {a : Nat}
    (hh : RHas r k c) (hz : ∀ z, z < a → z / 65536 = keyNum k → s z = false) (ha : keyNum k * 65536 ≤ a) (ha2 : a ≤ (keyNum k + 1) * 65536)
    (hf : RLast r (keyNum k) it.artIt) :
    ∃ o, PrevOf s a o ∧ Lands64B r (if it.artIt.value.isSome then it64LeafLast it else { it with satFwd := false, hasValue := false }) o := by
  have key : ∀ o, PrevOf s (keyNum k * 65536) o → PrevOf s a o := by
    intro o ho
    cases o with
    | none =>
      intro z hz'
      rcases Nat.lt_or_ge z (keyNum k * 65536) with hlt | hge
      · exact ho z hlt
      · exact hz z hz' (by omega)
    | some w =>
      refine ⟨ho.1, by have := ho.2.1; omega, fun z hz1 hz2 => ?_⟩
      rcases Nat.lt_or_ge z (keyNum k * 65536) with hlt | hge
      · exact ho.2.2 z hz1 hlt
      · exact hz z hz2 (by omega)
  cases hc : it.artIt.value with
  | none =>
    simp only [Option.isSome_none, Bool.false_eq_true, if_false]
    exact ⟨none, key _ (rlast_none h hf hc), hc, rfl, rfl⟩
  | some c =>
    simp only [Option.isSome_some, if_true]
    obtain ⟨w, h1, h2⟩ := leafLast_spec h hf hc
    exact ⟨some w, key _ h1, c, h2⟩

/-- A position within the leaf of `a`. -/
theorem next64_in {r : R64} {s : NSet} (h : Rep64 r s) {k : List Nat} {c : Container} (hh : RHas r k c) {a m : Nat}
    (ha : a ≤ 65536) (hm : NextOf (chas c) a (some m)) : NextOf s (keyNum k * 65536 + a) (some (keyNum k * 65536 + m)) := by
  have hlt := (h.inv.2 _ _ hh).1.rep.lt hm.1
  refine ⟨?_, by have := hm.2.1; omega, fun z hz1 hz2 => ?_⟩
  · rw [h.leaf hh (by omega), show (keyNum k * 65536 + m) % 65536 = m by omega]; exact hm.1
  · rw [h.leaf hh (by omega)]; exact hm.2.2 _ (by omega) (by omega)

theorem prev64_in {r : R64} {s : NSet} (h : Rep64 r s) {k : List Nat} {c : Container} (hh : RHas r k c) {a m : Nat}
    (ha : a ≤ 65536) (hm : PrevOf (chas c) a (some m)) : PrevOf s (keyNum k * 65536 + a) (some (keyNum k * 65536 + m)) := by
  have hlt := (h.inv.2 _ _ hh).1.rep.lt hm.1
  refine ⟨?_, by have := hm.2.1; omega, fun z hz1 hz2 => ?_⟩
  · rw [h.leaf hh (by omega), show (keyNum k * 65536 + m) % 65536 = m by omega]; exact hm.1
  · rw [h.leaf hh (by omega)]; exact hm.2.2 _ (by omega) (by omega)

theorem At64.put {r : R64} {it : Iter64} {n : Nat} {c : Container} {idx : Int} {v : Nat}
    (h1 : RAt r it.artIt c) (h2 : keyNum it.artIt.key = n) (h3 : it.high48 = n * 65536) (hv : v < 65536) (hc : CIt c idx v) :
    At64 r { it with cit := idx, value := it.high48 ||| v, hasValue := true } (n * 65536 + v) c := by
  have e1 : (n * 65536 + v) / 65536 = n := by omega
  have e2 : (n * 65536 + v) % 65536 = v := by omega
  exact ⟨h1, by rw [e1]; exact h2, by rw [e1]; exact h3, rfl, by rw [e2]; exact hc,
    by show it.high48 ||| v = _; rw [h3, lor_low hv]⟩

theorem it64Advance_at {r : R64} {s : NSet} (h : Rep64 r s) {it : Iter64} {w : Nat} {c : Container} (hat : At64 r it w c) :
    ∃ o, NextOf s (w + 1) o ∧ Lands64F r (it64Advance r it) o := by
  obtain ⟨hra, hnum, hhigh, hhv, hcit, hval⟩ := hat
  subst hval
  have hh := hra.has h.inv.1
  have hne := h.inv.2 _ _ hh
  obtain ⟨n1, n2⟩ := containerNext_spec hne.1 hcit
  unfold it64Advance
  rw [hra.value]
  simp only
  generalize hp : containerIteratorNext c it.cit (it.value % 65536) = p at n1 n2
  obtain ⟨idx, o⟩ := p
  cases o with
  | some v =>
    have hv := hne.1.rep.lt n1.1
    have hn := next64_in h hh (by omega) n1
    rw [hnum, show it.value / 65536 * 65536 + (it.value % 65536 + 1) = it.value + 1 by omega] at hn
    exact ⟨_, hn, c, At64.put hra hnum hhigh hv (n2 v rfl)⟩
  | none =>
    have hz : ∀ z, it.value + 1 ≤ z → z / 65536 = keyNum it.artIt.key → s z = false := by
      intro z hz1 hz2
      rw [h.leaf hh hz2]
      exact n1 _ (by omega)
    exact next64_leaf h (it := { it with cit := idx, artIt := itNext r it.artIt }) hh hz (by omega) (by omega)
        (itNext_first h.inv.1 hra)

theorem it64Previous_at {r : R64} {s : NSet} (h : Rep64 r s) {it : Iter64} {w : Nat} {c : Container} (hat : At64 r it w c) :
    ∃ o, PrevOf s w o ∧ Lands64B r (it64Previous r it) o := by
  obtain ⟨hra, hnum, hhigh, hhv, hcit, hval⟩ := hat
  subst hval
  have hh := hra.has h.inv.1
  have hne := h.inv.2 _ _ hh
  obtain ⟨n1, n2⟩ := containerPrev_spec hne.1 hcit
  unfold it64Previous
  rw [hra.value]
  simp only
  generalize hp : containerIteratorPrev c it.cit (it.value % 65536) = p at n1 n2
  obtain ⟨idx, o⟩ := p
  cases o with
  | some v =>
    have hv := hne.1.rep.lt n1.1
    have hn := prev64_in h hh (by omega) n1
    rw [hnum, show it.value / 65536 * 65536 + it.value % 65536 = it.value by omega] at hn
    exact ⟨_, hn, c, At64.put hra hnum hhigh hv (n2 v rfl)⟩
  | none =>
    have hz : ∀ z, z < it.value → z / 65536 = keyNum it.artIt.key → s z = false := by
      intro z hz1 hz2
      rw [h.leaf hh hz2]
      exact n1 _ (by omega)
    exact prev64_leaf h (it := { it with cit := idx, artIt := itPrev r it.artIt }) hh hz (by omega) (by omega)
        (itPrev_last h.inv.1 hra)

theorem it64Advance_end {r : R64} {it : Iter64} (h : End64 it) : End64 (it64Advance r it) := by
  unfold it64Advance
  rw [h.av]; simp only
  rw [if_pos h.sat]
  exact ⟨h.av, rfl, h.sat⟩

theorem it64Advance_beg {r : R64} {s : NSet} (h : Rep64 r s) {it : Iter64} (hb : Beg64 it) :
    ∃ o, NextOf s 0 o ∧ Lands64F r (it64Advance r it) o := by
  unfold it64Advance
  rw [hb.av]; simp only
  rw [if_neg (by rw [hb.sat]; simp)]
  exact it64InitAt_first h it

theorem it64Previous_beg {r : R64} {it : Iter64} (h : Beg64 it) : Beg64 (it64Previous r it) := by
  unfold it64Previous
  rw [h.av]; simp only
  rw [if_pos (by rw [h.sat]; rfl)]
  exact ⟨h.av, rfl, h.sat⟩

theorem it64Previous_end {r : R64} {s : NSet} (h : Rep64 r s) {it : Iter64} (hb : End64 it) :
    ∃ o, PrevOf s TOP64 o ∧ Lands64B r (it64Previous r it) o := by
  unfold it64Previous
  rw [hb.av]; simp only
  rw [if_neg (by rw [hb.sat]; simp)]
  exact it64InitAt_last h it

/-- The second half of the move, on a leaf of the block of `val`. -/
theorem it64MoveAt_same {r : R64} {s : NSet} (h : Rep64 r s) {it : Iter64} {c : Container} (hra : RAt r it.artIt c)
    {val : Nat} (hv : val < TOP64) (hnum : keyNum it.artIt.key = val / 65536) (hhigh : it.high48 = val / 65536 * 65536) :
    ∃ o, NextOf s val o ∧ Lands64F r (it64MoveAt r it val) o := by
  have hh := hra.has h.inv.1
  have hne := h.inv.2 _ _ hh
  have hmax := containerMax_spec hne.1.rep hne.2
  unfold it64MoveAt
  rw [if_pos (show it.high48 = clearLow val from hhigh), hra.value]
  simp only [splitKey_low]
  rcases Nat.lt_or_ge (containerMax c) (val % 65536) with hlt | hge
  · have e : containerIteratorLowerBound c it.cit (val % 65536) = (it.cit, none) := by
      unfold containerIteratorLowerBound; rw [if_pos hlt]
    rw [e]
    simp only
    refine next64_leaf h (it := { it with cit := it.cit, artIt := itNext r it.artIt }) (k := it.artIt.key) hh ?_ (by omega)
      (by omega) (itNext_first h.inv.1 hra)
    intro z hz1 hz2
    rw [h.leaf hh hz2, Bool.eq_false_iff]
    intro hc
    have := hmax.2 _ hc
    omega
  · obtain ⟨v, e, h1, h2⟩ := containerLowerBound_spec hne it.cit hge
    generalize hp : containerIteratorLowerBound c it.cit (val % 65536) = p at e h2
    obtain ⟨idx, o⟩ := p
    simp only at e
    subst e
    have hv := hne.1.rep.lt h1.1
    have hn := next64_in h hh (by omega) h1
    rw [hnum, show val / 65536 * 65536 + val % 65536 = val by omega] at hn
    exact ⟨_, hn, c, At64.put hra hnum hhigh hv h2⟩

/-- What `move_equalorlarger` needs to know of the iterator. -/
def Sound64 (r : R64) (it : Iter64) : Prop :=
  (∃ w c, At64 r it w c) ∨ (it.artIt.value = none ∧ it.hasValue = false)

theorem it64Move_spec {r : R64} {s : NSet} (h : Rep64 r s) {it : Iter64} (hs : Sound64 r it) {val : Nat} (hv : val < TOP64) :
    ∃ o, NextOf s val o ∧ Lands64F r (it64Move r it val) o := by
  have hk := splitKey_isKey val
  have hkn := keyNum_split hv
  -- after the search in the tree
  have key : RFirst r (val / 65536) (itLowerBound r it.artIt (splitKey val).1) →
      ∃ o, NextOf s val o ∧ Lands64F r
        (let it := { it with artIt := itLowerBound r it.artIt (splitKey val).1 }
         if it.artIt.value.isSome then it64MoveAt r { it with high48 := combineKey it.artIt.key 0 } val
         else { it with satFwd := true, hasValue := false }) o := by
    intro hf
    generalize itLowerBound r it.artIt (splitKey val).1 = a at hf
    simp only
    cases hc : a.value with
    | none =>
      simp only [Option.isSome_none, Bool.false_eq_true, if_false]
      refine ⟨none, fun z hz => rfirst_none h hf hc z (by omega), hc, rfl, rfl⟩
    | some c =>
      simp only [Option.isSome_some, if_true]
      have hf' := hf
      unfold RFirst at hf'
      rw [hc] at hf'
      obtain ⟨h1, h2, h3⟩ := hf'
      have hh := h1.has h.inv.1
      have hik := h.inv.1.key hh
      by_cases he : keyNum a.key = val / 65536
      · refine it64MoveAt_same h (it := { it with artIt := a, high48 := combineKey a.key 0 }) (c := c) h1 hv he ?_
        show combineKey a.key 0 = _
        rw [combineKey_eq hik (by omega), he, Nat.add_zero]
      · have e : it64MoveAt r { it with artIt := a, high48 := combineKey a.key 0 } val =
            it64LeafFirst { it with artIt := a, high48 := combineKey a.key 0 } := by
          unfold it64MoveAt
          rw [if_neg]
          show ¬ combineKey a.key 0 = clearLow val
          rw [combineKey_eq hik (by omega), clearLow]
          omega
        rw [e]
        obtain ⟨w, g1, g2⟩ := leafFirst_spec h (it := { it with artIt := a, high48 := combineKey a.key 0 }) hf hc
        have hw1 : keyNum a.key = w / 65536 := by
          have := g2.num
          have e2 : (it64LeafFirst { it with artIt := a, high48 := combineKey a.key 0 }).artIt = a := by
            unfold it64LeafFirst; rw [show ({ it with artIt := a, high48 := combineKey a.key 0 } : Iter64).artIt.value = some c from hc]
          rwa [e2] at this
        refine ⟨some w, ⟨g1.1, by omega, fun z hz1 hz2 => g1.2.2 z (by omega) hz2⟩, c, g2⟩
  unfold it64Move
  rcases hs with ⟨w, c, hat⟩ | ⟨hn, hhv⟩
  · by_cases he : it.high48 = clearLow val
    · rw [if_neg (by rw [hat.hv, he]; simp)]
      have h1 := hat.high
      have h2 := hat.num
      unfold clearLow at he
      exact it64MoveAt_same h hat.at_ hv (by omega) he
    · rw [if_pos (by simp [he])]
      refine key ?_
      rw [← hkn]
      exact itLowerBound_first h.inv.1 hk hat.at_
  · rw [if_pos (by rw [hhv]; rfl)]
    refine key ?_
    rw [← hkn]
    exact itLowerBound_none h.inv.1 hk hn

end CRoaring
