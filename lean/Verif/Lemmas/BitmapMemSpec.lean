import Verif.BitmapBufSpec
import Verif.Lemmas.BitmapMem5
import Verif.Lemmas.RunMem5
set_option linter.unusedSimpArgs false
set_option linter.unusedVariables false

/-! From `RHolds` and `BInv` to the specification of bitmaps in memory. -/

namespace CRoaring
open Spec

theorem Spec.Allocates.ok {E : RbEnv} (h : Allocates E) : RbEnvOK E := ⟨⟨h.vals, h.runs⟩, h.cells⟩

theorem isArrSet_of {b : ArrBuf} {l : List Nat} {s : NSet} (h : AHolds b l) (hl : ArrOK l) (hs : l.length ≤ 4096) (e : ∀ x, decide (x ∈ l) = s x) :
    IsArrSet b s := by
  obtain ⟨rest, rfl⟩ := h
  have hg : ∀ i, i < l.length → (l ++ rest).getD i 0 = l.getD i 0 := by
    intro i hi
    simp [List.getD_eq_getElem?_getD, List.getElem?_append_left hi]
  have hg' : ∀ i (hi : i < l.length), l.getD i 0 = l[i] := by
    intro i hi
    simp [List.getD_eq_getElem?_getD, hi]
  refine ⟨by simp, hs, ?_, ?_, ?_⟩
  · intro i j hij hj
    have hj' : j < l.length := hj
    rw [hg i (by omega), hg j hj', hg' i (by omega), hg' j hj']
    exact List.pairwise_iff_getElem.1 hl.sorted i j (by omega) hj' hij
  · intro i hi
    have hi' : i < l.length := hi
    rw [hg i hi', hg' i hi']
    exact hl.lt _ (List.getElem_mem hi')
  · intro x
    rw [← e x, decide_eq_true_iff, List.mem_iff_getElem]
    constructor
    · rintro ⟨i, hi, rfl⟩
      exact ⟨i, hi, by rw [hg i hi, hg' i hi]⟩
    · rintro ⟨i, hi, hx⟩
      have hi' : i < l.length := hi
      rw [hg i hi', hg' i hi'] at hx
      exact ⟨i, hi', hx⟩

theorem isBitsetSet_of {b : Bitset} {s : NSet} (hb : BitOK b) (hl : 4096 < b.card) (e : ∀ x, bitAt b.words x = s x) : IsBitsetSet b s := by
  refine ⟨hb.len, ?_, ?_, hl⟩
  · intro x
    rw [← e x]
    constructor
    · intro h
      refine ⟨?_, h⟩
      rcases Nat.lt_or_ge x 65536 with hx | hx
      · exact hx
      · rw [bitAt_ge (by rw [hb.len]; omega)] at h; cases h
    · exact fun h => h.2
  · rw [hb.card, funext e]

theorem isContSet_of {o : CBuf} {c : Container} {s : NSet} (h : CHolds o c) (hc : CInv c) (e : ∀ x, chas c x = s x) : IsContSet o s := by
  match o, c with
  | .bitset b, .bitset c => cases (show b = c from h); exact isBitsetSet_of hc.1 hc.2 e
  | .array a, .array l => exact isArrSet_of h hc.1 hc.2 e
  | .run r, .run rs => exact isRunSet_of h ⟨hc, e⟩
  | .bitset _, .array _ => exact h.elim
  | .bitset _, .run _ => exact h.elim
  | .array _, .bitset _ => exact h.elim
  | .array _, .run _ => exact h.elim
  | .run _, .bitset _ => exact h.elim
  | .run _, .array _ => exact h.elim

theorem BP.get {P : Container → Prop} {r : Bitmap} (h : BP P r) {i : Nat} {k : Nat} {c : Container} (e : r[i]? = some (k, c)) :
    k < 65536 ∧ P c ∧ ∀ j l d, r[j]? = some (l, d) → i < j → k < l := by
  induction r generalizing i with
  | nil => simp at e
  | cons p t ih =>
    obtain ⟨k0, c0⟩ := p
    cases i with
    | zero =>
      simp only [List.getElem?_cons_zero, Option.some.injEq, Prod.mk.injEq] at e
      obtain ⟨rfl, rfl⟩ := e
      refine ⟨h.1, h.2.1, ?_⟩
      intro j l d hj hij
      cases j with
      | zero => omega
      | succ j => exact h.2.2.1 (l, d) (List.mem_of_getElem? (by simpa using hj))
    | succ i =>
      obtain ⟨a1, a2, a3⟩ := ih h.2.2.2 (by simpa using e)
      refine ⟨a1, a2, ?_⟩
      intro j l d hj hij
      cases j with
      | zero => omega
      | succ j => exact a3 j l d (by simpa using hj) (by omega)

theorem hasCell_get {b : RaBuf} {r : Bitmap} (h : RHolds b r) {i k : Nat} {o : CBuf} (hc : HasCell b i k o) :
    ∃ c, r[i]? = some (k, c) ∧ CHolds o c := by
  obtain ⟨hi, hm⟩ := hc
  rw [h.size] at hi
  obtain ⟨o', h1, h2⟩ := h.cells i r[i] (by simp [hi])
  rw [Nat.zero_add, hm] at h1
  simp only [Option.some.injEq, Prod.mk.injEq] at h1
  obtain ⟨e1, e2⟩ := h1
  subst e2
  exact ⟨r[i].2, by rw [e1]; simp [hi], h2⟩

theorem isBitmapSet_of {b : RaBuf} {r : Bitmap} {s : NSet} (h : RHolds b r) (hr : BInv r) (e : ∀ x, bhas r x = s x) : IsBitmapSet b s := by
  have hat : ∀ {i k : Nat} {c : Container}, r[i]? = some (k, c) → ∀ x, x < 65536 → chas c x = s (k * 65536 + x) := by
    intro i k c hi x hx
    obtain ⟨A, B, hAB⟩ := List.append_of_mem (List.mem_of_getElem? hi)
    have hb := bp_mid.1 (hAB ▸ hr)
    rw [← e, hAB, bhas_mid hb.2.2.2.1 hb.2.2.2.2, if_pos (by omega), show (k * 65536 + x) % 65536 = x by omega]
  refine ⟨h.le, ?_, ?_, ?_, ?_, ?_⟩
  · intro i j k l c d h1 h2 hij
    obtain ⟨c', e1, _⟩ := hasCell_get h h1
    obtain ⟨d', e2, _⟩ := hasCell_get h h2
    exact (hr.get e1).2.2 j l d' e2 hij
  · intro i k c h1
    obtain ⟨c', e1, _⟩ := hasCell_get h h1
    exact (hr.get e1).1
  · intro i k c h1
    obtain ⟨c', e1, g⟩ := hasCell_get h h1
    have hn := (hr.get e1).2.1
    refine isContSet_of g hn.1 fun x => ?_
    rcases Nat.lt_or_ge x 65536 with hx | hx
    · rw [hat e1 x hx]; simp [hx]
    · rw [decide_eq_false (by omega), Bool.false_and, ← Bool.not_eq_true]
      exact fun hc => absurd (chas_lt hn.1 hc) (by omega)
  · intro i k c h1
    obtain ⟨c', e1, g⟩ := hasCell_get h h1
    obtain ⟨hn, x, hx⟩ := (hr.get e1).2.1
    have hl : x < 65536 := chas_lt hn hx
    exact ⟨x, hl, by rw [← hat e1 x hl]; exact hx⟩
  · intro x hx
    rw [← e, bhas, List.any_eq_true] at hx
    obtain ⟨p, hp, hpx⟩ := hx
    rw [Bool.and_eq_true, beq_iff_eq] at hpx
    obtain ⟨i, hi, hpi⟩ := List.mem_iff_getElem.1 hp
    obtain ⟨c, h1, h2⟩ := h.cells i p (by rw [← hpi]; simp [hi])
    rw [Nat.zero_add, hpx.1] at h1
    exact ⟨i, c, by rw [h.size]; exact hi, h1⟩

/-! ### And back -/

theorem arr_of {b : ArrBuf} {s : NSet} (h : IsArrSet b s) : AHolds b b.vals ∧ CInv (.array b.vals) ∧ ∀ x, chas (.array b.vals) x = s x := by
  have hlen : b.vals.length = b.card := by simp [ArrBuf.vals, h.inside]
  have hg : ∀ i (hi : i < b.vals.length), b.vals[i] = b.mem.getD i 0 := by
    intro i hi
    have : i < b.mem.length := by have := h.inside; omega
    simp [ArrBuf.vals, List.getD_eq_getElem?_getD, this]
  refine ⟨aholds_iff.2 ⟨h.inside, rfl⟩, ⟨⟨List.pairwise_iff_getElem.2 ?_, ?_⟩, by rw [hlen]; exact h.small⟩, ?_⟩
  · intro i j hi hj hij
    rw [hg i hi, hg j hj]
    exact h.incr i j hij (by omega)
  · intro x hx
    obtain ⟨i, hi, rfl⟩ := List.mem_iff_getElem.1 hx
    rw [hg i hi]
    exact h.range i (by omega)
  · intro x
    rw [Bool.eq_iff_iff, h.has, chas, decide_eq_true_iff, List.mem_iff_getElem]
    constructor
    · rintro ⟨i, hi, rfl⟩
      exact ⟨i, by omega, (hg i hi).symm⟩
    · rintro ⟨i, hi, rfl⟩
      exact ⟨i, by omega, hg i _⟩

theorem bitset_of {b : Bitset} {s : NSet} (h : IsBitsetSet b s) : CInv (.bitset b) ∧ ∀ x, chas (.bitset b) x = s x := by
  have e : ∀ x, bitAt b.words x = s x := by
    intro x
    rw [Bool.eq_iff_iff, h.has]
    constructor
    · intro hx
      refine ⟨?_, hx⟩
      rcases Nat.lt_or_ge x 65536 with hl | hl
      · exact hl
      · rw [bitAt_ge (by rw [h.words]; omega)] at hx; cases hx
    · exact fun hx => hx.2
  exact ⟨⟨⟨h.words, by rw [h.count, funext e]⟩, h.large⟩, e⟩

theorem isContSet_iff {o : CBuf} {s : NSet} : IsContSet o s ↔ ∃ c, CHolds o c ∧ CInv c ∧ ∀ x, chas c x = s x := by
  constructor
  · intro h
    cases o with
    | bitset b => exact ⟨.bitset b, rfl, bitset_of h⟩
    | array a => exact ⟨.array a.vals, arr_of h⟩
    | run r =>
      obtain ⟨v, h1, h2, h3⟩ := isRunSet_iff.1 h
      exact ⟨.run v, h1, h2, h3⟩
  · rintro ⟨c, h1, h2, h3⟩
    exact isContSet_of h1 h2 h3

theorem bp_of_get {P : Container → Prop} {r : Bitmap} (h1 : ∀ (i k : Nat) (c : Container), r[i]? = some (k, c) → k < 65536 ∧ P c)
    (h2 : ∀ (i j k l : Nat) (c d : Container), r[i]? = some (k, c) → r[j]? = some (l, d) → i < j → k < l) : BP P r := by
  induction r with
  | nil => trivial
  | cons p t ih =>
    obtain ⟨k, c⟩ := p
    obtain ⟨a1, a2⟩ := h1 0 k c rfl
    refine ⟨a1, a2, ?_, ih (fun i k c h => h1 (i + 1) k c (by simpa using h)) (fun i j k l c d e1 e2 hij => h2 (i + 1) (j + 1) k l c d (by simpa using e1)
      (by simpa using e2) (by omega))⟩
    intro q hq
    obtain ⟨j, hj, e⟩ := List.mem_iff_getElem.1 hq
    exact h2 0 (j + 1) k q.1 c q.2 rfl (by simp [hj, e]) (by omega)

theorem isBitmapSet_iff {b : RaBuf} {s : NSet} : IsBitmapSet b s ↔ ∃ r, RHolds b r ∧ BInv r ∧ ∀ x, bhas r x = s x := by
  constructor
  · intro h
    have hcell : ∀ i, i < b.size → ∃ p : Nat × CBuf, b.mem[i]? = some p := by
      intro i hi
      have := h.inside
      exact ⟨b.mem[i], by simp⟩
    have hex : ∀ i : Nat, ∃ p : Nat × Container, i < b.size → ∃ o, b.mem[i]? = some (p.1, o) ∧ CHolds o p.2 ∧ CNe p.2 ∧
        ∀ x, x < 65536 → chas p.2 x = s (p.1 * 65536 + x) := by
      intro i
      rcases Nat.lt_or_ge i b.size with hi | hi
      · obtain ⟨⟨k, o⟩, hm⟩ := hcell i hi
        obtain ⟨c, g1, g2, g3⟩ := isContSet_iff.1 (h.conts i k o ⟨hi, hm⟩)
        obtain ⟨x, hx, hsx⟩ := h.nonempty i k o ⟨hi, hm⟩
        refine ⟨(k, c), fun _ => ⟨o, hm, g1, ⟨g2, x, by rw [g3]; simp [hx, hsx]⟩, ?_⟩⟩
        intro x hx
        rw [g3]
        simp [hx]
      · exact ⟨(0, .array []), fun h => by omega⟩
    choose f hf using hex
    have hget : ∀ (i k : Nat) (c : Container), ((List.range b.size).map f)[i]? = some (k, c) → i < b.size ∧ f i = (k, c) := by
      intro i k c hi
      rw [List.getElem?_map, Option.map_eq_some_iff] at hi
      obtain ⟨j, hj, e⟩ := hi
      obtain ⟨h1, h2⟩ := List.getElem?_eq_some_iff.1 hj
      simp only [List.length_range] at h1
      simp only [List.getElem_range] at h2
      subst h2
      exact ⟨h1, e⟩
    have hb : BInv ((List.range b.size).map f) := by
      refine bp_of_get ?_ ?_
      · intro i k c hi
        obtain ⟨h1, h2⟩ := hget i k c hi
        obtain ⟨o, m1, m2, m3, m4⟩ := hf i h1
        rw [h2] at m1 m3
        exact ⟨h.range i k o ⟨h1, m1⟩, m3⟩
      · intro i j k l c d hi hj hij
        obtain ⟨h1, h2⟩ := hget i k c hi
        obtain ⟨h3, h4⟩ := hget j l d hj
        obtain ⟨o, m1, _⟩ := hf i h1
        obtain ⟨o', m1', _⟩ := hf j h3
        rw [h2] at m1
        rw [h4] at m1'
        exact h.incr i j k l o o' ⟨h1, m1⟩ ⟨h3, m1'⟩ hij
    refine ⟨(List.range b.size).map f, ⟨by simp, h.inside, ?_⟩, hb, ?_⟩
    · intro j p hp
      obtain ⟨k, c⟩ := p
      obtain ⟨h1, h2⟩ := hget j k c hp
      obtain ⟨o, m1, m2, _⟩ := hf j h1
      rw [h2] at m1 m2
      exact ⟨o, by rw [Nat.zero_add]; exact m1, m2⟩
    · intro x
      rw [Bool.eq_iff_iff, bhas, List.any_eq_true]
      constructor
      · rintro ⟨p, hp, hx⟩
        rw [Bool.and_eq_true, beq_iff_eq] at hx
        obtain ⟨i, hi, e⟩ := List.mem_map.1 hp
        obtain ⟨o, m1, m2, m3, m4⟩ := hf i (by simpa using hi)
        rw [e] at m4
        have := m4 (x % 65536) (by omega)
        rw [hx.2, hx.1, show x / 65536 * 65536 + x % 65536 = x by omega] at this
        exact this.symm
      · intro hx
        obtain ⟨i, c, hi, hm⟩ := h.found x hx
        obtain ⟨o, m1, m2, m3, m4⟩ := hf i hi
        rw [hm] at m1
        simp only [Option.some.injEq, Prod.mk.injEq] at m1
        refine ⟨f i, List.mem_map.2 ⟨i, by simpa using hi, rfl⟩, ?_⟩
        rw [Bool.and_eq_true, beq_iff_eq, m4 _ (by omega), ← m1.1, show x / 65536 * 65536 + x % 65536 = x by omega]
        exact ⟨rfl, hx⟩
  · rintro ⟨r, h1, h2, h3⟩
    exact isBitmapSet_of h1 h2 h3

end CRoaring
