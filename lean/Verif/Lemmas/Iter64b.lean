import Verif.Lemmas.Iter64
/-
Reading, positions, and iteration by callback over 64-bit bitmaps.
-/
set_option linter.unusedSimpArgs false
set_option linter.unusedVariables false
namespace CRoaring
open Spec

/-- What is left of the set in and after the leaf of `w`. -/
theorem from_leaf {r : R64} {s : NSet} (h : Rep64 r s) {k : List Nat} {c : Container} (hh : RHas r k c) {w : Nat}
    (hw : keyNum k = w / 65536) :
    fromL TOP64 s w = (fromL 65536 (chas c) (w % 65536)).map (fun x => w / 65536 * 65536 ||| x) ++
      fromL TOP64 s ((keyNum k + 1) * 65536) := by
  have hk := keyNum_lt_top (h.inv.1.key hh)
  have hT : TOP64 = 65536 * 256 ^ 6 := by unfold TOP64; decide
  have hmap : (fromL 65536 (chas c) (w % 65536)).map (fun x => w / 65536 * 65536 ||| x) =
      (fromL 65536 (chas c) (w % 65536)).map (fun x => w / 65536 * 65536 + x) := by
    refine List.map_congr_left fun x hx => ?_
    exact lor_low (mem_fromL.1 hx).1
  rw [hmap]
  apply sorted_ext (fromL_sorted _ _ _)
  · refine List.pairwise_append.2 ⟨?_, fromL_sorted _ _ _, fun x hx y hy => ?_⟩
    · rw [List.pairwise_map]
      exact (fromL_sorted _ _ _).imp fun h => by omega
    · obtain ⟨z, hz, rfl⟩ := List.mem_map.1 hx
      have := (mem_fromL.1 hz).1
      have := (mem_fromL.1 hy).2.2
      omega
  · intro x
    rw [List.mem_append, mem_fromL, mem_fromL, List.mem_map]
    constructor
    · rintro ⟨h1, h2, h3⟩
      rcases Nat.lt_or_ge x ((keyNum k + 1) * 65536) with hx | hx
      · refine Or.inl ⟨x % 65536, mem_fromL.2 ⟨by omega, ?_, by omega⟩, by omega⟩
        rw [← h.leaf hh (by omega)]; exact h2
      · exact Or.inr ⟨h1, h2, hx⟩
    · rintro (⟨z, hz, rfl⟩ | ⟨h1, h2, h3⟩)
      · obtain ⟨g1, g2, g3⟩ := mem_fromL.1 hz
        refine ⟨by omega, ?_, by omega⟩
        rw [h.leaf hh (by omega), show (w / 65536 * 65536 + z) % 65536 = z by omega]
        exact g2
      · exact ⟨h1, h2, by omega⟩

theorem enum_end (n : Nat) (s : NSet) : (enum n s)[card n s]? = none := List.getElem?_eq_none (Nat.le_refl _)

theorem enum_drop_end (n : Nat) (s : NSet) : (enum n s).drop (card n s) = [] := List.drop_of_length_le (Nat.le_refl _)

/-- Where `roaring64_iterator_read` leaves the iterator: on a value, or without a value and with the flag `sat` as it was. -/
inductive Left64 (r : R64) (sat : Bool) (it : Iter64) : Option Nat → Prop
  | on (w : Nat) (c : Container) : At64 r it w c → it.satFwd = sat → Left64 r sat it (some w)
  | out : it.artIt.value = none → it.hasValue = false → it.satFwd = sat → Left64 r sat it none

theorem it64LeafFirst_sat (it : Iter64) : (it64LeafFirst it).satFwd = it.satFwd := by
  unfold it64LeafFirst; split <;> rfl

theorem it64LeafFirst_art (it : Iter64) : (it64LeafFirst it).artIt = it.artIt := by
  unfold it64LeafFirst; split <;> rfl

theorem Rep64.lt {r : R64} {s : NSet} (h : Rep64 r s) {x : Nat} (hx : s x = true) : x < TOP64 := by
  obtain ⟨k, c, h1, h2, h3⟩ := (h.mem_iff x).1 hx
  have hk := keyNum_lt_top (h.inv.1.key h1)
  have hT : TOP64 = 65536 * 256 ^ 6 := by unfold TOP64; decide
  omega

theorem At64.mem {r : R64} {s : NSet} (h : Rep64 r s) {it : Iter64} {w : Nat} {c : Container} (hat : At64 r it w c) :
    s w = true := (h.mem_iff w).2 ⟨_, c, hat.at_.has h.inv.1, hat.num, hat.cit.has⟩

theorem read_cap {count : Nat} (h : 0 < count) : ∃ cc, (if count < 4294967295 then count else 4294967295) = cc ∧ 0 < cc ∧
    (cc = count ∨ 65536 < cc ∧ 65536 < count) := by
  refine ⟨_, rfl, ?_, ?_⟩ <;> split <;> omega

theorem it64ReadLoop_spec {r : R64} {s : NSet} (h : Rep64 r s) (fuel : Nat) : ∀ (it : Iter64) (count w : Nat) (c : Container),
    At64 r it w c → P48 < fuel + keyNum it.artIt.key →
    (it64ReadLoop r fuel it count).1 = (fromL TOP64 s w).take count ∧
    Left64 r it.satFwd (it64ReadLoop r fuel it count).2 ((fromL TOP64 s w)[count]?) := by
  induction fuel with
  | zero =>
    intro it count w c hat hf
    have hk := keyNum_lt_top (h.inv.1.key (hat.at_.has h.inv.1))
    have : P48 = 256 ^ 6 := by unfold P48; decide
    omega
  | succ fuel ih =>
    intro it count w c hat hf
    have hat' := hat
    obtain ⟨hra, hnum, hhigh, hhv, hcit, hval⟩ := hat
    subst hval
    have hh := hra.has h.inv.1
    have hne := h.inv.2 _ _ hh
    have hs := hat'.mem h
    have hlt := h.lt hs
    unfold it64ReadLoop
    by_cases hc0 : 0 < count
    · rw [if_pos (by simp [hhv, hc0]), hra.value]
      simp only
      obtain ⟨cc, ecc, hcc0, hcc1⟩ := read_cap hc0
      rw [ecc]
      have hlen : (fromL 65536 (chas c) (it.value % 65536)).length ≤ 65536 := by
        have h1 := List.length_filter_le (fun x => decide (it.value % 65536 ≤ x)) (enum 65536 (chas c))
        have h2 := card_le 65536 (chas c)
        exact Nat.le_trans h1 h2
      obtain ⟨n1, n2, n3⟩ := containerRead_spec hne.1 it.high48 hcc0 hcit
      rw [from_leaf h hh hnum]
      rw [hhigh] at n1 n2 n3 ⊢
      generalize containerIteratorRead c it.cit (it.value / 65536 * 65536) cc (it.value % 65536) = p at n1 n2 n3
      obtain ⟨out, idx, o⟩ := p
      simp only at n1 n2 n3 ⊢
      -- the capped count is as good as the count
      have t1 : out = ((fromL 65536 (chas c) (it.value % 65536)).take count).map (fun x => it.value / 65536 * 65536 ||| x) := by
        rcases hcc1 with e | ⟨e1, e2⟩
        · rw [← e]; exact n1
        · rw [n1, List.take_of_length_le (by omega), List.take_of_length_le (by omega)]
      have t2 : o = (fromL 65536 (chas c) (it.value % 65536))[count]? := by
        rcases hcc1 with e | ⟨e1, e2⟩
        · rw [← e]; exact n2
        · rw [n2, List.getElem?_eq_none (by omega), List.getElem?_eq_none (by omega)]
      clear n1 n2 hcc0 hcc1
      cases o with
      | some v =>
        obtain ⟨hl, hv'⟩ := List.getElem?_eq_some_iff.1 t2.symm
        have hv : v < 65536 := (mem_fromL.1 (hv' ▸ List.getElem_mem hl)).1
        rw [List.take_append_of_le_length (by rw [List.length_map]; omega),
          List.getElem?_append_left (by rw [List.length_map]; omega), List.getElem?_map, ← t2, ← List.map_take]
        refine ⟨t1, .on _ c ?_ rfl⟩
        have := At64.put (it := it) hra hnum hhigh hv (n3 v rfl)
        simp only
        rw [lor_low hv]
        rw [hhigh, lor_low hv] at this
        exact this
      | none =>
        have hl := List.getElem?_eq_none_iff.1 t2.symm
        rw [List.take_of_length_le hl] at t1
        have hol : out.length = (fromL 65536 (chas c) (it.value % 65536)).length := by rw [t1, List.length_map]
        rw [List.take_append, List.getElem?_append_right (by rw [List.length_map]; exact hl), List.length_map,
          List.take_of_length_le (by rw [List.length_map]; exact hl), ← t1, ← hol]
        have hf' := itNext_first h.inv.1 hra
        simp only
        cases hc : (itNext r it.artIt).value with
        | none =>
          have hnn := rfirst_none h hf' hc
          rw [fromL_none hnn]
          simp only [Option.isSome_none, Bool.false_eq_true, if_false]
          have e : ∀ fuel' (i : Iter64) cnt, i.hasValue = false → it64ReadLoop r fuel' i cnt = ([], i) := by
            intro fuel' i cnt hi
            cases fuel' with
            | zero => rfl
            | succ n => unfold it64ReadLoop; rw [if_neg (by rw [hi]; simp)]
          rw [e _ _ _ rfl]
          simp only [List.take_nil, List.getElem?_nil]
          exact ⟨trivial, .out hc rfl rfl⟩
        | some c' =>
          simp only [Option.isSome_some, if_true]
          obtain ⟨w', g1, g2⟩ := leafFirst_spec h
            (it := { it with cit := idx, high48 := it.value / 65536 * 65536, artIt := itNext r it.artIt, hasValue := true }) hf' hc
          have hlt' := h.lt g1.1
          have hke : fromL TOP64 s ((keyNum it.artIt.key + 1) * 65536) = fromL TOP64 s w' := fromL_skip g1.2.1 g1.2.2
          rw [hke]
          have hkk : keyNum it.artIt.key + 1 ≤ keyNum (itNext r it.artIt).key := by
            unfold RFirst at hf'; rw [hc] at hf'; exact hf'.2.1
          obtain ⟨i1, i2⟩ := ih _ (count - out.length) w' c' g2 (by rw [it64LeafFirst_art]; simp only; omega)
          rw [it64LeafFirst_sat] at i2
          refine ⟨congrArg (out ++ ·) i1, ?_⟩
          simp only at i2 ⊢
          exact i2
    · have e0 : count = 0 := by omega
      subst e0
      rw [if_neg (by simp)]
      have e : fromL TOP64 s it.value = it.value :: fromL TOP64 s (it.value + 1) :=
        fromL_next ⟨hs, Nat.le_refl _, fun z h1 h2 => by omega⟩ hlt
      rw [e, List.take_zero, List.getElem?_cons_zero]
      exact ⟨rfl, .on _ c hat' rfl⟩

theorem it64Read_spec {r : R64} {s : NSet} (h : Rep64 r s) {it : Iter64} {w : Nat} {c : Container} (hat : At64 r it w c)
    (count : Nat) :
    (it64Read r it count).1 = (fromL TOP64 s w).take count ∧
    Left64 r it.satFwd (it64Read r it count).2 ((fromL TOP64 s w)[count]?) :=
  it64ReadLoop_spec h _ it count w c hat (Nat.lt_of_lt_of_le
    (by have := p48_fuel (Nat.le_refl P48) (Nat.zero_le P48); simpa using this) (Nat.le_add_right _ _))

theorem it64Read_novalue {r : R64} {it : Iter64} (hv : it.hasValue = false) (count : Nat) : it64Read r it count = ([], it) := by
  have key : ∀ n, it64ReadLoop r n it count = ([], it) := by
    intro n
    cases n with
    | zero => rfl
    | succ n => unfold it64ReadLoop; rw [if_neg (by rw [hv]; simp)]
  exact key _

/-! ### Positions -/

/-- The iterator is at position `i`: 0 is before the first value, `i` is on the value of rank `i`, and one more than the
cardinality is behind the last value. -/
def Rel64 (r : R64) (s : NSet) (it : Iter64) (i : Nat) : Prop :=
  (i = 0 ∧ Beg64 it) ∨ (∃ w c, At64 r it w c ∧ i = card w s + 1) ∨ (i = card TOP64 s + 1 ∧ End64 it)

theorem rel64_landsF {r : R64} {s : NSet} {it : Iter64} {a : Nat} {o : Option Nat} (hn : NextOf s a o)
    (hl : Lands64F r it o) (ha : a ≤ TOP64) : Rel64 r s it (card a s + 1) := by
  cases o with
  | none => exact Or.inr (Or.inr ⟨by rw [card_gap ha (fun z h1 _ => hn z h1)], hl⟩)
  | some w =>
    obtain ⟨c, hat⟩ := hl
    exact Or.inr (Or.inl ⟨w, c, hat, by rw [card_gap hn.2.1 hn.2.2]⟩)

theorem rel64_landsB {r : R64} {s : NSet} {it : Iter64} {a : Nat} {o : Option Nat} (hn : PrevOf s a o)
    (hl : Lands64B r it o) : Rel64 r s it (card a s) := by
  cases o with
  | none =>
    refine Or.inl ⟨?_, hl⟩
    rw [card_gap (Nat.zero_le a) (fun z _ h1 => hn z h1)]
    rfl
  | some w =>
    obtain ⟨c, hat⟩ := hl
    refine Or.inr (Or.inl ⟨w, c, hat, ?_⟩)
    rw [card_gap (a := w + 1) hn.2.1 (fun z h1 h2 => hn.2.2 z (by omega) h2), card_succ, hn.1]
    simp

theorem rel64_init {r : R64} {s : NSet} (h : Rep64 r s) (junk : Iter64) : Rel64 r s (it64InitAt r junk true) 1 := by
  obtain ⟨o, h1, h2⟩ := it64InitAt_first h junk
  exact rel64_landsF h1 h2 (Nat.zero_le _)

theorem rel64_init_last {r : R64} {s : NSet} (h : Rep64 r s) (junk : Iter64) :
    Rel64 r s (it64InitAt r junk false) (card TOP64 s) := by
  obtain ⟨o, h1, h2⟩ := it64InitAt_last h junk
  exact rel64_landsB h1 h2

theorem rel64_advance {r : R64} {s : NSet} (h : Rep64 r s) {it : Iter64} {i : Nat} (hr : Rel64 r s it i) :
    Rel64 r s (it64Advance r it) (min (i + 1) (card TOP64 s + 1)) := by
  rcases hr with ⟨rfl, hb⟩ | ⟨w, c, hat, rfl⟩ | ⟨rfl, he⟩
  · obtain ⟨o, h1, h2⟩ := it64Advance_beg h hb
    rw [show min (0 + 1) (card TOP64 s + 1) = 1 by omega]
    exact rel64_landsF h1 h2 (Nat.zero_le _)
  · obtain ⟨o, h1, h2⟩ := it64Advance_at h hat
    have hw := hat.mem h
    have hlt := h.lt hw
    have h3 := rel64_landsF h1 h2 hlt
    have := card_lt_of_mem hlt hw
    rw [card_succ, hw] at h3
    rw [show min (card w s + 1 + 1) (card TOP64 s + 1) = card w s + 1 + 1 by omega]
    exact h3
  · rw [show min (card TOP64 s + 1 + 1) (card TOP64 s + 1) = card TOP64 s + 1 by omega]
    exact Or.inr (Or.inr ⟨rfl, it64Advance_end he⟩)

theorem rel64_previous {r : R64} {s : NSet} (h : Rep64 r s) {it : Iter64} {i : Nat} (hr : Rel64 r s it i) :
    Rel64 r s (it64Previous r it) (i - 1) := by
  rcases hr with ⟨rfl, hb⟩ | ⟨w, c, hat, rfl⟩ | ⟨rfl, he⟩
  · exact Or.inl ⟨rfl, it64Previous_beg hb⟩
  · obtain ⟨o, h1, h2⟩ := it64Previous_at h hat
    rw [Nat.add_sub_cancel]
    exact rel64_landsB h1 h2
  · obtain ⟨o, h1, h2⟩ := it64Previous_end h he
    rw [Nat.add_sub_cancel]
    exact rel64_landsB h1 h2

theorem Rel64.sound {r : R64} {s : NSet} {it : Iter64} {i : Nat} (hr : Rel64 r s it i) : Sound64 r it := by
  rcases hr with ⟨rfl, hb⟩ | ⟨w, c, hat, rfl⟩ | ⟨rfl, he⟩
  · exact Or.inr ⟨hb.av, hb.hv⟩
  · exact Or.inl ⟨w, c, hat⟩
  · exact Or.inr ⟨he.av, he.hv⟩

theorem rel64_move {r : R64} {s : NSet} (h : Rep64 r s) {it : Iter64} (hs : Sound64 r it) {v : Nat} (hv : v < TOP64) :
    Rel64 r s (it64Move r it v) (card v s + 1) := by
  obtain ⟨o, h1, h2⟩ := it64Move_spec h hs hv
  exact rel64_landsF h1 h2 (Nat.le_of_lt hv)

theorem rel64_seen {r : R64} {s : NSet} (h : Rep64 r s) {it : Iter64} {i : Nat} (hr : Rel64 r s it i) :
    (if it.hasValue then some it.value else none) = (if 1 ≤ i then (enum TOP64 s)[i - 1]? else none) := by
  have key : ∀ n, (∀ w, s w = true → w < n) → i = 0 ∧ Beg64 it ∨ (∃ w c, At64 r it w c ∧ i = card w s + 1) ∨
      (i = card n s + 1 ∧ End64 it) →
      (if it.hasValue then some it.value else none) = (if 1 ≤ i then (enum n s)[i - 1]? else none) := by
    intro n hn hr
    rcases hr with ⟨rfl, hb⟩ | ⟨w, c, hat, rfl⟩ | ⟨rfl, he⟩
    · rw [hb.hv, if_neg (by simp), if_neg (by omega)]
    · rw [if_pos (show 1 ≤ card w s + 1 by omega), Nat.add_sub_cancel, enum_getElem_card (hn _ (hat.mem h)) (hat.mem h), if_pos hat.hv, hat.val]
    · rw [if_pos (show 1 ≤ card n s + 1 by omega), Nat.add_sub_cancel, enum_end, he.hv, if_neg (by simp)]
  exact key TOP64 (fun w hw => h.lt hw) hr

/-- Reading from position `i`. -/
theorem rel64_read {r : R64} {s : NSet} (h : Rep64 r s) {it : Iter64} {i : Nat} (hr : Rel64 r s it i) (count : Nat) :
    (it64Read r it count).1 = (if 1 ≤ i then (((enum TOP64 s).drop (i - 1)).take count) else []) ∧
    (if 1 ≤ i ∧ i ≤ card TOP64 s then
      (if i + count ≤ card TOP64 s then Rel64 r s (it64Read r it count).2 (i + count)
       else (it64Read r it count).2.artIt.value = none ∧ (it64Read r it count).2.hasValue = false ∧
        (it64Read r it count).2.satFwd = it.satFwd)
     else (it64Read r it count).2 = it) := by
  rcases hr with ⟨rfl, hb⟩ | ⟨w, c, hat, rfl⟩ | ⟨rfl, he⟩
  · rw [it64Read_novalue hb.hv]
    exact ⟨rfl, rfl⟩
  · have hw := hat.mem h
    have hlt := h.lt hw
    have hcl := card_lt_of_mem hlt hw
    obtain ⟨h1, h2⟩ := it64Read_spec h hat count
    have hcs := card_from (s := s) (n := TOP64) (w := w) (Nat.le_of_lt hlt)
    rw [if_pos (show 1 ≤ card w s + 1 by omega), if_pos (show 1 ≤ card w s + 1 ∧ card w s + 1 ≤ card TOP64 s by omega),
      Nat.add_sub_cancel, ← fromL_drop (Nat.le_of_lt hlt)]
    refine ⟨h1, ?_⟩
    cases hg : (fromL TOP64 s w)[count]? with
    | none =>
      rw [hg] at h2
      have := List.getElem?_eq_none_iff.1 hg
      rw [if_neg (by omega)]
      cases h2 with
      | out a b c => exact ⟨a, b, c⟩
    | some w' =>
      rw [hg] at h2
      obtain ⟨hl, e⟩ := List.getElem?_eq_some_iff.1 hg
      rw [if_pos (by omega)]
      obtain ⟨c', hat'⟩ : ∃ c', At64 r (it64Read r it count).2 w' c' := by
        cases h2 with
        | on _ c' a b => exact ⟨c', a⟩
      refine Or.inr (Or.inl ⟨w', c', hat', ?_⟩)
      rw [fromL_drop (Nat.le_of_lt hlt), List.getElem?_drop] at hg
      obtain ⟨x, x1, x2, x3, x4⟩ := enum_getElem_lt (n := TOP64) (s := s) (k := card w s + count) (by omega)
      obtain rfl : w' = x := by rw [x1] at hg; exact (Option.some.inj hg).symm
      omega
  · rw [it64Read_novalue he.hv, if_pos (show 1 ≤ card TOP64 s + 1 by omega),
      if_neg (show ¬ (1 ≤ card TOP64 s + 1 ∧ card TOP64 s + 1 ≤ card TOP64 s) by omega), Nat.add_sub_cancel,
      enum_drop_end]
    exact ⟨by simp, rfl⟩

theorem r64ToUint64_eq {r : R64} {s : NSet} (h : Rep64 r s) (junk : Iter64) :
    r64ToUint64 r junk = (enum TOP64 s).take 18446744073709551615 := by
  have := (rel64_read h (rel64_init h junk) 18446744073709551615).1
  rw [if_pos (Nat.le_refl 1), Nat.sub_self, List.drop_zero] at this
  exact this

/-! ### Iteration by callback -/

theorem callUntil_map {σ : Type} (f : σ → Nat → σ × Bool) (g : Nat → Nat) (s : σ) (l : List Nat) :
    callUntil (fun s v => f s (g v)) s l = callUntil f s (l.map g) := by
  induction l generalizing s with
  | nil => rfl
  | cons x t ih =>
    simp only [callUntil, List.map_cons]
    split
    · exact ih _
    · rfl

theorem containerIterate64_eq {σ : Type} (f : σ → Nat → σ × Bool) (s : σ) {base high : Nat} {c : Container} (h : CInv c)
    (hb : base + 65536 ≤ 4294967296) :
    containerIterate64 f s base high c = callUntil f s ((enum 65536 (chas c)).map fun v => high ||| (base + v)) := by
  unfold containerIterate64
  rw [containerIterate_eq _ s h.rep (by omega), arrayIterate_call]
  · rw [callUntil_map, List.map_map]; rfl
  · intro v hv
    have := (mem_enum.1 hv).1
    omega

theorem lor_32 {n y : Nat} (h : y < 4294967296) : n * 4294967296 ||| y = n * 4294967296 + y := by
  have := (Nat.shiftLeft_add_eq_or_of_lt (i := 32) (b := y) h n).symm
  rwa [Nat.shiftLeft_eq] at this

theorem fromL_zero (n : Nat) (s : NSet) : fromL n s 0 = enum n s := by
  unfold fromL
  rw [List.filter_eq_self]
  intro a _
  simp

theorem iterate64Loop_spec {σ : Type} (f : σ → Nat → σ × Bool) {r : R64} {s : NSet} (h : Rep64 r s) (fuel : Nat) :
    ∀ (it : AIt) (X : Nat) (a : σ), RFirst r X it → P48 < fuel + X →
    iterate64Loop f r fuel it a = callUntil f a (fromL TOP64 s (X * 65536)) := by
  induction fuel with
  | zero =>
    intro it X a hf hX
    have e : fromL TOP64 s (X * 65536) = [] := fromL_ge (by unfold P48 at hX; unfold TOP64; omega)
    rw [e]; rfl
  | succ fuel ih =>
    intro it X a hf hX
    unfold iterate64Loop
    cases hc : it.value with
    | none =>
      rw [fromL_none (rfirst_none h hf hc)]
      rfl
    | some c =>
      simp only
      have hf' := hf
      unfold RFirst at hf'
      rw [hc] at hf'
      obtain ⟨h1, h2, h3⟩ := hf'
      have hh := h1.has h.inv.1
      have hne := h.inv.2 _ _ hh
      have hik := h.inv.1.key hh
      rw [combineKey_eq hik (by omega), Nat.add_zero]
      have e1 : fromL TOP64 s (X * 65536) = fromL TOP64 s (keyNum it.key * 65536) := by
        refine fromL_skip (by omega) fun z hz1 hz2 => ?_
        rw [Bool.eq_false_iff]
        intro hs
        obtain ⟨k', c', g1, g2, g3⟩ := (h.mem_iff z).1 hs
        have := h3 k' c' g1 (by omega)
        omega
      have e2 := from_leaf h hh (w := keyNum it.key * 65536) (by omega)
      rw [show keyNum it.key * 65536 % 65536 = 0 by omega, fromL_zero,
        show keyNum it.key * 65536 / 65536 = keyNum it.key by omega] at e2
      rw [e1, e2, callUntil_append, containerIterate64_eq f a hne.1 (by omega)]
      have e3 : (enum 65536 (chas c)).map (fun v => keyNum it.key * 65536 / 4294967296 * 4294967296 |||
            (keyNum it.key * 65536 % 4294967296 + v)) =
          (enum 65536 (chas c)).map (fun x => keyNum it.key * 65536 ||| x) := by
        refine List.map_congr_left fun x hx => ?_
        have := (mem_enum.1 hx).1
        rw [lor_32 (by omega), lor_low this]
        omega
      rw [e3]
      cases hb : (callUntil f a ((enum 65536 (chas c)).map fun x => keyNum it.key * 65536 ||| x)).2
      · simp [Prod.ext_iff, hb]
      · simp only [Bool.not_true, if_true]
        exact ih _ _ _ (itNext_first h.inv.1 h1) (by omega)

theorem r64Iterate_eq {σ : Type} (f : σ → Nat → σ × Bool) (a : σ) {r : R64} {s : NSet} (h : Rep64 r s) :
    r64Iterate f a r = callUntil f a (enum TOP64 s) := by
  have := iterate64Loop_spec f h FUEL (artInitIterator r true) 0 a (artInit_first h.inv.1)
    (by have := p48_fuel (Nat.le_refl P48) (Nat.zero_le P48); simpa using this)
  rw [Nat.zero_mul, fromL_zero] at this
  exact this

theorem rbIterate64_eq {σ : Type} (f : σ → Nat → σ × Bool) (high : Nat) (s : σ) {r : Bitmap} (h : BInv r) :
    rbIterate64 f high s r = callUntil f s ((vals r).map (high ||| ·)) := by
  induction r generalizing s with
  | nil => rfl
  | cons p t ih =>
    obtain ⟨k, c⟩ := p
    have hk := h.1
    rw [rbIterate64, vals_cons, List.map_append, callUntil_append, shl16, containerIterate64_eq f s h.2.1.1 (by omega)]
    have e : (enum 65536 (chas c)).map (fun v => high ||| (k * 65536 + v)) = (cvals k c).map (high ||| ·) := by
      unfold cvals
      rw [List.map_map]; rfl
    rw [e]
    cases hh : (callUntil f s ((cvals k c).map (high ||| ·))).2
    · simp [Prod.ext_iff, hh]
    · simp only [Bool.not_true, if_true]
      rw [ih _ h.2.2.2]
      rfl

theorem r64IntersectWithRange_iff {r : R64} {s : NSet} (h : Rep64 r s) {min max : Nat} (hmax : max < TOP64) (junk : Iter64) :
    r64IntersectWithRange r min max junk = true ↔ ∃ x, min ≤ x ∧ x < max ∧ s x = true := by
  unfold r64IntersectWithRange
  by_cases hmm : min ≥ max
  · rw [if_pos hmm]
    simp only [Bool.false_eq_true, false_iff]
    rintro ⟨x, h1, h2, _⟩
    omega
  rw [if_neg hmm]
  simp only
  obtain ⟨o, h1, h2⟩ := it64Move_spec h (rel64_init h junk).sound (val := min) (by omega)
  cases o with
  | none =>
    have h2 : End64 (it64Move r (it64InitAt r junk true) min) := h2
    rw [h2.hv]
    simp only [Bool.not_false, if_true, Bool.false_eq_true, false_iff]
    rintro ⟨x, a1, a2, a3⟩
    rw [h1 x a1] at a3
    cases a3
  | some w =>
    have hn : s w = true ∧ min ≤ w ∧ ∀ z, min ≤ z → z < w → s z = false := h1
    obtain ⟨c, hat⟩ := h2
    rw [hat.hv, hat.val]
    simp only [Bool.not_true, Bool.false_eq_true, if_false, Bool.true_and, decide_eq_true_eq]
    constructor
    · intro hw
      exact ⟨w, hn.2.1, hw, hn.1⟩
    · rintro ⟨x, a1, a2, a3⟩
      by_cases hxw : x < w
      · rw [hn.2.2 x a1 hxw] at a3; cases a3
      · omega

end CRoaring
