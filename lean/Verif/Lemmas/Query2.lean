import Verif.Lemmas.Query

set_option linter.unusedSimpArgs false
set_option linter.unusedVariables false

/-! Batched ranks, paged export, changes of representation. -/

namespace CRoaring
open Spec

/-! ### rank_many -/

theorem bcard_append (A B : Bitmap) : bcard (A ++ B) = bcard A + bcard B := by
  induction A with
  | nil => simp [bcard]
  | cons p t ih => obtain ⟨k, c⟩ := p; simp only [List.cons_append, bcard, ih]; omega

/-- No value of the bitmap has the high half `x / 65536` or lies between the two parts. -/
theorem card_split {A B : Bitmap} (h : BInv (A ++ B)) {x : Nat} (hA : ∀ p ∈ A, p.1 < x / 65536)
    (hB : ∀ p ∈ B, x / 65536 < p.1) (hx : x < 4294967296) : card (x + 1) (bhas (A ++ B)) = bcard A := by
  have hb := bp_append.1 h
  rw [← card_bhas hb.1]
  obtain ⟨m, e⟩ := Nat.exists_eq_add_of_le (show x + 1 ≤ 4294967296 by omega)
  rw [e, card_add (x + 1) m, card_eq_zero (n := m) |>.2]
  · rw [Nat.add_zero]
    refine card_congr fun y hy => ?_
    rw [bhas_append, bhas_ne (r := B) fun p hp => by have := hB p hp; omega, Bool.or_false]
  · intro y hy
    exact bhas_ne fun p hp => by have := hA p hp; omega

theorem rbRankManyLoop_eq {K : Nat} (fuel : Nat) : ∀ (A t : Bitmap) (xs : List Nat), BInv (A ++ t) →
    xs.Pairwise (· ≤ ·) → (∀ x ∈ xs, x < 4294967296) → (∀ x ∈ xs, ∀ p ∈ A, p.1 < x / 65536) →
    (∀ p ∈ t, p.1 ≤ K) → (∃ p ∈ A ++ t, p.1 = K) → t.length + xs.length ≤ fuel →
    rbRankManyLoop fuel (bcard A) xs t =
      (xs.takeWhile (fun x => decide (x / 65536 ≤ K))).map (fun x => card (x + 1) (bhas (A ++ t))) := by
  induction fuel with
  | zero =>
    intro A t xs _ _ _ _ _ _ hf
    have : xs = [] := List.length_eq_zero_iff.1 (by omega)
    subst this
    simp [rbRankManyLoop]
  | succ fuel ih =>
    intro A t xs h hs hlt hA hK hKm hf
    cases xs with
    | nil => simp [rbRankManyLoop]
    | cons x xs =>
      cases t with
      | nil =>
        obtain ⟨p, hp, e⟩ := hKm
        rw [List.append_nil] at hp
        have := hA x (by simp) p hp
        rw [rbRankManyLoop, List.takeWhile_cons, if_neg (by simp; omega)]
        rfl
      | cons q t =>
        obtain ⟨k, c⟩ := q
        have hbm := bp_mid.1 h
        have hk : k ≤ K := hK (k, c) (by simp)
        have hx := hlt x (by simp)
        rw [rbRankManyLoop]
        have eA : A ++ (k, c) :: t = (A ++ [(k, c)]) ++ t := by simp
        have hsx := List.pairwise_cons.1 hs
        by_cases h1 : x / 65536 > k
        · rw [if_pos h1, containerCard_eq hbm.2.2.1.1.rep]
          have e1 : bcard (A ++ [(k, c)]) = bcard A + card 65536 (chas c) := by
            rw [bcard_append]; simp [bcard]
          have hle := bcard_le ((bp_append.1 (eA ▸ h)).1)
          rw [show ((bcard A : Nat) : Int) + (card 65536 (chas c) : Nat) = ((bcard (A ++ [(k, c)]) : Nat) : Int) by omega,
            u64_nat (by omega), ih (A ++ [(k, c)]) t (x :: xs) (eA ▸ h) hs hlt ?_ (fun p hp => hK p (by simp [hp]))
              (eA ▸ hKm) (by simp only [List.length_cons] at hf ⊢; omega), ← eA]
          intro y hy p hp
          have hxy : x ≤ y := by
            rcases List.mem_cons.1 hy with rfl | hy
            · exact Nat.le_refl _
            · exact hsx.1 y hy
          have : x / 65536 ≤ y / 65536 := Nat.div_le_div_right hxy
          rcases List.mem_append.1 hp with hp | hp
          · exact hA y hy p hp
          · simp only [List.mem_singleton] at hp
            subst hp
            show k < y / 65536
            omega
        · rw [if_neg h1]
          by_cases h2 : x / 65536 = k
          · rw [if_pos h2]
            simp only
            rw [containerRankMany_eq hbm.2.2.1.1.rep _ _ hs hlt]
            simp only [List.headD_cons]
            have hdl : ((x :: xs).dropWhile (fun y => y / 65536 == x / 65536)).length ≤ xs.length := by
              rw [List.dropWhile_cons, if_pos (by simp)]
              exact (List.dropWhile_sublist _).length_le
            have hds : ((x :: xs).dropWhile (fun y => y / 65536 == x / 65536)).Sublist (x :: xs) := List.dropWhile_sublist _
            rw [ih A ((k, c) :: t) _ h (hs.sublist hds) (fun y hy => hlt y (hds.subset hy))
              (fun y hy => hA y (hds.subset hy)) hK hKm (by simp only [List.length_cons] at hf ⊢; omega)]
            have hxs : x :: xs = (x :: xs).takeWhile (fun y => y / 65536 == x / 65536) ++
                (x :: xs).dropWhile (fun y => y / 65536 == x / 65536) := List.takeWhile_append_dropWhile.symm
            have htw : ∀ y ∈ (x :: xs).takeWhile (fun y => y / 65536 == x / 65536), y / 65536 = k := by
              intro y hy
              have := List.all_takeWhile (l := x :: xs) (p := fun y => y / 65536 == x / 65536)
              rw [List.all_eq_true] at this
              have := this y hy
              rw [beq_iff_eq] at this
              omega
            conv => rhs; rw [hxs]
            rw [List.takeWhile_append_of_pos (fun y hy => by have := htw y hy; simp; omega), List.map_append]
            congr 1
            refine List.map_congr_left fun y hy => ?_
            have hyk := htw y hy
            have := card_prefix h (y := y % 65536 + 1) (by omega)
            rw [show k * 65536 + (y % 65536 + 1) = y + 1 by omega] at this
            exact this.symm
          · rw [if_neg h2, List.takeWhile_cons, if_pos (by simp; omega), List.map_cons]
            rw [ih A ((k, c) :: t) xs h hsx.2 (fun y hy => hlt y (by simp [hy])) (fun y hy => hA y (by simp [hy])) hK hKm
              (by simp only [List.length_cons] at hf ⊢; omega)]
            congr 1
            refine (card_split h (hA x (by simp)) ?_ hx).symm
            intro p hp
            rcases List.mem_cons.1 hp with rfl | hp
            · show x / 65536 < k
              omega
            · have := hbm.2.2.2.2 p hp
              omega

theorem rbRankMany_eq {r : Bitmap} (h : BInv r) (hne : r ≠ []) {xs : List Nat} (hs : xs.Pairwise (· ≤ ·))
    (hlt : ∀ x ∈ xs, x < 4294967296) :
    rbRankMany r xs = (xs.takeWhile (fun x => decide (x / 65536 ≤ rbMaximum r / 65536))).map (rbRank r) := by
  have hm := (rbMaximum_spec h).2 hne
  have := rbRankManyLoop_eq (K := rbMaximum r / 65536) (r.length + xs.length) [] r xs h hs hlt (by simp) ?_ ?_ (Nat.le_refl _)
  · rw [rbRankMany]
    refine this.trans ?_
    refine List.map_congr_left fun x hx => ?_
    rw [List.nil_append, rbRank_eq h (hlt x ((List.takeWhile_sublist _).subset hx))]
  · intro p hp
    obtain ⟨y, hy⟩ := (h.all p hp).2
    have hlt := (h.all p hp).1.rep.lt hy
    have := hm.2 (p.1 * 65536 + y) (by rw [bhas_mem h hp hlt]; exact hy)
    omega
  · obtain ⟨p, hp, e, _⟩ := bhas_key hm.1
    exact ⟨p, by simpa using hp, e⟩

/-! ### range_uint32_array -/

/-- What is known when the loop of `ra_range_uint32_array` ends, for `limit > 0`. -/
def RangeDone (offset limit : Nat) (L : List Nat) (st : RangeSt) : Prop :=
  (L.length ≤ offset → st.skip = none) ∧
  (offset < L.length → ∃ pre post s, st.skip = some s ∧ L = pre ++ st.out ++ post ∧ pre.length + s = offset ∧
    (post = [] ∨ s + limit ≤ st.out.length) ∧ s + limit ≤ st.curLen ∧ s < st.out.length)

/-- What holds at the head of the loop when the containers with the values `L` have been read. -/
def RangeAt (offset limit : Nat) (L : List Nat) (st : RangeSt) : Prop :=
  st.ctr = L.length ∧
  ((st.skip = none ∧ st.out = [] ∧ st.ctr ≤ offset) ∨
    (∃ pre s, st.skip = some s ∧ L = pre ++ st.out ∧ pre.length + s = offset ∧ s < st.out.length ∧
      s + limit ≤ st.curLen))

theorem rangeStep_spec {offset limit : Nat} (hl : 0 < limit) {k : Nat} {c : Container} {V L : List Nat} {st : RangeSt}
    (htl : (containerCard c).toNat = V.length) (hu : containerToUint32 (k <<< 16) c = V) (hpos : 0 < V.length)
    (h : RangeAt offset limit L st) (hlt : st.ctr < offset + limit) :
    RangeAt offset limit (L ++ V) (rangeStep offset limit st k c) := by
  obtain ⟨hc, h⟩ := h
  unfold rangeStep
  simp only [htl, hu]
  by_cases hcnd : st.ctr + V.length - 1 ≥ offset
  · rw [if_pos ⟨hcnd, hlt⟩]
    refine ⟨by simp [hc], Or.inr ?_⟩
    rcases h with ⟨h1, h2, h3⟩ | ⟨pre, s, h1, h2, h3, h4, h5⟩
    · refine ⟨L, offset - st.ctr, by simp [h1], by simp [h2], by omega, ?_, ?_⟩
      · simp only [h2, List.nil_append]; omega
      · simp only [h1, Option.getD_none]
        split <;> omega
    · refine ⟨pre, s, by simp [h1], by simp [h2], h3, ?_, ?_⟩
      · simp only [List.length_append]; omega
      · simp only [h1]
        split <;> omega
  · rw [if_neg (fun hh => hcnd hh.1)]
    refine ⟨by simp [hc], Or.inl ?_⟩
    rcases h with ⟨h1, h2, h3⟩ | ⟨pre, s, h1, h2, h3, h4, h5⟩
    · exact ⟨h1, h2, by simp only; omega⟩
    · rw [h2, List.length_append] at hc
      omega

theorem rangeLoop_spec {offset limit : Nat} (hl : 0 < limit) (hol : offset + limit < 18446744073709551616)
    (t : Bitmap) : ∀ (A : Bitmap) (st : RangeSt), BInv (A ++ t) → RangeAt offset limit (vals A) st →
    st.ctr < offset + limit →
    RangeDone offset limit (vals (A ++ t)) (rangeLoop offset limit st t) := by
  induction t with
  | nil =>
    intro A st h hst _
    rw [rangeLoop, List.append_nil]
    obtain ⟨hc, ⟨h1, h2, h3⟩ | ⟨pre, s, h1, h2, h3, h4, h5⟩⟩ := hst
    · exact ⟨fun _ => h1, fun hh => by omega⟩
    · refine ⟨fun hh => ?_, fun _ => ⟨pre, [], s, h1, by rw [List.append_nil]; exact h2, h3, Or.inl rfl, h5, h4⟩⟩
      rw [h2, List.length_append] at hh
      omega
  | cons p t ih =>
    intro A st h hst hlt
    obtain ⟨k, c⟩ := p
    have hbm := bp_mid.1 h
    have hcr := hbm.2.2.1.1.rep
    have htl : (containerCard c).toNat = (cvals k c).length := by
      rw [containerCard_eq hcr, cvals_length]; simp
    have hpos : 0 < (cvals k c).length := by
      obtain ⟨y, hy⟩ := hbm.2.2.1.2
      rw [cvals_length]
      exact card_pos.2 ⟨y, hcr.lt hy, hy⟩
    have hu : containerToUint32 (k <<< 16) c = cvals k c := by
      rw [shl16, containerToUint32_eq hcr (by have := hbm.2.1; omega)]; rfl
    have eL : A ++ (k, c) :: t = (A ++ [(k, c)]) ++ t := by simp
    have ev : vals (A ++ [(k, c)]) = vals A ++ cvals k c := by rw [vals_append, vals_cons, vals_nil, List.append_nil]
    have hs := rangeStep_spec hl htl hu hpos hst hlt
    rw [← ev] at hs
    have hlen : (vals (A ++ [(k, c)])).length < 18446744073709551616 := by
      have hle := card_le 4294967296 (bhas (A ++ [(k, c)]))
      rw [vals_eq (bp_append.1 (eL ▸ h)).1]
      rw [card] at hle
      omega
    rw [eL, rangeLoop]
    generalize rangeStep offset limit st k c = st2 at hs ⊢
    obtain ⟨hc, hs'⟩ := hs
    rcases hs' with ⟨h1, h2, h3⟩ | ⟨pre, s, h1, h2, h3, h4, h5⟩
    · rw [if_neg]
      · exact ih _ st2 (eL ▸ h) ⟨hc, Or.inl ⟨h1, h2, h3⟩⟩ (by omega)
      · rw [h1, h2]
        show ¬ (u64 0 ≥ limit)
        rw [show u64 0 = 0 by decide]
        omega
    · have hout : st2.out.length ≤ (vals (A ++ [(k, c)])).length := by rw [h2, List.length_append]; omega
      have hd : u64 ((st2.out.length : Int) - (st2.skip.getD 0 : Nat)) = st2.out.length - s := by
        rw [h1, Option.getD_some, show ((st2.out.length : Int) - (s : Nat)) = ((st2.out.length - s : Nat) : Int) by omega]
        exact u64_nat (by omega)
      rw [hd]
      split
      · refine ⟨fun hh => ?_, fun _ => ⟨pre, vals t, s, h1, ?_, h3, Or.inr (by omega), h5, h4⟩⟩
        · rw [vals_append, h2, List.length_append, List.length_append] at hh
          omega
        · rw [vals_append, h2]
      · refine ih _ st2 (eL ▸ h) ⟨hc, Or.inr ⟨pre, s, h1, h2, h3, h4, h5⟩⟩ ?_
        rw [hc, h2, List.length_append]
        omega

theorem take_pad (l : List Nat) {m n k : Nat} (hm : k ≤ l.length + m) (hn : k ≤ l.length + n) :
    (l ++ List.replicate m 0).take k = (l ++ List.replicate n 0).take k := by
  rw [List.take_append, List.take_append, List.take_replicate, List.take_replicate,
    show min (k - l.length) m = min (k - l.length) n by omega]

theorem rbRangeUint32_eq {r : Bitmap} (h : BInv r) {offset limit : Nat} (hol : offset + limit < 18446744073709551616) :
    rbRangeUint32 r offset limit =
      if offset < (vals r).length then ((vals r).drop offset ++ List.replicate limit 0).take limit else [] := by
  unfold rbRangeUint32
  simp only
  by_cases hl : limit = 0
  · subst hl
    cases (rangeLoop offset 0 { ctr := 0, out := [], curLen := 0, skip := none } r).skip <;> simp
  have hd := rangeLoop_spec (show 0 < limit by omega) hol r [] { ctr := 0, out := [], curLen := 0, skip := none } h
    ⟨rfl, Or.inl ⟨rfl, rfl, Nat.zero_le _⟩⟩ (by simp only; omega)
  simp only [List.nil_append] at hd
  generalize rangeLoop offset limit { ctr := 0, out := [], curLen := 0, skip := none } r = st at hd ⊢
  split
  · rename_i hs
    rw [if_neg]
    intro hh
    obtain ⟨_, _, s, e, _⟩ := hd.2 hh
    rw [hs] at e
    exact absurd e (by simp)
  · rename_i s hs
    by_cases hh : offset < (vals r).length
    · rw [if_pos hh]
      obtain ⟨pre, post, s', e, eL, e1, e2, e3, e4⟩ := hd.2 hh
      rw [hs] at e
      simp only [Option.some.injEq] at e
      subst e
      have hdrop : (vals r).drop offset = st.out.drop s ++ post := by
        rw [eL, List.append_assoc, ← e1, ← List.drop_drop, List.drop_left, List.drop_append,
          show s - st.out.length = 0 by omega, List.drop_zero]
      rw [hdrop, List.drop_append, show s - st.out.length = 0 by omega, List.drop_zero]
      have hlen : (st.out.drop s).length = st.out.length - s := by simp
      rcases e2 with e2 | e2
      · subst e2
        rw [List.append_nil]
        exact take_pad _ (by omega) (by omega)
      · rw [List.take_append_of_le_length (by omega), List.append_assoc, List.take_append_of_le_length (by omega)]
    · rw [hd.1 (by omega)] at hs
      exact absurd hs (by simp)

/-! ### Changes of representation -/

theorem map_spec {r : Bitmap} (h : BInv r) {f : Container → Container} (hf : ∀ c, CInv c → Rep (f c) (chas c)) :
    BInv (r.map (fun p => (p.1, f p.2))) ∧ ∀ v, bhas (r.map (fun p => (p.1, f p.2))) v = bhas r v := by
  induction r with
  | nil => exact ⟨trivial, fun v => rfl⟩
  | cons p t ih =>
    obtain ⟨k, c⟩ := p
    obtain ⟨i1, i2⟩ := ih h.2.2.2
    have hr := hf c h.2.1.1
    obtain ⟨y, hy⟩ := h.2.1.2
    refine ⟨⟨h.1, hr.cne hy, ?_, i1⟩, fun v => ?_⟩
    · intro q hq
      obtain ⟨q', hq', rfl⟩ := List.mem_map.1 hq
      exact h.2.2.1 q' hq'
    · simp only [List.map_cons, bhas_cons, i2, hr.has]

theorem rbRunOptimize_spec {r : Bitmap} (h : BInv r) :
    BInv (rbRunOptimize r).1 ∧ ∀ v, bhas (rbRunOptimize r).1 v = bhas r v :=
  map_spec h fun c hc => convertRunOptimize_spec hc.rep

theorem removeRun_spec {c : Container} (h : CInv c) : Rep (removeRun c) (chas c) := by
  cases c with
  | run rs => exact convertToBitsetOrArray_spec h fun x => rfl
  | array l => exact h.rep
  | bitset b => exact h.rep

theorem removeRun_isRun (c : Container) : isRun (removeRun c) = false := by
  cases c with
  | run rs => simp only [removeRun, convertToBitsetOrArray]; split <;> rfl
  | array l => rfl
  | bitset b => rfl

theorem rbRemoveRunCompression_spec {r : Bitmap} (h : BInv r) :
    BInv (rbRemoveRunCompression r).1 ∧ ∀ v, bhas (rbRemoveRunCompression r).1 v = bhas r v :=
  map_spec h fun c hc => removeRun_spec hc

/-! ### Select on a full bitmap -/

theorem rbSelectLoop_append {A : Bitmap} (h : BInv A) (B : Bitmap) {rank sr : Nat} (hr : sr ≤ rank)
    (hrk : rank < 4294967296) (hb : sr + bcard A < 4294967296) : rbSelectLoop rank sr (A ++ B) =
      if rank - sr < bcard A then some ((vals A)[rank - sr]?) else rbSelectLoop rank (sr + bcard A) B := by
  induction A generalizing sr with
  | nil => simp [bcard]
  | cons p t ih =>
    obtain ⟨k, c⟩ := p
    have eb : bcard ((k, c) :: t) = card 65536 (chas c) + bcard t := rfl
    rw [eb] at hb ⊢
    have hcl := cvals_length k c
    rw [List.cons_append, rbSelectLoop, containerSelect_spec h.2.1.1.rep hr (by omega) hrk, vals_cons]
    by_cases hk : rank - sr < card 65536 (chas c)
    · obtain ⟨x, hx1, hx2, hx3, hx4⟩ := enum_getElem_lt hk
      rw [if_pos (by omega), hx1, List.getElem?_append_left (by omega)]
      simp only [cvals, List.getElem?_map, hx1, Option.map_some]
      rw [lor_shl hx2]
    · rw [List.getElem?_eq_none (by have : (enum 65536 (chas c)).length = card 65536 (chas c) := rfl; omega)]
      simp only
      rw [ih h.2.2.2 (by omega) (by omega), List.getElem?_append_right (by omega), hcl,
        show rank - sr - card 65536 (chas c) = rank - (sr + card 65536 (chas c)) by omega]
      have e : rank - (sr + card 65536 (chas c)) < bcard t ↔ rank - sr < card 65536 (chas c) + bcard t := by omega
      rw [Nat.add_assoc]
      by_cases hh : rank - (sr + card 65536 (chas c)) < bcard t
      · rw [if_pos hh, if_pos (e.1 hh)]
      · rw [if_neg hh, if_neg (fun x => hh (e.2 x))]

theorem vals_length {r : Bitmap} : (vals r).length = bcard r := by
  induction r with
  | nil => simp [vals_nil, bcard]
  | cons p t ih => obtain ⟨k, c⟩ := p; rw [vals_cons, List.length_append, cvals_length, ih, bcard]

theorem rbSelect_eq' {r : Bitmap} (h : BInv r) {k : Nat} (hk : k < 4294967296)
    (hb : bcard r < 4294967296 ∨ k < 4294901760) :
    rbSelect r k = some ((enum 4294967296 (bhas r))[k]?) := by
  by_cases hb' : bcard r < 4294967296
  · exact rbSelect_eq h hk hb'
  have hk' : k < 4294901760 := by omega
  rcases List.eq_nil_or_concat r with e | ⟨A, ⟨key, c⟩, e⟩
  · subst e
    simp [bcard] at hb'
  · rw [List.concat_eq_append] at e
    have hba := bp_append.1 (e ▸ h)
    have hle := card_le 65536 (chas c)
    have e1 : bcard r = bcard A + card 65536 (chas c) := by rw [e, bcard_append]; simp [bcard]
    obtain ⟨y, hy⟩ := hba.2.1.2.1.2
    have hcr := hba.2.1.2.1.1.rep
    have hpos := card_pos.2 ⟨y, hcr.lt hy, hy⟩
    have hmax := bcard_le h
    have := rbSelectLoop_append hba.1 [(key, c)] (sr := 0) (Nat.zero_le k) hk (by omega)
    rw [← e, Nat.sub_zero, if_pos (by omega)] at this
    rw [rbSelect, this, ← vals_eq h, e, vals_append, List.getElem?_append_left (by rw [vals_length]; omega)]

end CRoaring
