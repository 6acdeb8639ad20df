import Verif.Lemmas.Container2

/-! Specifications of the unary container operations: ranges, negation, order statistics, enumeration. -/

set_option linter.unusedSimpArgs false
set_option linter.unusedVariables false

namespace CRoaring
open Spec

/-! ### Negation -/

theorem containerNotRange_spec {c : Container} {s : NSet} (h : Rep c s) {a b : Nat} (hab : a ≤ b) (hb : b ≤ 65536) :
    Rep (containerNotRange a b c) (flipR s a b) := by
  cases c with
  | bitset bs => simp only [containerNotRange]; exact bitsetNegationRange_spec h hab hb
  | array l => exact arrayNegationRange_spec h hb
  | run rs => exact runNegationRange_spec h hb

theorem containerNot_spec {c : Container} {s : NSet} (h : Rep c s) : Rep (containerNot c) (flipR s 0 65536) := by
  cases c with
  | bitset bs => simp only [containerNot]; exact bitsetNegationRange_spec h (Nat.zero_le _) (Nat.le_refl _)
  | array l => exact arrayNegation_spec h
  | run rs => exact runNegationRange_spec h (Nat.le_refl _)

/-! ### Extremes -/

theorem containerMin_spec {c : Container} {s : NSet} (h : Rep c s) (hne : ∃ x, s x = true) :
    s (containerMin c) = true ∧ ∀ x, s x = true → containerMin c ≤ x := by
  cases c with
  | bitset b =>
    have h2 := (rep_bit_iff h).2.2.1
    have := bitsetMin_spec (b := b) (by simpa only [h2] using hne)
    simp only [h2] at this
    exact this
  | array l =>
    have h2 := rep_arr_iff h
    obtain ⟨x, hx⟩ := hne
    have := arrayMin_spec h2.1 (List.ne_nil_of_mem ((h2.2.1 x).2 hx))
    exact ⟨(h2.2.1 _).1 this.1, fun x hx => this.2 x ((h2.2.1 x).2 hx)⟩
  | run rs =>
    have h2 := rep_run_iff h
    have := runMin_spec h2.1 (runHas_exists.1 (by simpa only [h2.2] using hne))
    simp only [h2.2] at this
    exact this

theorem containerMax_spec {c : Container} {s : NSet} (h : Rep c s) (hne : ∃ x, s x = true) :
    s (containerMax c) = true ∧ ∀ x, s x = true → x ≤ containerMax c := by
  cases c with
  | bitset b =>
    have h2 := rep_bit_iff h
    have := bitsetMax_spec h2.1 (by omega)
    simp only [h2.2.2.1] at this
    exact this
  | array l =>
    have h2 := rep_arr_iff h
    obtain ⟨x, hx⟩ := hne
    have := arrayMax_spec h2.1 (List.ne_nil_of_mem ((h2.2.1 x).2 hx))
    exact ⟨(h2.2.1 _).1 this.1, fun x hx => this.2 x ((h2.2.1 x).2 hx)⟩
  | run rs =>
    have h2 := rep_run_iff h
    have := runMax_spec h2.1 (runHas_exists.1 (by simpa only [h2.2] using hne))
    simp only [h2.2] at this
    exact this

/-! ### Rank and select -/

theorem containerRank_eq {c : Container} {s : NSet} (h : Rep c s) (x : Nat) :
    containerRank x c = card (x + 1) s := by
  cases c with
  | bitset b =>
    simp only [containerRank]
    rw [bitsetRank_eq]
    exact card_int_congr fun y _ => (rep_bit_iff h).2.2.1 y
  | array l =>
    have h2 := rep_arr_iff h
    simp only [containerRank]
    rw [arrayRank_eq h2.1.sorted]
    exact card_int_congr fun y _ => mem_dec h2.2.1 y
  | run rs =>
    have h2 := rep_run_iff h
    simp only [containerRank]
    rw [runRank_eq h2.1]
    exact card_int_congr fun y _ => h2.2 y

theorem containerGetIndex_eq {c : Container} {s : NSet} (h : Rep c s) (x : Nat) :
    containerGetIndex x c = if s x then (card x s : Int) else -1 := by
  cases c with
  | bitset b =>
    have h2 := (rep_bit_iff h).2.2.1
    simp only [containerGetIndex]
    rw [bitsetGetIndex_eq, h2, card_int_congr (t := s) fun y _ => h2 y]
  | array l =>
    have h2 := rep_arr_iff h
    simp only [containerGetIndex]
    rw [arrayGetIndex_eq h2.1.sorted, card_int_congr (s := ofList l) (t := s) fun y _ => mem_dec h2.2.1 y]
    simp only [h2.2.1]
  | run rs =>
    have h2 := rep_run_iff h
    simp only [containerGetIndex]
    rw [runGetIndex_eq h2.1, h2.2, card_int_congr (t := s) fun y _ => h2.2 y]

theorem containerRankMany_eq {c : Container} {s : NSet} (h : Rep c s) (sr : Nat) (xs : List Nat)
    (hx : xs.Pairwise (· ≤ ·)) (hb : ∀ x ∈ xs, x < 4294967296) :
    containerRankMany sr xs c =
      ((xs.takeWhile (fun x => x / 65536 == xs.headD 0 / 65536)).map (fun x => sr + card (x % 65536 + 1) s),
        xs.dropWhile (fun x => x / 65536 == xs.headD 0 / 65536)) := by
  have hhd : xs.headD 0 / 65536 % 65536 = xs.headD 0 / 65536 := by
    cases xs with
    | nil => rfl
    | cons a l => have := hb a (by simp); simp only [List.headD_cons]; omega
  cases c with
  | bitset b =>
    have h2 := (rep_bit_iff h).2.2.1
    simp only [containerRankMany, bitsetRankMany]
    rw [hhd, bitsetRankManyLoop_eq b.words sr _ 0 0 xs rfl (by simp) hx hb]
    simp only [card_congr (t := s) fun y _ => h2 y]
  | array l =>
    have h2 := rep_arr_iff h
    simp only [containerRankMany, arrayRankMany]
    rw [hhd, arrayRankManyLoop_eq h2.1.sorted sr _ 0 xs (by simp) (by simp) hx hb]
    simp only [card_congr (t := s) (s := ofList l) fun y _ => mem_dec h2.2.1 y]
  | run rs =>
    have h2 := rep_run_iff h
    simp only [containerRankMany, runRankMany]
    rw [hhd, runRankManyLoop_eq (rs0 := rs) sr _ 0 rs xs h2.1 (by simp) hx hb]
    simp only [card_congr (t := s) fun y _ => h2.2 y]

/-- What a select on a container returns: the element of rank `rank - sr`, or the rank after it. -/
theorem containerSelect_spec {c : Container} {s : NSet} (h : Rep c s) {sr rank : Nat} (hr : sr ≤ rank)
    (hb : sr + card 65536 s < 4294967296) (hrk : rank < 4294967296) :
    containerSelect sr rank c = some (match (enum 65536 s)[rank - sr]? with
      | some e => .inl e
      | none => .inr (sr + card 65536 s)) := by
  cases c with
  | bitset b =>
    have h2 := rep_bit_iff h
    have hc : card 65536 (bitAt b.words) = card 65536 s := card_congr fun y _ => h2.2.2.1 y
    have he : enum 65536 (bitAt b.words) = enum 65536 s := enum_congr fun y _ => h2.2.2.1 y
    simp only [containerSelect]
    rw [bitsetSelect_spec h2.1 hr (by rw [hc]; exact hb), hc, he]
    cases (enum 65536 s)[rank - sr]? <;> rfl
  | array l =>
    have h2 := rep_arr_iff h
    have hl := h.card_array
    have he : enum 65536 s = l := (sorted_eq_enum h2.1.sorted fun x => by
      rw [h2.2.1]; exact ⟨fun hx => ⟨h.lt hx, hx⟩, fun hx => hx.2⟩).symm
    simp only [containerSelect, arraySelect]
    rw [u32_eq (n := sr + l.length) (by push_cast; rfl) (by omega), he, hl]
    by_cases hh : sr + l.length ≤ rank
    · rw [if_pos hh, List.getElem?_eq_none (by omega)]
    · rw [if_neg hh, List.getElem?_eq_getElem (by omega)]
      simp [rdL, List.getD_eq_getElem?_getD, List.getElem?_eq_getElem (show rank - sr < l.length by omega)]
  | run rs =>
    have h2 := rep_run_iff h
    have hc := card_of_run h2.1 h2.2
    have h3 := runSelect_spec h2.1 sr rank hrk hr (by omega)
    simp only [containerSelect]
    cases hv : runSelect sr rank rs with
    | inl v =>
      have h4 := h3.1 v hv
      have : card v (runHas rs) = card v s := card_congr fun y _ => h2.2 y
      have h5 := enum_getElem_card (h2.1.has_lt h4.1) (s := s) (by rw [← h2.2]; exact h4.1)
      rw [show rank - sr = card v s by omega, h5]
    | inr n =>
      have h4 := h3.2 n hv
      rw [List.getElem?_eq_none (show (enum 65536 s).length ≤ rank - sr from by
        have : (enum 65536 s).length = runCard rs := hc
        omega), h4.2, hc]

/-! ### Enumeration -/

theorem enum_of_arr {l : List Nat} {s : NSet} (h : Rep (.array l) s) : l = enum 65536 s :=
  sorted_eq_enum (rep_arr_iff h).1.sorted fun x => by
    rw [(rep_arr_iff h).2.1]; exact ⟨fun hx => ⟨h.lt hx, hx⟩, fun hx => hx.2⟩

theorem containerToUint32_eq {c : Container} {s : NSet} (h : Rep c s) {base : Nat} (hb : base + 65536 ≤ 4294967296) :
    containerToUint32 base c = (enum 65536 s).map (base + ·) := by
  cases c with
  | bitset b =>
    have h2 := rep_bit_iff h
    simp only [containerToUint32]
    rw [bitsetToUint32_eq h2.1.len, enum_congr (t := s) fun y _ => h2.2.2.1 y]
    exact List.map_congr_left fun x _ => Nat.add_comm _ _
  | array l =>
    have h2 := rep_arr_iff h
    simp only [containerToUint32, arrayToUint32]
    rw [← enum_of_arr h]
    refine List.map_congr_left fun x hx => u32_eq (by push_cast; rfl) ?_
    have := h2.1.lt x hx
    omega
  | run rs =>
    have h2 := rep_run_iff h
    simp only [containerToUint32]
    rw [runToUint32_eq h2.1 hb, enum_congr (t := s) fun y _ => h2.2 y]

theorem containerIterate_eq {σ : Type} (f : σ → Nat → σ × Bool) (st : σ) {c : Container} {s : NSet} (h : Rep c s)
    {base : Nat} (hb : base + 65536 ≤ 4294967296) :
    containerIterate f st base c = arrayIterate f st base (enum 65536 s) := by
  cases c with
  | bitset b =>
    have h2 := rep_bit_iff h
    simp only [containerIterate]
    rw [bitsetIterate_eq f st base (by omega) h2.1.len, enum_congr (t := s) fun y _ => h2.2.2.1 y]
  | array l =>
    simp only [containerIterate]
    rw [← enum_of_arr h]
  | run rs =>
    have h2 := rep_run_iff h
    simp only [containerIterate]
    rw [runIterate_eq f st base h2.1 hb, enum_congr (t := s) fun y _ => h2.2 y]

/-! ### Construction -/

theorem containerRangeOfOnes_spec {a b : Nat} (hab : a < b) (hb : b ≤ 65536) :
    Rep (containerRangeOfOnes a b) (range a b) := by
  unfold containerRangeOfOnes
  split
  · have := arrayCreateRange_spec a b hb
    refine rep_array this.1 (fun x => ?_) (by omega)
    rw [this.2.1]; simp [range]
  · have := runCreateRange_spec hab hb
    refine rep_run this.1 fun x => ?_
    rw [this.2]; simp [range]

theorem containerFromRange_spec {a b step : Nat} (hs : 0 < step) (hab : a < b) (hb : b ≤ 65536) :
    ∃ c, containerFromRange a b step = some c ∧
      Rep c (fun x => decide (a ≤ x ∧ x < b ∧ (x - a) % step = 0)) := by
  unfold containerFromRange
  rw [if_neg (by omega)]
  by_cases h1 : step = 1
  · rw [if_pos h1]
    refine ⟨_, rfl, (containerRangeOfOnes_spec hab hb).congr fun x => ?_⟩
    subst h1
    simp [range, Nat.mod_one]
  rw [if_neg h1]
  have hcs := card_step 65536 a b step hs hb
  by_cases h2 : (b - a + step - 1) / step ≤ DEFAULT_MAX_SIZE
  · rw [if_pos h2]
    have h3 := arrayAddFromRange_spec [] a b step hs hb ArrOK.nil (by simp)
    refine ⟨_, rfl, rep_array' h3.1 (fun x => ?_) (by rw [hcs]; exact h2)⟩
    rw [h3.2]; simp
  · rw [if_neg h2]
    have h3 := bitsetAddFromRange_spec a b step hs hab hb
    refine ⟨_, rfl, ⟨h3.1, ?_⟩, h3.2⟩
    rw [h3.1.card, card_int_congr fun x _ => h3.2 x, hcs]
    simp only [DEFAULT_MAX_SIZE] at h2
    omega

/-! ### Range insertion and removal -/

theorem countLess_trunc {l : List Nat} (hs : SSorted l) {a b : Nat} (hab : a ≤ b) :
    countLess (rdL l) (lb l (b + 1)) a = lb l a := by
  refine countLess_spec ⟨lb_mono (by omega), fun i hi => ?_, fun i hi he => ?_⟩
  · exact (isLB_list hs a).lt_iff i (by have := lb_le l (b + 1); omega)
  · exact (isLB_list hs a).eq_imp i (by have := lb_le l (b + 1); omega) he

theorem card_arr_outside {l : List Nat} {s : NSet} (h : Rep (.array l) s) {a b : Nat} (hab : a ≤ b) (hb : b < 65536) :
    lb l a + (b - a + 1) + (l.length - lb l (b + 1)) = card 65536 (fun x => decide (a ≤ x ∧ x ≤ b) || s x) ∧
    lb l a + (l.length - lb l (b + 1)) = card 65536 (fun x => s x && !decide (a ≤ x ∧ x ≤ b)) := by
  have h2 := rep_arr_iff h
  have e : ∀ n, card n (ofList l) = card n s := fun n => card_congr fun y _ => mem_dec h2.2.1 y
  have e1 : lb l a = card a s := by rw [lb_eq_card h2.1.sorted, e]
  have e2 : lb l (b + 1) = card (b + 1) s := by rw [lb_eq_card h2.1.sorted, e]
  have e3 : card (b + 1) s = card a s + card (b - a + 1) (fun x => s (a + x)) := by
    rw [← card_add]; congr 1; omega
  have e4 := card_union_range (s := s) hab hb
  have e5 := card_diff_range (s := s) hab hb
  have e6 := h.card_array
  have := lb_le l (b + 1)
  omega

theorem containerAddRange_spec {c : Container} {s : NSet} (h : Rep c s) {a b : Nat} (hab : a ≤ b) (hb : b < 65536) :
    Rep (containerAddRange a b c) (fun x => decide (a ≤ x ∧ x ≤ b) || s x) := by
  have full : ∀ t : NSet, (∀ x, t x = true → x < 65536) → card 65536 t = 65536 → Rep (.run (runCreateRange 0 65536)) t := by
    intro t ht hc
    rw [runCreateRange_full]
    rw [card_eq_n] at hc
    refine rep_run_full fun x => ?_
    by_cases hx : x < 65536
    · rw [hc x hx]; simp [hx]
    · cases hh : t x
      · simp [hx]
      · exact absurd (ht x hh) hx
  have hlt : ∀ x, (decide (a ≤ x ∧ x ≤ b) || s x) = true → x < 65536 := by
    intro x hx
    simp only [Bool.or_eq_true, decide_eq_true_eq] at hx
    rcases hx with hx | hx
    · omega
    · exact h.lt hx
  cases c with
  | bitset bs =>
    have h2 := rep_bit_iff h
    have e1 : card (b - a + 1) (fun x => bitAt bs.words (a + x)) = card (b - a + 1) (fun x => s (a + x)) :=
      card_congr fun x _ => h2.2.2.1 _
    have e2 := card_union_range (s := s) hab hb
    simp only [containerAddRange]
    rw [lenrangeCardinality_eq, e1]
    have e3 : bs.card + ((b - a + 1 : Nat) : Int) - (card (b - a + 1) (fun x => s (a + x)) : Nat) =
        card 65536 (fun x => decide (a ≤ x ∧ x ≤ b) || s x) := by
      rw [h2.2.2.2]; omega
    rw [e3]
    by_cases hc : ((card 65536 (fun x => decide (a ≤ x ∧ x ≤ b) || s x) : Nat) : Int) = 65536
    · rw [if_pos hc]
      exact full _ hlt (by omega)
    · rw [if_neg hc]
      refine rep_bitset (by rw [bitsetSetLenrange_length, h2.1.len]) (fun x => ?_) rfl ?_
      · rw [bitAt_setLenrange _ _ _ _ (by rw [h2.1.len]; omega), h2.2.2.1, show a + (b - a) = b by omega]
      · have := card_le_of_subset (s := s) (t := fun x => decide (a ≤ x ∧ x ≤ b) || s x) fun x hx => by simp [hx]
        have := h2.2.2.2
        omega
  | array l =>
    have h2 := rep_arr_iff h
    have hle := lb_le l (b + 1)
    have ⟨e1, e2⟩ := card_arr_outside h hab hb
    simp only [containerAddRange]
    rw [Nat.mod_eq_of_lt hb, Nat.mod_eq_of_lt (show a < 65536 by omega), countGreater_list h2.1.sorted]
    simp only [Int.toNat_natCast]
    rw [show l.length - (l.length - lb l (b + 1)) = lb l (b + 1) by omega, countLess_trunc h2.1.sorted hab]
    simp only [Int.toNat_natCast]
    rw [e1]
    by_cases hc : card 65536 (fun x => decide (a ≤ x ∧ x ≤ b) || s x) = 65536
    · rw [if_pos hc]
      exact full _ hlt hc
    rw [if_neg hc]
    by_cases hd : card 65536 (fun x => decide (a ≤ x ∧ x ≤ b) || s x) ≤ DEFAULT_MAX_SIZE
    · rw [if_pos hd]
      have h3 := arrayAddRangeNvals_spec h2.1 a b _ _ hab hb rfl rfl
      refine rep_array' h3.1 (fun x => ?_) hd
      rw [h3.2.1, h2.2.1]
      simp only [Bool.or_eq_true, decide_eq_true_eq]
    · rw [if_neg hd]
      have b1 := bitsetFromArray_spec (l := l) h2.1.lt
      refine rep_bitset (by rw [bitsetSetLenrange_length, b1.1.len]) (fun x => ?_) rfl ?_
      · rw [bitAt_setLenrange _ _ _ _ (by rw [b1.1.len]; omega), b1.2, mem_dec h2.2.1, show a + (b - a) = b by omega]
      · simp only [DEFAULT_MAX_SIZE] at hd
        omega
  | run rs =>
    have h2 := rep_run_iff h
    simp only [containerAddRange]
    rw [Nat.mod_eq_of_lt hb, Nat.mod_eq_of_lt (show a < 65536 by omega)]
    obtain ⟨A, B, C, hrs, hA, hB, hC, hg, hl⟩ := addRange_split h2.1 hab
    have hg' : ((rle16CountGreater rs rs.length b).toNat : Int) = rle16CountGreater rs rs.length b := by
      rw [hg]; rfl
    have hgn : (rle16CountGreater rs rs.length b).toNat = C.length := by rw [hg]; rfl
    have hl' : ((rle16CountLess rs (rs.length - (rle16CountGreater rs rs.length b).toNat) a).toNat : Int) =
        rle16CountLess rs (rs.length - (rle16CountGreater rs rs.length b).toNat) a := by
      rw [hgn, hl]; rfl
    have sw : ∀ x, (s x || decide (a ≤ x ∧ x ≤ b)) = (decide (a ≤ x ∧ x ≤ b) || s x) := fun x => Bool.or_comm _ _
    split
    · have h3 := runAddRange_spec h2.1 hab hb hg' hl'
      exact rep_run h3.1 fun x => by rw [h3.2, h2.2, sw]
    · exact (containerFromRunRange_spec h2.1 h2.2 hab hb).congr sw

theorem containerRemoveRange_spec {c : Container} {s : NSet} (h : Rep c s) {a b : Nat} (hab : a ≤ b) (hb : b < 65536) :
    (containerRemoveRange a b c = none ∧ ∀ x, (s x && !decide (a ≤ x ∧ x ≤ b)) = false) ∨
    ∃ c', containerRemoveRange a b c = some c' ∧ Rep c' (fun x => s x && !decide (a ≤ x ∧ x ≤ b)) ∧
      ∃ x, (s x && !decide (a ≤ x ∧ x ≤ b)) = true := by
  have hlt : ∀ x, (s x && !decide (a ≤ x ∧ x ≤ b)) = true → x < 65536 := by
    intro x hx
    simp only [Bool.and_eq_true] at hx
    exact h.lt hx.1
  have hz : card 65536 (fun x => s x && !decide (a ≤ x ∧ x ≤ b)) = 0 →
      ∀ x, (s x && !decide (a ≤ x ∧ x ≤ b)) = false := by
    intro hc x
    rw [card_eq_zero] at hc
    cases hh : (s x && !decide (a ≤ x ∧ x ≤ b))
    · rfl
    · have := hc x (hlt x hh)
      rw [hh] at this
      cases this
  have hp : card 65536 (fun x => s x && !decide (a ≤ x ∧ x ≤ b)) ≠ 0 →
      ∃ x, (s x && !decide (a ≤ x ∧ x ≤ b)) = true := by
    intro hc
    obtain ⟨x, _, hx⟩ := card_pos.1 (Nat.pos_of_ne_zero hc)
    exact ⟨x, hx⟩
  cases c with
  | bitset bs =>
    have h2 := rep_bit_iff h
    have e1 : card (b - a + 1) (fun x => bitAt bs.words (a + x)) = card (b - a + 1) (fun x => s (a + x)) :=
      card_congr fun x _ => h2.2.2.1 _
    have e2 := card_diff_range (s := s) hab hb
    have hD : ((DEFAULT_MAX_SIZE : Nat) : Int) = 4096 := rfl
    simp only [containerRemoveRange]
    rw [lenrangeCardinality_eq, e1]
    have e3 : bs.card - (card (b - a + 1) (fun x => s (a + x)) : Nat) =
        card 65536 (fun x => s x && !decide (a ≤ x ∧ x ≤ b)) := by
      rw [h2.2.2.2]; omega
    rw [e3]
    have hw : ∀ x, bitAt (bitsetResetRange bs.words a (b + 1)) x = (s x && !decide (a ≤ x ∧ x ≤ b)) := by
      intro x
      rw [bitAt_resetRange _ _ _ _ (by omega) (by rw [h2.1.len]; omega), h2.2.2.1, Bool.and_comm]
      simp only [Nat.lt_succ_iff]
    have hlen : (bitsetResetRange bs.words a (b + 1)).length = 1024 := by rw [bitsetResetRange_length, h2.1.len]
    by_cases hc : ((card 65536 (fun x => s x && !decide (a ≤ x ∧ x ≤ b)) : Nat) : Int) = 0
    · rw [if_pos hc]
      exact Or.inl ⟨rfl, hz (by omega)⟩
    rw [if_neg hc]
    right
    by_cases hd : ((card 65536 (fun x => s x && !decide (a ≤ x ∧ x ≤ b)) : Nat) : Int) ≤ DEFAULT_MAX_SIZE
    · rw [if_pos hd]
      exact ⟨_, rfl, rep_arrayFromBitset hlen hw rfl (by omega), hp (by omega)⟩
    · rw [if_neg hd]
      exact ⟨_, rfl, rep_bitset hlen hw rfl (by omega), hp (by omega)⟩
  | array l =>
    have h2 := rep_arr_iff h
    have hle := lb_le l (b + 1)
    have hmono : lb l a ≤ lb l (b + 1) := lb_mono (by omega)
    have ⟨e1, e2⟩ := card_arr_outside h hab hb
    simp only [containerRemoveRange]
    rw [Nat.mod_eq_of_lt hb, Nat.mod_eq_of_lt (show a < 65536 by omega), countGreater_list h2.1.sorted]
    simp only [Int.toNat_natCast]
    rw [show l.length - (l.length - lb l (b + 1)) = lb l (b + 1) by omega, countLess_trunc h2.1.sorted hab]
    simp only [Int.toNat_natCast]
    rw [show l.length - (lb l a + (l.length - lb l (b + 1))) = lb l (b + 1) - lb l a by omega, e2]
    by_cases hc : card 65536 (fun x => s x && !decide (a ≤ x ∧ x ≤ b)) = 0
    · rw [if_pos hc]
      exact Or.inl ⟨rfl, hz hc⟩
    · rw [if_neg hc]
      have h3 := arrayRemoveRange_spec h2.1 a b (by omega)
      refine Or.inr ⟨_, rfl, rep_array h3.1 (fun x => ?_) (by omega), hp hc⟩
      rw [h3.2.1, h2.2.1]
      simp only [Bool.and_eq_true, Bool.not_eq_true', decide_eq_false_iff_not]
      exact and_comm
  | run rs =>
    have h2 := rep_run_iff h
    simp only [containerRemoveRange]
    by_cases hn : rs.length = 0
    · rw [if_pos hn]
      have : rs = [] := List.length_eq_zero_iff.1 hn
      subst this
      refine Or.inl ⟨rfl, fun x => ?_⟩
      rw [← h2.2]; rfl
    rw [if_neg hn]
    have hne : rs ≠ [] := fun e => hn (by rw [e]; rfl)
    have hmin := runMin_spec h2.1 hne
    have hmax := runMax_spec h2.1 hne
    simp only [h2.2] at hmin hmax
    by_cases hc : a ≤ runMin rs ∧ b ≥ runMax rs
    · rw [if_pos hc]
      refine Or.inl ⟨rfl, fun x => ?_⟩
      cases hh : s x
      · rfl
      · have := hmin.2 x hh
        have := hmax.2 x hh
        simp only [Bool.true_and, Bool.not_eq_false', decide_eq_true_eq]
        omega
    · rw [if_neg hc]
      have h3 := runRemoveRange_spec h2.1 hab hb
      refine Or.inr ⟨_, rfl, convertRunToEfficient_spec h3.1 fun x => by rw [h3.2, h2.2], ?_⟩
      by_cases h5 : a ≤ runMin rs
      · refine ⟨runMax rs, ?_⟩
        rw [hmax.1]
        simp only [Bool.true_and, Bool.not_eq_true', decide_eq_false_iff_not]
        omega
      · refine ⟨runMin rs, ?_⟩
        rw [hmin.1]
        simp only [Bool.true_and, Bool.not_eq_true', decide_eq_false_iff_not]
        omega

/-! ### Shift -/

theorem nodup_length_le {a b : List Nat} (ha : a.Pairwise (· ≠ ·)) (h : ∀ x ∈ a, x ∈ b) : a.length ≤ b.length := by
  induction a generalizing b with
  | nil => simp
  | cons x a ih =>
    have h1 := List.pairwise_cons.1 ha
    have hx := h x (by simp)
    have := ih (b := b.erase x) h1.2 fun y hy =>
      (List.mem_erase_of_ne (Ne.symm (h1.1 y hy))).2 (h y (by simp [hy]))
    rw [List.length_erase_of_mem hx] at this
    have := List.length_pos_of_mem hx
    simp only [List.length_cons]
    omega

/-- The low and high parts of a container shifted up by `off`. -/
theorem containerAddOffset_spec {c : Container} {s : NSet} (h : Rep c s) (lo hi : Bool) {off : Nat} (ho : 0 < off)
    (ho2 : off < 65536) :
    (lo = false → (containerAddOffset c lo hi off).1 = none) ∧
    (hi = false → (containerAddOffset c lo hi off).2 = none) ∧
    (∀ d, (containerAddOffset c lo hi off).1 = some d →
      LRep d (fun x => decide (x < 65536 ∧ off ≤ x) && s (x - off)) ∧ ∃ x, s x = true ∧ x + off < 65536) ∧
    (∀ d, (containerAddOffset c lo hi off).2 = some d →
      LRep d (fun x => decide (x < 65536) && s (x + 65536 - off)) ∧ ∃ x, s x = true ∧ 65536 ≤ x + off) ∧
    (lo = true → (containerAddOffset c lo hi off).1 = none → ∀ x, s x = true → 65536 ≤ x + off) ∧
    (hi = true → (containerAddOffset c lo hi off).2 = none → ∀ x, s x = true → x + off < 65536) := by
  have exlo : ∀ x, (decide (x < 65536 ∧ off ≤ x) && s (x - off)) = true → ∃ x, s x = true ∧ x + off < 65536 := by
    intro x hx
    simp only [Bool.and_eq_true, decide_eq_true_eq] at hx
    exact ⟨x - off, hx.2, by omega⟩
  have exhi : ∀ x, (decide (x < 65536) && s (x + 65536 - off)) = true → ∃ x, s x = true ∧ 65536 ≤ x + off := by
    intro x hx
    simp only [Bool.and_eq_true, decide_eq_true_eq] at hx
    exact ⟨x + 65536 - off, hx.2, by omega⟩
  cases c with
  | bitset b =>
    have h2 := rep_bit_iff h
    have h3 := bitsetOffset_spec h2.1 lo hi off ho2
    simp only [containerAddOffset, h2.2.2.1] at h3 ⊢
    have pos : ∀ c : Bitset, BitOK c → 0 < c.card → ∃ x, bitAt c.words x = true := by
      intro c hc hp
      rw [hc.card] at hp
      obtain ⟨x, _, hx⟩ := card_pos.1 (show 0 < card 65536 (bitAt c.words) by omega)
      exact ⟨x, hx⟩
    obtain ⟨p1, p2, p3, p4⟩ := h3
    refine ⟨fun hl => ?_, fun hh => ?_, fun d hd => ?_, fun d hd => ?_, fun hl hd => ?_, fun hh hd => ?_⟩
    · cases hc : (bitsetOffset b lo hi off).1 with
      | none => rfl
      | some c => have := (p1 c hc).1; rw [hl] at this; cases this
    · cases hc : (bitsetOffset b lo hi off).2 with
      | none => rfl
      | some c => have := (p2 c hc).1; rw [hh] at this; cases this
    · obtain ⟨c, hc, rfl⟩ := Option.map_eq_some_iff.1 hd
      obtain ⟨q1, q2, q3, q4⟩ := p1 c hc
      obtain ⟨x, hx⟩ := pos c q2 q3
      rw [q4] at hx
      exact ⟨lrep_bitOK q2 q4, exlo x hx⟩
    · obtain ⟨c, hc, rfl⟩ := Option.map_eq_some_iff.1 hd
      obtain ⟨q1, q2, q3, q4⟩ := p2 c hc
      obtain ⟨x, hx⟩ := pos c q2 q3
      rw [q4] at hx
      exact ⟨lrep_bitOK q2 q4, exhi x hx⟩
    · exact p3 (Option.map_eq_none_iff.1 hd) hl
    · exact p4 (Option.map_eq_none_iff.1 hd) hh
  | array l =>
    have h2 := rep_arr_iff h
    obtain ⟨p1, p2, p3, p4⟩ := arrayOffset_spec h2.1 off ho2
    simp only [containerAddOffset]
    have lenb : ∀ c : List Nat, ArrOK c → (∀ x ∈ c, ∃ y ∈ l, x = (y + off) % 65536) → c.length ≤ 4096 := by
      intro c hc hm
      have : c.length ≤ (l.map fun y => (y + off) % 65536).length := by
        have hnd : c.Pairwise (· ≠ ·) := hc.sorted.imp fun hlt => Nat.ne_of_lt hlt
        refine nodup_length_le hnd fun x hx => ?_
        obtain ⟨y, hy, e⟩ := hm x hx
        exact List.mem_map.2 ⟨y, hy, e.symm⟩
      rw [List.length_map] at this
      omega
    refine ⟨fun hl => by rw [hl]; rfl, fun hh => by rw [hh]; rfl, fun d hd => ?_, fun d hd => ?_, fun hl hd => ?_, fun hh hd => ?_⟩
    · split at hd
      · obtain ⟨c, hc, rfl⟩ := Option.map_eq_some_iff.1 hd
        obtain ⟨q1, q2, q3⟩ := p1 c hc
        have hm : ∀ x, x ∈ c ↔ (decide (x < 65536 ∧ off ≤ x) && s (x - off)) = true := by
          intro x
          rw [q3, h2.2.1]
          simp only [Bool.and_eq_true, decide_eq_true_eq, and_assoc]
        obtain ⟨x, hx⟩ := List.exists_mem_of_ne_nil c q2
        refine ⟨(rep_array q1 hm (lenb c q1 fun x hx => ?_)).lrep, exlo x ((hm x).1 hx)⟩
        have := (q3 x).1 hx
        exact ⟨x - off, this.2.2, by rw [Nat.mod_eq_of_lt (by omega)]; omega⟩
      · cases hd
    · split at hd
      · obtain ⟨c, hc, rfl⟩ := Option.map_eq_some_iff.1 hd
        obtain ⟨q1, q2, q3⟩ := p2 c hc
        have hm : ∀ x, x ∈ c ↔ (decide (x < 65536) && s (x + 65536 - off)) = true := by
          intro x
          rw [q3, h2.2.1]
          simp only [Bool.and_eq_true, decide_eq_true_eq]
          exact ⟨fun ⟨a, _, b⟩ => ⟨a, b⟩, fun ⟨a, b⟩ => ⟨a, by omega, b⟩⟩
        obtain ⟨x, hx⟩ := List.exists_mem_of_ne_nil c q2
        refine ⟨(rep_array q1 hm (lenb c q1 fun x hx => ?_)).lrep, exhi x ((hm x).1 hx)⟩
        have := (q3 x).1 hx
        exact ⟨x + 65536 - off, this.2.2, by omega⟩
      · cases hd
    · rw [if_pos hl, Option.map_eq_none_iff] at hd
      intro x hx
      exact p3 hd x ((h2.2.1 x).2 hx)
    · rw [if_pos hh, Option.map_eq_none_iff] at hd
      intro x hx
      exact p4 hd x ((h2.2.1 x).2 hx)
  | run rs =>
    have h2 := rep_run_iff h
    obtain ⟨p1, p2, p3, p4⟩ := runOffset_spec h2.1 off ho ho2
    simp only [h2.2] at p1 p2 p3 p4
    simp only [containerAddOffset]
    refine ⟨fun hl => by rw [hl]; rfl, fun hh => by rw [hh]; rfl, fun d hd => ?_, fun d hd => ?_, fun hl hd => ?_, fun hh hd => ?_⟩
    · split at hd
      · obtain ⟨c, hc, rfl⟩ := Option.map_eq_some_iff.1 hd
        obtain ⟨q1, q2, q3⟩ := p1 c hc
        obtain ⟨x, hx⟩ := runHas_exists.2 q2
        rw [q3] at hx
        exact ⟨(rep_run q1 q3).lrep, exlo x hx⟩
      · cases hd
    · split at hd
      · obtain ⟨c, hc, rfl⟩ := Option.map_eq_some_iff.1 hd
        obtain ⟨q1, q2, q3⟩ := p2 c hc
        obtain ⟨x, hx⟩ := runHas_exists.2 q2
        rw [q3] at hx
        exact ⟨(rep_run q1 q3).lrep, exhi x hx⟩
      · cases hd
    · rw [if_pos hl, Option.map_eq_none_iff] at hd
      exact p3 hd
    · rw [if_pos hh, Option.map_eq_none_iff] at hd
      exact p4 hd

/-! ### Validation -/

/-- The bounds the C types put on the fields of a container. -/
def CTyped : Container → Prop
  | .bitset b => b.words.length = 1024
  | .array l => ∀ x ∈ l, x < 65536
  | .run rs => ∀ r ∈ rs, r.1 < 65536 ∧ r.2 < 65536

theorem containerValidate_iff {c : Container} (ht : CTyped c) :
    containerValidate c = true ↔ CInv c ∧ ∃ x, chas c x = true := by
  cases c with
  | bitset b =>
    simp only [containerValidate]
    rw [bitsetValidate_iff ht]
    refine ⟨fun h => ⟨h, ?_⟩, fun h => h.1⟩
    have : 0 < card 65536 (bitAt b.words) := by have := h.1.card; omega
    obtain ⟨x, _, hx⟩ := card_pos.1 this
    exact ⟨x, hx⟩
  | array l =>
    simp only [containerValidate]
    rw [arrayValidate_iff]
    constructor
    · rintro ⟨h1, h2, h3⟩
      obtain ⟨x, hx⟩ := List.exists_mem_of_length_pos h2
      exact ⟨⟨⟨h1, ht⟩, h3⟩, x, by simp [chas, hx]⟩
    · rintro ⟨⟨h1, h3⟩, x, hx⟩
      exact ⟨h1.sorted, List.length_pos_of_mem (by simpa [chas] using hx), h3⟩
  | run rs =>
    simp only [containerValidate]
    rw [runValidate_iff ht, ← runHas_exists]
    rfl

theorem CInv.typed {c : Container} (h : CInv c) : CTyped c := by
  cases c with
  | bitset b => exact h.1.len
  | array l => exact h.1.lt
  | run rs => intro r hr; have := RunOK.lt h r hr; omega

end CRoaring
