import Verif.Model.MixedDiff
import Verif.Lemmas.MixedInter
set_option linter.unusedSimpArgs false
set_option linter.unusedVariables false

namespace CRoaring
open Spec

theorem bitsetOrArray_spec {ws : List Word} {c : Int} {s : NSet} (hl : ws.length = 1024)
    (hs : ∀ x, bitAt ws x = s x) (hc : c = card 65536 (bitAt ws)) : Rep (bitsetOrArray ⟨c, ws⟩) s :=
  rep_shrink hl hs (hc.trans (card_int_congr fun x _ => hs x))

theorem bitsetOrArray_compute {ws : List Word} {s : NSet} (hl : ws.length = 1024)
    (hs : ∀ x, bitAt ws x = s x) : Rep (bitsetOrArray ⟨computeCard ws, ws⟩) s :=
  bitsetOrArray_spec hl hs (by rw [computeCard_eq])

theorem rep_filter_not {l : List Nat} {s t : NSet} {f : Nat → Bool} (h : Rep (.array l) s)
    (hf : ∀ x ∈ l, f x = !t x) : Rep (.array (l.filter f)) (diff s t) := by
  obtain ⟨a1, a2, a3⟩ := rep_arr_iff h
  refine rep_array (a1.filter f) (fun x => ?_) ?_
  · rw [List.mem_filter]
    constructor
    · rintro ⟨h1, h2⟩; rw [hf x h1] at h2; simp [diff, (a2 x).1 h1]; simpa using h2
    · intro h1
      simp only [diff, Bool.and_eq_true] at h1
      have := (a2 x).2 h1.1
      exact ⟨this, by rw [hf x this]; exact h1.2⟩
  · exact Nat.le_trans (List.length_filter_le _ _) a3

theorem arrayBitsetAndnot_spec {l : List Nat} {b : Bitset} {s t : NSet} (h1 : Rep (.array l) s)
    (h2 : Rep (.bitset b) t) : Rep (.array (arrayBitsetAndnot l b)) (diff s t) :=
  rep_filter_not h1 fun x _ => by rw [bitsetGet_eq, (rep_bit_iff h2).2.2.1]

theorem bitsetArrayAndnot_ok {b : Bitset} {l : List Nat} {s t : NSet} (hb : BitOK b)
    (hs : ∀ x, bitAt b.words x = s x) (h2 : Rep (.array l) t) : Rep (bitsetArrayAndnot b l) (diff s t) := by
  obtain ⟨a1, a2, a3⟩ := rep_arr_iff h2
  obtain ⟨c1, c2, c3⟩ := clearList_spec hb.len a1 hb.card
  exact bitsetOrArray_spec c1 (fun x => by rw [c2, mem_dec a2, hs, Bool.and_comm]; rfl) c3

theorem bitsetArrayAndnot_spec {b : Bitset} {l : List Nat} {s t : NSet} (h1 : Rep (.bitset b) s)
    (h2 : Rep (.array l) t) : Rep (bitsetArrayAndnot b l) (diff s t) :=
  bitsetArrayAndnot_ok (rep_bit_iff h1).1 (rep_bit_iff h1).2.2.1 h2

theorem flipRunsResetGaps_length (ws : List Word) (st : Nat) (rs : List Rle) :
    (flipRunsResetGaps ws st rs).length = ws.length := by
  induction rs generalizing ws st with
  | nil => simp [flipRunsResetGaps, bitsetResetRange_length]
  | cons r rs ih => simp [flipRunsResetGaps, ih, bitsetResetRange_length, bitsetFlipRange_length]

theorem bitAt_flipRunsResetGaps (ws : List Word) (st : Nat) (rs : List Rle) (hw : ws.length = 1024) (h : RunOK rs)
    (h0 : st ≤ 65536) (hst : ∀ r ∈ rs, st ≤ r.1) (x : Nat) :
    bitAt (flipRunsResetGaps ws st rs) x = if x < st then bitAt ws x else (runHas rs x && !bitAt ws x) := by
  induction rs generalizing ws st with
  | nil =>
    rw [flipRunsResetGaps, bitAt_resetRange _ _ _ _ h0 (by omega)]
    split
    · rw [decide_eq_false (by omega)]; simp
    · by_cases h2 : x < 65536
      · rw [decide_eq_true (by omega)]; simp
      · rw [bitAt_ge (show 64 * ws.length ≤ x by omega)]; simp
  | cons r rs ih =>
    obtain ⟨a, b, c⟩ := runOK_cons.1 h
    have h1 := hst r (by simp)
    rw [flipRunsResetGaps]
    rw [ih _ _ (by rw [bitsetFlipRange_length, bitsetResetRange_length, hw]) c (by omega)
        (fun q hq => by have := b q hq; omega),
      bitAt_flipRange _ _ _ _ (by omega) (by rw [bitsetResetRange_length]; omega),
      bitAt_resetRange _ _ _ _ h1 (by omega), runHas_cons]
    have hgt : runHas rs x = true → r.1 + r.2 + 1 < x := fun hh => has_gt (fun q hq => b q hq) hh
    by_cases h3 : x < st
    · rw [if_pos h3, if_pos (by omega), decide_eq_false (by omega), decide_eq_false (by omega)]; simp
    · rw [if_neg h3]
      by_cases h4 : x < r.1
      · rw [if_pos (by omega), decide_eq_false (by omega), decide_eq_true (by omega), decide_eq_false (by omega)]
        have : runHas rs x = false := by
          rw [Bool.eq_false_iff]; intro hh; have := hgt hh; omega
        simp [this]
      · by_cases h5 : x < r.1 + r.2 + 1
        · rw [if_pos h5, decide_eq_true (by omega), decide_eq_false (by omega), decide_eq_true (by omega)]
          cases bitAt ws x <;> simp
        · rw [if_neg h5, decide_eq_false (by omega), decide_eq_false (by omega), decide_eq_false (by omega)]
          simp

theorem flatMap_filter_mod {rs : List Rle} (h : RunOK rs) (f : Nat → Bool) :
    ((rs.flatMap fun (r : Rle) => (List.range' r.1 (r.2 + 1)).filter f).map (· % 65536)) =
      (runValues rs).filter f := by
  have e1 : (rs.flatMap fun (r : Rle) => (List.range' r.1 (r.2 + 1)).filter f) = (runValues rs).filter f := by
    unfold runValues; rw [List.filter_flatMap]
  rw [e1]
  conv => rhs; rw [← List.map_id ((runValues rs).filter f)]
  apply List.map_congr_left
  intro x hx
  have := (runValues_arrOK h).lt x (List.mem_filter.1 hx).1
  simp; omega

theorem runBitsetAndnot_spec {rs : List Rle} {b : Bitset} {s t : NSet} (h1 : Rep (.run rs) s)
    (h2 : Rep (.bitset b) t) : Rep (runBitsetAndnot rs b) (diff s t) := by
  obtain ⟨a1, a2⟩ := rep_run_iff h1
  obtain ⟨b1, b2, b3, b4⟩ := rep_bit_iff h2
  unfold runBitsetAndnot DEFAULT_MAX_SIZE
  split
  · rename_i hc
    rw [flatMap_filter_mod a1]
    exact rep_filter_not (rep_runValues a1 a2 hc) fun x _ => by rw [bitsetGet_eq, b3]
  · refine bitsetOrArray_compute (by rw [flipRunsResetGaps_length, b1.len]) fun x => ?_
    rw [bitAt_flipRunsResetGaps _ _ _ b1.len a1 (by omega) (by simp), if_neg (by omega), a2, b3]; rfl

theorem resetRuns_spec (ws : List Word) (rs : List Rle) (hw : ws.length = 1024) (h : RunOK rs) :
    (resetRuns ws rs).length = 1024 ∧ ∀ x, bitAt (resetRuns ws rs) x = (bitAt ws x && !runHas rs x) := by
  induction rs generalizing ws with
  | nil => exact ⟨hw, by simp [resetRuns]⟩
  | cons r rs ih =>
    obtain ⟨a, b, c⟩ := runOK_cons.1 h
    have := ih (bitsetResetRange ws r.1 (r.1 + r.2 + 1)) (by rw [bitsetResetRange_length, hw]) c
    refine ⟨this.1, fun x => ?_⟩
    rw [resetRuns, List.foldl_cons]
    refine (this.2 x).trans ?_
    rw [bitAt_resetRange _ _ _ _ (by omega) (by omega), runHas_cons]
    have e : decide (r.1 ≤ x ∧ x < r.1 + r.2 + 1) = decide (r.1 ≤ x ∧ x ≤ r.1 + r.2) := by
      apply decide_eq_decide.2; omega
    rw [e]
    generalize decide (r.1 ≤ x ∧ x ≤ r.1 + r.2) = p
    cases p <;> cases bitAt ws x <;> simp

theorem bitsetRunAndnot_spec {b : Bitset} {rs : List Rle} {s t : NSet} (h1 : Rep (.bitset b) s)
    (h2 : Rep (.run rs) t) : Rep (bitsetRunAndnot b rs) (diff s t) := by
  obtain ⟨a1, a2⟩ := rep_run_iff h2
  obtain ⟨b1, b2, b3, b4⟩ := rep_bit_iff h1
  obtain ⟨e1, e2⟩ := resetRuns_spec b.words rs b1.len a1
  exact bitsetOrArray_compute e1 fun x => by rw [e2, a2, b3]; rfl

/-! run / array -/

theorem mem_iff_lb_succ {l : List Nat} (hs : SSorted l) (i : Nat) :
    i ∈ l ↔ lb l (i + 1) = lb l i + 1 := by
  rw [lb_add_eq hs]
  constructor
  · intro h y h1 h2; have : y = i := by omega
    rw [this]; exact h
  · intro h; exact h i (by omega) (by omega)

theorem lb_succ_not {l : List Nat} (hs : SSorted l) {i : Nat} (h : i ∉ l) : lb l (i + 1) = lb l i := by
  have h1 := lb_add_le hs i 1
  have h2 : lb l i ≤ lb l (i + 1) := lb_mono (by omega)
  rw [mem_iff_lb_succ hs] at h
  omega

theorem subtractRun_spec {l : List Nat} (hs : SSorted l) (n i next pos : Nat) (hi : i + n ≤ 65536)
    (hinv : (pos < l.length ∧ pos = lb l i ∧ next = rdL l pos) ∨
      (0 < i ∧ next = 0 ∧ pos + 1 = l.length ∧ lb l i = l.length)) :
    (subtractRun l i n next pos).1 = (List.range' i n).filter (fun x => decide (x ∉ l)) ∧
    (subtractRun l i n next pos).2 ≤ lb l (i + n) := by
  induction n generalizing i next pos with
  | zero =>
    refine ⟨rfl, ?_⟩
    simp only [subtractRun, Nat.add_zero]
    omega
  | succ n ih =>
    rw [subtractRun, List.range'_succ]
    split
    · rename_i hne
      have hni : i ∉ l := by
        rcases hinv with ⟨h1, h2, h3⟩ | ⟨h1, h2, h3, h4⟩
        · intro hmem
          have := rdL_lb_mem hs hmem
          rw [h3, h2, this] at hne; exact hne rfl
        · intro hmem
          have := (mem_iff_rdL_lb hs i).1 hmem
          omega
      have hlb := lb_succ_not hs hni
      have := ih (i + 1) next pos (by omega) (by
        rw [hlb]
        rcases hinv with h | h
        · exact Or.inl h
        · exact Or.inr ⟨by omega, h.2⟩)
      simp only
      rw [this.1, List.filter_cons, if_pos (by simpa using hni), Nat.mod_eq_of_lt (by omega)]
      exact ⟨rfl, by rw [show i + (n + 1) = i + 1 + n by omega]; exact this.2⟩
    · rename_i heq
      have heq : i = next := by simpa using heq
      rcases hinv with ⟨h1, h2, h3⟩ | ⟨h1, h2, h3, h4⟩
      · have hmem : i ∈ l := by rw [heq, h3]; exact rdL_mem h1
        have hlb := (mem_iff_lb_succ hs i).1 hmem
        rw [List.filter_cons, if_neg (show ¬ decide (i ∉ l) = true by simpa using hmem), show i + (n + 1) = i + 1 + n by omega]
        by_cases hend : pos + 1 ≥ l.length
        · rw [if_pos hend]
          exact ih (i + 1) 0 pos (by omega) (Or.inr ⟨by omega, rfl, by omega, by omega⟩)
        · rw [if_neg hend]
          exact ih (i + 1) _ (pos + 1) (by omega) (Or.inl ⟨by omega, by omega, rfl⟩)
      · omega

theorem range_filter_all {l : List Nat} {a n : Nat} (h : ∀ y, a ≤ y → y < a + n → y ∉ l) :
    (List.range' a n).filter (fun x => decide (x ∉ l)) = List.range' a n := by
  rw [List.filter_eq_self]
  intro x hx
  rw [List.mem_range'_1] at hx
  simpa using h x hx.1 hx.2

theorem runArrayArraySubtract_eq {l : List Nat} (hs : SSorted l) (rs : List Rle) (h : RunOK rs) (low : Nat)
    (hlow : ∀ r ∈ rs, low ≤ lb l r.1 ∨ lb l r.1 = l.length) :
    runArrayArraySubtract l low rs = (runValues rs).filter (fun x => decide (x ∉ l)) := by
  induction rs generalizing low with
  | nil => rfl
  | cons r rs ih =>
    obtain ⟨a, b, c⟩ := runOK_cons.1 h
    have hr := hlow r (by simp)
    have hlbl := lb_le l r.1
    rw [runArrayArraySubtract, runValues_cons, List.filter_append]
    simp only
    rw [show r.1 + r.2 + 1 - r.1 = r.2 + 1 by omega, advanceFrom_list hs]
    have hmono : ∀ q ∈ rs, lb l (r.1 + r.2 + 1) ≤ lb l q.1 := fun q hq => lb_mono (by have := b q hq; omega)
    have hmono2 : lb l r.1 ≤ lb l (r.1 + r.2 + 1) := lb_mono (by omega)
    have hle := lb_le l (r.1 + r.2 + 1)
    split
    · rename_i hc
      have hlb : lb l r.1 = l.length := by omega
      have hnone : ∀ y, r.1 ≤ y → y ∉ l := by
        intro y hy hm
        have := (mem_iff_rdL_lb hs y).1 hm
        have : lb l r.1 ≤ lb l y := lb_mono hy
        omega
      rw [range'_map_mod _ _ (by omega), range_filter_all (fun y hy _ => hnone y hy),
        ih c _ (fun q hq => Or.inr (by have := hmono q hq; have := lb_le l q.1; omega))]
    · rename_i hc
      have hpos : max low (lb l r.1) = lb l r.1 := by omega
      rw [hpos] at hc ⊢
      have hlt : lb l r.1 < l.length := by omega
      split
      · rename_i hn
        have hnone : ∀ y, r.1 ≤ y → y < r.1 + (r.2 + 1) → y ∉ l := by
          intro y hy hy2 hm
          have h1 := (mem_iff_rdL_lb hs y).1 hm
          have h2 : lb l r.1 ≤ lb l y := lb_mono hy
          rcases Nat.lt_or_ge (lb l r.1) (lb l y) with h3 | h3
          · have := rdL_strict hs h3 h1.1; omega
          · rw [show lb l r.1 = lb l y by omega, h1.2] at hn; omega
        rw [range'_map_mod _ _ (by omega), range_filter_all hnone,
          ih c _ (fun q hq => Or.inl (by have := hmono q hq; omega))]
      · have := subtractRun_spec hs (r.2 + 1) r.1 (rdL l (lb l r.1)) (lb l r.1) (by omega) (Or.inl ⟨hlt, rfl, rfl⟩)
        rw [this.1, ih c _ (fun q hq => Or.inl (Nat.le_trans this.2 (by
          have := hmono q hq; rwa [show r.1 + (r.2 + 1) = r.1 + r.2 + 1 by omega])))]

theorem runArrayAndnotLoop_eq (start end_ : Nat) (rs : List Rle) (l : List Nat) :
    runArrayAndnotLoop start end_ rs l = runAndnotLoop start end_ rs (l.map fun v => (v, 0)) := by
  fun_induction runArrayAndnotLoop start end_ rs l with
  | case1 => rw [List.map_nil, runAndnotLoop]
  | case2 start end_ rs x xs hc ih =>
    rw [List.map_cons, runAndnotLoop.eq_def start]
    simp only
    rw [if_pos hc]
    cases rs with
    | nil => rfl
    | cons r rs => simp only; rw [ih]; rfl
  | case3 start end_ rs x xs hc hc2 ih =>
    rw [List.map_cons, runAndnotLoop.eq_def start]
    simp only
    rw [if_neg hc, if_pos (by omega), ih]
  | case4 start end_ rs x xs hc hc2 pre hc3 ih =>
    rw [List.map_cons, runAndnotLoop.eq_def start]
    simp only
    rw [if_neg hc, if_neg (by omega), if_pos (by omega), ih, List.map_cons]
    rw [runAndnotLoop.eq_def (x + 1)]
    simp only
    rw [if_neg hc, if_pos (by omega)]
    rfl
  | case5 start end_ rs x xs hc hc2 pre hc3 ih =>
    rw [List.map_cons, runAndnotLoop.eq_def start]
    simp only
    rw [if_neg hc, if_neg (by omega), if_neg (by omega)]
    cases rs with
    | nil => rfl
    | cons r rs => simp only; rw [ih]; rfl

theorem wrun_of_array {l : List Nat} (h : ArrOK l) : WRun (l.map fun v => (v, 0)) := by
  refine ⟨?_, ?_⟩
  · rw [List.pairwise_map]; exact h.sorted.imp (fun hab => by simpa using hab)
  · intro r hr
    obtain ⟨v, hv, rfl⟩ := List.mem_map.1 hr
    simpa using h.lt v hv

theorem runHas_of_array (l : List Nat) (x : Nat) : runHas (l.map fun v => (v, 0)) x = decide (x ∈ l) := by
  rw [Bool.eq_iff_iff, runHas_iff, decide_eq_true_eq]
  constructor
  · rintro ⟨r, hr, h1, h2⟩
    obtain ⟨v, hv, rfl⟩ := List.mem_map.1 hr
    simp at h1 h2
    rwa [show x = v by omega]
  · intro hx; exact ⟨(x, 0), List.mem_map.2 ⟨x, hx, rfl⟩, by simp, by simp⟩

theorem runArrayAndnot_spec {rs : List Rle} {l : List Nat} {s t : NSet} (h1 : Rep (.run rs) s)
    (h2 : Rep (.array l) t) : Rep (runArrayAndnot rs l) (diff s t) := by
  obtain ⟨a1, a2⟩ := rep_run_iff h1
  obtain ⟨b1, b2, b3⟩ := rep_arr_iff h2
  unfold runArrayAndnot DEFAULT_MAX_SIZE
  split
  · split
    · rename_i hz
      have : l = [] := List.eq_nil_of_length_eq_zero hz
      refine h1.congr fun x => ?_
      have : t x = false := by rw [← mem_dec b2, this]; simp
      simp [diff, this]
    · cases rs with
      | nil =>
        refine convertRunToEfficient_spec RunOK.nil fun x => ?_
        simp only [diff]
        rw [← a2]; rfl
      | cons r rs =>
        obtain ⟨c1, c2, c3⟩ := runOK_cons.1 a1
        have := runAndnotLoop_spec r.1 (r.1 + r.2 + 1) rs (l.map fun v => (v, 0)) c3 (wrun_of_array b1) (by omega)
          (by omega) (fun q hq => by have := c2 q hq; omega)
        refine convertRunToEfficient_spec ?_ fun x => ?_
        · simp only; rw [runArrayAndnotLoop_eq]; exact this.1
        · simp only
          rw [runArrayAndnotLoop_eq, this.2.1, runHas_of_array, mem_dec b2]
          simp only [diff]
          rw [← a2, runHas_cons]
          have e : decide (r.1 ≤ x ∧ x < r.1 + r.2 + 1) = decide (r.1 ≤ x ∧ x ≤ r.1 + r.2) := by
            apply decide_eq_decide.2; omega
          rw [e]
  · split
    · rename_i hc
      rw [show runArrayArraySubtract l 0 rs = _ from runArrayArraySubtract_eq b1.sorted rs a1 0 (fun r _ => Or.inl (by omega))]
      refine rep_filter_not (rep_runValues a1 a2 hc) fun x _ => ?_
      rw [← mem_dec b2]; simp
    · obtain ⟨c1, c2⟩ := bitsetFromRun_spec a1
      exact bitsetArrayAndnot_ok c1 (fun x => by rw [c2, a2]) h2

theorem nextRunFor_spec {v : Nat} (hv : v < 65536) (rs : List Rle) (h : RunOK rs) :
    v ≤ (nextRunFor v rs).1.2 ∧ RunOK (nextRunFor v rs).2 ∧
    (∀ q ∈ (nextRunFor v rs).2, (nextRunFor v rs).1.2 + 1 < q.1) ∧
    (nextRunFor v rs).1.1 ≤ (nextRunFor v rs).1.2 ∧
    ∀ y, v ≤ y → y < 65536 → runHas rs y =
      (decide ((nextRunFor v rs).1.1 ≤ y ∧ y ≤ (nextRunFor v rs).1.2) || runHas (nextRunFor v rs).2 y) := by
  induction rs with
  | nil =>
    refine ⟨by simp [nextRunFor]; omega, RunOK.nil, by simp [nextRunFor], by simp [nextRunFor], fun y h1 h2 => ?_⟩
    have e : decide ((nextRunFor v []).1.1 ≤ y ∧ y ≤ (nextRunFor v []).1.2) = false :=
      decide_eq_false (show ¬(65537 ≤ y ∧ y ≤ 65537) by omega)
    rw [e]; rfl
  | cons r rs ih =>
    obtain ⟨a, b, c⟩ := runOK_cons.1 h
    rw [nextRunFor]
    split
    · rename_i hgt
      obtain ⟨e1, e2, e3, e5, e4⟩ := ih c
      refine ⟨e1, e2, e3, e5, fun y h1 h2 => ?_⟩
      rw [runHas_cons, decide_eq_false (by omega), Bool.false_or, e4 y h1 h2]
    · exact ⟨by simp; omega, c, b, by simp, fun y _ _ => rfl⟩

theorem arrayRunAndnotLoop_eq (l : List Nat) (h : ArrOK l) (a b : Nat) (rs : List Rle) (hr : RunOK rs)
    (hab : a ≤ b) (hb : ∀ q ∈ rs, b + 1 < q.1) :
    arrayRunAndnotLoop a b rs l = l.filter (fun x => !(decide (a ≤ x ∧ x ≤ b) || runHas rs x)) := by
  induction l generalizing a b rs with
  | nil => rfl
  | cons v l ih =>
    have hv := h.lt v (by simp)
    have hgt : ∀ y, runHas rs y = true → b + 1 < y := fun y hh => has_gt hb hh
    have hl : ∀ y ∈ l, v < y := (List.pairwise_cons.1 h.sorted).1
    rw [arrayRunAndnotLoop, List.filter_cons]
    split
    · rename_i h1
      have hn : runHas rs v = false := by
        cases hq : runHas rs v
        · rfl
        · have := hgt v hq; omega
      rw [hn, decide_eq_false (by omega), if_pos (by simp), ih h.tail a b rs hr hab hb]
    · split
      · rename_i h1 h2
        rw [decide_eq_true (by omega), if_neg (by simp), ih h.tail a b rs hr hab hb]
      · rename_i h1 h2
        obtain ⟨e1, e2, e3, e5, e4⟩ := nextRunFor_spec hv rs hr
        have hrest : arrayRunAndnotLoop (nextRunFor v rs).1.1 (nextRunFor v rs).1.2 (nextRunFor v rs).2 l =
            l.filter (fun x => !(decide (a ≤ x ∧ x ≤ b) || runHas rs x)) := by
          rw [ih h.tail _ _ _ e2 e5 e3]
          apply List.filter_congr
          intro y hy
          have := hl y hy
          rw [decide_eq_false (show ¬(a ≤ y ∧ y ≤ b) by omega), e4 y (by omega) (h.lt y (by simp [hy])), Bool.false_or]
        have hq : runHas (nextRunFor v rs).2 v = false := by
          cases hq : runHas (nextRunFor v rs).2 v
          · rfl
          · have := has_gt e3 hq; omega
        simp only
        rw [hrest, e4 v (Nat.le_refl _) hv, hq, decide_eq_false (show ¬(a ≤ v ∧ v ≤ b) by omega)]
        split
        · rw [decide_eq_false (by omega)]; simp
        · rw [decide_eq_true (by omega)]; simp

theorem arrayRunAndnot_spec {l : List Nat} {rs : List Rle} {s t : NSet} (h1 : Rep (.array l) s)
    (h2 : Rep (.run rs) t) : Rep (.array (arrayRunAndnot l rs)) (diff s t) := by
  obtain ⟨a1, a2⟩ := rep_run_iff h2
  obtain ⟨b1, b2, b3⟩ := rep_arr_iff h1
  cases rs with
  | nil =>
    refine h1.congr fun x => ?_
    simp only [diff]
    rw [← a2 x]; simp
  | cons r rs =>
    obtain ⟨c1, c2, c3⟩ := runOK_cons.1 a1
    simp only [arrayRunAndnot]
    rw [arrayRunAndnotLoop_eq l b1 _ _ rs c3 (by omega) c2]
    exact rep_filter_not h1 fun x _ => by rw [← a2, runHas_cons]

theorem runRunAndnot_spec {rs1 rs2 : List Rle} {s t : NSet} (h1 : Rep (.run rs1) s)
    (h2 : Rep (.run rs2) t) : Rep (runRunAndnot rs1 rs2) (diff s t) := by
  obtain ⟨a1, a2⟩ := rep_run_iff h1
  obtain ⟨b1, b2⟩ := rep_run_iff h2
  have := runAndnot_spec a1 b1
  exact convertRunToEfficient_spec this.1 fun x => by rw [this.2, a2, b2]; rfl

theorem arrayAndnot_rep {l1 l2 : List Nat} {s t : NSet} (h1 : Rep (.array l1) s)
    (h2 : Rep (.array l2) t) : Rep (.array (arrayAndnot l1 l2)) (diff s t) := by
  obtain ⟨a1, a2, a3⟩ := rep_arr_iff h1
  obtain ⟨b1, b2, b3⟩ := rep_arr_iff h2
  rw [arrayAndnot_eq a1 b1]
  exact rep_filter_not h1 fun x _ => by rw [← mem_dec b2]; simp

theorem bitsetBitsetAndnot_spec {b1 b2 : Bitset} {s t : NSet} (h1 : Rep (.bitset b1) s)
    (h2 : Rep (.bitset b2) t) : Rep (bitsetBitsetAndnot b1 b2) (diff s t) := by
  obtain ⟨a1, a2, a3, a4⟩ := rep_bit_iff h1
  obtain ⟨c1, c2, c3, c4⟩ := rep_bit_iff h2
  have hl : b1.words.length = b2.words.length := by rw [a1.len, c1.len]
  have := bitsetOp_ok wAndnot a1.len c1.len
  exact bitsetOrArray_spec this.len (fun x => by rw [bitAt_wAndnot hl x, a3, c3]; rfl) this.card

/-! ### Symmetric difference -/

theorem arrayBitsetXor_ok {l : List Nat} {b : Bitset} {s t : NSet} (h1 : Rep (.array l) s)
    (hb : BitOK b) (hs : ∀ x, bitAt b.words x = t x) : Rep (arrayBitsetXor l b) (symm s t) := by
  obtain ⟨a1, a2, a3⟩ := rep_arr_iff h1
  obtain ⟨c1, c2, c3⟩ := flipListWithcard_spec hb.len a1 hb.card
  exact bitsetOrArray_spec c1 (fun x => by rw [c2, mem_dec a2, hs]; rfl) c3

theorem arrayBitsetXor_spec {l : List Nat} {b : Bitset} {s t : NSet} (h1 : Rep (.array l) s)
    (h2 : Rep (.bitset b) t) : Rep (arrayBitsetXor l b) (symm s t) :=
  arrayBitsetXor_ok h1 (rep_bit_iff h2).1 (rep_bit_iff h2).2.2.1

theorem arrayBitsetLazyXor_spec {l : List Nat} {b : Bitset} {s t : NSet} (h1 : LRep (.array l) s)
    (h2 : LRep (.bitset b) t) : LRep (.bitset (arrayBitsetLazyXor l b)) (symm s t) := by
  obtain ⟨a1, a2, a3⟩ := rep_arr_iff (lrep_arr h1)
  have hw := h2.inv.bit
  refine lrep_bitset (by rw [bitsetFlipList_length, hw]) fun x => ?_
  rw [bitAt_flipList _ _ _ a1.sorted (arr_lt64 a1 hw), mem_dec a2, show bitAt b.words x = t x from h2.has x]; rfl

theorem flipRuns_spec (ws : List Word) (rs : List Rle) (hw : ws.length = 1024) (h : RunOK rs) :
    (flipRuns ws rs).length = 1024 ∧ ∀ x, bitAt (flipRuns ws rs) x = (runHas rs x != bitAt ws x) := by
  induction rs generalizing ws with
  | nil => exact ⟨hw, by simp [flipRuns]⟩
  | cons r rs ih =>
    obtain ⟨a, b, c⟩ := runOK_cons.1 h
    have := ih (bitsetFlipRange ws r.1 (r.1 + r.2 + 1)) (by rw [bitsetFlipRange_length, hw]) c
    refine ⟨this.1, fun x => ?_⟩
    rw [flipRuns, List.foldl_cons]
    refine (this.2 x).trans ?_
    rw [bitAt_flipRange _ _ _ _ (by omega) (by omega), runHas_cons]
    have hgt : runHas rs x = true → r.1 + r.2 + 1 < x := fun hh => has_gt (fun q hq => b q hq) hh
    by_cases h4 : r.1 ≤ x ∧ x ≤ r.1 + r.2
    · have : runHas rs x = false := by
        rw [Bool.eq_false_iff]; intro hh; have := hgt hh; omega
      rw [this, decide_eq_true (by omega), decide_eq_true h4]; cases bitAt ws x <;> rfl
    · rw [decide_eq_false (by omega), decide_eq_false h4]; cases bitAt ws x <;> simp

theorem runBitsetXor_spec {rs : List Rle} {b : Bitset} {s t : NSet} (h1 : Rep (.run rs) s)
    (h2 : Rep (.bitset b) t) : Rep (runBitsetXor rs b) (symm s t) := by
  obtain ⟨a1, a2⟩ := rep_run_iff h1
  obtain ⟨b1, b2, b3, b4⟩ := rep_bit_iff h2
  obtain ⟨e1, e2⟩ := flipRuns_spec b.words rs b1.len a1
  exact bitsetOrArray_compute e1 fun x => by rw [e2, a2, b3]; rfl

theorem runBitsetLazyXor_spec {rs : List Rle} {b : Bitset} {s t : NSet} (h1 : LRep (.run rs) s)
    (h2 : LRep (.bitset b) t) : LRep (.bitset (runBitsetLazyXor rs b)) (symm s t) := by
  obtain ⟨a1, a2⟩ := rep_run_iff (lrep_run h1)
  obtain ⟨e1, e2⟩ := flipRuns_spec b.words rs h2.inv.bit a1
  exact lrep_bitset e1 fun x => by rw [e2, a2, show bitAt b.words x = t x from h2.has x]; rfl

theorem arrayXor_rep {l1 l2 : List Nat} {s t : NSet} (h1 : Rep (.array l1) s)
    (h2 : Rep (.array l2) t) (hl : l1.length + l2.length ≤ 4096) : Rep (.array (arrayXor l1 l2)) (symm s t) := by
  obtain ⟨a1, a2, a3⟩ := rep_arr_iff h1
  obtain ⟨b1, b2, b3⟩ := rep_arr_iff h2
  have := arrayXor_spec a1 b1
  refine rep_array' this.1 (fun x => ?_) ?_
  · rw [this.2, a2, b2]; simp only [symm]; cases s x <;> cases t x <;> simp
  · have := card_symm 65536 s t
    rw [h1.card_array, h2.card_array] at this
    omega

theorem arrayArrayXor_spec {l1 l2 : List Nat} {s t : NSet} (h1 : Rep (.array l1) s)
    (h2 : Rep (.array l2) t) : Rep (arrayArrayXor l1 l2) (symm s t) := by
  obtain ⟨a1, a2, a3⟩ := rep_arr_iff h1
  obtain ⟨b1, b2, b3⟩ := rep_arr_iff h2
  unfold arrayArrayXor DEFAULT_MAX_SIZE
  split
  · exact arrayXor_rep h1 h2 (by assumption)
  · obtain ⟨c1, c2⟩ := bitsetFromArray_spec (l := l1) a1.lt
    have hc : ((l1.length : Nat) : Int) = card 65536 (bitAt (bitsetFromArray l1).words) := by
      rw [← h1.card_array]
      exact card_int_congr fun x _ => by rw [c2, mem_dec a2]
    obtain ⟨d1, d2, d3⟩ := flipListWithcard_spec c1.len b1 hc
    refine bitsetOrArray_spec d1 (fun x => ?_) d3
    rw [d2, c2, mem_dec a2, mem_dec b2]
    simp only [symm]; cases s x <;> cases t x <;> rfl

theorem arrayArrayLazyXor_spec {l1 l2 : List Nat} {s t : NSet} (h1 : LRep (.array l1) s)
    (h2 : LRep (.array l2) t) : LRep (arrayArrayLazyXor l1 l2) (symm s t) := by
  have h1 := lrep_arr h1
  have h2 := lrep_arr h2
  obtain ⟨a1, a2, a3⟩ := rep_arr_iff h1
  obtain ⟨b1, b2, b3⟩ := rep_arr_iff h2
  unfold arrayArrayLazyXor ARRAY_LAZY_LOWERBOUND
  split
  · exact (arrayXor_rep h1 h2 (by omega)).lrep
  · obtain ⟨c1, c2⟩ := bitsetFromArray_spec (l := l1) a1.lt
    refine lrep_bitset (by rw [bitsetFlipList_length, c1.len]) fun x => ?_
    rw [bitAt_flipList _ _ _ b1.sorted (arr_lt64 b1 c1.len), c2, mem_dec a2, mem_dec b2]
    simp only [symm]; cases s x <;> cases t x <;> rfl

theorem arrayRunLazyXorLoop_eq (l : List Nat) (rs acc : List Rle) :
    arrayRunLazyXorLoop l rs acc = runXorLoop rs (l.map fun v => (v, 0)) acc := by
  fun_induction arrayRunLazyXorLoop l rs acc with
  | case1 => simp [runXorLoop]
  | case2 r rs acc ih => rw [ih, List.map_nil, runXorLoop]
  | case3 v l acc ih => rw [ih, List.map_cons, runXorLoop]
  | case4 v l r rs acc hc ih => rw [ih, List.map_cons, runXorLoop.eq_def (r :: rs)]; simp only; rw [if_pos hc]
  | case5 v l r rs acc hc ih => rw [ih, List.map_cons, runXorLoop.eq_def (r :: rs) ((v, 0) :: _)]; simp only; rw [if_neg hc]

theorem arrayRunLazyXor_ok {l : List Nat} {rs : List Rle} (h1 : ArrOK l) (h2 : RunOK rs) :
    RunOK (arrayRunLazyXor l rs) ∧ ∀ y, runHas (arrayRunLazyXor l rs) y = (decide (y ∈ l) != runHas rs y) := by
  have := runXorLoop_spec rs (l.map fun v => (v, 0)) [] 0 0 h2 (wrun_of_array h1) RunOK.nil (by simp) (by simp)
    (by simp) (by simp)
  unfold arrayRunLazyXor
  rw [arrayRunLazyXorLoop_eq]
  refine ⟨this.1, fun y => ?_⟩
  rw [runHas_reverse, this.2, runHas_of_array]
  cases runHas rs y <;> cases decide (y ∈ l) <;> rfl

theorem arrayRunLazyXor_spec {l : List Nat} {rs : List Rle} {s t : NSet} (h1 : Rep (.array l) s)
    (h2 : Rep (.run rs) t) : Rep (.run (arrayRunLazyXor l rs)) (symm s t) := by
  obtain ⟨a1, a2⟩ := rep_run_iff h2
  obtain ⟨b1, b2, b3⟩ := rep_arr_iff h1
  have := arrayRunLazyXor_ok b1 a1
  exact rep_run this.1 fun x => by rw [this.2, mem_dec b2, a2]; rfl

theorem arrayRunXor_spec {l : List Nat} {rs : List Rle} {s t : NSet} (h1 : Rep (.array l) s)
    (h2 : Rep (.run rs) t) : Rep (arrayRunXor l rs) (symm s t) := by
  obtain ⟨a1, a2⟩ := rep_run_iff h2
  unfold arrayRunXor DEFAULT_MAX_SIZE
  split
  · obtain ⟨e1, e2⟩ := rep_run_iff (arrayRunLazyXor_spec h1 h2)
    exact convertRunToEfficient_spec e1 e2
  · split
    · rename_i hc
      rw [arrayFromRun_eq a1]
      refine (arrayArrayXor_spec (rep_runValues a1 a2 hc) h1).congr fun x => ?_
      simp only [symm]; cases s x <;> cases t x <;> rfl
    · obtain ⟨c1, c2⟩ := bitsetFromRun_spec a1
      exact arrayBitsetXor_ok h1 c1 fun x => by rw [c2, a2]

theorem runRunXor_spec {rs1 rs2 : List Rle} {s t : NSet} (h1 : Rep (.run rs1) s)
    (h2 : Rep (.run rs2) t) : Rep (runRunXor rs1 rs2) (symm s t) := by
  obtain ⟨a1, a2⟩ := rep_run_iff h1
  obtain ⟨b1, b2⟩ := rep_run_iff h2
  have := runXor_spec a1 b1
  exact convertRunToEfficient_spec this.1 fun x => by rw [this.2, a2, b2]; rfl

theorem bitsetBitsetXor_spec {b1 b2 : Bitset} {s t : NSet} (h1 : Rep (.bitset b1) s)
    (h2 : Rep (.bitset b2) t) : Rep (bitsetBitsetXor b1 b2) (symm s t) := by
  obtain ⟨a1, a2, a3, a4⟩ := rep_bit_iff h1
  obtain ⟨c1, c2, c3, c4⟩ := rep_bit_iff h2
  have hl : b1.words.length = b2.words.length := by rw [a1.len, c1.len]
  have := bitsetOp_ok wXor a1.len c1.len
  exact bitsetOrArray_spec this.len (fun x => by rw [bitAt_wXor hl x, a3, c3]; rfl) this.card

end CRoaring
