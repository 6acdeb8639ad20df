import Verif.Model.MixedRel
import Verif.Lemmas.MixedDiff
set_option linter.unusedSimpArgs false
set_option linter.unusedVariables false

namespace CRoaring
open Spec

/-! ### Negation -/

/-- The set with `[a, b)` flipped. -/
def flipR (s : NSet) (a b : Nat) : NSet := fun x => decide (a ≤ x ∧ x < b) != s x

theorem arrayNegation_spec {l : List Nat} {s : NSet} (h : Rep (.array l) s) :
    Rep (.bitset (arrayNegation l)) (flipR s 0 65536) := by
  obtain ⟨a1, a2, a3⟩ := rep_arr_iff h
  have hset : ∀ x, (!decide (x ∈ l) && bitAt bitsetSetAll.words x) = flipR s 0 65536 x := fun x => by
    rw [bitAt_setAll, mem_dec a2]
    simp only [flipR]
    by_cases hx : x < 65536
    · simp [hx]
    · have : s x = false := by
        cases hs : s x
        · rfl
        · exact absurd (h.lt hs) hx
      simp [hx, this]
  have hsplit : card 65536 (flipR s 0 65536) + card 65536 s = 65536 := by
    have e1 : card 65536 (flipR s 0 65536) = card 65536 (fun x => !s x) :=
      card_congr fun x hx => by simp only [flipR]; rw [decide_eq_true (by omega)]; cases s x <;> rfl
    have e2 := card_compl 65536 s
    omega
  have hlen := h.card_array
  obtain ⟨c1, c2, c3⟩ := clearList_spec bitsetSetAll_ok.len a1 bitsetSetAll_ok.card
  have hcd : bitsetSetAll.card = 65536 := rfl
  rw [hcd] at c1 c2 c3
  have hc3 : (bitsetClearList bitsetSetAll.words 65536 l).2 = card 65536 (flipR s 0 65536) :=
    c3.trans (card_int_congr fun x _ => by rw [c2, hset])
  unfold arrayNegation
  split
  · rename_i hz
    have hnil : l = [] := List.eq_nil_of_length_eq_zero hz
    refine rep_bitset bitsetSetAll_ok.len (fun x => ?_) ?_ ?_
    · rw [← hset x, hnil]
      simp only [List.not_mem_nil, decide_false, Bool.not_false, Bool.true_and]
      rfl
    · rw [hlen, hz] at hsplit
      show (65536 : Int) = _
      omega
    · show (4096 : Int) < 65536
      omega
  · refine rep_bitset c1 (fun x => by rw [c2, hset]) hc3 ?_
    rw [hc3]; omega

theorem negationLoop_eq {l : List Nat} (hs : SSorted l) (v n p : Nat) (last : Int)
    (hp : p = lb l v) (hl : last = (lb l (v + n) : Int) - 1) (hb : v + n ≤ 65536) :
    negationLoop l last v n p = (List.range' v n).filter fun x => decide (x ∉ l) := by
  induction n generalizing v p with
  | zero => rfl
  | succ n ih =>
    have hmod : v % 65536 = v := Nat.mod_eq_of_lt (by omega)
    have hle : lb l (v + 1) ≤ lb l (v + (n + 1)) := lb_mono (by omega)
    have hll := lb_le l (v + (n + 1))
    rw [negationLoop, List.range'_succ, List.filter_cons, hmod]
    by_cases hm : v ∈ l
    · have h1 := (mem_iff_lb_succ hs v).1 hm
      rw [if_pos (by omega), if_neg (by rw [hp, rdL_lb_mem hs hm]; simp), if_neg (by simpa using hm)]
      exact ih (v + 1) (p + 1) (by omega) (by rw [hl, show v + 1 + n = v + (n + 1) by omega]) (by omega)
    · have h1 := lb_succ_not hs hm
      have hrec := ih (v + 1) p (by omega) (by rw [hl, show v + 1 + n = v + (n + 1) by omega]) (by omega)
      rw [if_pos (show decide (v ∉ l) = true by simpa using hm), hrec]
      split
      · rw [if_pos]
        intro heq
        exact hm ((mem_iff_rdL_lb hs v).2 ⟨by omega, by rw [← hp, ← heq]⟩)
      · rfl

theorem bs_start {l : List Nat} (hs : SSorted l) (x : Nat) :
    (if binarySearch (rdL l) l.length x < 0 then -binarySearch (rdL l) l.length x - 1
      else binarySearch (rdL l) l.length x) = (lb l x : Int) := by
  rw [binarySearch_list hs]
  by_cases h : x ∈ l
  · simp only [h, if_true]; rw [if_neg (by omega)]
  · simp only [h, if_false]; rw [if_pos (by omega)]; omega

theorem bs_last {l : List Nat} (hs : SSorted l) (x : Nat) :
    (if binarySearch (rdL l) l.length x < 0 then -binarySearch (rdL l) l.length x - 2
      else binarySearch (rdL l) l.length x) = (lb l (x + 1) : Int) - 1 := by
  rw [binarySearch_list hs]
  by_cases h : x ∈ l
  · have := (mem_iff_lb_succ hs x).1 h
    simp only [h, if_true]; rw [if_neg (by omega)]; omega
  · have := lb_succ_not hs h
    simp only [h, if_false]; rw [if_pos (by omega)]; omega

theorem card_flipR {s : NSet} {a b : Nat} (hab : a ≤ b) (hb : b ≤ 65536) :
    card 65536 (flipR s a b) + 2 * (card b s - card a s) = card 65536 s + (b - a) := by
  have h1 := card_symm 65536 (range a b) s
  have h2 : card 65536 (symm (range a b) s) = card 65536 (flipR s a b) :=
    card_congr fun x _ => by simp [symm, flipR, range]
  have h3 := card_range 65536 a b
  have h4 : card 65536 (inter (range a b) s) = card b s - card a s := by
    have e1 := card_add a (b - a) s
    rw [show a + (b - a) = b by omega] at e1
    rw [e1, Nat.add_sub_cancel_left]
    refine card_window (a := a) (by omega) (fun x hx => ?_) (fun x hx _ => ?_) (fun x hx => ?_)
    · simp [inter, range]; omega
    · simp [inter, range]; omega
    · simp [inter, range]; omega
  omega

theorem arrayNegationRange_spec {l : List Nat} {s : NSet} (h : Rep (.array l) s) {a b : Nat} (hb : b ≤ 65536) :
    Rep (arrayNegationRange l a b) (flipR s a b) := by
  obtain ⟨a1, a2, a3⟩ := rep_arr_iff h
  unfold arrayNegationRange DEFAULT_MAX_SIZE
  by_cases hab : a ≥ b
  · rw [if_pos hab]
    exact h.congr fun x => by simp only [flipR]; rw [decide_eq_false (by omega)]; simp
  rw [if_neg hab]
  simp only
  rw [Nat.mod_eq_of_lt (show a < 65536 by omega), Nat.mod_eq_of_lt (show b - 1 < 65536 by omega),
    bs_start a1.sorted, bs_last a1.sorted, show b - 1 + 1 = b by omega]
  have hcs : ∀ n, n ≤ 65536 → lb l n = card n s := fun n hn => by
    rw [lb_eq_card a1.sorted]
    exact card_congr fun x _ => by rw [← mem_dec a2]; simp [ofList]
  have hca := hcs a (by omega)
  have hcb := hcs b hb
  have hm : lb l a ≤ lb l b := lb_mono (by omega)
  have hflip := card_flipR (s := s) (show a ≤ b by omega) hb
  have hlen := h.card_array
  have hlb := lb_le l b
  have hbound : lb l b ≤ lb l a + (b - a) := by
    have := lb_add_le a1.sorted a (b - a)
    rwa [show a + (b - a) = b by omega] at this
  have hnc : (l.length : Int) + ((b : Int) - a - ((lb l b : Int) - 1 - lb l a + 1) - ((lb l b : Int) - 1 - lb l a + 1)) =
      card 65536 (flipR s a b) := by omega
  rw [hnc]
  split
  · rename_i hbig
    obtain ⟨c1, c2⟩ := bitsetFromArray_spec (l := l) a1.lt
    refine rep_bitset (by rw [bitsetFlipRange_length, c1.len]) (fun x => ?_) rfl (by omega)
    rw [bitAt_flipRange _ _ _ _ (by omega) (by rw [c1.len]; omega), c2, mem_dec a2]; rfl
  · rename_i hsmall
    have hmem : ∀ x, x ∈ l.take (lb l a) ++ (List.range' a (b - a)).filter (fun x => decide (x ∉ l)) ++ l.drop (lb l b) ↔
        flipR s a b x = true := by
      intro x
      rw [List.mem_append, List.mem_append, mem_take_lb a1.sorted, mem_drop_lb a1.sorted, List.mem_filter,
        List.mem_range'_1, decide_eq_true_eq, a2]
      simp only [flipR]
      by_cases h1 : a ≤ x ∧ x < b
      · rw [decide_eq_true h1]; cases s x <;> simp <;> omega
      · rw [decide_eq_false h1]; cases s x <;> simp <;> omega
    have hsort : SSorted (l.take (lb l a) ++ (List.range' a (b - a)).filter (fun x => decide (x ∉ l)) ++ l.drop (lb l b)) := by
      rw [SSorted, List.pairwise_append, List.pairwise_append]
      refine ⟨⟨(a1.take _).sorted, (range'_sorted a (b - a)).filter _, ?_⟩, (a1.drop _).sorted, ?_⟩
      · intro x hx y hy
        rw [mem_take_lb a1.sorted] at hx
        rw [List.mem_filter, List.mem_range'_1] at hy
        omega
      · intro x hx y hy
        rw [mem_drop_lb a1.sorted] at hy
        rcases List.mem_append.1 hx with hx | hx
        · rw [mem_take_lb a1.sorted] at hx; omega
        · rw [List.mem_filter, List.mem_range'_1] at hx; omega
    have hlt : ∀ x, flipR s a b x = true → x < 65536 := by
      intro x hx
      simp only [flipR] at hx
      by_cases h1 : a ≤ x ∧ x < b
      · omega
      · rw [decide_eq_false h1] at hx
        exact h.lt (by simpa using hx)
    have hok : ArrOK (l.take (lb l a) ++ (List.range' a (b - a)).filter (fun x => decide (x ∉ l)) ++ l.drop (lb l b)) :=
      ⟨hsort, fun x hx => hlt x ((hmem x).1 hx)⟩
    have hcard := card_ofList_iff hok hmem
    split
    · rename_i hz
      have hz' : card 65536 (flipR s a b) = 0 := by omega
      rw [hz'] at hcard
      have := List.eq_nil_of_length_eq_zero hcard.symm
      rw [this] at hmem
      exact rep_array ArrOK.nil hmem (by simp)
    · rw [negationLoop_eq a1.sorted a (b - a) _ _ (by simp) (by rw [show a + (b - a) = b by omega]) (by omega),
        Int.toNat_natCast, show ((lb l b : Int) - 1 + 1).toNat = lb l b by omega, Int.toNat_natCast,
        List.take_of_length_le (by omega)]
      exact rep_array' hok hmem (by omega)

theorem bitsetNegationRange_spec {bs : Bitset} {s : NSet} (h : Rep (.bitset bs) s) {a b : Nat} (hab : a ≤ b)
    (hb : b ≤ 65536) : Rep (bitsetNegationRange bs a b) (flipR s a b) := by
  obtain ⟨a1, a2, a3, a4⟩ := rep_bit_iff h
  have hl : (bitsetFlipRange bs.words a b).length = 1024 := by rw [bitsetFlipRange_length, a1.len]
  have hs : ∀ x, bitAt (bitsetFlipRange bs.words a b) x = flipR s a b x := fun x => by
    rw [bitAt_flipRange _ _ _ _ hab (by rw [a1.len]; omega), a3]; rfl
  have := bitsetOrArray_compute hl hs
  unfold bitsetOrArray DEFAULT_MAX_SIZE at this
  unfold bitsetNegationRange DEFAULT_MAX_SIZE
  simp only at this ⊢
  split
  · rw [if_neg (by omega)] at this; exact this
  · rw [if_pos (by omega)] at this; exact this

theorem negFold_eq (r : Rle) (rs acc : List Rle) :
    rs.foldl (fun acc (r : Rle) => smartAppend acc r.1 r.2) acc = runXorLoop [] rs acc := by
  induction rs generalizing acc with
  | nil => rw [runXorLoop]; rfl
  | cons q rs ih => rw [List.foldl_cons, ih, runXorLoop]

theorem runNeg_eq (p : Rle) (rs acc : List Rle) (h : RunOK (acc.reverse ++ rs)) :
    (rs.dropWhile fun (r : Rle) => decide (r.1 < p.1)).foldl (fun acc (r : Rle) => smartAppend acc r.1 r.2)
      (smartAppend ((rs.takeWhile fun (r : Rle) => decide (r.1 < p.1)).reverse ++ acc) p.1 p.2) =
    runXorLoop [p] rs acc := by
  induction rs generalizing acc with
  | nil => rw [runXorLoop]; simp [runXorLoop]
  | cons q rs ih =>
    rw [runXorLoop]
    by_cases hq : q.1 < p.1
    · rw [if_neg (by omega), List.dropWhile_cons_of_pos (by simpa using hq), List.takeWhile_cons_of_pos (by simpa using hq)]
      have hap : smartAppend acc q.1 q.2 = q :: acc := by
        cases acc with
        | nil => rfl
        | cons z acc =>
          rw [smartAppend]
          have : z.1 + z.2 + 1 < q.1 := (runOK_append.1 h).2.2 z (by simp) q (by simp)
          simp only
          rw [if_pos (by omega)]
      rw [hap, ← ih (q :: acc) (by simpa using h)]
      simp
    · rw [if_pos (by omega), List.dropWhile_cons_of_neg (by simpa using hq), List.takeWhile_cons_of_neg (by simpa using hq),
        negFold_eq p]
      simp

theorem runNegationRange_spec {rs : List Rle} {s : NSet} (h : Rep (.run rs) s) {a b : Nat} (hb : b ≤ 65536) :
    Rep (runNegationRange rs a b) (flipR s a b) := by
  obtain ⟨a1, a2⟩ := rep_run_iff h
  unfold runNegationRange
  split
  · exact h.congr fun x => by simp only [flipR]; rw [decide_eq_false (by omega)]; simp
  · rename_i hab
    simp only
    rw [Nat.mod_eq_of_lt (show a < 65536 by omega), u16_eq (n := b - a - 1) (by omega) (by omega)]
    have he := runNeg_eq (a, b - a - 1) rs [] (by simpa using a1)
    rw [List.append_nil] at he
    simp only at he
    rw [he]
    have hsp := runXorLoop_spec [(a, b - a - 1)] rs [] 0 0 (runOK_cons.2 ⟨by simp; omega, by simp, RunOK.nil⟩) a1.wrun
      RunOK.nil (by simp) (by simp) (by simp) (by simp)
    refine convertRunToEfficient_spec hsp.1 fun x => ?_
    rw [runHas_reverse, hsp.2, a2]
    simp only [runHas_cons, flipR]
    have e : decide (a ≤ x ∧ x ≤ a + (b - a - 1)) = decide (a ≤ x ∧ x < b) := by
      apply decide_eq_decide.2; omega
    rw [e]
    simp [runHas]

/-! ### Equality -/

theorem equalWord_iff (w : Word) (base : Nat) (hb : base + 64 ≤ 65536) (l t : List Nat) :
    equalWord w base l = some t ↔ l = extractWord w base ++ t := by
  fun_induction equalWord w base l with
  | case1 l => rw [extractWord]; simp
  | case2 w hw => rw [extractWord]; simp [hw]
  | case3 w hw v l hne =>
    have := ctz_spec hw
    rw [extractWord, dif_neg hw]
    rw [Nat.mod_eq_of_lt (by omega)] at hne
    simp; omega
  | case4 w hw v l hne ih =>
    have := ctz_spec hw
    rw [Nat.mod_eq_of_lt (by omega)] at hne
    rw [ih, extractWord.eq_def w, dif_neg hw, xor_isolate_eq hw]
    have : v = ctz w + base := by omega
    simp [this]

theorem equalWords_iff (ws : List Word) (i : Nat) (l : List Nat) (hb : i + ws.length ≤ 1024) :
    equalWords i l ws = true ↔ l = extractSetbits ws (i * 64) := by
  induction ws generalizing i l with
  | nil => simp [equalWords, extractSetbits]
  | cons w ws ih =>
    simp only [List.length_cons] at hb
    rw [equalWords, extractSetbits]
    cases h : equalWord w (i * 64) l with
    | none =>
      simp only [Bool.false_eq_true, false_iff]
      intro he
      have := (equalWord_iff w (i * 64) (by omega) l _).2 he
      rw [h] at this; cases this
    | some t =>
      have := (equalWord_iff w (i * 64) (by omega) l t).1 h
      simp only
      rw [ih (i + 1) t (by omega), this, show (i + 1) * 64 = i * 64 + 64 by omega]
      simp

theorem arrayEqualBitset_iff {l : List Nat} {b : Bitset} {s t : NSet} (h1 : Rep (.array l) s)
    (h2 : Rep (.bitset b) t) : arrayEqualBitset l b = true ↔ ∀ x, s x = t x := by
  obtain ⟨a1, a2, a3⟩ := rep_arr_iff h1
  obtain ⟨b1, b2, b3, b4⟩ := rep_bit_iff h2
  have hne : ¬ ∀ x, s x = t x := by
    intro h
    have := h1.card_array
    rw [card_congr (fun x _ => h x)] at this
    omega
  unfold arrayEqualBitset UNKNOWN_CARD
  rw [if_pos (by omega)]
  simpa using hne

theorem rdL_add_le {l : List Nat} (hs : SSorted l) (p j : Nat) (h : p + j < l.length) : rdL l p + j ≤ rdL l (p + j) := by
  induction j with
  | zero => simp
  | succ j ih =>
    have := ih (by omega)
    have := rdL_strict hs (show p + j < p + (j + 1) by omega) h
    omega

theorem rdL_consecutive {l : List Nat} (hs : SSorted l) {p n v : Nat} (h : p + n < l.length) (h1 : rdL l p = v)
    (h2 : rdL l (p + n) = v + n) {j : Nat} (hj : j ≤ n) : rdL l (p + j) = v + j := by
  have e1 := rdL_add_le hs p j (by omega)
  have e2 := rdL_add_le hs (p + j) (n - j) (by omega)
  rw [show p + j + (n - j) = p + n by omega] at e2
  omega

theorem rep_subset_eq {s t : NSet} (hs : ∀ x, s x = true → x < 65536) (ht : ∀ x, t x = true → x < 65536)
    (hc : card 65536 s = card 65536 t) (h : ∀ x, s x = true → t x = true) : ∀ x, s x = t x := by
  intro x
  by_cases hx : x < 65536
  · exact eq_of_card_le (fun y _ => h y) (by omega) x hx
  · have e1 : s x = false := Bool.eq_false_iff.2 fun h => hx (hs x h)
    have e2 : t x = false := Bool.eq_false_iff.2 fun h => hx (ht x h)
    rw [e1, e2]

theorem runEqualsArrayLoop_sub {l : List Nat} (hs : SSorted l) (pos : Nat) (rs : List Rle)
    (hp : pos + runCard rs ≤ l.length) (h : runEqualsArrayLoop l pos rs = true) :
    ∀ x, runHas rs x = true → x ∈ l := by
  induction rs generalizing pos with
  | nil => simp [runHas]
  | cons r rs ih =>
    rw [runCard_cons] at hp
    rw [runEqualsArrayLoop] at h
    by_cases h1 : rdL l pos = r.1
    · by_cases h2 : rdL l (pos + r.2) = r.1 + r.2
      · rw [if_neg (by simpa using h1), if_neg (by simpa using h2)] at h
        intro x hx
        rw [runHas_cons, Bool.or_eq_true, decide_eq_true_eq] at hx
        rcases hx with hx | hx
        · have := rdL_consecutive hs (by omega) h1 h2 (j := x - r.1) (by omega)
          rw [show r.1 + (x - r.1) = x by omega] at this
          rw [← this]; exact rdL_mem (by omega)
        · exact ih _ (by omega) h x hx
      · rw [if_neg (by simpa using h1), if_pos (by simpa using h2)] at h; cases h
    · rw [if_pos (by simpa using h1)] at h; cases h

theorem rdL_append_add (a b : List Nat) (i : Nat) : rdL (a ++ b) (a.length + i) = rdL b i := by
  simp [rdL, List.getD_eq_getElem?_getD, List.getElem?_append_right]

theorem rdL_range' (a n i : Nat) (h : i < n) (t : List Nat) : rdL (List.range' a n ++ t) i = a + i := by
  rw [rdL_eq (by simp; omega), List.getElem_append_left (by simpa using h)]
  simp

theorem runEqualsArrayLoop_values (pre : List Nat) (rs : List Rle) :
    runEqualsArrayLoop (pre ++ runValues rs) pre.length rs = true := by
  induction rs generalizing pre with
  | nil => rfl
  | cons r rs ih =>
    rw [runEqualsArrayLoop, runValues_cons]
    have e0 := rdL_append_add pre (List.range' r.1 (r.2 + 1) ++ runValues rs) 0
    rw [rdL_range' _ _ _ (by omega)] at e0
    have e1 := rdL_append_add pre (List.range' r.1 (r.2 + 1) ++ runValues rs) r.2
    rw [rdL_range' _ _ _ (by omega)] at e1
    rw [if_neg (by simpa using e0), if_neg (by simpa using e1)]
    have := ih (pre ++ List.range' r.1 (r.2 + 1))
    rw [List.append_assoc, List.length_append, List.length_range'] at this
    exact this

theorem runEqualsArray_iff {rs : List Rle} {l : List Nat} {s t : NSet} (h1 : Rep (.run rs) s)
    (h2 : Rep (.array l) t) : runEqualsArray rs l = true ↔ ∀ x, s x = t x := by
  obtain ⟨a1, a2⟩ := rep_run_iff h1
  obtain ⟨b1, b2, b3⟩ := rep_arr_iff h2
  have hcs := card_of_run a1 a2
  have hct := h2.card_array
  unfold runEqualsArray
  split
  · rename_i hne
    simp only [Bool.false_eq_true, false_iff]
    intro h
    rw [card_congr (fun x _ => h x)] at hcs
    omega
  · rename_i heq
    have heq : runCard rs = l.length := by simpa using heq
    constructor
    · intro h
      refine rep_subset_eq (fun x => h1.lt) (fun x => h2.lt) (by omega) fun x hx => ?_
      exact (b2 x).1 (runEqualsArrayLoop_sub b1.sorted 0 rs (by omega) h x (by rw [a2]; exact hx))
    · intro h
      have : l = runValues rs := sorted_ext b1.sorted (runValues_sorted a1) fun x => by
        rw [b2, mem_runValues, a2, h]
      rw [this]
      exact runEqualsArrayLoop_values [] rs

theorem runEqualsBitset_iff {rs : List Rle} {b : Bitset} {s t : NSet} (h1 : Rep (.run rs) s)
    (h2 : Rep (.bitset b) t) : runEqualsBitset rs b = true ↔ ∀ x, s x = t x := by
  obtain ⟨a1, a2⟩ := rep_run_iff h1
  obtain ⟨b1, b2, b3, b4⟩ := rep_bit_iff h2
  have hcs := card_of_run a1 a2
  have hall : (rs.all fun (r : Rle) =>
      if r.2 ≠ 0 then bitsetContainsRange b r.1 (r.1 + r.2 + 1) else bitsetGet b r.1) = true ↔
      ∀ x, s x = true → t x = true := by
    rw [List.all_eq_true]
    constructor
    · intro h x hx
      rw [← a2, runHas_iff] at hx
      obtain ⟨r, hr, h3, h4⟩ := hx
      have hlt := a1.lt r hr
      have := h r hr
      split at this
      · rw [bitsetContainsRange_iff b1.len _ _ (by omega) (by omega)] at this
        rw [← b3]; exact this x h3 (by omega)
      · rw [bitsetGet_eq] at this
        rw [← b3, show x = r.1 by omega]; exact this
    · intro h r hr
      have hlt := a1.lt r hr
      have hin : ∀ x, r.1 ≤ x → x ≤ r.1 + r.2 → bitAt b.words x = true := fun x h3 h4 => by
        rw [b3]; exact h x (by rw [← a2]; exact runHas_iff.2 ⟨r, hr, h3, h4⟩)
      split
      · rw [bitsetContainsRange_iff b1.len _ _ (by omega) (by omega)]
        exact fun x h3 h4 => hin x h3 (by omega)
      · rw [bitsetGet_eq]; exact hin _ (by omega) (by omega)
  unfold runEqualsBitset UNKNOWN_CARD
  simp only
  rw [if_pos (show b.card ≠ -1 by omega)]
  split
  · rename_i hne
    simp only [Bool.false_eq_true, false_iff]
    intro h
    rw [card_congr (fun x _ => h x)] at hcs
    omega
  · rename_i heq
    rw [hall]
    constructor
    · exact fun h => rep_subset_eq (fun x => h1.lt) (fun x => h2.lt) (by omega) h
    · intro h x hx; rw [← h]; exact hx

/-! ### Inclusion -/

theorem card_le_of_subset {s t : NSet} (h : ∀ x, s x = true → t x = true) : card 65536 s ≤ card 65536 t :=
  card_mono fun x _ => h x

theorem arrayIsSubsetBitset_iff {l : List Nat} {b : Bitset} {s t : NSet} (h1 : Rep (.array l) s)
    (h2 : Rep (.bitset b) t) : arrayIsSubsetBitset l b = true ↔ ∀ x, s x = true → t x = true := by
  obtain ⟨a1, a2, a3⟩ := rep_arr_iff h1
  obtain ⟨b1, b2, b3, b4⟩ := rep_bit_iff h2
  unfold arrayIsSubsetBitset UNKNOWN_CARD
  rw [if_neg (by omega), List.all_eq_true]
  constructor
  · intro h x hx
    have := h x ((a2 x).2 hx)
    rwa [bitsetGet_eq, b3] at this
  · intro h x hx
    rw [bitsetGet_eq, b3]; exact h x ((a2 x).1 hx)

theorem runIsSubsetArrayLoop_iff {l : List Nat} (hs : SSorted l) (low : Nat) (rs : List Rle) (h : RunOK rs)
    (hlow : ∀ r ∈ rs, low ≤ lb l r.1) :
    runIsSubsetArrayLoop l low rs = true ↔ ∀ x, runHas rs x = true → x ∈ l := by
  induction rs generalizing low with
  | nil => simp [runIsSubsetArrayLoop, runHas]
  | cons r rs ih =>
    obtain ⟨a, b, c⟩ := runOK_cons.1 h
    have h1 := hlow r (by simp)
    have h2 : lb l r.1 ≤ lb l (r.1 + r.2) := lb_mono (by omega)
    have h3 := lb_le l (r.1 + r.2)
    rw [runIsSubsetArrayLoop]
    rw [advanceFrom_list hs, advanceFrom_list hs, Nat.max_eq_right h1, Nat.max_eq_right (by omega)]
    have key : (∀ x, runHas (r :: rs) x = true → x ∈ l) ↔
        (∀ y, r.1 ≤ y → y < r.1 + (r.2 + 1) → y ∈ l) ∧ ∀ x, runHas rs x = true → x ∈ l := by
      constructor
      · intro hh
        refine ⟨fun y h4 h5 => hh y ?_, fun x hx => hh x ?_⟩
        · rw [runHas_cons, decide_eq_true (by omega)]; rfl
        · rw [runHas_cons, hx, Bool.or_true]
      · rintro ⟨hh1, hh2⟩ x hx
        rw [runHas_cons, Bool.or_eq_true, decide_eq_true_eq] at hx
        rcases hx with hx | hx
        · exact hh1 x hx.1 (by omega)
        · exact hh2 x hx
    rw [key, ← lb_add_eq hs]
    by_cases hstop : (r.1 + r.2) ∈ l
    · have h4 := (mem_iff_rdL_lb hs _).1 hstop
      have h5 := (mem_iff_lb_succ hs _).1 hstop
      rw [if_neg (by omega)]
      split
      · rename_i hc
        simp only [Bool.false_eq_true, false_iff]
        rintro ⟨hh, -⟩
        have hst : r.1 ∈ l := (lb_add_eq hs r.1 (r.2 + 1)).1 hh r.1 (by omega) (by omega)
        have h6 := (mem_iff_rdL_lb hs _).1 hst
        rw [show r.1 + (r.2 + 1) = r.1 + r.2 + 1 by omega, h5] at hh
        rcases hc with hc | hc | hc
        · omega
        · exact hc h6.2
        · exact hc h4.2
      · rename_i hc
        rw [ih _ c (fun q hq => by
          have := b q hq
          have : lb l (r.1 + r.2 + 1) ≤ lb l q.1 := lb_mono (by omega)
          omega)]
        have : lb l (r.1 + (r.2 + 1)) = lb l r.1 + (r.2 + 1) := by
          rw [show r.1 + (r.2 + 1) = r.1 + r.2 + 1 by omega, h5]; omega
        simp [this]
    · have hfalse : ¬ (lb l (r.1 + (r.2 + 1)) = lb l r.1 + (r.2 + 1) ∧ ∀ x, runHas rs x = true → x ∈ l) := by
        rintro ⟨hh, -⟩
        exact hstop ((lb_add_eq hs r.1 (r.2 + 1)).1 hh _ (by omega) (by omega))
      split
      · simp [hfalse]
      · rename_i hlen
        rw [if_pos]
        · simp [hfalse]
        · right; right
          intro he
          exact hstop ((mem_iff_rdL_lb hs _).2 ⟨by omega, he⟩)

theorem runIsSubsetArray_iff {rs : List Rle} {l : List Nat} {s t : NSet} (h1 : Rep (.run rs) s)
    (h2 : Rep (.array l) t) : runIsSubsetArray rs l = true ↔ ∀ x, s x = true → t x = true := by
  obtain ⟨a1, a2⟩ := rep_run_iff h1
  obtain ⟨b1, b2, b3⟩ := rep_arr_iff h2
  have hcs := card_of_run a1 a2
  have hct := h2.card_array
  unfold runIsSubsetArray
  split
  · simp only [Bool.false_eq_true, false_iff]
    intro h
    have := card_le_of_subset h
    omega
  · rw [runIsSubsetArrayLoop_iff b1.sorted 0 rs a1 (fun _ _ => by omega)]
    constructor
    · intro h x hx; exact (b2 x).1 (h x (by rw [a2]; exact hx))
    · intro h x hx; exact (b2 x).2 (h x (by rw [← a2]; exact hx))

theorem arrayIsSubsetRunLoop_iff (l : List Nat) (rs : List Rle) (h : SSorted l) (hr : RunOK rs) :
    arrayIsSubsetRunLoop l rs = true ↔ ∀ x ∈ l, runHas rs x = true := by
  fun_induction arrayIsSubsetRunLoop l rs with
  | case1 => simp
  | case2 v l => simp only [Bool.false_eq_true, false_iff]; intro hh; have := hh v (by simp); simp [runHas] at this
  | case3 v l r rs hv =>
    obtain ⟨a, b, c⟩ := runOK_cons.1 hr
    simp only [Bool.false_eq_true, false_iff]
    intro hh
    have := hh v (by simp)
    rw [runHas_cons, decide_eq_false (by omega), Bool.false_or] at this
    have := has_gt b this; omega
  | case4 v l r rs hv1 hv2 ih =>
    rw [ih h hr.tail]
    have hl := (List.pairwise_cons.1 h).1
    have : ∀ x ∈ v :: l, runHas (r :: rs) x = runHas rs x := by
      intro x hx
      have : v ≤ x := by
        rcases List.mem_cons.1 hx with rfl | hx
        · omega
        · exact Nat.le_of_lt (hl x hx)
      rw [runHas_cons, decide_eq_false (by omega), Bool.false_or]
    exact ⟨fun h x hx => by rw [this x hx]; exact h x hx, fun h x hx => by rw [← this x hx]; exact h x hx⟩
  | case5 v l r rs hv1 hv2 ih =>
    rw [ih (List.pairwise_cons.1 h).2 hr]
    have : runHas (r :: rs) v = true := by rw [runHas_cons, decide_eq_true (by omega)]; rfl
    simp [this]

theorem arrayIsSubsetRun_iff {l : List Nat} {rs : List Rle} {s t : NSet} (h1 : Rep (.array l) s)
    (h2 : Rep (.run rs) t) : arrayIsSubsetRun l rs = true ↔ ∀ x, s x = true → t x = true := by
  obtain ⟨a1, a2⟩ := rep_run_iff h2
  obtain ⟨b1, b2, b3⟩ := rep_arr_iff h1
  have hcs := card_of_run a1 a2
  have hct := h1.card_array
  unfold arrayIsSubsetRun
  split
  · simp only [Bool.false_eq_true, false_iff]
    intro h
    have := card_le_of_subset h
    omega
  · rw [arrayIsSubsetRunLoop_iff l rs b1.sorted a1]
    constructor
    · intro h x hx; rw [← a2]; exact h x ((b2 x).2 hx)
    · intro h x hx; rw [a2]; exact h x ((b2 x).1 hx)

theorem runIsSubsetBitset_iff {rs : List Rle} {b : Bitset} {s t : NSet} (h1 : Rep (.run rs) s)
    (h2 : Rep (.bitset b) t) : runIsSubsetBitset rs b = true ↔ ∀ x, s x = true → t x = true := by
  obtain ⟨a1, a2⟩ := rep_run_iff h1
  obtain ⟨b1, b2, b3, b4⟩ := rep_bit_iff h2
  have hcs := card_of_run a1 a2
  unfold runIsSubsetBitset UNKNOWN_CARD
  simp only
  rw [if_pos (show b.card ≠ -1 by omega)]
  split
  · simp only [Bool.false_eq_true, false_iff]
    intro h
    have := card_le_of_subset h
    omega
  · rw [List.all_eq_true]
    constructor
    · intro h x hx
      rw [← a2, runHas_iff] at hx
      obtain ⟨r, hr, h3, h4⟩ := hx
      have := List.all_eq_true.1 (h r hr) x (by rw [List.mem_range'_1]; omega)
      rwa [bitsetGet_eq, b3] at this
    · intro h r hr
      rw [List.all_eq_true]
      intro x hx
      rw [List.mem_range'_1] at hx
      rw [bitsetGet_eq, b3]
      exact h x (by rw [← a2]; exact runHas_iff.2 ⟨r, hr, by omega, by omega⟩)

theorem subsetRunWord_spec (w : Word) (base : Nat) (hb : base + 64 ≤ 65536) (rs : List Rle) (T : List Nat) :
    (subsetRunWord w base rs = none → arrayIsSubsetRunLoop (extractWord w base ++ T) rs = false) ∧
    ∀ w' rs', subsetRunWord w base rs = some (w', rs') →
      arrayIsSubsetRunLoop (extractWord w base ++ T) rs = arrayIsSubsetRunLoop (extractWord w' base ++ T) rs' ∧
      (w' ≠ 0#64 → rs' = []) := by
  fun_induction subsetRunWord w base rs with
  | case1 rs => refine ⟨by simp, fun w' rs' h => ?_⟩; simp only [Option.some.injEq, Prod.mk.injEq] at h; obtain ⟨rfl, rfl⟩ := h; simp
  | case2 w hw => refine ⟨by simp, fun w' rs' h => ?_⟩; simp only [Option.some.injEq, Prod.mk.injEq] at h; obtain ⟨rfl, rfl⟩ := h; simp
  | case3 w hw r rs v hv =>
    have := ctz_spec hw
    refine ⟨fun _ => ?_, by simp⟩
    rw [extractWord, dif_neg hw, List.cons_append, arrayIsSubsetRunLoop, if_pos]
    have hv' : (base + ctz w) % 65536 = base + ctz w := Nat.mod_eq_of_lt (by omega)
    omega
  | case4 w hw r rs v hv1 hv2 ih =>
    have := ctz_spec hw
    have hv : (base + ctz w) % 65536 = base + ctz w := Nat.mod_eq_of_lt (by omega)
    have e : arrayIsSubsetRunLoop (extractWord w base ++ T) (r :: rs) = arrayIsSubsetRunLoop (extractWord w base ++ T) rs := by
      rw [extractWord, dif_neg hw, List.cons_append, arrayIsSubsetRunLoop.eq_def _ (r :: rs)]
      simp only
      rw [if_neg (by omega), if_pos (by omega)]
    rw [e]; exact ih
  | case5 w hw r rs v hv1 hv2 ih =>
    have := ctz_spec hw
    have hv : (base + ctz w) % 65536 = base + ctz w := Nat.mod_eq_of_lt (by omega)
    have e : arrayIsSubsetRunLoop (extractWord w base ++ T) (r :: rs) =
        arrayIsSubsetRunLoop (extractWord (w ^^^ (w &&& (~~~w + 1#64))) base ++ T) (r :: rs) := by
      rw [xor_isolate_eq hw, extractWord.eq_def w, dif_neg hw, List.cons_append, arrayIsSubsetRunLoop.eq_def (_ :: _) (r :: rs)]
      simp only
      rw [if_neg (by omega), if_neg (by omega)]
    rw [e]; exact ih

theorem extractSetbits_eq_nil (ws : List Word) (base : Nat) :
    extractSetbits ws base = [] ↔ (ws.all fun w => w == 0#64) = true := by
  induction ws generalizing base with
  | nil => simp [extractSetbits]
  | cons w ws ih =>
    rw [extractSetbits, List.append_eq_nil_iff, ih, List.all_cons, Bool.and_eq_true]
    have : extractWord w base = [] ↔ (w == 0#64) = true := by
      rw [extractWord]; by_cases h : w = 0#64 <;> simp [h]
    rw [this]

theorem subsetRunLoop_nil (l : List Nat) : arrayIsSubsetRunLoop l [] = true ↔ l = [] := by
  cases l with
  | nil => simp [arrayIsSubsetRunLoop]
  | cons v l => simp [arrayIsSubsetRunLoop]

theorem subsetRunWords_eq (ws : List Word) (i : Nat) (rs : List Rle) (hb : i + ws.length ≤ 1024) :
    subsetRunWords i rs ws = arrayIsSubsetRunLoop (extractSetbits ws (i * 64)) rs := by
  induction ws generalizing i rs with
  | nil => rw [subsetRunWords, extractSetbits, arrayIsSubsetRunLoop]
  | cons w ws ih =>
    simp only [List.length_cons] at hb
    rw [subsetRunWords.eq_def]
    cases rs with
    | nil =>
      simp only
      rw [Bool.eq_iff_iff, subsetRunLoop_nil, extractSetbits_eq_nil]
    | cons r rs =>
      simp only
      have hsp := subsetRunWord_spec w (i * 64) (by omega) (r :: rs) (extractSetbits ws (i * 64 + 64))
      rw [extractSetbits]
      cases h : subsetRunWord w (i * 64) (r :: rs) with
      | none => simp only; exact (hsp.1 h).symm
      | some q =>
        obtain ⟨w', rs'⟩ := q
        obtain ⟨e1, e2⟩ := hsp.2 w' rs' h
        simp only
        rw [e1]
        by_cases hw : w' = 0#64
        · rw [if_pos hw, hw, ih (i + 1) rs' (by omega), show (i + 1) * 64 = i * 64 + 64 by omega, extractWord]; simp
        · rw [if_neg hw, e2 hw, extractWord, dif_neg hw, List.cons_append, arrayIsSubsetRunLoop]

theorem bitsetIsSubsetRun_iff {b : Bitset} {rs : List Rle} {s t : NSet} (h1 : Rep (.bitset b) s)
    (h2 : Rep (.run rs) t) : bitsetIsSubsetRun b rs = true ↔ ∀ x, s x = true → t x = true := by
  obtain ⟨a1, a2⟩ := rep_run_iff h2
  obtain ⟨b1, b2, b3, b4⟩ := rep_bit_iff h1
  have hcs := card_of_run a1 a2
  unfold bitsetIsSubsetRun UNKNOWN_CARD
  split
  · simp only [Bool.false_eq_true, false_iff]
    intro h
    have := card_le_of_subset h
    omega
  · rw [subsetRunWords_eq _ _ _ (by rw [b1.len]; omega), arrayIsSubsetRunLoop_iff _ _ (extractSetbits_sorted _ _) a1]
    constructor
    · intro h x hx
      rw [← a2]; exact h x (by rw [mem_extractSetbits]; exact ⟨by omega, by simpa [b3] using hx⟩)
    · intro h x hx
      rw [mem_extractSetbits] at hx
      rw [a2]; exact h x (by rw [← b3]; simpa using hx.2)

end CRoaring
