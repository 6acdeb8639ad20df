import Verif.Lemmas.Extract2
import Verif.Lemmas.Query2
set_option linter.unusedSimpArgs false
set_option linter.unusedVariables false
/-
Enumeration into memory: bitmaps, pages, conversion of bitsets to arrays.
-/
namespace CRoaring
open Spec

theorem containerToMem_over (hw : Hw) {c : Container} {s : NSet} (h : Rep c s) {base : Nat} (hb : base + 65536 ≤ 4294967296)
    (mem : List Nat) (pos : Nat) (hfit : pos + (containerToUint32 base c).length ≤ mem.length) :
    containerToMem hw base c mem pos = .ok (over mem pos (containerToUint32 base c), pos + (containerToUint32 base c).length) := by
  have heq := containerToUint32_eq h hb
  cases c with
  | bitset b =>
    have h2 := rep_bit_iff h
    have hlen : (extractSetbits b.words base).length = card 65536 (bitAt b.words) := by
      have := congrArg List.length (bitsetToUint32_eq h2.1.len base)
      rw [List.length_map] at this
      exact this
    simp only [containerToUint32, bitsetToUint32] at hfit heq ⊢
    show bitsetToMem hw b base mem pos = _
    rw [bitsetToMem_over hw b base mem pos (by rw [hlen]; exact h2.1.card) hfit]
    have hid : (extractSetbits b.words base).map (· % 4294967296) = extractSetbits b.words base := by
      conv => rhs; rw [← List.map_id (extractSetbits b.words base)]
      refine List.map_congr_left fun x hx => ?_
      rw [heq] at hx
      obtain ⟨y, hy, rfl⟩ := List.mem_map.1 hx
      have := (mem_enum.1 hy).1
      exact Nat.mod_eq_of_lt (by omega)
    rw [hid]
  | array l =>
    simp only [containerToUint32, arrayToUint32] at hfit ⊢
    rw [List.length_map] at hfit ⊢
    show arrayToMem hw l base mem pos = _
    rw [arrayToMem_over hw l base mem pos hfit]
    congr 1
  | run rs =>
    exact runToMem_over hw base rs mem pos hfit

theorem rbToMem_over (hw : Hw) : ∀ (r : Bitmap) (_ : BInv r) (mem : List Nat) (pos : Nat), pos + (rbToUint32 r).length ≤ mem.length →
    rbToMem hw r mem pos = .ok (over mem pos (rbToUint32 r), pos + (rbToUint32 r).length) := by
  intro r
  induction r with
  | nil => intro _ mem pos h; simp [rbToMem, rbToUint32, over_nil]
  | cons p t ih =>
    intro hr mem pos h
    obtain ⟨k, c⟩ := p
    have hx : rbToUint32 ((k, c) :: t) = containerToUint32 (k <<< 16) c ++ rbToUint32 t := by
      simp [rbToUint32]
    rw [hx] at h ⊢
    rw [List.length_append] at h
    have hk := hr.1
    rw [rbToMem, containerToMem_over hw hr.2.1.1.rep (by rw [shl16]; omega) mem pos (by omega), ok_bind]
    simp only
    rw [ih hr.2.2.2 _ _ (by rw [over_length (by omega)]; omega), over_over (by omega), List.length_append, Nat.add_assoc]

/-! ### Pages -/

/-- The states of the two models of the loop: the buffer has the values written and then zeros. -/
def RangeSim (limit : Nat) (st : RangeSt) (st' : RangeMemSt) : Prop :=
  st'.ctr = st.ctr ∧ st'.dtr = st.out.length ∧
  ((st.skip = none ∧ st'.buf = none ∧ st.out = [] ∧ st'.log = []) ∨
    ∃ s buf, st.skip = some s ∧ st'.buf = some (buf, s) ∧ st.out.length ≤ st.curLen ∧
      buf = st.out ++ List.replicate (st.curLen - st.out.length) 0 ∧ s + limit ≤ st.curLen ∧
      ∃ k, st'.log = .hookMalloc :: (List.replicate k [MemEv.hookMalloc, .hookFree]).flatten)

theorem pad_grow {out : List Nat} {cur tl : Nat} (h : out.length ≤ cur) :
    over (List.replicate (cur + tl) 0) 0 out = out ++ List.replicate (cur + tl - out.length) 0 := by
  unfold over
  rw [List.take_zero, List.nil_append, Nat.zero_add, List.drop_replicate]

theorem rangeMemBuf_spec {offset limit tl : Nat} {st : RangeSt} {st' : RangeMemSt} (h : RangeSim limit st st') :
    ∃ buf log k, rangeMemBuf offset limit tl st' = .ok (buf, st.skip.getD (offset - st.ctr), log) ∧
      buf = st.out ++ List.replicate ((let cur := match st.skip with | none => st.skip.getD (offset - st.ctr) + limit | some _ => st.curLen
        if st.out.length + tl > cur then cur + tl else cur) - st.out.length) 0 ∧
      log = .hookMalloc :: (List.replicate k [MemEv.hookMalloc, .hookFree]).flatten := by
  obtain ⟨h1, h2, h3⟩ := h
  unfold rangeMemBuf
  rcases h3 with ⟨a, b, c, d⟩ | ⟨s, buf, a, b, c, d, e, k, f⟩
  · rw [a, b]
    simp only [Option.getD_none, h1, h2, c, List.length_nil, Nat.zero_add, List.length_replicate, Nat.sub_zero, List.nil_append, d]
    by_cases hg : tl > offset - st.ctr + limit
    · rw [if_pos hg, if_pos hg]
      refine ⟨List.replicate (offset - st.ctr + limit + tl) 0, _, 1, ?_, rfl, rfl⟩
      simp [readN, storeu, ok_bind]
    · rw [if_neg hg, if_neg hg]
      exact ⟨_, _, 0, rfl, rfl, rfl⟩
  · rw [a, b]
    have hl : buf.length = st.curLen := by rw [d, List.length_append, List.length_replicate]; omega
    simp only [Option.getD_some, h2, hl]
    by_cases hg : st.out.length + tl > st.curLen
    · rw [if_pos hg, if_pos hg]
      have hr : readN buf 0 st.out.length = .ok st.out := by
        unfold readN
        rw [if_pos (by omega), List.drop_zero, d, List.take_left]
      rw [hr, ok_bind, storeu_over (by rw [List.length_replicate]; omega), ok_bind, pad_grow c]
      refine ⟨_, _, k + 1, rfl, rfl, ?_⟩
      rw [f, List.replicate_succ', List.flatten_append]
      simp
    · rw [if_neg hg, if_neg hg]
      exact ⟨_, _, k, rfl, d, f⟩

theorem rangeMemStep_sim {hw : Hw} {offset limit : Nat} {k : Nat} {c : Container} {V : List Nat} {st : RangeSt} {st' : RangeMemSt}
    (htl : (containerCard c).toNat = V.length) (hu : containerToUint32 (k <<< 16) c = V)
    (hmem : ∀ mem pos, pos + V.length ≤ mem.length → containerToMem hw (k <<< 16) c mem pos = .ok (over mem pos V, pos + V.length))
    (h : RangeSim limit st st') :
    ∃ st2, rangeMemStep hw offset limit st' k c = .ok st2 ∧ RangeSim limit (rangeStep offset limit st k c) st2 := by
  unfold rangeMemStep rangeStep
  simp only [htl, hu]
  have h1 := h.1
  have h2 := h.2.1
  rw [h1]
  by_cases hc : st.ctr + V.length - 1 ≥ offset ∧ st.ctr < offset + limit
  · rw [if_pos hc, if_pos hc]
    obtain ⟨buf, log, n, e, eb, el⟩ := rangeMemBuf_spec (offset := offset) (tl := V.length) h
    rw [e, ok_bind]
    simp only
    have hcur : ∃ cur, (let cur := match st.skip with | none => st.skip.getD (offset - st.ctr) + limit | some _ => st.curLen
        if st.out.length + V.length > cur then cur + V.length else cur) = cur ∧ st.out.length + V.length ≤ cur ∧
        st.skip.getD (offset - st.ctr) + limit ≤ cur := by
      refine ⟨_, rfl, ?_⟩
      rcases h.2.2 with ⟨a, b, c, d⟩ | ⟨s, buf, a, b, c, d, e, k, f⟩
      · rw [a, c]
        simp only [Option.getD_none, List.length_nil]
        split <;> omega
      · rw [a]
        simp only [Option.getD_some]
        split <;> omega
    obtain ⟨cur, hcur, hfit, hlim⟩ := hcur
    rw [hcur] at eb
    have hl : buf.length = cur := by rw [eb, List.length_append, List.length_replicate]; omega
    rw [h2, hmem buf st.out.length (by omega), ok_bind]
    refine ⟨_, rfl, rfl, by simp only [List.length_append], Or.inr ⟨st.skip.getD (offset - st.ctr), over buf st.out.length V, rfl, rfl, ?_, ?_, ?_, n, el⟩⟩
    · show (st.out ++ V).length ≤ _
      rw [List.length_append]
      refine Nat.le_trans hfit (Nat.le_of_eq hcur.symm)
    · show over buf st.out.length V = st.out ++ V ++ List.replicate (_ - (st.out ++ V).length) 0
      rw [eb]
      unfold over
      rw [List.take_left, List.drop_append, List.drop_of_length_le (by omega), List.nil_append, List.drop_replicate]
      congr 2
      rw [List.length_append]
      have : cur - st.out.length - (st.out.length + V.length - st.out.length) = cur - (st.out.length + V.length) := by omega
      rw [this, ← hcur]
      rfl
    · exact Nat.le_trans hlim (Nat.le_of_eq hcur.symm)
  · rw [if_neg hc, if_neg hc]
    refine ⟨_, rfl, ?_⟩
    exact ⟨rfl, h.2.1, h.2.2⟩

theorem rangeMemLoop_sim {hw : Hw} {offset limit : Nat} : ∀ (t : Bitmap) (_ : BInv t) (st : RangeSt) (st' : RangeMemSt), RangeSim limit st st' →
    ∃ st2, rangeMemLoop hw offset limit st' t = .ok st2 ∧ RangeSim limit (rangeLoop offset limit st t) st2 := by
  intro t
  induction t with
  | nil => intro _ st st' h; exact ⟨st', rfl, h⟩
  | cons p t ih =>
    intro hr st st' h
    obtain ⟨k, c⟩ := p
    have hcr := hr.2.1.1.rep
    have hk := hr.1
    have hb : k <<< 16 + 65536 ≤ 4294967296 := by rw [shl16]; omega
    have htl : (containerCard c).toNat = (containerToUint32 (k <<< 16) c).length := by
      rw [containerCard_eq hcr, containerToUint32_eq hcr hb, List.length_map]
      exact Int.toNat_natCast _
    obtain ⟨st2, e, hs⟩ := rangeMemStep_sim (hw := hw) (offset := offset) htl rfl (fun mem pos hfit => containerToMem_over hw hcr hb mem pos hfit) h
    rw [rangeMemLoop, e, ok_bind, rangeLoop]
    have hsk : (∃ n : Nat, rangeMemSkip st2 = n ∧ (rangeStep offset limit st k c).skip.getD 0 = n) := by
      obtain ⟨h1, h2, h3⟩ := hs
      unfold rangeMemSkip
      rcases h3 with ⟨a, b, c, d⟩ | ⟨s, buf, a, b, c, d, e, k, f⟩
      · rw [a, b]; exact ⟨0, rfl, rfl⟩
      · rw [a, b]; exact ⟨s, rfl, rfl⟩
    obtain ⟨n, hn1, hn2⟩ := hsk
    rw [hn2, hn1, hs.2.1]
    by_cases hx : u64 (((rangeStep offset limit st k c).out.length : Int) - (n : Nat)) ≥ limit
    · rw [if_pos hx, if_pos hx]
      exact ⟨st2, rfl, hs⟩
    · rw [if_neg hx, if_neg hx]
      exact ih hr.2.2.2 _ st2 hs

/-- The page written into the caller's array; and the calls of the memory functions. -/
theorem rangeMem_over (hw : Hw) {r : Bitmap} (hr : BInv r) (offset limit : Nat) (ans : List Nat) (ha : limit ≤ ans.length) :
    (rangeLoop offset limit { ctr := 0, out := [], curLen := 0, skip := none } r).skip = none ∧ rangeMem hw r offset limit ans = .ok (ans, []) ∧ rbRangeUint32 r offset limit = [] ∨
    (rangeLoop offset limit { ctr := 0, out := [], curLen := 0, skip := none } r).skip ≠ none ∧
      ∃ k, rangeMem hw r offset limit ans
        = .ok (over ans 0 (rbRangeUint32 r offset limit), (MemEv.hookMalloc :: (List.replicate k [MemEv.hookMalloc, .hookFree]).flatten) ++ [.libcFree]) ∧
        (rbRangeUint32 r offset limit).length = limit := by
  obtain ⟨st2, e, hs⟩ := rangeMemLoop_sim (hw := hw) (offset := offset) (limit := limit) r hr { ctr := 0, out := [], curLen := 0, skip := none }
    { ctr := 0, dtr := 0, buf := none, log := [] } ⟨rfl, rfl, Or.inl ⟨rfl, rfl, rfl, rfl⟩⟩
  unfold rangeMem rbRangeUint32
  rw [e, ok_bind]
  simp only
  generalize rangeLoop offset limit { ctr := 0, out := [], curLen := 0, skip := none } r = st at hs ⊢
  obtain ⟨h1, h2, ⟨a, b, c, d⟩ | ⟨s, buf, a, b, c, d, e, k, f⟩⟩ := hs
  · refine Or.inl ⟨a, ?_, by rw [a]⟩
    unfold rangeMemEnd
    rw [b, d]
  · refine Or.inr ⟨by rw [a]; simp, k, ?_, ?_⟩
    · have hl : buf.length = st.curLen := by rw [d, List.length_append, List.length_replicate]; omega
      unfold rangeMemEnd
      rw [b, a]
      simp only
      have hr2 : readN buf s limit = .ok ((buf.drop s).take limit) := by
        unfold readN
        rw [if_pos (by omega)]
      rw [hr2, ok_bind, storeu_over (by rw [List.length_take, List.length_drop]; omega), ok_bind, f, d]
    · rw [a]
      simp only [List.length_take, List.length_drop, List.length_append, List.length_replicate]
      omega

/-! ### Bitset to array -/

theorem arrayFromBitsetMem_spec (hw : Hw) {b : Bitset} (hb : BitOK b) {fresh : Nat → List Nat} (hf : ∀ n, (fresh n).length = n) :
    arrayFromBitsetMem hw fresh b = .ok (arrayFromBitset b, (arrayFromBitset b).length) := by
  have hlen : (extractSetbits b.words 0).length = card 65536 (bitAt b.words) := by
    rw [extractSetbits_enum, hb.len]
    rfl
  have hc := hb.card
  have hcn : b.card.toNat = (extractSetbits b.words 0).length := by omega
  have hid : (extractSetbits b.words 0).map (· % 65536) = extractSetbits b.words 0 := by
    conv => rhs; rw [← List.map_id (extractSetbits b.words 0)]
    refine List.map_congr_left fun x hx => ?_
    rw [extractSetbits_enum, hb.len] at hx
    exact Nat.mod_eq_of_lt (mem_enum.1 hx).1
  have hfit : (extractSetbits b.words 0).length ≤ (fresh b.card.toNat).length := by rw [hf]; omega
  have hov : over (fresh b.card.toNat) 0 (extractSetbits b.words 0) = extractSetbits b.words 0 := by
    unfold over
    rw [List.take_zero, List.nil_append, List.drop_of_length_le (by rw [hf]; omega), List.append_nil]
  have harr : arrayFromBitset b = extractSetbits b.words 0 := by
    unfold arrayFromBitset
    rw [List.take_of_length_le (by omega)]
  rw [harr]
  unfold arrayFromBitsetMem
  split
  · obtain ⟨mem', pos', e, f⟩ := extractAvx512u16_spec b.words (fresh b.card.toNat) 0 b.card.toNat 0 (by rw [hf]; omega)
    rw [hid, List.take_of_length_le (by omega)] at f
    obtain ⟨h1, h2⟩ := f.over (by omega) (by rw [hf]; omega)
    rw [e, h1, h2, hov, Nat.zero_add]
  · rw [extractScalarMem_over _ _ _ _ (by omega), hid, hov, Nat.zero_add]

end CRoaring
