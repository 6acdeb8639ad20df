import Verif.Lemmas.Extract3
import Verif.Props.C18
/-
C99, C100: the values of a bitmap written into the caller's array, as the x64 build does it, with AVX-512, with AVX2 or without them; the
memory functions called meanwhile.
-/
namespace CRoaring.Props
open CRoaring

/-- C99: `to_uint32_array(r, out)` on any processor: it stays inside `out` if that has room for the cardinality, writes the contained values,
each once, in increasing order, and leaves the cells behind them as they were. -/
theorem C99_to_uint32_array (hw : Hw) {r : Bitmap} (h : Valid r) {out : List Nat} (hroom : rbCardinality r ≤ out.length) :
    ∃ vs, rbToMem hw r out 0 = .ok (vs ++ out.drop vs.length, vs.length) ∧ vs.Pairwise (· < ·) ∧ (∀ v, v ∈ vs ↔ rbContains r v = true) ∧
      vs.length = rbCardinality r := by
  have h22 := C22_to_uint32_array h
  refine ⟨rbToUint32 r, ?_, h22.1, h22.2.1, h22.2.2⟩
  rw [rbToMem_over hw r h.inv out 0 (by rw [h22.2.2]; omega), Nat.zero_add]
  unfold over
  rw [List.take_zero, List.nil_append, Nat.zero_add]

/-- C99: `range_uint32_array(r, offset, limit, ans)` on any processor stays inside `ans` if that has room for `limit` values (and inside
its own buffer); cell `i` of the page gets the value at position `offset + i` of the sorted enumeration, or 0 behind its end, if `offset` is
below the cardinality; every other cell is left as it was. -/
theorem C99_range_uint32_array (hw : Hw) {r : Bitmap} (h : Valid r) {offset limit : Nat} (hol : offset + limit < 2 ^ 64) {ans : List Nat}
    (hroom : limit ≤ ans.length) :
    ∃ ans' log, rangeMem hw r offset limit ans = .ok (ans', log) ∧ ans'.length = ans.length ∧
      ∀ i, i < ans.length → ans'[i]? = if i < limit ∧ offset < rbCardinality r then some ((rbToUint32 r)[offset + i]?.getD 0) else ans[i]? := by
  have h23 := C23_range_uint32_array h hol
  rcases rangeMem_over hw h.inv offset limit ans hroom with ⟨hs, e, hnil⟩ | ⟨hs, k, e, hlen⟩
  · refine ⟨_, _, e, rfl, fun i hi => ?_⟩
    rw [if_neg]
    rintro ⟨h1, h2⟩
    rw [hnil, if_pos h2] at h23
    have := congrArg List.length h23
    simp only [List.length_nil, List.length_take, List.length_append, List.length_replicate] at this
    omega
  · refine ⟨_, _, e, over_length (by omega), fun i hi => ?_⟩
    unfold over
    rw [List.take_zero, List.nil_append, hlen, Nat.zero_add]
    by_cases hil : i < limit
    · rw [List.getElem?_append_left (by omega)]
      by_cases ho : offset < rbCardinality r
      · rw [if_pos ⟨hil, ho⟩, h23, if_pos ho, List.getElem?_take_of_lt hil]
        by_cases hx : offset + i < (rbToUint32 r).length
        · rw [List.getElem?_append_left (by rw [List.length_drop]; omega), List.getElem?_drop, List.getElem?_eq_getElem hx]
          rfl
        · rw [List.getElem?_append_right (by rw [List.length_drop]; omega), List.getElem?_replicate_of_lt (by rw [List.length_drop]; omega),
            List.getElem?_eq_none (by omega)]
          rfl
      · rw [h23, if_neg ho] at hlen
        simp only [List.length_nil] at hlen
        omega
    · rw [if_neg (fun hh => hil hh.1), List.getElem?_append_right (by omega), hlen, List.getElem?_drop]
      congr 1
      omega

/-- C99, the conversion of a bitset container to an array container (`bitset_container` with the cached cardinality right): inside the
new buffer of `cardinality` cells, whatever they held. -/
theorem C99_array_from_bitset (hw : Hw) {b : Bitset} (hlen : b.words.length = 1024) (hcard : b.card = (Spec.card 65536 (bitAt b.words) : Nat))
    {fresh : Nat → List Nat} (hf : ∀ n, (fresh n).length = n) :
    ∃ vs, arrayFromBitsetMem hw fresh b = .ok (vs, vs.length) ∧ vs.Pairwise (· < ·) ∧ ∀ v, v ∈ vs ↔ v < 65536 ∧ bitAt b.words v = true := by
  have hb : BitOK b := ⟨hlen, hcard⟩
  refine ⟨_, arrayFromBitsetMem_spec hw hb hf, ?_, ?_⟩
  all_goals
    have harr : arrayFromBitset b = Spec.enum 65536 (bitAt b.words) := by
      have hl : (extractSetbits b.words 0).length = Spec.card 65536 (bitAt b.words) := by
        rw [extractSetbits_enum, hb.len]
        rfl
      unfold arrayFromBitset
      rw [List.take_of_length_le (by omega), extractSetbits_enum, hb.len]
    rw [harr]
  · exact enum_sorted _ _
  · intro v
    exact mem_enum

/-- C99 is false of `bitset_extract_setbits_sse_uint16`, which no function of the library calls: it tests for room for 16 values and then
writes up to 64 of them. -/
theorem C99_sse_uint16_out_of_bounds :
    ∃ (ws : List Word) (out : List Nat), extractSse16 ws out 0 out.length 0 = .oob :=
  ⟨[BitVec.allOnes 64, BitVec.allOnes 64], List.replicate 100 0, by decide +kernel⟩

/-- What an application that sets the memory functions relies on: what they allocated for the time of a call goes back to them, and nothing
is given to another allocator. -/
def Returned (log : List MemEv) : Prop := log.count .hookMalloc = log.count .hookFree ∧ MemEv.libcFree ∉ log

/-- C100 fails: `range_uint32_array` of a page with at least one value gives its buffer, made by the application's `malloc`, to `free` of the
C library.  What holds: a page behind the last value takes no memory. -/
theorem C100_memory_hooks_partial (hw : Hw) {r : Bitmap} (h : Valid r) {offset limit : Nat} (hol : offset + limit < 2 ^ 64) (hl : 0 < limit)
    {ans : List Nat} (hroom : limit ≤ ans.length) :
    ∃ ans' log, rangeMem hw r offset limit ans = .ok (ans', log) ∧ (Returned log ↔ rbCardinality r ≤ offset) := by
  have h23 := C23_range_uint32_array h hol
  rcases rangeMem_over hw h.inv offset limit ans hroom with ⟨hs, e, hnil⟩ | ⟨hs, k, e, hlen⟩
  · refine ⟨_, _, e, fun _ => ?_, fun _ => ⟨rfl, by simp⟩⟩
    refine Nat.le_of_not_lt fun ho => ?_
    rw [hnil, if_pos ho] at h23
    have := congrArg List.length h23
    simp only [List.length_nil, List.length_take, List.length_append, List.length_replicate] at this
    omega
  · refine ⟨_, _, e, fun hr => ?_, fun ho => ?_⟩
    · exact absurd (List.mem_append_right _ (List.mem_singleton.2 rfl)) hr.2
    · rw [h23, if_neg (by omega)] at hlen
      simp only [List.length_nil] at hlen
      omega

/-! ### The hypotheses are met -/

example : Valid exB ∧ rbCardinality exB ≤ (List.replicate (rbCardinality exB + 3) 7).length := ⟨exB_valid, by simp⟩
example : rbToMem ⟨true, false⟩ exS (List.replicate 30 7) 0 = rbToMem ⟨false, false⟩ exS (List.replicate 30 7) 0 ∧
    rbToMem ⟨true, true⟩ exS (List.replicate 30 7) 0 =
      .ok ([1, 5, 65535, 131082, 131083, 131084, 131085, 131086, 131087, 131088, 131089, 131090, 131091, 131092, 131093, 131094, 131095,
        131096, 131097, 131098, 131099, 131100, 131101, 131102, 131172, 7, 7, 7, 7, 7], 25) := by decide +kernel
example : rangeMem ⟨true, true⟩ exS 23 4 [7, 7, 7, 7, 7] = .ok ([131102, 131172, 0, 0, 7], [.hookMalloc, .libcFree]) ∧
    rangeMem ⟨true, false⟩ exS 1 3 [7, 7, 7, 7, 7] = .ok ([5, 65535, 131082, 7, 7], [.hookMalloc, .hookMalloc, .hookFree, .libcFree]) ∧
    rangeMem ⟨false, false⟩ exS 25 4 [7, 7, 7, 7, 7] = .ok ([7, 7, 7, 7, 7], []) := by decide +kernel
example : ∃ b : Bitset, b.words.length = 1024 ∧ b.card = (Spec.card 65536 (bitAt b.words) : Nat) :=
  ⟨{ words := List.replicate 1024 (BitVec.allOnes 64), card := (Spec.card 65536 (bitAt (List.replicate 1024 (BitVec.allOnes 64))) : Nat) },
    List.length_replicate, rfl⟩

end CRoaring.Props
