import Verif.Lemmas.RunMem4
import Verif.RunBufSpec
/-! The meaning of a buffer of runs, in terms of its list of runs. -/
set_option linter.unusedSimpArgs false
set_option linter.unusedVariables false
namespace CRoaring
open Spec

theorem runAt_holds {b : RunBuf} {v : List Rle} (h : Holds b v) {i : Nat} (hi : i < v.length) : runAt b.mem i = v[i] := by
  obtain ⟨rest, rfl⟩ := h
  simp [runAt, List.getD, hi, List.getElem?_append_left]

theorem isRunSet_iff {b : RunBuf} {s : NSet} : IsRunSet b s ↔ ∃ v, Holds b v ∧ RunOK v ∧ ∀ x, runHas v x = s x := by
  constructor
  · intro h
    have hb : Holds b b.vals := holds_iff.2 ⟨h.inside, rfl⟩
    have hn := hb.n
    refine ⟨b.vals, hb, ⟨?_, ?_⟩, ?_⟩
    · rw [List.pairwise_iff_getElem]
      intro i j hi hj hij
      have := h.apart i j hij (by omega)
      rwa [runAt_holds hb hi, runAt_holds hb hj] at this
    · intro r hr
      obtain ⟨i, hi, rfl⟩ := List.getElem_of_mem hr
      have := h.range i (by omega)
      rwa [runAt_holds hb hi] at this
    · intro x
      rw [Bool.eq_iff_iff, h.has]
      simp only [runHas, List.any_eq_true, decide_eq_true_eq]
      constructor
      · rintro ⟨r, hr, hx⟩
        obtain ⟨i, hi, rfl⟩ := List.getElem_of_mem hr
        exact ⟨i, by omega, by rw [runAt_holds hb hi]; exact hx⟩
      · rintro ⟨i, hi, hx⟩
        rw [hn] at hi
        rw [runAt_holds hb hi] at hx
        exact ⟨_, List.getElem_mem hi, hx⟩
  · rintro ⟨v, hb, hv, hs⟩
    have hn := hb.n
    refine ⟨by have := hb.le; omega, ?_, ?_, ?_⟩
    · intro i j hij hj
      rw [hn] at hj
      rw [runAt_holds hb hj, runAt_holds hb (show i < v.length by omega)]
      exact List.pairwise_iff_getElem.1 hv.gap i j (by omega) hj hij
    · intro i hi
      rw [hn] at hi
      rw [runAt_holds hb hi]
      exact hv.lt _ (List.getElem_mem hi)
    · intro x
      rw [← hs]
      simp only [runHas, List.any_eq_true, decide_eq_true_eq]
      constructor
      · rintro ⟨r, hr, hx⟩
        obtain ⟨i, hi, rfl⟩ := List.getElem_of_mem hr
        exact ⟨i, by omega, by rw [runAt_holds hb hi]; exact hx⟩
      · rintro ⟨i, hi, hx⟩
        rw [hn] at hi
        rw [runAt_holds hb hi] at hx
        exact ⟨_, List.getElem_mem hi, hx⟩

theorem isRunSet_of {b : RunBuf} {v : List Rle} {s : NSet} (h : Holds b v) (hv : RunOK v ∧ ∀ x, runHas v x = s x) : IsRunSet b s :=
  isRunSet_iff.2 ⟨v, h, hv.1, hv.2⟩

theorem ne_nil_of_has {v : List Rle} {s : NSet} (h : ∀ x, runHas v x = s x) (hx : ∃ x, s x = true) : v ≠ [] := by
  rintro rfl
  obtain ⟨x, hx⟩ := hx
  rw [← h] at hx
  cases hx

theorem runAddRangeCounted_spec {fresh : Nat → List Rle} (hf : Fresh fresh) {b : RunBuf} {v : List Rle} (h : Holds b v) (hv : RunOK v)
    {mn mx : Nat} (hm : mn ≤ mx) (hx : mx < 65536) :
    ∃ o v', runAddRangeCounted fresh b mn mx = .ok o ∧ Holds o v' ∧ RunOK v' ∧ ∀ y, runHas v' y = (runHas v y || decide (mn ≤ y ∧ y ≤ mx)) := by
  have hl := run_length_le hv
  obtain ⟨A, B, C, e, -, -, -, hg, hless⟩ := addRange_split hv hm
  rw [runAddRangeCounted, h.vals, h.n, Nat.mod_eq_of_lt hx, Nat.mod_eq_of_lt (show mn < 65536 by omega)]
  have e1 : (rle16CountGreater v v.length mx).toNat = C.length := by rw [hg]; rfl
  have e2 : (rle16CountLess v (v.length - C.length) mn).toNat = A.length := by rw [hless]; rfl
  rw [e1, e2]
  obtain ⟨o, eo, go⟩ := runAddRangeBuf_spec hf h (by omega) mn mx A.length C.length (by rw [e]; simp <;> omega)
  have hsp := runAddRange_spec hv hm hx (ng := C.length) (nl := A.length) hg.symm hless.symm
  exact ⟨o, _, eo, go, hsp.1, hsp.2⟩

theorem runFromArrayBuf_spec {fresh : Nat → List Rle} (hf : Fresh fresh) {l : List Nat} (hl : ArrOK l) :
    ∃ o, runFromArrayBuf fresh l = .ok o ∧ Holds o (runFromArray l) := by
  rw [runFromArrayBuf, runFromArray]
  split
  · exact ⟨_, rfl, holds_create _ _⟩
  · rename_i hne
    have hne' : l ≠ [] := fun q => hne (by rw [q]; rfl)
    obtain ⟨o, e, g⟩ := fromArrayBufLoop_spec l (-2) (-1) (runCreateBuf fresh (arrayNumberOfRuns (-2) l)) []
      ⟨holds_create _ _, by rw [runFromArrayLoop_length_top hne']; simp [runCreateBuf]; rw [hf]; omega⟩
    exact ⟨o, e, by simpa using g⟩

theorem runFromBitsetBuf_spec {fresh : Nat → List Rle} (hf : Fresh fresh) {b : Bitset} (hb : b.words.length = 1024) :
    ∃ o, runFromBitsetBuf fresh b = .ok o ∧ Holds o (bitsetToRun b.words) := by
  obtain ⟨hok, hset⟩ := bitsetToRun_spec hb
  have hl := run_length_le hok
  have hcount : (bitsetToRun b.words).length = bitsetNumberOfRuns b := by
    rw [runLength_eq hok, bitsetNumberOfRuns_eq hb]
    unfold runEnds
    exact card_congr fun x _ => by rw [hset, hset]
  obtain ⟨o, e, g⟩ := fromBitsetBufLoop_spec 65537 (wd b.words 0) 0 (b.words.drop 1) (runCreateBuf fresh (bitsetNumberOfRuns b)) []
    (by show (bitsetToRun b.words).length < 65537; omega)
    ⟨holds_create _ _, by show 0 + (bitsetToRun b.words).length ≤ _; rw [hcount]; simp [runCreateBuf]; rw [hf]; omega⟩
  exact ⟨o, e, g⟩

end CRoaring
