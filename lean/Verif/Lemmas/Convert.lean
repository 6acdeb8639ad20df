import Verif.Model.Convert
import Verif.Lemmas.Bitset3
import Verif.Lemmas.Run5
set_option linter.unusedSimpArgs false
set_option linter.unusedVariables false
/- Correctness of the conversions between container types. -/
namespace CRoaring
open Spec

/-- The values in a container. -/
def chas : Container → Nat → Bool
  | .bitset b, x => bitAt b.words x
  | .array l, x => decide (x ∈ l)
  | .run rs, x => runHas rs x

/-- The invariant of containers between operations (emptiness allowed). -/
def CInv : Container → Prop
  | .bitset b => BitOK b ∧ 4096 < b.card
  | .array l => ArrOK l ∧ l.length ≤ 4096
  | .run rs => RunOK rs

/-- Container `c` is well formed and represents the set `s`. -/
structure Rep (c : Container) (s : NSet) : Prop where
  inv : CInv c
  has : ∀ x, chas c x = s x

theorem CInv.rep {c : Container} (h : CInv c) : Rep c (chas c) := ⟨h, fun _ => rfl⟩

theorem Rep.congr {c : Container} {s t : NSet} (h : Rep c s) (e : ∀ x, s x = t x) : Rep c t :=
  ⟨h.inv, fun x => (h.has x).trans (e x)⟩

theorem chas_lt {c : Container} (h : CInv c) {x : Nat} (hx : chas c x = true) : x < 65536 := by
  cases c with
  | bitset b => exact bitAt_lt h.1.len hx
  | array l => exact h.1.lt x (by simpa [chas] using hx)
  | run rs => exact RunOK.has_lt h hx

theorem Rep.lt {c : Container} {s : NSet} (h : Rep c s) {x : Nat} (hx : s x = true) : x < 65536 :=
  chas_lt h.inv (by rw [h.has]; exact hx)

theorem card_int_congr {n : Nat} {s t : NSet} (h : ∀ x, x < n → s x = t x) : ((card n s : Nat) : Int) = (card n t : Nat) :=
  congrArg (fun k : Nat => (k : Int)) (card_congr h)

theorem rep_array {l : List Nat} {s : NSet} (h : ArrOK l) (hs : ∀ x, x ∈ l ↔ s x = true)
    (hl : l.length ≤ 4096) : Rep (.array l) s :=
  ⟨⟨h, hl⟩, fun x => by simp only [chas]; rw [Bool.eq_iff_iff, ← hs]; simp⟩

theorem card_ofList_iff {l : List Nat} {s : NSet} (h : ArrOK l) (hs : ∀ x, x ∈ l ↔ s x = true) :
    card 65536 s = l.length := by
  rw [← h.card]; apply card_congr; intro x _; rw [Bool.eq_iff_iff, ← hs]; simp [ofList]

theorem rep_array' {l : List Nat} {s : NSet} (h : ArrOK l) (hs : ∀ x, x ∈ l ↔ s x = true)
    (hl : card 65536 s ≤ 4096) : Rep (.array l) s :=
  rep_array h hs (by rw [← card_ofList_iff h hs]; exact hl)

theorem rep_bitset {ws : List Word} {c : Int} {s : NSet} (hl : ws.length = 1024)
    (hs : ∀ x, bitAt ws x = s x) (hc : c = card 65536 s) (h4 : 4096 < c) : Rep (.bitset ⟨c, ws⟩) s :=
  ⟨⟨⟨hl, by simp only; rw [hc]; exact card_int_congr fun x _ => (hs x).symm⟩, h4⟩, hs⟩

theorem arrayFromBitset_eq {ws : List Word} {c : Int} (hl : ws.length = 1024)
    (hc : c = card 65536 (bitAt ws)) : arrayFromBitset ⟨c, ws⟩ = enum 65536 (bitAt ws) := by
  unfold arrayFromBitset
  simp only
  rw [extractSetbits_enum, hl]
  have : c.toNat = card 65536 (bitAt ws) := by rw [hc]; exact Int.toNat_natCast _
  rw [this]
  show (enum 65536 (bitAt ws)).take (enum 65536 (bitAt ws)).length = _
  rw [List.take_length]

theorem enum_arrOK (s : NSet) : ArrOK (enum 65536 s) :=
  ⟨enum_sorted _ _, fun x hx => (mem_enum.1 hx).1⟩

theorem bitset_lt_of {ws : List Word} {s : NSet} (hl : ws.length = 1024) (hs : ∀ x, bitAt ws x = s x)
    {x : Nat} (hx : s x = true) : x < 65536 := bitAt_lt hl (by rw [hs]; exact hx)

theorem rep_arrayFromBitset {ws : List Word} {c : Int} {s : NSet} (hl : ws.length = 1024)
    (hs : ∀ x, bitAt ws x = s x) (hc : c = card 65536 s) (h4 : c ≤ 4096) :
    Rep (.array (arrayFromBitset ⟨c, ws⟩)) s := by
  have e : card 65536 (bitAt ws) = card 65536 s := card_congr fun x _ => hs x
  rw [arrayFromBitset_eq hl (by rw [hc, e])]
  refine rep_array' (enum_arrOK _) (fun x => ?_) (by omega)
  rw [mem_enum, hs]
  exact ⟨fun h => h.2, fun h => ⟨bitset_lt_of hl hs h, h⟩⟩

/-- The pattern "keep as bitset when larger than 4096, else convert to an array". -/
theorem rep_shrink {ws : List Word} {c : Int} {s : NSet} (hl : ws.length = 1024)
    (hs : ∀ x, bitAt ws x = s x) (hc : c = card 65536 s) :
    Rep (if c ≤ 4096 then .array (arrayFromBitset ⟨c, ws⟩) else .bitset ⟨c, ws⟩) s := by
  split
  · exact rep_arrayFromBitset hl hs hc (by assumption)
  · exact rep_bitset hl hs hc (by omega)

theorem rep_run {rs : List Rle} {s : NSet} (h : RunOK rs) (hs : ∀ x, runHas rs x = s x) : Rep (.run rs) s :=
  ⟨h, hs⟩

theorem rep_arr_iff {l : List Nat} {s : NSet} (h : Rep (.array l) s) :
    ArrOK l ∧ (∀ x, x ∈ l ↔ s x = true) ∧ l.length ≤ 4096 :=
  ⟨h.inv.1, fun x => by rw [← h.has x]; simp [chas], h.inv.2⟩

theorem Rep.card_array {l : List Nat} {s : NSet} (h : Rep (.array l) s) : card 65536 s = l.length :=
  card_ofList_iff (rep_arr_iff h).1 (rep_arr_iff h).2.1

/-! ### from_array, from_run -/

theorem foldl_bitsetSet (l : List Nat) (b : Bitset) (h : BitOK b) (hl : ∀ p ∈ l, p < 65536) :
    BitOK (l.foldl bitsetSet b) ∧ ∀ x, bitAt (l.foldl bitsetSet b).words x = (decide (x ∈ l) || bitAt b.words x) := by
  induction l generalizing b with
  | nil => exact ⟨h, by simp⟩
  | cons p l ih =>
    simp only [List.foldl_cons]
    obtain ⟨h1, h2, _⟩ := bitsetAdd_spec h (hl p (by simp))
    rw [bitsetSet_eq]
    obtain ⟨h3, h4⟩ := ih (bitsetAdd b p).1 h1 (fun q hq => hl q (by simp [hq]))
    refine ⟨h3, fun x => ?_⟩
    rw [h4, h2]
    simp only [List.mem_cons]
    by_cases hx : x = p <;> by_cases hm : x ∈ l <;> simp [hx, hm]

theorem bitsetFromArray_spec {l : List Nat} (hl : ∀ p ∈ l, p < 65536) :
    BitOK (bitsetFromArray l) ∧ ∀ x, bitAt (bitsetFromArray l).words x = decide (x ∈ l) := by
  obtain ⟨h1, h2⟩ := foldl_bitsetSet l bitsetCreate bitsetCreate_ok hl
  refine ⟨h1, fun x => ?_⟩
  show bitAt (l.foldl bitsetSet bitsetCreate).words x = _
  rw [h2]
  show (_ || bitAt zeros x) = _
  rw [bitAt_zeros]; simp

@[simp] theorem setLenrange_len (ws : List Word) (s l : Nat) : (bitsetSetLenrange ws s l).length = ws.length := by
  simp

theorem setRuns_length (ws : List Word) (rs : List Rle) : (setRuns ws rs).length = ws.length := by
  unfold setRuns
  induction rs generalizing ws with
  | nil => rfl
  | cons r rs ih => rw [List.foldl_cons, ih]; simp

theorem bitAt_setRuns (ws : List Word) (rs : List Rle) (x : Nat) (h : ∀ r ∈ rs, r.1 + r.2 < 64 * ws.length) :
    bitAt (setRuns ws rs) x = (runHas rs x || bitAt ws x) := by
  unfold setRuns
  induction rs generalizing ws with
  | nil => simp [runHas]
  | cons r rs ih =>
    rw [List.foldl_cons, ih _ (by simpa using fun a b hb => h (a, b) (by simp [hb])), bitAt_setLenrange _ _ _ _ (h r (by simp)),
      runHas_cons]
    cases runHas rs x <;> simp

theorem setRunRanges_length (ws : List Word) (rs : List Rle) : (setRunRanges ws rs).length = ws.length := by
  unfold setRunRanges
  induction rs generalizing ws with
  | nil => rfl
  | cons r rs ih => rw [List.foldl_cons, ih]; simp

theorem bitAt_setRunRanges (ws : List Word) (rs : List Rle) (x : Nat) (h : ∀ r ∈ rs, r.1 + r.2 < 64 * ws.length) :
    bitAt (setRunRanges ws rs) x = (runHas rs x || bitAt ws x) := by
  unfold setRunRanges
  induction rs generalizing ws with
  | nil => simp [runHas]
  | cons r rs ih =>
    rw [List.foldl_cons, ih _ (by simpa using fun a b hb => h (a, b) (by simp [hb])),
      bitAt_setRange _ _ _ _ (by omega) (by have := h r (by simp); omega), runHas_cons]
    have : (r.1 ≤ x ∧ x < r.1 + r.2 + 1) ↔ (r.1 ≤ x ∧ x ≤ r.1 + r.2) := by omega
    simp only [this]
    cases runHas rs x <;> simp

theorem zeros_length : zeros.length = 1024 := List.length_replicate

theorem runOK_lt_zeros {rs : List Rle} (h : RunOK rs) : ∀ r ∈ rs, r.1 + r.2 < 64 * zeros.length := by
  intro r hr; rw [zeros_length]; exact h.lt r hr

theorem bitsetFromRun_spec {rs : List Rle} (h : RunOK rs) :
    BitOK (bitsetFromRun rs) ∧ ∀ x, bitAt (bitsetFromRun rs).words x = runHas rs x := by
  have hb : ∀ x, bitAt (setRuns zeros rs) x = runHas rs x := fun x => by
    rw [bitAt_setRuns _ _ _ (runOK_lt_zeros h), bitAt_zeros]; simp
  refine ⟨⟨?_, ?_⟩, hb⟩
  · show (setRuns zeros rs).length = _; rw [setRuns_length, zeros_length]
  · show ((runCard rs : Nat) : Int) = _
    rw [← card_runHas' h]; exact card_int_congr fun x _ => (hb x).symm

theorem arrayFromRun_eq {rs : List Rle} (h : RunOK rs) : arrayFromRun rs = runValues rs := by
  unfold arrayFromRun runValues
  induction rs with
  | nil => rfl
  | cons r rs ih =>
    rw [List.flatMap_cons, List.flatMap_cons, ih h.tail, range'_map_mod _ _ (by have := h.lt r (by simp); omega)]

theorem runValues_arrOK {rs : List Rle} (h : RunOK rs) : ArrOK (runValues rs) :=
  ⟨runValues_sorted h, fun x hx => h.has_lt (mem_runValues.1 hx)⟩

theorem runCells_eq {r : Rle} (h : r.1 + r.2 < 65536) : runCells r = List.range' r.1 (r.2 + 1) := by
  unfold runCells
  rw [u16_eq (n := r.1 + r.2) (by omega) h, List.range'_concat]
  simp

theorem flatMap_runCells {rs : List Rle} (h : RunOK rs) : rs.flatMap runCells = runValues rs := by
  unfold runValues
  induction rs with
  | nil => rfl
  | cons r rs ih => rw [List.flatMap_cons, List.flatMap_cons, ih h.tail, runCells_eq (h.lt r (by simp))]

theorem rep_runValues {rs : List Rle} {s : NSet} (h : RunOK rs) (hs : ∀ x, runHas rs x = s x)
    (hc : runCard rs ≤ 4096) : Rep (.array (runValues rs)) s :=
  rep_array (runValues_arrOK h) (fun x => by rw [mem_runValues, hs]) (by rw [runValues_length]; exact hc)

theorem card_of_run {rs : List Rle} {s : NSet} (h : RunOK rs) (hs : ∀ x, runHas rs x = s x) :
    card 65536 s = runCard rs := by
  rw [← card_runHas' h]; exact card_congr fun x _ => (hs x).symm

theorem convertToBitsetOrArray_spec {rs : List Rle} {s : NSet} (h : RunOK rs) (hs : ∀ x, runHas rs x = s x) :
    Rep (convertToBitsetOrArray rs (runCard rs)) s := by
  unfold convertToBitsetOrArray DEFAULT_MAX_SIZE
  split
  · rw [flatMap_runCells h]; exact rep_runValues h hs (by assumption)
  · refine rep_bitset (by rw [setRuns_length, zeros_length]) (fun x => ?_) (by rw [card_of_run h hs]) (by omega)
    rw [bitAt_setRuns _ _ _ (runOK_lt_zeros h), bitAt_zeros, hs]; simp

theorem convertRunToEfficient_spec {rs : List Rle} {s : NSet} (h : RunOK rs) (hs : ∀ x, runHas rs x = s x) :
    Rep (convertRunToEfficient rs) s := by
  unfold convertRunToEfficient DEFAULT_MAX_SIZE
  simp only
  by_cases h1 : runSerializedSize rs.length ≤
      (if bitsetSerializedSize < arraySerializedSize (runCard rs) then bitsetSerializedSize
        else arraySerializedSize (runCard rs))
  · rw [if_pos h1]; exact rep_run h hs
  · rw [if_neg h1]
    split
    · rw [arrayFromRun_eq h]; exact rep_runValues h hs (by assumption)
    · refine rep_bitset (by rw [setRunRanges_length, zeros_length]) (fun x => ?_) (by rw [card_of_run h hs]) (by omega)
      rw [bitAt_setRunRanges _ _ _ (runOK_lt_zeros h), bitAt_zeros, hs]; simp

/-! ### Array to run -/

theorem mkRun_eq {s e : Nat} (h : s ≤ e) (he : e < 65536) : mkRun s e = (s, e - s) := by
  unfold mkRun
  rw [u16_nat (by omega), u16_eq (n := e - s) (by omega) (by omega)]

theorem runFromArrayLoop_spec (l : List Nat) (prev rs : Nat) (h1 : rs ≤ prev) (hp : prev < 65536)
    (h : ArrOK l) (hgt : ∀ v ∈ l, prev < v) :
    RunOK (runFromArrayLoop prev rs l) ∧
    (∀ x, runHas (runFromArrayLoop prev rs l) x = (decide (rs ≤ x ∧ x ≤ prev) || decide (x ∈ l))) ∧
    (∀ r ∈ runFromArrayLoop prev rs l, rs ≤ r.1) := by
  induction l generalizing prev rs with
  | nil =>
    unfold runFromArrayLoop
    rw [mkRun_eq h1 hp]
    refine ⟨runOK_cons.2 ⟨by simp only; omega, by simp, RunOK.nil⟩, fun x => ?_, by simp⟩
    simp only [runHas, List.any_cons, List.any_nil, Bool.or_false, List.not_mem_nil, decide_false]
    rw [decide_eq_decide]; omega
  | cons v l ih =>
    have hv := h.lt v (by simp)
    have hpv := hgt v (by simp)
    have hvl : ∀ w ∈ l, v < w := (List.pairwise_cons.1 h.sorted).1
    unfold runFromArrayLoop
    by_cases h2 : (v : Int) ≠ prev + 1
    · rw [if_pos h2, if_pos (by omega), mkRun_eq h1 hp]
      obtain ⟨i1, i2, i3⟩ := ih v v (by omega) hv h.tail hvl
      refine ⟨runOK_cons.2 ⟨by simp only; omega, fun b hb => ?_, i1⟩, fun x => ?_, ?_⟩
      · have := i3 b hb; simp only; omega
      · rw [runHas_cons, i2]
        simp only [List.mem_cons]
        bgrind
      · intro r hr
        rcases List.mem_cons.1 hr with rfl | hr
        · simp
        · have := i3 r hr; omega
    · rw [if_neg h2]
      obtain ⟨i1, i2, i3⟩ := ih v rs (by omega) hv h.tail hvl
      refine ⟨i1, fun x => ?_, i3⟩
      rw [i2]
      simp only [List.mem_cons]
      have : v = prev + 1 := by omega
      bgrind

theorem runFromArrayLoop_top {l : List Nat} (h : ArrOK l) (hne : l ≠ []) :
    RunOK (runFromArrayLoop (-2) (-1) l) ∧
    ∀ x, runHas (runFromArrayLoop (-2) (-1) l) x = decide (x ∈ l) := by
  cases l with
  | nil => exact absurd rfl hne
  | cons v l =>
    have hv := h.lt v (by simp)
    unfold runFromArrayLoop
    rw [if_pos (by omega), if_neg (by simp)]
    obtain ⟨i1, i2, i3⟩ := runFromArrayLoop_spec l v v (by omega) hv h.tail (List.pairwise_cons.1 h.sorted).1
    refine ⟨i1, fun x => ?_⟩
    rw [i2]
    simp only [List.mem_cons]
    bgrind

theorem runFromArray_spec {l : List Nat} (h : ArrOK l) :
    RunOK (runFromArray l) ∧ ∀ x, runHas (runFromArray l) x = decide (x ∈ l) := by
  unfold runFromArray
  cases l with
  | nil => exact ⟨RunOK.nil, by simp [runHas]⟩
  | cons v l => rw [if_neg (by simp)]; exact runFromArrayLoop_top h (by simp)

end CRoaring
