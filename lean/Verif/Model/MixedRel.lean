import Verif.Model.MixedDiff

/-! Model of `src/containers/mixed_negation.c`, `src/containers/mixed_equal.c` and
`src/containers/mixed_subset.c`. -/

namespace CRoaring

/-! ### Negation -/

/-- `array_container_negation`: `src/containers/mixed_negation.c:32-43`. -/
def arrayNegation (l : List Nat) : Bitset :=
  if l.length = 0 then bitsetSetAll
  else
    let (ws, c) := bitsetClearList bitsetSetAll.words 65536 l
    ⟨c, ws⟩

/-- The two loops `src/containers/mixed_negation.c:138-148` of `array_container_negation_range`: the
values stored for `n` values from `val` on.  Once `in_pos` has passed `last_index` the first loop is
over and the second one stores everything. -/
def negationLoop (l : List Nat) (last_index : Int) (val : Nat) : Nat → Nat → List Nat
  | 0, _ => []
  | n + 1, in_pos =>
    if (in_pos : Int) ≤ last_index then
      if val % 65536 ≠ rdL l in_pos then val % 65536 :: negationLoop l last_index (val + 1) n in_pos
      else negationLoop l last_index (val + 1) n (in_pos + 1)
    else val % 65536 :: negationLoop l last_index (val + 1) n in_pos

/-- `array_container_negation_range`: `src/containers/mixed_negation.c:97-154`
(in place: `:160-169`, which calls it and frees its input). -/
def arrayNegationRange (l : List Nat) (range_start range_end : Nat) : Container :=
  if range_start ≥ range_end then .array l
  else
    let si := binarySearch (rdL l) l.length (range_start % 65536)
    let start_index := if si < 0 then -si - 1 else si
    let li := binarySearch (rdL l) l.length ((range_end - 1) % 65536)
    let last_index := if li < 0 then -li - 2 else li
    let current_values_in_range := last_index - start_index + 1
    let span_to_be_flipped : Int := (range_end : Int) - range_start
    let new_values_in_range := span_to_be_flipped - current_values_in_range
    let cardinality_change := new_values_in_range - current_values_in_range
    let new_cardinality := (l.length : Int) + cardinality_change
    if new_cardinality > DEFAULT_MAX_SIZE then
      .bitset ⟨new_cardinality, bitsetFlipRange (bitsetFromArray l).words range_start range_end⟩
    else if new_cardinality = 0 then .array []
    else
      .array ((l.take start_index.toNat ++
        negationLoop l last_index range_start (range_end - range_start) start_index.toNat ++
        l.drop (last_index + 1).toNat).take new_cardinality.toNat)

/-- `bitset_container_negation_range`: `src/containers/mixed_negation.c:182-203`
(in place: `:212-227`); the full-range version (`:52-55`, `:66-69`) calls it with `0, 65536`. -/
def bitsetNegationRange (b : Bitset) (range_start range_end : Nat) : Container :=
  let ws := bitsetFlipRange b.words range_start range_end
  let t : Bitset := ⟨computeCard ws, ws⟩
  if t.card > DEFAULT_MAX_SIZE then .bitset t else .array (arrayFromBitset t)

/-- `run_container_negation_range`: `src/containers/mixed_negation.c:235-265`; the full-range version
(`:77-79`, `:88-90`) calls it with `0, 65536`.  The in-place version (`:274-346`) appends the same runs
in the same order, over its own input with a one-run buffer; see `Model/RunMem`. -/
def runNegationRange (rs : List Rle) (range_start range_end : Nat) : Container :=
  if range_end ≤ range_start then .run rs
  else
    let pre := rs.takeWhile fun (r : Rle) => decide (r.1 < range_start)
    let rest := rs.dropWhile fun (r : Rle) => decide (r.1 < range_start)
    let ans := smartAppend pre.reverse (range_start % 65536) (u16 ((range_end : Int) - range_start - 1))
    convertRunToEfficient (rest.foldl (fun acc (r : Rle) => smartAppend acc r.1 r.2) ans).reverse

/-! ### Equality -/

/-- The `while (w != 0)` loop of `array_container_equal_bitset`, `src/containers/mixed_equal.c:20-31`.
The list is the unread part of the array; `none` is `return false`. -/
def equalWord (w : Word) (base : Nat) (l : List Nat) : Option (List Nat) :=
  if _h : w = 0#64 then some l
  else
    match l with
    | [] => none
    | v :: l => if v ≠ (base + ctz w) % 65536 then none else equalWord (w ^^^ (w &&& (~~~w + 1#64))) base l
termination_by w.toNat
decreasing_by exact xorLowest_lt _h

/-- The outer loop of `array_container_equal_bitset`, `src/containers/mixed_equal.c:18-33`. -/
def equalWords (i : Nat) (l : List Nat) : List Word → Bool
  | [] => l.length == 0
  | w :: ws =>
    match equalWord w (i * 64) l with
    | none => false
    | some l => equalWords (i + 1) l ws

/-- `array_container_equal_bitset`: `src/containers/mixed_equal.c:9-33`. -/
def arrayEqualBitset (l : List Nat) (b : Bitset) : Bool :=
  if b.card ≠ UNKNOWN_CARD ∧ b.card ≠ l.length then false else equalWords 0 l b.words

/-- The loop of `run_container_equals_array`, `src/containers/mixed_equal.c:40-53`. -/
def runEqualsArrayLoop (l : List Nat) (pos : Nat) : List Rle → Bool
  | [] => true
  | r :: rs =>
    if rdL l pos ≠ r.1 then false
    else if rdL l (pos + r.2) ≠ r.1 + r.2 then false
    else runEqualsArrayLoop l (pos + (r.2 + 1)) rs

/-- `run_container_equals_array`: `src/containers/mixed_equal.c:35-55`. -/
def runEqualsArray (rs : List Rle) (l : List Nat) : Bool :=
  if runCard rs ≠ l.length then false else runEqualsArrayLoop l 0 rs

/-- `run_container_equals_bitset`: `src/containers/mixed_equal.c:57-82`. -/
def runEqualsBitset (rs : List Rle) (b : Bitset) : Bool :=
  let bitset_card : Int := if b.card ≠ UNKNOWN_CARD then b.card else computeCard b.words
  if bitset_card ≠ runCard rs then false
  else rs.all fun (r : Rle) =>
    if r.2 ≠ 0 then bitsetContainsRange b r.1 (r.1 + r.2 + 1) else bitsetGet b r.1

/-! ### Inclusion -/

/-- `array_container_is_subset_bitset`: `src/containers/mixed_subset.c:10-23`. -/
def arrayIsSubsetBitset (l : List Nat) (b : Bitset) : Bool :=
  if b.card ≠ UNKNOWN_CARD ∧ b.card < l.length then false else l.all fun v => bitsetGet b v

/-- The loop of `run_container_is_subset_array`, `src/containers/mixed_subset.c:30-45`.
`low` is `stop_pos + 1`. -/
def runIsSubsetArrayLoop (l : List Nat) (low : Nat) : List Rle → Bool
  | [] => true
  | r :: rs =>
    let start := r.1
    let stop := start + r.2
    let start_pos := advanceFrom (rdL l) low l.length start
    let stop_pos := advanceFrom (rdL l) low l.length stop
    if stop_pos = l.length then false
    else if (stop_pos : Int) - start_pos ≠ (stop : Int) - start ∨ rdL l start_pos ≠ start ∨ rdL l stop_pos ≠ stop then false
    else runIsSubsetArrayLoop l (stop_pos + 1) rs

/-- `run_container_is_subset_array`: `src/containers/mixed_subset.c:25-46`. -/
def runIsSubsetArray (rs : List Rle) (l : List Nat) : Bool :=
  if runCard rs > l.length then false else runIsSubsetArrayLoop l 0 rs

/-- The loop of `array_container_is_subset_run`, `src/containers/mixed_subset.c:53-68`. -/
def arrayIsSubsetRunLoop : List Nat → List Rle → Bool
  | [], _ => true
  | _ :: _, [] => false
  | v :: l, r :: rs =>
    if v < r.1 then false
    else if v > r.1 + r.2 then arrayIsSubsetRunLoop (v :: l) rs
    else arrayIsSubsetRunLoop l (r :: rs)
termination_by l rs => l.length + rs.length

/-- `array_container_is_subset_run`: `src/containers/mixed_subset.c:48-69`. -/
def arrayIsSubsetRun (l : List Nat) (rs : List Rle) : Bool :=
  if l.length > runCard rs then false else arrayIsSubsetRunLoop l rs

/-- `run_container_is_subset_bitset`: `src/containers/mixed_subset.c:71-95`. -/
def runIsSubsetBitset (rs : List Rle) (b : Bitset) : Bool :=
  let card : Int := if b.card ≠ UNKNOWN_CARD then b.card else computeCard b.words
  if card < runCard rs then false
  else rs.all fun (r : Rle) => (List.range' r.1 (r.2 + 1)).all fun j => bitsetGet b j

/-- The inner loop of `bitset_container_is_subset_run`, `src/containers/mixed_subset.c:110-123`: the
final `w` and the runs from `i_run` on; `none` is `return false`. -/
def subsetRunWord (w : Word) (base : Nat) (rs : List Rle) : Option (Word × List Rle) :=
  if _h : w = 0#64 then some (w, rs)
  else
    match rs with
    | [] => some (w, [])
    | r :: rs =>
      let v := (base + ctz w) % 65536
      if v < r.1 then none
      else if v > r.1 + r.2 then subsetRunWord w base rs
      else subsetRunWord (w ^^^ (w &&& (~~~w + 1#64))) base (r :: rs)
termination_by (rs.length, w.toNat)
decreasing_by
  · apply Prod.Lex.left; simp
  · apply Prod.Lex.right; exact xorLowest_lt _h

/-- The outer loops of `bitset_container_is_subset_run`, `src/containers/mixed_subset.c:107-138`. -/
def subsetRunWords (i : Nat) (rs : List Rle) : List Word → Bool
  | [] => true
  | w :: ws =>
    match rs with
    | [] => (w :: ws).all fun w => w == 0#64
    | r :: rs =>
      match subsetRunWord w (i * 64) (r :: rs) with
      | none => false
      | some (w, rs) => if w = 0#64 then subsetRunWords (i + 1) rs ws else false

/-- `bitset_container_is_subset_run`: `src/containers/mixed_subset.c:97-139`. -/
def bitsetIsSubsetRun (b : Bitset) (rs : List Rle) : Bool :=
  if b.card ≠ UNKNOWN_CARD ∧ b.card > runCard rs then false else subsetRunWords 0 rs b.words

end CRoaring
