import Verif.Model.MixedUnion

/-! Model of `src/containers/mixed_andnot.c` and `src/containers/mixed_xor.c`.

The `i…` variants of both files compute the same values as the plain ones and differ only in which
buffer they reuse or free; those that have code of their own are cited next to the plain function. -/

namespace CRoaring

/-- `if (card <= DEFAULT_MAX_SIZE) array_container_from_bitset(..)`, the ending shared by the functions
of both files, e.g. `src/containers/mixed_andnot.c:65-72`. -/
def bitsetOrArray (b : Bitset) : Container :=
  if b.card ≤ DEFAULT_MAX_SIZE then .array (arrayFromBitset b) else .bitset b

/-- `array_bitset_container_andnot`: `src/containers/mixed_andnot.c:24-39` (`iandnot`: `:44-47`). -/
def arrayBitsetAndnot (l : List Nat) (b : Bitset) : List Nat := l.filter fun key => !bitsetGet b key

/-- `bitset_array_container_andnot`: `src/containers/mixed_andnot.c:54-74` (`iandnot`: `:83-96`). -/
def bitsetArrayAndnot (b : Bitset) (l : List Nat) : Container :=
  let (ws, c) := bitsetClearList b.words b.card l
  bitsetOrArray ⟨c, ws⟩

/-- The loop `src/containers/mixed_andnot.c:127-137` of `run_bitset_container_andnot`. -/
def flipRunsResetGaps (ws : List Word) (last_pos : Nat) : List Rle → List Word
  | [] => bitsetResetRange ws last_pos 65536
  | r :: rs =>
    let start := r.1
    let end_ := start + r.2 + 1
    flipRunsResetGaps (bitsetFlipRange (bitsetResetRange ws last_pos start) start end_) end_ rs

/-- `run_bitset_container_andnot`: `src/containers/mixed_andnot.c:104-150` (`iandnot`: `:159-166`). -/
def runBitsetAndnot (rs : List Rle) (b : Bitset) : Container :=
  if runCard rs ≤ DEFAULT_MAX_SIZE then
    .array ((rs.flatMap fun (r : Rle) => (List.range' r.1 (r.2 + 1)).filter fun v => !bitsetGet b v).map (· % 65536))
  else
    let ws := flipRunsResetGaps b.words 0 rs
    bitsetOrArray ⟨computeCard ws, ws⟩

/-- The loop `src/containers/mixed_andnot.c:182-186`. -/
def resetRuns (ws : List Word) (rs : List Rle) : List Word :=
  rs.foldl (fun ws (r : Rle) => bitsetResetRange ws r.1 (r.1 + r.2 + 1)) ws

/-- `bitset_run_container_andnot`: `src/containers/mixed_andnot.c:175-196` (`iandnot`: `:205-223`). -/
def bitsetRunAndnot (b : Bitset) (rs : List Rle) : Container :=
  let ws := resetRuns b.words rs
  bitsetOrArray ⟨computeCard ws, ws⟩

/-- Inner loop of `run_array_array_subtract`, `src/containers/mixed_andnot.c:260-267`: `n` values from
`i` on; returns the values kept and the last `in_array_pos`. -/
def subtractRun (l : List Nat) (i : Nat) : Nat → Nat → Nat → List Nat × Nat
  | 0, _, pos => ([], pos)
  | n + 1, next, pos =>
    if i ≠ next then
      let r := subtractRun l (i + 1) n next pos
      (i % 65536 :: r.1, r.2)
    else if pos + 1 ≥ l.length then subtractRun l (i + 1) n 0 pos
    else subtractRun l (i + 1) n (rdL l (pos + 1)) (pos + 1)

/-- `run_array_array_subtract`: `src/containers/mixed_andnot.c:233-272`.  `low` is `in_array_pos + 1`. -/
def runArrayArraySubtract (l : List Nat) (low : Nat) : List Rle → List Nat
  | [] => []
  | r :: rs =>
    let start := r.1
    let end_ := start + r.2 + 1
    let pos := advanceFrom (rdL l) low l.length start
    if pos ≥ l.length then
      (List.range' start (end_ - start)).map (· % 65536) ++ runArrayArraySubtract l (pos + 1) rs
    else
      let next := rdL l pos
      if next ≥ end_ then
        (List.range' start (end_ - start)).map (· % 65536) ++ runArrayArraySubtract l pos rs
      else
        let r := subtractRun l start (end_ - start) next pos
        r.1 ++ runArrayArraySubtract l r.2 rs

/-- The merge of `run_array_container_andnot`, `src/containers/mixed_andnot.c:302-345`.
`start`, `end_` is what is left of the current run, `rs` the runs after it. -/
def runArrayAndnotLoop (start end_ : Nat) (rs : List Rle) (l : List Nat) : List Rle :=
  match l with
  | [] => (start, u16 ((end_ : Int) - start - 1)) :: rs
  | xstart :: xs =>
    if end_ ≤ xstart then
      (start, u16 ((end_ : Int) - start - 1)) ::
        match rs with
        | [] => []
        | r :: rs' => runArrayAndnotLoop r.1 (r.1 + r.2 + 1) rs' (xstart :: xs)
    else if xstart + 1 ≤ start then runArrayAndnotLoop start end_ rs xs
    else
      let pre := if start < xstart then [(start, u16 ((xstart : Int) - start - 1))] else []
      if xstart + 1 < end_ then pre ++ runArrayAndnotLoop (xstart + 1) end_ rs (xstart :: xs)
      else
        pre ++
        match rs with
        | [] => []
        | r :: rs' => runArrayAndnotLoop r.1 (r.1 + r.2 + 1) rs' (xstart :: xs)
termination_by (rs.length + l.length, end_ - start)
decreasing_by
  · apply Prod.Lex.left; simp
  · apply Prod.Lex.left; simp
  · apply Prod.Lex.right; omega
  · apply Prod.Lex.left; simp

/-- `run_array_container_andnot`: `src/containers/mixed_andnot.c:277-361` (`iandnot`: `:370-377`).  In
the first branch the C code reads `runs[0]`, so the run container must not be empty. -/
def runArrayAndnot (rs : List Rle) (l : List Nat) : Container :=
  if runCard rs ≤ 32 then
    if l.length = 0 then .run rs
    else convertRunToEfficient (match rs with
      | [] => []
      | r :: rs => runArrayAndnotLoop r.1 (r.1 + r.2 + 1) rs l)
  else if runCard rs ≤ DEFAULT_MAX_SIZE then .array (runArrayArraySubtract l 0 rs)
  else bitsetArrayAndnot (bitsetFromRun rs) l

/-- The `do … while (val > run_end)` loop, `src/containers/mixed_andnot.c:409-417`: the new
`run_start`, `run_end` and the runs after `which_run`. -/
def nextRunFor (val : Nat) : List Rle → (Nat × Nat) × List Rle
  | [] => ((65537, 65537), [])
  | r :: rs => if val > r.1 + r.2 then nextRunFor val rs else ((r.1, r.1 + r.2), rs)

/-- The loop of `array_run_container_andnot`, `src/containers/mixed_andnot.c:402-420`.  After the
`do … while` the C code steps `i` back and examines `val` again; now `val ≤ run_end`. -/
def arrayRunAndnotLoop (run_start run_end : Nat) (rs : List Rle) : List Nat → List Nat
  | [] => []
  | val :: l =>
    if val < run_start then val :: arrayRunAndnotLoop run_start run_end rs l
    else if val ≤ run_end then arrayRunAndnotLoop run_start run_end rs l
    else
      let q := nextRunFor val rs
      if val < q.1.1 then val :: arrayRunAndnotLoop q.1.1 q.1.2 q.2 l
      else arrayRunAndnotLoop q.1.1 q.1.2 q.2 l

/-- `array_run_container_andnot`: `src/containers/mixed_andnot.c:381-422` (`iandnot`: `:427-430`). -/
def arrayRunAndnot (l : List Nat) (rs : List Rle) : List Nat :=
  match rs with
  | [] => l
  | r :: rs => arrayRunAndnotLoop r.1 (r.1 + r.2) rs l

/-- `run_run_container_andnot`: `src/containers/mixed_andnot.c:437-444` (`iandnot`: `:453-459`). -/
def runRunAndnot (rs1 rs2 : List Rle) : Container := convertRunToEfficient (runAndnot rs1 rs2)

/-- `bitset_bitset_container_andnot`: `src/containers/mixed_andnot.c:482-495` (`iandnot`: `:504-516`). -/
def bitsetBitsetAndnot (b1 b2 : Bitset) : Container := bitsetOrArray (bitsetOp wAndnot b1 b2)

/-! ### Symmetric difference -/

/-- `array_bitset_container_xor`: `src/containers/mixed_xor.c:23-40`; `bitset_array_container_ixor`,
`:282-296`, computes the same. -/
def arrayBitsetXor (l : List Nat) (b : Bitset) : Container :=
  let (ws, c) := bitsetFlipListWithcard b.words b.card l
  bitsetOrArray ⟨c, ws⟩

/-- `array_bitset_container_lazy_xor`: `src/containers/mixed_xor.c:47-53`. -/
def arrayBitsetLazyXor (l : List Nat) (b : Bitset) : Bitset := ⟨UNKNOWN_CARD, bitsetFlipList b.words l⟩

/-- The loop `src/containers/mixed_xor.c:68-72`. -/
def flipRuns (ws : List Word) (rs : List Rle) : List Word :=
  rs.foldl (fun ws (r : Rle) => bitsetFlipRange ws r.1 (r.1 + r.2 + 1)) ws

/-- `run_bitset_container_xor`: `src/containers/mixed_xor.c:62-82`. -/
def runBitsetXor (rs : List Rle) (b : Bitset) : Container :=
  let ws := flipRuns b.words rs
  bitsetOrArray ⟨computeCard ws, ws⟩

/-- `run_bitset_container_lazy_xor`: `src/containers/mixed_xor.c:89-99`. -/
def runBitsetLazyXor (rs : List Rle) (b : Bitset) : Bitset := ⟨UNKNOWN_CARD, flipRuns b.words rs⟩

/-- `array_array_container_xor`: `src/containers/mixed_xor.c:196-219`. -/
def arrayArrayXor (l1 l2 : List Nat) : Container :=
  if l1.length + l2.length ≤ DEFAULT_MAX_SIZE then .array (arrayXor l1 l2)
  else
    let (ws, c) := bitsetFlipListWithcard (bitsetFromArray l1).words l1.length l2
    bitsetOrArray ⟨c, ws⟩

/-- `array_array_container_lazy_xor`: `src/containers/mixed_xor.c:221-253`. -/
def arrayArrayLazyXor (l1 l2 : List Nat) : Container :=
  if l1.length + l2.length ≤ ARRAY_LAZY_LOWERBOUND then .array (arrayXor l1 l2)
  else .bitset ⟨UNKNOWN_CARD, bitsetFlipList (bitsetFromArray l1).words l2⟩

/-- The loops of `array_run_container_lazy_xor`, `src/containers/mixed_xor.c:153-172`.  `acc` is the
output so far, last run first. -/
def arrayRunLazyXorLoop : List Nat → List Rle → List Rle → List Rle
  | [], [], acc => acc
  | [], r :: rs, acc => arrayRunLazyXorLoop [] rs (smartAppend acc r.1 r.2)
  | v :: l, [], acc => arrayRunLazyXorLoop l [] (smartAppend acc v 0)
  | v :: l, r :: rs, acc =>
    if r.1 ≤ v then arrayRunLazyXorLoop (v :: l) rs (smartAppend acc r.1 r.2)
    else arrayRunLazyXorLoop l (r :: rs) (smartAppend acc v 0)
termination_by l rs => l.length + rs.length

/-- `array_run_container_lazy_xor`: `src/containers/mixed_xor.c:145-173`. -/
def arrayRunLazyXor (l : List Nat) (rs : List Rle) : List Rle := (arrayRunLazyXorLoop l rs []).reverse

/-- `array_run_container_xor`: `src/containers/mixed_xor.c:105-138`. -/
def arrayRunXor (l : List Nat) (rs : List Rle) : Container :=
  if l.length < 32 then convertRunToEfficient (arrayRunLazyXor l rs)
  else if runCard rs ≤ DEFAULT_MAX_SIZE then arrayArrayXor (arrayFromRun rs) l
  else arrayBitsetXor l (bitsetFromRun rs)

/-- `run_run_container_xor`: `src/containers/mixed_xor.c:179-186`. -/
def runRunXor (rs1 rs2 : List Rle) : Container := convertRunToEfficient (runXor rs1 rs2)

/-- `bitset_bitset_container_xor`: `src/containers/mixed_xor.c:260-273` (`ixor`: `:303-315`). -/
def bitsetBitsetXor (b1 b2 : Bitset) : Container := bitsetOrArray (bitsetOp wXor b1 b2)

end CRoaring
