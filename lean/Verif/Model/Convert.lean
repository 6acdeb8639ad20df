import Verif.Model.Array
import Verif.Model.Run
import Verif.Model.Bitset

/-! Model of `src/containers/convert.c` and of the container type itself. -/

namespace CRoaring

/-- A container together with its typecode: `container_t` plus `BITSET_CONTAINER_TYPE`,
`ARRAY_CONTAINER_TYPE` or `RUN_CONTAINER_TYPE` (`include/roaring/containers/containers.h:29-63`).
Simplification: `SHARED_CONTAINER_TYPE` wrappers are not represented here (every container function
unwraps them first); sharing is modelled separately.  Capacities are not represented. -/
inductive Container where
  | bitset (b : Bitset)
  | array (l : List Nat)
  | run (rs : List Rle)
deriving DecidableEq

/-- `bitset_container_from_array`: `src/containers/convert.c:22-27`. -/
def bitsetFromArray (l : List Nat) : Bitset := l.foldl bitsetSet bitsetCreate

/-- The loop `for rlepos ... bitset_set_lenrange(words, vl.value, vl.length)`, shared by
`src/containers/convert.c:32-35`, `:139-142`, `src/containers/mixed_union.c:47-50` and others. -/
def setRuns (ws : List Word) (rs : List Rle) : List Word :=
  rs.foldl (fun w (r : Rle) => bitsetSetLenrange w r.1 r.2) ws

/-- `bitset_container_from_run`: `src/containers/convert.c:29-38`. -/
def bitsetFromRun (rs : List Rle) : Bitset := ⟨runCard rs, setRuns zeros rs⟩

/-- `array_container_from_run`: `src/containers/convert.c:40-53`. -/
def arrayFromRun (rs : List Rle) : List Nat :=
  rs.flatMap fun (r : Rle) => (List.range' r.1 (r.2 + 1)).map (· % 65536)

/-- `array_container_from_bitset`: `src/containers/convert.c:55-81`.  The result's length is the
cached cardinality, whatever the number of values extracted.  Simplification: if the cached
cardinality exceeds the number of set bits, the C result has uninitialised trailing cells, the
model's result is shorter (unreachable: the cardinality is exact at every call). -/
def arrayFromBitset (b : Bitset) : List Nat := (extractSetbits b.words 0).take b.card.toNat

/-- `add_run`: `src/containers/convert.c:84-88`, the run that is stored. -/
def mkRun (s e : Int) : Rle := (u16 s, u16 (e - s))

/-- The loop of `run_container_from_array`: `src/containers/convert.c:96-107`
(the same code is at `:249-262`). -/
def runFromArrayLoop (prev run_start : Int) : List Nat → List Rle
  | [] => [mkRun run_start prev]
  | v :: l =>
    if (v : Int) ≠ prev + 1 then
      if run_start ≠ -1 then mkRun run_start prev :: runFromArrayLoop v v l
      else runFromArrayLoop v v l
    else runFromArrayLoop v run_start l

/-- `run_container_from_array`: `src/containers/convert.c:90-110`. -/
def runFromArray (l : List Nat) : List Rle :=
  if l.length = 0 then [] else runFromArrayLoop (-2) (-1) l

/-- The inner loop of `src/containers/convert.c:125-132`, with its `uint16_t` bound. -/
def runCells (r : Rle) : List Nat :=
  List.range' r.1 (u16 ((r.1 : Int) + r.2) - r.1) ++ [u16 ((r.1 : Int) + r.2)]

/-- `convert_to_bitset_or_array_container`: `src/containers/convert.c:118-147`. -/
def convertToBitsetOrArray (rs : List Rle) (card : Nat) : Container :=
  if card ≤ DEFAULT_MAX_SIZE then .array (rs.flatMap runCells)
  else .bitset ⟨card, setRuns zeros rs⟩

/-- `run_container_serialized_size_in_bytes`: `include/roaring/containers/run.h:448-451`. -/
def runSerializedSize (n : Nat) : Nat := 2 + 4 * n
/-- `array_container_serialized_size_in_bytes`: `include/roaring/containers/array.h:165-167`. -/
def arraySerializedSize (card : Nat) : Nat := card * 2 + 2
/-- `bitset_container_serialized_size_in_bytes`: `include/roaring/containers/bitset.h:418-420`. -/
def bitsetSerializedSize : Nat := NWORDS * 8

/-- The loop of `src/containers/convert.c:190-194`. -/
def setRunRanges (ws : List Word) (rs : List Rle) : List Word :=
  rs.foldl (fun w (r : Rle) => bitsetSetRange w r.1 (r.1 + r.2 + 1)) ws

/-- `convert_run_to_efficient_container`: `src/containers/convert.c:154-200`
(and the `_and_free` variant at `:203-208`, which differs only in freeing its input). -/
def convertRunToEfficient (rs : List Rle) : Container :=
  let size_run := runSerializedSize rs.length
  let card := runCard rs
  let size_array := arraySerializedSize card
  let min_size := if bitsetSerializedSize < size_array then bitsetSerializedSize else size_array
  if size_run ≤ min_size then .run rs
  else if card ≤ DEFAULT_MAX_SIZE then .array (arrayFromRun rs)
  else .bitset ⟨card, setRunRanges zeros rs⟩

/-- `while (cur_word == 0 && long_ctr < 1023) cur_word = words[++long_ctr]`:
`src/containers/convert.c:283-285`.  The list is the words after `long_ctr`. -/
def skipZero (w : Word) (i : Nat) : List Word → Word × Nat × List Word
  | [] => (w, i, [])
  | v :: rest => if w = 0#64 then skipZero v (i + 1) rest else (w, i, v :: rest)

/-- `while (cur_word_with_1s == ~0 && long_ctr < 1023) cur_word_with_1s = words[++long_ctr]`:
`src/containers/convert.c:298-300`. -/
def skipOnes (w : Word) (i : Nat) : List Word → Word × Nat × List Word
  | [] => (w, i, [])
  | v :: rest => if w = ones then skipOnes v (i + 1) rest else (w, i, v :: rest)

/-- The `while (true)` loop of `src/containers/convert.c:282-314`.  The first argument is fuel;
every iteration that continues emits one run, so `65536` is more than enough (the specification
of `bitsetToRun` proves that it never runs out). -/
def bitsetToRunLoop : Nat → Word → Nat → List Word → List Rle
  | 0, _, _, _ => []
  | fuel + 1, cur, ctr, rest =>
    let (w, i, r1) := skipZero cur ctr rest
    if w = 0#64 then []
    else
      let run_start : Int := ctz w + 64 * i
      let (c, j, r2) := skipOnes (w ||| (w - 1#64)) i r1
      if c = ones then
        let run_end : Int := 64 + j * 64
        [mkRun run_start (run_end - 1)]
      else
        let run_end : Int := ctz (~~~c) + j * 64
        mkRun run_start (run_end - 1) :: bitsetToRunLoop fuel (c &&& (c + 1#64)) j r2

/-- Bitset branch of `convert_run_optimize`: `src/containers/convert.c:280-314`. -/
def bitsetToRun (ws : List Word) : List Rle := bitsetToRunLoop 65537 (wd ws 0) 0 (ws.drop 1)

/-- `convert_run_optimize`: `src/containers/convert.c:217-321`. -/
def convertRunOptimize : Container → Container
  | .run rs => convertRunToEfficient rs
  | .array l =>
    let n_runs := arrayNumberOfRuns (-2) l
    if runSerializedSize n_runs ≥ arraySerializedSize l.length then .array l
    else .run (runFromArrayLoop (-2) (-1) l)
  | .bitset b =>
    let n_runs := bitsetNumberOfRuns b
    if bitsetSerializedSize ≤ runSerializedSize n_runs then .bitset b
    else .run (bitsetToRun b.words)

/-- `container_from_run_range`: `src/containers/convert.c:323-348`. -/
def containerFromRunRange (rs : List Rle) (min max : Nat) : Container :=
  let ws := setRuns zeros rs
  let union_cardinality : Int :=
    ((rs.map fun (r : Rle) => r.2 + 1).sum : Nat) + ((max : Int) - min + 1)
      - bitsetLenrangeCardinality ws min (max - min)
  let b : Bitset := ⟨union_cardinality, bitsetSetLenrange ws min (max - min)⟩
  if b.card ≤ DEFAULT_MAX_SIZE then .array (arrayFromBitset b) else .bitset b

end CRoaring
