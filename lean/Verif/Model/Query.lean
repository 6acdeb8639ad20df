import Verif.Model.Bitmap

/-! Model of ranks, selection, extrema, exports and iteration by callback: src/roaring.c, src/roaring_array.c. -/

namespace CRoaring

/-- `roaring_bitmap_rank`: `src/roaring.c:2586-2604`; `size` is the running 64-bit sum. -/
def rbRankLoop (x : Nat) : Nat → Bitmap → Nat
  | size, [] => size
  | size, (key, c) :: t =>
    if x / 65536 > key then rbRankLoop x (u64 (size + containerCard c)) t
    else if x / 65536 = key then u64 (size + containerRank (x % 65536) c)
    else size

def rbRank (r : Bitmap) (x : Nat) : Nat := rbRankLoop x 0 r

/-- `roaring_bitmap_rank_many`: `src/roaring.c:2605-2631`, with fuel for the `while` loop: the answers written, in
order.  Answers that the code does not write are absent from the list. -/
def rbRankManyLoop : Nat → Nat → List Nat → Bitmap → List Nat
  | _, _, [], _ => []
  | _, _, _ :: _, [] => []
  | 0, _, _ :: _, _ :: _ => []
  | fuel + 1, size, x :: xs, (key, c) :: t =>
    if x / 65536 > key then rbRankManyLoop fuel (u64 (size + containerCard c)) (x :: xs) t
    else if x / 65536 = key then
      let p := containerRankMany size (x :: xs) c
      p.1 ++ rbRankManyLoop fuel size p.2 ((key, c) :: t)
    else size :: rbRankManyLoop fuel size xs ((key, c) :: t)

/-- The loop ends after at most one round per container and per query. -/
def rbRankMany (r : Bitmap) (xs : List Nat) : List Nat := rbRankManyLoop (r.length + xs.length) 0 xs r

/-- The loop of `roaring_bitmap_get_index`: `src/roaring.c:2642-2658`. -/
def rbGetIndexLoop (x : Nat) (chigh : Container) : Int → Bitmap → Int
  | index, [] => index
  | index, (key, c) :: t =>
    if x / 65536 > key then rbGetIndexLoop x chigh (index + containerCard c) t
    else if x / 65536 = key then
      let low_idx := containerGetIndex (x % 65536) chigh
      if low_idx < 0 then -1 else index + low_idx
    else -1

/-- `roaring_bitmap_get_index`: `src/roaring.c:2636-2659`. -/
def rbGetIndex (r : Bitmap) (x : Nat) : Int :=
  let i := raGetIndex r (x / 65536)
  if i < 0 then -1 else rbGetIndexLoop x (contAt r i.toNat) 0 r

/-- `roaring_bitmap_minimum`: `src/roaring.c:2665-2675`. -/
def rbMinimum (r : Bitmap) : Nat :=
  if r.length > 0 then containerMin (contAt r 0) ||| (keyAt r 0 <<< 16) else 4294967295

/-- `roaring_bitmap_maximum`: `src/roaring.c:2681-2692`. -/
def rbMaximum (r : Bitmap) : Nat :=
  if r.length > 0 then containerMax (contAt r (r.length - 1)) ||| (keyAt r (r.length - 1) <<< 16) else 0

/-- `roaring_bitmap_select`: `src/roaring.c:2694-2716`: the loop over the containers.  `none` is undefined behaviour
inside a container; `some none` is the answer `false`. -/
def rbSelectLoop (rank : Nat) : Nat → Bitmap → Option (Option Nat)
  | _, [] => some none
  | start_rank, (key, c) :: t =>
    match containerSelect start_rank rank c with
    | none => none
    | some (.inl e) => some (some (e ||| (key <<< 16)))
    | some (.inr sr) => rbSelectLoop rank sr t

def rbSelect (r : Bitmap) (rank : Nat) : Option (Option Nat) := rbSelectLoop rank 0 r

/-- `ra_to_uint32_array`: `src/roaring_array.c:426-434`: the values written, in order. -/
def rbToUint32 (r : Bitmap) : List Nat := r.flatMap (fun p => containerToUint32 (p.1 <<< 16) p.2)

/-- State of `ra_range_uint32_array`: the values written to the temporary buffer (`dtr` of them), the size of that
buffer (its other cells are zero) and, when the buffer exists, `first_skip`. -/
structure RangeSt where
  ctr : Nat
  out : List Nat
  curLen : Nat
  skip : Option Nat

/-- The body of the loop of `ra_range_uint32_array` before its exit test: `src/roaring_array.c:449-502`.  Allocations
succeed.  The sums are 64-bit and do not wrap for `offset + limit < 2^64`; `t_limit` is positive, as containers are
not empty. -/
def rangeStep (offset limit : Nat) (st : RangeSt) (key : Nat) (c : Container) : RangeSt :=
  let tl := (containerCard c).toNat
  if st.ctr + tl - 1 ≥ offset ∧ st.ctr < offset + limit then
    let skip := st.skip.getD (offset - st.ctr)
    let cur := match st.skip with | none => skip + limit | some _ => st.curLen
    let cur := if st.out.length + tl > cur then cur + tl else cur
    { ctr := st.ctr + tl, out := st.out ++ containerToUint32 (key <<< 16) c, curLen := cur, skip := some skip }
  else { st with ctr := st.ctr + tl }

/-- The loop of `ra_range_uint32_array`: `src/roaring_array.c:449-508`. -/
def rangeLoop (offset limit : Nat) : RangeSt → Bitmap → RangeSt
  | st, [] => st
  | st, (key, c) :: t =>
    let st2 := rangeStep offset limit st key c
    if u64 ((st2.out.length : Int) - (st2.skip.getD 0 : Nat)) ≥ limit then st2 else rangeLoop offset limit st2 t

/-- `ra_range_uint32_array`: `src/roaring_array.c:436-517` (`roaring_bitmap_range_uint32_array`,
`src/roaring.c:1398-1403`): the cells written to the caller's array from its start on. -/
def rbRangeUint32 (r : Bitmap) (offset limit : Nat) : List Nat :=
  let st := rangeLoop offset limit { ctr := 0, out := [], curLen := 0, skip := none } r
  match st.skip with
  | none => []
  | some skip => ((st.out ++ List.replicate (st.curLen - st.out.length) 0).drop skip).take limit

/-- `roaring_iterate`: `src/roaring.c:1611-1621`.  The callback is a state transformer returning the new state and
whether to continue. -/
def rbIterate {σ : Type} (f : σ → Nat → σ × Bool) : σ → Bitmap → σ × Bool
  | s, [] => (s, true)
  | s, (key, c) :: t =>
    let p := containerIterate f s (key <<< 16) c
    if !p.2 then (p.1, false) else rbIterate f p.1 t

/-- `roaring_bitmap_run_optimize`: `src/roaring.c:1410-1426`: the bitmap and the answer. -/
def isRun : Container → Bool
  | .run _ => true
  | _ => false

def rbRunOptimize (r : Bitmap) : Bitmap × Bool :=
  let r' := r.map (fun p => (p.1, convertRunOptimize p.2))
  (r', r'.any (fun p => isRun p.2))

/-- `roaring_bitmap_remove_run_compression`: `src/roaring.c:1444-1472`. -/
def removeRun : Container → Container
  | .run rs => convertToBitsetOrArray rs (runCard rs)
  | c => c

def rbRemoveRunCompression (r : Bitmap) : Bitmap × Bool :=
  (r.map (fun p => (p.1, removeRun p.2)), r.any (fun p => isRun p.2))

end CRoaring
