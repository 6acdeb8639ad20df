import Verif.Model.Roaring64
import Verif.Model.Iter
/-
Model of iteration over 64-bit bitmaps: `roaring64_iterator_t`, `roaring64_bitmap_iterate` and
`roaring64_bitmap_to_uint64_array` of src/roaring64.c, and `roaring_iterate64` of src/roaring.c.
-/
namespace CRoaring

/-- `struct roaring64_iterator_s`: src/roaring64.c:47-65, without the pointer to the bitmap, which the functions below
take as an argument. -/
structure Iter64 where
  artIt : AIt
  cit : Int
  high48 : Nat
  value : Nat
  hasValue : Bool
  satFwd : Bool

/-- `roaring64_iterator_init_at_leaf_first`: src/roaring64.c:186-195.  The C code dereferences the value of the tree
iterator; it is not called when there is none. -/
def it64LeafFirst (it : Iter64) : Iter64 :=
  match it.artIt.value with
  | none => it
  | some c =>
    let high48 := combineKey it.artIt.key 0
    let p := containerInitIterator c
    { it with high48 := high48, cit := p.1, value := high48 ||| p.2, hasValue := true }

/-- `roaring64_iterator_init_at_leaf_last`: src/roaring64.c:197-206. -/
def it64LeafLast (it : Iter64) : Iter64 :=
  match it.artIt.value with
  | none => it
  | some c =>
    let high48 := combineKey it.artIt.key 0
    let p := containerInitIteratorLast c
    { it with high48 := high48, cit := p.1, value := high48 ||| p.2, hasValue := true }

/-- `roaring64_iterator_init_at`: src/roaring64.c:208-223, hence `roaring64_iterator_create`, `_create_last`, `_reinit` and
`_reinit_last` (2552-2573); `it` is what the memory of the iterator held before. -/
def it64InitAt (r : R64) (it : Iter64) (first : Bool) : Iter64 :=
  let it := { it with artIt := artInitIterator r first }
  let it := { it with hasValue := it.artIt.value.isSome }
  if it.hasValue then
    if first then it64LeafFirst it else it64LeafLast it
  else { it with satFwd := first }

/-- `roaring64_iterator_advance`: src/roaring64.c:2592-2612; the result is the new `hasValue`. -/
def it64Advance (r : R64) (it : Iter64) : Iter64 :=
  match it.artIt.value with
  | none =>
    if it.satFwd then { it with hasValue := false }
    else it64InitAt r it true
  | some c =>
    let p := containerIteratorNext c it.cit (it.value % 65536)
    match p.2 with
    | some low16 => { it with cit := p.1, value := it.high48 ||| low16, hasValue := true }
    | none =>
      let it := { it with cit := p.1, artIt := itNext r it.artIt }
      if it.artIt.value.isSome then it64LeafFirst it
      else { it with satFwd := true, hasValue := false }

/-- `roaring64_iterator_previous`: src/roaring64.c:2614-2635; the result is the new `hasValue`. -/
def it64Previous (r : R64) (it : Iter64) : Iter64 :=
  match it.artIt.value with
  | none =>
    if !it.satFwd then { it with hasValue := false }
    else it64InitAt r it false
  | some c =>
    let p := containerIteratorPrev c it.cit (it.value % 65536)
    match p.2 with
    | some low16 => { it with cit := p.1, value := it.high48 ||| low16, hasValue := true }
    | none =>
      let it := { it with cit := p.1, artIt := itPrev r it.artIt }
      if it.artIt.value.isSome then it64LeafLast it
      else { it with satFwd := false, hasValue := false }

/-- The second half of `roaring64_iterator_move_equalorlarger`: src/roaring64.c:2654-2674. -/
def it64MoveAt (r : R64) (it : Iter64) (val : Nat) : Iter64 :=
  if it.high48 = clearLow val then
    match it.artIt.value with
    | none => it
    | some c =>
      let p := containerIteratorLowerBound c it.cit (splitKey val).2
      match p.2 with
      | some low16 => { it with cit := p.1, value := it.high48 ||| low16, hasValue := true }
      | none =>
        let it := { it with cit := p.1, artIt := itNext r it.artIt }
        if it.artIt.value.isSome then it64LeafFirst it
        else { it with satFwd := true, hasValue := false }
  else it64LeafFirst it

/-- `roaring64_iterator_move_equalorlarger`: src/roaring64.c:2637-2675; the result is the new `hasValue`. -/
def it64Move (r : R64) (it : Iter64) (val : Nat) : Iter64 :=
  if !it.hasValue || it.high48 != clearLow val then
    let it := { it with artIt := itLowerBound r it.artIt (splitKey val).1 }
    if it.artIt.value.isSome then it64MoveAt r { it with high48 := combineKey it.artIt.key 0 } val
    else { it with satFwd := true, hasValue := false }
  else it64MoveAt r it val

/-- `roaring64_bitmap_intersect_with_range`: src/roaring64.c:1300-1312; `junk` is the uninitialised iterator. -/
def r64IntersectWithRange (r : R64) (min max : Nat) (junk : Iter64) : Bool :=
  if min ≥ max then false
  else
    let it := it64Move r (it64InitAt r junk true) min
    if !it.hasValue then false
    else it.hasValue && decide (it.value < max)

/-- The loop of `roaring64_iterator_read`: src/roaring64.c:2677-2705; `count` is what remains of the caller's count.  The
values written and the iterator after the call. -/
def it64ReadLoop (r : R64) : Nat → Iter64 → Nat → List Nat × Iter64
  | 0, it, _ => ([], it)
  | fuel + 1, it, count =>
    if it.hasValue && decide (0 < count) then
      match it.artIt.value with
      | none => ([], it)
      | some c =>
        let container_count := if count < 4294967295 then count else 4294967295
        let p := containerIteratorRead c it.cit it.high48 container_count (it.value % 65536)
        match p.2.2 with
        | some low16 => (p.1, { it with cit := p.2.1, hasValue := true, value := it.high48 ||| low16 })
        | none =>
          let it := { it with cit := p.2.1, artIt := itNext r it.artIt }
          let it := { it with hasValue := it.artIt.value.isSome }
          let it := if it.hasValue then it64LeafFirst it else it
          let q := it64ReadLoop r fuel it (count - p.1.length)
          (p.1 ++ q.1, q.2)
    else ([], it)

/-- `roaring64_iterator_read`: src/roaring64.c:2677-2705. -/
def it64Read (r : R64) (it : Iter64) (count : Nat) : List Nat × Iter64 := it64ReadLoop r FUEL it count

/-- `roaring64_bitmap_to_uint64_array`: src/roaring64.c:2545-2550: the values written; `junk` is the uninitialised
iterator. -/
def r64ToUint64 (r : R64) (junk : Iter64) : List Nat := (it64Read r (it64InitAt r junk true) 18446744073709551615).1

/-- `container_iterate64`: include/roaring/containers/containers.h:1968-1990, with `array_container_iterate64`
(src/containers/array.c:556-563), `run_container_iterate64` (src/containers/run.c:751-763) and
`bitset_container_iterate64` (src/containers/bitset.c:1077-1089): the loops are those of `container_iterate`, and the
callback gets `high_bits | (uint64_t)(32-bit value)`. -/
def containerIterate64 {σ : Type} (f : σ → Nat → σ × Bool) (s : σ) (base high_bits : Nat) (c : Container) : σ × Bool :=
  containerIterate (fun s v => f s (high_bits ||| v)) s base c

/-- The loop of `roaring64_bitmap_iterate`: src/roaring64.c:2528-2543. -/
def iterate64Loop {σ : Type} (f : σ → Nat → σ × Bool) (r : R64) : Nat → AIt → σ → σ × Bool
  | 0, _, s => (s, true)
  | fuel + 1, it, s =>
    match it.value with
    | none => (s, true)
    | some c =>
      let high48 := combineKey it.key 0
      let high32 := high48 / 4294967296 * 4294967296
      let low32 := high48 % 4294967296
      let p := containerIterate64 f s low32 high32 c
      if !p.2 then (p.1, false) else iterate64Loop f r fuel (itNext r it) p.1

/-- `roaring64_bitmap_iterate`: src/roaring64.c:2528-2543. -/
def r64Iterate {σ : Type} (f : σ → Nat → σ × Bool) (s : σ) (r : R64) : σ × Bool :=
  iterate64Loop f r FUEL (artInitIterator r true) s

/-- `roaring_iterate64`: src/roaring.c:1623-1635. -/
def rbIterate64 {σ : Type} (f : σ → Nat → σ × Bool) (high_bits : Nat) : σ → Bitmap → σ × Bool
  | s, [] => (s, true)
  | s, (key, c) :: t =>
    let p := containerIterate64 f s (key <<< 16) high_bits c
    if !p.2 then (p.1, false) else rbIterate64 f high_bits p.1 t

end CRoaring
