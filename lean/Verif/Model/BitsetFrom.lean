import Verif.Model.BitsetMem
import Verif.Model.Query
/-
`roaring_bitmap_to_bitset` (src/roaring.c:3355-3395) on the memory of Model/BitsetMem.lean: every access to the words of the bitset, and
to the words of a bitset container that is copied, is checked.

Simplification: the containers of the bitmap are values; only the bitset is on the checked memory.
-/
namespace CRoaring

/-- `words[i] |= v`: a load and a store (bitset_util.h:103, 108). -/
def bmOr (h : BHeap) (a : Option Nat) (i : Nat) (v : Word) : Option BHeap :=
  match bmLd h a i with
  | none => none
  | some w => bmSt h a i (w ||| v)

/-- `bitset_set_list`, src/bitset_util.c:1087-1099 (portable version), with `words = array + off`. -/
def bmSetList (h : BHeap) (a : Option Nat) (off : Nat) : List Nat → Option BHeap
  | [] => some h
  | pos :: list =>
    match bmOr h a (off + pos / 64) (oneBit (pos % 64)) with
    | none => none
    | some h => bmSetList h a off list

/-- The loop of `bitset_set_lenrange`, bitset_util.h:109-110: two words per step. -/
def bmFillPairs (h : BHeap) (a : Option Nat) (off i endword : Nat) : Option BHeap :=
  if i < endword then
    match bmSt h a (off + (i + 1)) ones with
    | none => none
    | some h =>
      match bmSt h a (off + i) ones with
      | none => none
      | some h => bmFillPairs h a off (i + 2) endword
  else some h
termination_by endword - i

/-- `bitset_set_lenrange`, bitset_util.h:98-113, with `words = array + off`. -/
def bmSetLenrange (h : BHeap) (a : Option Nat) (off start lenminusone : Nat) : Option BHeap :=
  let firstword := start / 64
  let endword := (start + lenminusone) / 64
  if firstword = endword then
    bmOr h a (off + firstword) ((ones >>> (u32 (63 - (lenminusone : Int)) % 64)) <<< (start % 64))
  else
    match bmLd h a (off + endword) with
    | none => none
    | some temp =>
      match bmOr h a (off + firstword) (ones <<< (start % 64)) with
      | none => none
      | some h =>
        match bmFillPairs h a off (firstword + 1) endword with
        | none => none
        | some h => bmSt h a (off + endword) (temp ||| (ones >>> (u32 (-(start : Int) - lenminusone - 1) % 64)))

/-- The runs of a container, src/roaring.c:3385-3388. -/
def bmSetRuns (h : BHeap) (a : Option Nat) (off : Nat) : List Rle → Option BHeap
  | [] => some h
  | r :: rs =>
    match bmSetLenrange h a off r.1 r.2 with
    | none => none
    | some h => bmSetRuns h a off rs

/-- `memcpy(words, src->words, ..)`, src/roaring.c:3377: `n` words from word `k` of the container. -/
def bmCopyIn (h : BHeap) (a : Option Nat) (off : Nat) (src : List Word) (k : Nat) : Nat → Option BHeap
  | 0 => some h
  | n + 1 =>
    match src[k]? with
    | none => none
    | some w =>
      match bmSt h a (off + k) w with
      | none => none
      | some h => bmCopyIn h a off src (k + 1) n

/-- One container, src/roaring.c:3364-3392. -/
def bmFromStep (h : BHeap) (a : Option Nat) (newArraySize key : Nat) (c : Container) : Option BHeap :=
  let off := key <<< 10
  match c with
  | .bitset b =>
    let n := szSub newArraySize off
    bmCopyIn h a off b.words 0 (if n > 1024 then 1024 else n)
  | .array l => bmSetList h a off l
  | .run rs => bmSetRuns h a off rs

/-- The loop over the containers, src/roaring.c:3363-3393. -/
def bmFromLoop (h : BHeap) (a : Option Nat) (newArraySize : Nat) : Bitmap → Option BHeap
  | [] => some h
  | (k, c) :: r =>
    match bmFromStep h a newArraySize k c with
    | none => none
    | some h => bmFromLoop h a newArraySize r

/-- `roaring_bitmap_to_bitset`, src/roaring.c:3355-3395. -/
def bmToBitset (al : BAlloc) (h : BHeap) (p : Nat) (r : Bitmap) : Option (BHeap × Bool) :=
  let newArraySize := rbMaximum r / 64 + 1
  match bmResize al h p newArraySize true with
  | none => none
  | some (h, false) => some (h, false)
  | some (h, true) =>
    match bmObj h p with
    | none => none
    | some (a, _, _) => (bmFromLoop h a newArraySize r).map fun h => (h, true)

/-- `roaring_bitmap_to_bitset` (src/roaring.c:3355-3395) into bitset `i` of the program. -/
def BWorld.toBitset (al : BAlloc) (w : BWorld) (i : Nat) (r : Bitmap) : Option (BWorld × Bool) :=
  w.one i fun p => bmToBitset al w.heap p r

end CRoaring
