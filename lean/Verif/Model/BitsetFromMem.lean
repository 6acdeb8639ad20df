import Verif.Model.BitsetFrom
import Verif.Model.BitmapMemQuery

/-! `roaring_bitmap_to_bitset` once more, now with the bitmap in memory too: its cells are loaded as in Model/BitmapMemQuery.lean, and the
outcome is `none` if such a load, or a load or a store of the bitset, is out of bounds. -/

namespace CRoaring

/-- The loop over the containers, src/roaring.c:3363-3393; `n` cells are left. -/
def bmFromLoopBuf (cells : List RCell) (a : Option Nat) (newArraySize : Nat) : Nat → Nat → BHeap → Option BHeap
  | 0, _, h => some h
  | n + 1, i, h =>
    match loadCell cells i with
    | .ok c =>
      match bmFromStep h a newArraySize c.1 c.2 with
      | none => none
      | some h => bmFromLoopBuf cells a newArraySize n (i + 1) h
    | _ => none

/-- `roaring_bitmap_to_bitset`, src/roaring.c:3355-3395. -/
def bmToBitsetBuf (al : BAlloc) (h : BHeap) (p : Nat) (r : RaBuf) : Option (BHeap × Bool) :=
  match rbMaximumBuf r with
  | .ok m =>
    let newArraySize := m / 64 + 1
    match bmResize al h p newArraySize true with
    | none => none
    | some (h, false) => some (h, false)
    | some (h, true) =>
      match bmObj h p with
      | none => none
      | some (a, _, _) => (bmFromLoopBuf r.mem a newArraySize r.size 0 h).map fun h => (h, true)
  | _ => none

/-- `roaring_bitmap_to_bitset` (src/roaring.c:3355-3395) into bitset `i` of the program. -/
def BWorld.toBitsetBuf (al : BAlloc) (w : BWorld) (i : Nat) (r : RaBuf) : Option (BWorld × Bool) :=
  w.one i fun p => bmToBitsetBuf al w.heap p r

end CRoaring
