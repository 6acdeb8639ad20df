import Verif.Model.BitmapMemOffset
import Verif.Model.CowHistory

/-! Histories of calls over bitmaps in memory.  The calls are those of `Model/CowHistory`. -/

namespace CRoaring

/-- The bitmaps that a program created, in the order of their creation; a freed bitmap is `none`. -/
abbrev BufPool := List (Option RaBuf)

/-- A bitmap that was not freed.  A call with a pointer to no bitmap is undefined. -/
def bufGet (p : BufPool) (i : Nat) : Out RaBuf :=
  match (p[i]?).join with
  | some b => .ok b
  | none => .oob

/-- A call that updates one bitmap. -/
def bufU (u : RaBuf → Out RaBuf) (p : BufPool) (i : Nat) : Out BufPool := do
  let x ← bufGet p i
  let x' ← u x
  .ok (p.set i (some x'))

/-- A call that makes a new bitmap from one. -/
def bufN (u : RaBuf → Out RaBuf) (p : BufPool) (i : Nat) : Out BufPool := do
  let x ← bufGet p i
  let a ← u x
  .ok (p ++ [some a])

/-- A call that updates a bitmap and reads another one. -/
def bufB (u : RaBuf → RaBuf → Out RaBuf) (p : BufPool) (i j : Nat) : Out BufPool := do
  let x ← bufGet p i
  let y ← bufGet p j
  let x' ← u x y
  .ok (p.set i (some x'))

/-- A call that makes a new bitmap from two. -/
def bufM (u : RaBuf → RaBuf → Out RaBuf) (p : BufPool) (i j : Nat) : Out BufPool := do
  let x ← bufGet p i
  let y ← bufGet p j
  let a ← u x y
  .ok (p ++ [some a])

/-- Several bitmaps that were not freed. -/
def bufGets (p : BufPool) : List Nat → Out (List RaBuf)
  | [] => .ok []
  | i :: is => do
    let x ← bufGet p i
    let xs ← bufGets p is
    .ok (x :: xs)

/-- A call that makes a new bitmap from several. -/
def bufL (u : List RaBuf → Out RaBuf) (p : BufPool) (is : List Nat) : Out BufPool := do
  let xs ← bufGets p is
  let a ← u xs
  .ok (p ++ [some a])

/-- One call, of the functions modelled in `Model/BitmapMem`, `Model/BitmapMemRange`, `Model/BitmapMemLazy` and
`Model/BitmapMemOffset`.  The caller of `roaring_bitmap_range_uint32_array` gives a block of `limit` values. -/
def bufStep (E : RbEnv) (p : BufPool) : Op → Out BufPool
  | .create => .ok (p ++ [some (rbCreateBuf E 0)])
  | .copy i => bufN (rbCopyBuf E) p i
  | .overwrite i j => bufB (rbOverwriteBuf E) p i j
  | .clear i => bufU (rbClearBuf E) p i
  | .free i => do
    let _ ← bufGet p i
    .ok (p.set i none)
  | .add i v => bufU (fun x => rbAddBuf E x v) p i
  | .remove i v => bufU (fun x => rbRemoveBuf E x v) p i
  | .addMany i vs => bufU (fun x => rbAddManyBuf E x vs) p i
  | .removeMany i vs => bufU (fun x => rbRemoveManyBuf E x vs) p i
  | .addRange i a b => bufU (fun x => rbAddRangeClosedBuf E x a b) p i
  | .removeRange i a b => bufU (fun x => rbRemoveRangeClosedBuf E x a b) p i
  | .flip i a b => bufN (fun x => rbFlipClosedBuf E x a b) p i
  | .flipInplace i a b => bufU (fun x => rbFlipInplaceClosedBuf E x a b) p i
  | .and i j => bufM (rbAndBuf E) p i j
  | .or i j => bufM (rbOrBuf E) p i j
  | .xor i j => bufM (rbXorBuf E) p i j
  | .andnot i j => bufM (rbAndnotBuf E) p i j
  | .andInplace i j => if i = j then bufU (fun x => .ok x) p i else bufB (rbAndInplaceBuf E) p i j
  | .orInplace i j => bufB (rbOrInplaceBuf E) p i j
  | .xorInplace i j => bufB (rbXorInplaceBuf E) p i j
  | .andnotInplace i j => bufB (rbAndnotInplaceBuf E) p i j
  | .runOptimize i => bufU (rbRunOptimizeBuf E) p i
  | .removeRunCompression i => bufU (rbRemoveRunCompressionBuf E) p i
  | .rangeArray i off lim => bufU (fun x => do
      let _ ← rbRangeArrayBuf E x off lim (E.m.vals lim)
      .ok x) p i
  | .addOffset i d => bufN (fun x => rbAddOffsetBuf E x d) p i
  | .orMany is => bufL (rbOrManyBuf E) p is
  | .xorMany is => bufL (rbXorManyBuf E) p is
  | .orManyHeap is => bufL (rbOrManyHeapBuf E) p is

/-- A history: calls, each with what the memory that it allocates contains. -/
def bufRun : BufPool → List (Op × RbEnv) → Out BufPool
  | p, [] => .ok p
  | p, (op, E) :: t => do
    let p ← bufStep E p op
    bufRun p t

end CRoaring
