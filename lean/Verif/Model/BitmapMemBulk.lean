import Verif.Model.BitmapMemRange
import Verif.Model.BitmapMemQuery
import Verif.Model.Stats

/-! `roaring_bitmap_contains_bulk` and `roaring_bitmap_statistics` on the cells of Model/BitmapMem.lean. -/

namespace CRoaring

/-- The search in `roaring_bitmap_contains_bulk`: src/roaring.c:171-190; `start` is one more than `start_idx`. -/
def rbContainsSeekBuf (r : RaBuf) (ctx : BulkCtx) (val start : Nat) : Out (Bool × BulkCtx) := do
  let ks ← raKeysBuf r
  let idx := advanceFrom (rdL ks) start r.size (val / 65536)
  if idx = r.size then .ok (false, ctx)
  else do
    let c ← raContBuf r idx
    let k ← raKeyBuf r idx
    if k ≠ val / 65536 then .ok (false, some (idx, k))
    else do
      let v ← c.load
      .ok (containerContains (val % 65536) v, some (idx, k))

/-- `roaring_bitmap_contains_bulk`: src/roaring.c:162-191.  The container of the context is the one in the cell of its index, as in
`Model/Bulk`. -/
def rbContainsBulkBuf (r : RaBuf) (ctx : BulkCtx) (val : Nat) : Out (Bool × BulkCtx) :=
  match ctx with
  | none => rbContainsSeekBuf r ctx val 0
  | some (idx, k) =>
    if k ≠ val / 65536 then rbContainsSeekBuf r ctx val (if k < val / 65536 then idx + 1 else 0)
    else do
      let c ← loadCell r.mem idx
      .ok (containerContains (val % 65536) c.2, ctx)

/-- The loop of `roaring_bitmap_statistics`: src/roaring.c:388-416; `n` cells are left. -/
def rbStatLoopBuf (mem : List RCell) : Nat → Nat → Stats → Out Stats
  | 0, _, st => .ok st
  | n + 1, i, st => do
    let c ← loadCell mem i
    rbStatLoopBuf mem n (i + 1) (statStep st c)

/-- `roaring_bitmap_statistics`: src/roaring.c:379-417. -/
def rbStatisticsBuf (r : RaBuf) : Out Stats := do
  let mn ← rbMinimumBuf r
  let mx ← rbMaximumBuf r
  rbStatLoopBuf r.mem r.size 0
    { n_containers := u32 r.size, n_array_containers := 0, n_run_containers := 0, n_bitset_containers := 0
      n_values_array_containers := 0, n_values_run_containers := 0, n_values_bitset_containers := 0
      n_bytes_array_containers := 0, n_bytes_run_containers := 0, n_bytes_bitset_containers := 0
      max_value := mx, min_value := mn, cardinality := 0 }

end CRoaring
