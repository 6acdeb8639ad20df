import Verif.Model.Bitmap

/-! Model of the bulk operations of src/roaring.c: `add_bulk`, `contains_bulk`, `add_many`, `of`, `remove_many`,
and of `roaring_bitmap_from_range`. -/

namespace CRoaring

/-- `roaring_bulk_context_t`: `include/roaring/roaring.h:225-230`.  `none` is a zero-initialised context
(`container == NULL`); otherwise `(idx, key)`.  The cached container pointer and typecode are those of cell `idx`
of the bitmap, which is how the model reads the container: the documented contract is that the bitmap is modified
through the context only. -/
abbrev BulkCtx := Option (Nat × Nat)

/-- `add_bulk_impl`, `roaring_bitmap_add_bulk`: `src/roaring.c:102-130`, `157-160`. -/
def rbAddBulk (r : Bitmap) (ctx : BulkCtx) (val : Nat) : Bitmap × BulkCtx :=
  let key := val / 65536
  match ctx with
  | none => (rbAdd r val, some (rbAddIndex r val, key))
  | some (idx, k) =>
    if k ≠ key then (rbAdd r val, some (rbAddIndex r val, key))
    else (raSet r idx (containerAdd (val % 65536) (contAt r idx)), some (idx, k))

/-- The loop of `roaring_bitmap_add_many`: `src/roaring.c:151-154`. -/
def rbAddManyLoop : Bitmap → BulkCtx → List Nat → Bitmap
  | r, _, [] => r
  | r, ctx, v :: vs => let p := rbAddBulk r ctx v; rbAddManyLoop p.1 p.2 vs

/-- `roaring_bitmap_add_many`: `src/roaring.c:132-155`.  The first value is added before the loop, which then
goes over all values, the first one included. -/
def rbAddMany (r : Bitmap) (vals : List Nat) : Bitmap :=
  match vals with
  | [] => r
  | v :: vs => rbAddManyLoop (rbAdd r v) (some (rbAddIndex r v, v / 65536)) (v :: vs)

/-- `roaring_bitmap_of_ptr`: `src/roaring.c:193-197`. -/
def rbOfPtr (vals : List Nat) : Bitmap := rbAddMany rbCreate vals

/-- `roaring_bitmap_of`: `src/roaring.c:199-212`. -/
def rbOf (vals : List Nat) : Bitmap := rbAddManyLoop rbCreate none vals

/-- `roaring_bitmap_contains_bulk`: `src/roaring.c:162-191`. -/
def rbContainsBulk (r : Bitmap) (ctx : BulkCtx) (val : Nat) : Bool × BulkCtx :=
  let key := val / 65536
  let seek (start : Nat) : Bool × BulkCtx :=
    let idx := raAdvanceFrom r key start
    if idx = r.length then (false, ctx)
    else
      let ctx' : BulkCtx := some (idx, keyAt r idx)
      if keyAt r idx ≠ key then (false, ctx') else (containerContains (val % 65536) (contAt r idx), ctx')
  match ctx with
  | none => seek 0
  | some (idx, k) =>
    if k ≠ key then seek (if k < key then idx + 1 else 0)
    else (containerContains (val % 65536) (contAt r idx), ctx)

/-- One round of the loop of `roaring_bitmap_remove_many`: `src/roaring.c:671-693`; the state is the bitmap and
`pos`. -/
def rbRemoveManyStep (st : Bitmap × Int) (val : Nat) : Bitmap × Int :=
  let r := st.1
  let key := val / 65536
  let pos := if st.2 < 0 ∨ key ≠ keyAt r st.2.toNat then raGetIndex r key else st.2
  if pos ≥ 0 then
    let c := containerRemove (val % 65536) (contAt r pos.toNat)
    if containerNonzero c then (raSet r pos.toNat c, pos) else (raRemoveAt r pos.toNat, -1)
  else (r, pos)

/-- `roaring_bitmap_remove_many`: `src/roaring.c:663-695`. -/
def rbRemoveMany (r : Bitmap) (vals : List Nat) : Bitmap :=
  if vals.length = 0 ∨ r.length = 0 then r else (vals.foldl rbRemoveManyStep (r, -1)).1

/-- The loop over 32-bit values of `roaring_bitmap_from_range`: `src/roaring.c:228-230`, with fuel; `none` means
that the fuel ran out. -/
def fromRangeBig (max step : Nat) : Nat → Nat → Bitmap → Option Bitmap
  | 0, _, _ => none
  | fuel + 1, value, answer =>
    if value < max then fromRangeBig max step fuel ((value + step) % 4294967296) (rbAdd answer value)
    else some answer

/-- The do-while loop of `roaring_bitmap_from_range`: `src/roaring.c:233-245`.  `ra_append` appends a cell. -/
def fromRangeLoop (max step : Nat) : Nat → Nat → Bitmap → Option Bitmap
  | 0, _, _ => none
  | fuel + 1, min_tmp, answer =>
    let key := min_tmp % 4294967296 / 65536
    let cmin := min_tmp % 65536
    let cmax := Nat.min (max - key * 65536) 65536
    let answer := answer ++ [(key, (containerFromRange cmin cmax step).getD (.array []))]
    let gap := cmax - cmin + step - 1
    let min_tmp := min_tmp + (gap - gap % step)
    if min_tmp < max then fromRangeLoop max step fuel min_tmp answer else some answer

/-- `roaring_bitmap_from_range`: `src/roaring.c:218-247`.  `fuel` bounds the number of loop rounds; `none` means
that the bound was reached. -/
def rbFromRange (fuel min max step : Nat) : Option (Option Bitmap) :=
  let max := if max ≥ 4294967296 then 4294967296 else max
  if step = 0 then some none
  else if max ≤ min then some none
  else if step ≥ 65536 then (fromRangeBig max step fuel min []).map some
  else (fromRangeLoop max step fuel min []).map some

end CRoaring
