import Verif.Model.BitmapMem
import Verif.Model.Range
import Verif.Model.Bulk
import Verif.Model.Query

/-! Bitmaps in memory: ranges, flips, many values at once, conversions.  The conventions are those of `Model/BitmapMem`. -/

namespace CRoaring

variable (E : RbEnv)

/-! ### Ranges -/

/-- The growth in `ra_shift_tail`: src/roaring_array.c:413-415. -/
def raShiftRoomBuf (b : RaBuf) (distance : Int) : Out RaBuf := if distance > 0 then extendArrayBuf E b distance.toNat else .ok b

/-- `ra_shift_tail`: src/roaring_array.c:412-424. -/
def raShiftTailBuf (b : RaBuf) (count : Nat) (distance : Int) : Out RaBuf := do
  let b ← raShiftRoomBuf E b distance
  let srcpos := b.size - count
  if (srcpos : Int) + distance < 0 then .oob
  else do
    let mem ← moveCells b.mem ((srcpos : Int) + distance).toNat srcpos count
    .ok ⟨((b.size : Int) + distance).toNat, mem⟩

/-- `src >= 0 && ra->keys[src] == key`: src/roaring.c:279. -/
def raKeyIsBuf (b : RaBuf) (src : Int) (key : Nat) : Out Bool :=
  if src ≥ 0 then do
    let c ← cellAt b.mem src.toNat
    .ok (c.1 == key)
  else .ok false

/-- `ra_replace_key_and_container_at_index` with an index that may be negative. -/
def raReplaceIntBuf (b : RaBuf) (i : Int) (key : Nat) (c : CBuf) : Out RaBuf := if i < 0 then .oob else raReplaceBuf b i.toNat key c

/-- The loop of `roaring_bitmap_add_range_closed`: src/roaring.c:275-297; `n` keys are left, so the current one is `minKey + n - 1`.
A new container of no values would be a null pointer, which is not stored here but ends the model (`Out.fail`). -/
def rbAddRangeLoopBuf (min max minKey maxKey : Nat) : Nat → RaBuf → Int → Int → Out RaBuf
  | 0, ra, _, _ => .ok ra
  | n + 1, ra, src, dst => do
    let found ← raKeyIsBuf ra src (minKey + n)
    if found then do
      let c ← cellAt ra.mem src.toNat
      let c2 ← cAddRangeBuf E.m (if minKey = minKey + n then min % 65536 else 0) (if maxKey = minKey + n then max % 65536 else 65535) c.2
      let ra ← raReplaceIntBuf ra dst (minKey + n) c2
      rbAddRangeLoopBuf min max minKey maxKey n ra (src - 1) (dst - 1)
    else do
      let o ← cFromRangeBuf E.m (if minKey = minKey + n then min % 65536 else 0)
        ((if maxKey = minKey + n then max % 65536 else 65535) + 1) 1
      match o with
      | none => .fail
      | some c2 => do
        let ra ← raReplaceIntBuf ra dst (minKey + n) c2
        rbAddRangeLoopBuf min max minKey maxKey n ra src (dst - 1)

/-- The room for the new containers, src/roaring.c:267-270. -/
def rbAddRangeRoomBuf (r : RaBuf) (num common suffix : Nat) : Out RaBuf :=
  if num > common then raShiftTailBuf E r suffix (num - common : Nat) else .ok r

/-- `roaring_bitmap_add_range_closed`: src/roaring.c:249-298. -/
def rbAddRangeClosedBuf (r : RaBuf) (min max : Nat) : Out RaBuf :=
  if min > max then .ok r
  else do
    let ks ← raKeysBuf r
    let suffix := (countGreater (rdL ks) r.size (max / 65536)).toNat
    let prefixLen := (countLess (rdL ks) (r.size - suffix) (min / 65536)).toNat
    let common := r.size - prefixLen - suffix
    let num := max / 65536 - min / 65536 + 1
    let ra ← rbAddRangeRoomBuf E r num common suffix
    rbAddRangeLoopBuf E min max (min / 65536) (max / 65536) num ra ((prefixLen : Int) + common - 1) ((ra.size : Int) - suffix - 1)

/-- The container that is left is written back, src/roaring.c:326-330: the bitmap and `dst`. -/
def rbKeepSomeBuf (r : RaBuf) (dst key : Nat) : Option CBuf → Out (RaBuf × Nat)
  | some c => do
    let r ← raReplaceBuf r dst key c
    .ok (r, dst + 1)
  | none => .ok (r, dst)

/-- The loop of `roaring_bitmap_remove_range_closed`: src/roaring.c:312-332; `n` cells are left.  The result is the bitmap, `src` and `dst`. -/
def rbRemoveRangeLoopBuf (min max minKey maxKey : Nat) : Nat → Nat → Nat → RaBuf → Out (RaBuf × Nat × Nat)
  | 0, src, dst, r => .ok (r, src, dst)
  | n + 1, src, dst, r => do
    let c ← cellAt r.mem src
    if c.1 ≤ maxKey then do
      let o ← cRemoveRangeBuf E.m (if minKey = c.1 then min % 65536 else 0) (if maxKey = c.1 then max % 65536 else 65535) c.2
      let p ← rbKeepSomeBuf r dst c.1 o
      rbRemoveRangeLoopBuf min max minKey maxKey n (src + 1) p.2 p.1
    else .ok (r, src, dst)

/-- `roaring_bitmap_remove_range_closed`: src/roaring.c:300-337. -/
def rbRemoveRangeClosedBuf (r : RaBuf) (min max : Nat) : Out RaBuf :=
  if min > max then .ok r
  else do
    let ks ← raKeysBuf r
    let src := (countLess (rdL ks) r.size (min / 65536)).toNat
    let p ← rbRemoveRangeLoopBuf E min max (min / 65536) (max / 65536) (r.size - src) src src r
    if p.2.1 > p.2.2 then raShiftTailBuf E p.1 (p.1.size - p.2.1) ((p.2.2 : Int) - p.2.1) else .ok p.1

/-! ### Flips -/

/-- `container_get_cardinality`: include/roaring/containers/containers.h:231-245. -/
def cCardBuf (c : CBuf) : Out Int := do
  let v ← c.load
  .ok (containerCard v)

/-- `insert_flipped_container`: src/roaring.c:1909-1935. -/
def insertFlippedBuf (ans x1 : RaBuf) (hb lbStart lbEnd : Nat) : Out RaBuf := do
  let i ← raGetIndexBuf x1 hb
  let j ← raGetIndexBuf ans hb
  if i ≥ 0 then do
    let c ← raContBuf x1 i.toNat
    let f ← cNotRangeBuf E.m lbStart (lbEnd + 1) c
    let n ← cCardBuf f
    if n ≠ 0 then raInsertBuf E ans (-j - 1).toNat hb f else .ok ans
  else do
    let f ← cRangeOfOnesBuf E.m lbStart (lbEnd + 1)
    raInsertBuf E ans (-j - 1).toNat hb f

/-- `inplace_flip_container`: src/roaring.c:1937-1962. -/
def inplaceFlipBuf (x1 : RaBuf) (hb lbStart lbEnd : Nat) : Out RaBuf := do
  let i ← raGetIndexBuf x1 hb
  if i ≥ 0 then do
    let c ← raContBuf x1 i.toNat
    let f ← cInotRangeBuf E.m lbStart (lbEnd + 1) c
    let n ← cCardBuf f
    if n ≠ 0 then raSetBuf x1 i.toNat f else raRemoveBuf x1 i.toNat
  else do
    let f ← cRangeOfOnesBuf E.m lbStart (lbEnd + 1)
    raInsertBuf E x1 (-i - 1).toNat hb f

/-- `insert_fully_flipped_container`: src/roaring.c:1964-1986. -/
def insertFullyFlippedBuf (ans x1 : RaBuf) (hb : Nat) : Out RaBuf := do
  let i ← raGetIndexBuf x1 hb
  let j ← raGetIndexBuf ans hb
  if i ≥ 0 then do
    let c ← raContBuf x1 i.toNat
    let f ← cNotBuf E.m c
    let n ← cCardBuf f
    if n ≠ 0 then raInsertBuf E ans (-j - 1).toNat hb f else .ok ans
  else do
    let f ← cRangeOfOnesBuf E.m 0 65536
    raInsertBuf E ans (-j - 1).toNat hb f

/-- `inplace_fully_flip_container`: src/roaring.c:1988-2011. -/
def inplaceFullyFlipBuf (x1 : RaBuf) (hb : Nat) : Out RaBuf := do
  let i ← raGetIndexBuf x1 hb
  if i ≥ 0 then do
    let c ← raContBuf x1 i.toNat
    let f ← cInotBuf E.m c
    let n ← cCardBuf f
    if n ≠ 0 then raSetBuf x1 i.toNat f else raRemoveBuf x1 i.toNat
  else do
    let f ← cRangeOfOnesBuf E.m 0 65536
    raInsertBuf E x1 (-i - 1).toNat hb f

/-- `ra_append_copy` without copy-on-write: src/roaring_array.c:223-242; the index is a `uint16_t`. -/
def raAppendCopyBuf (ra sa : RaBuf) (index : Nat) : Out RaBuf := do
  let ra ← extendArrayBuf E ra 1
  let s ← cellAt sa.mem (index % 65536)
  let c ← cCloneBuf E.m s.2
  let mem ← setCell ra.mem ra.size (s.1, c)
  .ok ⟨ra.size + 1, mem⟩

/-- `ra_append_copies_until`: src/roaring_array.c:244-250; `n` cells are left. -/
def raCopiesUntilBuf (sa : RaBuf) (stopping_key : Nat) : Nat → Nat → RaBuf → Out RaBuf
  | 0, _, ra => .ok ra
  | n + 1, i, ra => do
    let s ← cellAt sa.mem i
    if s.1 ≥ stopping_key then .ok ra
    else do
      let ra ← raAppendCopyBuf E ra sa i
      raCopiesUntilBuf sa stopping_key n (i + 1) ra

/-- `ra_append_copies_after`: src/roaring_array.c:273-281. -/
def raCopiesAfterBuf (ra sa : RaBuf) (before_start : Nat) : Out RaBuf := do
  let i ← raGetIndexBuf sa before_start
  raAppendCopyRangeBuf E ra sa (if i ≥ 0 then (i + 1).toNat else (-i - 1).toNat) sa.size

/-- `for (hb = lo; n times; ++hb) x = f x hb`. -/
def forKeysBuf (f : RaBuf → Nat → Out RaBuf) : Nat → Nat → RaBuf → Out RaBuf
  | 0, _, x => .ok x
  | n + 1, hb, x => do
    let x ← f x hb
    forKeysBuf f n (hb + 1) x

/-- The first container of a flip, if it is a partial one, src/roaring.c:2047-2053. -/
def flipFirstBuf (ans x1 : RaBuf) (hbStart lbStart : Nat) : Out RaBuf :=
  if lbStart > 0 then insertFlippedBuf E ans x1 hbStart lbStart 65535 else .ok ans

/-- The last container of a flip, if it is a partial one, src/roaring.c:2064-2069. -/
def flipLastBuf (ans x1 : RaBuf) (hbEnd lbEnd : Nat) : Out RaBuf :=
  if lbEnd ≠ 65535 then insertFlippedBuf E ans x1 (hbEnd + 1) 0 lbEnd else .ok ans

/-- `roaring_bitmap_flip_closed`: src/roaring.c:2023-2073. -/
def rbFlipClosedBuf (x1 : RaBuf) (rs re : Nat) : Out RaBuf :=
  if rs > re then rbCopyBuf E x1
  else do
    let hbStart := rs / 65536
    let lbStart := rs % 65536
    let hbEnd := re / 65536
    let lbEnd := re % 65536
    let ans ← raCopiesUntilBuf E x1 hbStart x1.size 0 (rbCreateBuf E 0)
    if hbStart = hbEnd then do
      let ans ← insertFlippedBuf E ans x1 hbStart lbStart lbEnd
      raCopiesAfterBuf E ans x1 hbEnd
    else do
      let ans ← flipFirstBuf E ans x1 hbStart lbStart
      let lo := if lbStart > 0 then hbStart + 1 else hbStart
      let hi := if lbEnd ≠ 65535 then hbEnd - 1 else hbEnd
      let ans ← forKeysBuf (fun a hb => insertFullyFlippedBuf E a x1 hb) (hi + 1 - lo) lo ans
      let ans ← flipLastBuf E ans x1 hi lbEnd
      raCopiesAfterBuf E ans x1 (if lbEnd ≠ 65535 then hi + 1 else hi)

/-- The first container of a flip in place, if it is a partial one, src/roaring.c:2101-2106. -/
def flipFirstInplaceBuf (x1 : RaBuf) (hbStart lbStart : Nat) : Out RaBuf :=
  if lbStart > 0 then inplaceFlipBuf E x1 hbStart lbStart 65535 else .ok x1

/-- The last container of a flip in place, if it is a partial one, src/roaring.c:2114-2118. -/
def flipLastInplaceBuf (x1 : RaBuf) (hbEnd lbEnd : Nat) : Out RaBuf :=
  if lbEnd ≠ 65535 then inplaceFlipBuf E x1 (hbEnd + 1) 0 lbEnd else .ok x1

/-- `roaring_bitmap_flip_inplace_closed`: src/roaring.c:2084-2120. -/
def rbFlipInplaceClosedBuf (x1 : RaBuf) (rs re : Nat) : Out RaBuf :=
  if rs > re then .ok x1
  else
    let hbStart := rs / 65536
    let lbStart := rs % 65536
    let hbEnd := re / 65536
    let lbEnd := re % 65536
    if hbStart = hbEnd then inplaceFlipBuf E x1 hbStart lbStart lbEnd
    else do
      let x1 ← flipFirstInplaceBuf E x1 hbStart lbStart
      let lo := if lbStart > 0 then hbStart + 1 else hbStart
      let hi := if lbEnd ≠ 65535 then hbEnd - 1 else hbEnd
      let x1 ← forKeysBuf (inplaceFullyFlipBuf E) (hi + 1 - lo) lo x1
      flipLastInplaceBuf E x1 hi lbEnd

/-! ### Many values -/

/-- The index that `containerptr_roaring_bitmap_add` reports, src/roaring.c:51-82, for the position `i` that `ra_get_index` found. -/
def addedIndex (i : Int) : Nat := if i ≥ 0 then i.toNat else (-i - 1).toNat

/-- `containerptr_roaring_bitmap_add` within `add_bulk_impl`: src/roaring.c:104-113; the bitmap and the new context. -/
def rbAddSeekBuf (r : RaBuf) (val : Nat) : Out (RaBuf × BulkCtx) := do
  let i ← raGetIndexBuf r (val / 65536)
  let r ← rbAddBuf E r val
  .ok (r, some (addedIndex i, val / 65536))

/-- `add_bulk_impl`: src/roaring.c:102-130.  The container of the context is the one in the cell of its index, as in `Model/Bulk`. -/
def rbAddBulkBuf (r : RaBuf) (ctx : BulkCtx) (val : Nat) : Out (RaBuf × BulkCtx) :=
  match ctx with
  | none => rbAddSeekBuf E r val
  | some (idx, k) =>
    if k ≠ val / 65536 then rbAddSeekBuf E r val
    else do
      let c ← cellAt r.mem idx
      let c2 ← cAddBuf E.m (val % 65536) c.2
      let r ← raSetBuf r idx c2
      .ok (r, some (idx, k))

/-- The loop of `roaring_bitmap_add_many`: src/roaring.c:151-154. -/
def rbAddManyLoopBuf : RaBuf → BulkCtx → List Nat → Out RaBuf
  | r, _, [] => .ok r
  | r, ctx, v :: vs => do
    let p ← rbAddBulkBuf E r ctx v
    rbAddManyLoopBuf p.1 p.2 vs

/-- `roaring_bitmap_add_many`: src/roaring.c:132-155. -/
def rbAddManyBuf (r : RaBuf) (vals : List Nat) : Out RaBuf :=
  match vals with
  | [] => .ok r
  | v :: vs => do
    let p ← rbAddSeekBuf E r v
    rbAddManyLoopBuf E p.1 p.2 (v :: vs)

/-- `pos < 0 || key != r->high_low_container.keys[pos]`: src/roaring.c:673-675. -/
def rbRemoveSeekBuf (r : RaBuf) (pos : Int) (key : Nat) : Out Int :=
  if pos < 0 then raGetIndexBuf r key
  else do
    let c ← cellAt r.mem pos.toNat
    if key ≠ c.1 then raGetIndexBuf r key else .ok pos

/-- The loop of `roaring_bitmap_remove_many`: src/roaring.c:671-694. -/
def rbRemoveManyLoopBuf : RaBuf → Int → List Nat → Out RaBuf
  | r, _, [] => .ok r
  | r, pos, v :: vs => do
    let pos ← rbRemoveSeekBuf r pos (v / 65536)
    if pos ≥ 0 then do
      let c ← cellAt r.mem pos.toNat
      let c2 ← cRemoveBuf E.m (v % 65536) c.2
      let r ← raReplaceBuf r pos.toNat (v / 65536) c2
      if cNonzeroBuf c2 then rbRemoveManyLoopBuf r pos vs
      else do
        let r ← raRemoveBuf r pos.toNat
        rbRemoveManyLoopBuf r (-1) vs
    else rbRemoveManyLoopBuf r pos vs

/-- `roaring_bitmap_remove_many`: src/roaring.c:663-695. -/
def rbRemoveManyBuf (r : RaBuf) (vals : List Nat) : Out RaBuf :=
  if vals.length = 0 ∨ r.size = 0 then .ok r else rbRemoveManyLoopBuf E r (-1) vals

/-! ### Conversions -/

/-- `for (i = 0; i < size; i++)` with a conversion of the container of the cell `i`; `n` cells are left. -/
def mapCellsBuf (f : CBuf → Out CBuf) : Nat → Nat → RaBuf → Out RaBuf
  | 0, _, r => .ok r
  | n + 1, i, r => do
    let c ← raContBuf r i
    let c2 ← f c
    let r ← raSetBuf r i c2
    mapCellsBuf f n (i + 1) r

/-- `roaring_bitmap_run_optimize`: src/roaring.c:1410-1426, without the answer. -/
def rbRunOptimizeBuf (r : RaBuf) : Out RaBuf := mapCellsBuf (cRunOptimizeBuf E.m) r.size 0 r

/-- The conversion of one container in `roaring_bitmap_remove_run_compression`: src/roaring.c:1450-1469. -/
def cRemoveRunBuf : CBuf → Out CBuf
  | .run r => do
    let rs ← r.load
    if runCard rs ≤ DEFAULT_MAX_SIZE then do
      let a ← convertToArrayBuf E.m.vals r (runCard rs)
      .ok (.array a)
    else .ok (.bitset ⟨runCard rs, setRuns zeros rs⟩)
  | c => .ok c

/-- `roaring_bitmap_remove_run_compression`: src/roaring.c:1444-1472, without the answer. -/
def rbRemoveRunCompressionBuf (r : RaBuf) : Out RaBuf := mapCellsBuf (cRemoveRunBuf E) r.size 0 r

/-- `roaring_bitmap_shrink_to_fit`: src/roaring.c:1428-1438, without the number of bytes it returns. -/
def rbShrinkBuf (r : RaBuf) : Out RaBuf := do
  let r ← mapCellsBuf (fun c => .ok (cShrinkBuf c).1) r.size 0 r
  raShrinkBuf E r

/-- The loop over 32-bit values of `roaring_bitmap_from_range`: src/roaring.c:228-231; `fuel` bounds the rounds. -/
def fromRangeBigBuf (max step : Nat) : Nat → Nat → RaBuf → Out RaBuf
  | 0, _, _ => .fail
  | fuel + 1, value, answer =>
    if value < max then do
      let answer ← rbAddBuf E answer value
      fromRangeBigBuf max step fuel ((value + step) % 4294967296) answer
    else .ok answer

/-- The do-while loop of `roaring_bitmap_from_range`: src/roaring.c:233-245; `fuel` bounds the rounds. -/
def fromRangeLoopBuf (max step : Nat) : Nat → Nat → RaBuf → Out RaBuf
  | 0, _, _ => .fail
  | fuel + 1, min_tmp, answer => do
    let o ← cFromRangeBuf E.m (min_tmp % 65536) (Nat.min (max - min_tmp % 4294967296 / 65536 * 65536) 65536) step
    match o with
    | none => .fail
    | some c => do
      let answer ← raAppendBuf E answer (min_tmp % 4294967296 / 65536) c
      let gap := Nat.min (max - min_tmp % 4294967296 / 65536 * 65536) 65536 - min_tmp % 65536 + step - 1
      if min_tmp + (gap - gap % step) < max then fromRangeLoopBuf max step fuel (min_tmp + (gap - gap % step)) answer else .ok answer

/-- `roaring_bitmap_from_range`: src/roaring.c:218-247; `none` is `NULL`. -/
def rbFromRangeBuf (min max step : Nat) : Out (Option RaBuf) :=
  let max := if max ≥ 4294967296 then 4294967296 else max
  if step = 0 then .ok none
  else if max ≤ min then .ok none
  else if step ≥ 65536 then do
    let r ← fromRangeBigBuf E max step 65537 min (rbCreateBuf E 0)
    .ok (some r)
  else do
    let r ← fromRangeLoopBuf E max step 65537 min (rbCreateBuf E 0)
    .ok (some r)

end CRoaring
