import Verif.Model.BitmapMemLazy
import Verif.Model.BitmapMemRange
import Verif.Model.SimdExtract

/-! Shifts of bitmaps in memory, and the array of a range of ranks.  The words of a bitset are always 1024, and the loops over them are
those of `Model/Bitset`. -/

namespace CRoaring

variable (E : RbEnv)

/-- A result that is made only if it is asked for and not empty. -/
def optPart {α : Type} (c : Bool) (x : Out α) : Out (Option α) :=
  if c then do
    let v ← x
    .ok (some v)
  else .ok none

/-- `array_container_offset`: src/containers/array.c:103-127; `loc` and `hic` say which results are asked for. -/
def arrayOffsetIfBuf (b : ArrBuf) (loc hic : Bool) (offset : Nat) : Out (Option ArrBuf × Option ArrBuf) := do
  let top := 65536 - offset
  let lo_cap := (countLess (rdL b.vals) b.card top).toNat
  let hi_cap := b.card - lo_cap
  let lo ← optPart (loc && decide (lo_cap ≠ 0)) (offsetLoopBuf E.m.vals b.mem offset lo_cap 0 (arrayCreateBuf E.m.vals lo_cap))
  let hi ← optPart (hic && decide (hi_cap ≠ 0)) (offsetLoopBuf E.m.vals b.mem offset hi_cap lo_cap (arrayCreateBuf E.m.vals hi_cap))
  .ok (lo, hi)

/-- The loops of `run_container_offset`: src/containers/run.c:158-160, 168-170; `n` runs are left. -/
def runShiftLoop (offset : Nat) : Nat → Nat → RunBuf → Out RunBuf
  | 0, _, b => .ok b
  | n + 1, i, b => do
    let r ← rdRun b.mem i
    let b ← b.put i ((r.1 + offset) % 65536, r.2)
    runShiftLoop offset n (i + 1) b

/-- A new container with `cap` of the runs, shifted: src/containers/run.c:155-160, 165-170. -/
def runOffsetPartBuf (c : RunBuf) (start cap offset : Nat) : Out RunBuf := do
  let v ← getRuns c.mem start cap
  let mem ← cpRuns (E.m.runs cap) 0 v
  runShiftLoop offset cap 0 ⟨cap, mem⟩

/-- The last run of the low part: src/containers/run.c:176-180. -/
def runFixLoBuf (split : Bool) (lo : RunBuf) : Out RunBuf :=
  if split then do
    let r ← rdRun lo.mem (lo.n - 1)
    lo.put (lo.n - 1) (r.1, u16 (65536 - (r.1 : Int) - 1))
  else .ok lo

/-- The first run of the high part: src/containers/run.c:182-186. -/
def runFixHiBuf (split : Bool) (hi : RunBuf) : Out RunBuf :=
  if split then do
    let r ← rdRun hi.mem 0
    hi.put 0 (0, u16 ((r.2 : Int) - (65535 - r.1 + 1)))
  else .ok hi

/-- `run_container_offset`: src/containers/run.c:133-188.  A part is fixed just after it is made. -/
def runOffsetBuf (c : RunBuf) (loc hic : Bool) (offset : Nat) : Out (Option RunBuf × Option RunBuf) := do
  let top := 65536 - offset
  let pivot := runIndexEqualOrLarger c.vals (top % 65536)
  let split := decide (pivot ≠ -1) && decide ((rdR c.vals pivot.toNat).1 < top)
  let lo_cap := if pivot = -1 then c.n else pivot.toNat + (if split then 1 else 0)
  let hi_cap := if pivot = -1 then 0 else c.n - pivot.toNat
  let lo ← optPart (loc && decide (lo_cap ≠ 0)) (do
    let lo ← runOffsetPartBuf E c 0 lo_cap offset
    runFixLoBuf split lo)
  let hi ← optPart (hic && decide (hi_cap ≠ 0)) (do
    let hi ← runOffsetPartBuf E c pivot.toNat hi_cap offset
    runFixHiBuf split hi)
  .ok (lo, hi)

/-- `container_add_offset`: include/roaring/containers/containers.h:1519-1543. -/
def cAddOffsetBuf (c : CBuf) (lo hi : Bool) (offset : Nat) : Out (Option CBuf × Option CBuf) :=
  match c with
  | .bitset b =>
    let r := bitsetOffset b lo hi offset
    .ok (r.1.map .bitset, r.2.map .bitset)
  | .array a => do
    let r ← arrayOffsetIfBuf E a lo hi offset
    .ok (r.1.map .array, r.2.map .array)
  | .run r => do
    let r ← runOffsetBuf E r lo hi offset
    .ok (r.1.map .run, r.2.map .run)

/-- `offset_append_with_merge` when there is a last container: src/roaring.c:2125-2147. -/
def offsetMergeBuf (ra : RaBuf) (size k : Nat) (c : CBuf) : Out RaBuf := do
  let key ← raKeyBuf ra (size - 1)
  if key ≠ k then raAppendBuf E ra k c
  else do
    let last ← raContBuf ra (size - 1)
    let new ← cIorBuf E.m last c
    raSetBuf ra (size - 1) new

/-- `offset_append_with_merge`: src/roaring.c:2122-2148. -/
def offsetAppendBuf (ra : RaBuf) (k : Nat) (c : CBuf) : Out RaBuf :=
  if ra.size = 0 then raAppendBuf E ra k c else offsetMergeBuf E ra ra.size k c

/-- `ans_ra->keys[j] = key`: src/roaring.c:2189. -/
def raSetKeyBuf (b : RaBuf) (j key : Nat) : Out RaBuf := do
  let old ← cellAt b.mem j
  let mem ← setCell b.mem j (key, old.2)
  .ok ⟨b.size, mem⟩

/-- The loop of `roaring_bitmap_add_offset` when the offset is a multiple of 65536: src/roaring.c:2180-2190; `n` cells are left. -/
def offsetKeysLoopBuf (bm : RaBuf) (co : Int) : Nat → Nat → Nat → RaBuf → Out RaBuf
  | 0, _, _, ans => .ok ans
  | n + 1, i, j, ans => do
    let key ← raKeyBuf bm i
    let key := (key : Int) + co
    if key < 0 ∨ key ≥ 65536 then offsetKeysLoopBuf bm co n (i + 1) j ans
    else do
      let ans ← raAppendCopyBuf E ans bm i
      let ans ← raSetKeyBuf ans j key.toNat
      offsetKeysLoopBuf bm co n (i + 1) (j + 1) ans

/-- The low part, when there is one: src/roaring.c:2217-2219. -/
def offsetPutLoBuf (ans : RaBuf) (k : Int) : Option CBuf → Out RaBuf
  | some lo => offsetAppendBuf E ans k.toNat lo
  | none => .ok ans

/-- The high part, when there is one: src/roaring.c:2220-2222. -/
def offsetPutHiBuf (ans : RaBuf) (k : Int) : Option CBuf → Out RaBuf
  | some hi => raAppendBuf E ans (k + 1).toNat hi
  | none => .ok ans

/-- The body of the loop of `roaring_bitmap_add_offset` otherwise: src/roaring.c:2200-2222. -/
def offsetCellBuf (bm : RaBuf) (co : Int) (inOff i : Nat) (ans : RaBuf) : Out RaBuf := do
  let key ← raKeyBuf bm i
  let k := (key : Int) + co
  let loP : Bool := decide (k ≥ 0 ∧ k < 65536)
  let hiP : Bool := decide (k + 1 ≥ 0 ∧ k + 1 < 65536)
  if loP = false ∧ hiP = false then .ok ans
  else do
    let c ← raContBuf bm i
    let r ← cAddOffsetBuf E c loP hiP inOff
    let ans ← offsetPutLoBuf E ans k r.1
    offsetPutHiBuf E ans k r.2

/-- The loop of `roaring_bitmap_add_offset` otherwise: src/roaring.c:2199-2227; `n` cells are left. -/
def offsetCellsBuf (bm : RaBuf) (co : Int) (inOff : Nat) : Nat → Nat → RaBuf → Out RaBuf
  | 0, _, ans => .ok ans
  | n + 1, i, ans => do
    let ans ← offsetCellBuf E bm co inOff i ans
    offsetCellsBuf bm co inOff n (i + 1) ans

/-- `roaring_bitmap_add_offset`: src/roaring.c:2155-2231. -/
def rbAddOffsetBuf (bm : RaBuf) (offset : Int) : Out RaBuf :=
  if offset = 0 then rbCopyBuf E bm
  else
    let co := offset / 65536
    let inOff := ((offset - co * 65536) % 65536).toNat
    if inOff = 0 then offsetKeysLoopBuf E bm co bm.size 0 0 (rbCreateBuf E 0)
    else do
      let ans ← offsetCellsBuf E bm co inOff bm.size 0 (rbCreateBuf E 0)
      rbRepairBuf E ans

/-- `ra_range_uint32_array`: src/roaring_array.c:436-517, of a bitmap in memory, into an array of `limit` values, `ans`.  The cells are
read first; the code reads them until it has enough values. -/
def rbRangeArrayBuf (b : RaBuf) (offset limit : Nat) (ans : List Nat) : Out (List Nat) := do
  let r ← raLoadLoop b.mem b.size 0
  let p ← rangeMem E.m.hw r offset limit ans
  .ok p.1

end CRoaring
