import Verif.Model.BitmapMemRange
import Verif.Model.BitmapMemQuery

/-! Bitmaps in memory: the functions of half-open ranges with 64-bit ends, and the constructors from lists of values.  The conventions are
those of `Model/BitmapMem`. -/

namespace CRoaring
variable (E : RbEnv)

/-- `roaring_bitmap_add_range`: include/roaring/roaring.h:402-408. -/
def rbAddRangeBuf (r : RaBuf) (min max : Nat) : Out RaBuf :=
  if max ≤ min ∨ min > 4294967296 then .ok r else rbAddRangeClosedBuf E r (min % 4294967296) ((max - 1) % 4294967296)

/-- `roaring_bitmap_remove_range`: include/roaring/roaring.h:424-430. -/
def rbRemoveRangeBuf (r : RaBuf) (min max : Nat) : Out RaBuf :=
  if max ≤ min ∨ min > 4294967296 then .ok r else rbRemoveRangeClosedBuf E r (min % 4294967296) ((max - 1) % 4294967296)

/-- `roaring_bitmap_flip`: src/roaring.c:2013-2021. -/
def rbFlipBuf (x1 : RaBuf) (rs re : Nat) : Out RaBuf :=
  if rs ≥ re ∨ rs > 4294967296 then rbCopyBuf E x1 else rbFlipClosedBuf E x1 (rs % 4294967296) ((re - 1) % 4294967296)

/-- `roaring_bitmap_flip_inplace`: src/roaring.c:2075-2082. -/
def rbFlipInplaceBuf (x1 : RaBuf) (rs re : Nat) : Out RaBuf :=
  if rs ≥ re ∨ rs > 4294967296 then .ok x1 else rbFlipInplaceClosedBuf E x1 (rs % 4294967296) ((re - 1) % 4294967296)

/-- `roaring_bitmap_contains_range`: src/roaring.c:2850-2857. -/
def rbContainsRangeBuf (r : RaBuf) (rs re : Nat) : Out Bool :=
  if rs ≥ re ∨ rs > 4294967296 then .ok true else rbContainsRangeClosedBuf r (rs % 4294967296) ((re - 1) % 4294967296)

/-- `roaring_bitmap_range_cardinality`: src/roaring.c:1331-1339. -/
def rbRangeCardinalityBuf (r : RaBuf) (rs re : Nat) : Out Nat :=
  if rs ≥ re ∨ rs > 4294967296 then .ok 0 else rbRangeCardinalityClosedBuf r (rs % 4294967296) ((re - 1) % 4294967296)

/-- `roaring_bitmap_of_ptr`: src/roaring.c:193-197. -/
def rbOfPtrBuf (vals : List Nat) : Out RaBuf := rbAddManyBuf E (rbCreateBuf E 0) vals

/-- `roaring_bitmap_of`: src/roaring.c:199-212. -/
def rbOfBuf (vals : List Nat) : Out RaBuf := rbAddManyLoopBuf E (rbCreateBuf E 0) none vals

end CRoaring
