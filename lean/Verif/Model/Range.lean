import Verif.Model.Bitmap

/-! Model of the range operations of src/roaring.c. -/

namespace CRoaring

/-- `ra_shift_tail` with a positive distance: `src/roaring_array.c:412-424`.  The cells of the opened gap keep
stale contents; those past the old end are uninitialised (here: a default cell). -/
def raShiftTail (r : Bitmap) (count distance : Nat) : Bitmap :=
  let srcpos := r.length - count
  r.take srcpos ++ (List.range distance).map (fun j => r.getD (srcpos + j) (0, .array [])) ++ r.drop srcpos

/-- The loop of `roaring_bitmap_add_range_closed`: `src/roaring.c:275-297`; `n` is the number of keys still to be
handled, so that the current key is `minKey + n - 1`. -/
def rbAddRangeLoop (min max minKey maxKey : Nat) : Nat → Bitmap → Int → Int → Bitmap
  | 0, ra, _, _ => ra
  | n + 1, ra, src, dst =>
    let key := minKey + n
    let cmin := if minKey = key then min % 65536 else 0
    let cmax := if maxKey = key then max % 65536 else 65535
    if src ≥ 0 ∧ keyAt ra src.toNat = key then
      rbAddRangeLoop min max minKey maxKey n
        (ra.set dst.toNat (key, containerAddRange cmin cmax (contAt ra src.toNat))) (src - 1) (dst - 1)
    else
      rbAddRangeLoop min max minKey maxKey n
        (ra.set dst.toNat (key, (containerFromRange cmin (cmax + 1) 1).getD (.array []))) src (dst - 1)

/-- `roaring_bitmap_add_range_closed`: `src/roaring.c:249-298`. -/
def rbAddRangeClosed (r : Bitmap) (min max : Nat) : Bitmap :=
  if min > max then r
  else
    let minKey := min / 65536
    let maxKey := max / 65536
    let num := maxKey - minKey + 1
    let suffix := (countGreater (rdL (keysOf r)) r.length maxKey).toNat
    let prefixLen := (countLess (rdL (keysOf r)) (r.length - suffix) minKey).toNat
    let common := r.length - prefixLen - suffix
    let ra := if num > common then raShiftTail r suffix (num - common) else r
    rbAddRangeLoop min max minKey maxKey num ra ((prefixLen : Int) + common - 1)
      ((ra.length : Int) - suffix - 1)

/-- The loop of `roaring_bitmap_remove_range_closed` and the final shift of the tail: `src/roaring.c:312-336`, on
the cells from `src` on. -/
def rbRemoveRangeLoop (min max minKey maxKey : Nat) : Bitmap → Bitmap
  | [] => []
  | (k, c) :: t =>
    if k ≤ maxKey then
      let cmin := if minKey = k then min % 65536 else 0
      let cmax := if maxKey = k then max % 65536 else 65535
      match containerRemoveRange cmin cmax c with
      | some c' => (k, c') :: rbRemoveRangeLoop min max minKey maxKey t
      | none => rbRemoveRangeLoop min max minKey maxKey t
    else (k, c) :: t

/-- `roaring_bitmap_remove_range_closed`: `src/roaring.c:300-337`. -/
def rbRemoveRangeClosed (r : Bitmap) (min max : Nat) : Bitmap :=
  if min > max then r
  else
    let minKey := min / 65536
    let maxKey := max / 65536
    let src := (countLess (rdL (keysOf r)) r.length minKey).toNat
    r.take src ++ rbRemoveRangeLoop min max minKey maxKey (r.drop src)

/-- `roaring_bitmap_add_range`: `include/roaring/roaring.h:402-408`. -/
def rbAddRange (r : Bitmap) (min max : Nat) : Bitmap :=
  if max ≤ min ∨ min > 4294967296 then r
  else rbAddRangeClosed r (min % 4294967296) ((max - 1) % 4294967296)

/-- `roaring_bitmap_remove_range`: `include/roaring/roaring.h:424-430`. -/
def rbRemoveRange (r : Bitmap) (min max : Nat) : Bitmap :=
  if max ≤ min ∨ min > 4294967296 then r
  else rbRemoveRangeClosed r (min % 4294967296) ((max - 1) % 4294967296)

/-- `roaring_bitmap_contains_range_closed`: `src/roaring.c:2863-2907`. -/
def rbContainsRangeClosed (r : Bitmap) (rs re : Nat) : Bool :=
  if rs > re then true
  else if re = rs then rbContains r rs
  else
    let hrs := rs / 65536
    let hre := re / 65536
    let span : Int := (hre : Int) - hrs
    let sz : Int := r.length
    if sz < span + 1 then false
    else
      let is := raGetIndex r hrs
      let ie := raGetIndex r hre
      if ie < 0 ∨ is < 0 ∨ ie - is ≠ span ∨ ie ≥ sz then false
      else
        let lrs := rs % 65536
        let lre := re % 65536 + 1
        if hrs = hre then containerContainsRange lrs lre (contAt r is.toNat)
        else if !containerContainsRange lrs 65536 (contAt r is.toNat) then false
        else if !containerContainsRange 0 lre (contAt r ie.toNat) then false
        else ((r.take ie.toNat).drop (is.toNat + 1)).all (fun p => containerIsFull p.2)

/-- `roaring_bitmap_contains_range`: `src/roaring.c:2850-2857`. -/
def rbContainsRange (r : Bitmap) (rs re : Nat) : Bool :=
  if rs ≥ re ∨ rs > 4294967296 then true
  else rbContainsRangeClosed r (rs % 4294967296) ((re - 1) % 4294967296)

/-- The final loop of `roaring_bitmap_range_cardinality_closed`: `src/roaring.c:1374-1386`. -/
def rangeCardLoop (maxhb lo : Nat) : Nat → Bitmap → Nat
  | card, [] => card
  | card, (key, c) :: t =>
    if key < maxhb then rangeCardLoop maxhb lo (u64 (card + containerCard c)) t
    else if key = maxhb then u64 (card + containerRank lo c)
    else card

/-- `roaring_bitmap_range_cardinality_closed`: `src/roaring.c:1341-1389`. -/
def rbRangeCardinalityClosed (r : Bitmap) (rs re : Nat) : Nat :=
  if rs > re then 0
  else
    let minhb := rs / 65536
    let maxhb := re / 65536
    let i := raGetIndex r minhb
    if i ≥ 0 then
      let c := contAt r i.toNat
      let card := if minhb = maxhb then u64 (containerRank (re % 65536) c) else u64 (containerCard c)
      let card := if rs % 65536 ≠ 0 then u64 (card - containerRank (rs % 65536 - 1) c) else card
      rangeCardLoop maxhb (re % 65536) card (r.drop (i.toNat + 1))
    else rangeCardLoop maxhb (re % 65536) 0 (r.drop (-i - 1).toNat)

/-- `roaring_bitmap_range_cardinality`: `src/roaring.c:1331-1339`. -/
def rbRangeCardinality (r : Bitmap) (rs re : Nat) : Nat :=
  if rs ≥ re ∨ rs > 4294967296 then 0
  else rbRangeCardinalityClosed r (rs % 4294967296) ((re - 1) % 4294967296)

/-- `insert_flipped_container`: `src/roaring.c:1909-1935`. -/
def insertFlipped (ans x1 : Bitmap) (hb lbStart lbEnd : Nat) : Bitmap :=
  let i := raGetIndex x1 hb
  let j := raGetIndex ans hb
  if i ≥ 0 then
    let c := containerNotRange lbStart (lbEnd + 1) (contAt x1 i.toNat)
    if containerCard c ≠ 0 then raInsertAt ans (-j - 1).toNat hb c else ans
  else raInsertAt ans (-j - 1).toNat hb (containerRangeOfOnes lbStart (lbEnd + 1))

/-- `inplace_flip_container`: `src/roaring.c:1937-1962`. -/
def inplaceFlip (x1 : Bitmap) (hb lbStart lbEnd : Nat) : Bitmap :=
  let i := raGetIndex x1 hb
  if i ≥ 0 then
    let c := containerNotRange lbStart (lbEnd + 1) (contAt x1 i.toNat)
    if containerCard c ≠ 0 then raSet x1 i.toNat c else raRemoveAt x1 i.toNat
  else raInsertAt x1 (-i - 1).toNat hb (containerRangeOfOnes lbStart (lbEnd + 1))

/-- `insert_fully_flipped_container`: `src/roaring.c:1964-1986`. -/
def insertFullyFlipped (ans x1 : Bitmap) (hb : Nat) : Bitmap :=
  let i := raGetIndex x1 hb
  let j := raGetIndex ans hb
  if i ≥ 0 then
    let c := containerNot (contAt x1 i.toNat)
    if containerCard c ≠ 0 then raInsertAt ans (-j - 1).toNat hb c else ans
  else raInsertAt ans (-j - 1).toNat hb (containerRangeOfOnes 0 65536)

/-- `inplace_fully_flip_container`: `src/roaring.c:1988-2011`. -/
def inplaceFullyFlip (x1 : Bitmap) (hb : Nat) : Bitmap :=
  let i := raGetIndex x1 hb
  if i ≥ 0 then
    let c := containerNot (contAt x1 i.toNat)
    if containerCard c ≠ 0 then raSet x1 i.toNat c else raRemoveAt x1 i.toNat
  else raInsertAt x1 (-i - 1).toNat hb (containerRangeOfOnes 0 65536)

/-- `ra_append_copies_until`: `src/roaring_array.c:244-250`, on an empty `ra`. -/
def raCopiesUntil (sa : Bitmap) (stopping : Nat) : Bitmap := sa.takeWhile (fun p => decide (p.1 < stopping))

/-- `ra_append_copies_after`: `src/roaring_array.c:273-281`: the appended cells. -/
def raCopiesAfter (sa : Bitmap) (before : Nat) : Bitmap :=
  let i := raGetIndex sa before
  if i ≥ 0 then sa.drop (i + 1).toNat else sa.drop (-i - 1).toNat

/-- `for (hb = lo; hb <= hi; ++hb) x = f x hb`. -/
def forKeys {α : Type} (f : α → Nat → α) (lo hi : Nat) (x : α) : α :=
  (List.range' lo (hi + 1 - lo)).foldl f x

/-- `roaring_bitmap_flip_closed`: `src/roaring.c:2023-2073`. -/
def rbFlipClosed (x1 : Bitmap) (rs re : Nat) : Bitmap :=
  if rs > re then rbCopy x1
  else
    let hbStart := rs / 65536
    let lbStart := rs % 65536
    let hbEnd := re / 65536
    let lbEnd := re % 65536
    let ans := raCopiesUntil x1 hbStart
    if hbStart = hbEnd then insertFlipped ans x1 hbStart lbStart lbEnd ++ raCopiesAfter x1 hbEnd
    else
      let p := if lbStart > 0 then (insertFlipped ans x1 hbStart lbStart 65535, hbStart + 1) else (ans, hbStart)
      let hbEnd := if lbEnd ≠ 65535 then hbEnd - 1 else hbEnd
      let ans := forKeys (fun a hb => insertFullyFlipped a x1 hb) p.2 hbEnd p.1
      let q := if lbEnd ≠ 65535 then (insertFlipped ans x1 (hbEnd + 1) 0 lbEnd, hbEnd + 1) else (ans, hbEnd)
      q.1 ++ raCopiesAfter x1 q.2

/-- `roaring_bitmap_flip_inplace_closed`: `src/roaring.c:2084-2120`. -/
def rbFlipInplaceClosed (x1 : Bitmap) (rs re : Nat) : Bitmap :=
  if rs > re then x1
  else
    let hbStart := rs / 65536
    let lbStart := rs % 65536
    let hbEnd := re / 65536
    let lbEnd := re % 65536
    if hbStart = hbEnd then inplaceFlip x1 hbStart lbStart lbEnd
    else
      let p := if lbStart > 0 then (inplaceFlip x1 hbStart lbStart 65535, hbStart + 1) else (x1, hbStart)
      let hbEnd := if lbEnd ≠ 65535 then hbEnd - 1 else hbEnd
      let x := forKeys inplaceFullyFlip p.2 hbEnd p.1
      if lbEnd ≠ 65535 then inplaceFlip x (hbEnd + 1) 0 lbEnd else x

/-- `roaring_bitmap_flip`: `src/roaring.c:2013-2021`. -/
def rbFlip (x1 : Bitmap) (rs re : Nat) : Bitmap :=
  if rs ≥ re ∨ rs > 4294967296 then rbCopy x1
  else rbFlipClosed x1 (rs % 4294967296) ((re - 1) % 4294967296)

/-- `roaring_bitmap_flip_inplace`: `src/roaring.c:2075-2082`. -/
def rbFlipInplace (x1 : Bitmap) (rs re : Nat) : Bitmap :=
  if rs ≥ re ∨ rs > 4294967296 then x1
  else rbFlipInplaceClosed x1 (rs % 4294967296) ((re - 1) % 4294967296)

end CRoaring
