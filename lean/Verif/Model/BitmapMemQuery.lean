import Verif.Model.BitmapMemOffset
import Verif.Model.Query

/-! Questions about bitmaps in memory: the functions of src/roaring.c that read the cells of one or two bitmaps by index and answer with
a number or a truth value.  A container is read through `CBuf.load`, which gives what is in its block and is `Out.oob` if the counter of
the container exceeds the block; the answer of a container is that of the function on its values. -/

namespace CRoaring

/-- `keys[i]`, and the container in `containers[i]` as it is read. -/
def loadCell (mem : List RCell) (i : Nat) : Out (Nat × Container) := do
  let c ← cellAt mem i
  let v ← c.2.load
  .ok (c.1, v)

/-! ### One bitmap -/

/-- `roaring_bitmap_is_empty`: src/roaring.c:1392-1394. -/
def rbIsEmptyBuf (r : RaBuf) : Bool := r.size == 0

/-- The loop of `roaring_bitmap_get_cardinality`: src/roaring.c:1326-1327; `n` cells are left. -/
def rbCardLoopBuf (mem : List RCell) : Nat → Nat → Nat → Out Nat
  | 0, _, card => .ok card
  | n + 1, i, card => do
    let c ← loadCell mem i
    rbCardLoopBuf mem n (i + 1) (u64 (card + containerCard c.2))

/-- `roaring_bitmap_get_cardinality`: src/roaring.c:1322-1329. -/
def rbCardinalityBuf (r : RaBuf) : Out Nat := rbCardLoopBuf r.mem r.size 0 0

/-- The loop of `roaring_bitmap_rank`: src/roaring.c:2589-2602; `n` cells are left. -/
def rbRankLoopBuf (mem : List RCell) (x : Nat) : Nat → Nat → Nat → Out Nat
  | 0, _, size => .ok size
  | n + 1, i, size => do
    let c ← loadCell mem i
    if x / 65536 > c.1 then rbRankLoopBuf mem x n (i + 1) (u64 (size + containerCard c.2))
    else if x / 65536 = c.1 then .ok (u64 (size + containerRank (x % 65536) c.2))
    else .ok size

/-- `roaring_bitmap_rank`: src/roaring.c:2586-2604. -/
def rbRankBuf (r : RaBuf) (x : Nat) : Out Nat := rbRankLoopBuf r.mem x r.size 0 0

/-- The loop of `roaring_bitmap_get_index`: src/roaring.c:2642-2657; `n` cells are left. -/
def rbGetIndexLoopBuf (mem : List RCell) (x high : Nat) : Nat → Nat → Int → Out Int
  | 0, _, index => .ok index
  | n + 1, i, index => do
    let c ← loadCell mem i
    if x / 65536 > c.1 then rbGetIndexLoopBuf mem x high n (i + 1) (index + containerCard c.2)
    else if x / 65536 = c.1 then do
      let h ← loadCell mem high
      .ok (if containerGetIndex (x % 65536) h.2 < 0 then -1 else index + containerGetIndex (x % 65536) h.2)
    else .ok (-1)

/-- `roaring_bitmap_get_index`: src/roaring.c:2636-2659. -/
def rbGetIndexBuf (r : RaBuf) (x : Nat) : Out Int := do
  let i ← raGetIndexBuf r (x / 65536)
  if i < 0 then .ok (-1) else rbGetIndexLoopBuf r.mem x i.toNat r.size 0 0

/-- `roaring_bitmap_minimum`: src/roaring.c:2665-2675. -/
def rbMinimumBuf (r : RaBuf) : Out Nat :=
  if r.size > 0 then do
    let c ← loadCell r.mem 0
    .ok (containerMin c.2 ||| (c.1 <<< 16))
  else .ok 4294967295

/-- `roaring_bitmap_maximum`: src/roaring.c:2681-2692. -/
def rbMaximumBuf (r : RaBuf) : Out Nat :=
  if r.size > 0 then do
    let c ← loadCell r.mem (r.size - 1)
    .ok (containerMax c.2 ||| (c.1 <<< 16))
  else .ok 0

/-- The loop of `roaring_bitmap_select`: src/roaring.c:2702-2708, and the end, 2710-2715; `n` cells are left.  `none` is the answer
`false`; undefined behaviour inside of a container is `Out.oob`. -/
def rbSelectLoopBuf (mem : List RCell) (rank : Nat) : Nat → Nat → Nat → Out (Option Nat)
  | 0, _, _ => .ok none
  | n + 1, i, start_rank => do
    let c ← loadCell mem i
    match containerSelect start_rank rank c.2 with
    | none => .oob
    | some (.inl e) => .ok (some (e ||| (c.1 <<< 16)))
    | some (.inr sr) => rbSelectLoopBuf mem rank n (i + 1) sr

/-- `roaring_bitmap_select`: src/roaring.c:2694-2716. -/
def rbSelectBuf (r : RaBuf) (rank : Nat) : Out (Option Nat) := rbSelectLoopBuf r.mem rank r.size 0 0

/-- The loop of `ra_to_uint32_array`: src/roaring_array.c:428-433, into the array `ans`; `n` cells are left. -/
def rbToArrayLoopBuf (hw : Hw) (mem : List RCell) : Nat → Nat → List Nat → Nat → Out (List Nat)
  | 0, _, ans, _ => .ok ans
  | n + 1, i, ans, ctr => do
    let c ← loadCell mem i
    let p ← containerToMem hw (c.1 <<< 16) c.2 ans ctr
    rbToArrayLoopBuf hw mem n (i + 1) p.1 p.2

/-- `roaring_bitmap_to_uint32_array`: src/roaring.c:1396-1398. -/
def rbToArrayBuf (hw : Hw) (r : RaBuf) (ans : List Nat) : Out (List Nat) := rbToArrayLoopBuf hw r.mem r.size 0 ans 0

/-- The container of `ra_get_container_at_index` as it is read: include/roaring/roaring_array.h:87-91. -/
def raLoadBuf (r : RaBuf) (i : Nat) : Out Container := do
  let c ← raContBuf r i
  c.load

/-- The loop of `roaring_bitmap_contains_range_closed`: src/roaring.c:2898-2904; `n` cells are left. -/
def rbAllFullBuf (r : RaBuf) : Nat → Nat → Out Bool
  | 0, _ => .ok true
  | n + 1, i => do
    let c ← raContBuf r i
    let f ← cIsFullBuf c
    if !f then .ok false else rbAllFullBuf r n (i + 1)

/-- `roaring_bitmap_contains_range_closed`: src/roaring.c:2863-2907. -/
def rbContainsRangeClosedBuf (r : RaBuf) (rs re : Nat) : Out Bool :=
  if rs > re then .ok true
  else if re = rs then rbContainsBuf r rs
  else
    let hrs := rs / 65536
    let hre := re / 65536
    let span : Int := (hre : Int) - hrs
    let sz : Int := r.size
    if sz < span + 1 then .ok false
    else do
      let is ← raGetIndexBuf r hrs
      let ie ← raGetIndexBuf r hre
      if ie < 0 ∨ is < 0 ∨ ie - is ≠ span ∨ ie ≥ sz then .ok false
      else do
        let lrs := rs % 65536
        let lre := re % 65536 + 1
        let c ← raLoadBuf r is.toNat
        if hrs = hre then .ok (containerContainsRange lrs lre c)
        else if !containerContainsRange lrs 65536 c then .ok false
        else do
          let c ← raLoadBuf r ie.toNat
          if !containerContainsRange 0 lre c then .ok false
          else rbAllFullBuf r (ie.toNat - (is.toNat + 1)) (is.toNat + 1)

/-- The final loop of `roaring_bitmap_range_cardinality_closed`: src/roaring.c:1374-1386; `n` cells are left. -/
def rangeCardLoopBuf (mem : List RCell) (maxhb lo : Nat) : Nat → Nat → Nat → Out Nat
  | 0, _, card => .ok card
  | n + 1, i, card => do
    let c ← loadCell mem i
    if c.1 < maxhb then rangeCardLoopBuf mem maxhb lo n (i + 1) (u64 (card + containerCard c.2))
    else if c.1 = maxhb then .ok (u64 (card + containerRank lo c.2))
    else .ok card

/-- `roaring_bitmap_range_cardinality_closed`: src/roaring.c:1341-1389. -/
def rbRangeCardinalityClosedBuf (r : RaBuf) (rs re : Nat) : Out Nat :=
  if rs > re then .ok 0
  else do
    let minhb := rs / 65536
    let maxhb := re / 65536
    let i ← raGetIndexBuf r minhb
    if i ≥ 0 then do
      let c ← loadCell r.mem i.toNat
      let card := if minhb = maxhb then u64 (containerRank (re % 65536) c.2) else u64 (containerCard c.2)
      let card := if rs % 65536 ≠ 0 then u64 (card - containerRank (rs % 65536 - 1) c.2) else card
      rangeCardLoopBuf r.mem maxhb (re % 65536) (r.size - (i.toNat + 1)) (i.toNat + 1) card
    else rangeCardLoopBuf r.mem maxhb (re % 65536) (r.size - (-i - 1).toNat) (-i - 1).toNat 0

/-! ### Two bitmaps

`fuel` bounds the number of rounds of the loops; running out of it is `Out.fail`. -/

/-- The first loop of `roaring_bitmap_equals`: src/roaring.c:1860-1864; `n` cells are left. -/
def sameKeysBuf (m1 m2 : List RCell) : Nat → Nat → Out Bool
  | 0, _ => .ok true
  | n + 1, i => do
    let a ← cellAt m1 i
    let b ← cellAt m2 i
    if a.1 ≠ b.1 then .ok false else sameKeysBuf m1 m2 n (i + 1)

/-- The second loop of `roaring_bitmap_equals`: src/roaring.c:1865-1871; `n` cells are left. -/
def sameContsBuf (m1 m2 : List RCell) : Nat → Nat → Out Bool
  | 0, _ => .ok true
  | n + 1, i => do
    let a ← loadCell m1 i
    let b ← loadCell m2 i
    if !containerEquals a.2 b.2 then .ok false else sameContsBuf m1 m2 n (i + 1)

/-- `roaring_bitmap_equals`: src/roaring.c:1852-1873. -/
def rbEqualsBuf (r1 r2 : RaBuf) : Out Bool :=
  if r1.size ≠ r2.size then .ok false
  else do
    let k ← sameKeysBuf r1.mem r2.mem r1.size 0
    if !k then .ok false else sameContsBuf r1.mem r2.mem r1.size 0

/-- The loop of `roaring_bitmap_is_subset`: src/roaring.c:1884-1902, and the end, 1903-1906. -/
def rbIsSubsetLoopBuf (x1 x2 : RaBuf) : Nat → Nat → Nat → Out Bool
  | 0, _, _ => .fail
  | fuel + 1, pos1, pos2 =>
    if pos1 < x1.size ∧ pos2 < x2.size then do
      let s1 ← raKeyBuf x1 pos1
      let s2 ← raKeyBuf x2 pos2
      if s1 = s2 then do
        let c1 ← raLoadBuf x1 pos1
        let c2 ← raLoadBuf x2 pos2
        if !containerIsSubset c1 c2 then .ok false else rbIsSubsetLoopBuf x1 x2 fuel (pos1 + 1) (pos2 + 1)
      else if s1 < s2 then .ok false
      else do
        let pos2 ← raAdvanceUntilBuf x2 s1 pos2
        rbIsSubsetLoopBuf x1 x2 fuel pos1 pos2
    else .ok (pos1 == x1.size)

/-- `roaring_bitmap_is_subset`: src/roaring.c:1875-1907. -/
def rbIsSubsetBuf (x1 x2 : RaBuf) : Out Bool := rbIsSubsetLoopBuf x1 x2 (x1.size + x2.size + 1) 0 0

/-- `roaring_bitmap_is_strict_subset`: src/roaring.c:2909-2914. -/
def rbIsStrictSubsetBuf (x1 x2 : RaBuf) : Out Bool := do
  let n2 ← rbCardinalityBuf x2
  let n1 ← rbCardinalityBuf x1
  if n2 > n1 then rbIsSubsetBuf x1 x2 else .ok false

/-- The loop of `roaring_bitmap_intersect`: src/roaring.c:2724-2746. -/
def rbIntersectLoopBuf (x1 x2 : RaBuf) : Nat → Nat → Nat → Out Bool
  | 0, _, _ => .fail
  | fuel + 1, pos1, pos2 =>
    if pos1 < x1.size ∧ pos2 < x2.size then do
      let s1 ← raKeyBuf x1 pos1
      let s2 ← raKeyBuf x2 pos2
      if s1 = s2 then do
        let c1 ← raLoadBuf x1 pos1
        let c2 ← raLoadBuf x2 pos2
        if containerIntersect c1 c2 then .ok true else rbIntersectLoopBuf x1 x2 fuel (pos1 + 1) (pos2 + 1)
      else if s1 < s2 then do
        let pos1 ← raAdvanceUntilBuf x1 s2 pos1
        rbIntersectLoopBuf x1 x2 fuel pos1 pos2
      else do
        let pos2 ← raAdvanceUntilBuf x2 s1 pos2
        rbIntersectLoopBuf x1 x2 fuel pos1 pos2
    else .ok false

/-- `roaring_bitmap_intersect`: src/roaring.c:2718-2747. -/
def rbIntersectBuf (x1 x2 : RaBuf) : Out Bool := rbIntersectLoopBuf x1 x2 (x1.size + x2.size + 1) 0 0

/-- The loop of `roaring_bitmap_and_cardinality`: src/roaring.c:2774-2794. -/
def rbAndCardLoopBuf (x1 x2 : RaBuf) : Nat → Nat → Nat → Nat → Out Nat
  | 0, _, _, _ => .fail
  | fuel + 1, pos1, pos2, answer =>
    if pos1 < x1.size ∧ pos2 < x2.size then do
      let s1 ← raKeyBuf x1 pos1
      let s2 ← raKeyBuf x2 pos2
      if s1 = s2 then do
        let c1 ← raLoadBuf x1 pos1
        let c2 ← raLoadBuf x2 pos2
        rbAndCardLoopBuf x1 x2 fuel (pos1 + 1) (pos2 + 1) (u64 (answer + containerAndCard c1 c2))
      else if s1 < s2 then do
        let pos1 ← raAdvanceUntilBuf x1 s2 pos1
        rbAndCardLoopBuf x1 x2 fuel pos1 pos2 answer
      else do
        let pos2 ← raAdvanceUntilBuf x2 s1 pos2
        rbAndCardLoopBuf x1 x2 fuel pos1 pos2 answer
    else .ok answer

/-- `roaring_bitmap_and_cardinality`: src/roaring.c:2768-2796. -/
def rbAndCardinalityBuf (x1 x2 : RaBuf) : Out Nat := rbAndCardLoopBuf x1 x2 (x1.size + x2.size + 1) 0 0 0

/-- `roaring_bitmap_or_cardinality`: src/roaring.c:2806-2812. -/
def rbOrCardinalityBuf (x1 x2 : RaBuf) : Out Nat := do
  let c1 ← rbCardinalityBuf x1
  let c2 ← rbCardinalityBuf x2
  let inter ← rbAndCardinalityBuf x1 x2
  .ok (u64 ((c1 : Int) + c2 - inter))

/-- `roaring_bitmap_andnot_cardinality`: src/roaring.c:2814-2819. -/
def rbAndnotCardinalityBuf (x1 x2 : RaBuf) : Out Nat := do
  let c1 ← rbCardinalityBuf x1
  let inter ← rbAndCardinalityBuf x1 x2
  .ok (u64 ((c1 : Int) - inter))

/-- `roaring_bitmap_xor_cardinality`: src/roaring.c:2821-2827. -/
def rbXorCardinalityBuf (x1 x2 : RaBuf) : Out Nat := do
  let c1 ← rbCardinalityBuf x1
  let c2 ← rbCardinalityBuf x2
  let inter ← rbAndCardinalityBuf x1 x2
  .ok (u64 ((c1 : Int) + c2 - 2 * inter))

end CRoaring
