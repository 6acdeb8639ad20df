import Verif.Model.Bitmap
import Verif.Model.Bulk
import Verif.Model.Range
import Verif.Model.Query
import Verif.Model.Lazy
import Verif.Model.Iter
import Verif.Model.Iter64
import Verif.Model.Serial
import Verif.Model.Frozen
/-
Model of the C++ class `Roaring64Map`: cpp/roaring64map.hh.  The methods of the class `Roaring` that it uses
(cpp/roaring.hh:85-700) only forward to the C functions of the model.

`std::map<uint32_t, Roaring>` is the list of its entries in increasing order of the keys.  An iterator of the map is the key
of the entry it points to, or `none` for `end()`; iterators stay valid when other entries are inserted or erased, as the
standard promises.  A reference to a mapped value is its key as well, and a change through the reference is `mapStore`.

Dereferencing `end()`, which is undefined, and `ROARING_TERMINATE` are the outcome `none` of an `Option`.

The flag `copyOnWrite` (1582) and the calls of `setCopyOnWrite` only choose how containers are shared; copying a
`Roaring` yields an equal value (see Model/Cow), so they are left out.  What depends on the sharing and on the capacity of
containers (`shared`, `caps`) is a parameter, as in Model/Bitmap.
-/
namespace CRoaring

/-- `std::map<uint32_t, Roaring>`, `roarings_t`: cpp/roaring64map.hh:1579-1581. -/
abbrev Map64 := List (Nat × Bitmap)

/-- `highBytes`: cpp/roaring64map.hh:1583-1585. -/
def highBytes (x : Nat) : Nat := x / 4294967296 % 4294967296

/-- `lowBytes`: cpp/roaring64map.hh:1586-1588. -/
def lowBytes (x : Nat) : Nat := x % 4294967296

/-- `uniteBytes`: cpp/roaring64map.hh:1589-1592. -/
def uniteBytes (high low : Nat) : Nat := (high <<< 32) ||| low

/-! ### `std::map` -/

/-- `roarings.find(key)`, dereferenced; `none` is `end()`. -/
def mapFind (m : Map64) (k : Nat) : Option Bitmap := (m.find? (fun p => p.1 == k)).map (·.2)

/-- `roarings.lower_bound(key)`: the first key not less than `k`. -/
def mapLowerBound (m : Map64) (k : Nat) : Option Nat := (m.find? (fun p => decide (k ≤ p.1))).map (·.1)

/-- `++iter` for an iterator at key `k`: the first larger key. -/
def mapNext (m : Map64) (k : Nat) : Option Nat := (m.find? (fun p => decide (k < p.1))).map (·.1)

/-- `--iter` for an iterator at key `k`: the last smaller key (`none`: `iter` was `begin()`, undefined). -/
def mapPrev (m : Map64) (k : Nat) : Option Nat := ((m.reverse).find? (fun p => decide (p.1 < k))).map (·.1)

/-- `roarings.begin()`. -/
def mapBegin (m : Map64) : Option Nat := m.head?.map (·.1)

/-- `insert`/`emplace`: the map, and whether an entry was inserted; an existing entry is kept. -/
def mapInsert (k : Nat) (b : Bitmap) : Map64 → Map64 × Bool
  | [] => ([(k, b)], true)
  | (k', b') :: t =>
    if k < k' then ((k, b) :: (k', b') :: t, true)
    else if k = k' then ((k', b') :: t, false)
    else let p := mapInsert k b t; ((k', b') :: p.1, p.2)

/-- Assignment to the value mapped to the key `k`. -/
def mapStore (m : Map64) (k : Nat) (b : Bitmap) : Map64 := m.map (fun p => if p.1 = k then (k, b) else p)

/-- The value a reference to the entry `k` denotes. -/
def mapAt (m : Map64) (k : Nat) : Bitmap := (mapFind m k).getD []

/-- `erase(iter)`. -/
def mapErase (m : Map64) (k : Nat) : Map64 := m.filter (fun p => p.1 != k)

/-- `erase(first, last)`: the entries from `first` up to, and without, `last`. -/
def mapEraseRange (m : Map64) (first last : Option Nat) : Map64 :=
  match first with
  | none => m
  | some a => m.filter (fun p => !(decide (a ≤ p.1) && (match last with | none => true | some z => decide (p.1 < z))))

/-! ### Private helpers -/

/-- `emplaceOrInsert`: cpp/roaring64map.hh:1595-1609. -/
def m64Emplace (m : Map64) (k : Nat) (b : Bitmap) : Map64 := (mapInsert k b m).1

/-- `lookupOrCreateInner` (the map afterwards; the reference is the key): cpp/roaring64map.hh:1616-1620. -/
def lookupOrCreate (m : Map64) (k : Nat) : Map64 := (mapInsert k [] m).1

/-- `eraseIfEmpty`: cpp/roaring64map.hh:1701-1706. -/
def eraseIfEmpty (m : Map64) (k : Nat) : Map64 := if rbIsEmpty (mapAt m k) then mapErase m k else m

/-- One round of the loop of `ensureRangePopulated`: cpp/roaring64map.hh:1669-1691; the state is the map and
`next_populated_iter`.  The hint is right, so `emplace_hint` inserts. -/
def ensureStep (st : Map64 × Option Nat) (slot : Nat) : Map64 × Option Nat :=
  if st.2 = some slot then (st.1, mapNext st.1 slot) else ((mapInsert slot [] st.1).1, st.2)

/-- `ensureRangePopulated`: cpp/roaring64map.hh:1656-1695; the callers have checked `start_high <= end_high`, and the result
is an iterator to `start_high`. -/
def ensureRangePopulated (m : Map64) (startHigh endHigh : Nat) : Map64 :=
  (forKeys ensureStep startHigh endHigh (m, mapLowerBound m startHigh)).1

/-! ### Construction and updates -/

/-- The constructors from a 32-bit bitmap: cpp/roaring64map.hh:70-84. -/
def m64OfRoaring (r : Bitmap) : Map64 := m64Emplace [] 0 r

/-- `add(uint32_t)`: cpp/roaring64map.hh:136. -/
def m64Add32 (m : Map64) (x : Nat) : Map64 :=
  let m := lookupOrCreate m 0
  mapStore m 0 (rbAdd (mapAt m 0) x)

/-- `add(uint64_t)`: cpp/roaring64map.hh:141. -/
def m64Add (m : Map64) (x : Nat) : Map64 :=
  let m := lookupOrCreate m (highBytes x)
  mapStore m (highBytes x) (rbAdd (mapAt m (highBytes x)) (lowBytes x))

/-- `bitmapOf`: cpp/roaring64map.hh:112-121. -/
def m64BitmapOf (xs : List Nat) : Map64 := xs.foldl m64Add []

/-- `addChecked(uint32_t)`: cpp/roaring64map.hh:148. -/
def m64AddChecked32 (m : Map64) (x : Nat) : Map64 × Bool :=
  let m := lookupOrCreate m 0
  let p := rbAddChecked (mapAt m 0) x
  (mapStore m 0 p.1, p.2)

/-- `addChecked(uint64_t)`: cpp/roaring64map.hh:155-157. -/
def m64AddChecked (m : Map64) (x : Nat) : Map64 × Bool :=
  let m := lookupOrCreate m (highBytes x)
  let p := rbAddChecked (mapAt m (highBytes x)) (lowBytes x)
  (mapStore m (highBytes x) p.1, p.2)

/-- `addRangeClosed(uint32_t, uint32_t)`: cpp/roaring64map.hh:172-174. -/
def m64AddRangeClosed32 (m : Map64) (min max : Nat) : Map64 :=
  let m := lookupOrCreate m 0
  mapStore m 0 (rbAddRangeClosed (mapAt m 0) min max)

/-- The loop over the second and later intermediate bitmaps: cpp/roaring64map.hh:225-229. -/
def copyLoop (first : Bitmap) : Nat → Map64 → Option Nat → Option (Map64 × Option Nat)
  | 0, m, it => some (m, it)
  | _ + 1, _, none => none
  | n + 1, m, some k => copyLoop first n (mapStore m k first) (mapNext m k)

/-- The intermediate bitmaps: cpp/roaring64map.hh:217-230. -/
def addIntermediate (n : Nat) (m : Map64) (it : Option Nat) : Option (Map64 × Option Nat) :=
  if n ≠ 0 then
    match it with
    | none => none
    | some k =>
      let first := rbAddRangeClosed (mapAt m k) 0 4294967295
      copyLoop first (n - 1) (mapStore m k first) (mapNext m k)
  else some (m, it)

/-- `addRangeClosed(uint64_t, uint64_t)`: cpp/roaring64map.hh:179-235. -/
def m64AddRangeClosed (m : Map64) (min max : Nat) : Option Map64 :=
  if min > max then some m
  else
    let startHigh := highBytes min
    let startLow := lowBytes min
    let endHigh := highBytes max
    let endLow := lowBytes max
    let m := ensureRangePopulated m startHigh endHigh
    if startHigh = endHigh then
      some (mapStore m startHigh (rbAddRangeClosed (mapAt m startHigh) startLow endLow))
    else
      let n := endHigh - startHigh - 1
      let m1 := mapStore m startHigh (rbAddRangeClosed (mapAt m startHigh) startLow 4294967295)
      match addIntermediate n m1 (mapNext m startHigh) with
      | none => none
      | some (_, none) => none
      | some (m2, some k) => some (mapStore m2 k (rbAddRangeClosed (mapAt m2 k) 0 endLow))

/-- `addRange`: cpp/roaring64map.hh:162-167. -/
def m64AddRange (m : Map64) (min max : Nat) : Option Map64 :=
  if min ≥ max then some m else m64AddRangeClosed m min (max - 1)

/-- `addMany(size_t, const uint32_t *)`: cpp/roaring64map.hh:243-245. -/
def m64AddMany32 (m : Map64) (vals : List Nat) : Map64 :=
  let m := lookupOrCreate m 0
  mapStore m 0 (rbAddMany (mapAt m 0) vals)

/-- The loop of `addMany(size_t, const uint64_t *)`: cpp/roaring64map.hh:255-265.  `last` stands for `last_inner_bitmap` and
`last_value_high`. -/
def addMany64Loop : Map64 → Option Nat → BulkCtx → List Nat → Map64
  | m, _, _, [] => m
  | m, last, ctx, value :: t =>
    let high := highBytes value
    let low := lowBytes value
    if last ≠ some high then
      let m := lookupOrCreate m high
      let p := rbAddBulk (mapAt m high) none low
      addMany64Loop (mapStore m high p.1) (some high) p.2 t
    else
      let p := rbAddBulk (mapAt m high) ctx low
      addMany64Loop (mapStore m high p.1) last p.2 t

/-- `addMany(size_t, const uint64_t *)`: cpp/roaring64map.hh:250-266; also the constructors and `bitmapOfList` (53-65,
127-131). -/
def m64AddMany (m : Map64) (vals : List Nat) : Map64 := addMany64Loop m none none vals

/-- `remove(uint32_t)`: cpp/roaring64map.hh:272-281. -/
def m64Remove32 (m : Map64) (x : Nat) : Map64 :=
  if mapBegin m ≠ some 0 then m else eraseIfEmpty (mapStore m 0 (rbRemove (mapAt m 0) x)) 0

/-- `remove(uint64_t)`: cpp/roaring64map.hh:287-295. -/
def m64Remove (m : Map64) (x : Nat) : Map64 :=
  match mapFind m (highBytes x) with
  | none => m
  | some b => eraseIfEmpty (mapStore m (highBytes x) (rbRemove b (lowBytes x))) (highBytes x)

/-- `removeChecked(uint32_t)`: cpp/roaring64map.hh:302-315. -/
def m64RemoveChecked32 (m : Map64) (x : Nat) : Map64 × Bool :=
  if mapBegin m ≠ some 0 then (m, false)
  else
    let p := rbRemoveChecked (mapAt m 0) x
    let m := mapStore m 0 p.1
    if !p.2 then (m, false) else (eraseIfEmpty m 0, true)

/-- `removeChecked(uint64_t)`: cpp/roaring64map.hh:322-333. -/
def m64RemoveChecked (m : Map64) (x : Nat) : Map64 × Bool :=
  match mapFind m (highBytes x) with
  | none => (m, false)
  | some b =>
    let p := rbRemoveChecked b (lowBytes x)
    let m := mapStore m (highBytes x) p.1
    if !p.2 then (m, false) else (eraseIfEmpty m (highBytes x), true)

/-- `removeRangeClosed(uint32_t, uint32_t)`: cpp/roaring64map.hh:348-358. -/
def m64RemoveRangeClosed32 (m : Map64) (min max : Nat) : Map64 :=
  if mapBegin m ≠ some 0 then m else eraseIfEmpty (mapStore m 0 (rbRemoveRangeClosed (mapAt m 0) min max)) 0

/-- The end of `removeRangeClosed(uint64_t, uint64_t)`: cpp/roaring64map.hh:427-438. -/
def removeRangeTail (m : Map64) (start last : Option Nat) (endHigh endLow : Nat) : Map64 :=
  let m := mapEraseRange m start last
  if last = some endHigh then
    eraseIfEmpty (mapStore m endHigh (rbRemoveRangeClosed (mapAt m endHigh) 0 endLow)) endHigh
  else m

/-- `removeRangeClosed(uint64_t, uint64_t)`: cpp/roaring64map.hh:364-439. -/
def m64RemoveRangeClosed (m : Map64) (min max : Nat) : Option Map64 :=
  if min > max then some m
  else
    let startHigh := highBytes min
    let startLow := lowBytes min
    let endHigh := highBytes max
    let endLow := lowBytes max
    match m.head?, m.getLast? with
    | some f, some l =>
      if endHigh < f.1 ∨ startHigh > l.1 then some m
      else
        let last := mapLowerBound m endHigh
        match mapLowerBound m startHigh with
        | none => none
        | some k =>
          if k = startHigh then
            if some k = last then
              some (eraseIfEmpty (mapStore m k (rbRemoveRangeClosed (mapAt m k) startLow endLow)) k)
            else
              let m1 := mapStore m k (rbRemoveRangeClosed (mapAt m k) startLow 4294967295)
              some (removeRangeTail (eraseIfEmpty m1 k) (mapNext m1 k) last endHigh endLow)
          else some (removeRangeTail m (some k) last endHigh endLow)
    | _, _ => some m

/-- `removeRange`: cpp/roaring64map.hh:338-343. -/
def m64RemoveRange (m : Map64) (min max : Nat) : Option Map64 :=
  if min ≥ max then some m else m64RemoveRangeClosed m min (max - 1)

/-- `clear`: cpp/roaring64map.hh:444. -/
def m64Clear (_m : Map64) : Map64 := []

/-- `flipClosed(uint32_t, uint32_t)`: cpp/roaring64map.hh:903-918. -/
def m64FlipClosed32 (m : Map64) (min max : Nat) : Map64 :=
  let m := if mapBegin m ≠ some 0 then (mapInsert 0 [] m).1 else m
  eraseIfEmpty (mapStore m 0 (rbFlipInplaceClosed (mapAt m 0) min max)) 0

/-- The loop over the intermediate bitmaps: cpp/roaring64map.hh:965-971. -/
def flipLoop : Nat → Map64 → Option Nat → Option (Map64 × Option Nat)
  | 0, m, it => some (m, it)
  | _ + 1, _, none => none
  | n + 1, m, some k =>
    let m1 := mapStore m k (rbFlipInplaceClosed (mapAt m k) 0 4294967295)
    flipLoop n (eraseIfEmpty m1 k) (mapNext m1 k)

/-- `flipClosed(uint64_t, uint64_t)`: cpp/roaring64map.hh:924-977. -/
def m64FlipClosed (m : Map64) (min max : Nat) : Option Map64 :=
  if min > max then some m
  else
    let startHigh := highBytes min
    let startLow := lowBytes min
    let endHigh := highBytes max
    let endLow := lowBytes max
    let m := ensureRangePopulated m startHigh endHigh
    if startHigh = endHigh then
      some (eraseIfEmpty (mapStore m startHigh (rbFlipInplaceClosed (mapAt m startHigh) startLow endLow)) startHigh)
    else
      let n := endHigh - startHigh - 1
      let m1 := mapStore m startHigh (rbFlipInplaceClosed (mapAt m startHigh) startLow 4294967295)
      match flipLoop n (eraseIfEmpty m1 startHigh) (mapNext m1 startHigh) with
      | none => none
      | some (_, none) => none
      | some (m2, some k) => some (eraseIfEmpty (mapStore m2 k (rbFlipInplaceClosed (mapAt m2 k) 0 endLow)) k)

/-- `flip`: cpp/roaring64map.hh:892-897. -/
def m64Flip (m : Map64) (min max : Nat) : Option Map64 :=
  if min ≥ max then some m else m64FlipClosed m min (max - 1)

/-! ### Queries -/

/-- `contains(uint32_t)`: cpp/roaring64map.hh:481-487. -/
def m64Contains32 (m : Map64) (x : Nat) : Bool :=
  match mapFind m 0 with
  | none => false
  | some b => rbContains b x

/-- `contains(uint64_t)`: cpp/roaring64map.hh:488-494. -/
def m64Contains (m : Map64) (x : Nat) : Bool :=
  match mapFind m (highBytes x) with
  | none => false
  | some b => rbContains b (lowBytes x)

/-- The loop of `maximum`, over the entries in decreasing order: cpp/roaring64map.hh:451-457. -/
def maximumLoop : Map64 → Nat
  | [] => 0
  | (k, b) :: t => if !rbIsEmpty b then uniteBytes k (rbMaximum b) else maximumLoop t

/-- `maximum`: cpp/roaring64map.hh:449-460. -/
def m64Maximum (m : Map64) : Nat := maximumLoop m.reverse

/-- `minimum`: cpp/roaring64map.hh:465-476. -/
def m64Minimum : Map64 → Nat
  | [] => 18446744073709551615
  | (k, b) :: t => if !rbIsEmpty b then uniteBytes k (rbMinimum b) else m64Minimum t

/-- `Roaring::isFull`: cpp/roaring.hh:387-390. -/
def rbIsFull (r : Bitmap) : Bool := rbCardinality r == 4294967296

/-- `isEmpty`: cpp/roaring64map.hh:772-778. -/
def m64IsEmpty (m : Map64) : Bool := m.all (fun p => rbIsEmpty p.2)

/-- `isFull`: cpp/roaring64map.hh:783-796. -/
def m64IsFull (m : Map64) : Bool := if m.length = 4294967296 then m.all (fun p => rbIsFull p.2) else false

/-- `cardinality`: cpp/roaring64map.hh:749-767; `none` is the exception (or termination). -/
def m64Cardinality (m : Map64) : Option Nat :=
  if m64IsFull m then none
  else some (m.foldl (fun previous p => u64 ((previous : Int) + rbCardinality p.2)) 0)

/-- `isSubset`: cpp/roaring64map.hh:801-815. -/
def m64IsSubset (r : Map64) : Map64 → Bool
  | [] => true
  | (k, b) :: t =>
    if rbIsEmpty b then m64IsSubset r t
    else
      match mapFind r k with
      | none => false
      | some b' => if !rbIsSubset b b' then false else m64IsSubset r t

/-- `isStrictSubset` of the second argument in the first: cpp/roaring64map.hh:821-823; `none` is the exception of
`cardinality`. -/
def m64IsStrictSubset (r m : Map64) : Option Bool :=
  if m64IsSubset r m then
    match m64Cardinality m with
    | none => none
    | some a =>
      match m64Cardinality r with
      | none => none
      | some b => some (a != b)
  else some false

/-- `toUint64Array`: cpp/roaring64map.hh:831-841; the inner loop is over the iterator of the 32-bit bitmap, here its list
of values (C26). -/
def m64ToUint64 (m : Map64) : List Nat := m.flatMap (fun p => (rbToUint32 p.2).map (uniteBytes p.1))

/-- `operator==`: cpp/roaring64map.hh:846-887; what is left of one map when the other is at its end must be empty
bitmaps. -/
def m64Equals : Map64 → Map64 → Bool
  | [], r => r.all (fun p => rbIsEmpty p.2)
  | l, [] => l.all (fun p => rbIsEmpty p.2)
  | (k1, b1) :: t1, (k2, b2) :: t2 =>
    if rbIsEmpty b1 then m64Equals t1 ((k2, b2) :: t2)
    else if rbIsEmpty b2 then m64Equals ((k1, b1) :: t1) t2
    else if !(k1 == k2) then false
    else if !rbEquals b1 b2 then false
    else m64Equals t1 t2
termination_by a b => a.length + b.length

/-- `removeRunCompression`: cpp/roaring64map.hh:987-993. -/
def m64RemoveRunCompression (m : Map64) : Map64 × Bool :=
  (m.map (fun p => (p.1, (rbRemoveRunCompression p.2).1)),
    m.foldl (fun previous p => (rbRemoveRunCompression p.2).2 && previous) true)

/-- `runOptimize`: cpp/roaring64map.hh:1001-1007. -/
def m64RunOptimize (m : Map64) : Map64 × Bool :=
  (m.map (fun p => (p.1, (rbRunOptimize p.2).1)),
    m.foldl (fun previous p => (rbRunOptimize p.2).2 && previous) true)

/-- `shrinkToFit` without the number of bytes: cpp/roaring64map.hh:1013-1028. -/
def m64ShrinkToFit (m : Map64) : Map64 := m.filter (fun p => !rbIsEmpty p.2)

/-- `iterate`: cpp/roaring64map.hh:1040-1049. -/
def m64Iterate {σ : Type} (f : σ → Nat → σ × Bool) : σ → Map64 → σ × Bool
  | s, [] => (s, true)
  | s, (k, b) :: t =>
    let p := rbIterate64 f (k <<< 32) s b
    if !p.2 then (p.1, false) else m64Iterate f p.1 t

/-- `select`: cpp/roaring64map.hh:1057-1078; `none` is `ROARING_TERMINATE`. -/
def m64Select : Map64 → Nat → Option (Option Nat)
  | [], _ => some none
  | (k, b) :: t, rank =>
    let sub := rbCardinality b
    if rank < sub then
      match rbSelect b (rank % 4294967296) with
      | some (some low) => some (some (uniteBytes k low))
      | _ => none
    else m64Select t (rank - sub)

/-- `rank`: cpp/roaring64map.hh:1083-1097. -/
def m64Rank (m : Map64) (x : Nat) : Nat :=
  let endd := mapLowerBound m (highBytes x)
  let result := if endd = some (highBytes x) then rbRank (mapAt m (highBytes x)) (lowBytes x) else 0
  (m.takeWhile (fun p => decide (p.1 < highBytes x))).foldl (fun r p => u64 ((r : Int) + rbCardinality p.2)) result

/-- Conversion to `int64_t`. -/
def toI64 (x : Nat) : Int := if x < 9223372036854775808 then x else (x : Int) - 18446744073709551616

/-- `getIndex`: cpp/roaring64map.hh:1106-1122; `index` has type `int64_t`. -/
def m64GetIndex (m : Map64) (x : Nat) : Int :=
  match mapFind m (highBytes x) with
  | none => -1
  | some b =>
    let index := (m.takeWhile (fun p => decide (p.1 < highBytes x))).foldl
      (fun i p => toI64 (u64 (i + rbCardinality p.2))) 0
    let low := rbGetIndex b (lowBytes x)
    if low < 0 then -1 else index + low

/-! ### Operators -/

/-- The loop of `operator&=`: cpp/roaring64map.hh:515-541. -/
def m64AndLoop (shared : Nat → Nat → Bool) (other : Map64) : Map64 → Map64
  | [] => []
  | (k, b) :: t =>
    match mapFind other k with
    | none => m64AndLoop shared other t
    | some b' =>
      let r := rbAndInplace false (shared k) b b'
      if rbIsEmpty r then m64AndLoop shared other t else (k, r) :: m64AndLoop shared other t

/-- `operator&=`: cpp/roaring64map.hh:506-543; `same` is `this == &other`. -/
def m64And (same : Bool) (shared : Nat → Nat → Bool) (m other : Map64) : Map64 :=
  if same then m else m64AndLoop shared other m

/-- The loop of `operator-=`, on the entries from `self_iter` and `other_iter` on: cpp/roaring64map.hh:573-611.
`lower_bound` is asked for a key larger than those of the entries passed, so the search may start at the iterator. -/
def m64AndnotLoop (shared : Nat → Nat → Bool) (m other : Map64) : Map64 :=
  match m, other with
  | [], _ => []
  | l, [] => l
  | (k1, b1) :: t1, (k2, b2) :: t2 =>
    if k1 < k2 then
      (k1, b1) :: t1.takeWhile (fun p => decide (p.1 < k2)) ++
        m64AndnotLoop shared (t1.dropWhile (fun p => decide (p.1 < k2))) ((k2, b2) :: t2)
    else if k1 > k2 then m64AndnotLoop shared ((k1, b1) :: t1) (t2.dropWhile (fun p => decide (p.1 < k1)))
    else
      let r := rbAndnotInplace (shared k1) b1 b2
      if rbIsEmpty r then m64AndnotLoop shared t1 t2 else (k1, r) :: m64AndnotLoop shared t1 t2
termination_by m.length + other.length
decreasing_by
  all_goals simp only [List.length_cons]
  · have := (List.dropWhile_suffix (fun p : Nat × Bitmap => decide (p.1 < k2)) (l := t1)).length_le; omega
  · have := (List.dropWhile_suffix (fun p : Nat × Bitmap => decide (p.1 < k1)) (l := t2)).length_le; omega
  · omega
  · omega

/-- `operator-=`: cpp/roaring64map.hh:563-613. -/
def m64Andnot (same : Bool) (shared : Nat → Nat → Bool) (m other : Map64) : Map64 :=
  if same then [] else m64AndnotLoop shared m other

/-- One round of `operator|=`: cpp/roaring64map.hh:641-661. -/
def m64OrStep (shared : Nat → Nat → Bool) (caps : Nat → Nat → Nat) (m : Map64) (e : Nat × Bitmap) : Map64 :=
  let p := mapInsert e.1 e.2 m
  if p.2 then p.1 else mapStore p.1 e.1 (rbOrInplace (shared e.1) (caps e.1) (mapAt p.1 e.1) e.2)

/-- `operator|=`: cpp/roaring64map.hh:631-663. -/
def m64Or (same : Bool) (shared : Nat → Nat → Bool) (caps : Nat → Nat → Nat) (m other : Map64) : Map64 :=
  if same then m else other.foldl (m64OrStep shared caps) m

/-- One round of `operator^=`: cpp/roaring64map.hh:695-732. -/
def m64XorStep (shared : Nat → Nat → Bool) (m : Map64) (e : Nat × Bitmap) : Map64 :=
  let p := mapInsert e.1 e.2 m
  if p.2 then p.1
  else
    let r := rbXorInplace (shared e.1) (mapAt p.1 e.1) e.2
    let m := mapStore p.1 e.1 r
    if rbIsEmpty r then mapErase m e.1 else m

/-- `operator^=`: cpp/roaring64map.hh:683-734. -/
def m64Xor (same : Bool) (shared : Nat → Nat → Bool) (m other : Map64) : Map64 :=
  if same then [] else other.foldl (m64XorStep shared) m

/-- The inner loop of `fastunion`, which takes from the queue the bitmaps with the key `group_key`:
cpp/roaring64map.hh:1507-1536.  The queue holds, for each input, the entries that are left (none of the lists is empty).
`pick` is the position of the top of the queue, which among entries with the same key is unspecified. -/
def unionGroup (pick : List Map64 → Nat) (key : Nat) : Nat → List Map64 → List Bitmap → List Map64 × List Bitmap
  | 0, pq, acc => (pq, acc)
  | fuel + 1, pq, acc =>
    match pq.getD (pick pq) [] with
    | [] => (pq, acc)
    | (k, b) :: rest =>
      if k ≠ key then (pq, acc)
      else
        let pq := pq.eraseIdx (pick pq)
        unionGroup pick key fuel (if rest = [] then pq else rest :: pq) (acc ++ [b])

/-- The outer loop of `fastunion`: cpp/roaring64map.hh:1498-1549. -/
def unionLoop (pick : List Map64 → Nat) (caps : Nat → Nat → Nat → Nat) : Nat → List Map64 → Map64 → Map64
  | 0, _, result => result
  | fuel + 1, pq, result =>
    match pq.getD (pick pq) [] with
    | [] => result
    | (key, _) :: _ =>
      let g := unionGroup pick key ((pq.map List.length).sum + 1) pq []
      unionLoop pick caps fuel g.1 (mapInsert key (rbOrMany (caps key) g.2) result).1

/-- `fastunion`: cpp/roaring64map.hh:1433-1552. -/
def m64FastUnion (pick : List Map64 → Nat) (caps : Nat → Nat → Nat → Nat) (inputs : List Map64) : Map64 :=
  let pq := inputs.filter (fun m => !m.isEmpty)
  unionLoop pick caps ((pq.map List.length).sum + 1) pq []

end CRoaring
