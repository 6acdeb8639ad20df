import Verif.Model.BitmapMemQuery
import Verif.Model.Iter

/-! Iterators over bitmaps in memory: the container iterators of src/containers/containers.c, `roaring_uint32_iterator_t` of
src/roaring.c and `roaring_bitmap_intersect_with_range`, on the blocks of the bitmap and of the caller.

Every read of a word, a value or a run through an index is checked against the block, and so is every value written to the caller's
array.  `container_maximum` and the searches of `container_iterator_lower_bound` read the container through `CBuf.load`. -/

namespace CRoaring

/-- `words[i]`. -/
def rdWord (ws : List Word) (i : Nat) : Out Word :=
  match ws[i]? with
  | some w => .ok w
  | none => .oob

/-- `array[i]` with an `int32_t` index. -/
def rdValZ (mem : List Nat) (i : Int) : Out Nat := if i < 0 then .oob else rdVal mem i.toNat

/-- `runs[i]` with an `int32_t` index. -/
def rdRunZ (mem : List Rle) (i : Int) : Out Rle := if i < 0 then .oob else rdRun mem i.toNat

/-! ### Iterators over a container -/

/-- `while ((word = words[wordindex]) == 0) wordindex++` and the value found: src/containers/containers.c:296-303. -/
def firstBitBuf (i : Nat) : List Word → Out Nat
  | [] => .oob
  | w :: ws => if w = 0#64 then firstBitBuf (i + 1) ws else .ok (i * 64 + ctz w)

/-- `while ((word = words[wordindex]) == 0) wordindex--` and the value found: src/containers/containers.c:336-344.  The `uint32_t`
index wraps below word 0, which is outside of the block. -/
def lastBitBuf (ws : List Word) : Nat → Out Nat
  | 0 => do
    let w ← rdWord ws 0
    if w = 0#64 then .oob else .ok (63 - clz w)
  | i + 1 => do
    let w ← rdWord ws (i + 1)
    if w = 0#64 then lastBitBuf ws i else .ok ((i + 1) * 64 + (63 - clz w))

/-- `container_init_iterator`: src/containers/containers.c:291-328: the index and the value. -/
def containerInitIteratorBuf : CBuf → Out (Int × Nat)
  | .bitset b => do
    let i ← firstBitBuf 0 b.words
    .ok ((i : Int), i % 65536)
  | .array a => do
    let v ← rdVal a.mem 0
    .ok (0, v)
  | .run r => do
    let x ← rdRun r.mem 0
    .ok (0, x.1)

/-- `container_init_iterator_last`: src/containers/containers.c:330-371: the index and the value. -/
def containerInitIteratorLastBuf : CBuf → Out (Int × Nat)
  | .bitset b => do
    let i ← lastBitBuf b.words (NWORDS - 1)
    .ok ((i : Int), i % 65536)
  | .array a => do
    let v ← rdValZ a.mem ((a.card : Int) - 1)
    .ok ((a.card : Int) - 1, v)
  | .run r => do
    let x ← rdRunZ r.mem ((r.n : Int) - 1)
    .ok ((r.n : Int) - 1, (x.1 + x.2) % 65536)

/-- `while (word == 0 && wordindex + 1 < BITSET_CONTAINER_SIZE_IN_WORDS)`: src/containers/containers.c:388-392 and 555-559; `n` words
follow word `k`.  The word index and the word. -/
def skipWordsBuf (ws : List Word) (word : Word) (k : Nat) : Nat → Out (Nat × Word)
  | 0 => .ok (k, word)
  | n + 1 =>
    if word = 0#64 then do
      let w ← rdWord ws (k + 1)
      skipWordsBuf ws w (k + 1) n
    else .ok (k, word)

/-- `container_iterator_next`: src/containers/containers.c:373-435. -/
def containerIteratorNextBuf (c : CBuf) (index : Int) (value : Nat) : Out (Int × Option Nat) :=
  match c with
  | .bitset b =>
    let index := index + 1
    let k := index.toNat / 64
    if k ≥ NWORDS then .ok (index, none)
    else do
      let w ← rdWord b.words k
      let q ← skipWordsBuf b.words (w &&& (ones <<< (index.toNat % 64))) k (NWORDS - 1 - k)
      if q.2 ≠ 0#64 then .ok (((q.1 * 64 + ctz q.2 : Nat) : Int), some ((q.1 * 64 + ctz q.2) % 65536)) else .ok (index, none)
  | .array a =>
    let index := index + 1
    if index < a.card then do
      let v ← rdValZ a.mem index
      .ok (index, some v)
    else .ok (index, none)
  | .run r =>
    if value = 65535 then .ok (index, none)
    else do
      let x ← rdRunZ r.mem index
      if value < x.1 + x.2 then .ok (index, some (value + 1))
      else if index + 1 < r.n then do
        let y ← rdRunZ r.mem (index + 1)
        .ok (index + 1, some y.1)
      else .ok (index + 1, none)

/-- `while (word == 0 && --wordindex >= 0) word = words[wordindex]` and the value found: src/containers/containers.c:452-460. -/
def prevBitBuf (ws : List Word) (word : Word) : Nat → Out (Option Nat)
  | 0 => .ok (if word = 0#64 then none else some (63 - clz word))
  | k + 1 =>
    if word = 0#64 then do
      let w ← rdWord ws k
      prevBitBuf ws w k
    else .ok (some ((k + 1) * 64 + (63 - clz word)))

/-- `container_iterator_prev`: src/containers/containers.c:437-493. -/
def containerIteratorPrevBuf (c : CBuf) (index : Int) (value : Nat) : Out (Int × Option Nat) :=
  match c with
  | .bitset b =>
    let index := index - 1
    if index < 0 then .ok (index, none)
    else do
      let k := index.toNat / 64
      let w ← rdWord b.words k
      let o ← prevBitBuf b.words (w &&& (ones >>> (63 - index.toNat % 64))) k
      match o with
      | none => .ok (index, none)
      | some i => .ok ((i : Int), some (i % 65536))
  | .array a =>
    let index := index - 1
    if index < 0 then .ok (index, none)
    else do
      let v ← rdValZ a.mem index
      .ok (index, some v)
  | .run r =>
    if value = 0 then .ok (index, none)
    else do
      let value := value - 1
      let x ← rdRunZ r.mem index
      if value ≥ x.1 then .ok (index, some value)
      else if index - 1 < 0 then .ok (index - 1, none)
      else do
        let y ← rdRunZ r.mem (index - 1)
        .ok (index - 1, some ((y.1 + y.2) % 65536))

/-- `container_iterator_lower_bound`: src/containers/containers.c:495-529. -/
def containerIteratorLowerBoundBuf (c : CBuf) (index : Int) (val : Nat) : Out (Int × Option Nat) := do
  let v ← c.load
  if val > containerMax v then .ok (index, none)
  else
    match c, v with
    | .bitset b, _ => .ok (bitsetIndexEqualOrLarger b val, some (u16 (bitsetIndexEqualOrLarger b val)))
    | .array a, .array l => do
      let i := arrayIndexEqualOrLarger l val
      let x ← rdValZ a.mem i
      .ok (i, some x)
    | .run r, .run rs => do
      let i := runIndexEqualOrLarger rs val
      let x ← rdRunZ r.mem i
      if x.1 ≤ val then .ok (i, some val) else .ok (i, some x.1)
    | _, _ => .fail

/-- `while (word != 0 && *consumed < count)`: src/containers/containers.c:547-553; `count` is the number of values still wanted, `pos`
the place of `buf` in the caller's array `out`.  The array, the number of values written and the word left. -/
def readWordBuf (high base : Nat) : Nat → Word → List Nat → Nat → Out (List Nat × Nat × Word)
  | 0, w, out, _ => .ok (out, 0, w)
  | count + 1, w, out, pos =>
    if w = 0#64 then .ok (out, 0, w)
    else do
      let out ← write16 out pos (high ||| (base + ctz w))
      let p ← readWordBuf high base count (w &&& (w - 1#64)) out (pos + 1)
      .ok (p.1, p.2.1 + 1, p.2.2)

/-- The loop of src/containers/containers.c:545-560: the array, the number of values written, the word index and the word left. -/
def readBitsBuf (ws : List Word) (high : Nat) : Nat → Nat → Word → Nat → List Nat → Nat → Out (List Nat × Nat × Nat × Word)
  | 0, _, _, _, _, _ => .fail
  | fuel + 1, k, word, count, out, pos => do
    let p ← readWordBuf high (k * 64) count word out pos
    let q ← skipWordsBuf ws p.2.2 k (NWORDS - 1 - k)
    if q.2 ≠ 0#64 ∧ p.2.1 < count then do
      let s ← readBitsBuf ws high fuel q.1 q.2 (count - p.2.1) p.1 (pos + p.2.1)
      .ok (s.1, p.2.1 + s.2.1, s.2.2)
    else .ok (p.1, p.2.1, q)

/-- `for (i = 0; i < num_values; i++) buf[i] = high16 | array[index + i]`: src/containers/containers.c:573-575; `n` values are left. -/
def readValsBuf (mem : List Nat) (high : Nat) : Nat → Int → List Nat → Nat → Out (List Nat)
  | 0, _, out, _ => .ok out
  | n + 1, index, out, pos => do
    let v ← rdValZ mem index
    let out ← write16 out pos (high ||| v)
    readValsBuf mem high n (index + 1) out (pos + 1)

/-- `for (i = 0; i < num_values; i++) buf[i] = high16 | (*value_out + i)`: src/containers/containers.c:591-593; `n` values are left. -/
def readSeqBuf (high : Nat) : Nat → Nat → List Nat → Nat → Out (List Nat)
  | 0, _, out, _ => .ok out
  | n + 1, value, out, pos => do
    let out ← write16 out pos (high ||| value)
    readSeqBuf high n (value + 1) out (pos + 1)

/-- The loop of src/containers/containers.c:585-612: the array, the number of values written, the index and the value left. -/
def readRunsBuf (r : RunBuf) (high : Nat) : Nat → Int → Nat → Nat → List Nat → Nat → Out (List Nat × Nat × Int × Option Nat)
  | 0, _, _, _, _, _ => .fail
  | fuel + 1, index, value, count, out, pos => do
    let x ← rdRunZ r.mem index
    let largest := x.1 + x.2
    let num := Nat.min (u32 ((largest : Int) - value + 1)) count
    let out ← readSeqBuf high num value out pos
    let value := (value + num) % 65536
    if value > largest ∨ value = 0 then
      if index + 1 < r.n then do
        let y ← rdRunZ r.mem (index + 1)
        if num < count then do
          let s ← readRunsBuf r high fuel (index + 1) y.1 (count - num) out (pos + num)
          .ok (s.1, num + s.2.1, s.2.2)
        else .ok (out, num, index + 1, some y.1)
      else .ok (out, num, index + 1, none)
    else if num < count then do
      let s ← readRunsBuf r high fuel index value (count - num) out (pos + num)
      .ok (s.1, num + s.2.1, s.2.2)
    else .ok (out, num, index, some value)

/-- `container_iterator_read_into_uint32`: src/containers/containers.c:531-618: the caller's array, `*consumed`, the new index and the
value the iterator is on (`none` for the answer `false`).  `pos` is the place of `buf` in the array. -/
def containerIteratorReadBuf (c : CBuf) (index : Int) (high count value : Nat) (out : List Nat) (pos : Nat) :
    Out (List Nat × Nat × Int × Option Nat) :=
  if count = 0 then .ok (out, 0, index, none)
  else
    match c with
    | .bitset b => do
      let k := index.toNat / 64
      let w ← rdWord b.words k
      let r ← readBitsBuf b.words high NWORDS k (w &&& (ones <<< (index.toNat % 64))) count out pos
      if r.2.2.2 ≠ 0#64 then
        .ok (r.1, r.2.1, ((r.2.2.1 * 64 + ctz r.2.2.2 : Nat) : Int), some ((r.2.2.1 * 64 + ctz r.2.2.2) % 65536))
      else .ok (r.1, r.2.1, index, none)
    | .array a => do
      let num := Nat.min (u32 ((a.card : Int) - index)) count
      let out ← readValsBuf a.mem high num index out pos
      if index + num < a.card then do
        let v ← rdValZ a.mem (index + num)
        .ok (out, num, index + num, some v)
      else .ok (out, num, index + num, none)
    | .run r => readRunsBuf r high r.n index value count out pos

/-! ### Iterators over a bitmap -/

/-- `roaring_uint32_iterator_t`: include/roaring/roaring.h:1046-1056, without the pointer to the bitmap, which the functions below take
as an argument; `container` stands for the pointer and type code of the current container. -/
structure BIter where
  containerIndex : Int
  hasValue : Bool
  container : CBuf
  highbits : Nat
  cit : Int
  currentValue : Nat

/-- `iter_new_container_partial_init`: src/roaring.c:1645-1669. -/
def iterPartialInitBuf (r : RaBuf) (it : BIter) : Out BIter :=
  if it.containerIndex ≥ r.size ∨ it.containerIndex < 0 then .ok { it with currentValue := 4294967295, hasValue := false }
  else do
    let c ← cellAt r.mem it.containerIndex.toNat
    .ok { it with currentValue := 0, hasValue := true, container := c.2, highbits := c.1 <<< 16 }

/-- `loadfirstvalue`: src/roaring.c:1675-1684. -/
def loadFirstBuf (r : RaBuf) (it : BIter) : Out BIter := do
  let it ← iterPartialInitBuf r it
  if it.hasValue then do
    let p ← containerInitIteratorBuf it.container
    .ok { it with cit := p.1, currentValue := it.highbits ||| p.2 }
  else .ok it

/-- `loadlastvalue`: src/roaring.c:1690-1699. -/
def loadLastBuf (r : RaBuf) (it : BIter) : Out BIter := do
  let it ← iterPartialInitBuf r it
  if it.hasValue then do
    let p ← containerInitIteratorLastBuf it.container
    .ok { it with cit := p.1, currentValue := it.highbits ||| p.2 }
  else .ok it

/-- `loadfirstvalue_largeorequal`: src/roaring.c:1706-1727. -/
def loadFirstGeBuf (r : RaBuf) (it : BIter) (val : Nat) : Out BIter := do
  let it ← iterPartialInitBuf r it
  if it.hasValue then do
    let p ← containerInitIteratorBuf it.container
    let q ← containerIteratorLowerBoundBuf it.container p.1 (val % 65536)
    match q.2 with
    | some value => .ok { it with cit := q.1, currentValue := it.highbits ||| value }
    | none => .ok { it with cit := q.1, hasValue := false }
  else .ok it

/-- `roaring_iterator_init`: src/roaring.c:1729-1734; the struct may hold anything before. -/
def iterInitBuf (r : RaBuf) (junk : BIter) : Out BIter := loadFirstBuf r { junk with containerIndex := 0 }

/-- `roaring_iterator_init_last`: src/roaring.c:1736-1741. -/
def iterInitLastBuf (r : RaBuf) (junk : BIter) : Out BIter := loadLastBuf r { junk with containerIndex := (r.size : Int) - 1 }

/-- `roaring_uint32_iterator_move_equalorlarger`: src/roaring.c:1761-1785; the result is the new `hasValue`. -/
def iterMoveBuf (r : RaBuf) (it : BIter) (val : Nat) : Out BIter := do
  let i ← raGetIndexBuf r (val / 65536 % 65536)
  if i ≥ 0 then do
    let c ← loadCell r.mem i.toNat
    if containerMax c.2 < val % 65536 then loadFirstBuf r { it with containerIndex := i + 1 }
    else loadFirstGeBuf r { it with containerIndex := i } val
  else loadFirstBuf r { it with containerIndex := -i - 1 }

/-- `roaring_uint32_iterator_advance`: src/roaring.c:1787-1803; the result is the new `hasValue`. -/
def iterAdvanceBuf (r : RaBuf) (it : BIter) : Out BIter :=
  if it.containerIndex ≥ r.size then .ok { it with hasValue := false }
  else if it.containerIndex < 0 then loadFirstBuf r { it with containerIndex := 0 }
  else do
    let p ← containerIteratorNextBuf it.container it.cit (it.currentValue % 65536)
    match p.2 with
    | some low16 => .ok { it with cit := p.1, currentValue := it.highbits ||| low16, hasValue := true }
    | none => loadFirstBuf r { it with cit := p.1, containerIndex := it.containerIndex + 1 }

/-- `roaring_uint32_iterator_previous`: src/roaring.c:1805-1821; the result is the new `hasValue`. -/
def iterPreviousBuf (r : RaBuf) (it : BIter) : Out BIter :=
  if it.containerIndex < 0 then .ok { it with hasValue := false }
  else if it.containerIndex ≥ r.size then loadLastBuf r { it with containerIndex := (r.size : Int) - 1 }
  else do
    let p ← containerIteratorPrevBuf it.container it.cit (it.currentValue % 65536)
    match p.2 with
    | some low16 => .ok { it with cit := p.1, currentValue := it.highbits ||| low16, hasValue := true }
    | none => loadLastBuf r { it with cit := p.1, containerIndex := it.containerIndex - 1 }

/-- The loop of `roaring_uint32_iterator_read`: src/roaring.c:1824-1841; `count` is what is left of the count and `pos` the place of
`buf` in the caller's array: the array, the number of values written and the iterator. -/
def iterReadLoopBuf (r : RaBuf) : Nat → BIter → Nat → List Nat → Nat → Out (List Nat × Nat × BIter)
  | 0, _, _, _, _ => .fail
  | fuel + 1, it, count, out, pos =>
    if it.hasValue && decide (0 < count) then do
      let p ← containerIteratorReadBuf it.container it.cit it.highbits count (it.currentValue % 65536) out pos
      match p.2.2.2 with
      | some low16 => .ok (p.1, p.2.1, { it with cit := p.2.2.1, hasValue := true, currentValue := it.highbits ||| low16 })
      | none => do
        let it ← loadFirstBuf r { it with cit := p.2.2.1, containerIndex := it.containerIndex + 1 }
        let q ← iterReadLoopBuf r fuel it (count - p.2.1) p.1 (pos + p.2.1)
        .ok (q.1, p.2.1 + q.2.1, q.2.2)
    else .ok (out, 0, it)

/-- `roaring_uint32_iterator_read`: src/roaring.c:1821-1842, into the array `out` at `pos`: the array, the returned number and the
iterator. -/
def iterReadBuf (r : RaBuf) (it : BIter) (count : Nat) (out : List Nat) (pos : Nat) : Out (List Nat × Nat × BIter) :=
  iterReadLoopBuf r (r.size + 1) it count out pos

/-- `roaring_bitmap_intersect_with_range`: src/roaring.c:2749-2766; `x` and `y` are 64-bit; `junk` is the uninitialised iterator. -/
def rbIntersectWithRangeBuf (r : RaBuf) (x y : Nat) (junk : BIter) : Out Bool :=
  if x ≥ y then .ok false
  else do
    let it ← iterInitBuf r junk
    let it ← iterMoveBuf r it (x % 4294967296)
    if !it.hasValue then .ok false else if it.currentValue ≥ y then .ok false else .ok true

end CRoaring
