import Verif.Model.Bitmap

/-! Model of the iterators: the container iterators of src/containers/containers.c, `roaring_uint32_iterator_t` of
src/roaring.c and `roaring_bitmap_intersect_with_range`.

A container iterator is the `int32_t index` of `roaring_container_iterator_t`.  A function that moves it returns the
new index and the value it stored, `none` standing for the answer `false` (no value stored). -/

namespace CRoaring

/-- `while ((word = words[wordindex]) == 0) wordindex++` and the value found: `src/containers/containers.c:296-303`.
A container without a value makes the C loop read past the end; the model then yields 0. -/
def firstBit (i : Nat) : List Word → Nat
  | [] => 0
  | w :: ws => if w = 0#64 then firstBit (i + 1) ws else i * 64 + ctz w

/-- `while ((word = words[wordindex]) == 0) wordindex--` and the value found: `src/containers/containers.c:336-344`.
A container without a value makes the C loop read before the start; the model then yields 0. -/
def lastBit (ws : List Word) : Nat → Nat
  | 0 => if wd ws 0 = 0#64 then 0 else 63 - clz (wd ws 0)
  | i + 1 => if wd ws (i + 1) = 0#64 then lastBit ws i else (i + 1) * 64 + (63 - clz (wd ws (i + 1)))

/-- `container_init_iterator`: `src/containers/containers.c:291-328`: the index and the value. -/
def containerInitIterator : Container → Int × Nat
  | .bitset b => let i := firstBit 0 b.words; ((i : Int), i % 65536)
  | .array l => (0, rdL l 0)
  | .run rs => (0, (rdR rs 0).1)

/-- `container_init_iterator_last`: `src/containers/containers.c:330-371`: the index and the value. -/
def containerInitIteratorLast : Container → Int × Nat
  | .bitset b => let i := lastBit b.words (NWORDS - 1); ((i : Int), i % 65536)
  | .array l => ((l.length : Int) - 1, rdL l (l.length - 1))
  | .run rs =>
    ((rs.length : Int) - 1, ((rdR rs (rs.length - 1)).1 + (rdR rs (rs.length - 1)).2) % 65536)

/-- `container_iterator_next`: `src/containers/containers.c:373-435`.  The word loop of a bitset is the one of
`bitset_container_index_equalorlarger`. -/
def containerIteratorNext (c : Container) (index : Int) (value : Nat) : Int × Option Nat :=
  match c with
  | .bitset b =>
    let index := index + 1
    let k := index.toNat / 64
    if k ≥ NWORDS then (index, none)
    else
      let i := indexEqualOrLargerLoop b.words (wd b.words k &&& (ones <<< (index.toNat % 64))) k (NWORDS - 1 - k)
      if i = -1 then (index, none) else (i, some (i.toNat % 65536))
  | .array l =>
    let index := index + 1
    if index < l.length then (index, some (rdL l index.toNat)) else (index, none)
  | .run rs =>
    if value = 65535 then (index, none)
    else if value < (rdR rs index.toNat).1 + (rdR rs index.toNat).2 then (index, some (value + 1))
    else
      let index := index + 1
      if index < rs.length then (index, some (rdR rs index.toNat).1) else (index, none)

/-- `while (word == 0 && --wordindex >= 0) word = words[wordindex]` and the value found:
`src/containers/containers.c:452-460`. -/
def prevBit (ws : List Word) (word : Word) : Nat → Option Nat
  | 0 => if word = 0#64 then none else some (63 - clz word)
  | k + 1 => if word = 0#64 then prevBit ws (wd ws k) k else some ((k + 1) * 64 + (63 - clz word))

/-- `container_iterator_prev`: `src/containers/containers.c:437-493`. -/
def containerIteratorPrev (c : Container) (index : Int) (value : Nat) : Int × Option Nat :=
  match c with
  | .bitset b =>
    let index := index - 1
    if index < 0 then (index, none)
    else
      let k := index.toNat / 64
      match prevBit b.words (wd b.words k &&& (ones >>> (63 - index.toNat % 64))) k with
      | none => (index, none)
      | some i => ((i : Int), some (i % 65536))
  | .array l =>
    let index := index - 1
    if index < 0 then (index, none) else (index, some (rdL l index.toNat))
  | .run rs =>
    if value = 0 then (index, none)
    else
      let value := value - 1
      if value ≥ (rdR rs index.toNat).1 then (index, some value)
      else
        let index := index - 1
        if index < 0 then (index, none)
        else (index, some (((rdR rs index.toNat).1 + (rdR rs index.toNat).2) % 65536))

/-- `container_iterator_lower_bound`: `src/containers/containers.c:495-529`. -/
def containerIteratorLowerBound (c : Container) (index : Int) (val : Nat) : Int × Option Nat :=
  if val > containerMax c then (index, none)
  else
    match c with
    | .bitset b => let i := bitsetIndexEqualOrLarger b val; (i, some (u16 i))
    | .array l => let i := arrayIndexEqualOrLarger l val; (i, some (rdL l i.toNat))
    | .run rs =>
      let i := runIndexEqualOrLarger rs val
      if (rdR rs i.toNat).1 ≤ val then (i, some val) else (i, some (rdR rs i.toNat).1)

/-- `while (word != 0 && *consumed < count)`: `src/containers/containers.c:547-553`; `count` is the number of values
still wanted.  The values and the word left. -/
def readWord (high base : Nat) : Nat → Word → List Nat × Word
  | 0, w => ([], w)
  | count + 1, w =>
    if w = 0#64 then ([], w)
    else
      let p := readWord high base count (w &&& (w - 1#64))
      ((high ||| (base + ctz w)) :: p.1, p.2)

/-- `while (word == 0 && wordindex + 1 < BITSET_CONTAINER_SIZE_IN_WORDS)`: `src/containers/containers.c:555-559`; `n`
words follow word `k`. -/
def skipWords (ws : List Word) (word : Word) (k : Nat) : Nat → Nat × Word
  | 0 => (k, word)
  | n + 1 => if word = 0#64 then skipWords ws (wd ws (k + 1)) (k + 1) n else (k, word)

/-- The loop of `src/containers/containers.c:545-560`; the values, the word index and the word left.  Every turn but
the last moves to a later word, so `NWORDS` turns are enough. -/
def readBits (ws : List Word) (high : Nat) : Nat → Nat → Word → Nat → List Nat × Nat × Word
  | 0, k, word, _ => ([], k, word)
  | fuel + 1, k, word, count =>
    let p := readWord high (k * 64) count word
    let q := skipWords ws p.2 k (NWORDS - 1 - k)
    if q.2 ≠ 0#64 ∧ p.1.length < count then
      let s := readBits ws high fuel q.1 q.2 (count - p.1.length)
      (p.1 ++ s.1, s.2)
    else (p.1, q)

/-- The loop of `src/containers/containers.c:585-612`; the values, the index and the value left.  Every turn but the
last moves to a later run, so `n_runs` turns are enough. -/
def readRuns (rs : List Rle) (high : Nat) : Nat → Int → Nat → Nat → List Nat × Int × Option Nat
  | 0, index, _, _ => ([], index, none)
  | fuel + 1, index, value, count =>
    let largest := (rdR rs index.toNat).1 + (rdR rs index.toNat).2
    let num := Nat.min (u32 ((largest : Int) - value + 1)) count
    let out := (List.range num).map (fun i => high ||| (value + i))
    let value := (value + num) % 65536
    if value > largest ∨ value = 0 then
      let index := index + 1
      if index < rs.length then
        let value := (rdR rs index.toNat).1
        if num < count then
          let s := readRuns rs high fuel index value (count - num)
          (out ++ s.1, s.2)
        else (out, index, some value)
      else (out, index, none)
    else if num < count then
      let s := readRuns rs high fuel index value (count - num)
      (out ++ s.1, s.2)
    else (out, index, some value)

/-- `container_iterator_read_into_uint32`: `src/containers/containers.c:531-618`, and the same code for 64-bit values,
`container_iterator_read_into_uint64`: 620-709.  The values written, the new index and the value the iterator is on
(`none` for the answer `false`). -/
def containerIteratorRead (c : Container) (index : Int) (high count value : Nat) : List Nat × Int × Option Nat :=
  if count = 0 then ([], index, none)
  else
    match c with
    | .bitset b =>
      let k := index.toNat / 64
      let r := readBits b.words high NWORDS k (wd b.words k &&& (ones <<< (index.toNat % 64))) count
      if r.2.2 ≠ 0#64 then
        let i := r.2.1 * 64 + ctz r.2.2
        (r.1, (i : Int), some (i % 65536))
      else (r.1, index, none)
    | .array l =>
      let num := Nat.min (u32 ((l.length : Int) - index)) count
      let out := (List.range num).map (fun i => high ||| rdL l (index.toNat + i))
      let index := index + num
      if index < l.length then (out, index, some (rdL l index.toNat)) else (out, index, none)
    | .run rs => readRuns rs high rs.length index value count

/-- `roaring_uint32_iterator_t`: `include/roaring/roaring.h:1046-1056`, without the pointer to the bitmap, which the
functions below take as an argument; `container` stands for the pointer and type code of the current container. -/
structure Iter where
  containerIndex : Int
  hasValue : Bool
  container : Container
  highbits : Nat
  cit : Int
  currentValue : Nat

/-- `iter_new_container_partial_init`: `src/roaring.c:1645-1669`. -/
def iterPartialInit (r : Bitmap) (it : Iter) : Iter :=
  if it.containerIndex ≥ r.length ∨ it.containerIndex < 0 then
    { it with currentValue := 4294967295, hasValue := false }
  else
    { it with
      currentValue := 0
      hasValue := true
      container := contAt r it.containerIndex.toNat
      highbits := keyAt r it.containerIndex.toNat <<< 16 }

/-- `loadfirstvalue`: `src/roaring.c:1675-1684`. -/
def loadFirst (r : Bitmap) (it : Iter) : Iter :=
  let it := iterPartialInit r it
  if it.hasValue then
    let p := containerInitIterator it.container
    { it with cit := p.1, currentValue := it.highbits ||| p.2 }
  else it

/-- `loadlastvalue`: `src/roaring.c:1690-1699`. -/
def loadLast (r : Bitmap) (it : Iter) : Iter :=
  let it := iterPartialInit r it
  if it.hasValue then
    let p := containerInitIteratorLast it.container
    { it with cit := p.1, currentValue := it.highbits ||| p.2 }
  else it

/-- `loadfirstvalue_largeorequal`: `src/roaring.c:1706-1727`.  `move_equalorlarger` stores its result in
`has_value`, as here. -/
def loadFirstGe (r : Bitmap) (it : Iter) (val : Nat) : Iter :=
  let it := iterPartialInit r it
  if it.hasValue then
    let p := containerInitIterator it.container
    let q := containerIteratorLowerBound it.container p.1 (val % 65536)
    match q.2 with
    | some value => { it with cit := q.1, currentValue := it.highbits ||| value }
    | none => { it with cit := q.1, hasValue := false }
  else it

/-- `roaring_iterator_init`: `src/roaring.c:1729-1734`; the struct may hold anything before. -/
def iterInit (r : Bitmap) (junk : Iter) : Iter := loadFirst r { junk with containerIndex := 0 }

/-- `roaring_iterator_init_last`: `src/roaring.c:1736-1741`. -/
def iterInitLast (r : Bitmap) (junk : Iter) : Iter :=
  loadLast r { junk with containerIndex := (r.length : Int) - 1 }

/-- `roaring_uint32_iterator_move_equalorlarger`: `src/roaring.c:1761-1785`; the result is the new `hasValue`. -/
def iterMove (r : Bitmap) (it : Iter) (val : Nat) : Iter :=
  let i := raGetIndex r (val / 65536 % 65536)
  if i ≥ 0 then
    if containerMax (contAt r i.toNat) < val % 65536 then loadFirst r { it with containerIndex := i + 1 }
    else loadFirstGe r { it with containerIndex := i } val
  else loadFirst r { it with containerIndex := -i - 1 }

/-- `roaring_uint32_iterator_advance`: `src/roaring.c:1787-1803`; the result is the new `hasValue`. -/
def iterAdvance (r : Bitmap) (it : Iter) : Iter :=
  if it.containerIndex ≥ r.length then { it with hasValue := false }
  else if it.containerIndex < 0 then loadFirst r { it with containerIndex := 0 }
  else
    let p := containerIteratorNext it.container it.cit (it.currentValue % 65536)
    match p.2 with
    | some low16 => { it with cit := p.1, currentValue := it.highbits ||| low16, hasValue := true }
    | none => loadFirst r { it with cit := p.1, containerIndex := it.containerIndex + 1 }

/-- `roaring_uint32_iterator_previous`: `src/roaring.c:1805-1821`; the result is the new `hasValue`. -/
def iterPrevious (r : Bitmap) (it : Iter) : Iter :=
  if it.containerIndex < 0 then { it with hasValue := false }
  else if it.containerIndex ≥ r.length then loadLast r { it with containerIndex := (r.length : Int) - 1 }
  else
    let p := containerIteratorPrev it.container it.cit (it.currentValue % 65536)
    match p.2 with
    | some low16 => { it with cit := p.1, currentValue := it.highbits ||| low16, hasValue := true }
    | none => loadLast r { it with cit := p.1, containerIndex := it.containerIndex - 1 }

/-- `roaring_uint32_iterator_read`: `src/roaring.c:1821-1842`: the values written and the iterator after the call.
Every turn of the loop but the last moves to a later container, so one turn more than there are containers is
enough. -/
def iterReadLoop (r : Bitmap) : Nat → Iter → Nat → List Nat × Iter
  | 0, it, _ => ([], it)
  | fuel + 1, it, count =>
    if it.hasValue && decide (0 < count) then
      let p := containerIteratorRead it.container it.cit it.highbits count (it.currentValue % 65536)
      match p.2.2 with
      | some low16 => (p.1, { it with cit := p.2.1, hasValue := true, currentValue := it.highbits ||| low16 })
      | none =>
        let q := iterReadLoop r fuel
          (loadFirst r { it with cit := p.2.1, containerIndex := it.containerIndex + 1 }) (count - p.1.length)
        (p.1 ++ q.1, q.2)
    else ([], it)

/-- `roaring_uint32_iterator_read`: `src/roaring.c:1821-1842`. -/
def iterRead (r : Bitmap) (it : Iter) (count : Nat) : List Nat × Iter := iterReadLoop r (r.length + 1) it count

/-- `roaring_bitmap_intersect_with_range`: `src/roaring.c:2749-2766`; `x` and `y` are 64-bit. -/
def rbIntersectWithRange (r : Bitmap) (x y : Nat) (junk : Iter) : Bool :=
  if x ≥ y then false
  else
    let it := iterMove r (iterInit r junk) (x % 4294967296)
    if !it.hasValue then false else if it.currentValue ≥ y then false else true

end CRoaring
