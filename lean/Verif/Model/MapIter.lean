import Verif.Model.Map64
/-
Model of the C++ iterators: `RoaringSetBitBiDirectionalIterator` (cpp/roaring.hh) and `Roaring64MapSetBitBiDirectionalIterator`
(cpp/roaring64map.hh), and of the textual output of both classes.
-/
namespace CRoaring

/-! ### Iterators of `Roaring` -/

/-- `roaring_uint32_iterator_t i{}`: all fields zero (cpp/roaring.hh:1028-1030). -/
def zeroIter : Iter :=
  { containerIndex := 0, hasValue := false, container := .array [], highbits := 0, cit := 0, currentValue := 0 }

/-- `RoaringSetBitBiDirectionalIterator`: cpp/roaring.hh:922-1031: the bitmap that `i.parent` points to, and `i`.  The bitmaps
are not changed while an iterator is used, so the pointer is the bitmap itself. -/
structure CIter where
  parent : Bitmap
  i : Iter

/-- The constructor with `exhausted`: cpp/roaring.hh:933-938. -/
def ciExhausted (r : Bitmap) : CIter :=
  ⟨r, { zeroIter with containerIndex := 2147483647, hasValue := false, currentValue := 4294967295 }⟩

/-- `Roaring::begin`: cpp/roaring.hh:939-942, 1033-1035. -/
def ciBegin (r : Bitmap) : CIter := ⟨r, iterInit r zeroIter⟩

/-- `Roaring::end`: cpp/roaring.hh:1037-1040.  The iterator is a static variable, made by the first call of `end` on any bitmap;
`static` is that variable (`none` before the first call), and the result is also its new value. -/
def ciEnd (static : Option CIter) (r : Bitmap) : CIter :=
  match static with
  | some e => e
  | none => ciExhausted r

/-- `operator*`: cpp/roaring.hh:947. -/
def ciDeref (it : CIter) : Nat := it.i.currentValue

/-- `operator<`: cpp/roaring.hh:949-953. -/
def ciLt (a b : CIter) : Bool :=
  if !a.i.hasValue then false else if !b.i.hasValue then true else decide (a.i.currentValue < b.i.currentValue)

/-- `operator<=`: cpp/roaring.hh:955-959. -/
def ciLe (a b : CIter) : Bool :=
  if !b.i.hasValue then true else if !a.i.hasValue then false else decide (a.i.currentValue ≤ b.i.currentValue)

/-- `operator>`: cpp/roaring.hh:961-965. -/
def ciGt (a b : CIter) : Bool :=
  if !b.i.hasValue then false else if !a.i.hasValue then true else decide (a.i.currentValue > b.i.currentValue)

/-- `operator>=`: cpp/roaring.hh:967-971. -/
def ciGe (a b : CIter) : Bool :=
  if !a.i.hasValue then true else if !b.i.hasValue then false else decide (a.i.currentValue ≥ b.i.currentValue)

/-- `operator++` (both): cpp/roaring.hh:973-982. -/
def ciInc (a : CIter) : CIter := ⟨a.parent, iterAdvance a.parent a.i⟩

/-- `operator--` (both): cpp/roaring.hh:997-1006. -/
def ciDec (a : CIter) : CIter := ⟨a.parent, iterPrevious a.parent a.i⟩

/-- `move_equalorlarger` (and `equalorlarger`): cpp/roaring.hh:988-995. -/
def ciMove (a : CIter) (val : Nat) : CIter × Bool :=
  (⟨a.parent, iterMove a.parent a.i val⟩, (iterMove a.parent a.i val).hasValue)

/-- `operator==`: cpp/roaring.hh:1008-1010. -/
def ciEq (a b : CIter) : Bool := a.i.currentValue == b.i.currentValue && a.i.hasValue == b.i.hasValue

/-- `operator!=`: cpp/roaring.hh:1012-1014. -/
def ciNe (a b : CIter) : Bool := a.i.currentValue != b.i.currentValue || a.i.hasValue != b.i.hasValue

/-- `for (auto v : bitmap)`: from `begin()` while `!= end()`; the result is the values in the order they come up.  At most `fuel`
rounds; `none` means that the loop has not ended by then. -/
def ciLoop (e : CIter) : Nat → CIter → Option (List Nat)
  | 0, _ => none
  | fuel + 1, it => if ciNe it e then (ciLoop e fuel (ciInc it)).map (ciDeref it :: ·) else some []

/-- `Roaring::toString`: cpp/roaring.hh:821-842: the callback appends `first_char` and the number, and makes the character a
comma. -/
def rbToString (r : Bitmap) : String :=
  let s := if !rbIsEmpty r then
      (rbIterate (fun (s : String × String) v => ((s.1 ++ s.2 ++ Nat.repr v, ","), true)) ("", "{") r).1.1
    else "{"
  s ++ "}"

/-! ### Iterators of `Roaring64Map` -/

/-- `Roaring64MapSetBitBiDirectionalIterator`: cpp/roaring64map.hh:1714-1897: `map_iter` is the number of the entry it points to, with
the size of the map for `cend()`; `parent` is `i.parent` (`none`: the null pointer).  The map is not changed while an
iterator is used. -/
structure MIter where
  pos : Nat
  parent : Option Bitmap
  i : Iter

/-- `map_iter = …; roaring_iterator_init(&map_iter->second.roaring, &i)`. -/
def miInit (pos : Nat) (b : Bitmap) (i : Iter) : MIter := ⟨pos, some b, iterInit b i⟩

/-- `roaring_iterator_init_last(&map_iter->second.roaring, &i)`. -/
def miInitLast (pos : Nat) (b : Bitmap) (i : Iter) : MIter := ⟨pos, some b, iterInitLast b i⟩

/-- `while (!i.has_value) { ++map_iter; if (map_iter == cend()) return; init }`: cpp/roaring64map.hh:1731-1735, 1773-1777; the list
is the entries behind `map_iter`. -/
def miForward : Map64 → MIter → MIter
  | [], it => if it.i.hasValue then it else { it with pos := it.pos + 1 }
  | e :: t, it => if it.i.hasValue then it else miForward t (miInit (it.pos + 1) e.2 it.i)

/-- `while (!i.has_value) { if (map_iter == cbegin()) return; map_iter--; init_last }`: cpp/roaring64map.hh:1834-1838, 1851-1855; the
list is the entries before `map_iter`, the nearest first. -/
def miBackward : Map64 → MIter → MIter
  | [], it => it
  | e :: t, it => if it.i.hasValue then it else miBackward t (miInitLast (it.pos - 1) e.2 it.i)

/-- `begin()`, the constructor: cpp/roaring64map.hh:1723-1737, 1903-1905. -/
def miBegin (m : Map64) : MIter :=
  match m with
  | [] => ⟨0, none, zeroIter⟩
  | e :: t => miForward t (miInit 0 e.2 zeroIter)

/-- `end()`: cpp/roaring64map.hh:1726-1727, 1907-1909. -/
def miEnd (m : Map64) : MIter := ⟨m.length, none, zeroIter⟩

/-- `map_iter == p->cend()`. -/
def miAtEnd (m : Map64) (it : MIter) : Bool := it.pos == m.length

/-- `operator*`: cpp/roaring64map.hh:1742-1744; `none`: `cend()` is dereferenced. -/
def miDeref (m : Map64) (it : MIter) : Option Nat := (m[it.pos]?).map (fun e => uniteBytes e.1 it.i.currentValue)

/-- Two values, both of which must exist. -/
def both (a b : Option Nat) (f : Nat → Nat → Bool) : Option Bool :=
  match a, b with
  | some x, some y => some (f x y)
  | _, _ => none

/-- `operator<`: cpp/roaring64map.hh:1746-1750; `p` of the second iterator is the map `m'`. -/
def miLt (m m' : Map64) (a b : MIter) : Option Bool :=
  if miAtEnd m a then some false else if miAtEnd m' b then some true
  else both (miDeref m a) (miDeref m' b) (fun x y => decide (x < y))

/-- `operator<=`: cpp/roaring64map.hh:1752-1756. -/
def miLe (m m' : Map64) (a b : MIter) : Option Bool :=
  if miAtEnd m' b then some true else if miAtEnd m a then some false
  else both (miDeref m a) (miDeref m' b) (fun x y => decide (x ≤ y))

/-- `operator>`: cpp/roaring64map.hh:1758-1762. -/
def miGt (m m' : Map64) (a b : MIter) : Option Bool :=
  if miAtEnd m' b then some false else if miAtEnd m a then some true
  else both (miDeref m a) (miDeref m' b) (fun x y => decide (x > y))

/-- `operator>=`: cpp/roaring64map.hh:1764-1768. -/
def miGe (m m' : Map64) (a b : MIter) : Option Bool :=
  if miAtEnd m a then some true else if miAtEnd m' b then some false
  else both (miDeref m a) (miDeref m' b) (fun x y => decide (x ≥ y))

/-- `operator==`: cpp/roaring64map.hh:1878-1882. -/
def miEq (m m' : Map64) (a b : MIter) : Option Bool :=
  if miAtEnd m a && miAtEnd m' b then some true else if miAtEnd m' b then some false
  else both (miDeref m a) (miDeref m' b) (fun x y => x == y)

/-- `operator!=`: cpp/roaring64map.hh:1884-1888. -/
def miNe (m m' : Map64) (a b : MIter) : Option Bool :=
  if miAtEnd m a && miAtEnd m' b then some false else if miAtEnd m' b then some true
  else both (miDeref m a) (miDeref m' b) (fun x y => x != y)

/-- The loop that `operator++` ends with; `none`: `cend()` is incremented. -/
def miSkip (m : Map64) (it : MIter) : Option MIter :=
  if it.i.hasValue then some it else if it.pos < m.length then some (miForward (m.drop (it.pos + 1)) it) else none

/-- `operator++()`: cpp/roaring64map.hh:1770-1778; `none` is undefined behaviour. -/
def miInc (m : Map64) (it : MIter) : Option MIter :=
  if it.i.hasValue then
    match it.parent with
    | some b => miSkip m { it with i := iterAdvance b it.i }
    | none => none
  else miSkip m it

/-- `operator++(int)`: cpp/roaring64map.hh:1780-1789: the returned iterator is the old one; this is the new one. -/
def miPostInc (m : Map64) (it : MIter) : Option MIter :=
  match it.parent with
  | some b => miSkip m { it with i := iterAdvance b it.i }
  | none => none

/-- `roaring_uint32_iterator_previous(&i)` and the loop that `operator--` ends with. -/
def miBack (m : Map64) (it : MIter) : Option MIter :=
  match it.parent with
  | some b => some (miBackward (m.take it.pos).reverse { it with i := iterPrevious b it.i })
  | none => none

/-- `operator--()`: cpp/roaring64map.hh:1826-1840. -/
def miDec (m : Map64) (it : MIter) : Option MIter :=
  if miAtEnd m it then
    match m.getLast? with
    | none => none
    | some e =>
      let it := miInitLast (m.length - 1) e.2 it.i
      if it.i.hasValue then some it else miBack m it
  else miBack m it

/-- `operator--(int)`: cpp/roaring64map.hh:1842-1857. -/
def miPostDec (m : Map64) (it : MIter) : Option MIter :=
  if miAtEnd m it then
    match m.getLast? with
    | none => none
    | some e => some (miInitLast (m.length - 1) e.2 it.i)
  else miBack m it

/-- `move_equalorlarger` (and `move`): cpp/roaring64map.hh:1795-1824. -/
def miMove (m : Map64) (it : MIter) (x : Nat) : MIter × Bool :=
  let pos := (m.takeWhile (fun p => decide (p.1 < highBytes x))).length
  match m.drop pos with
  | [] => ({ it with pos := pos }, false)
  | (k, b) :: t =>
    let it := miInit pos b it.i
    if k = highBytes x then
      let i := iterMove b it.i (lowBytes x)
      if i.hasValue then (⟨pos, some b, i⟩, true)
      else
        match t with
        | [] => (⟨pos + 1, some b, i⟩, false)
        | e :: _ => (miInit (pos + 1) e.2 i, true)
    else (it, true)

/-- `for (auto v : map)`: from `begin()` while `!= end()`; at most `fuel` rounds. -/
def miLoop (m : Map64) : Nat → MIter → Option (List Nat)
  | 0, _ => none
  | fuel + 1, it =>
    match miNe m m it (miEnd m) with
    | none => none
    | some false => some []
    | some true =>
      match miDeref m it, miInc m it with
      | some v, some it' => (miLoop m fuel it').map (v :: ·)
      | _, _ => none

/-- The inner loop of `printToSink`: cpp/roaring64map.hh:1638-1645: the strings given to the sink for the values of one bitmap, and
the separator afterwards. -/
def sinkLow (high : Nat) : List Nat → String → List String × String
  | [], sep => ([], sep)
  | v :: t, sep => let p := sinkLow high t ","; ((sep ++ Nat.repr (uniteBytes high v)) :: p.1, p.2)

/-- The outer loop of `printToSink`: cpp/roaring64map.hh:1635-1646: the strings given to the sink, for the entries from one on.  `static` is
the static variable of `Roaring::end`; `none` means that a loop over an inner bitmap does not end. -/
def sinkLoop (static : Option CIter) : Map64 → String → Option (List String)
  | [], _ => some []
  | (k, b) :: t, sep =>
    match ciLoop (ciEnd static b) FUEL (ciBegin b) with
    | none => none
    | some l => let p := sinkLow k l sep; (sinkLoop static t p.2).map (p.1 ++ ·)

/-- `printToSink`: cpp/roaring64map.hh:1625-1648. -/
def printToSink (static : Option CIter) (m : Map64) : Option (List String) :=
  (sinkLoop static m "").map (fun l => "{" :: l ++ ["}"])

/-- `toString`: cpp/roaring64map.hh:1417-1422. -/
def m64ToString (static : Option CIter) (m : Map64) : Option String :=
  (printToSink static m).map (fun l => l.foldl (· ++ ·) "")

/-- `printf`: cpp/roaring64map.hh:1408-1412: what is written to the standard output. -/
def m64Printf (static : Option CIter) (m : Map64) : Option String := (m64ToString static m).map (· ++ "\n")

end CRoaring
