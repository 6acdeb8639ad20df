import Verif.Model.Query
/-
Model of the standalone, uncompressed bitset (`bitset_t`: src/bitset.c, include/roaring/bitset/bitset.h), and of
`roaring_bitmap_to_bitset`.

Allocation always succeeds.  The words that an allocation leaves uninitialised hold arbitrary values: they are given
by a parameter `junk`.  `size_t` has 64 bits.
-/
namespace CRoaring

/-- `bitset_t`, include/roaring/bitset/bitset.h:27-34.  `mem` are the `capacity` allocated words, of which the first
`size` (`arraysize`) are in use. -/
structure BSet where
  mem : List Word
  size : Nat
deriving DecidableEq, Repr

/-- `SIZE_MAX / 64`. -/
def MAXWORDS : Nat := 18446744073709551615 / 64

/-- Subtraction of `size_t` values. -/
def szSub (a b : Nat) : Nat := (a + 18446744073709551616 - b) % 18446744073709551616

/-- `for (k = i; k < i + n; ++k) ws[k] = g(k, ws[k])`. -/
def updWords (g : Nat → Word → Word) (ws : List Word) (i : Nat) : Nat → List Word
  | 0 => ws
  | n + 1 => updWords g (ws.set i (g i (wd ws i))) (i + 1) n

/-- `realloc` to `n` words: the old words are kept, new words are uninitialised. -/
def reallocWords (junk : Nat → Word) (mem : List Word) (n : Nat) : List Word :=
  (List.range n).map (fun i => if i < mem.length then wd mem i else junk i)

/-- The loops `while (newcapacity < newarraysize) newcapacity *= 2`, bitset.c:161-163 and 250-252 (for
`newcapacity = 0` the C loop does not end; the model stops at once). -/
def doubleUntil (cap n : Nat) : Nat :=
  if cap < n ∧ 0 < cap then doubleUntil (cap * 2) n else cap
termination_by n - cap
decreasing_by omega

/-- `bitset_create`, bitset.c:32-42. -/
def bsCreate : BSet := ⟨[], 0⟩

/-- `bitset_create_with_capacity`, bitset.c:46-61. -/
def bsCreateWithCapacity (size : Nat) : BSet :=
  let n := (size + 63) % 18446744073709551616 / 64
  ⟨List.replicate n 0#64, n⟩

/-- `bitset_copy`, bitset.c:64-79. -/
def bsCopy (b : BSet) : BSet := ⟨b.mem.take b.size, b.size⟩

/-- `bitset_clear`, bitset.c:81-83. -/
def bsClear (b : BSet) : BSet := ⟨fillWords b.mem 0#64 0 b.size, b.size⟩

/-- `bitset_fill`, bitset.c:85-87. -/
def bsFill (b : BSet) : BSet := ⟨fillWords b.mem ones 0 b.size, b.size⟩

/-- `bitset_resize`, bitset.c:149-176. -/
def bsResize (junk : Nat → Word) (b : BSet) (newarraysize : Nat) (padwithzeroes : Bool) : BSet × Bool :=
  if newarraysize > MAXWORDS then (b, false)
  else
    let smallest := if newarraysize < b.size then newarraysize else b.size
    let mem :=
      if b.mem.length < newarraysize then
        let newcapacity := if b.mem.length = 0 then 1 else b.mem.length
        reallocWords junk b.mem (doubleUntil newcapacity newarraysize)
      else b.mem
    let mem :=
      if padwithzeroes = true ∧ newarraysize > smallest then fillWords mem 0#64 smallest (newarraysize - smallest)
      else mem
    (⟨mem, newarraysize⟩, true)

/-- `bitset_grow`, bitset.c:238-264. -/
def bsGrow (junk : Nat → Word) (b : BSet) (newarraysize : Nat) : BSet × Bool :=
  if newarraysize < b.size then (b, false)
  else if newarraysize > MAXWORDS then (b, false)
  else
    let mem :=
      if b.mem.length < newarraysize then
        let newcapacity := ((ones >>> clz (BitVec.ofNat 64 newarraysize)) + 1#64).toNat
        reallocWords junk b.mem (doubleUntil newcapacity newarraysize)
      else b.mem
    (⟨fillWords mem 0#64 b.size (newarraysize - b.size), newarraysize⟩, true)

/-- `bitset_set`, bitset.h:95-103. -/
def bsSet (junk : Nat → Word) (b : BSet) (i : Nat) : BSet :=
  let shiftedi := i / 64
  let g := if shiftedi ≥ b.size then bsGrow junk b (shiftedi + 1) else (b, true)
  if g.2 = false then g.1
  else ⟨g.1.mem.set shiftedi (wd g.1.mem shiftedi ||| oneBit (i % 64)), g.1.size⟩

/-- `bitset_set_to_value`, bitset.h:107-120. -/
def bsSetToValue (junk : Nat → Word) (b : BSet) (i : Nat) (flag : Bool) : BSet :=
  let shiftedi := i / 64
  let mask := oneBit (i % 64)
  let dynmask := (if flag then 1#64 else 0#64) <<< (i % 64)
  let g := if shiftedi ≥ b.size then bsGrow junk b (shiftedi + 1) else (b, true)
  if g.2 = false then g.1
  else ⟨g.1.mem.set shiftedi ((wd g.1.mem shiftedi &&& ~~~mask) ||| dynmask), g.1.size⟩

/-- `bitset_get`, bitset.h:123-129. -/
def bsGet (b : BSet) (i : Nat) : Bool :=
  if i / 64 ≥ b.size then false
  else (wd b.mem (i / 64) &&& oneBit (i % 64)) != 0#64

/-- The loop `for (; k + 7 < n; k += 8)`, bitset.c:181-190: the new `k` and the sum. -/
def unroll8 (f : Nat → Nat) (n k acc : Nat) : Nat × Nat :=
  if k + 7 < n then
    unroll8 f n (k + 8)
      (acc + f k + f (k + 1) + f (k + 2) + f (k + 3) + f (k + 4) + f (k + 5) + f (k + 6) + f (k + 7))
  else (k, acc)
termination_by n - k
decreasing_by omega

/-- The loop `for (; k + 3 < n; k += 4)`, bitset.c:191-196, 343-348, 354-359, 365-370. -/
def unroll4 (f : Nat → Nat) (n k acc : Nat) : Nat × Nat :=
  if k + 3 < n then unroll4 f n (k + 4) (acc + f k + f (k + 1) + f (k + 2) + f (k + 3)) else (k, acc)
termination_by n - k
decreasing_by omega

/-- The loop `for (; k < n; k++)`, bitset.c:197-199, 349-351, ... -/
def unroll1 (f : Nat → Nat) (n k acc : Nat) : Nat × Nat :=
  if k < n then unroll1 f n (k + 1) (acc + f k) else (k, acc)
termination_by n - k
decreasing_by omega

/-- `bitset_count`, bitset.c:178-201. -/
def bsCount (b : BSet) : Nat :=
  let f := fun k => popcount (wd b.mem k)
  let p := unroll8 f b.size 0 0
  let p := unroll4 f b.size p.1 p.2
  (unroll1 f b.size p.1 p.2).2

/-- `b1->arraysize < b2->arraysize ? b1->arraysize : b2->arraysize`. -/
def minLength (b1 b2 : BSet) : Nat := if b1.size < b2.size then b1.size else b2.size

/-- The common tail of `bitset_inplace_union`, bitset.c:210-215, and `bitset_inplace_symmetric_difference`,
bitset.c:436-441: take over the words of `b2` beyond those of `b1`. -/
def bsCopyTail (junk : Nat → Word) (b1 b2 : BSet) : BSet × Bool :=
  if b2.size > b1.size then
    let oldsize := b1.size
    let g := bsResize junk b1 b2.size false
    if g.2 = false then (g.1, false)
    else (⟨updWords (fun k _ => wd b2.mem k) g.1.mem oldsize (b2.size - oldsize), g.1.size⟩, true)
  else (b1, true)

/-- `bitset_inplace_union`, bitset.c:203-217. -/
def bsInplaceUnion (junk : Nat → Word) (b1 b2 : BSet) : BSet × Bool :=
  bsCopyTail junk ⟨updWords (fun k w => w ||| wd b2.mem k) b1.mem 0 (minLength b1 b2), b1.size⟩ b2

/-- `bitset_empty`, bitset.c:219-226. -/
def bsEmpty (b : BSet) : Bool := zeroWords b.mem 0 b.size

/-- The loop of `bitset_minimum`, bitset.c:229-234, over `n` words from `k`. -/
def bsMinLoop (ws : List Word) (k : Nat) : Nat → Nat
  | 0 => 18446744073709551615
  | n + 1 => if wd ws k ≠ 0#64 then ctz (wd ws k) + k * 64 else bsMinLoop ws (k + 1) n

/-- `bitset_minimum`, bitset.c:228-236. -/
def bsMinimum (b : BSet) : Nat := bsMinLoop b.mem 0 b.size

/-- `bitset_maximum`, bitset.c:266-274. -/
def bsMaxLoop (ws : List Word) : Nat → Nat
  | 0 => 0
  | k + 1 => if wd ws k ≠ 0#64 then 63 - clz (wd ws k) + k * 64 else bsMaxLoop ws k

def bsMaximum (b : BSet) : Nat := bsMaxLoop b.mem b.size

/-- The loops of `bitsets_disjoint`, bitset.c:284-286, and `bitsets_intersect`, bitset.c:299-301: is there a common
word with a common bit? -/
def commonLoop (w1 w2 : List Word) (k : Nat) : Nat → Bool
  | 0 => false
  | n + 1 => if (wd w1 k &&& wd w2 k) ≠ 0#64 then true else commonLoop w1 w2 (k + 1) n

/-- `bitsets_disjoint`, bitset.c:279-288. -/
def bsDisjoint (b1 b2 : BSet) : Bool := !commonLoop b1.mem b2.mem 0 (minLength b1 b2)

/-- `bitsets_intersect`, bitset.c:294-303. -/
def bsIntersect (b1 b2 : BSet) : Bool := commonLoop b1.mem b2.mem 0 (minLength b1 b2)

/-- `any_bits_set`, bitset.c:306-314. -/
def bsAnyBitsSet (b : BSet) (starting_loc : Nat) : Bool :=
  if starting_loc ≥ b.size then false else !zeroWords b.mem starting_loc (b.size - starting_loc)

/-- The loop of `bitset_contains_all`, bitset.c:325-329. -/
def containsLoop (w1 w2 : List Word) (k : Nat) : Nat → Bool
  | 0 => true
  | n + 1 => if (wd w1 k &&& wd w2 k) ≠ wd w2 k then false else containsLoop w1 w2 (k + 1) n

/-- `bitset_contains_all`, bitset.c:319-335. -/
def bsContainsAll (b1 b2 : BSet) : Bool :=
  let min_size := if b1.size > b2.size then b2.size else b1.size
  if containsLoop b1.mem b2.mem 0 min_size = false then false
  else if b2.size > b1.size then !bsAnyBitsSet b2 b1.size
  else true

/-- `bitset_union_count`, bitset.c:337-376. -/
def bsUnionCount (b1 b2 : BSet) : Nat :=
  let f := fun k => popcount (wd b1.mem k ||| wd b2.mem k)
  let p := unroll4 f (minLength b1 b2) 0 0
  let p := unroll1 f (minLength b1 b2) p.1 p.2
  let b := if b2.size > b1.size then b2 else b1
  let g := fun k => popcount (wd b.mem k)
  let p := unroll4 g b.size p.1 p.2
  (unroll1 g b.size p.1 p.2).2

/-- `bitset_inplace_intersection`, bitset.c:378-389. -/
def bsInplaceIntersection (b1 b2 : BSet) : BSet :=
  let n := minLength b1 b2
  ⟨fillWords (updWords (fun k w => w &&& wd b2.mem k) b1.mem 0 n) 0#64 n (b1.size - n), b1.size⟩

/-- `bitset_intersection_count`, bitset.c:391-400. -/
def bsIntersectionCount (b1 b2 : BSet) : Nat :=
  (unroll1 (fun k => popcount (wd b1.mem k &&& wd b2.mem k)) (minLength b1 b2) 0 0).2

/-- `bitset_inplace_difference`, bitset.c:402-410. -/
def bsInplaceDifference (b1 b2 : BSet) : BSet :=
  ⟨updWords (fun k w => w &&& ~~~ wd b2.mem k) b1.mem 0 (minLength b1 b2), b1.size⟩

/-- `bitset_difference_count`, bitset.c:412-425. -/
def bsDifferenceCount (b1 b2 : BSet) : Nat :=
  let p := unroll1 (fun k => popcount (wd b1.mem k &&& ~~~ wd b2.mem k)) (minLength b1 b2) 0 0
  (unroll1 (fun k => popcount (wd b1.mem k)) b1.size p.1 p.2).2

/-- `bitset_inplace_symmetric_difference`, bitset.c:427-443. -/
def bsInplaceSymmetricDifference (junk : Nat → Word) (b1 b2 : BSet) : BSet × Bool :=
  bsCopyTail junk ⟨updWords (fun k w => w ^^^ wd b2.mem k) b1.mem 0 (minLength b1 b2), b1.size⟩ b2

/-- `bitset_symmetric_difference_count`, bitset.c:445-465. -/
def bsSymmetricDifferenceCount (b1 b2 : BSet) : Nat :=
  let p := unroll1 (fun k => popcount (wd b1.mem k ^^^ wd b2.mem k)) (minLength b1 b2) 0 0
  let b := if b2.size > b1.size then b2 else b1
  (unroll1 (fun k => popcount (wd b.mem k)) b.size p.1 p.2).2

/-- The loop of `bitset_trim`, bitset.c:469-474. -/
def trimLoop (ws : List Word) : Nat → Nat
  | 0 => 0
  | n + 1 => if wd ws n = 0#64 then trimLoop ws n else n + 1

/-- `bitset_trim`, bitset.c:467-485.  `none`: `realloc` is called with size 0, which frees the block (or is undefined,
C23); the bitset then points to freed memory. -/
def bsTrim (b : BSet) : Option (BSet × Bool) :=
  let newsize := trimLoop b.mem b.size
  if b.mem.length = newsize then some (b, true)
  else if newsize = 0 then none
  else some (⟨b.mem.take newsize, newsize⟩, true)

/-- A store through `array[i]`; `none` is a store outside of the allocated words. -/
def wordStore (mem : List Word) (i : Nat) (w : Word) : Option (List Word) :=
  if i < mem.length then some (mem.set i w) else none

/-- The first loop of `bitset_shift_left`, bitset.c:96-98, downwards from `i = n + extra`. -/
def shlMove (extra : Nat) : Nat → List Word → Option (List Word)
  | 0, mem => some mem
  | n + 1, mem =>
    match mem[n]? with
    | none => none
    | some w =>
      match wordStore mem (n + extra) w with
      | none => none
      | some mem => shlMove extra n mem

/-- The second loop of `bitset_shift_left`, bitset.c:103-107, downwards from `i = n + extra + 1`. -/
def shlLoop (extra sh : Nat) : Nat → List Word → Option (List Word)
  | 0, mem => some mem
  | n + 1, mem =>
    match mem[n + 1]?, mem[n]? with
    | some w1, some w0 =>
      match wordStore mem (n + 1 + extra) ((w1 <<< sh) ||| (w0 >>> (64 - sh))) with
      | none => none
      | some mem => shlLoop extra sh n mem
    | _, _ => none

/-- The last loop of `bitset_shift_left`, bitset.c:110-112. -/
def shlZero (extra : Nat) (mem : List Word) (size : Nat) : Option BSet :=
  if extra ≤ mem.length then some ⟨fillWords mem 0#64 0 extra, size⟩ else none

/-- `bitset_shift_left`, bitset.c:89-113; `none`: a load or a store outside of the allocated words.  The result of
`bitset_resize` is ignored, as in the code. -/
def bsShiftLeft (junk : Nat → Word) (b : BSet) (s : Nat) : Option BSet :=
  let extra := s / 64
  let sh := s % 64
  let asz := b.size
  if sh = 0 then
    let g := (bsResize junk b (asz + extra) false).1
    match shlMove extra asz g.mem with
    | none => none
    | some mem => shlZero extra mem g.size
  else
    let g := (bsResize junk b (asz + extra + 1) true).1
    match (g.mem)[szSub asz 1]? with
    | none => none
    | some top =>
      match wordStore g.mem (asz + extra) (top >>> (64 - sh)) with
      | none => none
      | some mem =>
        match shlLoop extra sh (asz - 1) mem with
        | none => none
        | some mem =>
          match (mem[0]? : Option Word) with
          | none => none
          | some w0 =>
            match wordStore mem extra (w0 <<< sh) with
            | none => none
            | some mem => shlZero extra mem g.size

/-- The first loop of `bitset_shift_right`, bitset.c:121-123: `n` rounds from `i`. -/
def shrMove (extra : Nat) (i : Nat) : Nat → List Word → Option (List Word)
  | 0, mem => some mem
  | n + 1, mem =>
    match mem[i + extra]? with
    | none => none
    | some w =>
      match wordStore mem i w with
      | none => none
      | some mem => shrMove extra (i + 1) n mem

/-- The second loop of `bitset_shift_right`, bitset.c:127-131. -/
def shrLoop (extra sh : Nat) (i : Nat) : Nat → List Word → Option (List Word)
  | 0, mem => some mem
  | n + 1, mem =>
    match mem[i + extra]?, mem[i + extra + 1]? with
    | some w0, some w1 =>
      match wordStore mem i ((w0 >>> sh) ||| (w1 <<< (64 - sh))) with
      | none => none
      | some mem => shrLoop extra sh (i + 1) n mem
    | _, _ => none

/-- `bitset_shift_right`, bitset.c:115-136; `none`: a load or a store outside of the allocated words. -/
def bsShiftRight (junk : Nat → Word) (b : BSet) (s : Nat) : Option BSet :=
  let extra := s / 64
  let sh := s % 64
  let asz := b.size
  if sh = 0 then
    match shrMove extra 0 (szSub asz extra) b.mem with
    | none => none
    | some mem => some (bsResize junk ⟨mem, asz⟩ (szSub asz extra) false).1
  else
    match shrLoop extra sh 0 (asz - (extra + 1)) b.mem with
    | none => none
    | some mem =>
      match mem[szSub asz 1]? with
      | none => none
      | some top =>
        match wordStore mem (szSub (szSub asz extra) 1) (top >>> sh) with
        | none => none
        | some mem => some (bsResize junk ⟨mem, asz⟩ (szSub asz extra) false).1

/-- The loop of `bitset_next_set_bit`, bitset.h:211-218, over `n` words from `x`. -/
def nextLoop (ws : List Word) (x : Nat) : Nat → Option Nat
  | 0 => none
  | n + 1 => if wd ws x ≠ 0#64 then some (x * 64 + ctz (wd ws x)) else nextLoop ws (x + 1) n

/-- `bitset_next_set_bit`, bitset.h:199-220: the new `*i`, or `none` for `false` (then `*i` is unchanged). -/
def bsNextSetBit (b : BSet) (i : Nat) : Option Nat :=
  let x := i / 64
  if x ≥ b.size then none
  else
    let w := wd b.mem x >>> (i % 64)
    if w ≠ 0#64 then some (i + ctz w) else nextLoop b.mem (x + 1) (b.size - (x + 1))

/-- The inner loop of `bitset_next_set_bits`, bitset.h:245-251: the values stored for one word. -/
def nextBitsWord (capacity base : Nat) (howmany : Nat) (w : Word) : List Nat :=
  if _h : w = 0#64 then []
  else
    (ctz w + base) ::
      (if howmany + 1 = capacity then []
       else nextBitsWord capacity base (howmany + 1) (w ^^^ (w &&& (~~~w + 1#64))))
termination_by w.toNat
decreasing_by exact xorLowest_lt _h

/-- The outer loop of `bitset_next_set_bits`, bitset.h:244-258, at the word `x`, with `n` words left after it. -/
def nextBitsLoop (ws : List Word) (capacity : Nat) (howmany : Nat) (w : Word) (x : Nat) : Nat → List Nat
  | 0 => if howmany < capacity then nextBitsWord capacity (x * 64) howmany w else []
  | n + 1 =>
    if howmany < capacity then
      let l := nextBitsWord capacity (x * 64) howmany w
      if howmany + l.length = capacity then l
      else l ++ nextBitsLoop ws capacity (howmany + l.length) (wd ws (x + 1)) (x + 1) n
    else []

/-- `bitset_next_set_bits`, bitset.h:231-263: the values stored in the buffer and the new `*startfrom`. -/
def bsNextSetBits (b : BSet) (capacity startfrom : Nat) : List Nat × Nat :=
  if capacity = 0 then ([], startfrom)
  else
    let x := startfrom / 64
    if x ≥ b.size then ([], startfrom)
    else
      let w := wd b.mem x &&& ~~~(oneBit (startfrom % 64) - 1#64)
      let l := nextBitsLoop b.mem capacity 0 w x (b.size - (x + 1))
      (l, if l.length > 0 then l.getD (l.length - 1) 0 else startfrom)

/-- The inner loop of `bitset_for_each`, bitset.h:273-278. -/
def forEachWord {σ : Type} (f : σ → Nat → σ × Bool) (s : σ) (w : Word) (base : Nat) : σ × Bool :=
  if _h : w = 0#64 then (s, true)
  else
    let r := f s (ctz w + base)
    if r.2 then forEachWord f r.1 (w ^^^ (w &&& (~~~w + 1#64))) base else (r.1, false)
termination_by w.toNat
decreasing_by exact xorLowest_lt _h

/-- The outer loop of `bitset_for_each`, bitset.h:271-280, over `n` words from `i`; `base = 64 * i`. -/
def forEachLoop {σ : Type} (f : σ → Nat → σ × Bool) (ws : List Word) (s : σ) (i base : Nat) : Nat → σ × Bool
  | 0 => (s, true)
  | n + 1 =>
    let r := forEachWord f s (wd ws i) base
    if r.2 then forEachLoop f ws r.1 (i + 1) (base + 64) n else (r.1, false)

/-- `bitset_for_each`, bitset.h:268-282. -/
def bsForEach {σ : Type} (f : σ → Nat → σ × Bool) (b : BSet) (s : σ) : σ × Bool := forEachLoop f b.mem s 0 0 b.size

/-- One container of `roaring_bitmap_to_bitset`, src/roaring.c:3363-3393: `words = array + (key << 10)`. -/
def toBitsetStep (newArraySize : Nat) (mem : List Word) (p : Nat × Container) : List Word :=
  let off := p.1 <<< 10
  match p.2 with
  | .bitset b =>
    let n := szSub newArraySize off
    updWords (fun k _ => wd b.words (k - off)) mem off (if n > 1024 then 1024 else n)
  | .array l => mem.take off ++ bitsetSetList (mem.drop off) l
  | .run rs => mem.take off ++ rs.foldl (fun ws r => bitsetSetLenrange ws r.1 r.2) (mem.drop off)

/-- `roaring_bitmap_to_bitset`, src/roaring.c:3355-3395. -/
def rbToBitset (junk : Nat → Word) (r : Bitmap) (b : BSet) : BSet × Bool :=
  let new_array_size := rbMaximum r / 64 + 1
  let g := bsResize junk b new_array_size true
  if g.2 = false then (g.1, false)
  else (⟨r.foldl (toBitsetStep new_array_size) g.1.mem, g.1.size⟩, true)

end CRoaring
