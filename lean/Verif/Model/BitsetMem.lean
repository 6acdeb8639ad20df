import Verif.Model.BitsetT
import Verif.BitsetHistSpec
/-
The standalone bitset (`bitset_t`, src/bitset.c, include/roaring/bitset/bitset.h) on memory that may be refused: structs
and arrays of words are blocks, requests for memory are answered by an allocator, arrays move when they are
reallocated, and every access is checked.  `none` is undefined behaviour: an access through a null pointer, to a freed
block or outside of a block, a double free, a reallocation to no bytes.

Simplifications: a struct is written as a whole; the computations inside of words are those of Model/BitsetT.lean.
-/
namespace CRoaring

/-- A block of memory: a `bitset_t` (bitset.h:27-34) or an array of words. -/
inductive BBlk where
  | obj (arr : Option Nat) (size cap : Nat)
  | words (ws : List Word)
deriving DecidableEq, Repr

/-- The blocks, by address (`none`: freed), and the number of requests made. -/
structure BHeap where
  blocks : List (Option BBlk)
  reqs : Nat
deriving DecidableEq, Repr

/-- The allocator (src/memory.c:35-58): is request number `k` granted, and what is in fresh memory? -/
structure BAlloc where
  grants : Nat → Bool
  junk : Nat → Nat → Word

/-- Was every request between two moments granted? -/
def BAlloc.granted (al : BAlloc) (h h' : BHeap) : Bool := (List.range' h.reqs (h'.reqs - h.reqs)).all al.grants

/-- The fields of a struct (bitset.h:27-34): array, arraysize, capacity. -/
def bmObj (h : BHeap) (p : Nat) : Option (Option Nat × Nat × Nat) :=
  match h.blocks[p]? with
  | some (some (.obj a s c)) => some (a, s, c)
  | _ => none

/-- Writing the fields of a struct (bitset.h:27-34). -/
def bmPut (h : BHeap) (p : Nat) (a : Option Nat) (s c : Nat) : Option BHeap :=
  match bmObj h p with
  | some _ => some ⟨h.blocks.set p (some (.obj a s c)), h.reqs⟩
  | none => none

/-- `array[i]`, read (bitset.h:28). -/
def bmLd (h : BHeap) (a : Option Nat) (i : Nat) : Option Word :=
  match a with
  | none => none
  | some q =>
    match h.blocks[q]? with
    | some (some (.words ws)) => ws[i]?
    | _ => none

/-- `array[i] = w` (bitset.h:28). -/
def bmSt (h : BHeap) (a : Option Nat) (i : Nat) (w : Word) : Option BHeap :=
  match a with
  | none => none
  | some q =>
    match h.blocks[q]? with
    | some (some (.words ws)) =>
      if i < ws.length then some ⟨h.blocks.set q (some (.words (ws.set i w))), h.reqs⟩ else none
    | _ => none

/-- `roaring_malloc`, `roaring_calloc` (src/memory.c:48, 54-56): a new block, or a null pointer. -/
def bmMalloc (al : BAlloc) (h : BHeap) (blk : BBlk) : BHeap × Option Nat :=
  if al.grants h.reqs then (⟨h.blocks ++ [some blk], h.reqs + 1⟩, some h.blocks.length) else (⟨h.blocks, h.reqs + 1⟩, none)

/-- `roaring_free` (src/memory.c:58). -/
def bmFree (h : BHeap) (p : Option Nat) : Option BHeap :=
  match p with
  | none => some h
  | some p =>
    match h.blocks[p]? with
    | some (some _) => some ⟨h.blocks.set p none, h.reqs⟩
    | _ => none

/-- The words of an array that may be null (bitset.h:28). -/
def bmWords (h : BHeap) (a : Option Nat) : Option (List Word) :=
  match a with
  | none => some []
  | some q =>
    match h.blocks[q]? with
    | some (some (.words ws)) => some ws
    | _ => none

/-- `roaring_realloc` of an array of words (src/memory.c:50-52): the block moves.  A refusal keeps the old block. -/
def bmRealloc (al : BAlloc) (h : BHeap) (a : Option Nat) (n : Nat) : Option (BHeap × Option Nat) :=
  match bmWords h a with
  | none => none
  | some ws =>
    if n = 0 then none
    else if al.grants h.reqs then
      match bmFree h a with
      | none => none
      | some h1 =>
        some (⟨h1.blocks ++ [some (.words (reallocWords (al.junk h.reqs) ws n))], h.reqs + 1⟩, some h1.blocks.length)
    else some (⟨h.blocks, h.reqs + 1⟩, none)

/-- `memset` of `n` words from word `k`, and the loops that store one value (bitset.c:82, 86, 172, 260, 386-388). -/
def bmFill (h : BHeap) (a : Option Nat) (v : Word) (k : Nat) : Nat → Option BHeap
  | 0 => some h
  | n + 1 =>
    match bmSt h a k v with
    | none => none
    | some h => bmFill h a v (k + 1) n

/-- The loops `a1[k] = f(a1[k], a2[k])` for `n` words from word `k` (bitset.c:207-209, 383-385, 407-409, 433-435), and,
for `f x y = y`, `memcpy` (bitset.c:77, 213, 439). -/
def bmUpd (f : Word → Word → Word) (h : BHeap) (a1 a2 : Option Nat) (k : Nat) : Nat → Option BHeap
  | 0 => some h
  | n + 1 =>
    match bmLd h a1 k, bmLd h a2 k with
    | some x, some y =>
      match bmSt h a1 k (f x y) with
      | none => none
      | some h => bmUpd f h a1 a2 (k + 1) n
    | _, _ => none

/-- `bitset_create`, bitset.c:32-42. -/
def bmCreate (al : BAlloc) (h : BHeap) : BHeap × Option Nat := bmMalloc al h (.obj none 0 0)

/-- `bitset_create_with_capacity`, bitset.c:46-61. -/
def bmCreateCap (al : BAlloc) (h : BHeap) (size : Nat) : Option (BHeap × Option Nat) :=
  match bmMalloc al h (.obj none 0 0) with
  | (h, none) => some (h, none)
  | (h, some p) =>
    let n := (size + 63) % 18446744073709551616 / 64
    match bmMalloc al h (.words (List.replicate n 0#64)) with
    | (h, none) => (bmFree h (some p)).map fun h => (h, none)
    | (h, some q) => (bmPut h p (some q) n n).map fun h => (h, some p)

/-- `bitset_copy`, bitset.c:64-79. -/
def bmCopy (al : BAlloc) (h : BHeap) (src : Nat) : Option (BHeap × Option Nat) :=
  match bmObj h src with
  | none => none
  | some (a, size, _) =>
    match bmMalloc al h (.obj a size size) with
    | (h, none) => some (h, none)
    | (h, some p) =>
      match bmMalloc al h (.words (reallocWords (al.junk h.reqs) [] size)) with
      | (h, none) => (bmFree h (some p)).map fun h => (h, none)
      | (h, some q) =>
        match bmPut h p (some q) size size with
        | none => none
        | some h => (bmUpd (fun _ y => y) h (some q) a 0 size).map fun h => (h, some p)

/-- `bitset_free`, bitset.c:139-145. -/
def bmFreeSet (h : BHeap) (p : Option Nat) : Option BHeap :=
  match p with
  | none => some h
  | some p =>
    match bmObj h p with
    | none => none
    | some (a, _, _) =>
      match bmFree h a with
      | none => none
      | some h => bmFree h (some p)

/-- `bitset_clear` and `bitset_fill`, bitset.c:81-87. -/
def bmAll (h : BHeap) (p : Nat) (v : Word) : Option BHeap :=
  match bmObj h p with
  | none => none
  | some (a, size, _) => bmFill h a v 0 size

/-- `bitset_resize`, bitset.c:149-176. -/
def bmResize (al : BAlloc) (h : BHeap) (p n : Nat) (pad : Bool) : Option (BHeap × Bool) :=
  if n > MAXWORDS then some (h, false)
  else
    match bmObj h p with
    | none => none
    | some (a, size, cap) =>
      let smallest := if n < size then n else size
      let fin (h : BHeap) (a : Option Nat) (cap : Nat) : Option (BHeap × Bool) :=
        match (if pad = true ∧ n > smallest then bmFill h a 0#64 smallest (n - smallest) else some h) with
        | none => none
        | some h => (bmPut h p a n cap).map fun h => (h, true)
      if cap < n then
        let newcap := doubleUntil (if cap = 0 then 1 else cap) n
        match bmRealloc al h a newcap with
        | none => none
        | some (h, none) => some (h, false)
        | some (h, some q) =>
          match bmPut h p (some q) size newcap with
          | none => none
          | some h => fin h (some q) newcap
      else fin h a cap

/-- `bitset_grow`, bitset.c:238-264. -/
def bmGrow (al : BAlloc) (h : BHeap) (p n : Nat) : Option (BHeap × Bool) :=
  match bmObj h p with
  | none => none
  | some (a, size, cap) =>
    if n < size then some (h, false)
    else if n > MAXWORDS then some (h, false)
    else
      let fin (h : BHeap) (a : Option Nat) (cap : Nat) : Option (BHeap × Bool) :=
        match bmFill h a 0#64 size (n - size) with
        | none => none
        | some h => (bmPut h p a n cap).map fun h => (h, true)
      if cap < n then
        let newcap := doubleUntil ((ones >>> clz (BitVec.ofNat 64 n)) + 1#64).toNat n
        match bmRealloc al h a newcap with
        | none => none
        | some (h, none) => some (h, false)
        | some (h, some q) =>
          match bmPut h p (some q) size newcap with
          | none => none
          | some h => fin h (some q) newcap
      else fin h a cap

/-- `bitset_set`, bitset.h:95-103, and `bitset_set_to_value`, bitset.h:107-120: grow if needed, give up silently if that
fails, and replace the word by `f` of it. -/
def bmSetWith (al : BAlloc) (h : BHeap) (p i : Nat) (f : Word → Word) : Option BHeap :=
  let shiftedi := i / 64
  match bmObj h p with
  | none => none
  | some (_, size, _) =>
    match (if shiftedi ≥ size then bmGrow al h p (shiftedi + 1) else some (h, true)) with
    | none => none
    | some (h, false) => some h
    | some (h, true) =>
      match bmObj h p with
      | none => none
      | some (a, _, _) =>
        match bmLd h a shiftedi with
        | none => none
        | some w => bmSt h a shiftedi (f w)

/-- The loops of `bitset_trim` (bitset.c:469-474): how many words are left of the first `n`. -/
def bmTrimLoop (h : BHeap) (a : Option Nat) : Nat → Option Nat
  | 0 => some 0
  | n + 1 =>
    match bmLd h a n with
    | none => none
    | some w => if w = 0#64 then bmTrimLoop h a n else some (n + 1)

/-- `bitset_trim`, bitset.c:467-485. -/
def bmTrim (al : BAlloc) (h : BHeap) (p : Nat) : Option (BHeap × Bool) :=
  match bmObj h p with
  | none => none
  | some (a, size, cap) =>
    match bmTrimLoop h a size with
    | none => none
    | some n =>
      if cap = n then some (h, true)
      else
        match bmRealloc al h a n with
        | none => none
        | some (h, none) => some (h, false)
        | some (h, some q) => (bmPut h p (some q) n n).map fun h => (h, true)

/-- `bitset_empty`, bitset.c:219-226: over `n` words from `k`. -/
def bmEmptyLoop (h : BHeap) (a : Option Nat) (k : Nat) : Nat → Option Bool
  | 0 => some true
  | n + 1 =>
    match bmLd h a k with
    | none => none
    | some w => if w ≠ 0#64 then some false else bmEmptyLoop h a (k + 1) n

/-- A program that trims a bitset unless `bitset_empty` (bitset.c:219-226) says that it is empty. -/
def bmTrimIf (al : BAlloc) (h : BHeap) (p : Nat) : Option (BHeap × Bool) :=
  match bmObj h p with
  | none => none
  | some (a, size, _) =>
    match bmEmptyLoop h a 0 size with
    | none => none
    | some true => some (h, false)
    | some false => bmTrim al h p

/-- `bitset_inplace_union`, bitset.c:203-217, and `bitset_inplace_symmetric_difference`, bitset.c:427-443. -/
def bmUnite (al : BAlloc) (f : Word → Word → Word) (h : BHeap) (p1 p2 : Nat) : Option (BHeap × Bool) :=
  match bmObj h p1, bmObj h p2 with
  | some (a1, s1, _), some (a2, s2, _) =>
    match bmUpd f h a1 a2 0 (if s1 < s2 then s1 else s2) with
    | none => none
    | some h =>
      if s2 > s1 then
        match bmResize al h p1 s2 false with
        | none => none
        | some (h, false) => some (h, false)
        | some (h, true) =>
          match bmObj h p1 with
          | none => none
          | some (a1, _, _) => (bmUpd (fun _ y => y) h a1 a2 s1 (s2 - s1)).map fun h => (h, true)
      else some (h, true)
  | _, _ => none

/-- `bitset_inplace_intersection`, bitset.c:378-389. -/
def bmInter (h : BHeap) (p1 p2 : Nat) : Option BHeap :=
  match bmObj h p1, bmObj h p2 with
  | some (a1, s1, _), some (a2, s2, _) =>
    let n := if s1 < s2 then s1 else s2
    match bmUpd (fun x y => x &&& y) h a1 a2 0 n with
    | none => none
    | some h => bmFill h a1 0#64 n (s1 - n)
  | _, _ => none

/-- `bitset_inplace_difference`, bitset.c:402-410. -/
def bmDiff (h : BHeap) (p1 p2 : Nat) : Option BHeap :=
  match bmObj h p1, bmObj h p2 with
  | some (a1, s1, _), some (a2, s2, _) => bmUpd (fun x y => x &&& ~~~y) h a1 a2 0 (if s1 < s2 then s1 else s2)
  | _, _ => none

/-- `bitset_get`, bitset.h:123-129. -/
def bmGet (h : BHeap) (p i : Nat) : Option Bool :=
  match bmObj h p with
  | none => none
  | some (a, size, _) =>
    if i / 64 ≥ size then some false
    else
      match bmLd h a (i / 64) with
      | none => none
      | some w => some ((w &&& oneBit (i % 64)) != 0#64)

/-- The first loop of `bitset_shift_left`, bitset.c:96-98, downwards from `i = n + extra`. -/
def bmShlMove (h : BHeap) (a : Option Nat) (extra : Nat) : Nat → Option BHeap
  | 0 => some h
  | n + 1 =>
    match bmLd h a n with
    | none => none
    | some w =>
      match bmSt h a (n + extra) w with
      | none => none
      | some h => bmShlMove h a extra n

/-- The second loop of `bitset_shift_left`, bitset.c:103-107, downwards from `i = n + extra + 1`. -/
def bmShlLoop (h : BHeap) (a : Option Nat) (extra sh : Nat) : Nat → Option BHeap
  | 0 => some h
  | n + 1 =>
    match bmLd h a (n + 1), bmLd h a n with
    | some w1, some w0 =>
      match bmSt h a (n + 1 + extra) ((w1 <<< sh) ||| (w0 >>> (64 - sh))) with
      | none => none
      | some h => bmShlLoop h a extra sh n
    | _, _ => none

/-- `bitset_shift_left`, bitset.c:89-113.  The answer of `bitset_resize` is ignored, as in the code. -/
def bmShiftLeft (al : BAlloc) (h : BHeap) (p s : Nat) : Option BHeap :=
  let extra := s / 64
  let sh := s % 64
  match bmObj h p with
  | none => none
  | some (_, size, _) =>
    if sh = 0 then
      match bmResize al h p (size + extra) false with
      | none => none
      | some (h, _) =>
        match bmObj h p with
        | none => none
        | some (a, _, _) =>
          match bmShlMove h a extra size with
          | none => none
          | some h => bmFill h a 0#64 0 extra
    else
      match bmResize al h p (size + extra + 1) true with
      | none => none
      | some (h, _) =>
        match bmObj h p with
        | none => none
        | some (a, _, _) =>
          match bmLd h a (szSub size 1) with
          | none => none
          | some top =>
            match bmSt h a (size + extra) (top >>> (64 - sh)) with
            | none => none
            | some h =>
              match bmShlLoop h a extra sh (size - 1) with
              | none => none
              | some h =>
                match bmLd h a 0 with
                | none => none
                | some w0 =>
                  match bmSt h a extra (w0 <<< sh) with
                  | none => none
                  | some h => bmFill h a 0#64 0 extra

/-- The first loop of `bitset_shift_right`, bitset.c:121-123: `n` rounds from `i`. -/
def bmShrMove (h : BHeap) (a : Option Nat) (extra i : Nat) : Nat → Option BHeap
  | 0 => some h
  | n + 1 =>
    match bmLd h a (i + extra) with
    | none => none
    | some w =>
      match bmSt h a i w with
      | none => none
      | some h => bmShrMove h a extra (i + 1) n

/-- The second loop of `bitset_shift_right`, bitset.c:127-131. -/
def bmShrLoop (h : BHeap) (a : Option Nat) (extra sh i : Nat) : Nat → Option BHeap
  | 0 => some h
  | n + 1 =>
    match bmLd h a (i + extra), bmLd h a (i + extra + 1) with
    | some w0, some w1 =>
      match bmSt h a i ((w0 >>> sh) ||| (w1 <<< (64 - sh))) with
      | none => none
      | some h => bmShrLoop h a extra sh (i + 1) n
    | _, _ => none

/-- `bitset_shift_right`, bitset.c:115-136. -/
def bmShiftRight (al : BAlloc) (h : BHeap) (p s : Nat) : Option BHeap :=
  let extra := s / 64
  let sh := s % 64
  match bmObj h p with
  | none => none
  | some (a, size, _) =>
    if sh = 0 then
      match bmShrMove h a extra 0 (szSub size extra) with
      | none => none
      | some h => (bmResize al h p (szSub size extra) false).map fun r => r.1
    else
      match bmShrLoop h a extra sh 0 (size - (extra + 1)) with
      | none => none
      | some h =>
        match bmLd h a (szSub size 1) with
        | none => none
        | some top =>
          match bmSt h a (szSub (szSub size extra) 1) (top >>> sh) with
          | none => none
          | some h => (bmResize al h p (szSub size extra) false).map fun r => r.1

/-- A program that shifts right by less than `bitset_size_in_bits` (bitset.h:68-70), so that C50 applies. -/
def bmShiftRightIf (al : BAlloc) (h : BHeap) (p s : Nat) : Option (BHeap × Bool) :=
  match bmObj h p with
  | none => none
  | some (_, size, _) => if s / 64 < size then (bmShiftRight al h p s).map fun h => (h, true) else some (h, false)

/-- The memory and the program's pointers to bitsets (bitset.h:36), null or not, in the order of their creation. -/
structure BWorld where
  heap : BHeap
  vars : List (Option Nat)
deriving DecidableEq, Repr

/-- The start of a program: nothing is allocated (bitset.h:36). -/
def BWorld.start : BWorld := ⟨⟨[], 0⟩, []⟩

/-- A call that makes a bitset (bitset.h:39-55). -/
def BWorld.made (w : BWorld) (r : Option (BHeap × Option Nat)) : Option (BWorld × Bool) :=
  r.map fun r => (⟨r.1, w.vars ++ [r.2]⟩, r.2.isSome)

/-- A call that changes memory (bitset.h:46-190). -/
def BWorld.on (w : BWorld) (r : Option (BHeap × Bool)) : Option (BWorld × Bool) :=
  r.map fun r => (⟨r.1, w.vars⟩, r.2)

/-- A call with bitset `i` (bitset.h:46-190), not made if the pointer is null. -/
def BWorld.one (w : BWorld) (i : Nat) (f : Nat → Option (BHeap × Bool)) : Option (BWorld × Bool) :=
  match (w.vars[i]?).join with
  | none => some (w, false)
  | some p => w.on (f p)

/-- A call with two different bitsets (bitset.h:145-186), not made if a pointer is null. -/
def BWorld.two (w : BWorld) (i j : Nat) (f : Nat → Nat → Option (BHeap × Bool)) : Option (BWorld × Bool) :=
  match (w.vars[i]?).join, (w.vars[j]?).join with
  | some p, some q => if i = j then some (w, false) else w.on (f p q)
  | _, _ => some (w, false)

/-- One call of a program (bitset.h:38-190), and its answer. -/
def bmStep (al : BAlloc) (w : BWorld) : BitsetHist.Op → Option (BWorld × Bool)
  | .create => w.made (some (bmCreate al w.heap))
  | .createCap n => w.made (bmCreateCap al w.heap n)
  | .copy i =>
    match (w.vars[i]?).join with
    | none => some (w, false)
    | some p => w.made (bmCopy al w.heap p)
  | .free i => (bmFreeSet w.heap (w.vars[i]?).join).map fun h => (⟨h, w.vars.set i none⟩, true)
  | .clear i => w.one i fun p => (bmAll w.heap p 0#64).map fun h => (h, true)
  | .fill i => w.one i fun p => (bmAll w.heap p ones).map fun h => (h, true)
  | .resize i n pad => w.one i fun p => bmResize al w.heap p n pad
  | .grow i n => w.one i fun p => bmGrow al w.heap p n
  | .trim i => w.one i fun p => bmTrimIf al w.heap p
  | .set i x => w.one i fun p => (bmSetWith al w.heap p x fun v => v ||| oneBit (x % 64)).map fun h => (h, true)
  | .setTo i x v => w.one i fun p =>
      (bmSetWith al w.heap p x fun o => (o &&& ~~~oneBit (x % 64)) ||| ((if v then 1#64 else 0#64) <<< (x % 64))).map
        fun h => (h, true)
  | .shiftRight i s => w.one i fun p => bmShiftRightIf al w.heap p s
  | .unite i j => w.two i j fun p q => bmUnite al (fun x y => x ||| y) w.heap p q
  | .symm i j => w.two i j fun p q => bmUnite al (fun x y => x ^^^ y) w.heap p q
  | .inter i j => w.two i j fun p q => (bmInter w.heap p q).map fun h => (h, true)
  | .diff i j => w.two i j fun p q => (bmDiff w.heap p q).map fun h => (h, true)

/-- A history of calls (bitset.h:38-190): the answers, and for each call whether all its requests for memory were
granted. -/
def bmRun (al : BAlloc) (w : BWorld) : List BitsetHist.Op → Option (BWorld × List (Bool × Bool))
  | [] => some (w, [])
  | op :: ops =>
    match bmStep al w op with
    | none => none
    | some (w', r) =>
      match bmRun al w' ops with
      | none => none
      | some (w'', l) => some (w'', (r, al.granted w.heap w'.heap) :: l)

/-- `bitset_shift_left` (bitset.h:193-195) of bitset `i`, which is not part of `bmStep`. -/
def BWorld.shiftLeft (al : BAlloc) (w : BWorld) (i s : Nat) : Option (BWorld × Bool) :=
  w.one i fun p => (bmShiftLeft al w.heap p s).map fun h => (h, true)

/-- `bitset_get` (bitset.h:123-129) of bitset `i`. -/
def BWorld.get (w : BWorld) (i x : Nat) : Option Bool :=
  match (w.vars[i]?).join with
  | none => none
  | some p => bmGet w.heap p x

/-- `bitset_size_in_words` (bitset.h:73-75) of bitset `i`. -/
def BWorld.words (w : BWorld) (i : Nat) : Option Nat :=
  match (w.vars[i]?).join with
  | none => none
  | some p => (bmObj w.heap p).map fun o => o.2.1

end CRoaring
