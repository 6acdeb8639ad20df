import Verif.Model.BitsetMem
/-
The questions about standalone bitsets (`bitset_t`, src/bitset.c, include/roaring/bitset/bitset.h) on the memory of
Model/BitsetMem.lean: every word is loaded from its block, and `none` is an access outside of it.

Simplification: sums of `size_t` are natural numbers (there are at most 2^64 - 64 bits).
-/
namespace CRoaring

/-- The loop `for (; k + 7 < n; k += 8)`, bitset.c:181-190, where `f` loads and counts: the new `k` and the sum. -/
def sum8M (f : Nat → Option Nat) (n k acc : Nat) : Option (Nat × Nat) :=
  if k + 7 < n then
    match f k, f (k + 1), f (k + 2), f (k + 3), f (k + 4), f (k + 5), f (k + 6), f (k + 7) with
    | some a0, some a1, some a2, some a3, some a4, some a5, some a6, some a7 =>
      sum8M f n (k + 8) (acc + a0 + a1 + a2 + a3 + a4 + a5 + a6 + a7)
    | _, _, _, _, _, _, _, _ => none
  else some (k, acc)
termination_by n - k
decreasing_by omega

/-- The loop `for (; k + 3 < n; k += 4)`, bitset.c:191-196, 343-348, 354-359, 365-370. -/
def sum4M (f : Nat → Option Nat) (n k acc : Nat) : Option (Nat × Nat) :=
  if k + 3 < n then
    match f k, f (k + 1), f (k + 2), f (k + 3) with
    | some a0, some a1, some a2, some a3 => sum4M f n (k + 4) (acc + a0 + a1 + a2 + a3)
    | _, _, _, _ => none
  else some (k, acc)
termination_by n - k
decreasing_by omega

/-- The loop `for (; k < n; k++)`, bitset.c:197-199, 349-351, 360-362, 371-373, 396-398, 418-423, 452-463. -/
def sum1M (f : Nat → Option Nat) (n k acc : Nat) : Option (Nat × Nat) :=
  if k < n then
    match f k with
    | some a => sum1M f n (k + 1) (acc + a)
    | none => none
  else some (k, acc)
termination_by n - k
decreasing_by omega

/-- `roaring_hamming(array[k])` (bitset.c:182). -/
def popLd (h : BHeap) (a : Option Nat) (k : Nat) : Option Nat := (bmLd h a k).map popcount

/-- `roaring_hamming(f(b1->array[k], b2->array[k]))` (bitset.c:344, 397, 419, 453). -/
def popLd2 (f : Word → Word → Word) (h : BHeap) (a1 a2 : Option Nat) (k : Nat) : Option Nat :=
  match bmLd h a1 k, bmLd h a2 k with
  | some x, some y => some (popcount (f x y))
  | _, _ => none

/-- `bitset_count`, bitset.c:178-201. -/
def bmCount (h : BHeap) (p : Nat) : Option Nat :=
  match bmObj h p with
  | none => none
  | some (a, n, _) =>
    match sum8M (popLd h a) n 0 0 with
    | none => none
    | some (k, acc) =>
      match sum4M (popLd h a) n k acc with
      | none => none
      | some (k, acc) => (sum1M (popLd h a) n k acc).map fun r => r.2

/-- `bitset_empty`, bitset.c:219-226. -/
def bmEmpty (h : BHeap) (p : Nat) : Option Bool :=
  match bmObj h p with
  | none => none
  | some (a, n, _) => bmEmptyLoop h a 0 n

/-- The loop of `bitset_minimum`, bitset.c:229-234, over `n` words from `k`. -/
def bmMinLoop (h : BHeap) (a : Option Nat) (k : Nat) : Nat → Option Nat
  | 0 => some 18446744073709551615
  | n + 1 =>
    match bmLd h a k with
    | none => none
    | some w => if w ≠ 0#64 then some (ctz w + k * 64) else bmMinLoop h a (k + 1) n

/-- `bitset_minimum`, bitset.c:228-236. -/
def bmMinimum (h : BHeap) (p : Nat) : Option Nat :=
  match bmObj h p with
  | none => none
  | some (a, n, _) => bmMinLoop h a 0 n

/-- The loop of `bitset_maximum`, bitset.c:267-272. -/
def bmMaxLoop (h : BHeap) (a : Option Nat) : Nat → Option Nat
  | 0 => some 0
  | k + 1 =>
    match bmLd h a k with
    | none => none
    | some w => if w ≠ 0#64 then some (63 - clz w + k * 64) else bmMaxLoop h a k

/-- `bitset_maximum`, bitset.c:266-274. -/
def bmMaximum (h : BHeap) (p : Nat) : Option Nat :=
  match bmObj h p with
  | none => none
  | some (a, n, _) => bmMaxLoop h a n

/-- The loops of `bitsets_disjoint`, bitset.c:284-286, and `bitsets_intersect`, bitset.c:299-301: is there a common bit? -/
def bmCommonLoop (h : BHeap) (a1 a2 : Option Nat) (k : Nat) : Nat → Option Bool
  | 0 => some false
  | n + 1 =>
    match bmLd h a1 k, bmLd h a2 k with
    | some x, some y => if (x &&& y) ≠ 0#64 then some true else bmCommonLoop h a1 a2 (k + 1) n
    | _, _ => none

/-- `bitsets_intersect`, bitset.c:294-303. -/
def bmIntersect (h : BHeap) (p1 p2 : Nat) : Option Bool :=
  match bmObj h p1, bmObj h p2 with
  | some (a1, s1, _), some (a2, s2, _) => bmCommonLoop h a1 a2 0 (if s1 < s2 then s1 else s2)
  | _, _ => none

/-- `bitsets_disjoint`, bitset.c:279-288. -/
def bmDisjoint (h : BHeap) (p1 p2 : Nat) : Option Bool :=
  match bmObj h p1, bmObj h p2 with
  | some (a1, s1, _), some (a2, s2, _) => (bmCommonLoop h a1 a2 0 (if s1 < s2 then s1 else s2)).map fun r => !r
  | _, _ => none

/-- The loop of `bitset_contains_all`, bitset.c:325-329. -/
def bmContainsLoop (h : BHeap) (a1 a2 : Option Nat) (k : Nat) : Nat → Option Bool
  | 0 => some true
  | n + 1 =>
    match bmLd h a1 k, bmLd h a2 k with
    | some x, some y => if (x &&& y) ≠ y then some false else bmContainsLoop h a1 a2 (k + 1) n
    | _, _ => none

/-- `any_bits_set`, bitset.c:306-314. -/
def bmAnyBitsSet (h : BHeap) (a : Option Nat) (n start : Nat) : Option Bool :=
  if start ≥ n then some false else (bmEmptyLoop h a start (n - start)).map fun r => !r

/-- `bitset_contains_all`, bitset.c:319-335. -/
def bmContainsAll (h : BHeap) (p1 p2 : Nat) : Option Bool :=
  match bmObj h p1, bmObj h p2 with
  | some (a1, s1, _), some (a2, s2, _) =>
    match bmContainsLoop h a1 a2 0 (if s1 > s2 then s2 else s1) with
    | none => none
    | some false => some false
    | some true => if s2 > s1 then (bmAnyBitsSet h a2 s2 s1).map fun r => !r else some true
  | _, _ => none

/-- `bitset_union_count`, bitset.c:337-376. -/
def bmUnionCount (h : BHeap) (p1 p2 : Nat) : Option Nat :=
  match bmObj h p1, bmObj h p2 with
  | some (a1, s1, _), some (a2, s2, _) =>
    let f := popLd2 (fun x y => x ||| y) h a1 a2
    let n := if s1 < s2 then s1 else s2
    match sum4M f n 0 0 with
    | none => none
    | some (k, acc) =>
      match sum1M f n k acc with
      | none => none
      | some (k, acc) =>
        let a := if s2 > s1 then a2 else a1
        let s := if s2 > s1 then s2 else s1
        match sum4M (popLd h a) s k acc with
        | none => none
        | some (k, acc) => (sum1M (popLd h a) s k acc).map fun r => r.2
  | _, _ => none

/-- `bitset_intersection_count`, bitset.c:391-400. -/
def bmIntersectionCount (h : BHeap) (p1 p2 : Nat) : Option Nat :=
  match bmObj h p1, bmObj h p2 with
  | some (a1, s1, _), some (a2, s2, _) =>
    (sum1M (popLd2 (fun x y => x &&& y) h a1 a2) (if s1 < s2 then s1 else s2) 0 0).map fun r => r.2
  | _, _ => none

/-- `bitset_difference_count`, bitset.c:412-425. -/
def bmDifferenceCount (h : BHeap) (p1 p2 : Nat) : Option Nat :=
  match bmObj h p1, bmObj h p2 with
  | some (a1, s1, _), some (a2, s2, _) =>
    match sum1M (popLd2 (fun x y => x &&& ~~~y) h a1 a2) (if s1 < s2 then s1 else s2) 0 0 with
    | none => none
    | some (k, acc) => (sum1M (popLd h a1) s1 k acc).map fun r => r.2
  | _, _ => none

/-- `bitset_symmetric_difference_count`, bitset.c:445-465. -/
def bmSymmetricDifferenceCount (h : BHeap) (p1 p2 : Nat) : Option Nat :=
  match bmObj h p1, bmObj h p2 with
  | some (a1, s1, _), some (a2, s2, _) =>
    match sum1M (popLd2 (fun x y => x ^^^ y) h a1 a2) (if s1 < s2 then s1 else s2) 0 0 with
    | none => none
    | some (k, acc) =>
      let a := if s2 > s1 then a2 else a1
      let s := if s2 > s1 then s2 else s1
      (sum1M (popLd h a) s k acc).map fun r => r.2
  | _, _ => none

/-- The loop of `bitset_next_set_bit`, bitset.h:211-218, over `n` words from `x`; the inner `none` is the answer `false`. -/
def bmNextLoop (h : BHeap) (a : Option Nat) (x : Nat) : Nat → Option (Option Nat)
  | 0 => some none
  | n + 1 =>
    match bmLd h a x with
    | none => none
    | some w => if w ≠ 0#64 then some (some (x * 64 + ctz w)) else bmNextLoop h a (x + 1) n

/-- `bitset_next_set_bit`, bitset.h:199-220: the new `*i`, or the inner `none` for `false`. -/
def bmNextSetBit (h : BHeap) (p i : Nat) : Option (Option Nat) :=
  match bmObj h p with
  | none => none
  | some (a, n, _) =>
    let x := i / 64
    if x ≥ n then some none
    else
      match bmLd h a x with
      | none => none
      | some w =>
        let w := w >>> (i % 64)
        if w ≠ 0#64 then some (some (i + ctz w)) else bmNextLoop h a (x + 1) (n - (x + 1))

/-- The outer loop of `bitset_next_set_bits`, bitset.h:244-258, at the word `x`, with `n` words left after it. -/
def bmNextBitsLoop (h : BHeap) (a : Option Nat) (capacity howmany : Nat) (w : Word) (x : Nat) : Nat → Option (List Nat)
  | 0 => some (if howmany < capacity then nextBitsWord capacity (x * 64) howmany w else [])
  | n + 1 =>
    if howmany < capacity then
      let l := nextBitsWord capacity (x * 64) howmany w
      if howmany + l.length = capacity then some l
      else
        match bmLd h a (x + 1) with
        | none => none
        | some w => (bmNextBitsLoop h a capacity (howmany + l.length) w (x + 1) n).map fun r => l ++ r
    else some []

/-- `bitset_next_set_bits`, bitset.h:231-263: the values stored in the buffer and the new `*startfrom`. -/
def bmNextSetBits (h : BHeap) (p capacity startfrom : Nat) : Option (List Nat × Nat) :=
  if capacity = 0 then some ([], startfrom)
  else
    match bmObj h p with
    | none => none
    | some (a, n, _) =>
      let x := startfrom / 64
      if x ≥ n then some ([], startfrom)
      else
        match bmLd h a x with
        | none => none
        | some w =>
          (bmNextBitsLoop h a capacity 0 (w &&& ~~~(oneBit (startfrom % 64) - 1#64)) x (n - (x + 1))).map fun l =>
            (l, if l.length > 0 then l.getD (l.length - 1) 0 else startfrom)

/-- The outer loop of `bitset_for_each`, bitset.h:271-280, over `n` words from `i`; `base = 64 * i`. -/
def bmForEachLoop {σ : Type} (f : σ → Nat → σ × Bool) (h : BHeap) (a : Option Nat) (s : σ) (i base : Nat) : Nat → Option (σ × Bool)
  | 0 => some (s, true)
  | n + 1 =>
    match bmLd h a i with
    | none => none
    | some w =>
      let r := forEachWord f s w base
      if r.2 then bmForEachLoop f h a r.1 (i + 1) (base + 64) n else some (r.1, false)

/-- `bitset_for_each`, bitset.h:268-282. -/
def bmForEach {σ : Type} (f : σ → Nat → σ × Bool) (h : BHeap) (p : Nat) (s : σ) : Option (σ × Bool) :=
  match bmObj h p with
  | none => none
  | some (a, n, _) => bmForEachLoop f h a s 0 0 n

/-- A question about bitset `i` (bitset.h:131-282); `none` also if the pointer is null. -/
def BWorld.ask {α : Type} (w : BWorld) (i : Nat) (f : BHeap → Nat → Option α) : Option α :=
  match (w.vars[i]?).join with
  | none => none
  | some p => f w.heap p

/-- A question about two bitsets, which may be the same (bitset.h:140-186). -/
def BWorld.ask2 {α : Type} (w : BWorld) (i j : Nat) (f : BHeap → Nat → Nat → Option α) : Option α :=
  match (w.vars[i]?).join, (w.vars[j]?).join with
  | some p, some q => f w.heap p q
  | _, _ => none

end CRoaring
