import Verif.Store64Spec
import Verif.Model.Store64Serial
import Verif.Lemmas.Bitmap
/-
What a user may do with several 64-bit bitmaps in memory, and what it means for sets of numbers: the words in which C121, C124 and C125 are stated.
`Valid` (Verif/Lemmas/Bitmap.lean) says of a 32-bit bitmap that its fields are in the range of their C types and that the modelled `roaring_bitmap_internal_validate`
accepts it.
-/
namespace CRoaring
namespace Pool64

/-! ### Bulk calls -/

/-- A call with a bulk context. -/
inductive Bulk where
  | add (v : Nat)
  | contains (v : Nat)
  | remove (v : Nat)

/-- The number. -/
def Bulk.val : Bulk → Nat
  | .add v => v
  | .contains v => v
  | .remove v => v

/-- The call on a bitmap in memory, with the answer. -/
def Bulk.call (r : R64M) (ctx : Bulk64M) : Bulk → Out (R64M × Bulk64M × Option Bool)
  | .add v => do
    let x ← r.addBulk ctx v
    .ok (x.1, x.2, none)
  | .contains v => do
    let x ← r.containsBulk ctx v
    .ok (r, x.2, some x.1)
  | .remove v => do
    let x ← r.removeBulk ctx v
    .ok (x.1, x.2, none)

/-- Calls one after the other with the same context, with the answers. -/
def bulkRun : R64M → Bulk64M → List Bulk → Out (R64M × List (Option Bool))
  | r, _, [] => .ok (r, [])
  | r, ctx, o :: os => do
    let x ← o.call r ctx
    let y ← bulkRun x.1 x.2.1 os
    .ok (y.1, x.2.2 :: y.2)

/-- The call on a set, with the answer. -/
def Bulk.set (s : NSet) : Bulk → NSet × Option Bool
  | .add v => (Spec.insert s v, none)
  | .contains v => (s, some (s v))
  | .remove v => (Spec.erase s v, none)

/-- Calls one after the other, with the answers. -/
def bulkSets : NSet → List Bulk → NSet × List (Option Bool)
  | s, [] => (s, [])
  | s, o :: os => ((bulkSets (o.set s).1 os).1, (o.set s).2 :: (bulkSets (o.set s).1 os).2)

/-- The set has a number with the same upper 48 bits. -/
def Near (s : NSet) (v : Nat) : Prop := ∃ y, y / 65536 = v / 65536 ∧ s y = true

open Classical in
/-- The upper 48 bits that the context remembers after a call, if it remembers any; `s` is the set before, `K` what was remembered. -/
noncomputable def Bulk.mark (s : NSet) (K : Option Nat) : Bulk → Option Nat
  | .add v => some (v / 65536)
  | .contains v => if Near s v then some (v / 65536) else K
  | .remove v => if Near s v then some (v / 65536) else none

/-- No call has the upper 48 bits that the context remembers after the last number with these was removed. -/
def BulkSafe : NSet → Option Nat → List Bulk → Prop
  | _, _, [] => True
  | s, K, o :: os => (K = some (o.val / 65536) → Near s o.val) ∧ BulkSafe (o.set s).1 (o.mark s K) os

/-! ### All calls -/

/-- A call; a bitmap is named by its number in the order in which they were made.  `E` says for each key what the container functions that work in place
do (`Reuse`). -/
inductive Op where
  | create
  | free (i : Nat)
  | call (i : Nat) (q : Req64)
  | copy (i : Nat)
  | and (i j : Nat)
  | or (i j : Nat)
  | xor (i j : Nat)
  | andnot (i j : Nat)
  | andInplace (E : Reuse) (i j : Nat)
  | orInplace (E : Reuse) (i j : Nat)
  | xorInplace (E : Reuse) (i j : Nat)
  | andnotInplace (E : Reuse) (i j : Nat)
  | equals (i j : Nat)
  | isSubset (i j : Nat)
  | isStrictSubset (i j : Nat)
  | intersect (i j : Nat)
  | cardinality (i : Nat)
  | andCardinality (i j : Nat)
  | orCardinality (i j : Nat)
  | xorCardinality (i j : Nat)
  | andnotCardinality (i j : Nat)
  | flip (i min max : Nat)
  | flipClosed (i min max : Nat)
  | flipInplace (E : Reuse) (i min max : Nat)
  | flipClosedInplace (E : Reuse) (i min max : Nat)
  | clear (i : Nat)
  | ofPtr (vs : List Nat)
  | addMany (i : Nat) (vs : List Nat)
  | removeMany (i : Nat) (vs : List Nat)
  | bulk (i : Nat) (os : List Bulk)
  | fromRange (min max step : Nat)
  | moveFrom32 (b : Bitmap)
  | roundTrip (i : Nat)

/-- An answer. -/
inductive Ans where
  | nothing
  | bool (b : Bool)
  | num (n : Nat)
  | bools (l : List (Option Bool))

/-- The answer of a call on one bitmap. -/
def Ans.of : Option Bool → Ans
  | none => .nothing
  | some b => .bool b

/-- The bitmaps in memory; `none` is one that has been freed. -/
abbrev Mem := List (Option R64M)

/-- A bitmap that is there. -/
def Mem.get (p : Mem) (i : Nat) : Out R64M :=
  match p[i]? with
  | some (some r) => .ok r
  | _ => .oob

/-- A new bitmap. -/
def Mem.made (p : Mem) (x : Out R64M) : Out (Mem × Ans) := do
  let r ← x
  .ok (p ++ [some r], .nothing)

/-- A bitmap that has changed. -/
def Mem.changed (p : Mem) (i : Nat) (x : Out R64M) : Out (Mem × Ans) := do
  let r ← x
  .ok (p.set i (some r), .nothing)

/-- An operation on a bitmap. -/
def Mem.one {α : Type} (p : Mem) (i : Nat) (f : R64M → Out α) : Out α := do
  let r ← p.get i
  f r

/-- An operation on two bitmaps. -/
def Mem.two {α : Type} (p : Mem) (i j : Nat) (f : R64M → R64M → Out α) : Out α := do
  let r1 ← p.get i
  let r2 ← p.get j
  f r1 r2

/-- An answer, and nothing has changed. -/
def Mem.asked (p : Mem) {α : Type} (mk : α → Ans) (x : Out α) : Out (Mem × Ans) := do
  let a ← x
  .ok (p, mk a)

/-- A user allocates as many bytes as are announced, writes the bitmap there and reads it back. -/
def _root_.CRoaring.R64M.roundTrip (r : R64M) : Out R64M := do
  let n ← r.portableSize
  let w ← r.portableSerialize (List.replicate n 0)
  match ← R64M.portableDeserialize w.1 w.2 with
  | .inl _ => .fail
  | .inr x => .ok x.1

/-- A call.  The calls in place with the same bitmap twice return at once (src/roaring64.c:1193-1195, 1386-1388).  An object that is left when a bitmap is
freed is an error. -/
def Mem.step (p : Mem) : Op → Out (Mem × Ans)
  | .create => p.made (.ok R64M.create)
  | .free i => do
    let r ← p.get i
    let left ← r.free
    if left.all Option.isNone then .ok (p.set i none, .nothing) else .fail
  | .call i q => do
    let r ← p.get i
    let x ← r.req q
    .ok (p.set i (some x.1), Ans.of x.2)
  | .copy i => p.made (do
    let r ← p.get i
    r.copy)
  | .and i j => p.made (p.two i j R64M.and)
  | .or i j => p.made (p.two i j R64M.or)
  | .xor i j => p.made (p.two i j R64M.xor)
  | .andnot i j => p.made (p.two i j R64M.andnot)
  | .andInplace E i j => if i = j then .ok (p, .nothing) else p.changed i (p.two i j (R64M.andInplace E))
  | .orInplace E i j => if i = j then .ok (p, .nothing) else p.changed i (p.two i j (R64M.orInplace E))
  | .xorInplace E i j => p.changed i (p.two i j (R64M.xorInplace E))
  | .andnotInplace E i j => p.changed i (p.two i j (R64M.andnotInplace E))
  | .equals i j => p.asked .bool (p.two i j R64M.equals)
  | .isSubset i j => p.asked .bool (p.two i j R64M.isSubset)
  | .isStrictSubset i j => p.asked .bool (p.two i j R64M.isStrictSubset)
  | .intersect i j => p.asked .bool (p.two i j R64M.intersect)
  | .cardinality i => p.asked .num (do
    let r ← p.get i
    r.cardinality)
  | .andCardinality i j => p.asked .num (p.two i j R64M.andCardinality)
  | .orCardinality i j => p.asked .num (p.two i j R64M.orCardinality)
  | .xorCardinality i j => p.asked .num (p.two i j R64M.xorCardinality)
  | .andnotCardinality i j => p.asked .num (p.two i j R64M.andnotCardinality)
  | .flip i min max => p.made (p.one i fun r => r.flip min max)
  | .flipClosed i min max => p.made (p.one i fun r => r.flipClosed min max)
  | .flipInplace E i min max => p.changed i (p.one i fun r => r.flipInplace E min max)
  | .flipClosedInplace E i min max => p.changed i (p.one i fun r => r.flipClosedInplace E min max)
  | .clear i => p.changed i (p.one i R64M.clear)
  | .ofPtr vs => p.made (R64M.ofPtr vs)
  | .addMany i vs => p.changed i (p.one i fun r => r.addMany vs)
  | .removeMany i vs => p.changed i (p.one i fun r => r.removeMany vs)
  | .bulk i os => do
    let r ← p.get i
    let x ← bulkRun r Bulk64M.zero os
    .ok (p.set i (some x.1), .bools x.2)
  | .fromRange min max step => p.made do
    match ← R64M.fromRange min max step with
    | none => .fail
    | some r => .ok r
  | .moveFrom32 b => p.made do
    let x ← R64M.moveFrom32 b
    .ok x.1
  | .roundTrip i => p.made (p.one i R64M.roundTrip)

/-- Calls one after the other, with the answers. -/
def Mem.run : Mem → List Op → Out (Mem × List Ans)
  | p, [] => .ok (p, [])
  | p, o :: os => do
    let x ← p.step o
    let y ← Mem.run x.1 os
    .ok (y.1, x.2 :: y.2)

/-- The sets. -/
abbrev Sets := List (Option NSet)

/-- The set with number `i`. -/
def Sets.get (p : Sets) (i : Nat) : NSet := (p[i]?.join).getD Spec.empty

/-- There is a set with number `i`. -/
def Sets.Has (p : Sets) (i : Nat) : Prop := ∃ s, p[i]? = some (some s)

/-- How many numbers there are in a set, as an unsigned 64-bit integer: the set of all of them has 2^64, which is 0. -/
def num64 (s : NSet) : Nat := Spec.card (2 ^ 64) s % 2 ^ 64

open Classical in
/-- The call on sets. -/
noncomputable def Sets.step (p : Sets) : Op → Sets × Ans
  | .create => (p ++ [some Spec.empty], .nothing)
  | .free i => (p.set i none, .nothing)
  | .call i q => (p.set i (some (setReq (p.get i) q).1), Ans.of (setReq (p.get i) q).2)
  | .copy i => (p ++ [some (p.get i)], .nothing)
  | .and i j => (p ++ [some (Spec.inter (p.get i) (p.get j))], .nothing)
  | .or i j => (p ++ [some (Spec.union (p.get i) (p.get j))], .nothing)
  | .xor i j => (p ++ [some (Spec.symm (p.get i) (p.get j))], .nothing)
  | .andnot i j => (p ++ [some (Spec.diff (p.get i) (p.get j))], .nothing)
  | .andInplace _ i j => (p.set i (some (Spec.inter (p.get i) (p.get j))), .nothing)
  | .orInplace _ i j => (p.set i (some (Spec.union (p.get i) (p.get j))), .nothing)
  | .xorInplace _ i j => (p.set i (some (Spec.symm (p.get i) (p.get j))), .nothing)
  | .andnotInplace _ i j => (p.set i (some (Spec.diff (p.get i) (p.get j))), .nothing)
  | .equals i j => (p, .bool (decide (∀ v, p.get i v = p.get j v)))
  | .isSubset i j => (p, .bool (decide (∀ v, p.get i v = true → p.get j v = true)))
  | .isStrictSubset i j => (p, .bool (decide ((∀ v, p.get i v = true → p.get j v = true) ∧ ∃ v, p.get j v = true ∧ p.get i v = false)))
  | .intersect i j => (p, .bool (decide (∃ v, p.get i v = true ∧ p.get j v = true)))
  | .cardinality i => (p, .num (num64 (p.get i)))
  | .andCardinality i j => (p, .num (num64 (Spec.inter (p.get i) (p.get j))))
  | .orCardinality i j => (p, .num (num64 (Spec.union (p.get i) (p.get j))))
  | .xorCardinality i j => (p, .num (num64 (Spec.symm (p.get i) (p.get j))))
  | .andnotCardinality i j => (p, .num (num64 (Spec.diff (p.get i) (p.get j))))
  | .flip i min max => (p ++ [some (Spec.symm (p.get i) (Spec.range min max))], .nothing)
  | .flipClosed i min max => (p ++ [some (Spec.symm (p.get i) (Spec.range min (max + 1)))], .nothing)
  | .flipInplace _ i min max => (p.set i (some (Spec.symm (p.get i) (Spec.range min max))), .nothing)
  | .flipClosedInplace _ i min max => (p.set i (some (Spec.symm (p.get i) (Spec.range min (max + 1)))), .nothing)
  | .clear i => (p.set i (some Spec.empty), .nothing)
  | .ofPtr vs => (p ++ [some (Spec.ofList vs)], .nothing)
  | .addMany i vs => (p.set i (some (Spec.union (p.get i) (Spec.ofList vs))), .nothing)
  | .removeMany i vs => (p.set i (some (Spec.diff (p.get i) (Spec.ofList vs))), .nothing)
  | .bulk i os => (p.set i (some (bulkSets (p.get i) os).1), .bools (bulkSets (p.get i) os).2)
  | .fromRange min max step => (p ++ [some fun x => decide (min ≤ x ∧ x < max ∧ (x - min) % step = 0)], .nothing)
  | .moveFrom32 b => (p ++ [some (rbContains b)], .nothing)
  | .roundTrip i => (p ++ [some (p.get i)], .nothing)

/-- Calls one after the other, with the answers. -/
noncomputable def Sets.run : Sets → List Op → Sets × List Ans
  | p, [] => (p, [])
  | p, o :: os => ((Sets.run (p.step o).1 os).1, (p.step o).2 :: (Sets.run (p.step o).1 os).2)

/-- What is asked of a caller: the bitmaps are there; numbers are 64-bit unsigned integers; the two bitmaps of `roaring64_bitmap_xor_inplace` and
`roaring64_bitmap_andnot_inplace` are different ones, as include/roaring/roaring64.h:449-452, 470-473 says; and the second bitmap of
`roaring64_bitmap_is_strict_subset` has not all of the 2^64 numbers (of which the count overflows, see C59).  Of bulk calls (of which the calls of
`roaring64_bitmap_remove_many` are some) see `BulkSafe` and C124. -/
def Sets.Allowed (p : Sets) : Op → Prop
  | .create => True
  | .free i => p.Has i
  | .call i q => p.Has i ∧ q.Ok
  | .copy i => p.Has i
  | .cardinality i => p.Has i
  | .clear i => p.Has i
  | .flip i _ max | .flipClosed i _ max | .flipInplace _ i _ max | .flipClosedInplace _ i _ max => p.Has i ∧ max < 2 ^ 64
  | .ofPtr vs => ∀ v ∈ vs, v < 2 ^ 64
  | .addMany i vs => p.Has i ∧ ∀ v ∈ vs, v < 2 ^ 64
  | .removeMany i vs => p.Has i ∧ (∀ v ∈ vs, v < 2 ^ 64) ∧ BulkSafe (p.get i) none (vs.map .remove)
  | .bulk i os => p.Has i ∧ (∀ o ∈ os, o.val < 2 ^ 64) ∧ BulkSafe (p.get i) none os
  | .fromRange min max step => max < 2 ^ 64 ∧ step < 2 ^ 64 ∧ 0 < step ∧ min < max
  | .moveFrom32 b => Valid b
  | .roundTrip i => p.Has i ∧ ∃ h, h < 2 ^ 32 ∧ ∀ y, y / 2 ^ 32 = h → (p.get i) y = false
  | .xorInplace _ i j => p.Has i ∧ p.Has j ∧ i ≠ j
  | .andnotInplace _ i j => p.Has i ∧ p.Has j ∧ i ≠ j
  | .isStrictSubset i j => p.Has i ∧ p.Has j ∧ ∃ v, v < 2 ^ 64 ∧ p.get j v = false
  | .and i j | .or i j | .xor i j | .andnot i j | .andInplace _ i j | .orInplace _ i j | .equals i j | .isSubset i j | .intersect i j
  | .andCardinality i j | .orCardinality i j | .xorCardinality i j | .andnotCardinality i j => p.Has i ∧ p.Has j

/-- All calls of a history are allowed when they are made. -/
def Sets.AllAllowed : Sets → List Op → Prop
  | _, [] => True
  | p, o :: os => p.Allowed o ∧ Sets.AllAllowed (p.step o).1 os

/-- The bitmaps and the sets correspond: `P` holds for each bitmap that is there and its set, and the freed ones are the same. -/
def Fit (P : R64M → NSet → Prop) (p : Mem) (q : Sets) : Prop :=
  p.length = q.length ∧ ∀ i : Nat, (∀ s, q[i]? = some (some s) → ∃ r, p[i]? = some (some r) ∧ P r s) ∧ (q[i]? = some none → p[i]? = some none)

end Pool64

end CRoaring
