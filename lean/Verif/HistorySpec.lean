import Verif.Spec
import Verif.Model.CowHistory

/-!
What a history of calls over several bitmaps means: every bitmap is a set of its own, and no two of them have
anything in common.  Of the model of the code, only the names of the calls (`Op`) are used here.
-/

namespace CRoaring.History

/-- The sets of the bitmaps that were created, in the order of their creation; `none` for a bitmap that was freed. -/
abbrev Pool := List (Option NSet)

/-- The set of a bitmap that was not freed. -/
def get (p : Pool) (i : Nat) : Option NSet := (p[i]?).join

/-- Bitmap `i` changes, the others stay. -/
def upd (p : Pool) (i : Nat) (f : NSet → NSet) : Option Pool := do
  let s ← get p i
  some (p.set i (some (f s)))

/-- A new bitmap from bitmap `i`. -/
def new1 (p : Pool) (i : Nat) (f : NSet → NSet) : Option Pool := do
  let s ← get p i
  some (p ++ [some (f s)])

/-- Bitmap `i` changes, depending on another bitmap `j`. -/
def upd2 (p : Pool) (i j : Nat) (f : NSet → NSet → NSet) : Option Pool := do
  let s ← get p i
  let t ← get p j
  if i = j then none else some (p.set i (some (f s t)))

/-- A new bitmap from the bitmaps `i` and `j`, which may be the same. -/
def new2 (p : Pool) (i j : Nat) (f : NSet → NSet → NSet) : Option Pool := do
  let s ← get p i
  let t ← get p j
  some (p ++ [some (f s t)])

/-- The sets of several bitmaps; the same one may be asked for more than once. -/
def gets (p : Pool) : List Nat → Option (List NSet)
  | [] => some []
  | i :: is => do
    let s ← get p i
    let t ← gets p is
    some (s :: t)

/-- A new bitmap from any number of bitmaps. -/
def newMany (p : Pool) (is : List Nat) (f : List NSet → NSet) : Option Pool := do
  let l ← gets p is
  some (p ++ [some (f l)])

/-- The values in at least one of the sets. -/
def unionAll (l : List NSet) : NSet := fun v => l.any (fun s => s v)

/-- The values in an odd number of the sets. -/
def symmAll (l : List NSet) : NSet := fun v => decide ((l.filter (fun s => s v)).length % 2 = 1)

/-- The values of `s` moved by `d`, as long as they are 32-bit values then. -/
def shift (s : NSet) (d : Int) : NSet := fun v =>
  decide (v < 4294967296) && decide (d ≤ v) && s ((v : Int) - d).toNat

/-- Values are 32-bit unsigned integers. -/
def u32 (v : Nat) (a : Option Pool) : Option Pool := if v < 4294967296 then a else none

/-- The meaning of a call; `none` if the caller may not make it.  Only bitmaps that are alive may be used; the in-place
operations other than the intersection, and the overwriting, take two different bitmaps.  With copy-on-write (`g`),
`remove_many`, `range_uint32_array` and `or_many_heap` are left out, and `or_many` and `xor_many` take at least one
bitmap. -/
def step (g : Bool) (p : Pool) : Op → Option Pool
  | .create => some (p ++ [some Spec.empty])
  | .copy i => new1 p i (fun s => s)
  | .overwrite i j => upd2 p i j (fun _ t => t)
  | .clear i => upd p i (fun _ => Spec.empty)
  | .free i => do
    let _ ← get p i
    some (p.set i none)
  | .add i v => u32 v (upd p i (fun s => Spec.insert s v))
  | .remove i v => u32 v (upd p i (fun s => Spec.erase s v))
  | .addMany i vs => if ∀ v ∈ vs, v < 4294967296 then upd p i (fun s => Spec.union (Spec.ofList vs) s) else none
  | .removeMany i vs =>
    if g = false ∧ ∀ v ∈ vs, v < 4294967296 then upd p i (fun s => Spec.diff s (Spec.ofList vs)) else none
  | .addRange i a b => u32 b (upd p i (fun s => Spec.union s (Spec.range a (b + 1))))
  | .removeRange i a b => u32 b (upd p i (fun s => Spec.diff s (Spec.range a (b + 1))))
  | .flip i a b => u32 b (new1 p i (fun s => Spec.symm s (Spec.range a (b + 1))))
  | .flipInplace i a b => u32 b (upd p i (fun s => Spec.symm s (Spec.range a (b + 1))))
  | .and i j => new2 p i j Spec.inter
  | .or i j => new2 p i j Spec.union
  | .xor i j => new2 p i j Spec.symm
  | .andnot i j => new2 p i j Spec.diff
  | .andInplace i j => if i = j then upd p i (fun s => s) else upd2 p i j Spec.inter
  | .orInplace i j => upd2 p i j Spec.union
  | .xorInplace i j => upd2 p i j Spec.symm
  | .andnotInplace i j => upd2 p i j Spec.diff
  | .runOptimize i => upd p i (fun s => s)
  | .removeRunCompression i => upd p i (fun s => s)
  | .rangeArray i _ _ => if g = false then upd p i (fun s => s) else none
  | .addOffset i d => new1 p i (fun s => shift s d)
  | .orMany is => if g = false ∨ is ≠ [] then newMany p is unionAll else none
  | .xorMany is => if g = false ∨ is ≠ [] then newMany p is symmAll else none
  | .orManyHeap is => if g = false then newMany p is unionAll else none

/-- The meaning of a history. -/
def run (g : Bool) : Pool → List Op → Option Pool
  | p, [] => some p
  | p, op :: t => do
    let p ← step g p op
    run g p t

/-- The bitmap that a call modifies or frees, if it is there before the call. -/
def target : Op → Option Nat
  | .create | .copy _ | .flip _ _ _ | .and _ _ | .or _ _ | .xor _ _ | .andnot _ _
  | .addOffset _ _ | .orMany _ | .xorMany _ | .orManyHeap _ => none
  | .overwrite i _ | .clear i | .free i | .add i _ | .remove i _ | .addMany i _ | .removeMany i _ | .addRange i _ _
  | .removeRange i _ _ | .flipInplace i _ _ | .andInplace i _ | .orInplace i _ | .xorInplace i _
  | .andnotInplace i _ | .runOptimize i | .removeRunCompression i | .rangeArray i _ _ => some i

end CRoaring.History
