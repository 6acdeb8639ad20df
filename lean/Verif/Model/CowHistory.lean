import Verif.Model.CowMany

/-! Model of the histories of calls over the bitmaps of a program, on the memory of `Verif/Model/Cow.lean`. -/

namespace CRoaring

/-! ### Histories over any number of bitmaps -/

/-- The memory of a program: the heap, and the bitmaps that it created, in the order of their creation; a freed
bitmap is `none`. -/
structure World where
  heap : Heap
  pool : List (Option HBitmap)

/-- The calls of a history.  Bitmaps are denoted by the number of bitmaps created before them.  The calls that return
a new bitmap append it to the pool. -/
inductive Op where
  | create
  | copy (i : Nat)
  | overwrite (dest src : Nat)
  | clear (i : Nat)
  | free (i : Nat)
  | add (i v : Nat)
  | remove (i v : Nat)
  | addMany (i : Nat) (vs : List Nat)
  | removeMany (i : Nat) (vs : List Nat)
  | addRange (i min max : Nat)
  | removeRange (i min max : Nat)
  | flip (i a b : Nat)
  | flipInplace (i a b : Nat)
  | and (i j : Nat)
  | or (i j : Nat)
  | xor (i j : Nat)
  | andnot (i j : Nat)
  | andInplace (i j : Nat)
  | orInplace (i j : Nat)
  | xorInplace (i j : Nat)
  | andnotInplace (i j : Nat)
  | runOptimize (i : Nat)
  | removeRunCompression (i : Nat)
  | rangeArray (i offset limit : Nat)
  | addOffset (i : Nat) (offset : Int)
  | orMany (is : List Nat)
  | xorMany (is : List Nat)
  | orManyHeap (is : List Nat)

/-- A live bitmap of the pool. -/
def World.get (w : World) (i : Nat) : Option HBitmap := (w.pool[i]?).join

/-- A call that updates one bitmap. -/
def stepU (u : Heap → HBitmap → Option (HBitmap × Heap)) (w : World) (i : Nat) : Option World := do
  let x ← w.get i
  let (x', h) ← u w.heap x
  some ⟨h, w.pool.set i (some x')⟩

/-- A call that makes a new bitmap from one. -/
def stepN (u : Heap → HBitmap → Option (HBitmap × HBitmap × Heap)) (w : World) (i : Nat) : Option World := do
  let x ← w.get i
  let (a, x', h) ← u w.heap x
  some ⟨h, w.pool.set i (some x') ++ [some a]⟩

/-- A call that updates two bitmaps. -/
def stepB (u : Heap → HBitmap → HBitmap → Option (HBitmap × HBitmap × Heap)) (w : World) (i j : Nat) :
    Option World := do
  let x ← w.get i
  let y ← w.get j
  let (x', y', h) ← u w.heap x y
  some ⟨h, (w.pool.set j (some y')).set i (some x')⟩

/-- A call that makes a new bitmap from two. -/
def stepM (u : Heap → HBitmap → HBitmap → Option (HBitmap × HBitmap × HBitmap × Heap)) (w : World) (i j : Nat) :
    Option World := do
  let x ← w.get i
  let y ← w.get j
  let (a, x', y', h) ← u w.heap x y
  some ⟨h, (w.pool.set j (some y')).set i (some x') ++ [some a]⟩

/-- A call that makes a new bitmap from any number of them. -/
def stepMany (u : Heap → List (Option HBitmap) → List Nat → Option (HBitmap × List (Option HBitmap) × Heap))
    (w : World) (is : List Nat) : Option World := do
  let (a, p, h) ← u w.heap w.pool is
  some ⟨h, p ++ [some a]⟩

/-- One call.  `g` is the flag given to new bitmaps, `o` and `caps` the oracles of the container functions.  `none` is
undefined behaviour. -/
def step (g : Bool) (o : Nat → Bool) (caps : Nat → Nat) (w : World) : Op → Option World
  | .create => some ⟨w.heap, w.pool ++ [some (hCreate g)]⟩
  | .copy i => stepN hCopy w i
  | .overwrite i j => stepB hOverwrite w i j
  | .clear i => stepU hClear w i
  | .free i => do
    let x ← w.get i
    let h ← hFree w.heap x
    some ⟨h, w.pool.set i none⟩
  | .add i v => stepU (fun h x => hAdd o h x v) w i
  | .remove i v => stepU (fun h x => hRemove o h x v) w i
  | .addMany i vs => stepU (fun h x => hAddMany o h x vs) w i
  | .removeMany i vs => stepU (fun h x => hRemoveMany o h x vs) w i
  | .addRange i a b => stepU (fun h x => hAddRangeClosed o h x a b) w i
  | .removeRange i a b => stepU (fun h x => hRemoveRangeClosed o h x a b) w i
  | .flip i a b => stepN (fun h x => hFlipClosed h x a b) w i
  | .flipInplace i a b => stepU (fun h x => hFlipInplaceClosed o h x a b) w i
  | .and i j => stepM (fun h x y => (hAnd h x y).map fun (a, h) => (a, x, y, h)) w i j
  | .or i j => stepM hOr w i j
  | .xor i j => stepM hXor w i j
  | .andnot i j => stepM (fun h x y => (hAndnot h x y).map fun (a, x, h) => (a, x, y, h)) w i j
  | .andInplace i j =>
    if i = j then stepU (fun h x => some (x, h)) w i
    else stepB (fun h x y => (hAndInplace o h x y).map fun (x, h) => (x, y, h)) w i j
  | .orInplace i j => stepB (fun h x y => hOrInplace o caps h x y) w i j
  | .xorInplace i j => stepB (fun h x y => hXorInplace o h x y) w i j
  | .andnotInplace i j => stepB (fun h x y => (hAndnotInplace o h x y).map fun (x, h) => (x, y, h)) w i j
  | .runOptimize i => stepU (fun h x => hRunOptimize o h x) w i
  | .removeRunCompression i => stepU hRemoveRun w i
  | .rangeArray i off lim => stepU (fun h x => (hRangeUint32 h x off lim).map fun (_, x) => (x, h)) w i
  | .addOffset i d => stepN (fun h x => hAddOffset o caps h x d) w i
  | .orMany is => stepMany (hOrMany o caps) w is
  | .xorMany is => stepMany (hXorMany o) w is
  | .orManyHeap is => stepMany (hOrManyHeap o caps) w is

/-- A history: calls, each with its oracles. -/
def run (g : Bool) : World → List (Op × (Nat → Bool) × (Nat → Nat)) → Option World
  | w, [] => some w
  | w, (op, o, caps) :: t => do
    let w ← step g o caps w op
    run g w t

/-- Nothing created yet. -/
def World.init : World := ⟨Heap.init, []⟩

end CRoaring
