import Verif.Spec
import Verif.ArtHeapSpec
import Verif.Model.Store64
/-
What a user may ask of a 64-bit bitmap in memory, what it means for a set of numbers, and what the memory has to look like: the words in which C108
is stated.
-/
namespace CRoaring

/-- A call. -/
inductive Req64 where
  | add (v : Nat)
  | addChecked (v : Nat)
  | remove (v : Nat)
  | removeChecked (v : Nat)
  | contains (v : Nat)
  | addRange (min max : Nat)
  | removeRange (min max : Nat)
  | runOptimize
  | shrink

/-- The numbers are 64-bit unsigned integers. -/
def Req64.Ok : Req64 → Prop
  | .add v => v < 2 ^ 64
  | .addChecked v => v < 2 ^ 64
  | .remove v => v < 2 ^ 64
  | .removeChecked v => v < 2 ^ 64
  | .contains v => v < 2 ^ 64
  | .addRange _ max => max < 2 ^ 64
  | .removeRange _ max => max < 2 ^ 64
  | .runOptimize => True
  | .shrink => True

/-- The call on the bitmap in memory, with the answer.  (The answers of `roaring64_bitmap_run_optimize` and `roaring64_bitmap_shrink_to_fit` are not looked at
here.) -/
def R64M.req (r : R64M) : Req64 → Out (R64M × Option Bool)
  | .add v => do
    let r ← r.add v
    .ok (r, none)
  | .addChecked v => do
    let x ← r.addChecked v
    .ok (x.1, some x.2)
  | .remove v => do
    let r ← r.remove v
    .ok (r, none)
  | .removeChecked v => do
    let x ← r.removeChecked v
    .ok (x.1, some x.2)
  | .contains v => do
    let b ← r.contains v
    .ok (r, some b)
  | .addRange min max => do
    let r ← r.addRangeClosed min max
    .ok (r, none)
  | .removeRange min max => do
    let r ← r.removeRangeClosed min max
    .ok (r, none)
  | .runOptimize => do
    let x ← r.runOptimize
    .ok (x.1, none)
  | .shrink => do
    let x ← r.shrinkToFit
    .ok (x.1, none)

/-- Calls one after the other, with the answers. -/
def R64M.reqs : R64M → List Req64 → Out (R64M × List (Option Bool))
  | r, [] => .ok (r, [])
  | r, q :: qs => do
    let x ← r.req q
    let y ← R64M.reqs x.1 qs
    .ok (y.1, x.2 :: y.2)

/-- The call on a set, with the answer. -/
def setReq (s : NSet) : Req64 → NSet × Option Bool
  | .add v => (Spec.insert s v, none)
  | .addChecked v => (Spec.insert s v, some (!s v))
  | .remove v => (Spec.erase s v, none)
  | .removeChecked v => (Spec.erase s v, some (s v))
  | .contains v => (s, some (s v))
  | .addRange min max => (Spec.union s (Spec.range min (max + 1)), none)
  | .removeRange min max => (Spec.diff s (Spec.range min (max + 1)), none)
  | .runOptimize => (s, none)
  | .shrink => (s, none)

/-- Calls one after the other, with the answers. -/
def setReqs : NSet → List Req64 → NSet × List (Option Bool)
  | s, [] => (s, [])
  | s, q :: qs => ((setReqs (setReq s q).1 qs).1, (setReq s q).2 :: (setReqs (setReq s q).1 qs).2)

/-- The leaf of the key `k` holds `leaf`. -/
def R64M.HasLeaf (r : R64M) (k : List Nat) (leaf : Nat) : Prop := ∃ p, r.art.find k = .ok (some p) ∧ r.art.load p = .ok leaf

/-- Every container object that is allocated is owned once, and nothing else is: it is in one place of the array of containers, and that place is named
by one leaf of the radix tree, which says its type; every leaf names such a place, the one whose container has the values with its key, of which there
is at least one.  The field `first_free` names the first place of the array that is not in use. -/
structure Owned (r : R64M) (s : NSet) : Prop where
  object : ∀ (a : Nat) (c : Container), r.mem[a]? = some (some c) → ∃ i : Nat, r.containers[i]? = some (some a) ∧ ∀ j : Nat, r.containers[j]? = some (some a) → j = i
  place : ∀ i a : Nat, r.containers[i]? = some (some a) → ∃ k leaf, SixBytes k ∧ r.HasLeaf k leaf ∧ leafIndex leaf = i ∧
    ∀ k' leaf', SixBytes k' → r.HasLeaf k' leaf' → leafIndex leaf' = i → k' = k ∧ leaf' = leaf
  leaf : ∀ k leaf, SixBytes k → r.HasLeaf k leaf → ∃ a c, r.containers[leafIndex leaf]? = some (some a) ∧ r.mem[a]? = some (some c) ∧
    typecode c = leafType leaf ∧ (∀ v, v < 2 ^ 64 → (splitKey v).1 = k → containerContains (splitKey v).2 c = s v) ∧
    ∃ v, v < 2 ^ 64 ∧ (splitKey v).1 = k ∧ s v = true
  value : ∀ v, s v = true → v < 2 ^ 64 ∧ ∃ leaf, r.HasLeaf (splitKey v).1 leaf
  first : r.first ≤ r.containers.length ∧ (∀ i, i < r.first → r.containers[i]? ≠ some none) ∧ (r.first < r.containers.length → r.containers[r.first]? = some none)

/-- The size of the arrays of nodes and of the array of containers in bytes. -/
def R64M.bytes (r : R64M) : Nat := r.art.bytes + 8 * r.containers.length

end CRoaring
