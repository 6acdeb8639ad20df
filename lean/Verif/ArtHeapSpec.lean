import Verif.Model.ArtHeapShrink
/-
What the arrays of nodes of a radix tree have to look like, and what a map from keys to values does: the words in which C106 and C107 are stated.
-/
namespace CRoaring

section
variable {V : Type}

/-- A request to the tree.  `put` is how a caller sets the value of a key: look the key up, write through the pointer if there is one, and
insert the key otherwise (src/roaring64.c:409-424, 447-455). -/
inductive ArtOp (V : Type) where
  | put (key : List Nat) (val : V)
  | erase (key : List Nat)
  | get (key : List Nat)

/-- The key of a request. -/
def ArtOp.key : ArtOp V → List Nat
  | .put k _ => k
  | .erase k => k
  | .get k => k

/-- The request on the arrays.  The answer to `put` is the value read back through the pointer it gets. -/
def ArtT.step (a : ArtT V) : ArtOp V → Out (ArtT V × Option V)
  | .put key val => do
    match ← a.find key with
    | some p => do
      let b ← a.store p val
      let v ← b.load p
      .ok (b, some v)
    | none => do
      let r ← a.insert key val
      let v ← r.1.load r.2
      .ok (r.1, some v)
  | .erase key => a.erase key
  | .get key => do
    match ← a.find key with
    | some p => do
      let v ← a.load p
      .ok (a, some v)
    | none => .ok (a, none)

/-- Requests one after the other, with the answers. -/
def ArtT.run : ArtT V → List (ArtOp V) → Out (ArtT V × List (Option V))
  | a, [] => .ok (a, [])
  | a, op :: ops => do
    let r ← a.step op
    let s ← ArtT.run r.1 ops
    .ok (s.1, r.2 :: s.2)

/-- The request on a map from keys to values. -/
def mapStep (m : List Nat → Option V) : ArtOp V → (List Nat → Option V) × Option V
  | .put key val => (fun k => if k = key then some val else m k, some val)
  | .erase key => (fun k => if k = key then none else m k, m key)
  | .get key => (m, m key)

/-- Requests one after the other, with the answers. -/
def mapRun : (List Nat → Option V) → List (ArtOp V) → (List Nat → Option V) × List (Option V)
  | m, [] => (m, [])
  | m, op :: ops => ((mapRun (mapStep m op).1 ops).1, (mapStep m op).2 :: (mapRun (mapStep m op).1 ops).2)

/-- A key has six bytes. -/
def SixBytes (key : List Nat) : Prop := key.length = 6 ∧ ∀ b ∈ key, b < 256

/-- `s` is a child of the inner node at `r`, under the byte `c`. -/
def ChildOf (H : ArtHeap V) (r : ArtRef) (c : Nat) (s : ArtRef) : Prop := ∃ pfx n, H.get r = some (.inner pfx n) ∧ n.find c = some s

/-- `x` is reached from `r` by references to children. -/
inductive Live (H : ArtHeap V) : ArtRef → ArtRef → Prop
  | self (r : ArtRef) : Live H r r
  | child {r s x : ArtRef} {c : Nat} (h : ChildOf H r c s) (hx : Live H s x) : Live H r x

/-- `x` is a node of the tree. -/
def ArtT.IsLive (a : ArtT V) (x : ArtRef) : Prop := ∃ r, a.root = some r ∧ Live a.heap r x

/-- The list of unused places that starts at `first`: each names the next, the last names the end of the array. -/
def FreeFrom (H : ArtHeap V) (t : ArtTy) : Nat → List Nat → Prop
  | first, [] => first = (H.nodes t).length
  | first, x :: l => first = x ∧ ∃ next, H.get ⟨t, x⟩ = some (.free next) ∧ FreeFrom H t next l

/-- Every place is accounted for: in each array, the list of unused places names every place once that no reference leads to, and no other; every node
of the tree is where its reference says; and a node is the child of one node only, the root of none. -/
structure Tidy (a : ArtT V) : Prop where
  free : ∀ t, ∃ l : List Nat, FreeFrom a.heap t (a.heap.first t) l ∧ l.Nodup ∧ ∀ i, i ∈ l ↔ i < (a.heap.nodes t).length ∧ ¬ a.IsLive ⟨t, i⟩
  there : ∀ x, a.IsLive x → (∃ k v, a.heap.get x = some (.leaf k v) ∧ x.ty = .leaf) ∨ ∃ p n, a.heap.get x = some (.inner p n) ∧ x.ty = n.ty
  parent : ∀ x y c d z, a.IsLive x → a.IsLive y → ChildOf a.heap x c z → ChildOf a.heap y d z → x = y ∧ c = d
  top : ∀ x c r, a.IsLive x → a.root = some r → ¬ ChildOf a.heap x c r

/-! ### With `art_shrink_to_fit` -/

/-- A request, or `art_shrink_to_fit`. -/
inductive ArtCall (V : Type) where
  | req (op : ArtOp V)
  | shrink

/-- The key of a request has six bytes. -/
def ArtCall.Ok : ArtCall V → Prop
  | .req op => SixBytes op.key
  | .shrink => True

/-- A call on the arrays, with the answer. -/
def ArtT.call (a : ArtT V) : ArtCall V → Out (ArtT V × Option V)
  | .req op => a.step op
  | .shrink => do
    let r ← a.shrinkToFit
    .ok (r.1, none)

/-- Calls one after the other, with the answers. -/
def ArtT.calls : ArtT V → List (ArtCall V) → Out (ArtT V × List (Option V))
  | a, [] => .ok (a, [])
  | a, c :: cs => do
    let r ← a.call c
    let s ← ArtT.calls r.1 cs
    .ok (s.1, r.2 :: s.2)

/-- A call on a map: `art_shrink_to_fit` does nothing. -/
def mapCall (m : List Nat → Option V) : ArtCall V → (List Nat → Option V) × Option V
  | .req op => mapStep m op
  | .shrink => (m, none)

/-- Calls one after the other, with the answers. -/
def mapCalls : (List Nat → Option V) → List (ArtCall V) → (List Nat → Option V) × List (Option V)
  | m, [] => (m, [])
  | m, c :: cs => ((mapCalls (mapCall m c).1 cs).1, (mapCall m c).2 :: (mapCalls (mapCall m c).1 cs).2)

/-- There is a key with a value. -/
def NonEmpty (m : List Nat → Option V) : Prop := ∃ key, SixBytes key ∧ m key ≠ none

/-- If the call is `art_shrink_to_fit`, the map has a key. -/
def ShrinkNonEmpty (m : List Nat → Option V) : ArtCall V → Prop
  | .shrink => NonEmpty m
  | .req _ => True

/-- The map has a key whenever `art_shrink_to_fit` is called. -/
def ShrinksNonEmpty : (List Nat → Option V) → List (ArtCall V) → Prop
  | _, [] => True
  | m, c :: cs => ShrinkNonEmpty m c ∧ ShrinksNonEmpty (mapCall m c).1 cs

/-- As `Tidy`, but places may be lost: neither a node nor on the list of unused places. -/
structure Safe (a : ArtT V) : Prop where
  free : ∀ t, ∃ l : List Nat, FreeFrom a.heap t (a.heap.first t) l ∧ l.Nodup ∧ ∀ i, i ∈ l → i < (a.heap.nodes t).length ∧ ¬ a.IsLive ⟨t, i⟩
  there : ∀ x, a.IsLive x → (∃ k v, a.heap.get x = some (.leaf k v) ∧ x.ty = .leaf) ∨ ∃ p n, a.heap.get x = some (.inner p n) ∧ x.ty = n.ty
  parent : ∀ x y c d z, a.IsLive x → a.IsLive y → ChildOf a.heap x c z → ChildOf a.heap y d z → x = y ∧ c = d
  top : ∀ x c r, a.IsLive x → a.root = some r → ¬ ChildOf a.heap x c r

/-- The size of the arrays in bytes. -/
def ArtT.bytes (a : ArtT V) : Nat :=
  (a.heap.nodes .leaf).length * 16 + (a.heap.nodes .n4).length * 48 + (a.heap.nodes .n16).length * 152 + (a.heap.nodes .n48).length * 656 +
    (a.heap.nodes .n256).length * 2056

end
end CRoaring
