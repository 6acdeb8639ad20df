import Verif.ArtHeapSpec
import Verif.Model.ArtHeapIter
/-
What an iterator over a map does: the words in which C119 and C120 are stated.
-/
namespace CRoaring

section
variable {V : Type}

/-! ### The calls on the arrays -/

/-- A call on the tree, or a call on its iterator.  `store` is a write through the pointer `value` of the iterator. -/
inductive ItOp (V : Type) where
  | call (c : ArtCall V)
  | first
  | last
  | lower (key : List Nat)
  | upper (key : List Nat)
  | next
  | prev
  | seek (key : List Nat)
  | insert (key : List Nat) (val : V)
  | erase
  | store (val : V)

/-- A call that changes nothing. -/
def ArtCall.reads : ArtCall V → Bool
  | .req (.get _) => true
  | _ => false

/-- What the user sees in an iterator: `key` and `*value`, if `value` is not null. -/
def ArtT.see (a : ArtT V) (it : HIt) : Out (Option (List Nat × V)) :=
  match it.value with
  | none => .ok none
  | some p => do
    let v ← a.load p
    .ok (some (it.key, v))

/-- The tree with the iterator, and what the user sees of it. -/
def ArtT.show (a : ArtT V) (ans : Option V) (it : HIt) : Out ((ArtT V × Option HIt) × Option V × Option (List Nat × V)) := do
  let o ← a.see it
  .ok ((a, some it), ans, o)

/-- A call on the tree and its iterator: the value found, set or erased, if any, and what is seen in the iterator.  A call on the tree that may change it
ends the use of the iterator. -/
def itStep (s : ArtT V × Option HIt) : ItOp V → Out ((ArtT V × Option HIt) × Option V × Option (List Nat × V))
  | .call c => do
    let r ← s.1.call c
    .ok ((r.1, if c.reads then s.2 else none), r.2, none)
  | .first => do
    let it ← s.1.initIterator true
    s.1.show none it
  | .last => do
    let it ← s.1.initIterator false
    s.1.show none it
  | .lower key => do
    let it ← s.1.lowerBound key
    s.1.show none it
  | .upper key => do
    let it ← s.1.upperBound key
    s.1.show none it
  | .next =>
    match s.2 with
    | none => .fail
    | some it => do
      let it ← s.1.itNext it
      s.1.show none it
  | .prev =>
    match s.2 with
    | none => .fail
    | some it => do
      let it ← s.1.itPrev it
      s.1.show none it
  | .seek key =>
    match s.2 with
    | none => .fail
    | some it => do
      let it ← s.1.itLowerBound it key
      s.1.show none it
  | .insert key val =>
    match s.2 with
    | none => .fail
    | some it => do
      let r ← s.1.itInsert it key val
      r.1.show none r.2
  | .erase =>
    match s.2 with
    | none => .fail
    | some it => do
      let r ← s.1.itErase it
      r.2.1.show r.1 r.2.2
  | .store val =>
    match s.2 with
    | none => .fail
    | some it =>
      match it.value with
      | none => .oob
      | some p => do
        let b ← s.1.store p val
        b.show none it

/-- Calls one after the other. -/
def itRun : ArtT V × Option HIt → List (ItOp V) → Out ((ArtT V × Option HIt) × List (Option V × Option (List Nat × V)))
  | s, [] => .ok (s, [])
  | s, op :: ops => do
    let r ← itStep s op
    let q ← itRun r.1 ops
    .ok (q.1, r.2 :: q.2)

/-! ### The same on a map -/

/-- Keys are ordered as numbers with the first byte most significant (that is, like `memcmp`). -/
def keyOrd (k : List Nat) : Nat := k.foldl (fun a b => a * 256 + b) 0

/-- `o` is the least key with the property, with its value, or none if no key has it. -/
def LeastKey (m : List Nat → Option V) (P : Nat → Prop) : Option (List Nat × V) → Prop
  | none => ∀ k, SixBytes k → m k ≠ none → ¬ P (keyOrd k)
  | some e => SixBytes e.1 ∧ m e.1 = some e.2 ∧ P (keyOrd e.1) ∧ ∀ k, SixBytes k → m k ≠ none → P (keyOrd k) → keyOrd e.1 ≤ keyOrd k

/-- `o` is the greatest key with the property, with its value, or none if no key has it. -/
def GreatestKey (m : List Nat → Option V) (P : Nat → Prop) : Option (List Nat × V) → Prop
  | none => ∀ k, SixBytes k → m k ≠ none → ¬ P (keyOrd k)
  | some e => SixBytes e.1 ∧ m e.1 = some e.2 ∧ P (keyOrd e.1) ∧ ∀ k, SixBytes k → m k ≠ none → P (keyOrd k) → keyOrd k ≤ keyOrd e.1

/-- A cursor: the key it is on, or none if it has run out, and whether it can be moved with `seek` if it has run out. -/
structure Cursor where
  key : Option (List Nat)
  again : Bool

/-- What a call gives on a map and a cursor: what is seen, and the map and the cursor after it. -/
inductive ItSpec : (List Nat → Option V) → Option Cursor → ItOp V → Option V × Option (List Nat × V) → (List Nat → Option V) → Option Cursor → Prop
  | call {m c x} (h : x.Ok) : ItSpec m c (.call x) ((mapCall m x).2, none) (mapCall m x).1 (if x.reads then c else none)
  | first {m c o} (h : LeastKey m (fun _ => True) o) : ItSpec m c .first (none, o) m (some ⟨o.map (·.1), true⟩)
  | last {m c o} (h : GreatestKey m (fun _ => True) o) : ItSpec m c .last (none, o) m (some ⟨o.map (·.1), true⟩)
  | lower {m c o key} (hk : SixBytes key) (h : LeastKey m (fun x => keyOrd key ≤ x) o) :
      ItSpec m c (.lower key) (none, o) m (some ⟨o.map (·.1), false⟩)
  | upper {m c o key} (hk : SixBytes key) (h : LeastKey m (fun x => keyOrd key < x) o) :
      ItSpec m c (.upper key) (none, o) m (some ⟨o.map (·.1), false⟩)
  | next {m k b o} (h : LeastKey m (fun x => keyOrd k < x) o) : ItSpec m (some ⟨some k, b⟩) .next (none, o) m (some ⟨o.map (·.1), true⟩)
  | prev {m k b o} (h : GreatestKey m (fun x => x < keyOrd k) o) : ItSpec m (some ⟨some k, b⟩) .prev (none, o) m (some ⟨o.map (·.1), true⟩)
  | seek {m p b o key} (hk : SixBytes key) (hp : p ≠ none ∨ b = true) (h : LeastKey m (fun x => keyOrd key ≤ x) o) :
      ItSpec m (some ⟨p, b⟩) (.seek key) (none, o) m (some ⟨o.map (·.1), true⟩)
  | insert {m c key val} (hk : SixBytes key) (hn : m key = none) :
      ItSpec m (some c) (.insert key val) (none, some (key, val)) (fun k => if k = key then some val else m k) (some ⟨some key, true⟩)
  | erase {m k b o v} (hv : m k = some v) (h : LeastKey m (fun x => keyOrd k < x) o) (b' : Bool) (hb : b' = true ↔ ∃ k', k' ≠ k ∧ SixBytes k' ∧ m k' ≠ none) :
      ItSpec m (some ⟨some k, b⟩) .erase (some v, o) (fun k' => if k' = k then none else m k') (some ⟨o.map (·.1), b'⟩)
  | eraseNone {m b} : ItSpec m (some ⟨none, b⟩) .erase (none, none) m (some ⟨none, b⟩)
  | store {m k b val} : ItSpec m (some ⟨some k, b⟩) (.store val) (none, some (k, val)) (fun k' => if k' = k then some val else m k') (some ⟨some k, b⟩)

/-- Calls one after the other on a map and a cursor. -/
inductive ItSpecs : (List Nat → Option V) → Option Cursor → List (ItOp V) → List (Option V × Option (List Nat × V)) → (List Nat → Option V) → Option Cursor → Prop
  | nil {m c} : ItSpecs m c [] [] m c
  | cons {m c op out m1 c1 ops outs m2 c2} (h : ItSpec m c op out m1 c1) (hs : ItSpecs m1 c1 ops outs m2 c2) : ItSpecs m c (op :: ops) (out :: outs) m2 c2

/-- The calls that may be made: keys have six bytes; `insert` takes a key that is absent; `next`, `prev` and `store` need a cursor on a key; and `seek` needs
a cursor that is on a key, or one that can be moved again. -/
def ItOp.Allowed (m : List Nat → Option V) (c : Option Cursor) : ItOp V → Prop
  | .call x => x.Ok
  | .first => True
  | .last => True
  | .lower key => SixBytes key
  | .upper key => SixBytes key
  | .next => ∃ k b, c = some ⟨some k, b⟩
  | .prev => ∃ k b, c = some ⟨some k, b⟩
  | .seek key => SixBytes key ∧ ∃ p b, c = some ⟨p, b⟩ ∧ (p ≠ none ∨ b = true)
  | .insert key _ => SixBytes key ∧ m key = none ∧ c ≠ none
  | .erase => c ≠ none
  | .store _ => ∃ k b, c = some ⟨some k, b⟩

/-- The calls may be made one after the other, whatever they give. -/
def ItsAllowed : (List Nat → Option V) → Option Cursor → List (ItOp V) → Prop
  | _, _, [] => True
  | m, c, op :: ops => op.Allowed m c ∧ ∀ out m1 c1, ItSpec m c op out m1 c1 → ItsAllowed m1 c1 ops

end
end CRoaring
