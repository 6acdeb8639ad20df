/-
The specification vocabulary.

A set of natural numbers is its characteristic function.  Nothing here refers to the model of the
code; the property theorems are phrased with these definitions.
-/
namespace CRoaring

/-- A set of natural numbers, as its characteristic function. -/
abbrev NSet := Nat → Bool

namespace Spec

/-- The empty set. -/
def empty : NSet := fun _ => false
/-- Set union. -/
def union (a b : NSet) : NSet := fun x => a x || b x
/-- Set intersection. -/
def inter (a b : NSet) : NSet := fun x => a x && b x
/-- Set difference. -/
def diff (a b : NSet) : NSet := fun x => a x && !b x
/-- Symmetric difference. -/
def symm (a b : NSet) : NSet := fun x => a x != b x
/-- Insertion of one value. -/
def insert (a : NSet) (v : Nat) : NSet := fun x => x == v || a x
/-- Removal of one value. -/
def erase (a : NSet) (v : Nat) : NSet := fun x => x != v && a x
/-- The half-open interval `[lo, hi)`. -/
def range (lo hi : Nat) : NSet := fun x => decide (lo ≤ x) && decide (x < hi)
/-- The members of a list. -/
def ofList (l : List Nat) : NSet := fun x => decide (x ∈ l)

/-- The members of `s` below `n` in increasing order. -/
def enum (n : Nat) (s : NSet) : List Nat := (List.range n).filter s

/-- The number of members of `s` below `n`. -/
def card (n : Nat) (s : NSet) : Nat := (enum n s).length

end Spec
end CRoaring
