import Verif.BitsetHistSpec
/-
What the questions about standalone bitsets (`bitset_t`) mean.  Used by C130.
-/
namespace CRoaring.BitsetHist
open CRoaring

/-- The set bits, in increasing order. -/
def Bits.members (b : Bits) : List Nat := (List.range (64 * b.words)).filter b.has

/-- The bits below `64 * n` that are in `s`: how many? -/
def howMany (n : Nat) (s : NSet) : Nat := ((List.range (64 * n)).filter s).length

/-- Calls `f` with the values of a list in order, until it asks to stop. -/
def callAll {σ : Type} (f : σ → Nat → σ × Bool) : σ → List Nat → σ × Bool
  | s, [] => (s, true)
  | s, v :: l => if (f s v).2 then callAll f (f s v).1 l else ((f s v).1, false)

end CRoaring.BitsetHist
