import Verif.Model.RunMem
import Verif.Spec
/-! What a buffer of runs means, in terms of the memory and the number of runs alone. -/
namespace CRoaring.Spec

/-- Run `i` of the memory. -/
def runAt (mem : List (Nat × Nat)) (i : Nat) : Nat × Nat := mem.getD i (0, 0)

/-- A run container with `b.n` runs in the memory `b.mem`, whose length is its capacity, is well formed and contains exactly the values of
`s`: the runs are inside the memory, ordered, separated by at least one missing value, inside the 16-bit range, and a value is in `s`
exactly if it is in a run.  (A run is its first value and the number of values after it.) -/
structure IsRunSet (b : RunBuf) (s : NSet) : Prop where
  inside : b.n ≤ b.mem.length
  apart : ∀ i j, i < j → j < b.n → (runAt b.mem i).1 + (runAt b.mem i).2 + 1 < (runAt b.mem j).1
  range : ∀ i, i < b.n → (runAt b.mem i).1 + (runAt b.mem i).2 < 65536
  has : ∀ x, s x = true ↔ ∃ i, i < b.n ∧ (runAt b.mem i).1 ≤ x ∧ x ≤ (runAt b.mem i).1 + (runAt b.mem i).2

/-- `s` with `[lo, hi)` flipped. -/
def flipRange (s : NSet) (lo hi : Nat) : NSet := symm s (Spec.range lo hi)

end CRoaring.Spec
