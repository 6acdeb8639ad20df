import Verif.Store64PoolSpec
import Verif.Model.Store64Ask
/-
What the functions that read a 64-bit bitmap in memory answer, in terms of its set: the words in which C122 is stated.
-/
namespace CRoaring
open Pool64

/-- The list of the values of a set, in increasing order. -/
def Lists (l : List Nat) (s : NSet) : Prop := l.Pairwise (· < ·) ∧ ∀ v, v ∈ l ↔ v < 2 ^ 64 ∧ s v = true

/-- There is a 64-bit number that is not in the set. -/
def Lacks (s : NSet) : Prop := ∃ y, y < 2 ^ 64 ∧ s y = false

/-- The answers about the bitmap `r` are those about the set `s`; `ok` says that no memory was used that may not be used.  `junk` is memory that was not
initialised. -/
structure Answers (r : R64M) (s : NSet) : Prop where
  rank : ∀ v, v < 2 ^ 64 → r.rank v = .ok (Spec.card (v + 1) s % 2 ^ 64)
  getIndex : ∀ v, v < 2 ^ 64 → r.getIndex v = .ok (if s v = true then some (Spec.card v s) else none)
  select : ∀ k, k < 2 ^ 64 → ∃ o, r.select k = .ok o ∧
    (Lacks s ∨ k < 2 ^ 64 - 65536 → (o = none ↔ Spec.card (2 ^ 64) s ≤ k) ∧ ∀ v, o = some v ↔ v < 2 ^ 64 ∧ s v = true ∧ Spec.card v s = k)
  isEmpty : r.isEmpty = true ↔ ∀ v, s v = false
  minimum : ∃ m, r.minimum = .ok m ∧ ((∀ v, s v = false) → m = 2 ^ 64 - 1) ∧ ∀ v, s v = true → s m = true ∧ m ≤ v
  maximum : ∃ m, r.maximum = .ok m ∧ ((∀ v, s v = false) → m = 0) ∧ ∀ v, s v = true → s m = true ∧ v ≤ m
  rangeClosed : ∀ lo hi, hi < 2 ^ 64 → r.rangeClosedCardinality lo hi = .ok (num64 (Spec.inter (Spec.range lo (hi + 1)) s))
  rangeOpen : ∀ lo hi, hi < 2 ^ 64 → r.rangeCardinality lo hi = .ok (Spec.card (2 ^ 64) (Spec.inter (Spec.range lo hi) s))
  containsRange : ∀ lo hi, hi < 2 ^ 64 → ∃ b, r.containsRange lo hi = .ok b ∧
    ((∀ y, lo ≤ y → y < hi → s y = true) → b = true) ∧
    ((∃ y, y / 65536 = (hi - 1) / 65536 ∧ s y = true) ∨ (∀ y, s y = true → y / 65536 ≤ (hi - 1) / 65536) →
      (b = true ↔ ∀ y, lo ≤ y → y < hi → s y = true))
  intersectWithRange : ∀ lo hi junk, hi < 2 ^ 64 → ∃ b, r.intersectWithRange lo hi junk = .ok b ∧ (b = true ↔ ∃ y, lo ≤ y ∧ y < hi ∧ s y = true)
  toArray : ∀ junk, ∃ l, r.toUint64 junk = .ok l ∧ (Lacks s → Lists l s)
  statistics : ∃ st, r.statistics = .ok st ∧ st.cardinality = num64 s ∧ r.minimum = .ok st.min_value ∧ r.maximum = .ok st.max_value

end CRoaring
