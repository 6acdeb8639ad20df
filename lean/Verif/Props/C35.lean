import Verif.Props.Common
import Verif.Lemmas.Bulk
/-
C35, C36: bulk operations and `roaring_bitmap_from_range`.
-/
namespace CRoaring.Props
open CRoaring

/-- C35: `add_many` inserts exactly the given values. -/
theorem C35_add_many {r : Bitmap} (h : Valid r) {vals : List Nat} (hv : ∀ v ∈ vals, v < 2 ^ 32) :
    Valid (rbAddMany r vals) ∧ ∀ y, rbContains (rbAddMany r vals) y = true ↔ y ∈ vals ∨ rbContains r y = true := by
  have h1 := rbAddMany_spec h.inv hv
  refine ⟨h1.1.valid, fun y => ?_⟩
  rw [rbContains_eq h1.1, rbContains_eq h.inv, h1.2]; simp

/-- C35: `of_ptr` and `of` build the set of the given values. -/
theorem C35_of {vals : List Nat} (hv : ∀ v ∈ vals, v < 2 ^ 32) :
    Valid (rbOfPtr vals) ∧ Valid (rbOf vals) ∧
      (∀ y, rbContains (rbOfPtr vals) y = true ↔ y ∈ vals) ∧ (∀ y, rbContains (rbOf vals) y = true ↔ y ∈ vals) := by
  have h1 := rbAddMany_spec (r := rbCreate) trivial hv
  have h2 := rbAddManyLoop_spec vals (r := rbCreate) trivial (CtxOK.none _) hv
  refine ⟨h1.1.valid, h2.1.valid, fun y => ?_, fun y => ?_⟩
  · rw [rbOfPtr, rbContains_eq h1.1, h1.2]; simp [rbCreate, bhas_nil]
  · rw [rbOf, rbContains_eq h2.1, h2.2]; simp [rbCreate, bhas_nil]

/-- C35: `remove_many` removes exactly the given values. -/
theorem C35_remove_many {r : Bitmap} (h : Valid r) {vals : List Nat} (hv : ∀ v ∈ vals, v < 2 ^ 32) :
    Valid (rbRemoveMany r vals) ∧
      ∀ y, rbContains (rbRemoveMany r vals) y = true ↔ y ∉ vals ∧ rbContains r y = true := by
  have h1 := rbRemoveMany_spec h.inv hv
  refine ⟨h1.1.valid, fun y => ?_⟩
  rw [rbContains_eq h1.1, rbContains_eq h.inv, h1.2]; simp

/-- One call on a bulk context. -/
inductive BulkOp where
  | add (v : Nat)
  | contains (v : Nat)

/-- The bulk calls on one context, in sequence; the answers of the `contains` calls are collected. -/
def runBulk : Bitmap → BulkCtx → List BulkOp → Bitmap × List Bool
  | r, _, [] => (r, [])
  | r, ctx, .add v :: ops => let p := rbAddBulk r ctx v; runBulk p.1 p.2 ops
  | r, ctx, .contains v :: ops =>
    let p := rbContainsBulk r ctx v
    let q := runBulk r p.2 ops
    (q.1, p.1 :: q.2)

/-- The same calls without a context. -/
def runPlain : Bitmap → List BulkOp → Bitmap × List Bool
  | r, [] => (r, [])
  | r, .add v :: ops => runPlain (rbAdd r v) ops
  | r, .contains v :: ops => let q := runPlain r ops; (q.1, rbContains r v :: q.2)

/-- C35: any sequence of `add_bulk` and `contains_bulk` calls on one (initially zeroed) context has exactly the
effect and the answers of the corresponding `add` and `contains` calls. -/
theorem C35_bulk_context {r : Bitmap} (h : Valid r) (ops : List BulkOp) (hv : ∀ v, .add v ∈ ops → v < 2 ^ 32) :
    runBulk r none ops = runPlain r ops := by
  have key : ∀ (ops : List BulkOp) (r : Bitmap) (ctx : BulkCtx), BInv r → CtxOK r ctx →
      (∀ v, .add v ∈ ops → v < 4294967296) → runBulk r ctx ops = runPlain r ops := by
    intro ops
    induction ops with
    | nil => intro r ctx _ _ _; rfl
    | cons op ops ih =>
      intro r ctx h hc hv
      cases op with
      | add v =>
        have h1 := rbAddBulk_spec h hc v
        simp only [runBulk, runPlain]
        rw [h1.1]
        exact ih _ _ (rbAdd_spec h (hv v (by simp))).1 h1.2 fun w hw => hv w (by simp [hw])
      | contains v =>
        have h1 := rbContainsBulk_spec h hc v
        simp only [runBulk, runPlain]
        rw [h1.1, ih _ _ h h1.2 fun w hw => hv w (by simp [hw])]
  exact key ops r none h.inv (CtxOK.none r) hv

example : Valid exB ∧ ∀ v ∈ [5, 131090, 4294967295], v < 2 ^ 32 := ⟨exB_valid, by decide⟩
example : (runBulk exS none [.contains 131090, .add 7, .contains 5, .contains 8, .add 131072]).2 = [true, true, false] := by
  decide +kernel
example : rbRemoveMany exS [5, 1, 65535, 131082] = [(2, .run [(11, 19), (100, 0)])] := by decide +kernel

/-! ### from_range -/

/-- C36, for steps below 2^16, and for larger steps when no value of the progression plus the step leaves the
32-bit range: enough fuel exists (the function terminates) and the result is the progression.  Missing: steps of
2^16 and more with a last value within `step` of 2^32, where the claim is false (see below). -/
theorem C36_from_range_partial {min max step : Nat} (hs : 0 < step) (hmm : min < max) (hmin : min < 2 ^ 32)
    (hw : step < 65536 ∨
      ∀ x, min ≤ x → x < max → x < 2 ^ 32 → (x - min) % step = 0 → x + step < 2 ^ 32)
    (fuel : Nat) (hf : 65537 ≤ fuel) :
    ∃ r, rbFromRange fuel min max step = some (some r) ∧ Valid r ∧
      ∀ v, rbContains r v = true ↔ (∃ k, v = min + k * step) ∧ v < max ∧ v < 2 ^ 32 := by
  have hlt : ∀ x, x < Nat.min max 4294967296 ↔ x < max ∧ x < 4294967296 := fun x => Nat.lt_min
  obtain ⟨r, h1, h2, h3⟩ := rbFromRange_spec (fuel := fuel) (min := min) (max := max) hf hs ((hlt _).2 ⟨hmm, hmin⟩)
    (hw.imp id fun hw x a b c => hw x a ((hlt x).1 b).1 ((hlt x).1 b).2 c)
  refine ⟨r, h1, h2.valid, fun v => ?_⟩
  rw [rbContains_eq h2, h3, decide_eq_true_eq, hlt]
  constructor
  · rintro ⟨a, b, c⟩
    refine ⟨⟨(v - min) / step, ?_⟩, b⟩
    have := Nat.div_add_mod (v - min) step
    rw [Nat.mul_comm] at this
    omega
  · rintro ⟨⟨k, rfl⟩, b⟩
    refine ⟨by omega, b, ?_⟩
    rw [Nat.add_sub_cancel_left, Nat.mul_mod_left]

/-- C36: the degenerate calls return `NULL`. -/
theorem C36_null (fuel min max : Nat) : rbFromRange fuel min max 0 = some none ∧
    ∀ step, max ≤ min → rbFromRange fuel min max step = some none := by
  refine ⟨rfl, fun step h => ?_⟩
  simp only [rbFromRange]
  split
  · rfl
  · rw [if_pos]
    split <;> omega

/-- C36 is false in general: `from_range(0, 2^32, 2^31)` never returns, whatever the number of loop rounds. -/
theorem C36_diverges (fuel : Nat) : rbFromRange fuel 0 (2 ^ 32) (2 ^ 31) = none := by
  have := (fromRangeBig_diverges fuel []).1
  show (fromRangeBig 4294967296 2147483648 fuel 0 []).map some = none
  rw [this]
  rfl

/-- C36 is false in general: `from_range(1, 2, 2^32 - 1)` contains 0. -/
theorem C36_wrong_value : ∃ r, rbFromRange 10 1 2 (2 ^ 32 - 1) = some (some r) ∧ rbContains r 0 = true := by
  refine ⟨rbAdd (rbAdd [] 1) 0, by decide +kernel, by decide +kernel⟩

example : (3 < 65536 ∨ False) ∧ 0 < 3 ∧ 10 < 200000 := by omega
example : rbFromRange 100 65530 65540 3 =
    some (some [(0, .array [65530, 65533]), (1, .array [0, 3])]) := by decide +kernel
example : ∀ x, 5 ≤ x → x < 4294000000 → x < 2 ^ 32 → (x - 5) % 70000 = 0 → x + 70000 < 2 ^ 32 := by omega

end CRoaring.Props
