import Verif.Props.C70
import Verif.Props.C75
import Verif.Props.C78
/-
C54: every 64-bit bitmap that the API builds is valid and holds the set its history says.
-/
namespace CRoaring.Props
open CRoaring

/-- The 64-bit bitmaps that calls can build, each with the set that its history makes it stand for.  `same` tells that
the two arguments of an in-place operation are the same object; `shared` and `caps` are facts about memory that the code
looks at (reference counters, spare room), on which nothing may depend. -/
inductive Built64 : R64 → (Nat → Prop) → Prop
  | create : Built64 r64Create (fun _ => False)
  | ofPtr {vals r} : (∀ v ∈ vals, v < 2 ^ 64) → r64OfPtr vals = some r → Built64 r (fun y => y ∈ vals)
  | fromRange {lo hi step r} : hi < 2 ^ 64 → step < 2 ^ 64 → r64FromRange lo hi step = some r →
      Built64 r (fun y => (∃ i, y = lo + i * step) ∧ y < hi)
  | moveFrom32 {b} : Valid b → Built64 (r64MoveFrom32 b).1 (fun y => rbContains b y = true)
  | validated {buf n r} : n ≤ buf.length → r64PortableDeserializeSafe buf n = .ok r → r64InternalValidate r = true →
      Built64 r (fun y => r64Contains r y = true)
  | copy {r s} : Built64 r s → Built64 (r64Copy r) s
  | clear {r s} : Built64 r s → Built64 (r64Clear r) (fun _ => False)
  | add {r s x} : Built64 r s → x < 2 ^ 64 → Built64 (r64Add r x) (fun y => y = x ∨ s y)
  | addChecked {r s x} : Built64 r s → x < 2 ^ 64 → Built64 (r64AddChecked r x).1 (fun y => y = x ∨ s y)
  | remove {r s x} : Built64 r s → x < 2 ^ 64 → Built64 (r64Remove r x) (fun y => y ≠ x ∧ s y)
  | removeChecked {r s x} : Built64 r s → x < 2 ^ 64 → Built64 (r64RemoveChecked r x).1 (fun y => y ≠ x ∧ s y)
  | addMany {r s vals r'} : Built64 r s → (∀ v ∈ vals, v < 2 ^ 64) → r64AddMany r vals = some r' →
      Built64 r' (fun y => y ∈ vals ∨ s y)
  | removeMany {r s vals r'} : Built64 r s → (∀ v ∈ vals, v < 2 ^ 64) → r64RemoveMany r vals = some r' →
      Built64 r' (fun y => y ∉ vals ∧ s y)
  | addRangeClosed {r s lo hi} : Built64 r s → hi < 2 ^ 64 → Built64 (r64AddRangeClosed r lo hi) (fun y => (lo ≤ y ∧ y ≤ hi) ∨ s y)
  | addRange {r s lo hi} : Built64 r s → hi < 2 ^ 64 → Built64 (r64AddRange r lo hi) (fun y => (lo ≤ y ∧ y < hi) ∨ s y)
  | removeRangeClosed {r s lo hi} : Built64 r s → hi < 2 ^ 64 →
      Built64 (r64RemoveRangeClosed r lo hi) (fun y => ¬ (lo ≤ y ∧ y ≤ hi) ∧ s y)
  | removeRange {r s lo hi} : Built64 r s → hi < 2 ^ 64 → Built64 (r64RemoveRange r lo hi) (fun y => ¬ (lo ≤ y ∧ y < hi) ∧ s y)
  | flipClosed {r s lo hi} : Built64 r s → hi < 2 ^ 64 →
      Built64 (r64FlipClosed r lo hi) (fun y => if lo ≤ y ∧ y ≤ hi then ¬ s y else s y)
  | flip {r s lo hi} : Built64 r s → hi < 2 ^ 64 → Built64 (r64Flip r lo hi) (fun y => if lo ≤ y ∧ y < hi then ¬ s y else s y)
  | flipClosedInplace {r s lo hi} : Built64 r s → hi < 2 ^ 64 →
      Built64 (r64FlipClosedInplace r lo hi) (fun y => if lo ≤ y ∧ y ≤ hi then ¬ s y else s y)
  | flipInplace {r s lo hi} : Built64 r s → hi < 2 ^ 64 →
      Built64 (r64FlipInplace r lo hi) (fun y => if lo ≤ y ∧ y < hi then ¬ s y else s y)
  | or {a b s t} : Built64 a s → Built64 b t → Built64 (r64Or a b) (fun y => s y ∨ t y)
  | and {a b s t} : Built64 a s → Built64 b t → Built64 (r64And a b) (fun y => s y ∧ t y)
  | andnot {a b s t} : Built64 a s → Built64 b t → Built64 (r64Andnot a b) (fun y => s y ∧ ¬ t y)
  | xor {a b s t} : Built64 a s → Built64 b t → Built64 (r64Xor a b) (fun y => ¬ (s y ↔ t y))
  | orInplace {a b s t} (same shared caps) : Built64 a s → Built64 b t → (same = true → a = b) →
      Built64 (r64OrInplace same shared caps a b) (fun y => s y ∨ t y)
  | andInplace {a b s t} (same shared) : Built64 a s → Built64 b t → (same = true → a = b) →
      Built64 (r64AndInplace same shared a b) (fun y => s y ∧ t y)
  | andnotInplace {a b s t} (shared) : Built64 a s → Built64 b t → Built64 (r64AndnotInplace shared a b) (fun y => s y ∧ ¬ t y)
  | xorInplace {a b s t} (shared) : Built64 a s → Built64 b t → Built64 (r64XorInplace shared a b) (fun y => ¬ (s y ↔ t y))
  | runOptimize {r s} : Built64 r s → Built64 (r64RunOptimize r).1 s

theorem flip_iff {c : Prop} [Decidable c] {b : Bool} {p : Prop} (h : b = true ↔ p) :
    (if c then !b else b) = true ↔ if c then ¬ p else p := by
  split
  · rw [← h]; cases b <;> simp
  · exact h

theorem bne_iff {a b : Bool} {p q : Prop} (h : a = true ↔ p) (g : b = true ↔ q) : (a != b) = true ↔ ¬ (p ↔ q) := by
  rw [← h, ← g]; cases a <;> cases b <;> simp

/-- **C54.** Every 64-bit bitmap that the API builds is valid and contains exactly the values its history says. -/
theorem C54_history {r : R64} {s : Nat → Prop} (h : Built64 r s) :
    Valid64 r ∧ ∀ y, y < 2 ^ 64 → (r64Contains r y = true ↔ s y) := by
  induction h with
  | create => exact ⟨C53_create.1, fun y hy => by simp [C53_create.2 y hy]⟩
  | ofPtr hv hr =>
    obtain ⟨r', h1, h2, h3⟩ := C70_of_ptr hv
    rw [hr] at h1; cases h1
    exact ⟨h2, h3⟩
  | @fromRange lo hi step r hhi hs hr =>
    obtain ⟨h1, h2⟩ := C72_from_range (lo := lo) hhi hs
    by_cases hc : step = 0 ∨ hi ≤ lo
    · rw [h1 hc] at hr; cases hr
    · obtain ⟨r', g1, g2, g3⟩ := h2 (by omega) (by omega)
      rw [hr] at g1; cases g1
      exact ⟨g2, g3⟩
  | moveFrom32 hb =>
    obtain ⟨h1, h2, -⟩ := C73_move_from_roaring32 hb
    exact ⟨h1, fun y hy => by rw [h2 y hy]⟩
  | validated hn hr hv => exact ⟨C76_validated_input hn hr hv, fun y _ => Iff.rfl⟩
  | copy _ ih =>
    obtain ⟨h1, h2⟩ := (C53_copy_clear ih.1).1
    exact ⟨h1, fun y hy => by rw [h2 y hy]; exact ih.2 y hy⟩
  | clear _ ih =>
    obtain ⟨h1, h2⟩ := (C53_copy_clear ih.1).2
    exact ⟨h1, fun y hy => by simp [h2 y hy]⟩
  | add _ hx ih => exact ⟨(C53_add ih.1 hx).1, fun y hy => by rw [(C53_add ih.1 hx).2 y hy, ih.2 y hy]⟩
  | addChecked _ hx ih => exact ⟨(C53_add_checked ih.1 hx).2.1, fun y hy => by rw [(C53_add_checked ih.1 hx).2.2 y hy, ih.2 y hy]⟩
  | remove _ hx ih => exact ⟨(C53_remove ih.1 hx).1, fun y hy => by rw [(C53_remove ih.1 hx).2 y hy, ih.2 y hy]⟩
  | removeChecked _ hx ih =>
    exact ⟨(C53_remove_checked ih.1 hx).2.1, fun y hy => by rw [(C53_remove_checked ih.1 hx).2.2 y hy, ih.2 y hy]⟩
  | addMany _ hv hr ih =>
    obtain ⟨r', h1, h2, h3⟩ := C70_add_many ih.1 hv
    rw [hr] at h1; cases h1
    exact ⟨h2, fun y hy => by rw [h3 y hy, ih.2 y hy]⟩
  | removeMany _ hv hr ih =>
    obtain ⟨h2, h3⟩ := (C71_remove_many_partial ih.1 hv).1 _ hr
    exact ⟨h2, fun y hy => by rw [h3 y hy, ih.2 y hy]⟩
  | @addRangeClosed r s lo hi _ hh ih =>
    obtain ⟨h1, h2⟩ := (C60_add_range ih.1 lo hh).1
    exact ⟨h1, fun y hy => by rw [h2 y hy, ih.2 y hy]⟩
  | @addRange r s lo hi _ hh ih =>
    obtain ⟨h1, h2⟩ := (C60_add_range ih.1 lo hh).2
    exact ⟨h1, fun y hy => by rw [h2 y hy, ih.2 y hy]⟩
  | @removeRangeClosed r s lo hi _ hh ih =>
    obtain ⟨h1, h2⟩ := (C60_remove_range ih.1 lo hh).1
    exact ⟨h1, fun y hy => by rw [h2 y hy, ih.2 y hy]⟩
  | @removeRange r s lo hi _ hh ih =>
    obtain ⟨h1, h2⟩ := (C60_remove_range ih.1 lo hh).2
    exact ⟨h1, fun y hy => by rw [h2 y hy, ih.2 y hy]⟩
  | @flipClosed r s lo hi _ hh ih =>
    obtain ⟨⟨h1, h2⟩, -⟩ := C63_flip ih.1 lo hh
    exact ⟨h1, fun y hy => by rw [h2 y hy]; exact flip_iff (ih.2 y hy)⟩
  | @flip r s lo hi _ hh ih =>
    obtain ⟨-, -, ⟨h1, h2⟩, -⟩ := C63_flip ih.1 lo hh
    exact ⟨h1, fun y hy => by rw [h2 y hy]; exact flip_iff (ih.2 y hy)⟩
  | @flipClosedInplace r s lo hi _ hh ih =>
    obtain ⟨-, ⟨h1, h2⟩, -⟩ := C63_flip ih.1 lo hh
    exact ⟨h1, fun y hy => by rw [h2 y hy]; exact flip_iff (ih.2 y hy)⟩
  | @flipInplace r s lo hi _ hh ih =>
    obtain ⟨-, -, -, h1, h2⟩ := C63_flip ih.1 lo hh
    exact ⟨h1, fun y hy => by rw [h2 y hy]; exact flip_iff (ih.2 y hy)⟩
  | or _ _ ih1 ih2 =>
    obtain ⟨h1, h2⟩ := C55_or ih1.1 ih2.1
    exact ⟨h1, fun y hy => by rw [h2 y hy]; simp [← ih1.2 y hy, ← ih2.2 y hy]⟩
  | and _ _ ih1 ih2 =>
    obtain ⟨h1, h2⟩ := C55_and ih1.1 ih2.1
    exact ⟨h1, fun y hy => by rw [h2 y hy]; simp [← ih1.2 y hy, ← ih2.2 y hy]⟩
  | andnot _ _ ih1 ih2 =>
    obtain ⟨h1, h2⟩ := C55_andnot ih1.1 ih2.1
    exact ⟨h1, fun y hy => by rw [h2 y hy]; simp [← ih1.2 y hy, ← ih2.2 y hy]⟩
  | xor _ _ ih1 ih2 =>
    obtain ⟨h1, h2⟩ := C55_xor ih1.1 ih2.1
    exact ⟨h1, fun y hy => by rw [h2 y hy]; exact bne_iff (ih1.2 y hy) (ih2.2 y hy)⟩
  | orInplace same shared caps _ _ hs ih1 ih2 =>
    obtain ⟨h1, h2⟩ := C56_or_inplace ih1.1 ih2.1 same hs shared caps
    exact ⟨h1, fun y hy => by rw [h2 y hy]; simp [← ih1.2 y hy, ← ih2.2 y hy]⟩
  | andInplace same shared _ _ hs ih1 ih2 =>
    obtain ⟨h1, h2⟩ := C56_and_inplace ih1.1 ih2.1 same hs shared
    exact ⟨h1, fun y hy => by rw [h2 y hy]; simp [← ih1.2 y hy, ← ih2.2 y hy]⟩
  | andnotInplace shared _ _ ih1 ih2 =>
    obtain ⟨h1, h2⟩ := C56_andnot_inplace ih1.1 ih2.1 shared
    exact ⟨h1, fun y hy => by rw [h2 y hy]; simp [← ih1.2 y hy, ← ih2.2 y hy]⟩
  | xorInplace shared _ _ ih1 ih2 =>
    obtain ⟨h1, h2⟩ := C56_xor_inplace ih1.1 ih2.1 shared
    exact ⟨h1, fun y hy => by rw [h2 y hy]; exact bne_iff (ih1.2 y hy) (ih2.2 y hy)⟩
  | runOptimize _ ih =>
    obtain ⟨h1, h2, -⟩ := C74_run_optimize ih.1
    exact ⟨h1, fun y hy => by rw [h2 y hy]; exact ih.2 y hy⟩

/-- A history: two additions and a range, flipped, minus a range, and the union with a run-optimized copy. -/
example : ∃ r s, Built64 r s ∧ s 7 ∧ s 5000000000000 ∧ ¬ s 8 ∧ r64Contains r 7 = true ∧ r64Contains r 5000000000000 = true ∧
    r64Contains r 8 = false := by
  have h1 := (((Built64.create.add (x := 7) (by omega)).add (x := 5000000000000) (by omega)).addRange (lo := 8) (hi := 20) (by omega))
  have h2 := (h1.flipInplace (lo := 8) (hi := 20) (by omega)).or h1.copy.runOptimize
  have h3 := h2.removeRangeClosed (lo := 8) (hi := 19) (by omega)
  refine ⟨_, _, h3, ?_, ?_, ?_, ?_, ?_, ?_⟩
  · simp
  · simp
  · simp
  · rw [(C54_history h3).2 7 (by omega)]; simp
  · rw [(C54_history h3).2 5000000000000 (by omega)]; simp
  · rw [Bool.eq_false_iff]; intro e; rw [(C54_history h3).2 8 (by omega)] at e; simp at e

end CRoaring.Props
