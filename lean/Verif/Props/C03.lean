import Verif.Props.Common
import Verif.Lemmas.Bulk
import Verif.Lemmas.Range2
import Verif.Lemmas.Flip
import Verif.Lemmas.Query2
import Verif.Lemmas.Lazy
import Verif.Lemmas.Offset
/-
C03: every history of public operations leads to valid bitmaps.
-/
namespace CRoaring.Props
open CRoaring

/-- The state of a bitmap: `eager` bitmaps may be used everywhere, `lazy` ones are results of the lazy operations which
have not been repaired yet. -/
inductive Mode where
  | eager
  | lazy

/-- `Built m r`: some finite history of public operations, started from nothing and from bitmaps that passed
`roaring_bitmap_internal_validate` (for instance deserialized ones), leads to the bitmap `r` in the state `m`.

The arguments are arbitrary within their C types.  `shared` and `caps` are the sharing flags and array capacities that
in-place operations look at; they may be anything.  `same` says that both operands are the same object. -/
inductive Built : Mode → Bitmap → Prop
  | create : Built .eager rbCreate
  | validated {r} : Typed r → rbInternalValidate r = true → Built .eager r
  | fromRange {fuel min max step r} : min < 2 ^ 64 → max < 2 ^ 64 → step < 2 ^ 32 →
      rbFromRange fuel min max step = some (some r) → Built .eager r
  | ofPtr {vals} : (∀ v ∈ vals, v < 2 ^ 32) → Built .eager (rbOfPtr vals)
  | of {vals} : (∀ v ∈ vals, v < 2 ^ 32) → Built .eager (rbOf vals)
  | copy {r} : Built .eager r → Built .eager (rbCopy r)
  | overwrite {d r} : Built .eager d → Built .eager r → Built .eager (rbOverwrite d r)
  | clear {r} : Built .eager r → Built .eager (rbClear r)
  | add {r v} : Built .eager r → v < 2 ^ 32 → Built .eager (rbAdd r v)
  | addChecked {r v} : Built .eager r → v < 2 ^ 32 → Built .eager (rbAddChecked r v).1
  | remove {r v} : Built .eager r → v < 2 ^ 32 → Built .eager (rbRemove r v)
  | removeChecked {r v} : Built .eager r → v < 2 ^ 32 → Built .eager (rbRemoveChecked r v).1
  | addMany {r vals} : Built .eager r → (∀ v ∈ vals, v < 2 ^ 32) → Built .eager (rbAddMany r vals)
  | removeMany {r vals} : Built .eager r → (∀ v ∈ vals, v < 2 ^ 32) → Built .eager (rbRemoveMany r vals)
  | addRangeClosed {r min max} : Built .eager r → min < 2 ^ 32 → max < 2 ^ 32 → Built .eager (rbAddRangeClosed r min max)
  | addRange {r min max} : Built .eager r → min < 2 ^ 64 → max < 2 ^ 64 → Built .eager (rbAddRange r min max)
  | removeRangeClosed {r min max} : Built .eager r → min < 2 ^ 32 → max < 2 ^ 32 →
      Built .eager (rbRemoveRangeClosed r min max)
  | removeRange {r min max} : Built .eager r → min < 2 ^ 64 → max < 2 ^ 64 → Built .eager (rbRemoveRange r min max)
  | flipClosed {r a b} : Built .eager r → a < 2 ^ 32 → b < 2 ^ 32 → Built .eager (rbFlipClosed r a b)
  | flip {r a b} : Built .eager r → a < 2 ^ 64 → b < 2 ^ 64 → Built .eager (rbFlip r a b)
  | flipInplaceClosed {r a b} : Built .eager r → a < 2 ^ 32 → b < 2 ^ 32 → Built .eager (rbFlipInplaceClosed r a b)
  | flipInplace {r a b} : Built .eager r → a < 2 ^ 64 → b < 2 ^ 64 → Built .eager (rbFlipInplace r a b)
  | and {a b} : Built .eager a → Built .eager b → Built .eager (rbAnd a b)
  | andInplace {a b} (same shared) : Built .eager a → Built .eager b → (same = true → a = b) →
      Built .eager (rbAndInplace same shared a b)
  | or {a b} : Built .eager a → Built .eager b → Built .eager (rbOr a b)
  | orInplace {a b} (shared caps) : Built .eager a → Built .eager b → Built .eager (rbOrInplace shared caps a b)
  | xor {a b} : Built .eager a → Built .eager b → Built .eager (rbXor a b)
  | xorInplace {a b} (shared) : Built .eager a → Built .eager b → Built .eager (rbXorInplace shared a b)
  | andnot {a b} : Built .eager a → Built .eager b → Built .eager (rbAndnot a b)
  | andnotInplace {a b} (shared) : Built .eager a → Built .eager b → Built .eager (rbAndnotInplace shared a b)
  | orMany {xs} (caps) : (∀ x ∈ xs, Built .eager x) → Built .eager (rbOrMany caps xs)
  | orManyHeap {xs} (sz caps) : (∀ x ∈ xs, Built .eager x) → Built .eager (rbOrManyHeap sz caps xs)
  | xorMany {xs} (shared) : (∀ x ∈ xs, Built .eager x) → Built .eager (rbXorMany shared xs)
  | addOffset {r d} (caps) : Built .eager r → Built .eager (rbAddOffset caps r d)
  | runOptimize {r} : Built .eager r → Built .eager (rbRunOptimize r).1
  | removeRunCompression {r} : Built .eager r → Built .eager (rbRemoveRunCompression r).1
  | asLazy {r} : Built .eager r → Built .lazy r
  | lazyOr {a b} (conv) : Built .lazy a → Built .lazy b → Built .lazy (rbLazyOr conv a b)
  | lazyOrInplace {a b} (conv caps) : Built .lazy a → Built .lazy b → Built .lazy (rbLazyOrInplace conv caps a b)
  | lazyXor {a b} : Built .lazy a → Built .lazy b → Built .lazy (rbLazyXor a b)
  | lazyXorInplace {a b} (shared) : Built .lazy a → Built .eager b → Built .lazy (rbLazyXorInplace shared a b)
  | repair {r} : Built .lazy r → Built .eager (rbRepair r)

/-- The invariant of each state. -/
def ModeInv : Mode → Bitmap → Prop
  | .eager => BInv
  | .lazy => LBInv

theorem fromRangeBig_inv {max step : Nat} (hmax : max ≤ 4294967296) (fuel : Nat) : ∀ {value : Nat} {acc r : Bitmap}, BInv acc →
    fromRangeBig max step fuel value acc = some r → BInv r := by
  induction fuel with
  | zero => intro value acc r _ h; simp [fromRangeBig] at h
  | succ fuel ih =>
    intro value acc r ha h
    rw [fromRangeBig] at h
    split at h
    · exact ih (rbAdd_spec ha (by omega)).1 h
    · exact Option.some.inj h ▸ ha

theorem fromRangeLoop_mono {max step : Nat} (fuel : Nat) : ∀ {fuel' m : Nat} {acc r : Bitmap}, fuel ≤ fuel' →
    fromRangeLoop max step fuel m acc = some r → fromRangeLoop max step fuel' m acc = some r := by
  induction fuel with
  | zero => intro fuel' m acc r _ h; simp [fromRangeLoop] at h
  | succ fuel ih =>
    intro fuel' m acc r hf h
    obtain ⟨f, rfl⟩ : ∃ f, fuel' = f + 1 := ⟨fuel' - 1, by omega⟩
    simp only [fromRangeLoop] at h ⊢
    split at h
    · rename_i hc
      rw [if_pos hc]
      exact ih (by omega) h
    · rename_i hc
      rw [if_neg hc]
      exact h

theorem fromRange_inv {fuel min max step : Nat} {r : Bitmap} (h : rbFromRange fuel min max step = some (some r)) :
    BInv r := by
  have hmx : (if max ≥ 4294967296 then 4294967296 else max) = Nat.min max 4294967296 := by
    have := Nat.min_def (n := max) (m := 4294967296)
    show _ = Min.min max 4294967296
    rw [this]
    split <;> split <;> omega
  unfold rbFromRange at h
  simp only [hmx] at h
  split at h
  · simp at h
  · rename_i hs
    split at h
    · simp at h
    · rename_i hmm
      split at h
      · obtain ⟨r', h1, h2⟩ := Option.map_eq_some_iff.1 h
        exact Option.some.inj h2 ▸ fromRangeBig_inv (Nat.min_le_right _ _) fuel (by trivial) h1
      · rename_i hs2
        obtain ⟨r', h1, h2⟩ := Option.map_eq_some_iff.1 h
        obtain ⟨r2, e1, e2, _⟩ := rbFromRange_spec (fuel := fuel + 65537) (min := min) (max := max) (step := step)
          (by omega) (by omega) (by omega) (Or.inl (by omega))
        unfold rbFromRange at e1
        simp only [hmx, if_neg hs, if_neg hmm, if_neg hs2] at e1
        rw [fromRangeLoop_mono fuel (by omega) h1] at e1
        have : r' = r2 := Option.some.inj (Option.some.inj e1)
        rw [← Option.some.inj h2, this]
        exact e2

theorem Built.inv {m : Mode} {r : Bitmap} (h : Built m r) : ModeInv m r := by
  induction h with
  | create => exact trivial
  | validated h1 h2 => exact Valid.inv ⟨h1, h2⟩
  | fromRange _ _ _ h => exact fromRange_inv h
  | ofPtr h => exact (rbAddMany_spec (r := []) trivial h).1
  | of h => exact (rbAddManyLoop_spec _ (r := []) trivial (ctx := none) (CtxOK.none _) h).1
  | copy _ h => exact h
  | overwrite _ _ _ h => exact h
  | clear _ _ => exact trivial
  | add _ hv h => exact (rbAdd_spec h hv).1
  | addChecked _ hv h => exact (rbAddChecked_spec h hv).1 ▸ (rbAdd_spec h hv).1
  | remove _ hv h => exact (rbRemove_spec h hv).1
  | removeChecked _ hv h => exact (rbRemoveChecked_spec h hv).1 ▸ (rbRemove_spec h hv).1
  | addMany _ hv h => exact (rbAddMany_spec h hv).1
  | removeMany _ hv h => exact (rbRemoveMany_spec h hv).1
  | addRangeClosed _ _ hv h => exact (rbAddRangeClosed_spec h hv).1
  | addRange _ _ _ h =>
    simp only [rbAddRange]
    split
    · exact h
    · exact (rbAddRangeClosed_spec h (Nat.mod_lt _ (by decide))).1
  | removeRangeClosed _ _ hv h => exact (rbRemoveRangeClosed_spec h _ _).1
  | removeRange _ _ _ h =>
    simp only [rbRemoveRange]
    split
    · exact h
    · exact (rbRemoveRangeClosed_spec h _ _).1
  | flipClosed _ _ hv h => exact (rbFlipClosed_spec h hv).1
  | flip _ _ _ h =>
    simp only [rbFlip]
    split
    · exact h
    · exact (rbFlipClosed_spec h (Nat.mod_lt _ (by decide))).1
  | flipInplaceClosed _ _ hv h => exact (rbFlipInplaceClosed_spec h hv).1
  | flipInplace _ _ _ h =>
    simp only [rbFlipInplace]
    split
    · exact h
    · exact (rbFlipInplaceClosed_spec h (Nat.mod_lt _ (by decide))).1
  | and _ _ h1 h2 => exact (rbAnd_spec h1 h2).1
  | andInplace same shared _ _ hs h1 h2 => exact (rbAndInplace_spec same shared h1 h2 hs).1
  | or _ _ h1 h2 => exact (rbOr_spec h1 h2).1
  | orInplace shared caps _ _ h1 h2 => exact (rbOrInplace_spec shared caps h1 h2).1
  | xor _ _ h1 h2 => exact (rbXor_spec h1 h2).1
  | xorInplace shared _ _ h1 h2 => exact (rbXorInplace_spec shared h1 h2).1
  | andnot _ _ h1 h2 => exact (rbAndnot_spec h1 h2).1
  | andnotInplace shared _ _ h1 h2 => exact (rbAndnotInplace_spec shared h1 h2).1
  | orMany caps _ h => exact (rbOrMany_spec caps h).1
  | orManyHeap sz caps _ h => exact (rbOrManyHeap_spec sz caps h).1
  | xorMany shared _ h => exact (rbXorMany_spec shared h).1
  | addOffset caps _ h => exact (rbAddOffset_spec caps h _).1
  | runOptimize _ h => exact (rbRunOptimize_spec h).1
  | removeRunCompression _ h => exact (rbRemoveRunCompression_spec h).1
  | asLazy _ h => exact h.lazy
  | lazyOr conv _ _ h1 h2 => exact (rbLazyOr_spec conv h1 h2).1
  | lazyOrInplace conv caps _ _ h1 h2 => exact (rbLazyOrInplace_spec conv caps h1 h2).1
  | lazyXor _ _ h1 h2 => exact (rbLazyXor_spec h1 h2).1
  | lazyXorInplace shared _ _ h1 h2 => exact (rbLazyXorInplace_spec shared h1 h2).1
  | repair _ h => exact (rbRepair_spec h).1

/-- **C03.** Every bitmap reached by a finite history of public operations passes
`roaring_bitmap_internal_validate`, and its fields are in the range of their C types. -/
theorem C03_always_valid {r : Bitmap} (h : Built .eager r) : rbInternalValidate r = true ∧ Typed r :=
  have hv := h.inv.valid
  ⟨hv.2, hv.1⟩

/-- What `roaring_bitmap_internal_validate` accepts, in plain terms: increasing keys below 2^16, and in each container a
well-formed, nonempty set of 16-bit values. -/
theorem C03_what_valid_means {r : Bitmap} (h : Built .eager r) :
    (r.map Prod.fst).Pairwise (· < ·) ∧ ∀ k c, (k, c) ∈ r → k < 65536 ∧
      match c with
      | .array vals => vals.Pairwise (· < ·) ∧ 1 ≤ vals.length ∧ vals.length ≤ 4096 ∧ ∀ v ∈ vals, v < 65536
      | .run runs => 1 ≤ runs.length ∧ runs.Pairwise (fun a b => a.1 + a.2 + 1 < b.1) ∧ ∀ a ∈ runs, a.1 + a.2 < 65536
      | .bitset b => b.words.length = 1024 ∧ 4096 < b.card ∧
          b.card = (Spec.card 65536 (fun x => (b.words[x / 64]?.getD 0).getLsbD (x % 64)) : Nat) := by
  have hi : BInv r := h.inv
  clear h
  induction r with
  | nil => exact ⟨List.Pairwise.nil, by simp⟩
  | cons p t ih =>
    obtain ⟨k, c⟩ := p
    obtain ⟨i1, i2⟩ := ih hi.2.2.2
    refine ⟨List.Pairwise.cons (fun k' hk' => ?_) i1, fun k' c' hm => ?_⟩
    · obtain ⟨p, hp, rfl⟩ := List.mem_map.1 hk'
      exact hi.2.2.1 p hp
    · rcases List.mem_cons.1 hm with e | hm
      · obtain ⟨rfl, rfl⟩ := Prod.mk.inj e
        refine ⟨hi.1, ?_⟩
        obtain ⟨hc, x, hx⟩ := hi.2.1
        cases c' with
        | array l =>
          refine ⟨hc.1.sorted, ?_, hc.2, hc.1.lt⟩
          cases l with
          | nil => simp [chas] at hx
          | cons _ _ => simp
        | run rs =>
          refine ⟨?_, hc.gap, hc.lt⟩
          cases rs with
          | nil => simp [chas] at hx
          | cons _ _ => simp
        | bitset b =>
          refine ⟨hc.1.len, hc.2, ?_⟩
          rw [hc.1.card]
          exact congrArg (fun s => ((Spec.card 65536 s : Nat) : Int))
            (funext fun x => by rw [bitAt, wd, List.getD_eq_getElem?_getD]; rfl)
      · exact i2 k' c' hm

example : Built .eager (rbXor (rbAdd exS 7) (rbRepair (rbLazyOr true exB exT))) :=
  .xor (.add (.validated exS_valid.1 exS_valid.2) (by omega))
    (.repair (.lazyOr true (.asLazy (.validated exB_valid.1 exB_valid.2)) (.asLazy (.validated exT_valid.1 exT_valid.2))))

end CRoaring.Props
