import Verif.Lemmas.BitmapMemHistory
/-!
C115: bitmaps stay inside their memory.  Whatever the capacities, the unused parts of the blocks and the contents of new memory, the
operations on bitmaps read and write only inside the blocks of the keys, of the containers and of the values (the model answers `.oob`
otherwise), they terminate (the model answers `.fail` otherwise), and they leave well-formed bitmaps of exactly the values they should have.
-/
namespace CRoaring.Props
open CRoaring.Spec (IsBitmapSet SlotIs Allocates)

/-- Any sequence of calls that the rules allow, over any number of bitmaps; the contents of new memory are different for every call.
No call leaves its blocks, and in the end each bitmap that was not freed is well formed and has exactly the values that it should have. -/
theorem C115_history (calls : List (Op × RbEnv)) (hE : ∀ c ∈ calls, Allocates c.2)
    {p : History.Pool} (hp : History.run false [] (calls.map (·.1)) = some p) :
    ∃ q, bufRun [] calls = .ok q ∧ List.Forall₂ SlotIs q p := by
  obtain ⟨q, e, h⟩ := bufRun_spec calls (q := []) .nil (fun c hc => (hE c hc).ok) hp
  exact ⟨q, e, h.imp fun _ _ h => h.is⟩

/-! The operations one by one, from any well-formed bitmaps. -/

theorem C115_create {E : RbEnv} (hE : Allocates E) (cap : Nat) : IsBitmapSet (rbCreateBuf E cap) Spec.empty :=
  isBitmapSet_of (raInitBuf_spec hE.ok cap).1 trivial fun x => by simp [bhas_nil, Spec.empty]

theorem C115_copy {E : RbEnv} (hE : Allocates E) {b : RaBuf} {s : NSet} (h : IsBitmapSet b s) :
    ∃ o, rbCopyBuf E b = .ok o ∧ IsBitmapSet o s := by
  obtain ⟨r, hb, hr, e⟩ := isBitmapSet_iff.1 h
  obtain ⟨o, e1, g⟩ := rbCopyBuf_spec hE.ok hb
  exact ⟨o, e1, isBitmapSet_of g hr e⟩

theorem C115_overwrite {E : RbEnv} (hE : Allocates E) {b c : RaBuf} {s t : NSet} (h : IsBitmapSet b s) (h' : IsBitmapSet c t) :
    ∃ o, rbOverwriteBuf E b c = .ok o ∧ IsBitmapSet o t := by
  obtain ⟨r, hb, hr, e⟩ := isBitmapSet_iff.1 h
  obtain ⟨r', hc, hr', e'⟩ := isBitmapSet_iff.1 h'
  obtain ⟨o, e1, g⟩ := rbOverwriteBuf_spec hE.ok hb hc
  exact ⟨o, e1, isBitmapSet_of g hr' e'⟩

theorem C115_clear {E : RbEnv} (hE : Allocates E) (b : RaBuf) : ∃ o, rbClearBuf E b = .ok o ∧ IsBitmapSet o Spec.empty := by
  obtain ⟨o, e1, g⟩ := rbClearBuf_spec hE.ok b
  exact ⟨o, e1, isBitmapSet_of g trivial fun x => by simp [bhas_nil, Spec.empty]⟩

theorem C115_contains {b : RaBuf} {s : NSet} (h : IsBitmapSet b s) (v : Nat) : rbContainsBuf b v = .ok (s v) := by
  obtain ⟨r, hb, hr, e⟩ := isBitmapSet_iff.1 h
  rw [rbContainsBuf_spec hb hr v, rbContains_eq hr, e]

theorem C115_add {E : RbEnv} (hE : Allocates E) {b : RaBuf} {s : NSet} (h : IsBitmapSet b s) {v : Nat} (hv : v < 4294967296) :
    ∃ o, rbAddBuf E b v = .ok o ∧ IsBitmapSet o (Spec.insert s v) := by
  obtain ⟨r, hb, hr, e⟩ := isBitmapSet_iff.1 h
  obtain ⟨o, e1, g⟩ := rbAddBuf_spec hE.ok hb hr hv
  exact ⟨o, e1, isBitmapSet_of g (rbAdd_spec hr hv).1 fun x => by rw [(rbAdd_spec hr hv).2, funext e]⟩

theorem C115_add_checked {E : RbEnv} (hE : Allocates E) {b : RaBuf} {s : NSet} (h : IsBitmapSet b s) {v : Nat} (hv : v < 4294967296) :
    ∃ o, rbAddCheckedBuf E b v = .ok (o, !s v) ∧ IsBitmapSet o (Spec.insert s v) := by
  obtain ⟨r, hb, hr, e⟩ := isBitmapSet_iff.1 h
  obtain ⟨o, e1, g⟩ := rbAddCheckedBuf_spec hE.ok hb hr hv
  have hc := rbAddChecked_spec hr hv
  refine ⟨o, by rw [e1, hc.2, e], ?_⟩
  rw [hc.1] at g
  exact isBitmapSet_of g (rbAdd_spec hr hv).1 fun x => by rw [(rbAdd_spec hr hv).2, funext e]

theorem C115_remove {E : RbEnv} (hE : Allocates E) {b : RaBuf} {s : NSet} (h : IsBitmapSet b s) {v : Nat} (hv : v < 4294967296) :
    ∃ o, rbRemoveBuf E b v = .ok o ∧ IsBitmapSet o (Spec.erase s v) := by
  obtain ⟨r, hb, hr, e⟩ := isBitmapSet_iff.1 h
  obtain ⟨o, e1, g⟩ := rbRemoveBuf_spec hE.ok hb hr v
  exact ⟨o, e1, isBitmapSet_of g (rbRemove_spec hr hv).1 fun x => by rw [(rbRemove_spec hr hv).2, funext e]⟩

theorem C115_remove_checked {E : RbEnv} (hE : Allocates E) {b : RaBuf} {s : NSet} (h : IsBitmapSet b s) {v : Nat} (hv : v < 4294967296) :
    ∃ o, rbRemoveCheckedBuf E b v = .ok (o, s v) ∧ IsBitmapSet o (Spec.erase s v) := by
  obtain ⟨r, hb, hr, e⟩ := isBitmapSet_iff.1 h
  obtain ⟨o, e1, g⟩ := rbRemoveCheckedBuf_spec hE.ok hb hr v
  have hc := rbRemoveChecked_spec hr hv
  refine ⟨o, by rw [e1, hc.2, e], ?_⟩
  rw [hc.1] at g
  exact isBitmapSet_of g (rbRemove_spec hr hv).1 fun x => by rw [(rbRemove_spec hr hv).2, funext e]

section
variable {E : RbEnv} (hE : Allocates E) {b c : RaBuf} {s t : NSet} (h : IsBitmapSet b s) (h' : IsBitmapSet c t)
include hE h h'

theorem C115_and : ∃ o, rbAndBuf E b c = .ok o ∧ IsBitmapSet o (Spec.inter s t) := by
  obtain ⟨r, hb, hr, e⟩ := isBitmapSet_iff.1 h
  obtain ⟨r', hc, hr', e'⟩ := isBitmapSet_iff.1 h'
  obtain ⟨o, e1, g⟩ := rbAndBuf_spec hE.ok hb hr hc hr'
  exact ⟨o, e1, isBitmapSet_of g (rbAnd_spec hr hr').1 fun x => by rw [(rbAnd_spec hr hr').2, e, e']; rfl⟩

theorem C115_and_inplace : ∃ o, rbAndInplaceBuf E b c = .ok o ∧ IsBitmapSet o (Spec.inter s t) := by
  obtain ⟨r, hb, hr, e⟩ := isBitmapSet_iff.1 h
  obtain ⟨r', hc, hr', e'⟩ := isBitmapSet_iff.1 h'
  obtain ⟨o, e1, g⟩ := rbAndInplaceBuf_spec hE.ok hb hr hc hr'
  have hs := rbAndInplace_spec false (fun _ => false) hr hr' (by simp)
  exact ⟨o, e1, isBitmapSet_of g hs.1 fun x => by rw [hs.2, e, e']; rfl⟩

theorem C115_or : ∃ o, rbOrBuf E b c = .ok o ∧ IsBitmapSet o (Spec.union s t) := by
  obtain ⟨r, hb, hr, e⟩ := isBitmapSet_iff.1 h
  obtain ⟨r', hc, hr', e'⟩ := isBitmapSet_iff.1 h'
  obtain ⟨o, e1, g⟩ := rbOrBuf_spec hE.ok hb hr hc hr'
  exact ⟨o, e1, isBitmapSet_of g (rbOr_spec hr hr').1 fun x => by rw [(rbOr_spec hr hr').2, e, e']; rfl⟩

theorem C115_or_inplace : ∃ o, rbOrInplaceBuf E b c = .ok o ∧ IsBitmapSet o (Spec.union s t) := by
  obtain ⟨r, hb, hr, e⟩ := isBitmapSet_iff.1 h
  obtain ⟨r', hc, hr', e'⟩ := isBitmapSet_iff.1 h'
  obtain ⟨caps, o, e1, g⟩ := rbOrInplaceBuf_spec hE.ok hb hr hc hr'
  have hs := rbOrInplace_spec (fun _ => false) caps hr hr'
  exact ⟨o, e1, isBitmapSet_of g hs.1 fun x => by rw [hs.2, e, e']; rfl⟩

theorem C115_xor : ∃ o, rbXorBuf E b c = .ok o ∧ IsBitmapSet o (Spec.symm s t) := by
  obtain ⟨r, hb, hr, e⟩ := isBitmapSet_iff.1 h
  obtain ⟨r', hc, hr', e'⟩ := isBitmapSet_iff.1 h'
  obtain ⟨o, e1, g⟩ := rbXorBuf_spec hE.ok hb hr hc hr'
  exact ⟨o, e1, isBitmapSet_of g (rbXor_spec hr hr').1 fun x => by rw [(rbXor_spec hr hr').2, e, e']; rfl⟩

theorem C115_xor_inplace : ∃ o, rbXorInplaceBuf E b c = .ok o ∧ IsBitmapSet o (Spec.symm s t) := by
  obtain ⟨r, hb, hr, e⟩ := isBitmapSet_iff.1 h
  obtain ⟨r', hc, hr', e'⟩ := isBitmapSet_iff.1 h'
  obtain ⟨o, e1, g⟩ := rbXorInplaceBuf_spec hE.ok hb hr hc hr'
  have hs := rbXorInplace_spec (fun _ => false) hr hr'
  exact ⟨o, e1, isBitmapSet_of g hs.1 fun x => by rw [hs.2, e, e']; rfl⟩

theorem C115_andnot : ∃ o, rbAndnotBuf E b c = .ok o ∧ IsBitmapSet o (Spec.diff s t) := by
  obtain ⟨r, hb, hr, e⟩ := isBitmapSet_iff.1 h
  obtain ⟨r', hc, hr', e'⟩ := isBitmapSet_iff.1 h'
  obtain ⟨o, e1, g⟩ := rbAndnotBuf_spec hE.ok hb hr hc hr'
  exact ⟨o, e1, isBitmapSet_of g (rbAndnot_spec hr hr').1 fun x => by rw [(rbAndnot_spec hr hr').2, e, e']; rfl⟩

theorem C115_andnot_inplace : ∃ o, rbAndnotInplaceBuf E b c = .ok o ∧ IsBitmapSet o (Spec.diff s t) := by
  obtain ⟨r, hb, hr, e⟩ := isBitmapSet_iff.1 h
  obtain ⟨r', hc, hr', e'⟩ := isBitmapSet_iff.1 h'
  obtain ⟨o, e1, g⟩ := rbAndnotInplaceBuf_spec hE.ok hb hr hc hr'
  have hs := rbAndnotInplace_spec (fun _ => false) hr hr'
  exact ⟨o, e1, isBitmapSet_of g hs.1 fun x => by rw [hs.2, e, e']; rfl⟩

end

/-! Several values, ranges, shifts, conversions. -/

section
variable {E : RbEnv} (hE : Allocates E) {b : RaBuf} {s : NSet} (h : IsBitmapSet b s)
include hE h

theorem C115_add_many {vs : List Nat} (hv : ∀ v ∈ vs, v < 4294967296) :
    ∃ o, rbAddManyBuf E b vs = .ok o ∧ IsBitmapSet o (Spec.union (Spec.ofList vs) s) := by
  obtain ⟨r, hb, hr, e⟩ := isBitmapSet_iff.1 h
  obtain ⟨o, e1, g⟩ := rbAddManyBuf_spec hE.ok hb hr hv
  exact ⟨o, e1, isBitmapSet_of g (rbAddMany_spec hr hv).1 fun x => by rw [(rbAddMany_spec hr hv).2, e]; rfl⟩

theorem C115_remove_many {vs : List Nat} (hv : ∀ v ∈ vs, v < 4294967296) :
    ∃ o, rbRemoveManyBuf E b vs = .ok o ∧ IsBitmapSet o (Spec.diff s (Spec.ofList vs)) := by
  obtain ⟨r, hb, hr, e⟩ := isBitmapSet_iff.1 h
  obtain ⟨o, e1, g⟩ := rbRemoveManyBuf_spec hE.ok hb hr hv
  exact ⟨o, e1, isBitmapSet_of g (rbRemoveMany_spec hr hv).1 fun x => by rw [(rbRemoveMany_spec hr hv).2, e, Bool.and_comm]; rfl⟩

/-- All values from `lo` to `hi`, both included. -/
theorem C115_add_range_closed (lo : Nat) {hi : Nat} (hv : hi < 4294967296) :
    ∃ o, rbAddRangeClosedBuf E b lo hi = .ok o ∧ IsBitmapSet o (Spec.union s (Spec.range lo (hi + 1))) := by
  obtain ⟨r, hb, hr, e⟩ := isBitmapSet_iff.1 h
  obtain ⟨o, e1, g⟩ := rbAddRangeClosedBuf_spec hE.ok hb hr (min := lo) hv
  exact ⟨o, e1, isBitmapSet_of g (rbAddRangeClosed_spec hr hv).1 fun x => by
    rw [(rbAddRangeClosed_spec hr hv).2, e, Bool.or_comm, range_eq]; rfl⟩

theorem C115_remove_range_closed (lo hi : Nat) :
    ∃ o, rbRemoveRangeClosedBuf E b lo hi = .ok o ∧ IsBitmapSet o (Spec.diff s (Spec.range lo (hi + 1))) := by
  obtain ⟨r, hb, hr, e⟩ := isBitmapSet_iff.1 h
  obtain ⟨o, e1, g⟩ := rbRemoveRangeClosedBuf_spec hE.ok hb hr lo hi
  exact ⟨o, e1, isBitmapSet_of g (rbRemoveRangeClosed_spec hr lo hi).1 fun x => by
    rw [(rbRemoveRangeClosed_spec hr lo hi).2, e, range_eq]; rfl⟩

theorem C115_flip_closed (lo : Nat) {hi : Nat} (hv : hi < 4294967296) :
    ∃ o, rbFlipClosedBuf E b lo hi = .ok o ∧ IsBitmapSet o (Spec.symm s (Spec.range lo (hi + 1))) := by
  obtain ⟨r, hb, hr, e⟩ := isBitmapSet_iff.1 h
  obtain ⟨o, e1, g⟩ := rbFlipClosedBuf_spec hE.ok hb hr (rs := lo) hv
  exact ⟨o, e1, isBitmapSet_of g (rbFlipClosed_spec hr hv).1 fun x => by
    rw [(rbFlipClosed_spec hr hv).2, e, range_eq, bne_comm]; rfl⟩

theorem C115_flip_inplace_closed (lo : Nat) {hi : Nat} (hv : hi < 4294967296) :
    ∃ o, rbFlipInplaceClosedBuf E b lo hi = .ok o ∧ IsBitmapSet o (Spec.symm s (Spec.range lo (hi + 1))) := by
  obtain ⟨r, hb, hr, e⟩ := isBitmapSet_iff.1 h
  obtain ⟨o, e1, g⟩ := rbFlipInplaceClosedBuf_spec hE.ok hb hr (rs := lo) hv
  exact ⟨o, e1, isBitmapSet_of g (rbFlipInplaceClosed_spec hr hv).1 fun x => by
    rw [(rbFlipInplaceClosed_spec hr hv).2, e, range_eq, bne_comm]; rfl⟩

theorem C115_run_optimize : ∃ o, rbRunOptimizeBuf E b = .ok o ∧ IsBitmapSet o s := by
  obtain ⟨r, hb, hr, e⟩ := isBitmapSet_iff.1 h
  obtain ⟨o, e1, g⟩ := rbRunOptimizeBuf_spec hE.ok hb hr
  exact ⟨o, e1, isBitmapSet_of g (rbRunOptimize_spec hr).1 fun x => by rw [(rbRunOptimize_spec hr).2, e]⟩

theorem C115_remove_run_compression : ∃ o, rbRemoveRunCompressionBuf E b = .ok o ∧ IsBitmapSet o s := by
  obtain ⟨r, hb, hr, e⟩ := isBitmapSet_iff.1 h
  obtain ⟨o, e1, g⟩ := rbRemoveRunCompressionBuf_spec hE.ok hb hr
  exact ⟨o, e1, isBitmapSet_of g (rbRemoveRunCompression_spec hr).1 fun x => by rw [(rbRemoveRunCompression_spec hr).2, e]⟩

/-- After `shrink_to_fit` the block has as many cells as there are containers. -/
theorem C115_shrink_to_fit : ∃ o, rbShrinkBuf E b = .ok o ∧ IsBitmapSet o s ∧ o.mem.length = o.size := by
  obtain ⟨r, hb, hr, e⟩ := isBitmapSet_iff.1 h
  obtain ⟨o, e1, g, hl⟩ := rbShrinkBuf_spec hE.ok hb hr
  exact ⟨o, e1, isBitmapSet_of g hr e, by rw [hl, g.size]⟩

/-- Every value moved by `d`; those that are not 32-bit values then are dropped. -/
theorem C115_add_offset (d : Int) : ∃ o, rbAddOffsetBuf E b d = .ok o ∧ IsBitmapSet o (History.shift s d) := by
  obtain ⟨r, hb, hr, e⟩ := isBitmapSet_iff.1 h
  obtain ⟨r', ⟨o, e1, g⟩, h2, h3⟩ := rbAddOffsetBuf_spec hE.ok hb hr d
  exact ⟨o, e1, isBitmapSet_of g h2 fun x => by rw [h3, bhas_ext e, shifted_eq]⟩

omit hE in
/-- `limit` values from position `offset` of the increasing list of the values are written to the front of the caller's block, filled up
with zeros if the list ends earlier; nothing is written if the list ends before `offset`.  The rest of the block stays. -/
theorem C115_range_array {offset limit : Nat} (ho : offset + limit < 2 ^ 64) (ans : List Nat) (ha : limit ≤ ans.length) :
    rbRangeArrayBuf E b offset limit ans = .ok (if offset < Spec.card 4294967296 s then
      ((Spec.enum 4294967296 s).drop offset ++ List.replicate limit 0).take limit ++ ans.drop limit else ans) := by
  obtain ⟨r, hb, hr, e⟩ := isBitmapSet_iff.1 h
  rw [rbRangeArrayBuf_spec hb hr offset limit ans ha, rbRangeUint32_eq hr ho, vals_eq hr, bhas_ext e, ← Spec.card]
  split
  · rw [over, List.length_take]
    simp
  · simp [over]

omit hE in
/-- Memory that the caller gives may be of any length above the limit; with any offset and limit the call stays inside. -/
theorem C115_range_array_inside (offset limit : Nat) (ans : List Nat) (ha : limit ≤ ans.length) :
    ∃ o, rbRangeArrayBuf E b offset limit ans = .ok o := by
  obtain ⟨r, hb, hr, e⟩ := isBitmapSet_iff.1 h
  exact ⟨_, rbRangeArrayBuf_spec hb hr offset limit ans ha⟩

end

/-- From `lo` in steps up to `hi`, with the condition of `C36_from_range_partial`. -/
theorem C115_from_range {E : RbEnv} (hE : Allocates E) {lo hi step : Nat} (hs : 0 < step) (hmm : lo < hi) (hlo : lo < 4294967296)
    (hw : step < 65536 ∨ ∀ x, lo ≤ x → x < hi → x < 4294967296 → (x - lo) % step = 0 → x + step < 4294967296) :
    ∃ o, rbFromRangeBuf E lo hi step = .ok (some o) ∧
      IsBitmapSet o (fun x => decide (lo ≤ x ∧ x < hi ∧ x < 4294967296 ∧ (x - lo) % step = 0)) := by
  have hlt : ∀ x, x < Nat.min hi 4294967296 ↔ x < hi ∧ x < 4294967296 := fun x => Nat.lt_min
  obtain ⟨r, h1, h2, h3⟩ := rbFromRange_spec (fuel := 65537) (min := lo) (max := hi) (Nat.le_refl _) hs ((hlt _).2 ⟨hmm, hlo⟩)
    (hw.imp id fun hw x a b c => hw x a ((hlt x).1 b).1 ((hlt x).1 b).2 c)
  obtain ⟨o, e, g⟩ := rbFromRangeBuf_spec hE.ok h1
  refine ⟨o, e, isBitmapSet_of g h2 fun x => ?_⟩
  rw [h3]
  exact decide_eq_decide.2 (by rw [hlt, and_assoc])

/-! Many bitmaps at once. -/

section
variable {E : RbEnv} (hE : Allocates E) {xs : List RaBuf} {l : List NSet} (h : List.Forall₂ IsBitmapSet xs l)
include hE h

theorem C115_or_many : ∃ o, rbOrManyBuf E xs = .ok o ∧ IsBitmapSet o (History.unionAll l) := by
  obtain ⟨o, e, g⟩ := rbOrManyBuf_spec hE.ok (h.imp fun _ _ h => (mset_iff.2 h).eager)
  exact ⟨o, e, mset_iff.1 (unionL_eq l ▸ g.mset)⟩

theorem C115_or_many_heap : ∃ o, rbOrManyHeapBuf E xs = .ok o ∧ IsBitmapSet o (History.unionAll l) := by
  obtain ⟨o, e, g⟩ := rbOrManyHeapBuf_spec hE.ok (h.imp fun _ _ h => (mset_iff.2 h).eager)
  exact ⟨o, e, mset_iff.1 (unionL_eq l ▸ g.mset)⟩

theorem C115_xor_many : ∃ o, rbXorManyBuf E xs = .ok o ∧ IsBitmapSet o (History.symmAll l) := by
  obtain ⟨o, e, g⟩ := rbXorManyBuf_spec hE.ok (h.imp fun _ _ h => (mset_iff.2 h).eager)
  exact ⟨o, e, mset_iff.1 (symmL_eq l ▸ g.mset)⟩

end

/-! ### The hypotheses are met -/

/-- Memory full of sevens. -/
def sevens : RbEnv where
  m := ⟨⟨true, false⟩, fun n => List.replicate n 7, fun n => List.replicate n (7, 7)⟩
  cells := fun n => List.replicate n (7, .array ⟨7, []⟩)

example : Allocates sevens := ⟨fun n => by simp [sevens], fun n => by simp [sevens], fun n => by simp [sevens]⟩

/-- Two bitmaps, {5, 70000} and {70000, 200000}; then their union and the symmetric difference in place, ranges, flips,
shifts and operations on many of them. -/
def someCalls : List (Op × RbEnv) :=
  [.create, .create, .add 0 70000, .add 0 5, .add 1 200000, .add 1 70000, .or 0 1, .xorInplace 0 1, .remove 1 200000, .addRange 0 3 100000, .flip 0 5 70000,
    .addOffset 2 65530, .orManyHeap [0, 1, 2, 3], .xorMany [0, 2], .runOptimize 0, .removeMany 0 [4, 70000], .rangeArray 0 3 10, .free 1].map (·, sevens)

example : (History.run false [] (someCalls.map (·.1))).isSome = true := by decide

/-- A bitmap in a block of three cells, the last of which is not in use, is well formed: {5, 65536, 65537, 65538}. -/
def twoCells : RaBuf := ⟨2, [(0, .array ⟨1, [5, 99]⟩), (1, .run ⟨1, [(0, 2), (9, 9), (1, 0)]⟩), (77, .array ⟨4, []⟩)]⟩

example : IsBitmapSet twoCells (Spec.ofList [5, 65536, 65537, 65538]) := by
  refine isBitmapSet_of (r := [(0, .array [5]), (1, .run [(0, 2)])]) ⟨rfl, by decide, ?_⟩ ?_ ?_
  · refine cellsAt_cons.2 ⟨⟨_, rfl, ⟨[99], rfl⟩⟩, cellsAt_cons.2 ⟨⟨_, rfl, ⟨[(9, 9), (1, 0)], rfl⟩⟩, cellsAt_nil _ _⟩⟩
  · refine ⟨by decide, ⟨⟨⟨by simp, by simp⟩, by simp⟩, 5, by decide⟩, by simp, by decide, ⟨⟨by simp, by simp⟩, 0, by decide⟩, by simp, trivial⟩
  · intro x
    simp only [bhas, List.any_cons, List.any_nil, chas, runHas, Spec.ofList, List.mem_cons, List.not_mem_nil, or_false, Bool.or_false]
    rw [Bool.eq_iff_iff]
    simp only [Bool.or_eq_true, Bool.and_eq_true, beq_iff_eq, decide_eq_true_eq]
    omega

end CRoaring.Props
