import Verif.Lemmas.BitmapMemBulk
import Verif.Props.C35
import Verif.Props.C116
/-!
C133: calls that share a bulk context, and the statistics of a bitmap, on the memory of the bitmap.  Any sequence of `add_bulk` and
`contains_bulk` through one context stays inside the blocks of the bitmap, adds the values and answers from them, whatever blocks the
allocator gives out; the statistics tell the size, the extreme values and the number of containers of the set.
-/
namespace CRoaring.Props
open CRoaring.Spec (IsBitmapSet SlotIs Allocates)

/-- The calls on one context, in sequence, with the answers of the `contains` calls; each call has its own memory to allocate from. -/
def runBulkBuf : RaBuf → BulkCtx → List (BulkOp × RbEnv) → Out (RaBuf × List Bool)
  | b, _, [] => .ok (b, [])
  | b, ctx, (.add v, E) :: ops => do
    let p ← rbAddBulkBuf E b ctx v
    runBulkBuf p.1 p.2 ops
  | b, ctx, (.contains v, _) :: ops => do
    let p ← rbContainsBulkBuf b ctx v
    let q ← runBulkBuf b p.2 ops
    .ok (q.1, p.1 :: q.2)

/-- What the calls mean for the set of values. -/
def runSet : NSet → List BulkOp → NSet × List Bool
  | s, [] => (s, [])
  | s, .add v :: ops => runSet (Spec.insert s v) ops
  | s, .contains v :: ops => ((runSet s ops).1, s v :: (runSet s ops).2)

/-- Any sequence of `roaring_bitmap_add_bulk` and `roaring_bitmap_contains_bulk` on one context, zeroed at first. -/
theorem C133_bulk_context {b : RaBuf} {s : NSet} (h : IsBitmapSet b s) (ops : List (BulkOp × RbEnv)) (hE : ∀ c ∈ ops, Allocates c.2)
    (hv : ∀ v, .add v ∈ ops.map (·.1) → v < 4294967296) :
    ∃ b', runBulkBuf b none ops = .ok (b', (runSet s (ops.map (·.1))).2) ∧ IsBitmapSet b' (runSet s (ops.map (·.1))).1 := by
  obtain ⟨r, hb, hr, e⟩ := isBitmapSet_iff.1 h
  have key : ∀ (ops : List (BulkOp × RbEnv)) (b : RaBuf) (s : NSet) (r : Bitmap) (ctx : BulkCtx), RHolds b r → BInv r → (∀ x, bhas r x = s x) →
      CtxOK r ctx → (∀ c ∈ ops, Allocates c.2) → (∀ v, .add v ∈ ops.map (·.1) → v < 4294967296) →
      ∃ b', runBulkBuf b ctx ops = .ok (b', (runSet s (ops.map (·.1))).2) ∧ IsBitmapSet b' (runSet s (ops.map (·.1))).1 := by
    intro ops
    induction ops with
    | nil => intro b s r ctx hb hr e hc _ _; exact ⟨b, rfl, isBitmapSet_of hb hr e⟩
    | cons op ops ih =>
      intro b s r ctx hb hr e hc hE hv
      obtain ⟨op, E⟩ := op
      have hE' : ∀ c ∈ ops, Allocates c.2 := fun c hc => hE c (List.mem_cons_of_mem _ hc)
      have hv' : ∀ v, .add v ∈ ops.map (·.1) → v < 4294967296 := fun v h => hv v (by rw [List.map_cons]; exact List.mem_cons_of_mem _ h)
      cases op with
      | add v =>
        have hlt := hv v (by simp)
        obtain ⟨b', e1, h1⟩ := rbAddBulkBuf_spec (hE _ (List.mem_cons_self ..)).ok hb hr hc hlt
        have h2 := rbAddBulk_spec hr hc v
        have h3 := rbAdd_spec hr hlt
        rw [h2.1] at h1
        rw [runBulkBuf, e1, ok_bind]
        exact ih b' (Spec.insert s v) _ _ h1 h3.1 (fun x => by rw [h3.2, funext e]) (h2.1 ▸ h2.2) hE' hv'
      | contains v =>
        have h2 := rbContainsBulk_spec hr hc v
        obtain ⟨b', e1, h1⟩ := ih b s r _ hb hr e h2.2 hE' hv'
        refine ⟨b', ?_, h1⟩
        rw [runBulkBuf, rbContainsBulkBuf_spec hb hr hc v, ok_bind, e1, ok_bind, h2.1, rbContains_eq hr, e]
        rfl
  exact key ops b s r none hb hr e (CtxOK.none r) hE hv

/-- `roaring_bitmap_statistics`.  There is one container for every number that is the upper half of a value; each has one of the three
kinds.  The values in array containers are two bytes each; the other byte counters and the wrapping counters of values are in C42. -/
theorem C133_statistics {b : RaBuf} {s : NSet} (h : IsBitmapSet b s) :
    ∃ st, rbStatisticsBuf b = .ok st ∧ st.cardinality = Spec.card 4294967296 s ∧
      (((∀ v, s v = false) ∧ st.min_value = 4294967295 ∧ st.max_value = 0) ∨
        (s st.min_value = true ∧ s st.max_value = true ∧ ∀ v, s v = true → st.min_value ≤ v ∧ v ≤ st.max_value)) ∧
      (∃ ks : List Nat, ks.Nodup ∧ (∀ k, k ∈ ks ↔ ∃ v, s v = true ∧ v / 65536 = k) ∧ st.n_containers = ks.length) ∧
      st.n_array_containers + st.n_run_containers + st.n_bitset_containers = st.n_containers ∧
      (st.n_values_array_containers + st.n_values_run_containers + st.n_values_bitset_containers) % 4294967296 = st.cardinality % 4294967296 ∧
      st.n_bytes_array_containers = 2 * st.n_values_array_containers ∧ st.n_bytes_bitset_containers = 8192 * st.n_bitset_containers := by
  obtain ⟨r, hb, hr, e⟩ := isBitmapSet_iff.1 h
  obtain ⟨i1, i2, i3, i4, i5, i6, i7, i8, i9, i10, i11, i12⟩ := rbStatistics_spec hr
  have hp := part_split r
  refine ⟨_, rbStatisticsBuf_spec hb, ?_, ?_, ⟨keysOf r, ?_, ?_, ?_⟩, ?_, ?_, ?_, ?_⟩
  · rw [i4, ← card_bhas hr, bhas_ext e]
  · rw [i2, i3]
    by_cases hn : r = []
    · subst hn
      exact Or.inl ⟨fun v => (e v).symm, rfl, rfl⟩
    · have h1 := (rbMinimum_spec hr).2 hn
      have h2 := (rbMaximum_spec hr).2 hn
      rw [funext e] at h1 h2
      exact Or.inr ⟨h1.1, h2.1, fun v hv => ⟨h1.2 v hv, h2.2 v hv⟩⟩
  · exact hr.sorted.imp fun h => by omega
  · intro k
    simp only [keysOf, List.mem_map]
    constructor
    · rintro ⟨p, hp, rfl⟩
      obtain ⟨y, hy⟩ := (hr.all p hp).2
      have hlt := (hr.all p hp).1.rep.lt hy
      exact ⟨p.1 * 65536 + y, by rw [← e, bhas_mem hr hp hlt]; exact hy, by omega⟩
    · rintro ⟨v, hv, rfl⟩
      rw [← e] at hv
      obtain ⟨p, hp, e, _⟩ := bhas_key hv
      exact ⟨p, hp, e⟩
  · rw [i1]; simp [keysOf]
  · rw [i1, i5, i6, i7]; omega
  · rw [i4, i8, i9, i10]; omega
  · rw [i11, i8]
  · rw [i12, i7]

/-! ### The hypotheses are met

`twoCells`, in Props/C115, is the bitmap {5, 65536, 65537, 65538} in a block with a cell that is not in use; `sevens` gives out blocks that
are full of sevens. -/

/-- Questions before and after additions, with a context that points before, at and after the container of the next value. -/
example : (runBulkBuf twoCells none ([.contains 65537, .contains 65539, .contains 5, .add 200000, .contains 6, .contains 200000, .add 6, .contains 6,
    .add 65539, .contains 65539, .contains 140000].map (·, sevens)) >>= fun p => .ok p.2) = .ok [true, false, true, false, true, true, true, false] := by
  decide +kernel

example : ∃ st, rbStatisticsBuf twoCells = .ok st ∧ st.cardinality = 4 ∧ st.n_containers = 2 ∧ st.n_run_containers = 1 ∧
    st.min_value = 5 ∧ st.max_value = 65538 := ⟨_, rfl, by decide, by decide, by decide, by decide, by decide⟩

end CRoaring.Props
