import Verif.Props.C67
import Verif.Props.C35
/-
C70 - C74: 64-bit bitmaps: bulk operations, construction, run optimisation, statistics.
-/
namespace CRoaring.Props
open CRoaring

/-! ### Bulk operations -/

/-- C70: `add_many` inserts exactly the given values. -/
theorem C70_add_many {r : R64} (h : Valid64 r) {vals : List Nat} (hv : ∀ v ∈ vals, v < 2 ^ 64) :
    ∃ r', r64AddMany r vals = some r' ∧ Valid64 r' ∧
      ∀ y, y < 2 ^ 64 → (r64Contains r' y = true ↔ y ∈ vals ∨ r64Contains r y = true) := by
  obtain ⟨r', h1, h2⟩ := r64AddMany_spec h.rep (vals := vals) hv
  obtain ⟨h3, h4⟩ := fin64 h2
  refine ⟨r', h1, h3, fun y hy => ?_⟩
  rw [h4 y hy]
  simp only [Spec.union, Spec.ofList, has64_of hy, Bool.or_eq_true]
  simp [or_comm]

/-- C70: `of_ptr` builds the set of the given values. -/
theorem C70_of_ptr {vals : List Nat} (hv : ∀ v ∈ vals, v < 2 ^ 64) :
    ∃ r', r64OfPtr vals = some r' ∧ Valid64 r' ∧ ∀ y, y < 2 ^ 64 → (r64Contains r' y = true ↔ y ∈ vals) := by
  obtain ⟨r', h1, h2, h3⟩ := C70_add_many C53_create.1 hv
  refine ⟨r', h1, h2, fun y hy => ?_⟩
  rw [h3 y hy, C53_create.2 y hy]
  simp

/-- The bulk calls on one context, in sequence; the answers of the `contains` calls are collected.  No result stands for
undefined behaviour. -/
def runBulk64 : R64 → BulkCtx64 → List BulkOp → Option (R64 × List Bool)
  | r, _, [] => some (r, [])
  | r, ctx, .add v :: ops =>
    match r64AddBulk r ctx v with
    | none => none
    | some p => runBulk64 p.1 p.2 ops
  | r, ctx, .contains v :: ops =>
    match r64ContainsBulk r ctx v with
    | none => none
    | some p => (runBulk64 r p.2 ops).map fun q => (q.1, p.1 :: q.2)

/-- The same calls without a context. -/
def runPlain64 : R64 → List BulkOp → R64 × List Bool
  | r, [] => (r, [])
  | r, .add v :: ops => runPlain64 (r64Add r v) ops
  | r, .contains v :: ops => let q := runPlain64 r ops; (q.1, r64Contains r v :: q.2)

/-- C70: any sequence of `add_bulk` and `contains_bulk` calls on one (initially zeroed) context is defined and has
exactly the effect and the answers of the corresponding `add` and `contains` calls. -/
theorem C70_bulk_context {r : R64} (h : Valid64 r) (ops : List BulkOp) (hv : ∀ v, .add v ∈ ops → v < 2 ^ 64) :
    runBulk64 r none ops = some (runPlain64 r ops) := by
  have key : ∀ (ops : List BulkOp) (r : R64) (s : NSet) (ctx : BulkCtx64), Rep64 r s → CtxOk64 r ctx →
      (∀ v, .add v ∈ ops → v < TOP64) → runBulk64 r ctx ops = some (runPlain64 r ops) := by
    intro ops
    induction ops with
    | nil => intro r s ctx _ _ _; rfl
    | cons op ops ih =>
      intro r s ctx h hc hv
      cases op with
      | add v =>
        have hv' := hv v (by simp)
        simp only [runBulk64, runPlain64]
        rw [r64AddBulk_spec h hc hv']
        exact ih _ _ _ (r64Add_spec h hv') (add64_ctx h hv') fun w hw => hv w (by simp [hw])
      | contains v =>
        obtain ⟨ctx', h1, h2⟩ := r64ContainsBulk_spec hc v
        simp only [runBulk64, runPlain64]
        rw [h1]
        simp only
        rw [ih _ _ _ h h2 fun w hw => hv w (by simp [hw])]
        rfl
  exact key ops r _ none h.rep (ctx64_none r) hv

example : Valid64 exS64 ∧ ∀ v ∈ [5, 131090, 18446744073709551615], v < 2 ^ 64 := ⟨exS64_valid, by decide⟩
example : (runBulk64 exS64 none [.contains 131080, .add 7, .contains 5, .contains 8, .add 131072]).map (·.2) =
    some [true, true, false] := by decide +kernel

/-- C71: `remove_many` removes exactly the given values, unless it removes the last value of a block of 2^16 values
directly before another value of the same block (present or not), which is undefined behaviour.  Missing: such lists, on
which the function dereferences a null pointer (`C71_remove_many_false`). -/
theorem C71_remove_many_partial {r : R64} (h : Valid64 r) {vals : List Nat} (hv : ∀ v ∈ vals, v < 2 ^ 64) :
    (∀ r', r64RemoveMany r vals = some r' → Valid64 r' ∧
      ∀ y, y < 2 ^ 64 → (r64Contains r' y = true ↔ y ∉ vals ∧ r64Contains r y = true)) ∧
    (r64RemoveMany r vals = none ↔ ∃ A v w B, vals = A ++ v :: w :: B ∧ w / 65536 = v / 65536 ∧
      (r64Contains r v = true ∧ v ∉ A) ∧
      ∀ y, y < 2 ^ 64 → y / 65536 = v / 65536 → r64Contains r y = true → y ∉ A → y = v) := by
  obtain ⟨h1, h2⟩ := r64RemoveMany_spec h.rep (vals := vals) hv
  constructor
  · intro r' e
    obtain ⟨h3, h4⟩ := fin64 (h1 r' e)
    refine ⟨h3, fun y hy => ?_⟩
    rw [h4 y hy]
    simp only [without, has64_of hy, Bool.and_eq_true, Bool.not_eq_true', decide_eq_false_iff_not]
    rw [and_comm]
  · rw [h2]
    constructor
    · rintro ⟨A, v, w, B, e, hw, ho⟩
      have hvv : v < 2 ^ 64 := hv v (by rw [e]; simp)
      refine ⟨A, v, w, B, e, hw, ?_, fun y hy hyv hyc hyA => ho.2 y hyv ?_⟩
      · have := ho.1
        simpa only [without, has64_of hvv, Bool.and_eq_true, Bool.not_eq_true', decide_eq_false_iff_not] using this
      · simpa only [without, has64_of hy, Bool.and_eq_true, Bool.not_eq_true', decide_eq_false_iff_not] using ⟨hyc, hyA⟩
    · rintro ⟨A, v, w, B, e, hw, ho, ho'⟩
      have hvv : v < 2 ^ 64 := hv v (by rw [e]; simp)
      refine ⟨A, v, w, B, e, hw, ?_, fun y hyv hyc => ?_⟩
      · simpa only [without, has64_of hvv, Bool.and_eq_true, Bool.not_eq_true', decide_eq_false_iff_not] using ho
      · simp only [without, Bool.and_eq_true, Bool.not_eq_true', decide_eq_false_iff_not] at hyc
        exact ho' y (has64_lt hyc.1).1 hyv (has64_lt hyc.1).2 hyc.2

/-- `remove_many` of the list 5, 5 from the bitmap {5}, and of the list 5, 6, dereferences a null pointer. -/
theorem C71_remove_many_false : ∃ r, Valid64 r ∧ r64RemoveMany r [5, 5] = none ∧ r64RemoveMany r [5, 6] = none := by
  refine ⟨r64Add r64Create 5, ?_, by decide +kernel, by decide +kernel⟩
  exact (C53_add C53_create.1 (by omega)).1

example : (r64RemoveMany exS64 [5, 131080, 65535, 5]).map r64Cardinality = some 65550 := by decide +kernel

/-! ### Construction -/

/-- C72: `from_range(lo, hi, step)` is the set of the values `lo + i * step` below `hi`; `NULL` if the step is 0 or the
range is empty. -/
theorem C72_from_range {lo hi step : Nat} (hhi : hi < 2 ^ 64) (hs : step < 2 ^ 64) :
    (step = 0 ∨ hi ≤ lo → r64FromRange lo hi step = none) ∧
    (0 < step → lo < hi → ∃ r, r64FromRange lo hi step = some r ∧ Valid64 r ∧
      ∀ y, y < 2 ^ 64 → (r64Contains r y = true ↔ (∃ i, y = lo + i * step) ∧ y < hi)) := by
  constructor
  · intro hh
    unfold r64FromRange
    rw [if_pos hh]
  · intro h0 hlt
    obtain ⟨r, h1, h2⟩ := r64FromRange_spec (min := lo) (max := hi) hhi h0 hs hlt
    obtain ⟨h3, h4⟩ := fin64 h2
    refine ⟨r, h1, h3, fun y hy => ?_⟩
    rw [h4 y hy, decide_eq_true_eq]
    constructor
    · rintro ⟨a, b, c⟩
      refine ⟨⟨(y - lo) / step, ?_⟩, b⟩
      have := Nat.div_add_mod (y - lo) step
      rw [Nat.mul_comm] at this
      omega
    · rintro ⟨⟨i, rfl⟩, b⟩
      refine ⟨Nat.le_add_right _ _, b, ?_⟩
      rw [Nat.add_sub_cancel_left, Nat.mul_mod_left]

example : (r64FromRange 65530 196608 20000).map (r64ToUint64 · ⟨artInitIterator r64Create true, 0, 0, 0, false, false⟩) =
    some [65530, 85530, 105530, 125530, 145530, 165530, 185530] := by decide +kernel

/-- C73: `move_from_roaring32` makes the same set and empties its argument. -/
theorem C73_move_from_roaring32 {b : Bitmap} (h : Valid b) :
    Valid64 (r64MoveFrom32 b).1 ∧ (∀ y, y < 2 ^ 64 → r64Contains (r64MoveFrom32 b).1 y = rbContains b y) ∧
    Valid (r64MoveFrom32 b).2 ∧ rbIsEmpty (r64MoveFrom32 b).2 = true := by
  obtain ⟨h1, h2⟩ := fin64 (r64MoveFrom32_spec h.inv)
  exact ⟨h1, fun y hy => by rw [h2 y hy, rbContains_eq h.inv], (show BInv [] from trivial).valid, rfl⟩

example : Valid exB := exB_valid

/-! ### Run optimisation and statistics -/

/-- `l` lists the containers of the bitmap in the order of their keys: the container with the key `k` holds the values `y`
with `y / 2^16 = k`. -/
def Containers64 (r : R64) (l : List (Nat × Container)) : Prop :=
  l.Pairwise (fun p q => p.1 < q.1) ∧
  ∀ k c, (k, c) ∈ l ↔ k < 2 ^ 48 ∧ artFind r (splitKey (k * 65536)).1 = some c

theorem containers64_of {r : R64} {l : List (Nat × Container)} (h : RL r l) : Containers64 r l := by
  refine ⟨h.ks, fun k c => ?_⟩
  have hk : ∀ {k}, k < 2 ^ 48 → keyNum (splitKey (k * 65536)).1 = k := by
    intro k hk
    rw [keyNum_split (by unfold TOP64; omega)]
    omega
  constructor
  · intro hm
    obtain ⟨kk, h1, h2⟩ := (h.mem k c).1 hm
    have hlt := keyNum_lt_top (h.ok.key h1)
    have hlt : k < 2 ^ 48 := by omega
    refine ⟨hlt, (h.find (splitKey_isKey _) c).2 ?_⟩
    rw [hk hlt]
    exact hm
  · rintro ⟨h1, h2⟩
    have := (h.find (splitKey_isKey _) c).1 h2
    rwa [hk h1] at this

theorem containers64_unique {r : R64} {l m : List (Nat × Container)} (h : Containers64 r l) (h' : Containers64 r m) : l = m :=
  KS.ext h.1 h'.1 fun n v => by rw [h.2, h'.2]

/-- C74: `run_optimize` keeps the set and answers whether a run container is present afterwards. -/
theorem C74_run_optimize {r : R64} (h : Valid64 r) :
    Valid64 (r64RunOptimize r).1 ∧ (∀ y, y < 2 ^ 64 → r64Contains (r64RunOptimize r).1 y = r64Contains r y) ∧
    ((r64RunOptimize r).2 = true ↔
      ∃ l, Containers64 (r64RunOptimize r).1 l ∧ ∃ k rs, (k, Container.run rs) ∈ l) := by
  obtain ⟨h1, h2⟩ := r64RunOptimize_spec h.rep
  obtain ⟨h3, h4⟩ := fin64 h1
  refine ⟨h3, fun y hy => by rw [h4 y hy, has64_of hy], ?_⟩
  obtain ⟨l, hl, -⟩ := h1
  have hc := containers64_of hl.rl
  rw [h2]
  constructor
  · rintro ⟨k, rs, hk⟩
    exact ⟨l, hc, keyNum k, rs, (hl.rl.mem _ _).2 ⟨k, hk, rfl⟩⟩
  · rintro ⟨m, hm', k, rs, hm⟩
    rw [← containers64_unique hc hm'] at hm
    obtain ⟨kk, h5, -⟩ := (hl.rl.mem _ _).1 hm
    exact ⟨kk, rs, h5⟩

/-- The containers of one kind. -/
def kind64 (q : Container → Bool) (l : List (Nat × Container)) : List Container := (l.map (·.2)).filter q

theorem kind64_part (q : Container → Bool) (l : Bitmap) : kind64 q l = (part q l).map (·.2) := by
  induction l with
  | nil => rfl
  | cons p t ih =>
    obtain ⟨k, c⟩ := p
    rw [part_cons]
    simp only [kind64, List.map_cons, List.filter_cons] at ih ⊢
    split <;> simp [ih]

theorem kind64_card (q : Container → Bool) {l : Bitmap} (h : ∀ p ∈ l, CNe p.2) :
    ((kind64 q l).map fun c => (containerCard c).toNat).sum = bcard (part q l) := by
  rw [kind64_part]
  induction l with
  | nil => rfl
  | cons p t ih =>
    obtain ⟨k, c⟩ := p
    have := ih fun p hp => h p (by simp [hp])
    rw [part_cons]
    split
    · simp only [List.map_cons, List.sum_cons, bcard]
      rw [this, containerCard_eq (h (k, c) (by simp)).1.rep, Int.toNat_natCast]
    · exact this

theorem kind64_array {l : Bitmap} (h : ∀ p ∈ l, CNe p.2) :
    ((kind64 isArray l).map containerSizeInBytes).sum = 2 * bcard (part isArray l) := by
  rw [← kind64_card isArray h, kind64_part]
  clear h
  induction l with
  | nil => rfl
  | cons p t ih =>
    obtain ⟨k, c⟩ := p
    rw [part_cons]
    split
    · rename_i hc
      cases c with
      | array a =>
        simp only [List.map_cons, List.sum_cons, ih]
        show a.length * 2 + _ = 2 * (a.length + _)
        omega
      | run rs => cases hc
      | bitset b => cases hc
    · exact ih

theorem kind64_bitset (l : Bitmap) : ((kind64 isBitset l).map containerSizeInBytes).sum = 8192 * (part isBitset l).length := by
  rw [kind64_part]
  induction l with
  | nil => rfl
  | cons p t ih =>
    obtain ⟨k, c⟩ := p
    rw [part_cons]
    split
    · rename_i hc
      cases c with
      | bitset b =>
        simp only [List.map_cons, List.sum_cons, ih, List.length_cons]
        show 8192 + _ = _
        omega
      | run rs => cases hc
      | array b => cases hc
    · exact ih

theorem kind64_run (l : Bitmap) : ((kind64 isRun l).map containerSizeInBytes).sum = runBytes l := by
  rw [kind64_part]
  induction l with
  | nil => rfl
  | cons p t ih =>
    obtain ⟨k, c⟩ := p
    rw [part_cons]
    cases c with
    | bitset b => exact ih
    | array b => exact ih
    | run rs =>
      rw [if_pos (by rfl)]
      simp only [List.map_cons, List.sum_cons, ih, runBytes]
      rfl

/-- C74: the statistics: the cardinality, the extrema, and for each kind of container the number of such containers, of the
values in them and of their bytes (the counters are 64-bit numbers). -/
theorem C74_statistics {r : R64} (h : Valid64 r) : ∃ l, Containers64 r l ∧
    (r64Statistics r).cardinality = r64Cardinality r ∧
    (r64Statistics r).min_value = r64Minimum r ∧ (r64Statistics r).max_value = r64Maximum r ∧
    (r64Statistics r).n_containers = l.length ∧
    (r64Statistics r).n_array_containers = (kind64 isArray l).length ∧
    (r64Statistics r).n_run_containers = (kind64 isRun l).length ∧
    (r64Statistics r).n_bitset_containers = (kind64 isBitset l).length ∧
    (r64Statistics r).n_values_array_containers = ((kind64 isArray l).map fun c => (containerCard c).toNat).sum ∧
    (r64Statistics r).n_values_run_containers = ((kind64 isRun l).map fun c => (containerCard c).toNat).sum % 2 ^ 64 ∧
    (r64Statistics r).n_values_bitset_containers = ((kind64 isBitset l).map fun c => (containerCard c).toNat).sum % 2 ^ 64 ∧
    (r64Statistics r).n_bytes_array_containers = ((kind64 isArray l).map containerSizeInBytes).sum ∧
    (r64Statistics r).n_bytes_run_containers = ((kind64 isRun l).map containerSizeInBytes).sum % 2 ^ 64 ∧
    (r64Statistics r).n_bytes_bitset_containers = ((kind64 isBitset l).map containerSizeInBytes).sum := by
  obtain ⟨l, hl, -⟩ := h.rep
  refine ⟨l, containers64_of hl.rl, ?_⟩
  obtain ⟨i1, i2, i3, i4, i5, i6, i7, i8, i9, i10, i11, i12, i13⟩ := r64Statistics_spec hl
  rw [kind64_card _ hl.ne, kind64_card _ hl.ne, kind64_card _ hl.ne, kind64_array hl.ne, kind64_bitset, kind64_run,
    kind64_part, kind64_part, kind64_part, List.length_map, List.length_map, List.length_map]
  exact ⟨i4, i2, i3, i1, i5, i6, i7, i8, i9, i10, i11, i13, i12⟩

example : Valid64 exS64 := exS64_valid

end CRoaring.Props
