import Verif.Props.Common
import Verif.Lemmas.Iter2
/-
C25, C26, C40: iterators, bulk reads, and the test for a value in a range.
-/
set_option linter.constructorNameAsVariable false
namespace CRoaring.Props
open CRoaring

/-- The calls on an iterator. -/
inductive IterOp where
  | advance
  | previous
  | moveEqualOrLarger (v : Nat)
  | read (n : Nat)

/-- What a caller sees of a call: the values read, `has_value` and `current_value`. -/
abbrev IterObs := List Nat × Bool × Nat

/-! ### The specification: a cursor on a list

A cursor on a list of `n` values is a number: 0 is before the first value, `i` with `1 ≤ i ≤ n` is on the `i`-th value,
and `n + 1` is behind the last value. -/

/-- What `has_value` and `current_value` show; off the list the value is `UINT32_MAX`. -/
def cursorSees (l : List Nat) (i : Nat) : Bool × Nat :=
  match (if 1 ≤ i then l[i - 1]? else none) with
  | some v => (true, v)
  | none => (false, 4294967295)

/-- One call: the values read and the new position. -/
def cursorStep (l : List Nat) (i : Nat) : IterOp → List Nat × Nat
  | .advance => ([], min (i + 1) (l.length + 1))
  | .previous => ([], i - 1)
  | .moveEqualOrLarger v => ([], (l.filter (fun x => decide (x < v))).length + 1)
  | .read n => if 1 ≤ i then ((l.drop (i - 1)).take n, min (i + n) (l.length + 1)) else ([], i)

/-- A sequence of calls. -/
def cursorRun (l : List Nat) : Nat → List IterOp → List IterObs
  | _, [] => []
  | i, op :: ops =>
    let p := cursorStep l i op
    (p.1, cursorSees l p.2) :: cursorRun l p.2 ops

/-! ### The calls of the library -/

def iterStep (r : Bitmap) (it : Iter) : IterOp → List Nat × Iter
  | .advance => ([], iterAdvance r it)
  | .previous => ([], iterPrevious r it)
  | .moveEqualOrLarger v => ([], iterMove r it v)
  | .read n => iterRead r it n

def iterRun (r : Bitmap) : Iter → List IterOp → List IterObs
  | _, [] => []
  | it, op :: ops =>
    let p := iterStep r it op
    (p.1, p.2.hasValue, p.2.currentValue) :: iterRun r p.2 ops

/-- The arguments are 32-bit. -/
def IterOp.ok : IterOp → Prop
  | .moveEqualOrLarger v => v < 4294967296
  | _ => True

theorem rel_sees {r : Bitmap} (h : BInv r) {it : Iter} {i : Nat} (hr : RelI r it i) :
    (it.hasValue, it.currentValue) = cursorSees (Spec.enum 4294967296 (bhas r)) i := rel_seen h hr

theorem filter_lt_enum {v n : Nat} (hv : v ≤ n) (s : NSet) :
    (Spec.enum n s).filter (fun x => decide (x < v)) = Spec.enum v s := by
  apply sorted_ext ((enum_sorted _ _).filter _) (enum_sorted _ _)
  intro x
  rw [List.mem_filter, mem_enum, mem_enum, decide_eq_true_eq]
  exact ⟨fun h => ⟨h.2, h.1.2⟩, fun h => ⟨⟨by omega, h.2⟩, h.1⟩⟩

theorem rel_step {r : Bitmap} (h : BInv r) {it : Iter} {i : Nat} (hr : RelI r it i) {op : IterOp} (hop : op.ok) :
    (iterStep r it op).1 = (cursorStep (Spec.enum 4294967296 (bhas r)) i op).1 ∧
    RelI r (iterStep r it op).2 (cursorStep (Spec.enum 4294967296 (bhas r)) i op).2 := by
  cases op with
  | advance => exact ⟨rfl, rel_advance h hr⟩
  | previous => exact ⟨rfl, rel_previous h hr⟩
  | moveEqualOrLarger v =>
    refine ⟨rfl, ?_⟩
    simp only [iterStep, cursorStep]
    rw [filter_lt_enum (Nat.le_of_lt hop)]
    exact rel_move h it hop
  | read n =>
    obtain ⟨h1, h2⟩ := rel_read h hr n
    simp only [iterStep, cursorStep]
    split
    · rename_i hi
      rw [if_pos hi] at h1 h2
      exact ⟨h1, h2⟩
    · rename_i hi
      rw [if_neg hi] at h1 h2
      exact ⟨h1, h2⟩

theorem rel_run {r : Bitmap} (h : BInv r) (ops : List IterOp) : ∀ {it : Iter} {i : Nat}, RelI r it i →
    (∀ op ∈ ops, op.ok) → iterRun r it ops = cursorRun (Spec.enum 4294967296 (bhas r)) i ops := by
  induction ops with
  | nil => intros; rfl
  | cons op ops ih =>
    intro it i hr ho
    obtain ⟨h1, h2⟩ := rel_step h hr (ho op (by simp))
    rw [iterRun, cursorRun, ih h2 (fun o h => ho o (by simp [h])), h1, ← rel_sees h h2]

theorem enum_contains {r : Bitmap} (h : BInv r) (n : Nat) : Spec.enum n (rbContains r) = Spec.enum n (bhas r) :=
  congrArg (Spec.enum n) (funext fun v => rbContains_eq h v)

/-- **C25.** Any sequence of calls on an iterator behaves like a cursor on the increasing list of the values: an iterator
made by `roaring_iterator_init` starts on the first value (behind the end if there is none), one made by
`roaring_iterator_init_last` on the last (before the start if there is none).  `junk` is the memory the iterator is
made in. -/
theorem C25_iterator (r : Bitmap) (h : Valid r) (junk : Iter) (ops : List IterOp) (hops : ∀ op ∈ ops, op.ok) :
    ((iterInit r junk).hasValue, (iterInit r junk).currentValue) =
        cursorSees (Spec.enum 4294967296 (rbContains r)) 1 ∧
    iterRun r (iterInit r junk) ops = cursorRun (Spec.enum 4294967296 (rbContains r)) 1 ops ∧
    ((iterInitLast r junk).hasValue, (iterInitLast r junk).currentValue) =
        cursorSees (Spec.enum 4294967296 (rbContains r)) (Spec.enum 4294967296 (rbContains r)).length ∧
    iterRun r (iterInitLast r junk) ops =
        cursorRun (Spec.enum 4294967296 (rbContains r)) (Spec.enum 4294967296 (rbContains r)).length ops := by
  have hi := h.inv
  rw [enum_contains hi]
  exact ⟨rel_sees hi (rel_init hi junk), rel_run hi ops (rel_init hi junk) hops,
    rel_sees hi (rel_init_last hi junk), rel_run hi ops (rel_init_last hi junk) hops⟩

example : Valid exB ∧ ∀ op ∈ [IterOp.previous, .advance, .moveEqualOrLarger 6, .read 1000, .previous], op.ok :=
  ⟨exB_valid, by simp [IterOp.ok]⟩
example : cursorRun [1, 5, 9] 1 [.advance, .read 1, .advance, .previous, .moveEqualOrLarger 2, .previous, .previous] =
    [([], true, 5), ([5], true, 9), ([], false, 4294967295), ([], true, 9), ([], true, 5), ([], true, 1),
     ([], false, 4294967295)] := by decide +kernel

/-- The caller's loop: read `n` values at a time until fewer than `n` come; at most `fuel` reads.  The result is
everything read, if the loop ended. -/
def readLoop (r : Bitmap) (n : Nat) : Nat → Iter → Option (List Nat)
  | 0, _ => none
  | fuel + 1, it =>
    let p := iterRead r it n
    if p.1.length < n then some p.1 else (readLoop r n fuel p.2).map (p.1 ++ ·)

theorem readLoop_spec {r : Bitmap} (h : BInv r) {n : Nat} (hn : 0 < n) (fuel : Nat) : ∀ {it : Iter} {i : Nat},
    RelI r it (i + 1) → (Spec.card 4294967296 (bhas r)) < fuel + i → i ≤ Spec.card 4294967296 (bhas r) →
    readLoop r n fuel it = some ((Spec.enum 4294967296 (bhas r)).drop i) := by
  induction fuel with
  | zero => intro it i hr h1 h2; omega
  | succ fuel ih =>
    intro it i hr h1 h2
    obtain ⟨o1, o2⟩ := rel_read h hr n
    rw [if_pos (by omega), Nat.add_sub_cancel] at o1
    rw [if_pos (by omega)] at o2
    have hl : ((Spec.enum 4294967296 (bhas r)).drop i).length = Spec.card 4294967296 (bhas r) - i := List.length_drop
    rw [readLoop, o1]
    by_cases hc : Spec.card 4294967296 (bhas r) - i < n
    · rw [List.take_of_length_le (by omega), if_pos (by omega)]
    · rw [if_neg (by rw [List.length_take]; omega)]
      rw [show min (i + 1 + n) (Spec.card 4294967296 (bhas r) + 1) = (i + n) + 1 by omega] at o2
      rw [ih o2 (by omega) (by omega), Option.map_some, ← List.drop_drop]
      exact congrArg some (List.take_append_drop n _)

/-- The iterator after a sequence of calls. -/
def iterAfter (r : Bitmap) (it : Iter) (ops : List IterOp) : Iter := ops.foldl (fun it op => (iterStep r it op).2) it

theorem rel_after {r : Bitmap} (h : BInv r) (ops : List IterOp) : ∀ {it : Iter} {i : Nat}, RelI r it i →
    (∀ op ∈ ops, op.ok) → ∃ j, RelI r (iterAfter r it ops) j := by
  induction ops with
  | nil => intro it i hr _; exact ⟨i, hr⟩
  | cons op ops ih => intro it i hr ho; exact ih (rel_step h hr (ho op (by simp))).2 (fun o h => ho o (by simp [h]))

/-- **C26.** Take an iterator after any sequence of calls.  If it is on a value, a read delivers the first `n` of the
values from there on, or all if there are fewer, and leaves the iterator on the first value not delivered, or without a
value if there is none; if it is not on a value, a read does nothing.  Reading `n` values at a time from a new iterator
until fewer than `n` come enumerates the bitmap, in at most one read more than there are values. -/
theorem C26_read (r : Bitmap) (h : Valid r) (junk : Iter) :
    (∀ (fromLast : Bool) (ops : List IterOp) (n : Nat), (∀ op ∈ ops, op.ok) →
      let it := iterAfter r (if fromLast then iterInitLast r junk else iterInit r junk) ops
      let ahead := (Spec.enum 4294967296 (rbContains r)).filter (fun v => decide (it.currentValue ≤ v))
      (it.hasValue = true → (iterRead r it n).1 = ahead.take n ∧
        ((iterRead r it n).2.hasValue, (iterRead r it n).2.currentValue) =
          (match ahead[n]? with | some v => (true, v) | none => (false, 4294967295))) ∧
      (it.hasValue = false → iterRead r it n = ([], it))) ∧
    ∀ n fuel, 0 < n → Spec.card 4294967296 (rbContains r) < fuel →
      readLoop r n fuel (iterInit r junk) = some (Spec.enum 4294967296 (rbContains r)) := by
  have hi := h.inv
  have hc : Spec.card 4294967296 (rbContains r) = Spec.card 4294967296 (bhas r) := by
    show (Spec.enum _ _).length = _
    rw [enum_contains hi]
    rfl
  rw [hc, enum_contains hi]
  refine ⟨fun fl ops n hops => ?_, fun n fuel hn hf => ?_⟩
  · have hr : ∃ j, RelI r (iterAfter r (if fl then iterInitLast r junk else iterInit r junk) ops) j := by
      cases fl
      · exact rel_after hi ops (rel_init hi junk) hops
      · exact rel_after hi ops (rel_init_last hi junk) hops
    intro it ahead
    obtain ⟨j, hr⟩ := hr
    refine ⟨fun hv => ?_, fun hv => iterRead_novalue hv n⟩
    rcases hr with ⟨_, hb⟩ | ⟨w, A, c, B, hat, hw, _⟩ | ⟨_, he⟩
    · exact absurd (hv.symm.trans hb.hv) (by simp)
    · obtain ⟨h1, h2⟩ := iterRead_spec hi (o := some w) ⟨A, c, B, hat⟩ n
      have ea : ahead = restO (bhas r) (some w) := by
        show List.filter _ _ = List.filter _ _
        rw [show it.currentValue = w from hat.cur]
      rw [ea]
      refine ⟨h1, ?_⟩
      generalize (restO (bhas r) (some w))[n]? = o at h2
      cases o with
      | none => exact Prod.ext h2.hv h2.cur
      | some v =>
        obtain ⟨A, c, B, hat⟩ := h2
        exact Prod.ext hat.hv hat.cur
    · exact absurd (hv.symm.trans he.hv) (by simp)
  · have := readLoop_spec hi hn fuel (i := 0) (rel_init hi junk) (by omega) (by omega)
    rwa [List.drop_zero] at this

example : Valid exB := exB_valid

/-- **C40**, for bounds with `x` below 2^32, or an empty range.  `junk` is the iterator's uninitialised memory.
Missing: `x` of 2^32 or more, where the claim is false (`C40_intersect_with_range_false`). -/
theorem C40_intersect_with_range_partial (r : Bitmap) (h : Valid r) (junk : Iter) (x y : Nat)
    (hx : x < 4294967296 ∨ y ≤ x) :
    rbIntersectWithRange r x y junk = true ↔ ∃ v, rbContains r v = true ∧ x ≤ v ∧ v < y := by
  have hi := h.inv
  unfold rbIntersectWithRange
  by_cases hxy : x ≥ y
  · rw [if_pos hxy]
    constructor
    · intro hh; exact absurd hh (by simp)
    · rintro ⟨v, _, h1, h2⟩; omega
  · rw [if_neg hxy]
    have hx : x < 4294967296 := by omega
    rw [Nat.mod_eq_of_lt hx]
    simp only
    obtain ⟨o, h1, h2⟩ := iterMove_spec hi (iterInit r junk) hx
    simp only [rbContains_eq hi]
    cases o with
    | none =>
      rw [landsF_none h2]
      constructor
      · intro hh; exact absurd hh (by simp)
      · rintro ⟨v, h3, h4, h5⟩
        rw [h1 v h4] at h3
        exact absurd h3 (by simp)
    | some w =>
      obtain ⟨A, c, B, hat⟩ := h2
      rw [hat.hv, hat.cur]
      simp only [Bool.not_true, Bool.false_eq_true, if_false]
      by_cases hw : w ≥ y
      · rw [if_pos hw]
        constructor
        · intro hh; exact absurd hh (by simp)
        · rintro ⟨v, h3, h4, h5⟩
          rw [h1.2.2 v h4 (by omega)] at h3
          exact absurd h3 (by simp)
      · rw [if_neg hw]
        exact ⟨fun _ => ⟨w, h1.1, h1.2.1, by omega⟩, fun _ => rfl⟩

example : Valid exB ∧ (5 < 4294967296 ∨ 70000 ≤ 5) := ⟨exB_valid, Or.inl (by omega)⟩

/-- The lower bound is cut to 32 bits: {1} is said to meet [2^32, 2^32 + 2). -/
theorem C40_intersect_with_range_false (junk : Iter) :
    ∃ r x y, Valid r ∧ x < 2 ^ 64 ∧ y < 2 ^ 64 ∧ rbIntersectWithRange r x y junk = true ∧
      ¬ ∃ v, rbContains r v = true ∧ x ≤ v ∧ v < y := by
  have hv : Valid [(0, .array [1])] := by decide +kernel
  refine ⟨[(0, .array [1])], 4294967296, 4294967298, hv, by omega, by omega, ?_, ?_⟩
  · have := (C40_intersect_with_range_partial [(0, .array [1])] hv junk 0 4294967298 (Or.inl (by omega))).2
      ⟨1, by decide +kernel, by omega, by omega⟩
    unfold rbIntersectWithRange at this ⊢
    rw [if_neg (by omega)] at this ⊢
    exact this
  · rintro ⟨v, h1, h2, h3⟩
    rw [rbContains_eq hv.inv] at h1
    have := bhas_lt hv.inv h1
    omega

end CRoaring.Props
