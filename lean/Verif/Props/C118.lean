import Verif.Lemmas.BitmapMem14
import Verif.Props.C25
import Verif.Props.C116
/-!
C118: iterators over bitmaps stay inside the memory of the bitmap and of the caller, and show the values of the bitmap.  The
specification is the cursor of C25 on the increasing list of the values.
-/
namespace CRoaring.Props
open CRoaring.Spec (IsBitmapSet SlotIs Allocates)

/-- One call on an iterator over the bitmap `b`.  Reads go to the caller's array `out` at `pos`.  The array, the number of values
delivered and the iterator after the call. -/
def iterStepBuf (b : RaBuf) (it : BIter) (out : List Nat) (pos : Nat) : IterOp → Out (List Nat × Nat × BIter)
  | .advance => do
    let it ← iterAdvanceBuf b it
    .ok (out, 0, it)
  | .previous => do
    let it ← iterPreviousBuf b it
    .ok (out, 0, it)
  | .moveEqualOrLarger v => do
    let it ← iterMoveBuf b it v
    .ok (out, 0, it)
  | .read n => iterReadBuf b it n out pos

/-- A sequence of calls; every read goes behind what the reads before it delivered.  The array in the end, and for each call the number
of values delivered and `has_value` and `current_value` after it. -/
def iterRunBuf (b : RaBuf) : BIter → List Nat → Nat → List IterOp → Out (List Nat × List (Nat × Bool × Nat))
  | _, out, _, [] => .ok (out, [])
  | it, out, pos, op :: ops => do
    let p ← iterStepBuf b it out pos op
    let q ← iterRunBuf b p.2.2 p.1 (pos + p.2.1) ops
    .ok (q.1, (p.2.1, p.2.2.hasValue, p.2.2.currentValue) :: q.2)

/-- All values delivered by a sequence of calls on a cursor. -/
def delivered (l : List Nat) (i : Nat) (ops : List IterOp) : List Nat := ((cursorRun l i ops).map (fun o => o.1)).flatten

/-- What a caller is told: how many values each call delivered, `has_value` and `current_value`. -/
def told (l : List Nat) (i : Nat) (ops : List IterOp) : List (Nat × Bool × Nat) :=
  (cursorRun l i ops).map (fun o => (o.1.length, o.2))

theorem iterStepBuf_spec {b : RaBuf} {r : Bitmap} (h : RHolds b r) (hb : BInv r) {bi : BIter} {it : Iter} {i : Nat} (hr : RelI r it i)
    (hi : IRel r.length bi it) (op : IterOp) {out : List Nat} {pos : Nat} (hp : pos + (iterStep r it op).1.length ≤ out.length) :
    ∃ bi', iterStepBuf b bi out pos op = .ok (over out pos (iterStep r it op).1, (iterStep r it op).1.length, bi') ∧
      IRel r.length bi' (iterStep r it op).2 := by
  cases op with
  | advance =>
    obtain ⟨b1, e, q⟩ := iterAdvanceBuf_spec h hb hr hi
    exact ⟨b1, by simp only [iterStepBuf, iterStep]; rw [e, ok_bind, over_nil]; rfl, q⟩
  | previous =>
    obtain ⟨b1, e, q⟩ := iterPreviousBuf_spec h hb hr hi
    exact ⟨b1, by simp only [iterStepBuf, iterStep]; rw [e, ok_bind, over_nil]; rfl, q⟩
  | moveEqualOrLarger v =>
    obtain ⟨b1, e, q⟩ := iterMoveBuf_spec h hb hi.toIScal v
    exact ⟨b1, by simp only [iterStepBuf, iterStep]; rw [e, ok_bind, over_nil]; rfl, q⟩
  | read n => exact iterReadBuf_spec h hb hr hi hp

theorem iterRunBuf_spec {b : RaBuf} {r : Bitmap} (h : RHolds b r) (hb : BInv r) {l : List Nat} (hl : l = Spec.enum 4294967296 (bhas r))
    (ops : List IterOp) : ∀ {bi : BIter} {it : Iter} {i : Nat}, RelI r it i → IRel r.length bi it → (∀ op ∈ ops, op.ok) →
    ∀ {out : List Nat} {pos : Nat}, pos + (delivered l i ops).length ≤ out.length →
    iterRunBuf b bi out pos ops = .ok (over out pos (delivered l i ops), told l i ops) := by
  induction ops with
  | nil => intro bi it i hr hi ho out pos hp; simp [iterRunBuf, delivered, told, cursorRun, over_nil]
  | cons op ops ih =>
    intro bi it i hr hi ho out pos hp
    obtain ⟨h1, h2⟩ := rel_step hb hr (ho op (by simp))
    have hs : ((iterStep r it op).2.hasValue, (iterStep r it op).2.currentValue) = cursorSees l (cursorStep l i op).2 := by
      rw [hl]; exact rel_sees hb h2
    rw [← hl] at h1 h2
    have ed : delivered l i (op :: ops) = (cursorStep l i op).1 ++ delivered l (cursorStep l i op).2 ops := rfl
    have et : told l i (op :: ops) =
        ((cursorStep l i op).1.length, cursorSees l (cursorStep l i op).2) :: told l (cursorStep l i op).2 ops := rfl
    rw [ed, List.length_append] at hp
    obtain ⟨b1, e, q⟩ := iterStepBuf_spec h hb hr hi op (out := out) (pos := pos) (by rw [h1]; omega)
    rw [iterRunBuf, e, ok_bind, h1]
    simp only
    rw [ih h2 q (fun o h => ho o (by simp [h])) (by rw [over_length (by omega)]; omega), ok_bind, ed, et, over_over (by omega), q.hv, q.cur, hs]

/-- The same fields with some container. -/
theorem iscal_junk (j : BIter) : IScal j ⟨j.containerIndex, j.hasValue, .array [], j.highbits, j.cit, j.currentValue⟩ :=
  ⟨rfl, rfl, rfl, rfl, rfl⟩

section
variable {b : RaBuf} {s : NSet} (h : IsBitmapSet b s)
include h

/-- **C118.** Any sequence of calls on an iterator made by `roaring_iterator_init` in any memory `junk`: every access is inside of the
blocks of the bitmap, the reads write the values they deliver, one behind the other, to the caller's array `out` and nothing else, and
the caller is told what a cursor on the increasing list of the values tells, started on the first value.  The array need only be as
long as what is delivered. -/
theorem C118_iterator (junk : BIter) (ops : List IterOp) (hops : ∀ op ∈ ops, op.ok) (out : List Nat)
    (hout : (delivered (Spec.enum 4294967296 s) 1 ops).length ≤ out.length) :
    ∃ it, iterInitBuf b junk = .ok it ∧ (it.hasValue, it.currentValue) = cursorSees (Spec.enum 4294967296 s) 1 ∧
      iterRunBuf b it out 0 ops = .ok (delivered (Spec.enum 4294967296 s) 1 ops ++
        out.drop (delivered (Spec.enum 4294967296 s) 1 ops).length, told (Spec.enum 4294967296 s) 1 ops) := by
  obtain ⟨r, hb, hr, e⟩ := isBitmapSet_iff.1 h
  have e := bhas_ext e
  subst e
  obtain ⟨it, e1, q⟩ := iterInitBuf_spec hb hr (iscal_junk junk)
  have hrel := rel_init hr ⟨junk.containerIndex, junk.hasValue, .array [], junk.highbits, junk.cit, junk.currentValue⟩
  refine ⟨it, e1, ?_, ?_⟩
  · rw [q.hv, q.cur]; exact rel_sees hr hrel
  · rw [iterRunBuf_spec hb hr rfl ops hrel q hops (by omega), over_zero]

/-- The same for `roaring_iterator_init_last`, which starts on the last value. -/
theorem C118_iterator_last (junk : BIter) (ops : List IterOp) (hops : ∀ op ∈ ops, op.ok) (out : List Nat)
    (hout : (delivered (Spec.enum 4294967296 s) (Spec.card 4294967296 s) ops).length ≤ out.length) :
    ∃ it, iterInitLastBuf b junk = .ok it ∧ (it.hasValue, it.currentValue) = cursorSees (Spec.enum 4294967296 s) (Spec.card 4294967296 s) ∧
      iterRunBuf b it out 0 ops = .ok (delivered (Spec.enum 4294967296 s) (Spec.card 4294967296 s) ops ++
        out.drop (delivered (Spec.enum 4294967296 s) (Spec.card 4294967296 s) ops).length,
        told (Spec.enum 4294967296 s) (Spec.card 4294967296 s) ops) := by
  obtain ⟨r, hb, hr, e⟩ := isBitmapSet_iff.1 h
  have e := bhas_ext e
  subst e
  obtain ⟨it, e1, q⟩ := iterInitLastBuf_spec hb hr (iscal_junk junk)
  have hrel := rel_init_last hr ⟨junk.containerIndex, junk.hasValue, .array [], junk.highbits, junk.cit, junk.currentValue⟩
  refine ⟨it, e1, ?_, ?_⟩
  · rw [q.hv, q.cur]; exact rel_sees hr hrel
  · rw [iterRunBuf_spec hb hr rfl ops hrel q hops (by omega), over_zero]

/-- One read of at least as many values as there are delivers them all and leaves the rest of the array alone. -/
theorem C118_read_all (junk : BIter) (n : Nat) (hn : Spec.card 4294967296 s ≤ n) (out : List Nat) (hout : Spec.card 4294967296 s ≤ out.length) :
    ∃ it it', iterInitBuf b junk = .ok it ∧ iterReadBuf b it n out 0 =
      .ok (Spec.enum 4294967296 s ++ out.drop (Spec.card 4294967296 s), Spec.card 4294967296 s, it') ∧ it'.hasValue = false := by
  obtain ⟨r, hb, hr, e⟩ := isBitmapSet_iff.1 h
  have e := bhas_ext e
  subst e
  obtain ⟨it, e1, q⟩ := iterInitBuf_spec hb hr (iscal_junk junk)
  have hrel := rel_init hr ⟨junk.containerIndex, junk.hasValue, .array [], junk.highbits, junk.cit, junk.currentValue⟩
  obtain ⟨o1, o2⟩ := rel_read hr hrel n
  rw [if_pos (by omega), Nat.sub_self, List.drop_zero, List.take_of_length_le hn] at o1
  rw [if_pos (by omega)] at o2
  obtain ⟨it', e2, q2⟩ := iterReadBuf_spec hb hr hrel q (count := n) (out := out) (pos := 0) (by
    rw [o1, Nat.zero_add]; exact hout)
  rw [o1, over_zero] at e2
  refine ⟨it, it', e1, e2, ?_⟩
  rw [q2.hv]
  rcases o2 with ⟨h0, _⟩ | ⟨w, A, c, B, hat, hw, e3⟩ | ⟨_, he⟩
  · omega
  · have h4 : Spec.card 4294967296 (bhas r) = Spec.card w (bhas r) + (fromL 4294967296 (bhas r) w).length :=
      card_from (Nat.le_of_lt (bhas_lt hr hw))
    have h5 : w ∈ fromL 4294967296 (bhas r) w := mem_fromL.2 ⟨bhas_lt hr hw, hw, Nat.le_refl _⟩
    have h6 := List.length_pos_of_mem h5
    omega
  · exact he.hv

/-- `roaring_bitmap_intersect_with_range`, for bounds with `x` below 2^32, or an empty range, as in C40. -/
theorem C118_intersect_with_range (junk : BIter) (x y : Nat) (hx : x < 4294967296 ∨ y ≤ x) :
    ∃ a, rbIntersectWithRangeBuf b x y junk = .ok a ∧ (a = true ↔ ∃ v, s v = true ∧ x ≤ v ∧ v < y) := by
  obtain ⟨r, hb, hr, e⟩ := isBitmapSet_iff.1 h
  refine ⟨_, rbIntersectWithRangeBuf_spec hb hr x y (iscal_junk junk), ?_⟩
  rw [C40_intersect_with_range_partial r hr.valid _ x y hx]
  simp only [rbContains_eq hr, e]

end

/-- A call that goes past the last value and back, on the bitmap {5, 65536, 65537, 65538} of C115 in blocks that are larger than what
they hold. -/
example : iterRunBuf twoCells ⟨0, true, .array ⟨1, [5, 99]⟩, 0, 0, 5⟩ [7, 7, 7, 7] 0 [.read 2, .advance, .advance, .previous, .read 9] =
    .ok ([5, 65536, 65538, 7], [(2, true, 65537), (0, true, 65538), (0, false, 4294967295), (0, true, 65538), (1, false, 4294967295)]) := rfl

example : told [5, 65536, 65537, 65538] 1 [.read 2, .advance, .advance, .previous, .read 9] =
    [(2, true, 65537), (0, true, 65538), (0, false, 4294967295), (0, true, 65538), (1, false, 4294967295)] ∧
    delivered [5, 65536, 65537, 65538] 1 [.read 2, .advance, .advance, .previous, .read 9] = [5, 65536, 65538] := by decide

/-- An array container that claims two values in a block of one is read past its end. -/
example : (iterInitBuf ⟨1, [(0, .array ⟨2, [5]⟩)]⟩ ⟨7, false, .array ⟨0, []⟩, 0, 0, 0⟩ >>= fun it =>
    iterReadBuf ⟨1, [(0, .array ⟨2, [5]⟩)]⟩ it 2 [0, 0] 0) = .oob := rfl

/-- The caller's array is too short for what is delivered. -/
example : (iterInitBuf twoCells ⟨7, false, .array ⟨0, []⟩, 0, 0, 0⟩ >>= fun it => iterReadBuf twoCells it 4 [0, 0, 0] 0) = .oob := rfl

end CRoaring.Props
