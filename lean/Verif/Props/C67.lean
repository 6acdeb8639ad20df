import Verif.Props.C60
import Verif.Props.C18
import Verif.Props.C25
/-
C67 - C69, C80: iteration over 64-bit bitmaps.
-/
set_option linter.constructorNameAsVariable false
namespace CRoaring.Props
open CRoaring

theorem calls_callUntil {σ : Type} (f : σ → Nat → σ × Bool) (s : σ) (l : List Nat) :
    calls f s l (callUntil f s l).1 (callUntil f s l).2 := by
  induction l generalizing s with
  | nil => exact calls.done s
  | cons v l ih =>
    rw [callUntil]
    split
    · rename_i hh
      exact calls.go s (f s v).1 _ v l _ (by rw [← hh]) (ih _)
    · rename_i hh
      exact calls.stop s (f s v).1 v l (by rw [← Bool.not_eq_true _ |>.mp hh])

theorem mem_enum64 {r : R64} (n : Nat) (hn : n ≤ 2 ^ 64) (v : Nat) :
    v ∈ Spec.enum n (has64 r) ↔ v < n ∧ r64Contains r v = true := by
  rw [mem_enum]
  exact ⟨fun ⟨h1, h2⟩ => ⟨h1, (has64_lt h2).2⟩, fun ⟨h1, h2⟩ => ⟨h1, has64_iff.2 ⟨by omega, h2⟩⟩⟩

/-- C67: `roaring64_bitmap_iterate` calls the callback on the contained values in increasing order until it answers `false`,
and answers whether it never did. -/
theorem C67_iterate {σ : Type} (f : σ → Nat → σ × Bool) (s : σ) {r : R64} (h : Valid64 r) :
    ∃ l : List Nat, l.Pairwise (· < ·) ∧ (∀ v, v ∈ l ↔ v < 2 ^ 64 ∧ r64Contains r v = true) ∧
      calls f s l (r64Iterate f s r).1 (r64Iterate f s r).2 := by
  refine ⟨Spec.enum TOP64 (has64 r), enum_sorted _ _, mem_enum64 TOP64 (by unfold TOP64; omega), ?_⟩
  rw [r64Iterate_eq f s h.rep]
  exact calls_callUntil f s _

/-- C67: `roaring64_bitmap_to_uint64_array` writes the contained values in increasing order (of a bitmap that lacks some
value: the array of all values would have 2^67 bytes).  `junk` is uninitialised memory. -/
theorem C67_to_uint64_array {r : R64} (h : Valid64 r) (hl : ∃ y, y < 2 ^ 64 ∧ r64Contains r y = false) (junk : Iter64) :
    (r64ToUint64 r junk).Pairwise (· < ·) ∧ ∀ v, v ∈ r64ToUint64 r junk ↔ v < 2 ^ 64 ∧ r64Contains r v = true := by
  obtain ⟨y, hy, hh⟩ := hl
  have hc : Spec.card TOP64 (has64 r) < 18446744073709551616 :=
    card_lacks (y := y) (by unfold TOP64; omega) (by rw [has64_of hy]; exact hh)
  have e : ∀ n, Spec.card n (has64 r) < 18446744073709551616 →
      (Spec.enum n (has64 r)).take 18446744073709551615 = Spec.enum n (has64 r) :=
    fun n hn => List.take_of_length_le (show Spec.card n (has64 r) ≤ _ by omega)
  rw [r64ToUint64_eq h.rep, e TOP64 hc]
  exact ⟨enum_sorted _ _, mem_enum64 TOP64 (by unfold TOP64; omega)⟩

example : Valid64 exT64 ∧ ∃ y, y < 2 ^ 64 ∧ r64Contains exT64 y = false := ⟨exT64_valid, 7, by omega, by decide +kernel⟩

/-! ### The specification of an iterator: a cursor on a list

A position `some 0` is before the first value, `some i` with `1 ≤ i ≤ n` on the `i`-th of the `n` values, `some (n + 1)`
behind the last.  The position `none` is that of an iterator whose last read reached the end: there is no value, and
stepping from there is not specified (see `C69_read_false`). -/

/-- What `has_value` and `value` show. -/
def cursor64Sees (l : List Nat) : Option Nat → Option Nat
  | none => none
  | some 0 => none
  | some (i + 1) => l[i]?

/-- One call: the values read and the new position; no result if the call is not specified there. -/
def cursor64Step (l : List Nat) : Option Nat → IterOp → Option (List Nat × Option Nat)
  | some i, .advance => some ([], some (min (i + 1) (l.length + 1)))
  | none, .advance => none
  | some i, .previous => some ([], some (i - 1))
  | none, .previous => none
  | _, .moveEqualOrLarger v => some ([], some ((l.filter (fun x => decide (x < v))).length + 1))
  | none, .read _ => some ([], none)
  | some 0, .read _ => some ([], some 0)
  | some (i + 1), .read n =>
    some ((l.drop i).take n,
      if l.length ≤ i then some (i + 1) else if i + n < l.length then some (i + 1 + n) else none)

/-- A sequence of calls: what each shows, if all are specified. -/
def cursor64Run (l : List Nat) : Option Nat → List IterOp → Option (List (List Nat × Option Nat))
  | _, [] => some []
  | p, op :: ops =>
    match cursor64Step l p op with
    | none => none
    | some q => (cursor64Run l q.2 ops).map ((q.1, cursor64Sees l q.2) :: ·)

/-! ### The calls of the library -/

def iter64Step (r : R64) (it : Iter64) : IterOp → List Nat × Iter64
  | .advance => ([], it64Advance r it)
  | .previous => ([], it64Previous r it)
  | .moveEqualOrLarger v => ([], it64Move r it v)
  | .read n => it64Read r it n

/-- `roaring64_iterator_has_value` and `roaring64_iterator_value`. -/
def iter64Sees (it : Iter64) : Option Nat := if it.hasValue then some it.value else none

def iter64Run (r : R64) : Iter64 → List IterOp → List (List Nat × Option Nat)
  | _, [] => []
  | it, op :: ops =>
    let p := iter64Step r it op
    (p.1, iter64Sees p.2) :: iter64Run r p.2 ops

/-- The arguments are 64-bit. -/
def IterOp.ok64 : IterOp → Prop
  | .moveEqualOrLarger v => v < 2 ^ 64
  | _ => True

/-- The iterator stands for the position. -/
def Pos64 (r : R64) (it : Iter64) : Option Nat → Prop
  | some i => Rel64 r (has64 r) it i
  | none => it.artIt.value = none ∧ it.hasValue = false

theorem pos64_sees {r : R64} (h : Valid64 r) {it : Iter64} {p : Option Nat} (hp : Pos64 r it p) {l : List Nat}
    (hl : l = Spec.enum TOP64 (has64 r)) : iter64Sees it = cursor64Sees l p := by
  cases p with
  | none => rw [iter64Sees, hp.2]; rfl
  | some i =>
    rw [iter64Sees, rel64_seen h.rep hp, ← hl]
    cases i with
    | zero => rfl
    | succ i => rw [if_pos (by omega)]; rfl

theorem pos64_step {r : R64} (h : Valid64 r) {it : Iter64} {p : Option Nat} (hp : Pos64 r it p) {op : IterOp}
    (hop : op.ok64) {l : List Nat} (hl : l = Spec.enum TOP64 (has64 r)) {q : List Nat × Option Nat}
    (hq : cursor64Step l p op = some q) : (iter64Step r it op).1 = q.1 ∧ Pos64 r (iter64Step r it op).2 q.2 := by
  have hlen : l.length = Spec.card TOP64 (has64 r) := congrArg List.length hl
  have hfil : ∀ v, v < TOP64 → (l.filter (fun x => decide (x < v))).length = Spec.card v (has64 r) := by
    intro v hv
    have : ∀ n, v ≤ n → ((Spec.enum n (has64 r)).filter (fun x => decide (x < v))).length = Spec.card v (has64 r) := by
      intro n hn
      rw [filter_lt_enum hn]
      rfl
    rw [hl]
    exact this TOP64 (Nat.le_of_lt hv)
  cases op with
  | advance =>
    cases p with
    | none => cases hq
    | some i =>
      cases hq
      refine ⟨rfl, ?_⟩
      show Rel64 r (has64 r) _ _
      rw [hlen]
      exact rel64_advance h.rep hp
  | previous =>
    cases p with
    | none => cases hq
    | some i =>
      cases hq
      exact ⟨rfl, rel64_previous h.rep hp⟩
  | moveEqualOrLarger v =>
    have hv : v < TOP64 := hop
    have hq' : q = ([], some ((l.filter (fun x => decide (x < v))).length + 1)) := by
      cases p <;> exact (Option.some.inj hq).symm
    rw [hq', hfil v hv]
    refine ⟨rfl, ?_⟩
    cases p with
    | none => exact rel64_move h.rep (.inr hp) hv
    | some i => exact rel64_move h.rep (Rel64.sound hp) hv
  | read n =>
    cases p with
    | none =>
      cases hq
      show (it64Read r it n).1 = [] ∧ Pos64 r (it64Read r it n).2 none
      rw [it64Read_novalue hp.2]
      exact ⟨rfl, hp⟩
    | some i =>
      obtain ⟨h1, h2⟩ := rel64_read h.rep hp n
      cases i with
      | zero =>
        cases hq
        rw [if_neg (by omega)] at h1 h2
        refine ⟨h1, ?_⟩
        show Pos64 r (it64Read r it n).2 _
        rw [h2]
        exact hp
      | succ i =>
        have hq' := (Option.some.inj hq).symm
        rw [hq']
        rw [if_pos (by omega), Nat.add_sub_cancel, ← hl] at h1
        rw [← hlen] at h2
        refine ⟨h1, ?_⟩
        show Pos64 r (it64Read r it n).2 (if l.length ≤ i then some (i + 1) else if i + n < l.length then some (i + 1 + n) else none)
        by_cases c1 : l.length ≤ i
        · rw [if_neg (by omega)] at h2
          rw [if_pos c1, h2]
          exact hp
        · rw [if_pos (by omega)] at h2
          rw [if_neg c1]
          by_cases c2 : i + n < l.length
          · rw [if_pos (by omega)] at h2
            rw [if_pos c2]
            exact h2
          · rw [if_neg (by omega)] at h2
            rw [if_neg c2]
            exact ⟨h2.1, h2.2.1⟩

theorem pos64_run {r : R64} (h : Valid64 r) {l : List Nat} (hl : l = Spec.enum TOP64 (has64 r)) (ops : List IterOp) :
    ∀ {it : Iter64} {p : Option Nat}, Pos64 r it p → (∀ op ∈ ops, op.ok64) → ∀ {o}, cursor64Run l p ops = some o →
    iter64Run r it ops = o := by
  induction ops with
  | nil => intro it p hp _ o ho; cases ho; rfl
  | cons op ops ih =>
    intro it p hp hops o ho
    rw [cursor64Run] at ho
    cases hq : cursor64Step l p op with
    | none => rw [hq] at ho; cases ho
    | some q =>
      rw [hq] at ho
      obtain ⟨o', ho', rfl⟩ := Option.map_eq_some_iff.1 ho
      obtain ⟨h1, h2⟩ := pos64_step h hp (hops op (by simp)) hl hq
      rw [iter64Run, ih h2 (fun o h => hops o (by simp [h])) ho', h1, ← pos64_sees h h2 hl]

/-- **C68.** Any sequence of calls on an iterator behaves like a cursor on the increasing list `l` of the values: an iterator
made by `roaring64_iterator_create` starts on the first value (behind the end if there is none), one made by
`roaring64_iterator_create_last` on the last (before the start if there is none).  `junk` is the memory the iterator is
made in. -/
theorem C68_iterator {r : R64} (h : Valid64 r) (junk : Iter64) :
    ∃ l : List Nat, l.Pairwise (· < ·) ∧ (∀ v, v ∈ l ↔ v < 2 ^ 64 ∧ r64Contains r v = true) ∧
      iter64Sees (it64InitAt r junk true) = cursor64Sees l (some 1) ∧
      iter64Sees (it64InitAt r junk false) = cursor64Sees l (some l.length) ∧
      ∀ (ops : List IterOp), (∀ op ∈ ops, op.ok64) → ∀ o,
        (cursor64Run l (some 1) ops = some o → iter64Run r (it64InitAt r junk true) ops = o) ∧
        (cursor64Run l (some l.length) ops = some o → iter64Run r (it64InitAt r junk false) ops = o) := by
  obtain ⟨l, hl⟩ : ∃ l, l = Spec.enum TOP64 (has64 r) := ⟨_, rfl⟩
  have hlen : l.length = Spec.card TOP64 (has64 r) := congrArg List.length hl
  have p1 : Pos64 r (it64InitAt r junk true) (some 1) := rel64_init h.rep junk
  have p2 : Pos64 r (it64InitAt r junk false) (some l.length) := by
    rw [hlen]
    exact rel64_init_last h.rep junk
  refine ⟨l, hl ▸ enum_sorted _ _, hl ▸ mem_enum64 TOP64 (by unfold TOP64; omega), pos64_sees h p1 hl, pos64_sees h p2 hl,
    fun ops hops o => ⟨fun ho => pos64_run h hl ops p1 hops ho, fun ho => pos64_run h hl ops p2 hops ho⟩⟩

example : cursor64Run [1, 5, 9] (some 1)
    [.advance, .read 1, .advance, .previous, .moveEqualOrLarger 2, .previous, .previous, .advance, .read 5, .read 1,
      .moveEqualOrLarger 6] =
    some [([], some 5), ([5], some 9), ([], none), ([], some 9), ([], some 5), ([], some 1), ([], none), ([], some 1),
      ([1, 5, 9], none), ([], none), ([], some 9)] := by decide +kernel

/-- The iterator after a sequence of calls. -/
def iter64After (r : R64) (it : Iter64) (ops : List IterOp) : Iter64 := ops.foldl (fun it op => (iter64Step r it op).2) it

/-- C69: reads never change what a later read delivers: reading in pieces of any sizes from a new iterator delivers the
values in order, without repeats or gaps; and an iterator whose read reached the end has no value.  Missing: that stepping
an iterator afterwards starts at the end, which is false (`C69_read_false`). -/
theorem C69_read_partial {r : R64} (h : Valid64 r) (junk : Iter64) :
    ∃ l : List Nat, l.Pairwise (· < ·) ∧ (∀ v, v ∈ l ↔ v < 2 ^ 64 ∧ r64Contains r v = true) ∧
      ∀ ns : List Nat, ((iter64Run r (it64InitAt r junk true) (ns.map .read)).map (·.1)).flatten = l.take ns.sum ∧
        iter64Sees (iter64After r (it64InitAt r junk true) (ns.map .read)) = l[ns.sum]? := by
  obtain ⟨l, hl⟩ : ∃ l, l = Spec.enum TOP64 (has64 r) := ⟨_, rfl⟩
  have hlen : l.length = Spec.card TOP64 (has64 r) := congrArg List.length hl
  have p1 : Pos64 r (it64InitAt r junk true) (some 1) := rel64_init h.rep junk
  refine ⟨l, hl ▸ enum_sorted _ _, hl ▸ mem_enum64 TOP64 (by unfold TOP64; omega), fun ns => ?_⟩
  -- from the position `i + 1`, and from the position `none`
  have none_ : ∀ (ns : List Nat) {it : Iter64}, Pos64 r it none →
      ((iter64Run r it (ns.map .read)).map (·.1)).flatten = [] ∧ iter64Sees (iter64After r it (ns.map .read)) = none := by
    intro ns
    induction ns with
    | nil => intro it hp; exact ⟨rfl, pos64_sees h hp hl⟩
    | cons n ns ih =>
      intro it hp
      have hq : cursor64Step l none (.read n) = some ([], none) := rfl
      obtain ⟨h1, h2⟩ := pos64_step (op := .read n) h hp trivial hl hq
      obtain ⟨i1, i2⟩ := ih h2
      refine ⟨?_, i2⟩
      rw [List.map_cons, iter64Run, List.map_cons, List.flatten_cons, i1, h1]
      rfl
  have some_ : ∀ (ns : List Nat) {it : Iter64} {i : Nat}, Pos64 r it (some (i + 1)) →
      ((iter64Run r it (ns.map .read)).map (·.1)).flatten = (l.drop i).take ns.sum ∧
      iter64Sees (iter64After r it (ns.map .read)) = l[i + ns.sum]? := by
    intro ns
    induction ns with
    | nil => intro it i hp; exact ⟨by rw [List.sum_nil, List.take_zero]; rfl, pos64_sees h hp hl⟩
    | cons n ns ih =>
      intro it i hp
      have hq : cursor64Step l (some (i + 1)) (.read n) = some ((l.drop i).take n,
        if l.length ≤ i then some (i + 1) else if i + n < l.length then some (i + 1 + n) else none) := rfl
      obtain ⟨h1, h2⟩ := pos64_step (op := .read n) h hp trivial hl hq
      rw [List.map_cons, iter64Run, List.map_cons, List.flatten_cons, h1, List.sum_cons]
      show _ ∧ iter64Sees (iter64After r (iter64Step r it (.read n)).2 (ns.map .read)) = _
      by_cases c1 : l.length ≤ i
      · simp only [if_pos c1] at h2
        obtain ⟨i1, i2⟩ := ih h2
        rw [i1, i2, List.drop_of_length_le c1, List.take_nil, List.take_nil, List.take_nil,
          List.getElem?_eq_none (by omega), List.getElem?_eq_none (by omega)]
        exact ⟨rfl, rfl⟩
      · simp only [if_neg c1] at h2
        by_cases c2 : i + n < l.length
        · simp only [if_pos c2] at h2
          rw [show i + 1 + n = (i + n) + 1 by omega] at h2
          obtain ⟨i1, i2⟩ := ih h2
          rw [i1, i2, List.take_add, List.drop_drop, Nat.add_assoc]
          exact ⟨rfl, congrArg (l[·]?) (by omega)⟩
        · simp only [if_neg c2] at h2
          obtain ⟨i1, i2⟩ := none_ ns h2
          have hd : (l.drop i).length = l.length - i := List.length_drop
          rw [i1, i2, List.append_nil, List.take_of_length_le (by omega), List.take_of_length_le (by omega),
            List.getElem?_eq_none (by omega)]
          exact ⟨rfl, rfl⟩
  have := some_ ns (i := 0) p1
  rwa [List.drop_zero, Nat.zero_add] at this

/-- An iterator on the bitmap {5}, made in zeroed memory: the read delivers 5 and leaves no value; but then `advance` moves
to 5 again. -/
theorem C69_read_false : ∃ r junk, Valid64 r ∧ (iter64Run r (it64InitAt r junk true) [.read 1, .advance] =
    [([5], none), ([], some 5)]) := by
  refine ⟨r64Add r64Create 5, ⟨artInitIterator r64Create true, 0, 0, 0, false, false⟩, ?_, by decide +kernel⟩
  exact (C53_add C53_create.1 (by omega)).1

/-- C80: `roaring_iterate64` of a 32-bit bitmap calls the callback on the contained values in increasing order, with the
given high bits, until it answers `false`, and answers whether it never did. -/
theorem C80_iterate64 {σ : Type} (f : σ → Nat → σ × Bool) (high : Nat) (s : σ) {r : Bitmap} (h : Valid r) :
    ∃ l : List Nat, l.Pairwise (· < ·) ∧ (∀ v, v ∈ l ↔ rbContains r v = true) ∧
      calls f s (l.map (high ||| ·)) (rbIterate64 f high s r).1 (rbIterate64 f high s r).2 := by
  have h22 := C22_to_uint32_array h
  refine ⟨rbToUint32 r, h22.1, h22.2.1, ?_⟩
  rw [rbIterate64_eq f high s h.inv, rbToUint32_eq h.inv]
  exact calls_callUntil f s _

end CRoaring.Props
