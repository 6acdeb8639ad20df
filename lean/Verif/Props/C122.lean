import Verif.Lemmas.Store64Ask2
import Verif.Store64AskSpec
import Verif.Props.C121
import Verif.Props.C60
import Verif.Props.C67
/-
C122: the functions that read a 64-bit bitmap in memory.  C123: the iterators over a 64-bit bitmap in memory.
-/
namespace CRoaring.Props
open CRoaring CRoaring.Pool64

theorem select_list {s : NSet} {k : Nat} (n : Nat) : ((Spec.enum n s)[k]? = none ↔ Spec.card n s ≤ k) ∧
    ∀ v, (Spec.enum n s)[k]? = some v ↔ v < n ∧ s v = true ∧ Spec.card v s = k := by
  refine ⟨List.getElem?_eq_none_iff, fun v => ⟨fun e => ?_, ?_⟩⟩
  · obtain ⟨hk', e'⟩ := List.getElem?_eq_some_iff.1 e
    obtain ⟨x, h1, h2, h3, h4⟩ := enum_getElem_lt (n := n) (k := k) (s := s) hk'
    rw [h1] at e
    cases e
    exact ⟨h2, h3, h4⟩
  · rintro ⟨h1, h2, h3⟩
    obtain ⟨x, g1, g2, g3, g4⟩ := enum_getElem_lt (n := n) (k := k) (s := s) (by rw [← h3]; exact card_lt_of_mem h1 h2)
    rw [g1]
    rcases Nat.lt_trichotomy x v with hlt | rfl | hlt
    · have := card_lt_of_mem hlt g3; omega
    · rfl
    · have := card_lt_of_mem hlt h2; omega

theorem card_range {s : NSet} {a b : Nat} (hab : a ≤ b) (hb : b ≤ 2 ^ 64) : Spec.card b s - Spec.card a s = Spec.card (2 ^ 64) (Spec.inter (Spec.range a b) s) := by
  have := card_between (s := s) hab hb
  rw [← this, Nat.add_sub_cancel]
  exact card_congr' fun x hx => by simp [Spec.inter, Spec.range]

theorem card_range_zero {s : NSet} {a b : Nat} (hab : b ≤ a) : Spec.card (2 ^ 64) (Spec.inter (Spec.range a b) s) = 0 := by
  refine card_eq_zero.2 fun y _ => ?_
  by_cases h1 : a ≤ y
  · have : ¬ y < b := by omega
    simp [Spec.inter, Spec.range, this]
  · simp [Spec.inter, Spec.range, h1]

theorem lists_enum {s : NSet} (n : Nat) (hn : n = 2 ^ 64) : Lists (Spec.enum n s) s :=
  ⟨enum_sorted _ _, fun v => by rw [mem_enum, hn]⟩

/-- The answers about a bitmap that represents a set. -/
theorem answers_of {r : R64M} {L : ArtRef → Prop} {R : R64} {s : NSet} (h : Sim64 r L R) (hs : Rep64 R s) : Answers r s := by
  have hR := hs.inv.1
  have hT : ∀ {x : Nat}, x < 2 ^ 64 → x < TOP64 := fun h => by unfold TOP64; omega
  have lacks : Lacks s → Spec.card TOP64 s < TOP64 := fun ⟨y, hy, hh⟩ => card_lacks (y := y) (hT hy) hh
  have top : TOP64 = 2 ^ 64 := rfl
  constructor
  · intro v hv
    rw [rank_sim hR h, r64Rank_eq hs (hT hv)]; rfl
  · intro v hv
    rw [getIndex_sim hR h, r64GetIndex_eq hs (hT hv)]
  · intro k hk
    refine ⟨_, select_sim hR h k, fun hl => ?_⟩
    rw [r64Select_eq hs (hT hk) (hl.imp lacks (fun h => by unfold TOP64; omega))]
    exact select_list TOP64
  · rw [isEmpty_sim hR h]; exact r64IsEmpty_iff hs
  · obtain ⟨a1, a2⟩ := r64Minimum_spec hs
    exact ⟨_, minimum_sim hR h, a1, fun v hv => ⟨(a2 ⟨v, hv⟩).1, (a2 ⟨v, hv⟩).2 v hv⟩⟩
  · obtain ⟨a1, a2⟩ := r64Maximum_spec hs
    exact ⟨_, maximum_sim hR h, a1, fun v hv => ⟨(a2 ⟨v, hv⟩).1, (a2 ⟨v, hv⟩).2 v hv⟩⟩
  · intro lo hi hhi
    rw [rangeClosed_sim hR h]
    by_cases hle : lo ≤ hi
    · rw [r64RangeCardinalityClosed_eq hs (hT hhi) hle, card_range (by omega) (by omega)]; rfl
    · unfold r64RangeCardinalityClosed num64
      rw [if_pos (by omega), card_range_zero (by omega)]
  · intro lo hi hhi
    rw [range_sim hR h, r64RangeCardinality_eq hs (hT hhi)]
    by_cases hle : lo ≤ hi
    · rw [card_range hle (by omega)]
      refine congrArg Out.ok (Nat.mod_eq_of_lt ?_)
      exact card_lacks (y := hi) hhi (by simp [Spec.inter, Spec.range])
    · have hm : Spec.card hi s ≤ Spec.card lo s := by
        have := card_between (n := lo) (s := s) (show hi ≤ lo by omega) (Nat.le_refl _)
        omega
      rw [Nat.sub_eq_zero_of_le hm, card_range_zero (by omega)]
      rfl
  · intro lo hi hhi
    exact ⟨_, containsRange_sim hR h lo hi, r64ContainsRange_complete hs (hT hhi), r64ContainsRange_iff hs (hT hhi)⟩
  · intro lo hi junk hhi
    exact ⟨_, intersectRange_sim hR h lo hi junk itZero, r64IntersectWithRange_iff hs (hT hhi) _⟩
  · intro junk
    refine ⟨_, toUint64_sim hR h junk itZero, fun hl => ?_⟩
    have hc := lacks hl
    have e : ∀ n, Spec.card n s < 18446744073709551616 → (Spec.enum n s).take 18446744073709551615 = Spec.enum n s :=
      fun n hn => List.take_of_length_le (show Spec.card n s ≤ _ by omega)
    rw [r64ToUint64_eq hs, e TOP64 hc]
    exact lists_enum TOP64 top
  · obtain ⟨l, hl, -⟩ := id hs
    obtain ⟨i1, i2, i3, i4, -⟩ := r64Statistics_spec hl
    refine ⟨_, statistics_sim hR h, ?_, ?_, ?_⟩
    · rw [i4, r64Cardinality_eq hs]; rfl
    · rw [i2, minimum_sim hR h]
    · rw [i3, maximum_sim hR h]

/-- Every bitmap that is there after a history of calls represents its set. -/
theorem pool_is {os : List Op} (ho : Sets.AllAllowed [] os) : ∃ p, Mem.run [] os = .ok (p, (Sets.run [] os).2) ∧ Fit Is64 p (Sets.run [] os).1 := by
  have h0 : Fit Is64 [] [] := ⟨rfl, fun i => ⟨fun s hs => (by simp at hs), fun hs => (by simp at hs)⟩⟩
  exact pool_run_ok os h0 ho

/-- C122: after any history of calls that make, change and combine 64-bit bitmaps, the functions that read one of them use no memory that is not allocated, or
of another type than allocated, or through a pointer that has become invalid, and answer as is said of its set (`Answers`): `roaring64_bitmap_rank`, `_get_index`,
`_select`, `_is_empty`, `_minimum`, `_maximum`, `_range_closed_cardinality`, `_range_cardinality`, `_contains_range`, `_intersect_with_range`,
`_to_uint64_array` and `_statistics`.  (For `_select` on the set of all 2^64 numbers see C65, for `_contains_range` C61.) -/
theorem C122_questions (os : List Op) (ho : Sets.AllAllowed [] os) :
    ∃ p, Mem.run [] os = .ok (p, (Sets.run [] os).2) ∧ Fit Answers p (Sets.run [] os).1 := by
  obtain ⟨p, h1, h2⟩ := pool_is ho
  exact ⟨p, h1, fit_imp h2 fun r s ⟨L, R, h3, h4⟩ => answers_of h3 h4⟩

theorem lists_top (s : NSet) : ∃ l, l = Spec.enum TOP64 s ∧ Lists l s := ⟨_, rfl, lists_enum TOP64 rfl⟩

theorem iterate_enum {σ : Type} (f : σ → Nat → σ × Bool) (z : σ) {r : R64M} {L : ArtRef → Prop} {R : R64} {s : NSet} (h3 : Sim64 r L R) (h4 : Rep64 R s) :
    ∃ y, R64M.iterate f z r = .ok y ∧ y = callUntil f z (Spec.enum TOP64 s) := ⟨_, iterate_sim h4.inv.1 h3 f z, r64Iterate_eq f z h4⟩

theorem iterate_lists {σ : Type} (f : σ → Nat → σ × Bool) (z : σ) {r : R64M} {L : ArtRef → Prop} {R : R64} {s : NSet} (h3 : Sim64 r L R) (h4 : Rep64 R s) :
    ∃ l z' b, Lists l s ∧ R64M.iterate f z r = .ok (z', b) ∧ calls f z l z' b := by
  obtain ⟨y, e1, e2⟩ := iterate_enum f z h3 h4
  obtain ⟨l, e3, e4⟩ := lists_top s
  rw [← e3] at e2
  exact ⟨l, y.1, y.2, e4, e1, e2 ▸ calls_callUntil f z l⟩

/-- C122: `roaring64_bitmap_iterate` calls the callback on the values in increasing order until it answers `false`, and answers whether it never did. -/
theorem C122_iterate {σ : Type} (f : σ → Nat → σ × Bool) (z : σ) (os : List Op) (ho : Sets.AllAllowed [] os) :
    ∃ p, Mem.run [] os = .ok (p, (Sets.run [] os).2) ∧
      Fit (fun r s => ∃ l z' b, Lists l s ∧ R64M.iterate f z r = .ok (z', b) ∧ calls f z l z' b) p (Sets.run [] os).1 := by
  obtain ⟨p, h1, h2⟩ := pool_is ho
  exact ⟨p, h1, fit_imp h2 fun r s ⟨L, R, h3, h4⟩ => iterate_lists f z h3 h4⟩

/-! ### Iterators -/

/-- A call on an iterator in memory: the values read and the iterator after it. -/
def _root_.CRoaring.R64M.iterStep (r : R64M) (it : Iter64M) : IterOp → Out (List Nat × Iter64M)
  | .advance => do
    let it ← r.advance it
    .ok ([], it)
  | .previous => do
    let it ← r.previous it
    .ok ([], it)
  | .moveEqualOrLarger v => do
    let it ← r.moveTo it v
    .ok ([], it)
  | .read n => r.read it n

/-- `roaring64_iterator_has_value` and `roaring64_iterator_value`: src/roaring64.c:2584-2590. -/
def _root_.CRoaring.Iter64M.sees (it : Iter64M) : Option Nat := if it.hasValue then some it.value else none

/-- A sequence of calls on an iterator: what each reads, and what is seen after it. -/
def _root_.CRoaring.R64M.iterRun (r : R64M) : Iter64M → List IterOp → Out (List (List Nat × Option Nat))
  | _, [] => .ok []
  | it, op :: ops => do
    let x ← r.iterStep it op
    let y ← R64M.iterRun r x.2 ops
    .ok ((x.1, x.2.sees) :: y)

/-- A new iterator, at the first or at the last value, made in the memory `junk`: what is seen then, and what a sequence of calls shows. -/
def _root_.CRoaring.R64M.iterFrom (r : R64M) (junk : Iter64M) (first : Bool) (ops : List IterOp) : Out (Option Nat × List (List Nat × Option Nat)) := do
  let it ← r.initAt junk first
  let y ← r.iterRun it ops
  .ok (it.sees, y)

theorem sees_sim {r : R64M} {L : ArtRef → Prop} {R : R64} {im : Iter64M} {ia : Iter64} (h : IB r L R im ia) : im.sees = iter64Sees ia := by
  rw [h.same]; rfl

theorem iterStep_sim {r : R64M} {L : ArtRef → Prop} {R : R64} (hR : ArtOk R) (hs : Sim64 r L R) {im : Iter64M} {ia : Iter64} (h : IB r L R im ia) (op : IterOp) :
    ∃ im', r.iterStep im op = .ok ((iter64Step R ia op).1, im') ∧ IB r L R im' (iter64Step R ia op).2 := by
  cases op with
  | advance =>
    obtain ⟨im', g1, g2⟩ := advance_sim hR hs h
    exact ⟨im', by rw [R64M.iterStep, g1]; rfl, g2⟩
  | previous =>
    obtain ⟨im', g1, g2⟩ := previous_sim hR hs h
    exact ⟨im', by rw [R64M.iterStep, g1]; rfl, g2⟩
  | moveEqualOrLarger v =>
    obtain ⟨im', g1, g2⟩ := moveTo_sim hR h v
    exact ⟨im', by rw [R64M.iterStep, g1]; rfl, g2⟩
  | read n => exact read_sim hR h n

theorem iterRun_sim {r : R64M} {L : ArtRef → Prop} {R : R64} (hR : ArtOk R) (hs : Sim64 r L R) : ∀ (ops : List IterOp) {im : Iter64M} {ia : Iter64},
    IB r L R im ia → r.iterRun im ops = .ok (iter64Run R ia ops)
  | [], _, _, _ => rfl
  | op :: ops, im, ia, h => by
    obtain ⟨im', g1, g2⟩ := iterStep_sim hR hs h op
    simp only [R64M.iterRun, g1, ok_bind, iterRun_sim hR hs ops g2, sees_sim g2, iter64Run]

/-- What is said of the iterators over a bitmap with the set `s`: any sequence of calls uses only memory that it may use, and shows what the same calls on
a cursor on the list of the values show (`cursor64Run`, Verif/Props/C67.lean). -/
def Iterates (r : R64M) (s : NSet) : Prop :=
  ∃ l, Lists l s ∧ ∀ (junk : Iter64M) (ops : List IterOp), (∀ op ∈ ops, op.ok64) →
    (∃ y, r.iterFrom junk true ops = .ok (cursor64Sees l (some 1), y) ∧ ∀ o, cursor64Run l (some 1) ops = some o → y = o) ∧
    ∃ y, r.iterFrom junk false ops = .ok (cursor64Sees l (some l.length), y) ∧ ∀ o, cursor64Run l (some l.length) ops = some o → y = o

/-- C123: after any history of calls that make, change and combine 64-bit bitmaps, any sequence of calls on an iterator over one of them, made in memory with
any content, uses no memory that is not allocated or of another type than allocated, nor a pointer that has become invalid; and what it shows is what a cursor
on the increasing list of the values shows.  (What `advance` and `previous` show after a read that reached the end is not said: see C69.) -/
theorem C123_iterators (os : List Op) (ho : Sets.AllAllowed [] os) :
    ∃ p, Mem.run [] os = .ok (p, (Sets.run [] os).2) ∧ Fit Iterates p (Sets.run [] os).1 := by
  obtain ⟨p, h1, h2⟩ := pool_is ho
  refine ⟨p, h1, fit_imp h2 fun r s ⟨L, R, h3, h4⟩ => ?_⟩
  have hR := h4.inv.1
  obtain ⟨hv, hc⟩ := fin64 h4
  obtain ⟨l, k1, k2, -⟩ := C68_iterator hv (Iter64M.over ⟨HIt.zero, 0, 0, 0, false, false⟩ itZero)
  have hl : ∀ (l' : List Nat), l'.Pairwise (· < ·) → (∀ v, v ∈ l' ↔ v < 2 ^ 64 ∧ r64Contains R v = true) → l' = l := by
    intro l' h1 h2
    refine List.Perm.eq_of_pairwise (fun a b _ _ h1 h2 => absurd h1 (by omega)) h1 k1 ?_
    refine (List.perm_ext_iff_of_nodup (h1.imp (fun h => by omega)) (k1.imp (fun h => by omega))).2 fun v => ?_
    rw [h2, k2]
  refine ⟨l, ⟨k1, fun v => ?_⟩, fun junk ops hops => ?_⟩
  · rw [k2]
    constructor
    · rintro ⟨h1, h2⟩; exact ⟨h1, by rw [← hc v h1]; exact h2⟩
    · rintro ⟨h1, h2⟩; exact ⟨h1, by rw [hc v h1]; exact h2⟩
  · obtain ⟨l', m1, m2, m3, m4, m5⟩ := C68_iterator hv (junk.over itZero)
    cases hl l' m1 m2
    constructor
    · obtain ⟨im, g1, g2⟩ := initAt_sim hR h3 junk itZero true
      refine ⟨iter64Run R (it64InitAt R (junk.over itZero) true) ops, ?_, fun o ho => (m5 ops hops o).1 ho⟩
      rw [R64M.iterFrom, g1, ok_bind, iterRun_sim hR h3 ops g2, ok_bind, sees_sim g2, m3]
    · obtain ⟨im, g1, g2⟩ := initAt_sim hR h3 junk itZero false
      refine ⟨iter64Run R (it64InitAt R (junk.over itZero) false) ops, ?_, fun o ho => (m5 ops hops o).2 ho⟩
      rw [R64M.iterFrom, g1, ok_bind, iterRun_sim hR h3 ops g2, ok_bind, sees_sim g2, m4]

/-! ### A case -/

/-- A bitmap with leaves at different places of the tree. -/
def c122ops : List Op :=
  [.create, .call 0 (.add 5), .call 0 (.add 131076), .call 0 (.add 65530), .call 0 (.add 131074), .call 0 (.add 65531), .call 0 (.add 9223372036854775815),
    .call 0 (.add 131075), .create, .call 1 (.add 131075), .andnotInplace c121keep 0 1]

example : Sets.AllAllowed [] c122ops := by
  simp [c122ops, Sets.AllAllowed, Sets.Allowed, Sets.step, Sets.Has, Req64.Ok]

/-- A question about the first bitmap. -/
def c122ask {α : Type} (f : R64M → Out α) : Out α := do
  let x ← Mem.run [] c122ops
  let r ← x.1.get 0
  f r

example : c122ask (R64M.rank · 65530) = .ok 2 ∧ c122ask (R64M.rank · 18446744073709551615) = .ok 6 ∧ c122ask (R64M.getIndex · 65531) = .ok (some 2) ∧
    c122ask (R64M.getIndex · 131075) = .ok none ∧ c122ask (R64M.select · 5) = .ok (some 9223372036854775815) ∧ c122ask (R64M.select · 6) = .ok none ∧
    c122ask R64M.minimum = .ok 5 ∧ c122ask R64M.maximum = .ok 9223372036854775815 ∧ c122ask (R64M.rangeClosedCardinality · 6 131074) = .ok 3 ∧
    c122ask (R64M.rangeCardinality · 6 131074) = .ok 2 ∧ c122ask (R64M.containsRange · 65530 65532) = .ok true ∧
    c122ask (R64M.containsRange · 65530 65533) = .ok false := by decide +kernel

/-- Uninitialised memory. -/
def c122junk : Iter64M := ⟨⟨[1], none, 7, 9, []⟩, 3, 12345, 99, true, false⟩

example : c122ask (R64M.intersectWithRange · 131075 131076 c122junk) = .ok false ∧ c122ask (R64M.intersectWithRange · 131075 131077 c122junk) = .ok true := by
  decide +kernel

example : c122ask (fun r => r.iterFrom c122junk true [.advance, .read 1, .moveEqualOrLarger 131075, .previous, .moveEqualOrLarger 131081, .advance, .previous, .read 3,
      .moveEqualOrLarger 4]) =
    .ok (some 5, [([], some 65530), ([65530], some 65531), ([], some 131076), ([], some 131074), ([], some 9223372036854775815), ([], none),
      ([], some 9223372036854775815), ([9223372036854775815], none), ([], some 5)]) := by decide +kernel

end CRoaring.Props
