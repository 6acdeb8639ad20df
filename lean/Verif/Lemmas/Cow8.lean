import Verif.Lemmas.Cow7
import Verif.Lemmas.Bulk
import Verif.Lemmas.Query2

set_option linter.unusedSimpArgs false
set_option linter.unusedVariables false

/-! The operations of the heap model, with respect to the sets that the bitmaps represent. -/

namespace CRoaring
open Spec

/-- `x` is a valid bitmap of `h` with the flag `g` and the elements `S`. -/
def Good (g : Bool) (h : Heap) (x : HBitmap) (S : NSet) : Prop :=
  x.cow = g ∧ BInv (vw h x.slots) ∧ ∀ v, bhas (vw h x.slots) v = S v

theorem Good.keep {g : Bool} {h h' : Heap} {x : HBitmap} {S : NSet} (a : Good g h x S) {l : List Ref}
    (q : Keep h h' l) (hl : refs x.slots ⊆ l) : Good g h' x S := by
  rw [Good, Keep.vw (q.mono hl)]; exact a

theorem Good.of_vw {g : Bool} {h h' : Heap} {x x' : HBitmap} {S : NSet} (a : Good g h x S)
    (e : vw h' x'.slots = vw h x.slots) (e2 : x'.cow = x.cow) : Good g h' x' S := by
  rw [Good, e, e2]; exact a

/-- An update of one bitmap. -/
def UOk (g : Bool) (u : Heap → HBitmap → Option (HBitmap × Heap)) (f : NSet → NSet) : Prop :=
  ∀ h x l S, HInv g h (refs x.slots ++ l) → Good g h x S →
    ∃ x' h', u h x = some (x', h') ∧ HInv g h' (refs x'.slots ++ l) ∧ Good g h' x' (f S) ∧ Keep h h' l

/-- A new bitmap from one. -/
def NOk (g : Bool) (u : Heap → HBitmap → Option (HBitmap × HBitmap × Heap)) (f : NSet → NSet) : Prop :=
  ∀ h x l S, HInv g h (refs x.slots ++ l) → Good g h x S →
    ∃ a x' h', u h x = some (a, x', h') ∧ HInv g h' (refs a.slots ++ (refs x'.slots ++ l)) ∧
      Good g h' a (f S) ∧ Good g h' x' S ∧ Keep h h' l

/-- An update of one bitmap by another one. -/
def BOk (g : Bool) (u : Heap → HBitmap → HBitmap → Option (HBitmap × HBitmap × Heap)) (f : NSet → NSet → NSet) :
    Prop :=
  ∀ h x y l S T, HInv g h (refs x.slots ++ (refs y.slots ++ l)) → Good g h x S → Good g h y T →
    ∃ x' y' h', u h x y = some (x', y', h') ∧ HInv g h' (refs x'.slots ++ (refs y'.slots ++ l)) ∧
      Good g h' x' (f S T) ∧ Good g h' y' T ∧ Keep h h' l

/-- A new bitmap from two different ones. -/
def MOk (g : Bool) (u : Heap → HBitmap → HBitmap → Option (HBitmap × HBitmap × HBitmap × Heap))
    (f : NSet → NSet → NSet) : Prop :=
  ∀ h x y l S T, HInv g h (refs x.slots ++ (refs y.slots ++ l)) → Good g h x S → Good g h y T →
    ∃ a x' y' h', u h x y = some (a, x', y', h') ∧
      HInv g h' (refs a.slots ++ (refs x'.slots ++ (refs y'.slots ++ l))) ∧
      Good g h' a (f S T) ∧ Good g h' x' S ∧ Good g h' y' T ∧ Keep h h' l

/-- A new bitmap from a bitmap and itself. -/
def SOk (g : Bool) (u : Heap → HBitmap → HBitmap → Option (HBitmap × HBitmap × HBitmap × Heap))
    (f : NSet → NSet → NSet) : Prop :=
  ∀ h x l S, HInv g h (refs x.slots ++ l) → Good g h x S →
    ∃ a x' y' h', u h x x = some (a, x', y', h') ∧ HInv g h' (refs a.slots ++ (refs x'.slots ++ l)) ∧
      Good g h' a (f S S) ∧ Good g h' x' S ∧ Keep h h' l

variable {g : Bool}

theorem range_closed (m n y : Nat) : decide (m ≤ y ∧ y ≤ n) = Spec.range m (n + 1) y := by
  simp only [Spec.range, Bool.decide_and]
  congr 1
  apply decide_eq_decide.2; omega

/-! ### Updates of one bitmap -/

theorem hClear_ok : UOk g hClear (fun _ => Spec.empty) := by
  intro h x l S i a
  obtain ⟨h', e, i', q⟩ := freeSlots_spec i
  exact ⟨⟨x.cow, []⟩, h', by simp [hClear, e], by simpa using i', ⟨a.1, trivial, fun _ => rfl⟩, q⟩

theorem hAdd_ok (o : Nat → Bool) {v : Nat} (hv : v < 4294967296) :
    UOk g (fun h x => hAdd o h x v) (fun S => Spec.insert S v) := by
  intro h x l S i a
  obtain ⟨x', h', e, ec, i', w, q⟩ := hAdd_spec o v i a.2.1
  have s := rbAdd_spec a.2.1 hv
  refine ⟨x', h', e, i', ⟨ec.trans a.1, w ▸ s.1, fun y => ?_⟩, q⟩
  rw [w, s.2]; simp only [Spec.insert, a.2.2]

theorem hRemove_ok (o : Nat → Bool) {v : Nat} (hv : v < 4294967296) :
    UOk g (fun h x => hRemove o h x v) (fun S => Spec.erase S v) := by
  intro h x l S i a
  obtain ⟨x', h', e, ec, i', w, q⟩ := hRemove_spec o v i a.2.1
  have s := rbRemove_spec a.2.1 hv
  refine ⟨x', h', e, i', ⟨ec.trans a.1, w ▸ s.1, fun y => ?_⟩, q⟩
  rw [w, s.2]; simp only [Spec.erase, a.2.2]

theorem hAddRange_ok (o : Nat → Bool) {m n : Nat} (hn : n < 4294967296) :
    UOk g (fun h x => hAddRangeClosed o h x m n) (fun S => Spec.union S (Spec.range m (n + 1))) := by
  intro h x l S i a
  obtain ⟨x', h', e, ec, i', w, q⟩ := hAddRangeClosed_spec o m n i a.2.1
  have s := rbAddRangeClosed_spec a.2.1 (min := m) hn
  refine ⟨x', h', e, i', ⟨ec.trans a.1, w ▸ s.1, fun y => ?_⟩, q⟩
  rw [w, s.2, a.2.2, Bool.or_comm]
  rw [range_closed]; rfl

theorem hRemoveRangeClosed_spec (o : Nat → Bool) {h : Heap} {x : HBitmap} {l : List Ref} (m n : Nat)
    (i : HInv g h (refs x.slots ++ l)) :
    ∃ x' h', hRemoveRangeClosed o h x m n = some (x', h') ∧ x'.cow = x.cow ∧ HInv g h' (refs x'.slots ++ l) ∧
      vw h' x'.slots = rbRemoveRangeClosed (vw h x.slots) m n ∧ Keep h h' l := by
  unfold hRemoveRangeClosed rbRemoveRangeClosed
  by_cases hmm : m > n
  · rw [if_pos hmm, if_pos hmm]
    exact ⟨x, h, rfl, rfl, i, rfl, Keep.refl _ _⟩
  rw [if_neg hmm, if_neg hmm]
  simp only [keysOf_skel h, vw_length]
  generalize (countLess (rdL (keysOf (vw h x.slots))) x.slots.length (m / 65536)).toNat = c
  have er : refs x.slots = refs (x.slots.take c) ++ refs (x.slots.drop c) := by
    rw [← refs_append, List.take_append_drop]
  rw [← vw_take, ← vw_drop]
  rw [er] at i
  obtain ⟨a, h', e, i', w, q⟩ := hRemoveRangeLoop_spec o m n (m / 65536) (n / 65536) (s := x.slots.drop c)
    (l := refs (x.slots.take c) ++ l) (i.perm (by count_tac))
  refine ⟨⟨x.cow, x.slots.take c ++ a⟩, h', by simp [e], rfl, i'.perm (by count_tac), ?_, q.mono (by sub_tac)⟩
  simp only [vw_append]
  rw [w, Keep.vw (s := x.slots.take c) (q.mono (by sub_tac))]

theorem hRemoveRange_ok (o : Nat → Bool) {m n : Nat} :
    UOk g (fun h x => hRemoveRangeClosed o h x m n) (fun S => Spec.diff S (Spec.range m (n + 1))) := by
  intro h x l S i a
  obtain ⟨x', h', e, ec, i', w, q⟩ := hRemoveRangeClosed_spec o m n i
  have s := rbRemoveRangeClosed_spec a.2.1 m n
  refine ⟨x', h', e, i', ⟨ec.trans a.1, w ▸ s.1, fun y => ?_⟩, q⟩
  rw [w, s.2, a.2.2]
  rw [range_closed]; rfl

theorem hFlipInplace_ok (o : Nat → Bool) {m n : Nat} (hn : n < 4294967296) :
    UOk g (fun h x => hFlipInplaceClosed o h x m n) (fun S => Spec.symm S (Spec.range m (n + 1))) := by
  intro h x l S i a
  obtain ⟨x', h', e, ec, i', w, q⟩ := hFlipInplaceClosed_spec o (rs := m) hn i a.2.1
  have s := rbFlipInplaceClosed_spec a.2.1 (rs := m) hn
  refine ⟨x', h', e, i', ⟨ec.trans a.1, w ▸ s.1, fun y => ?_⟩, q⟩
  rw [w, s.2, a.2.2, range_closed]
  simp only [Spec.symm]
  cases S y <;> cases Spec.range m (n + 1) y <;> rfl

theorem hRunOptimize_ok (o : Nat → Bool) : UOk g (fun h x => hRunOptimize o h x) (fun S => S) := by
  intro h x l S i a
  obtain ⟨s', h', e, i', w, q⟩ := hRunOptimizeLoop_spec o i
  have s := rbRunOptimize_spec a.2.1
  refine ⟨⟨x.cow, s'⟩, h', by simp [hRunOptimize, e], i', ⟨a.1, w ▸ s.1, fun y => ?_⟩, q⟩
  simp only [w]
  rw [s.2, a.2.2]

theorem hRemoveRun_ok : UOk g hRemoveRun (fun S => S) := by
  intro h x l S i a
  obtain ⟨s', h', e, i', w, q⟩ := hRemoveRunLoop_spec i
  have s := rbRemoveRunCompression_spec a.2.1
  refine ⟨⟨x.cow, s'⟩, h', by simp [hRemoveRun, e], i', ⟨a.1, w ▸ s.1, fun y => ?_⟩, q⟩
  simp only [w]
  rw [s.2, a.2.2]

theorem id_ok : UOk g (fun h x => some (x, h)) (fun S => S) :=
  fun h x l S i a => ⟨x, h, rfl, i, a, Keep.refl _ _⟩

/-! ### New bitmaps from one -/

theorem hCopy_ok : NOk g hCopy (fun S => S) := by
  intro h x l S i a
  obtain ⟨b, s', h', e, i', w1, w2, q⟩ := copySlots_spec i
  exact ⟨⟨g, b⟩, ⟨g, s'⟩, h', by simp [hCopy, a.1, e], i', a.of_vw w1 a.1.symm, a.of_vw w2 a.1.symm, q⟩

theorem hFlip_ok {m n : Nat} (hn : n < 4294967296) :
    NOk g (fun h x => hFlipClosed h x m n) (fun S => Spec.symm S (Spec.range m (n + 1))) := by
  intro h x l S i a
  obtain ⟨b, x', h', e, c1, c2, i', w, w2, q⟩ := hFlipClosed_spec m n a.1 i a.2.1
  have s := rbFlipClosed_spec a.2.1 (rs := m) hn
  refine ⟨b, x', h', e, i', ⟨c1, w ▸ s.1, fun y => ?_⟩, a.of_vw w2 (c2.trans a.1.symm), q⟩
  rw [w, s.2, a.2.2, range_closed]
  simp only [Spec.symm]
  cases S y <;> cases Spec.range m (n + 1) y <;> rfl

/-! ### Updates of one bitmap by another one -/

/-- Whether the cell of key `k` is shared. -/
def shOf (s : List Slot) (k : Nat) : Bool := s.any (fun p => p.1 == k && p.2.sh)

theorem shOf_spec {s : List Slot} (hs : SSorted (s.map (·.1))) : ∀ p ∈ s, shOf s p.1 = p.2.sh := by
  induction s with
  | nil => intro p hp; simp at hp
  | cons q t ih =>
    have h1 := List.pairwise_cons.1 hs
    intro p hp
    rcases List.mem_cons.1 hp with rfl | hp
    · have : shOf t p.1 = false := by
        simp only [shOf, List.any_eq_false]
        intro r hr
        have := h1.1 r.1 (List.mem_map.2 ⟨r, hr, rfl⟩)
        simp only at this; simp; intro he; omega
      simp only [shOf, List.any_cons] at this ⊢
      rw [this]; simp
    · have h2 := h1.1 p.1 (List.mem_map.2 ⟨p, hp, rfl⟩)
      simp only at h2
      have : (q.1 == p.1) = false := beq_eq_false_iff_ne.2 (by omega)
      have h3 := ih h1.2 p hp
      simp only [shOf, List.any_cons, this, Bool.false_and, Bool.false_or] at h3 ⊢
      exact h3

theorem Good.shOf {h : Heap} {x : HBitmap} {S : NSet} (a : Good g h x S) :
    ∀ p ∈ x.slots, shOf x.slots p.1 = p.2.sh := by
  have := a.2.1.sorted
  apply shOf_spec
  simpa [keysOf, CRoaring.vw, List.map_map, Function.comp_def] using this

theorem hOverwrite_ok : BOk g hOverwrite (fun _ T => T) := by
  intro h x y l S T i a b
  obtain ⟨h1, e1, i1, q1⟩ := freeSlots_spec i
  obtain ⟨d, s', h2, e2, i2, w1, w2, q2⟩ := copySlots_spec i1
  have wy : vw h1 y.slots = vw h y.slots := Keep.vw (q1.mono (by sub_tac))
  exact ⟨⟨g, d⟩, ⟨g, s'⟩, h2, by simp [hOverwrite, e1, b.1, e2], i2, b.of_vw (w1.trans wy) b.1.symm,
    b.of_vw (w2.trans wy) b.1.symm, q1.trans q2 (by sub_tac) (List.Subset.refl _)⟩

theorem hAndInplace_ok (o : Nat → Bool) :
    BOk g (fun h x y => (hAndInplace o h x y).map fun (x, h) => (x, y, h)) Spec.inter := by
  intro h x y l S T i a b
  obtain ⟨s', h', e, i', w, q⟩ := hAndInplaceLoop_spec o (shOf x.slots) _ x.slots y.slots h (refs y.slots ++ l)
    (Nat.le_refl _) i (by sub_tac) a.shOf
  have s := rbAndInplace_spec false (shOf x.slots) a.2.1 b.2.1 (by simp)
  simp only [rbAndInplace, Bool.false_eq_true, if_false] at s
  refine ⟨⟨x.cow, s'⟩, y, h', by simp [hAndInplace, e], i', ⟨a.1, w ▸ s.1, fun v => ?_⟩, b.keep q (by sub_tac),
    q.mono (by sub_tac)⟩
  simp only [w]
  rw [s.2, a.2.2, b.2.2]; rfl

theorem slots_nil {s : List Slot} (h : s.length = 0) : s = [] := List.length_eq_zero_iff.1 h

theorem hOrInplace_ok (o : Nat → Bool) (caps : Nat → Nat) :
    BOk g (fun h x y => hOrInplace o caps h x y) Spec.union := by
  intro h x y l S T i a b
  have s := rbOrInplace_spec (shOf x.slots) caps a.2.1 b.2.1
  have s2 : ∀ v, bhas (rbOrInplace (shOf x.slots) caps (vw h x.slots) (vw h y.slots)) v = Spec.union S T v := by
    intro v; rw [s.2, a.2.2, b.2.2]; rfl
  simp only [rbOrInplace, vw_length] at s s2
  simp only [hOrInplace]
  by_cases hy : y.slots.length = 0
  · simp only [if_pos hy] at s s2 ⊢
    exact ⟨x, y, h, rfl, i, ⟨a.1, s.1, s2⟩, b, Keep.refl _ _⟩
  by_cases hx : x.slots.length = 0
  · simp only [if_neg hy, if_pos hx] at s s2 ⊢
    obtain ⟨x', y', h', e, i', a', b', q⟩ := hOverwrite_ok h x y l S T i a b
    refine ⟨x', y', h', e, i', ⟨a'.1, a'.2.1, fun v => ?_⟩, b', q⟩
    rw [a'.2.2, ← s2, rbOverwrite, b.2.2]
  · simp only [if_neg hy, if_neg hx] at s s2 ⊢
    obtain ⟨s', t', h', e, i', w, w2, q⟩ := hOrInplaceLoop_spec o (shOf x.slots) caps _ x.slots y.slots h l
      (Nat.le_refl _) i a.shOf
    exact ⟨⟨x.cow, s'⟩, ⟨y.cow, t'⟩, h', by simp [b.1, e], i', ⟨a.1, by rw [w]; exact s.1, by rw [w]; exact s2⟩,
      b.of_vw w2 rfl, q⟩

theorem hXorInplace_ok (o : Nat → Bool) : BOk g (fun h x y => hXorInplace o h x y) Spec.symm := by
  intro h x y l S T i a b
  have s := rbXorInplace_spec (shOf x.slots) a.2.1 b.2.1
  have s2 : ∀ v, bhas (rbXorInplace (shOf x.slots) (vw h x.slots) (vw h y.slots)) v = Spec.symm S T v := by
    intro v; rw [s.2, a.2.2, b.2.2]; rfl
  simp only [rbXorInplace, vw_length] at s s2
  simp only [hXorInplace]
  by_cases hy : y.slots.length = 0
  · simp only [if_pos hy] at s s2 ⊢
    exact ⟨x, y, h, rfl, i, ⟨a.1, s.1, s2⟩, b, Keep.refl _ _⟩
  by_cases hx : x.slots.length = 0
  · simp only [if_neg hy, if_pos hx] at s s2 ⊢
    obtain ⟨x', y', h', e, i', a', b', q⟩ := hOverwrite_ok h x y l S T i a b
    refine ⟨x', y', h', e, i', ⟨a'.1, a'.2.1, fun v => ?_⟩, b', q⟩
    rw [a'.2.2, ← s2, rbOverwrite, b.2.2]
  · simp only [if_neg hy, if_neg hx] at s s2 ⊢
    obtain ⟨s', t', h', e, i', w, w2, q⟩ := hXorInplaceLoop_spec o (shOf x.slots) _ x.slots y.slots h l
      (Nat.le_refl _) i a.shOf
    exact ⟨⟨x.cow, s'⟩, ⟨y.cow, t'⟩, h', by simp [b.1, e], i', ⟨a.1, by rw [w]; exact s.1, by rw [w]; exact s2⟩,
      b.of_vw w2 rfl, q⟩

theorem hAndnotInplace_ok (o : Nat → Bool) :
    BOk g (fun h x y => (hAndnotInplace o h x y).map fun (x, h) => (x, y, h)) Spec.diff := by
  intro h x y l S T i a b
  have s := rbAndnotInplace_spec (shOf x.slots) a.2.1 b.2.1
  have s2 : ∀ v, bhas (rbAndnotInplace (shOf x.slots) (vw h x.slots) (vw h y.slots)) v = Spec.diff S T v := by
    intro v; rw [s.2, a.2.2, b.2.2]; rfl
  simp only [rbAndnotInplace, vw_length] at s s2
  simp only [hAndnotInplace]
  by_cases hy : y.slots.length = 0
  · simp only [if_pos hy] at s s2 ⊢
    exact ⟨x, y, h, rfl, i, ⟨a.1, s.1, s2⟩, b, Keep.refl _ _⟩
  by_cases hx : x.slots.length = 0
  · simp only [if_neg hy, if_pos hx] at s s2 ⊢
    obtain ⟨x', h', e, i', a', q⟩ := hClear_ok h x (refs y.slots ++ l) S i a
    refine ⟨x', y, h', by simp [e], i', ⟨a'.1, a'.2.1, fun v => ?_⟩, b.keep q (by sub_tac), q.mono (by sub_tac)⟩
    rw [a'.2.2, ← s2, rbClear]; rfl
  · simp only [if_neg hy, if_neg hx] at s s2 ⊢
    obtain ⟨s', h', e, i', w, q⟩ := hAndnotInplaceLoop_spec o (shOf x.slots) _ x.slots y.slots h (refs y.slots ++ l)
      (Nat.le_refl _) i (by sub_tac) a.shOf
    exact ⟨⟨x.cow, s'⟩, y, h', by simp [e], i', ⟨a.1, by rw [w]; exact s.1, by rw [w]; exact s2⟩,
      b.keep q (by sub_tac), q.mono (by sub_tac)⟩

/-! ### New bitmaps from two -/

theorem hAnd_ok : MOk g (fun h x y => (hAnd h x y).map fun (a, h) => (a, x, y, h)) Spec.inter := by
  intro h x y l S T i a b
  obtain ⟨s', h', e, i', w, q⟩ := hAndLoop_spec _ x.slots y.slots h _ (Nat.le_refl _) i (by sub_tac) (by sub_tac)
  have s := rbAnd_spec a.2.1 b.2.1
  refine ⟨⟨x.cow || y.cow, s'⟩, x, y, h', by simp [hAnd, e], i', ⟨by simp [a.1, b.1], w ▸ s.1, fun v => ?_⟩,
    a.keep q (by sub_tac), b.keep q (by sub_tac), q.mono (by sub_tac)⟩
  simp only [w]
  rw [s.2, a.2.2, b.2.2]; rfl

theorem hAnd_self : SOk g (fun h x y => (hAnd h x y).map fun (a, h) => (a, x, y, h)) Spec.inter := by
  intro h x l S i a
  obtain ⟨s', h', e, i', w, q⟩ := hAndLoop_spec _ x.slots x.slots h _ (Nat.le_refl _) i (by sub_tac) (by sub_tac)
  have s := rbAnd_spec a.2.1 a.2.1
  refine ⟨⟨x.cow || x.cow, s'⟩, x, x, h', by simp [hAnd, e], i', ⟨by simp [a.1], w ▸ s.1, fun v => ?_⟩,
    a.keep q (by sub_tac), q.mono (by sub_tac)⟩
  simp only [w]
  rw [s.2, a.2.2]; rfl

theorem hOr_ok : MOk g hOr Spec.union := by
  intro h x y l S T i a b
  have s := rbOr_spec a.2.1 b.2.1
  have s2 : ∀ v, bhas (rbOr (vw h x.slots) (vw h y.slots)) v = Spec.union S T v := by
    intro v; rw [s.2, a.2.2, b.2.2]; rfl
  simp only [rbOr, vw_length] at s s2
  simp only [hOr]
  by_cases hx : x.slots.length = 0
  · simp only [if_pos hx] at s s2 ⊢
    obtain ⟨c, y', h', e, i', c', b', q⟩ := hCopy_ok h y (refs x.slots ++ l) T (i.perm (by count_tac)) b
    refine ⟨c, x, y', h', by simp [e], i'.perm (by count_tac), ⟨c'.1, c'.2.1, fun v => ?_⟩,
      a.keep q (by sub_tac), b', q.mono (by sub_tac)⟩
    rw [c'.2.2, ← s2, rbCopy, b.2.2]
  by_cases hy : y.slots.length = 0
  · simp only [if_neg hx, if_pos hy] at s s2 ⊢
    obtain ⟨c, x', h', e, i', c', a', q⟩ := hCopy_ok h x (refs y.slots ++ l) S i a
    refine ⟨c, x', y, h', by simp [e], i', ⟨c'.1, c'.2.1, fun v => ?_⟩,
      a', b.keep q (by sub_tac), q.mono (by sub_tac)⟩
    rw [c'.2.2, ← s2, rbCopy, a.2.2]
  · simp only [if_neg hx, if_neg hy] at s s2 ⊢
    obtain ⟨c, s', t', h', e, i', w, w1, w2, q⟩ := hOrLoop_spec _ x.slots y.slots h l (Nat.le_refl _) i
    exact ⟨⟨g, c⟩, ⟨x.cow, s'⟩, ⟨y.cow, t'⟩, h', by simp [a.1, b.1, e], i',
      ⟨rfl, by rw [w]; exact s.1, by rw [w]; exact s2⟩, a.of_vw w1 rfl, b.of_vw w2 rfl, q⟩

theorem hXor_ok : MOk g hXor Spec.symm := by
  intro h x y l S T i a b
  have s := rbXor_spec a.2.1 b.2.1
  have s2 : ∀ v, bhas (rbXor (vw h x.slots) (vw h y.slots)) v = Spec.symm S T v := by
    intro v; rw [s.2, a.2.2, b.2.2]; rfl
  simp only [rbXor, vw_length] at s s2
  simp only [hXor]
  by_cases hx : x.slots.length = 0
  · simp only [if_pos hx] at s s2 ⊢
    obtain ⟨c, y', h', e, i', c', b', q⟩ := hCopy_ok h y (refs x.slots ++ l) T (i.perm (by count_tac)) b
    refine ⟨c, x, y', h', by simp [e], i'.perm (by count_tac), ⟨c'.1, c'.2.1, fun v => ?_⟩,
      a.keep q (by sub_tac), b', q.mono (by sub_tac)⟩
    rw [c'.2.2, ← s2, rbCopy, b.2.2]
  by_cases hy : y.slots.length = 0
  · simp only [if_neg hx, if_pos hy] at s s2 ⊢
    obtain ⟨c, x', h', e, i', c', a', q⟩ := hCopy_ok h x (refs y.slots ++ l) S i a
    refine ⟨c, x', y, h', by simp [e], i', ⟨c'.1, c'.2.1, fun v => ?_⟩,
      a', b.keep q (by sub_tac), q.mono (by sub_tac)⟩
    rw [c'.2.2, ← s2, rbCopy, a.2.2]
  · simp only [if_neg hx, if_neg hy] at s s2 ⊢
    obtain ⟨c, s', t', h', e, i', w, w1, w2, q⟩ := hXorLoop_spec _ x.slots y.slots h l (Nat.le_refl _) i
    exact ⟨⟨g, c⟩, ⟨x.cow, s'⟩, ⟨y.cow, t'⟩, h', by simp [a.1, b.1, e], i',
      ⟨rfl, by rw [w]; exact s.1, by rw [w]; exact s2⟩, a.of_vw w1 rfl, b.of_vw w2 rfl, q⟩

theorem hAndnot_ok : MOk g (fun h x y => (hAndnot h x y).map fun (a, x, h) => (a, x, y, h)) Spec.diff := by
  intro h x y l S T i a b
  have s := rbAndnot_spec a.2.1 b.2.1
  have s2 : ∀ v, bhas (rbAndnot (vw h x.slots) (vw h y.slots)) v = Spec.diff S T v := by
    intro v; rw [s.2, a.2.2, b.2.2]; rfl
  simp only [rbAndnot, vw_length] at s s2
  simp only [hAndnot]
  by_cases hx : x.slots.length = 0
  · simp only [if_pos hx] at s s2 ⊢
    exact ⟨⟨x.cow || y.cow, []⟩, x, y, h, rfl, by simpa using i, ⟨by simp [a.1, b.1], s.1, s2⟩, a, b, Keep.refl _ _⟩
  by_cases hy : y.slots.length = 0
  · simp only [if_neg hx, if_pos hy] at s s2 ⊢
    obtain ⟨c, x', h', e, i', c', a', q⟩ := hCopy_ok h x (refs y.slots ++ l) S i a
    refine ⟨c, x', y, h', by simp [e], i', ⟨c'.1, c'.2.1, fun v => ?_⟩,
      a', b.keep q (by sub_tac), q.mono (by sub_tac)⟩
    rw [c'.2.2, ← s2, rbCopy, a.2.2]
  · simp only [if_neg hx, if_neg hy] at s s2 ⊢
    obtain ⟨c, s', h', e, i', w, w1, q⟩ := hAndnotLoop_spec _ x.slots y.slots h (refs y.slots ++ l) (Nat.le_refl _) i
      (by sub_tac)
    exact ⟨⟨g, c⟩, ⟨x.cow, s'⟩, y, h', by simp [a.1, b.1, e], i',
      ⟨rfl, by rw [w]; exact s.1, by rw [w]; exact s2⟩, a.of_vw w1 rfl, b.keep q (by sub_tac), q.mono (by sub_tac)⟩

end CRoaring
