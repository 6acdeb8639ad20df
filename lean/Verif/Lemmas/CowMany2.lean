import Verif.Lemmas.CowMany
import Verif.Lemmas.Cow11

set_option linter.unusedSimpArgs false
set_option linter.unusedVariables false

/-! The lazy operations, the many-way operations and the shift of the heap model, with respect to the sets that the
bitmaps represent. -/

namespace CRoaring
open Spec

variable {g : Bool}

/-- `x` is a bitmap of `h`, perhaps the outcome of lazy operations, with the elements `S`. -/
def LGood (h : Heap) (x : HBitmap) (S : NSet) : Prop :=
  LBInv (vw h x.slots) ∧ ∀ v, bhas (vw h x.slots) v = S v

theorem LGood.keep {h h' : Heap} {x : HBitmap} {S : NSet} (a : LGood h x S) {l : List Ref}
    (q : Keep h h' l) (hl : refs x.slots ⊆ l) : LGood h' x S := by
  rw [LGood, Keep.vw (q.mono hl)]; exact a

theorem Good.lgood {h : Heap} {x : HBitmap} {S : NSet} (a : Good g h x S) : LGood h x S := ⟨a.2.1.lazy, a.2.2⟩

theorem LGood.shOf {h : Heap} {x : HBitmap} {S : NSet} (a : LGood h x S) :
    ∀ p ∈ x.slots, shOf x.slots p.1 = p.2.sh := by
  have := a.1.sorted
  apply shOf_spec
  simpa [keysOf, CRoaring.vw, List.map_map, Function.comp_def] using this

/-- A new lazy bitmap from two different ones. -/
def MLOk (g : Bool) (u : Heap → HBitmap → HBitmap → Option (HBitmap × HBitmap × HBitmap × Heap))
    (f : NSet → NSet → NSet) : Prop :=
  ∀ h x y l S T, HInv g h (refs x.slots ++ (refs y.slots ++ l)) → Good g h x S → Good g h y T →
    ∃ a x' y' h', u h x y = some (a, x', y', h') ∧
      HInv g h' (refs a.slots ++ (refs x'.slots ++ (refs y'.slots ++ l))) ∧
      a.cow = g ∧ LGood h' a (f S T) ∧ Good g h' x' S ∧ Good g h' y' T ∧ Keep h h' l

/-- A new lazy bitmap from a bitmap and itself. -/
def SLOk (g : Bool) (u : Heap → HBitmap → HBitmap → Option (HBitmap × HBitmap × HBitmap × Heap))
    (f : NSet → NSet → NSet) : Prop :=
  ∀ h x l S, HInv g h (refs x.slots ++ l) → Good g h x S →
    ∃ a x' y' h', u h x x = some (a, x', y', h') ∧ HInv g h' (refs a.slots ++ (refs x'.slots ++ l)) ∧
      a.cow = g ∧ LGood h' a (f S S) ∧ Good g h' x' S ∧ Keep h h' l

/-- An update of a lazy bitmap by another one. -/
def BLOk (g : Bool) (u : Heap → HBitmap → HBitmap → Option (HBitmap × HBitmap × Heap)) (f : NSet → NSet → NSet) :
    Prop :=
  ∀ h x y l S T, HInv g h (refs x.slots ++ (refs y.slots ++ l)) → LGood h x S → Good g h y T →
    ∃ x' y' h', u h x y = some (x', y', h') ∧ HInv g h' (refs x'.slots ++ (refs y'.slots ++ l)) ∧
      (x'.cow = x.cow ∨ x'.cow = g) ∧ LGood h' x' (f S T) ∧ Good g h' y' T ∧ Keep h h' l

theorem hLazyOr_ok (o : Nat → Bool) (conv : Bool) : MLOk g (hLazyOr o conv) Spec.union := by
  intro h x y l S T i a b
  have s := rbLazyOr_spec conv a.2.1.lazy b.2.1.lazy
  have s2 : ∀ v, bhas (rbLazyOr conv (vw h x.slots) (vw h y.slots)) v = Spec.union S T v := by
    intro v; rw [s.2, a.2.2, b.2.2]; rfl
  simp only [rbLazyOr, vw_length] at s s2
  simp only [hLazyOr]
  by_cases hx : x.slots.length = 0
  · simp only [if_pos hx] at s s2 ⊢
    obtain ⟨c, y', h', e, i', c', b', q⟩ := hCopy_ok h y (refs x.slots ++ l) T (i.perm (by count_tac)) b
    refine ⟨c, x, y', h', by simp [e], i'.perm (by count_tac), c'.1, ⟨c'.2.1.lazy, fun v => ?_⟩,
      a.keep q (by sub_tac), b', q.mono (by sub_tac)⟩
    rw [c'.2.2, ← s2, rbCopy, b.2.2]
  by_cases hy : y.slots.length = 0
  · simp only [if_neg hx, if_pos hy] at s s2 ⊢
    obtain ⟨c, x', h', e, i', c', a', q⟩ := hCopy_ok h x (refs y.slots ++ l) S i a
    refine ⟨c, x', y, h', by simp [e], i', c'.1, ⟨c'.2.1.lazy, fun v => ?_⟩,
      a', b.keep q (by sub_tac), q.mono (by sub_tac)⟩
    rw [c'.2.2, ← s2, rbCopy, a.2.2]
  · simp only [if_neg hx, if_neg hy] at s s2 ⊢
    obtain ⟨c, s', t', h', e, i', w, w1, w2, q⟩ := hLazyOrLoop_spec o conv _ x.slots y.slots h l (Nat.le_refl _) i
    exact ⟨⟨g, c⟩, ⟨x.cow, s'⟩, ⟨y.cow, t'⟩, h', by simp [a.1, b.1, e], i', rfl,
      ⟨by rw [w]; exact s.1, by rw [w]; exact s2⟩, a.of_vw w1 rfl, b.of_vw w2 rfl, q⟩

theorem hLazyOr_self (o : Nat → Bool) (conv : Bool) : SLOk g (hLazyOr o conv) Spec.union := by
  intro h x l S i a
  have s := rbLazyOr_spec conv a.2.1.lazy a.2.1.lazy
  have s2 : ∀ v, bhas (rbLazyOr conv (vw h x.slots) (vw h x.slots)) v = Spec.union S S v := by
    intro v; rw [s.2, a.2.2]; rfl
  simp only [rbLazyOr, vw_length] at s s2
  simp only [hLazyOr]
  by_cases hx : x.slots.length = 0
  · simp only [if_pos hx] at s s2 ⊢
    have hn := slots_nil hx
    refine ⟨⟨x.cow, []⟩, x, ⟨x.cow, []⟩, h, by simp [hCopy, hn, copySlots], by simpa using i, a.1, ?_, a, Keep.refl _ _⟩
    rw [hn, rbCopy] at s s2
    exact ⟨s.1, s2⟩
  · simp only [if_neg hx] at s s2 ⊢
    obtain ⟨c, h', e, i', w, q⟩ := hLazyOrLoop_self o conv (c1 := x.cow) (c2 := x.cow) x.slots h _ i (by sub_tac)
    exact ⟨⟨g, c⟩, ⟨x.cow, x.slots⟩, ⟨x.cow, x.slots⟩, h', by rw [e]; simp [a.1], i', rfl,
      ⟨by rw [w]; exact s.1, by rw [w]; exact s2⟩, a.keep q (by sub_tac), q.mono (by sub_tac)⟩

theorem hLazyXor_ok : MLOk g hLazyXor Spec.symm := by
  intro h x y l S T i a b
  have s := rbLazyXor_spec a.2.1.lazy b.2.1.lazy
  have s2 : ∀ v, bhas (rbLazyXor (vw h x.slots) (vw h y.slots)) v = Spec.symm S T v := by
    intro v; rw [s.2, a.2.2, b.2.2]; rfl
  simp only [rbLazyXor, vw_length] at s s2
  simp only [hLazyXor]
  by_cases hx : x.slots.length = 0
  · simp only [if_pos hx] at s s2 ⊢
    obtain ⟨c, y', h', e, i', c', b', q⟩ := hCopy_ok h y (refs x.slots ++ l) T (i.perm (by count_tac)) b
    refine ⟨c, x, y', h', by simp [e], i'.perm (by count_tac), c'.1, ⟨c'.2.1.lazy, fun v => ?_⟩,
      a.keep q (by sub_tac), b', q.mono (by sub_tac)⟩
    rw [c'.2.2, ← s2, rbCopy, b.2.2]
  by_cases hy : y.slots.length = 0
  · simp only [if_neg hx, if_pos hy] at s s2 ⊢
    obtain ⟨c, x', h', e, i', c', a', q⟩ := hCopy_ok h x (refs y.slots ++ l) S i a
    refine ⟨c, x', y, h', by simp [e], i', c'.1, ⟨c'.2.1.lazy, fun v => ?_⟩,
      a', b.keep q (by sub_tac), q.mono (by sub_tac)⟩
    rw [c'.2.2, ← s2, rbCopy, a.2.2]
  · simp only [if_neg hx, if_neg hy] at s s2 ⊢
    obtain ⟨c, s', t', h', e, i', w, w1, w2, q⟩ := hLazyXorLoop_spec _ x.slots y.slots h l (Nat.le_refl _) i
    exact ⟨⟨g, c⟩, ⟨x.cow, s'⟩, ⟨y.cow, t'⟩, h', by simp [a.1, b.1, e], i', rfl,
      ⟨by rw [w]; exact s.1, by rw [w]; exact s2⟩, a.of_vw w1 rfl, b.of_vw w2 rfl, q⟩

theorem hLazyXor_self : SLOk g hLazyXor Spec.symm := by
  intro h x l S i a
  have s := rbLazyXor_spec a.2.1.lazy a.2.1.lazy
  have s2 : ∀ v, bhas (rbLazyXor (vw h x.slots) (vw h x.slots)) v = Spec.symm S S v := by
    intro v; rw [s.2, a.2.2]; rfl
  simp only [rbLazyXor, vw_length] at s s2
  simp only [hLazyXor]
  by_cases hx : x.slots.length = 0
  · simp only [if_pos hx] at s s2 ⊢
    have hn := slots_nil hx
    refine ⟨⟨x.cow, []⟩, x, ⟨x.cow, []⟩, h, by simp [hCopy, hn, copySlots], by simpa using i, a.1, ?_, a, Keep.refl _ _⟩
    rw [hn, rbCopy] at s s2
    exact ⟨s.1, s2⟩
  · simp only [if_neg hx] at s s2 ⊢
    obtain ⟨c, h', e, i', w, q⟩ := hLazyXorLoop_self (c1 := x.cow) (c2 := x.cow) x.slots h _ i (by sub_tac)
    exact ⟨⟨g, c⟩, ⟨x.cow, x.slots⟩, ⟨x.cow, x.slots⟩, h', by rw [e]; simp [a.1], i', rfl,
      ⟨by rw [w]; exact s.1, by rw [w]; exact s2⟩, a.keep q (by sub_tac), q.mono (by sub_tac)⟩

theorem overwrite_lazy {h : Heap} {x y : HBitmap} {l : List Ref} {T : NSet}
    (i : HInv g h (refs x.slots ++ (refs y.slots ++ l))) (b : Good g h y T) :
    ∃ x' y' h', hOverwrite h x y = some (x', y', h') ∧ HInv g h' (refs x'.slots ++ (refs y'.slots ++ l)) ∧
      Good g h' x' T ∧ Good g h' y' T ∧ Keep h h' l := by
  obtain ⟨h1, e1, i1, q1⟩ := freeSlots_spec i
  obtain ⟨d, s', h2, e2, i2, w1, w2, q2⟩ := copySlots_spec i1
  have wy : vw h1 y.slots = vw h y.slots := Keep.vw (q1.mono (by sub_tac))
  exact ⟨⟨g, d⟩, ⟨g, s'⟩, h2, by simp [hOverwrite, e1, b.1, e2], i2, b.of_vw (w1.trans wy) b.1.symm,
    b.of_vw (w2.trans wy) b.1.symm, q1.trans q2 (by sub_tac) (List.Subset.refl _)⟩

theorem hLazyOrInplace_ok (o : Nat → Bool) (conv : Bool) (caps : Nat → Nat) :
    BLOk g (hLazyOrInplace o conv caps) Spec.union := by
  intro h x y l S T i a b
  have s := rbLazyOrInplace_spec conv caps a.1 b.2.1.lazy
  have s2 : ∀ v, bhas (rbLazyOrInplace conv caps (vw h x.slots) (vw h y.slots)) v = Spec.union S T v := by
    intro v; rw [s.2, a.2, b.2.2]; rfl
  simp only [rbLazyOrInplace, vw_length] at s s2
  simp only [hLazyOrInplace]
  by_cases hy : y.slots.length = 0
  · simp only [if_pos hy] at s s2 ⊢
    exact ⟨x, y, h, rfl, i, Or.inl rfl, ⟨s.1, s2⟩, b, Keep.refl _ _⟩
  by_cases hx : x.slots.length = 0
  · simp only [if_neg hy, if_pos hx] at s s2 ⊢
    obtain ⟨x', y', h', e, i', a', b', q⟩ := overwrite_lazy i b
    refine ⟨x', y', h', e, i', Or.inr a'.1, ⟨a'.2.1.lazy, fun v => ?_⟩, b', q⟩
    rw [a'.2.2, ← s2, rbOverwrite, b.2.2]
  · simp only [if_neg hy, if_neg hx] at s s2 ⊢
    obtain ⟨s', t', h', e, i', w, w2, q⟩ := hLazyOrInplaceLoop_spec o conv caps _ x.slots y.slots h l
      (Nat.le_refl _) i
    exact ⟨⟨x.cow, s'⟩, ⟨y.cow, t'⟩, h', by simp [b.1, e], i', Or.inl rfl, ⟨by rw [w]; exact s.1, by rw [w]; exact s2⟩,
      b.of_vw w2 rfl, q⟩

theorem hLazyXorInplace_ok (o : Nat → Bool) : BLOk g (hLazyXorInplace o) Spec.symm := by
  intro h x y l S T i a b
  have s := rbLazyXorInplace_spec (shOf x.slots) a.1 b.2.1
  have s2 : ∀ v, bhas (rbLazyXorInplace (shOf x.slots) (vw h x.slots) (vw h y.slots)) v = Spec.symm S T v := by
    intro v; rw [s.2, a.2, b.2.2]; rfl
  simp only [rbLazyXorInplace, vw_length] at s s2
  simp only [hLazyXorInplace]
  by_cases hy : y.slots.length = 0
  · simp only [if_pos hy] at s s2 ⊢
    exact ⟨x, y, h, rfl, i, Or.inl rfl, ⟨s.1, s2⟩, b, Keep.refl _ _⟩
  by_cases hx : x.slots.length = 0
  · simp only [if_neg hy, if_pos hx] at s s2 ⊢
    obtain ⟨x', y', h', e, i', a', b', q⟩ := overwrite_lazy i b
    refine ⟨x', y', h', e, i', Or.inr a'.1, ⟨a'.2.1.lazy, fun v => ?_⟩, b', q⟩
    rw [a'.2.2, ← s2, rbOverwrite, b.2.2]
  · simp only [if_neg hy, if_neg hx] at s s2 ⊢
    obtain ⟨s', t', h', e, i', w, w2, q⟩ := hLazyXorInplaceLoop_spec o (shOf x.slots) _ x.slots y.slots h l
      (Nat.le_refl _) i a.shOf
    exact ⟨⟨x.cow, s'⟩, ⟨y.cow, t'⟩, h', by simp [b.1, e], i', Or.inl rfl, ⟨by rw [w]; exact s.1, by rw [w]; exact s2⟩,
      b.of_vw w2 rfl, q⟩

theorem hLazyLazy_ok (o : Nat → Bool) (caps1 caps2 : Nat → Nat) {h : Heap} {x y : HBitmap} {l : List Ref} {S T : NSet}
    (i : HInv g h (refs x.slots ++ (refs y.slots ++ l))) (a : LGood h x S) (b : LGood h y T) :
    ∃ c h', hLazyLazy o caps1 caps2 h x y = some (c, h') ∧ HInv g h' (refs c.slots ++ l) ∧
      (c.cow = x.cow ∨ c.cow = y.cow ∨ c.cow = false) ∧ LGood h' c (Spec.union S T) ∧ Keep h h' l := by
  have s := lazyOrFromLazyInputs_spec caps1 caps2 a.1 b.1
  have s2 : ∀ v, bhas (lazyOrFromLazyInputs caps1 caps2 (vw h x.slots) (vw h y.slots)) v = Spec.union S T v := by
    intro v; rw [s.2, a.2, b.2]; rfl
  simp only [lazyOrFromLazyInputs, vw_length] at s s2
  simp only [hLazyLazy]
  by_cases hx : x.slots.length = 0
  · simp only [if_pos hx] at s s2 ⊢
    obtain ⟨h1, e1, i1, q1⟩ := freeSlots_spec i
    have wy : vw h1 y.slots = vw h y.slots := Keep.vw (q1.mono (by sub_tac))
    exact ⟨y, h1, by simp [hFree, e1], i1, Or.inr (Or.inl rfl), by rw [LGood, wy]; exact ⟨s.1, s2⟩,
      q1.mono (by sub_tac)⟩
  by_cases hy : y.slots.length = 0
  · simp only [if_neg hx, if_pos hy] at s s2 ⊢
    obtain ⟨h1, e1, i1, q1⟩ := freeSlots_spec (s := y.slots) (l := refs x.slots ++ l) (i.perm (by count_tac))
    have wx : vw h1 x.slots = vw h x.slots := Keep.vw (q1.mono (by sub_tac))
    exact ⟨x, h1, by simp [hFree, e1], i1, Or.inl rfl, by rw [LGood, wx]; exact ⟨s.1, s2⟩,
      q1.mono (by sub_tac)⟩
  · simp only [if_neg hx, if_neg hy] at s s2 ⊢
    obtain ⟨s', h', e, i', w, q⟩ := hLazyLazyLoop_spec o caps1 caps2 _ x.slots y.slots h l (Nat.le_refl _) i
    exact ⟨⟨false, s'⟩, h', by simp [e], i', Or.inr (Or.inr rfl), ⟨by rw [w]; exact s.1, by rw [w]; exact s2⟩, q⟩

theorem hRepair_ok (o : Nat → Bool) {h : Heap} {x : HBitmap} {l : List Ref} {S : NSet}
    (i : HInv g h (refs x.slots ++ l)) (a : LGood h x S) :
    ∃ x' h', hRepair o h x = some (x', h') ∧ HInv g h' (refs x'.slots ++ l) ∧ Good x.cow h' x' S ∧
      (∀ p ∈ x'.slots, p.2.sh = false) ∧ Keep h h' l := by
  obtain ⟨s', h', e, i', w, hs, q⟩ := hRepairLoop_spec o i
  have s := rbRepair_spec a.1
  exact ⟨⟨x.cow, s'⟩, h', by simp [hRepair, e], i', ⟨rfl, by rw [w]; exact s.1, fun v => by rw [w, s.2, a.2]⟩, hs, q⟩

/-! ### The shift -/

theorem hOffsetKeys_spec (co : Int) {s : List Slot} {h : Heap} {l : List Ref} (i : HInv g h (refs s ++ l)) :
    ∃ a s' h', hOffsetKeys g co h s = some (a, s', h') ∧ HInv g h' (refs a ++ (refs s' ++ l)) ∧
      vw h' a = offsetKeys co (vw h s) ∧ vw h' s' = vw h s ∧ Keep h h' l := by
  induction s generalizing h l with
  | nil => exact ⟨[], [], h, rfl, i, rfl, rfl, Keep.refl _ _⟩
  | cons p t ih =>
    obtain ⟨k, r⟩ := p
    simp only [hOffsetKeys, vw_cons]
    by_cases hk : (k : Int) + co < 0 ∨ (k : Int) + co ≥ 65536
    · obtain ⟨a, s', h', e, i', w1, w2, q⟩ := ih (h := h) (l := r :: l) (i.perm (by count_tac))
      refine ⟨a, (k, r) :: s', h', by simp [if_pos hk, e], i'.perm (by count_tac), ?_, ?_, q.mono (by sub_tac)⟩
      · rw [w1]; simp [offsetKeys, hk]
      · rw [vw_cons, w2, q r (by simp)]
    · obtain ⟨r1, r2, h1, e1, i1, v1, v2, q1⟩ := appendCopy_spec (r := r) (l := refs t ++ l) (i.perm (by count_tac))
      obtain ⟨a, s', h', e, i', w1, w2, q⟩ := ih (h := h1) (l := r1 :: r2 :: l) (i1.perm (by count_tac))
      have wt : vw h1 t = vw h t := Keep.vw (q1.mono (by sub_tac))
      refine ⟨(((k : Int) + co).toNat, r1) :: a, (k, r2) :: s', h', by simp [if_neg hk, e1, e], i'.perm (by count_tac),
        ?_, ?_, q1.trans q (by sub_tac) (by sub_tac)⟩
      · rw [vw_cons, w1, q r1 (by simp), v1, wt]; simp [offsetKeys, hk]
      · rw [vw_cons, w2, q r2 (by simp), v2, wt]

theorem contAt_vw (h : Heap) (s : List Slot) {i : Nat} (hi : i < s.length) :
    contAt (vw h s) i = valC h (slotAt s i).2 := by
  simp [contAt, vw, slotAt, List.getD_eq_getElem?_getD, hi]

theorem hOffsetAppend_spec (o : Nat → Bool) (caps : Nat → Nat) {h : Heap} {ra : List Slot} {l : List Ref} (k : Nat)
    {r : Ref} (i : HInv g h (r :: (refs ra ++ l))) (hs : ∀ p ∈ ra, p.2.sh = false) (hr : r.sh = false) :
    ∃ a h', hOffsetAppend o caps h ra k r = some (a, h') ∧ HInv g h' (refs a ++ l) ∧
      vw h' a = offsetAppendWithMerge caps (vw h ra) k (valC h r) ∧ (∀ p ∈ a, p.2.sh = false) ∧ Keep h h' l := by
  rcases List.eq_nil_or_concat ra with e | ⟨m, z, e⟩
  · subst e
    refine ⟨[(k, r)], h, by simp [hOffsetAppend], i.perm (by count_tac), ?_, by simpa using hr, Keep.refl _ _⟩
    simp [offsetAppendWithMerge, vw]
  rw [List.concat_eq_append] at e
  subst e
  obtain ⟨kz, rz⟩ := z
  have hsl : slotAt (m ++ [(kz, rz)]) m.length = (kz, rz) := slotAt_mid m (kz, rz) []
  have hz : rz.sh = false := hs (kz, rz) (by simp)
  have hk1 : keyAt (vw h (m ++ [(kz, rz)])) m.length = kz := by
    rw [keyAt_vw h (by simp), hsl]
  have hc1 : contAt (vw h (m ++ [(kz, rz)])) m.length = valC h rz := by
    rw [contAt_vw h _ (by simp), hsl]
  simp only [hOffsetAppend, offsetAppendWithMerge, vw_length, List.length_append, List.length_cons, List.length_nil,
    Nat.zero_add, Nat.add_sub_cancel, hsl, hk1, hc1]
  by_cases hk : kz = k
  · subst hk
    rw [if_neg (by simp), if_neg (by simp [hz]), if_neg (by simp)]
    simp only [i.live (r := rz) (by simp), i.live (r := r) (by simp), Option.bind_eq_bind, Option.bind_some]
    obtain ⟨r', h1, e1, i1, v1, q1⟩ := replaceC_spec (r := rz) (l := r :: (refs m ++ l)) (i.perm (by count_tac))
      (o := o kz) (fun _ => hz) (containerIor (caps kz) (valC h rz) (valC h r))
    obtain ⟨h2, e2, i2, q2⟩ := freeC_spec (r := r) (l := r' :: (refs m ++ l)) (i1.perm (by count_tac))
    have wm : vw h2 m = vw h m := Keep.vw (q1.trans q2 (by sub_tac) (by sub_tac))
    refine ⟨(m ++ [(kz, r')]), h2, ?_, i2.perm (by count_tac), ?_, ?_, q1.trans q2 (by sub_tac) (by sub_tac)⟩
    · simp only [e1, e2, Option.bind_some]
      rw [slots_set_mid]
    · have : (vw h (m ++ [(kz, rz)])).set m.length (kz, containerIor (caps kz) (valC h rz) (valC h r)) =
          vw h m ++ [(kz, containerIor (caps kz) (valC h rz) (valC h r))] := by
        rw [vw_append]
        have := vw_length h m
        rw [List.set_append_right _ _ (by omega), this]
        simp [vw]
      rw [this, vw_append, wm]
      simp [vw, q2 r' (by simp), v1]
    · intro p hp
      rcases List.mem_append.1 hp with hp | hp
      · exact hs p (by simp [hp])
      · simp only [List.mem_singleton] at hp
        subst hp
        exact replaceC_sh e1 hz
  · rw [if_pos (Or.inr hk), if_pos (Or.inr hk)]
    refine ⟨_, h, rfl, i.perm (by count_tac), by simp [vw], ?_, Keep.refl _ _⟩
    intro p hp
    rcases List.mem_append.1 hp with hp | hp
    · exact hs p hp
    · simp only [List.mem_singleton] at hp
      subst hp
      exact hr

theorem hOffsetLoop_spec (o : Nat → Bool) (caps : Nat → Nat) (co : Int) (inOff : Nat) : ∀ (s : List Slot) (h : Heap)
    (ans : List Slot) (L : List Ref), HInv g h (refs ans ++ L) → refs s ⊆ L → (∀ p ∈ ans, p.2.sh = false) →
    ∃ a h', hOffsetLoop o caps co inOff h ans s = some (a, h') ∧ HInv g h' (refs a ++ L) ∧
      vw h' a = offsetLoop caps co inOff (vw h ans) (vw h s) ∧ Keep h h' L := by
  intro s
  induction s with
  | nil => intro h ans L i hs hn; exact ⟨ans, h, rfl, i, rfl, Keep.refl _ _⟩
  | cons p t ih =>
    intro h ans L i hs hn
    obtain ⟨key, r⟩ := p
    obtain ⟨m1, m2⟩ := refs_sub_cons hs
    simp only [hOffsetLoop, vw_cons, offsetLoop]
    split
    · exact ih h ans L i m2 hn
    simp only [i.live (r := r) (by simp [m1]), Option.bind_eq_bind, Option.bind_some]
    generalize containerAddOffset (valC h r) _ _ inOff = q
    obtain ⟨lo, hi⟩ := q
    have h1 : ∃ a h', hOffsetPutLo o caps h ans ((key : Int) + co) lo = some (a, h') ∧ HInv g h' (refs a ++ L) ∧
        vw h' a = offsetPutLo caps (vw h ans) ((key : Int) + co) lo ∧ (∀ p ∈ a, p.2.sh = false) ∧ Keep h h' L := by
      cases lo with
      | none => exact ⟨ans, h, rfl, i, rfl, hn, Keep.refl _ _⟩
      | some c =>
        obtain ⟨i1, v1, s1, q1⟩ := newC_spec i c
        obtain ⟨a, h', e, i2, w, hs2, q2⟩ := hOffsetAppend_spec o caps ((key : Int) + co).toNat i1 hn s1
        refine ⟨a, h', e, i2, ?_, hs2, q1.trans q2 (by sub_tac) (List.Subset.refl _)⟩
        rw [w, v1, Keep.vw (s := ans) (q1.mono (by sub_tac))]; rfl
    obtain ⟨a, h1, e1, i1, w1, n1, q1⟩ := h1
    simp only [e1, Option.bind_some]
    have h2 : ∃ b h', hOffsetPutHi h1 a ((key : Int) + co) hi = (b, h') ∧ HInv g h' (refs b ++ L) ∧
        vw h' b = offsetPutHi (vw h1 a) ((key : Int) + co) hi ∧ (∀ p ∈ b, p.2.sh = false) ∧ Keep h1 h' L := by
      cases hi with
      | none => exact ⟨a, h1, rfl, i1, rfl, n1, Keep.refl _ _⟩
      | some c =>
        obtain ⟨i2, v2, s2, q2⟩ := newC_spec i1 c
        refine ⟨_, _, rfl, i2.perm (by count_tac), ?_, ?_, q2.mono (by sub_tac)⟩
        · rw [vw_append, Keep.vw (s := a) (q2.mono (by sub_tac))]
          simp [vw, offsetPutHi, v2]
        · intro p hp
          rcases List.mem_append.1 hp with hp | hp
          · exact n1 p hp
          · simp only [List.mem_singleton] at hp
            subst hp
            exact s2
    obtain ⟨b, h2, e2, i2, w2, n2, q2⟩ := h2
    obtain ⟨c, h3, e3, i3, w3, q3⟩ := ih h2 b L i2 m2 n2
    have q12 := q1.trans q2 (List.Subset.refl _) (List.Subset.refl _)
    refine ⟨c, h3, by rw [e2]; exact e3, i3, ?_, q12.trans q3 (List.Subset.refl _) (List.Subset.refl _)⟩
    rw [w3, w2, w1, Keep.vw (q12.mono m2)]

theorem hAddOffset_ok (o : Nat → Bool) (caps : Nat → Nat) (d : Int) :
    NOk g (fun h x => hAddOffset o caps h x d) (fun S => History.shift S d) := by
  intro h x l S i a
  have s := rbAddOffset_spec caps a.2.1 d
  have s2 : ∀ v, bhas (rbAddOffset caps (vw h x.slots) d) v = History.shift S d v := by
    intro v
    rw [s.2, shifted, History.shift, Bool.decide_and, a.2.2]
  unfold rbAddOffset at s s2
  simp only [hAddOffset]
  by_cases hd : d = 0
  · simp only [if_pos hd] at s s2 ⊢
    obtain ⟨c, x', h', e, i', c', a', q⟩ := hCopy_ok h x l S i a
    refine ⟨c, x', h', e, i', ⟨c'.1, c'.2.1, fun v => ?_⟩, a', q⟩
    rw [c'.2.2, ← s2, rbCopy, a.2.2]
  simp only [if_neg hd] at s s2 ⊢
  generalize d / 65536 = co at s s2 ⊢
  generalize ((d - co * 65536) % 65536).toNat = inOff at s s2 ⊢
  by_cases hz : inOff = 0
  · simp only [if_pos hz] at s s2 ⊢
    obtain ⟨c, s', h', e, i', w1, w2, q⟩ := hOffsetKeys_spec co i
    exact ⟨⟨x.cow, c⟩, ⟨x.cow, s'⟩, h', by simp [a.1, e], i', ⟨a.1, by rw [w1]; exact s.1, by rw [w1]; exact s2⟩,
      a.of_vw w2 rfl, q⟩
  · simp only [if_neg hz] at s s2 ⊢
    obtain ⟨c, h1, e1, i1, w1, q1⟩ := hOffsetLoop_spec (round o 0) caps co inOff x.slots h [] (refs x.slots ++ l) i
      (by sub_tac) (by simp)
    obtain ⟨c2, h2, e2, i2, w2, _, q2⟩ := hRepairLoop_spec (round o 1) i1
    have hw : vw h2 c2 = rbRepair (offsetLoop caps co inOff [] (vw h x.slots)) := by rw [w2, w1]; rfl
    have q12 := q1.trans q2 (List.Subset.refl _) (List.Subset.refl _)
    exact ⟨⟨x.cow, c2⟩, x, h2, by simp [e1, hRepair, e2], i2, ⟨a.1, by rw [hw]; exact s.1, by rw [hw]; exact s2⟩,
      a.keep q12 (by sub_tac), q12.mono (by sub_tac)⟩

end CRoaring
