import Verif.Lemmas.Cow9

set_option linter.unusedSimpArgs false
set_option linter.unusedVariables false

namespace CRoaring
open Spec

/-! ### remove_many, without sharing -/

theorem keyAt_vw (h : Heap) {s : List Slot} {i : Nat} (hi : i < s.length) : keyAt (vw h s) i = (slotAt s i).1 := by
  obtain ⟨A, p, B, rfl, rfl⟩ : ∃ A p B, s = A ++ p :: B ∧ i = A.length :=
    ⟨s.take i, s[i], s.drop (i + 1), by simp, by simp; omega⟩
  rw [slotAt_mid, vw_append, vw_cons]
  have := keyAt_mid (vw h A) p.1 (valC h p.2) (vw h B)
  rwa [vw_length] at this

theorem hRemoveManyStep_spec (o : Bool) {h : Heap} {s : List Slot} {pos : Int} {l : List Ref} (v : Nat)
    (i : HInv false h (refs s ++ l)) (b : BInv (vw h s)) (hp : pos < s.length) :
    ∃ s' pos' h', hRemoveManyStep o h s pos v = some (s', pos', h') ∧ HInv false h' (refs s' ++ l) ∧
      vw h' s' = rbRemove (vw h s) v ∧ Keep h h' l ∧ pos' < s'.length := by
  have hpos : (if pos < 0 ∨ v / 65536 ≠ (slotAt s pos.toNat).1 then raGetIndex (skel s) (v / 65536) else pos) =
      raGetIndex (skel s) (v / 65536) := by
    split
    · rfl
    · rename_i hh
      have h1 : ¬ pos < 0 := fun hq => hh (Or.inl hq)
      have h2 : v / 65536 = (slotAt s pos.toNat).1 := Classical.byContradiction fun hq => hh (Or.inr hq)
      have h3 : pos.toNat < s.length := by omega
      rw [raGetIndex_skel h, h2, ← keyAt_vw h h3, raGetIndex_keyAt b (by rw [vw_length]; omega)]
      omega
  obtain ⟨x', h', e, ec, i', w, q⟩ := hRemove_spec (fun _ => o) (x := ⟨false, s⟩) v i b
  simp only [hRemoveManyStep]
  rw [hpos]
  rcases slot_split b (v / 65536) with ⟨A, r, B, es, hi⟩ | ⟨A, B, es, hi⟩
  · simp only [hRemove, hi] at e
    simp only [hi]
    rw [if_pos (by omega)] at e ⊢
    simp only [Int.toNat_natCast] at e ⊢
    subst es
    have hr : r.sh = false := i.uni rfl r (by simp)
    have i1 : HInv false h (r :: (refs A ++ (refs B ++ l))) := i.perm (by count_tac)
    simp only [slotAt_mid] at e ⊢
    rw [modifyOwn_plain o h hr i1]
    simp only [unshareC, hr, Bool.false_eq_true, if_false, Option.bind_eq_bind, Option.bind_some,
      i1.live (r := r) (by simp)] at e
    obtain ⟨r2, h2, e2, i2, v2, q2⟩ := replaceC_spec i1 (o := o) (fun _ => hr) (containerRemove (v % 65536) (valC h r))
    simp only [e2, Option.bind_eq_bind, Option.bind_some, i2.live (r := r2) (by simp), v2] at e ⊢
    by_cases hz : containerNonzero (containerRemove (v % 65536) (valC h r)) = true
    · simp only [hz, if_true, Option.some.injEq, Prod.mk.injEq] at e ⊢
      obtain ⟨rfl, rfl⟩ := e
      exact ⟨_, _, _, ⟨rfl, rfl, rfl⟩, i', w, q, by simp; omega⟩
    · simp only [hz, Bool.false_eq_true, if_false] at e ⊢
      cases hf : freeC h2 r2 with
      | none => simp [hf] at e
      | some h3 =>
        simp only [hf, Option.bind_some, Option.some.injEq, Prod.mk.injEq] at e ⊢
        obtain ⟨rfl, rfl⟩ := e
        exact ⟨_, _, _, ⟨rfl, rfl, rfl⟩, i', w, q, by omega⟩
  · simp only [hRemove, hi] at e
    simp only [hi]
    rw [if_neg (by omega)] at e ⊢
    simp only [Option.some.injEq, Prod.mk.injEq] at e
    obtain ⟨rfl, rfl⟩ := e
    exact ⟨_, _, _, rfl, i', w, q, by omega⟩

theorem hRemoveManyLoop_spec (o : Nat → Bool) {l : List Ref} : ∀ (vals : List Nat) {h : Heap} {s : List Slot}
    {pos : Int}, (∀ v ∈ vals, v < 4294967296) → HInv false h (refs s ++ l) → BInv (vw h s) → pos < s.length →
    ∃ s' h', hRemoveManyLoop o h s pos vals = some (s', h') ∧ HInv false h' (refs s' ++ l) ∧
      BInv (vw h' s') ∧ (∀ y, bhas (vw h' s') y = (!decide (y ∈ vals) && bhas (vw h s) y)) ∧ Keep h h' l := by
  intro vals
  induction vals with
  | nil =>
    intro h s pos hv i b hp
    exact ⟨s, h, rfl, i, b, fun y => by simp, Keep.refl _ _⟩
  | cons v vs ih =>
    intro h s pos hv i b hp
    obtain ⟨s1, pos1, h1, e1, i1, w1, q1, hp1⟩ := hRemoveManyStep_spec (o vs.length) v i b hp
    have sp := rbRemove_spec b (hv v (by simp))
    obtain ⟨s2, h2, e2, i2, b2, w2, q2⟩ := ih (fun v hv' => hv v (List.mem_cons_of_mem _ hv')) i1
      (w1 ▸ sp.1) hp1
    refine ⟨s2, h2, by simp [hRemoveManyLoop, e1, e2], i2, b2, fun y => ?_,
      q1.trans q2 (List.Subset.refl _) (List.Subset.refl _)⟩
    rw [w2, w1, sp.2]
    by_cases hy : y = v
    · simp [hy, Spec.erase]
    · have h3 : (y != v) = true := by simp [hy]
      simp [hy, Spec.erase, h3]

theorem hRemoveMany_ok (o : Nat → Bool) {vals : List Nat} (hv : ∀ v ∈ vals, v < 4294967296) :
    UOk false (fun h x => hRemoveMany o h x vals) (fun S => Spec.diff S (Spec.ofList vals)) := by
  intro h x l S i a
  simp only [hRemoveMany]
  split
  · rename_i h0
    refine ⟨x, h, rfl, i, ⟨a.1, a.2.1, fun y => ?_⟩, Keep.refl _ _⟩
    rcases h0 with h0 | h0
    · have : vals = [] := List.length_eq_zero_iff.1 h0
      subst this
      rw [a.2.2]; simp [Spec.diff, Spec.ofList]
    · have hs := slots_nil h0
      have h2 := a.2.2 y
      rw [hs] at h2 ⊢
      simp only [Spec.diff]
      rw [← h2]; simp [bhas_nil]
  · obtain ⟨s', h', e, i', b', w, q⟩ := hRemoveManyLoop_spec o vals hv i a.2.1 (pos := -1) (by omega)
    refine ⟨⟨x.cow, s'⟩, h', by simp [e], i', ⟨a.1, b', fun y => ?_⟩, q⟩
    rw [w, a.2.2]
    simp only [Spec.diff, Spec.ofList, Bool.and_comm]

/-! ### range_uint32_array, without sharing -/

theorem hRangeLoop_spec (off lim : Nat) {h : Heap} {l : List Ref} (i : HInv false h l) : ∀ (s : List Slot)
    (st : RangeSt), refs s ⊆ l → hRangeLoop off lim h st s = some (rangeLoop off lim st (vw h s), s) := by
  intro s
  induction s with
  | nil => intro st _; rfl
  | cons p t ih =>
    intro st hs
    obtain ⟨k, r⟩ := p
    obtain ⟨h1, h2⟩ := refs_sub_cons hs
    have hr : (⟨false, r.addr⟩ : Ref) = r := by
      have := i.uni rfl r h1
      cases r; simp_all
    simp only [hRangeLoop, vw_cons, rangeLoop, i.live (r := r) h1, Option.bind_eq_bind, Option.bind_some, hr]
    split
    · rfl
    · rw [ih _ h2]; rfl

theorem hRangeUint32_spec (off lim : Nat) {h : Heap} {x : HBitmap} {l : List Ref} (i : HInv false h l)
    (hs : refs x.slots ⊆ l) : hRangeUint32 h x off lim = some (rbRangeUint32 (vw h x.slots) off lim, x) := by
  simp only [hRangeUint32, rbRangeUint32, hRangeLoop_spec off lim i x.slots _ hs, Option.bind_eq_bind, Option.bind_some]
  split <;> simp_all

theorem hRangeArray_ok (off lim : Nat) :
    UOk false (fun h x => (hRangeUint32 h x off lim).map fun (_, x) => (x, h)) (fun S => S) := by
  intro h x l S i a
  refine ⟨x, h, ?_, i, a, Keep.refl _ _⟩
  simp [hRangeUint32_spec off lim i (x := x) (by sub_tac)]

end CRoaring
