import Verif.Lemmas.Cow8

set_option linter.unusedSimpArgs false
set_option linter.unusedVariables false

namespace CRoaring
open Spec

variable {g : Bool}

/-! ### Binary operations on a bitmap and itself -/

theorem hOrLoop_self {c1 c2 : Bool} (s : List Slot) : ∀ (h : Heap) (L : List Ref), HInv g h L → refs s ⊆ L →
    ∃ a h', hOrLoop c1 c2 h s s = some (a, s, s, h') ∧ HInv g h' (refs a ++ L) ∧
      vw h' a = rbOrLoop (vw h s) (vw h s) ∧ Keep h h' L := by
  induction s with
  | nil =>
    intro h L i hs
    exact ⟨[], h, by simp [hOrLoop, copySlots], i, by simp [rbOrLoop], Keep.refl _ _⟩
  | cons p t ih =>
    intro h L i hs
    obtain ⟨k, r⟩ := p
    obtain ⟨h1, h2⟩ := refs_sub_cons hs
    obtain ⟨i1, v1, _, q1⟩ := newC_spec i (containerOr (valC h r) (valC h r))
    obtain ⟨a, h', e, i', w, q⟩ := ih _ _ i1 (fun r hr => List.mem_cons_of_mem _ (h2 hr))
    refine ⟨(k, (newC h (containerOr (valC h r) (valC h r))).1) :: a, h', ?_, i'.perm (by count_tac), ?_,
      q1.trans q (List.Subset.refl _) (by sub_tac)⟩
    · rw [hOrLoop]
      simp [i.live (r := r) h1, e]
    · rw [vw_cons, vw_cons, rbOrLoop]
      simp only [if_true, w, Keep.vw (q1.mono h2)]
      rw [q _ (by simp), v1]

theorem hXorLoop_self {c1 c2 : Bool} (s : List Slot) : ∀ (h : Heap) (L : List Ref), HInv g h L → refs s ⊆ L →
    ∃ a h', hXorLoop c1 c2 h s s = some (a, s, s, h') ∧ HInv g h' (refs a ++ L) ∧
      vw h' a = rbXorLoop (vw h s) (vw h s) ∧ Keep h h' L := by
  induction s with
  | nil =>
    intro h L i hs
    exact ⟨[], h, by simp [hXorLoop, copySlots], i, by simp [rbXorLoop], Keep.refl _ _⟩
  | cons p t ih =>
    intro h L i hs
    obtain ⟨k, r⟩ := p
    obtain ⟨h1, h2⟩ := refs_sub_cons hs
    obtain ⟨i1, v1, _, q1⟩ := newC_spec i (containerXor (valC h r) (valC h r))
    by_cases hz : containerNonzero (containerXor (valC h r) (valC h r)) = true
    · obtain ⟨a, h', e, i', w, q⟩ := ih _ _ i1 (fun r hr => List.mem_cons_of_mem _ (h2 hr))
      refine ⟨(k, (newC h (containerXor (valC h r) (valC h r))).1) :: a, h', ?_, i'.perm (by count_tac), ?_,
        q1.trans q (List.Subset.refl _) (by sub_tac)⟩
      · rw [hXorLoop]
        simp [i.live (r := r) h1, e, hz]
      · rw [vw_cons, vw_cons, rbXorLoop]
        simp only [if_true, w, Keep.vw (q1.mono h2), hz]
        rw [q _ (by simp), v1]
    · obtain ⟨h3, e3, i3, q3⟩ := freeC_spec i1
      obtain ⟨a, h', e, i', w, q⟩ := ih _ _ i3 h2
      have q13 := q1.trans q3 (List.Subset.refl _) (List.Subset.refl _)
      refine ⟨a, h', ?_, i'.perm (by count_tac), ?_, q13.trans q (List.Subset.refl _) (by sub_tac)⟩
      · rw [hXorLoop]
        simp [i.live (r := r) h1, e, hz, e3]
      · rw [vw_cons, rbXorLoop]
        simp only [if_true, w, Keep.vw (q13.mono h2), hz]
        simp

theorem hAndnotLoop_self {c1 : Bool} (s : List Slot) : ∀ (h : Heap) (L : List Ref), HInv g h L → refs s ⊆ L →
    ∃ a h', hAndnotLoop c1 h s s = some (a, s, h') ∧ HInv g h' (refs a ++ L) ∧
      vw h' a = rbAndnotLoop (vw h s) (vw h s) ∧ Keep h h' L := by
  induction s with
  | nil =>
    intro h L i hs
    exact ⟨[], h, by simp [hAndnotLoop, copySlots], i, by simp [rbAndnotLoop], Keep.refl _ _⟩
  | cons p t ih =>
    intro h L i hs
    obtain ⟨k, r⟩ := p
    obtain ⟨h1, h2⟩ := refs_sub_cons hs
    obtain ⟨i1, v1, _, q1⟩ := newC_spec i (containerAndnot (valC h r) (valC h r))
    by_cases hz : containerNonzero (containerAndnot (valC h r) (valC h r)) = true
    · obtain ⟨a, h', e, i', w, q⟩ := ih _ _ i1 (fun r hr => List.mem_cons_of_mem _ (h2 hr))
      refine ⟨(k, (newC h (containerAndnot (valC h r) (valC h r))).1) :: a, h', ?_, i'.perm (by count_tac), ?_,
        q1.trans q (List.Subset.refl _) (by sub_tac)⟩
      · rw [hAndnotLoop]
        simp [i.live (r := r) h1, e, hz]
      · rw [vw_cons, vw_cons, rbAndnotLoop]
        simp only [if_true, w, Keep.vw (q1.mono h2), hz]
        rw [q _ (by simp), v1]
    · obtain ⟨h3, e3, i3, q3⟩ := freeC_spec i1
      obtain ⟨a, h', e, i', w, q⟩ := ih _ _ i3 h2
      have q13 := q1.trans q3 (List.Subset.refl _) (List.Subset.refl _)
      refine ⟨a, h', ?_, i'.perm (by count_tac), ?_, q13.trans q (List.Subset.refl _) (by sub_tac)⟩
      · rw [hAndnotLoop]
        simp [i.live (r := r) h1, e, hz, e3]
      · rw [vw_cons, rbAndnotLoop]
        simp only [if_true, w, Keep.vw (q13.mono h2), hz]
        simp

theorem hOr_self : SOk g hOr Spec.union := by
  intro h x l S i a
  have s := rbOr_spec a.2.1 a.2.1
  have s2 : ∀ v, bhas (rbOr (vw h x.slots) (vw h x.slots)) v = Spec.union S S v := by
    intro v; rw [s.2, a.2.2]; rfl
  simp only [rbOr, vw_length] at s s2
  simp only [hOr]
  by_cases hx : x.slots.length = 0
  · simp only [if_pos hx] at s s2 ⊢
    have hn := slots_nil hx
    refine ⟨⟨x.cow, []⟩, x, ⟨x.cow, []⟩, h, by simp [hCopy, hn, copySlots], by simpa using i, ?_, a, Keep.refl _ _⟩
    rw [hn, rbCopy] at s s2
    exact ⟨a.1, s.1, s2⟩
  · simp only [if_neg hx] at s s2 ⊢
    obtain ⟨c, h', e, i', w, q⟩ := hOrLoop_self (c1 := x.cow) (c2 := x.cow) x.slots h _ i (by sub_tac)
    exact ⟨⟨g, c⟩, ⟨x.cow, x.slots⟩, ⟨x.cow, x.slots⟩, h', by rw [e]; simp [a.1], i',
      ⟨rfl, by rw [w]; exact s.1, by rw [w]; exact s2⟩, a.keep q (by sub_tac), q.mono (by sub_tac)⟩

theorem hXor_self : SOk g hXor Spec.symm := by
  intro h x l S i a
  have s := rbXor_spec a.2.1 a.2.1
  have s2 : ∀ v, bhas (rbXor (vw h x.slots) (vw h x.slots)) v = Spec.symm S S v := by
    intro v; rw [s.2, a.2.2]; rfl
  simp only [rbXor, vw_length] at s s2
  simp only [hXor]
  by_cases hx : x.slots.length = 0
  · simp only [if_pos hx] at s s2 ⊢
    have hn := slots_nil hx
    refine ⟨⟨x.cow, []⟩, x, ⟨x.cow, []⟩, h, by simp [hCopy, hn, copySlots], by simpa using i, ?_, a, Keep.refl _ _⟩
    rw [hn, rbCopy] at s s2
    exact ⟨a.1, s.1, s2⟩
  · simp only [if_neg hx] at s s2 ⊢
    obtain ⟨c, h', e, i', w, q⟩ := hXorLoop_self (c1 := x.cow) (c2 := x.cow) x.slots h _ i (by sub_tac)
    exact ⟨⟨g, c⟩, ⟨x.cow, x.slots⟩, ⟨x.cow, x.slots⟩, h', by rw [e]; simp [a.1], i',
      ⟨rfl, by rw [w]; exact s.1, by rw [w]; exact s2⟩, a.keep q (by sub_tac), q.mono (by sub_tac)⟩

theorem hAndnot_self : SOk g (fun h x y => (hAndnot h x y).map fun (a, x, h) => (a, x, y, h)) Spec.diff := by
  intro h x l S i a
  have s := rbAndnot_spec a.2.1 a.2.1
  have s2 : ∀ v, bhas (rbAndnot (vw h x.slots) (vw h x.slots)) v = Spec.diff S S v := by
    intro v; rw [s.2, a.2.2]; rfl
  simp only [rbAndnot, vw_length] at s s2
  simp only [hAndnot]
  by_cases hx : x.slots.length = 0
  · simp only [if_pos hx] at s s2 ⊢
    exact ⟨⟨x.cow || x.cow, []⟩, x, x, h, rfl, by simpa using i, ⟨by simp [a.1], s.1, s2⟩, a, Keep.refl _ _⟩
  · simp only [if_neg hx] at s s2 ⊢
    obtain ⟨c, h', e, i', w, q⟩ := hAndnotLoop_self (c1 := x.cow) x.slots h _ i (by sub_tac)
    exact ⟨⟨g, c⟩, ⟨x.cow, x.slots⟩, x, h', by rw [e]; simp [a.1], i',
      ⟨rfl, by rw [w]; exact s.1, by rw [w]; exact s2⟩, a.keep q (by sub_tac), q.mono (by sub_tac)⟩

/-! ### contains -/

theorem hContains_spec {h : Heap} {x : HBitmap} {l : List Ref} (i : HInv g h l) (hl : refs x.slots ⊆ l)
    (b : BInv (vw h x.slots)) (v : Nat) : hContains h x v = some (rbContains (vw h x.slots) v) := by
  have hidx := raGetIndex_skel h x.slots (v / 65536)
  rcases slot_split b (v / 65536) with ⟨A, r, B, e, hi⟩ | ⟨A, B, e, hi⟩
  · simp only [hContains, rbContains, ← hidx, hi]
    rw [if_neg (by omega), if_neg (by omega)]
    simp only [Int.toNat_natCast]
    have hr : r ∈ l := hl (by rw [e]; simp)
    have hc : contAt (vw h x.slots) A.length = valC h r := by
      rw [e, vw_append, vw_cons]
      have := contAt_mid (vw h A) (v / 65536) (valC h r) (vw h B)
      rwa [vw_length] at this
    have hsl : slotAt x.slots A.length = (v / 65536, r) := by rw [e, slotAt_mid]
    simp [hsl, hc, i.live (r := r) hr]
  · simp only [hContains, rbContains, ← hidx, hi]
    rw [if_pos (by omega), if_pos (by omega)]

/-! ### add_many -/

theorem modifyOwn_plain (o : Bool) (h : Heap) {r : Ref} (hr : r.sh = false) {l : List Ref} (i : HInv g h (r :: l))
    (f : Container → Container) : modifyOwn o h r f = replaceC o h r (f (valC h r)) := by
  have hl := i.live (r := r) (by simp)
  have hlt := i.addr_lt (r := r) (by simp)
  simp only [modifyOwn, unshareC, hr, Bool.false_eq_true, if_false, Option.bind_eq_bind, Option.bind_some, hl, replaceC]
  cases o with
  | true =>
    simp only [if_true]
    cases writeC h r (f (valC h r)) with
    | none => rfl
    | some h' => simp
  | false =>
    simp only [Bool.false_eq_true, if_false, Option.bind_some]
    have : (newC h (f (valC h r))).1.addr ≠ r.addr := by
      show h.next ≠ r.addr
      omega
    rw [if_pos this]
    cases freeC (newC h (f (valC h r))).2 r <;> rfl

/-- The context denotes a cell that is not shared. -/
def HCtxOK (x : HBitmap) (ctx : HCtx) : Prop :=
  ∀ r idx k, ctx = some (r, idx, k) → ∃ A B, x.slots = A ++ (k, r) :: B ∧ idx = A.length ∧ r.sh = false

theorem hAdd_ctx (o : Nat → Bool) {h : Heap} {x : HBitmap} {l : List Ref} (v : Nat)
    (i : HInv g h (refs x.slots ++ l)) (b : BInv (vw h x.slots)) {x' : HBitmap} {h' : Heap}
    (e' : hAdd o h x v = some (x', h')) : HCtxOK x' (ctxAfterAdd x x' v) := by
  intro r0 idx k ec
  rcases slot_split b (v / 65536) with ⟨A, r, B, e, hi⟩ | ⟨A, B, e, hi⟩
  · simp only [hAdd, hi] at e'
    rw [if_pos (by omega)] at e'
    simp only [Int.toNat_natCast] at e'
    rw [e] at i e'
    simp only [slotAt_mid] at e'
    obtain ⟨r1, h1, e1, i1, v1, s1, q1⟩ := unshareC_spec (r := r) (l := refs A ++ (refs B ++ l))
      (i.perm (by count_tac))
    simp only [e1, Option.bind_eq_bind, Option.bind_some, i1.live (r := r1) (by simp), v1] at e'
    cases hr : replaceC (o (v / 65536)) h1 r1 (containerAdd (v % 65536) (valC h r)) with
    | none => simp [hr] at e'
    | some p =>
      simp only [hr, Option.bind_some, slots_set_mid, Option.some.injEq, Prod.mk.injEq] at e'
      have hs : p.1.sh = false := by
        unfold replaceC at hr
        split at hr
        · cases hw : writeC h1 r1 (containerAdd (v % 65536) (valC h r)) with
          | none => simp [hw] at hr
          | some h2 => simp [hw] at hr; rw [← hr]; exact s1
        · cases hw : freeC (newC h1 (containerAdd (v % 65536) (valC h r))).2 r1 with
          | none => simp [hw] at hr
          | some h2 => simp [hw] at hr; rw [← hr]; rfl
      simp only [ctxAfterAdd, hi] at ec
      rw [if_pos (by omega)] at ec
      rw [← e'.1] at ec
      simp only [Int.toNat_natCast, slotAt_mid, Option.some.injEq, Prod.mk.injEq] at ec
      obtain ⟨rfl, rfl, rfl⟩ := ec
      exact ⟨A, B, by rw [← e'.1], rfl, hs⟩
  · simp only [hAdd, hi] at e'
    rw [if_neg (by omega)] at e'
    simp only [neg_idx, e, List.take_left, List.drop_left, Option.some.injEq, Prod.mk.injEq] at e'
    simp only [ctxAfterAdd, hi] at ec
    rw [if_neg (by omega)] at ec
    rw [← e'.1] at ec
    simp only [neg_idx, slotAt_mid, Option.some.injEq, Prod.mk.injEq] at ec
    obtain ⟨rfl, rfl, rfl⟩ := ec
    exact ⟨A, B, by rw [← e'.1], rfl, rfl⟩

theorem hAddBulk_spec (o : Bool) {h : Heap} {x : HBitmap} {l : List Ref} {ctx : HCtx} (v : Nat)
    (i : HInv g h (refs x.slots ++ l)) (b : BInv (vw h x.slots)) (hc : HCtxOK x ctx) :
    ∃ x' ctx' h', hAddBulk o h x ctx v = some (x', ctx', h') ∧ x'.cow = x.cow ∧ HInv g h' (refs x'.slots ++ l) ∧
      vw h' x'.slots = rbAdd (vw h x.slots) v ∧ Keep h h' l ∧ HCtxOK x' ctx' := by
  have hfresh : ∃ x' ctx' h', (do
      let (x', h) ← hAdd (fun _ => o) h x v
      some (x', ctxAfterAdd x x' v, h)) = some (x', ctx', h') ∧ x'.cow = x.cow ∧ HInv g h' (refs x'.slots ++ l) ∧
      vw h' x'.slots = rbAdd (vw h x.slots) v ∧ Keep h h' l ∧ HCtxOK x' ctx' := by
    obtain ⟨x', h', e, ec, i', w, q⟩ := hAdd_spec (fun _ => o) v i b
    exact ⟨x', _, h', by simp [e], ec, i', w, q, hAdd_ctx _ v i b e⟩
  cases ctx with
  | none => exact hfresh
  | some p =>
    obtain ⟨r, idx, k⟩ := p
    simp only [hAddBulk]
    by_cases hk : k ≠ v / 65536
    · rw [if_pos hk]; exact hfresh
    · rw [if_neg hk]
      have hk : k = v / 65536 := by omega
      subst hk
      obtain ⟨A, B, e, rfl, hr⟩ := hc r idx _ rfl
      obtain ⟨cow, s⟩ := x
      simp only at e i b ⊢
      subst e
      have i1 : HInv g h (r :: (refs A ++ (refs B ++ l))) := i.perm (by count_tac)
      rw [modifyOwn_plain o h hr i1]
      obtain ⟨r2, h2, e2, i2, v2, q2⟩ := replaceC_spec i1 (o := o) (fun _ => hr) (containerAdd (v % 65536) (valC h r))
      simp only [e2, Option.bind_eq_bind, Option.bind_some, slotAt_mid, slots_set_mid]
      refine ⟨_, _, _, rfl, rfl, i2.perm (by count_tac), ?_, q2.mono (by sub_tac), ?_⟩
      · have hidx : raGetIndex (vw h (A ++ (v / 65536, r) :: B)) (v / 65536) = A.length := by
          have h1 := raGetIndex_keyAt b (i := A.length) (by rw [vw_length]; simp)
          rw [vw_append, vw_cons] at h1 ⊢
          have h3 := keyAt_mid (vw h A) (v / 65536) (valC h r) (vw h B)
          rw [vw_length] at h3
          rwa [h3] at h1
        simp only [rbAdd, hidx]
        rw [if_pos (by omega)]
        simp only [Int.toNat_natCast, vw_append, vw_cons]
        have h4 := raSet_mid (vw h A) (v / 65536) (valC h r) (containerAdd (v % 65536) (valC h r)) (vw h B)
        have h5 := contAt_mid (vw h A) (v / 65536) (valC h r) (vw h B)
        rw [vw_length] at h4 h5
        rw [h5, h4, v2, Keep.vw (s := A) (q2.mono (by sub_tac)), Keep.vw (s := B) (q2.mono (by sub_tac))]
      · intro r0 idx k0 ec
        simp only [Option.some.injEq, Prod.mk.injEq] at ec
        obtain ⟨rfl, rfl, rfl⟩ := ec
        refine ⟨A, B, rfl, rfl, ?_⟩
        unfold replaceC at e2
        split at e2
        · cases hw : writeC h r (containerAdd (v % 65536) (valC h r)) with
          | none => simp [hw] at e2
          | some h2 => simp [hw] at e2; rw [← e2.1]; exact hr
        · cases hw : freeC (newC h (containerAdd (v % 65536) (valC h r))).2 r with
          | none => simp [hw] at e2
          | some h2 => simp [hw] at e2; rw [← e2.1]; rfl

theorem hAddManyLoop_spec (o : Nat → Bool) {l : List Ref} : ∀ (vals : List Nat) {h : Heap} {x : HBitmap} {ctx : HCtx}
    {S : NSet}, (∀ v ∈ vals, v < 4294967296) → HInv g h (refs x.slots ++ l) → Good g h x S → HCtxOK x ctx →
    ∃ x' h', hAddManyLoop o h x ctx vals = some (x', h') ∧ HInv g h' (refs x'.slots ++ l) ∧
      Good g h' x' (Spec.union (Spec.ofList vals) S) ∧ Keep h h' l := by
  intro vals
  induction vals with
  | nil =>
    intro h x ctx S hv i a hc
    exact ⟨x, h, rfl, i, ⟨a.1, a.2.1, fun v => by rw [a.2.2]; simp [Spec.union, Spec.ofList]⟩, Keep.refl _ _⟩
  | cons v vs ih =>
    intro h x ctx S hv i a hc
    obtain ⟨x1, ctx1, h1, e1, c1, i1, w1, q1, hc1⟩ := hAddBulk_spec (o vs.length) v i a.2.1 hc
    have s := rbAdd_spec a.2.1 (hv v (by simp))
    have a1 : Good g h1 x1 (Spec.insert S v) :=
      ⟨c1.trans a.1, w1 ▸ s.1, fun y => by rw [w1, s.2]; simp only [Spec.insert, a.2.2]⟩
    obtain ⟨x2, h2, e2, i2, a2, q2⟩ := ih (fun v hv' => hv v (List.mem_cons_of_mem _ hv')) i1 a1 hc1
    refine ⟨x2, h2, by simp [hAddManyLoop, e1, e2], i2, ⟨a2.1, a2.2.1, fun y => ?_⟩,
      q1.trans q2 (List.Subset.refl _) (List.Subset.refl _)⟩
    rw [a2.2.2]
    simp only [Spec.union, Spec.ofList, Spec.insert, List.mem_cons, Bool.decide_or]
    by_cases hy : y = v
    · simp [hy]
    · rw [beq_eq_false_iff_ne.2 hy, decide_eq_false hy]; simp

theorem hAddMany_ok (o : Nat → Bool) {vals : List Nat} (hv : ∀ v ∈ vals, v < 4294967296) :
    UOk g (fun h x => hAddMany o h x vals) (fun S => Spec.union (Spec.ofList vals) S) := by
  intro h x l S i a
  cases vals with
  | nil => exact ⟨x, h, rfl, i, ⟨a.1, a.2.1, fun v => by rw [a.2.2]; simp [Spec.union, Spec.ofList]⟩, Keep.refl _ _⟩
  | cons v vs =>
    obtain ⟨x1, h1, e1, c1, i1, w1, q1⟩ := hAdd_spec (fun _ => o (v :: vs).length) v i a.2.1
    have s := rbAdd_spec a.2.1 (hv v (by simp))
    have a1 : Good g h1 x1 (Spec.insert S v) :=
      ⟨c1.trans a.1, w1 ▸ s.1, fun y => by rw [w1, s.2]; simp only [Spec.insert, a.2.2]⟩
    obtain ⟨x2, h2, e2, i2, a2, q2⟩ := hAddManyLoop_spec o (v :: vs) hv i1 a1 (hAdd_ctx _ v i a.2.1 e1)
    refine ⟨x2, h2, ?_, i2, ⟨a2.1, a2.2.1, fun y => ?_⟩, q1.trans q2 (List.Subset.refl _) (List.Subset.refl _)⟩
    · simp only [hAddMany, e1, Option.bind_eq_bind, Option.bind_some, e2]
    · rw [a2.2.2]
      simp only [Spec.union, Spec.ofList, Spec.insert, List.mem_cons, Bool.decide_or]
      by_cases hy : y = v
      · simp [hy]
      · rw [beq_eq_false_iff_ne.2 hy]; simp

end CRoaring
