import Verif.Lemmas.CppOwner

set_option linter.unusedSimpArgs false
set_option linter.unusedVariables false

/-! The steps of a program over objects of the C++ class `Roaring` keep the invariant. -/

namespace CRoaring
open Spec

variable {g : Bool}

/-- A blank object becomes a copy of another one. -/
theorem OInv.copyInto {w : CWorld} {sp : Owner.Objs} (a : OInv g [] w sp) {i j : Nat} (hij : i ≠ j)
    (ho : w.objs[i]? = some (some CObj.blank)) {s c : Owner.Obj} (hs : Owner.get sp j = some s) (hc : Owner.copied g s = some c) :
    ∃ o d' o' h', w.obj j = some o ∧ w.overwrite CObj.blank o = some (d', o', h') ∧
      OInv g [] { w with heap := h', objs := (w.objs.set j (some o')).set i (some d') } (sp.set i (some c)) := by
  obtain ⟨o, e1, e2, r⟩ := a.get hs
  have hi := lt_of_get ho
  have hj := lt_of_get e2
  cases o with
  | owns y =>
    cases s with
    | fresh =>
      obtain ⟨rfl, rfl⟩ := r
      simp only [Owner.copied, Option.some.injEq] at hc
      subst hc
      refine ⟨_, .owns ⟨false, []⟩, .owns ⟨false, []⟩, w.heap, e1, by simp [CWorld.overwrite, CObj.blank, hOverwrite, freeSlots, copySlots], ?_⟩
      have h1 : w.objs.set j (some (.owns ⟨false, []⟩)) = w.objs := by
        obtain ⟨hj, e⟩ := List.getElem?_eq_some_iff.1 e2
        rw [← e, List.set_getElem_self]
      rw [h1]
      exact a.fill (y := ⟨false, []⟩) rfl ho ⟨rfl, rfl⟩
    | set S =>
      simp only [Owner.copied, Option.some.injEq] at hc
      subst hc
      obtain ⟨c, y', h', e, b, a2⟩ := a.copy e2 (oget_some hs) r
      refine ⟨_, .owns c, .owns y', h', e1, ?_, ?_⟩
      · simp only [hCopy, Option.bind_eq_bind, Option.bind_eq_some_iff, Option.some.injEq, Prod.mk.injEq, Prod.exists] at e
        obtain ⟨p, q, h1, e3, e4, e5, e6⟩ := e
        subst e4; subst e5; subst e6
        simp [CWorld.overwrite, CObj.blank, hOverwrite, freeSlots, e3]
      · exact a2.fill (x := ⟨false, []⟩) rfl (by simp only; rw [List.getElem?_set_ne (Ne.symm hij)]; exact ho) b
    | view S => exact r.elim
  | view v =>
    cases s with
    | fresh => exact r.elim
    | set S => exact r.elim
    | view S =>
      obtain ⟨b, hb, hbi, hbs⟩ := r
      cases g with
      | true => simp [Owner.copied] at hc
      | false =>
        simp only [Owner.copied, Bool.false_eq_true, if_false, Option.some.injEq] at hc
        subst hc
        obtain ⟨i1, v1, q1⟩ := cloneView_spec b a.inv
        refine ⟨_, .owns ⟨false, (cloneView w.heap b).1⟩, .view v, (cloneView w.heap b).2, e1,
          by simp [CWorld.overwrite, CObj.blank, freeSlots, hb], ?_⟩
        have h1 : w.objs.set j (some (.view v)) = w.objs := by
          obtain ⟨hj, e⟩ := List.getElem?_eq_some_iff.1 e2
          rw [← e, List.set_getElem_self]
        rw [h1]
        have a1 : OInv false (refs (cloneView w.heap b).1) { w with heap := (cloneView w.heap b).2 } sp :=
          ⟨i1, a.ar, rel_keep a.rel q1⟩
        refine a1.fill (y := ⟨false, (cloneView w.heap b).1⟩) (x := ⟨false, []⟩) rfl ho ⟨rfl, ?_, ?_⟩
        · simp only; rw [v1]; exact hbi
        · intro x
          simp only
          rw [v1, ← hbs, rbContains_eq hbi]

/-- The parts of a step that releases the containers of the destination first. -/
theorem overwrite_reset {w : CWorld} {x : HBitmap} {h1 : Heap} (e : freeSlots w.heap x.slots = some h1) (l : List (Option CObj)) (o : CObj) :
    w.overwrite (.owns x) o = CWorld.overwrite ⟨h1, w.arenas, l⟩ CObj.blank o := by
  cases o <;> simp [CWorld.overwrite, CObj.blank, hOverwrite, freeSlots, e]

theorem owner_of_notView {w : CWorld} {o : CObj} {s : Owner.Obj} {h : Heap} {ar : List (Option Bitmap)} (r : ORel g h ar (some o) (some s))
    (hv : s.isView = false) : ∃ x, o = .owns x := by
  cases o with
  | owns x => exact ⟨x, rfl⟩
  | view v => cases s <;> first | exact r.elim | simp [Owner.Obj.isView] at hv

theorem get_set_ne {sp : Owner.Objs} {i j : Nat} (hij : i ≠ j) (s : Option Owner.Obj) : Owner.get (sp.set i s) j = Owner.get sp j := by
  simp [Owner.get, List.getElem?_set_ne hij]

theorem assign_ok {w : CWorld} {sp sp' : Owner.Objs} (o : Nat → Bool) (caps : Nat → Nat) (a : OInv g [] w sp) {i j : Nat}
    (hs : Owner.step false g sp (.assign i j) = some sp') : ∃ w', cstep g o caps w (.assign i j) = some w' ∧ OInv g [] w' sp' := by
  simp only [Owner.step, Option.bind_eq_bind, Option.bind_eq_some_iff] at hs
  obtain ⟨d, hd, s, hsj, c, hc, hs⟩ := hs
  split at hs
  · rename_i hh
    simp only [Bool.false_eq_true, false_or] at hh
    obtain ⟨hij, hv⟩ := hh
    simp only [Option.some.injEq] at hs
    subst hs
    obtain ⟨od, e1, e2, r1⟩ := a.get hd
    obtain ⟨x, rfl⟩ := owner_of_notView (w := w) r1 hv
    obtain ⟨h1, f1, a1⟩ := a.reset (o' := some CObj.blank) (s' := some (Owner.blank g)) e2 rfl rfl (fun h => orel_blank g h _)
    have hi := lt_of_get e2
    obtain ⟨oj, d', o', h', q1, q2, a2⟩ := a1.copyInto (i := i) (j := j) hij (by simp [hi]) ((get_set_ne hij _).trans hsj) hc
    have q3 : w.obj j = some oj := by
      simpa [CWorld.obj, List.getElem?_set_ne hij] using q1
    refine ⟨⟨h', w.arenas, (w.objs.set j (some o')).set i (some d')⟩, ?_, ?_⟩
    · simp [cstep, e1, q3, overwrite_reset f1 (w.objs.set i (some CObj.blank)) oj, q2]
    · have h2 : ((w.objs.set i (some CObj.blank)).set j (some o')).set i (some d') = (w.objs.set j (some o')).set i (some d') := by
        rw [List.set_comm _ _ hij, List.set_set]
      simp only [h2, List.set_set] at a2
      exact a2
  · exact absurd hs (by simp)

theorem copyNew_ok {w : CWorld} {sp sp' : Owner.Objs} (o : Nat → Bool) (caps : Nat → Nat) (a : OInv g [] w sp) {i : Nat}
    (hs : Owner.step false g sp (.copyNew i) = some sp') : ∃ w', cstep g o caps w (.copyNew i) = some w' ∧ OInv g [] w' sp' := by
  simp only [Owner.step, Option.bind_eq_bind, Option.bind_eq_some_iff, Option.some.injEq] at hs
  obtain ⟨s, hsj, c, hc, rfl⟩ := hs
  have a1 := a.append (L' := []) (o' := some CObj.blank) (s' := some (Owner.blank g)) rfl (fun r => rfl) (orel_blank g _ _)
  have hl := orel_lt a
  have hi : i < sp.length := lt_of_get (oget_some hsj)
  obtain ⟨oj, d', o', h', q1, q2, a2⟩ := a1.copyInto (i := w.objs.length) (j := i) (by omega) (by simp)
    (s := s) (c := c) (by simp only [Owner.get, List.getElem?_append_left hi]; exact hsj) hc
  have q3 : w.obj i = some oj := by
    simpa only [CWorld.obj, List.getElem?_append_left (hl ▸ hi)] using q1
  refine ⟨⟨h', w.arenas, w.objs.set i (some o') ++ [some d']⟩, ?_, ?_⟩
  · simp [cstep, q3]
    have : w.overwrite CObj.blank oj = some (d', o', h') := by rw [← q2]; cases oj <;> rfl
    simp [this]
  · have h2 : ((w.objs ++ [some CObj.blank]).set i (some o')).set w.objs.length (some d') = w.objs.set i (some o') ++ [some d'] := by
      rw [List.set_append_left _ _ (hl ▸ hi), List.set_append_right _ _ (by simp)]
      simp
    have h3 : (sp ++ [some (Owner.blank g)]).set w.objs.length (some c) = sp ++ [some c] := by
      rw [List.set_append_right _ _ (by omega), hl]
      simp
    simp only [h2, h3] at a2
    exact a2

theorem set_append_swap {α : Type} {l : List α} {i : Nat} {x b : α} (h : l[i]? = some x) :
    ((l ++ [b]).set i b).set l.length x = l.set i b ++ [x] := by
  have hi := lt_of_get h
  rw [List.set_append_left _ _ hi, List.set_append_right _ _ (by simp)]
  simp

theorem moveNew_ok {w : CWorld} {sp sp' : Owner.Objs} (o : Nat → Bool) (caps : Nat → Nat) (a : OInv g [] w sp) {i : Nat}
    (hs : Owner.step false g sp (.moveNew i) = some sp') : ∃ w', cstep g o caps w (.moveNew i) = some w' ∧ OInv g [] w' sp' := by
  simp only [Owner.step, Option.bind_eq_bind, Option.bind_eq_some_iff, Option.some.injEq] at hs
  obtain ⟨s, hsi, rfl⟩ := hs
  obtain ⟨oi, e1, e2, r1⟩ := a.get hsi
  have a1 := a.append (L' := []) (o' := some CObj.blank) (s' := some (Owner.blank g)) rfl (fun r => rfl) (orel_blank g _ _)
  have hl := orel_lt a
  have hi := lt_of_get e2
  have hsi' := oget_some hsi
  have a2 := a1.swap (i := i) (j := w.objs.length) (x := some oi) (y := some CObj.blank) (s := some s) (t := some (Owner.blank g))
    (by simp only; rw [List.getElem?_append_left hi]; exact e2) (by simp) (by rw [List.getElem?_append_left (hl ▸ hi)]; exact hsi')
    (by rw [hl]; simp)
  refine ⟨⟨w.heap, w.arenas, w.objs.set i (some CObj.blank) ++ [some oi]⟩, by simp [cstep, e1], ?_⟩
  have h3 := set_append_swap (b := some (Owner.blank g)) hsi'
  simp only [set_append_swap (b := some CObj.blank) e2] at a2
  rw [hl, h3] at a2
  exact a2

theorem swap_ok {w : CWorld} {sp sp' : Owner.Objs} (o : Nat → Bool) (caps : Nat → Nat) (a : OInv g [] w sp) {i j : Nat}
    (hs : Owner.step false g sp (.swap i j) = some sp') : ∃ w', cstep g o caps w (.swap i j) = some w' ∧ OInv g [] w' sp' := by
  simp only [Owner.step, Option.bind_eq_bind, Option.bind_eq_some_iff, Option.some.injEq] at hs
  obtain ⟨x, hx, y, hy, rfl⟩ := hs
  obtain ⟨ox, e1, e2, r1⟩ := a.get hx
  obtain ⟨oy, f1, f2, r2⟩ := a.get hy
  exact ⟨⟨w.heap, w.arenas, (w.objs.set i (some oy)).set j (some ox)⟩, by simp [cstep, e1, f1], a.swap e2 f2 (oget_some hx) (oget_some hy)⟩

theorem moveAssign_ok {w : CWorld} {sp sp' : Owner.Objs} (o : Nat → Bool) (caps : Nat → Nat) (a : OInv g [] w sp) {i j : Nat}
    (hs : Owner.step false g sp (.moveAssign i j) = some sp') : ∃ w', cstep g o caps w (.moveAssign i j) = some w' ∧ OInv g [] w' sp' := by
  simp only [Owner.step, Option.bind_eq_bind, Option.bind_eq_some_iff] at hs
  obtain ⟨d, hd, s, hsj, hs⟩ := hs
  split at hs
  · rename_i hv
    simp only [Bool.false_eq_true, false_or] at hv
    obtain ⟨od, e1, e2, r1⟩ := a.get hd
    obtain ⟨x, rfl⟩ := owner_of_notView (w := w) r1 hv
    obtain ⟨h1, f1, a1⟩ := a.reset (o' := some CObj.blank) (s' := some (Owner.blank g)) e2 rfl rfl (fun h => orel_blank g h _)
    have hi := lt_of_get e2
    have hl := orel_lt a
    split at hs
    · rename_i hij
      subst hij
      simp only [Option.some.injEq] at hs
      subst hs
      refine ⟨⟨h1, w.arenas, w.objs.set i (some CObj.blank)⟩, ?_, a1⟩
      have : CWorld.obj ⟨h1, w.arenas, w.objs.set i (some (.owns ⟨x.cow, []⟩))⟩ i = some (.owns ⟨x.cow, []⟩) := by
        simp [CWorld.obj, hi]
      simp [cstep, e1, clearObj, hClear, f1, this]
    · rename_i hij
      simp only [Option.some.injEq] at hs
      subst hs
      obtain ⟨oj, q1, q2, r2⟩ := a.get hsj
      have a2 := a1.swap (i := i) (j := j) (x := some CObj.blank) (y := some oj) (s := some (Owner.blank g)) (t := some s) (by simp [hi])
        (by simp only; rw [List.getElem?_set_ne hij]; exact q2) (by simp [hl ▸ hi])
        (by rw [List.getElem?_set_ne hij]; exact oget_some hsj)
      have h2 : CWorld.obj ⟨h1, w.arenas, w.objs.set i (some (.owns ⟨x.cow, []⟩))⟩ j = some oj := by
        simp only [CWorld.obj, List.getElem?_set_ne hij, q2]; rfl
      refine ⟨⟨h1, w.arenas, (w.objs.set i (some oj)).set j (some CObj.blank)⟩, by simp [cstep, e1, clearObj, hClear, f1, h2], ?_⟩
      simp only [List.set_set] at a2
      exact a2
  · exact absurd hs (by simp)

theorem destroy_ok {w : CWorld} {sp sp' : Owner.Objs} (o : Nat → Bool) (caps : Nat → Nat) (a : OInv g [] w sp) {i : Nat}
    (hs : Owner.step false g sp (.destroy i) = some sp') : ∃ w', cstep g o caps w (.destroy i) = some w' ∧ OInv g [] w' sp' := by
  simp only [Owner.step, Option.bind_eq_bind, Option.bind_eq_some_iff, Option.some.injEq] at hs
  obtain ⟨s, hsi, rfl⟩ := hs
  obtain ⟨oi, e1, e2, r1⟩ := a.get hsi
  cases oi with
  | owns x =>
    obtain ⟨h1, f1, a1⟩ := a.reset (o' := none) (s' := none) e2 rfl rfl (fun h => trivial)
    exact ⟨_, by simp [cstep, e1, hClear, f1], a1⟩
  | view v =>
    cases s with
    | fresh => exact r1.elim
    | set S => exact r1.elim
    | view S =>
      obtain ⟨b, hb, hbi, hbs⟩ := r1
      refine ⟨⟨w.heap, w.arenas.set v none, w.objs.set i none⟩, by simp [cstep, e1, hb], ⟨?_, ?_, ?_⟩⟩
      · refine a.inv.perm fun r => ?_
        have := crefs_take e2 r
        simp only [orefs, List.count_nil] at this
        simp only [List.nil_append]
        omega
      · intro x
        have h1 := cviews_take e2 x
        have h2 := a.ar x
        simp only [oviews] at h1
        simp only [List.getElem?_set]
        by_cases hx : v = x
        · subst hx
          have h3 : (cviews w.objs).count v = 1 := by rw [h2, hb]; rfl
          simp only [List.count_cons_self, List.count_nil] at h1
          simp
          split <;> simp <;> omega
        · rw [if_neg hx]
          simp only [List.count_cons, List.count_nil, beq_iff_eq, if_neg hx] at h1
          omega
      · have h1 : List.Forall₂ (ORel g w.heap w.arenas) (w.objs.set i none) (sp.set i none) := f2_set a.rel i trivial
        refine f2_mem h1 fun o ho s hs => ?_
        cases o with
        | none => cases s <;> exact hs
        | some o => cases o with
          | owns x => cases s with
            | none => exact hs
            | some s => cases s <;> exact hs
          | view v' =>
            cases s with
            | none => exact hs
            | some s => cases s with
              | fresh => exact hs
              | set S => exact hs
              | view S' =>
                obtain ⟨b', hb', r'⟩ := hs
                refine ⟨b', ?_, r'⟩
                rw [List.getElem?_set_ne ?_]
                · exact hb'
                · intro hx
                  subst hx
                  have h1 := cviews_take e2 v
                  have h2 := a.ar v
                  have h3 : 0 < (cviews (w.objs.set i none)).count v :=
                    List.count_pos_iff.2 (List.mem_flatMap.2 ⟨_, ho, by simp [oviews]⟩)
                  have h4 : (cviews w.objs).count v = 1 := by rw [h2, hb]; rfl
                  simp only [oviews, List.count_cons_self, List.count_nil] at h1
                  omega

theorem setCow_ok {w : CWorld} {sp sp' : Owner.Objs} (o : Nat → Bool) (caps : Nat → Nat) (a : OInv g [] w sp) {i : Nat}
    (hs : Owner.step false g sp (.setCow i) = some sp') : ∃ w', cstep g o caps w (.setCow i) = some w' ∧ OInv g [] w' sp' := by
  simp only [Owner.step] at hs
  split at hs
  · rename_i hi
    simp only [Option.some.injEq] at hs
    subst hs
    obtain ⟨oi, e1, e2, r1⟩ := a.get hi
    cases oi with
    | view v => exact r1.elim
    | owns x =>
      obtain ⟨rfl, rfl⟩ := r1
      exact ⟨_, by simp [cstep, e1], a.fill (y := ⟨true, []⟩) (s' := .set Spec.empty) rfl e2 ⟨rfl, trivial, fun _ => rfl⟩⟩
  · rename_i S hi
    simp only [Option.some.injEq] at hs
    subst hs
    obtain ⟨oi, e1, e2, r1⟩ := a.get hi
    cases oi with
    | view v => exact r1.elim
    | owns x =>
      obtain ⟨rfl, r2⟩ := r1
      refine ⟨_, by simp [cstep, e1]; rfl, ?_⟩
      have : w.objs.set i (some (.owns x)) = w.objs := by
        obtain ⟨hj, e⟩ := List.getElem?_eq_some_iff.1 e2
        rw [← e, List.set_getElem_self]
      rw [this]
      exact a
  · exact absurd hs (by simp)

theorem make_ok {w : CWorld} {sp sp' : Owner.Objs} (o : Nat → Bool) (caps : Nat → Nat) (a : OInv g [] w sp)
    (hs : Owner.step false g sp .make = some sp') : ∃ w', cstep g o caps w .make = some w' ∧ OInv g [] w' sp' := by
  simp only [Owner.step, Option.some.injEq] at hs
  subst hs
  exact ⟨_, rfl, a.append rfl (fun r => rfl) (orel_blank g _ _)⟩

theorem frozenView_ok {w : CWorld} {sp sp' : Owner.Objs} (o : Nat → Bool) (caps : Nat → Nat) (a : OInv g [] w sp) {b : Bitmap} (hb : BInv b)
    (hs : Owner.step false g sp (.frozenView b) = some sp') :
    ∃ w', cstep g o caps w (.frozenView b) = some w' ∧ OInv g [] w' sp' := by
  simp only [Owner.step, Option.some.injEq] at hs
  subst hs
  refine ⟨_, rfl, ⟨?_, ?_, ?_⟩⟩
  · refine a.inv.perm fun r => ?_
    simp [crefs, orefs]
  · intro x
    have h := a.ar x
    simp only [cviews, List.flatMap_append, List.flatMap_cons, List.flatMap_nil, List.append_nil, oviews, List.count_append] at h ⊢
    rw [h]
    by_cases h1 : x < w.arenas.length
    · rw [List.getElem?_append_left h1]
      have : List.count x [w.arenas.length] = 0 := List.count_eq_zero.2 (by simp; omega)
      omega
    · rw [List.getElem?_eq_none (by omega), List.getElem?_append_right (by omega)]
      by_cases h2 : x = w.arenas.length
      · subst h2; simp
      · have : List.count x [w.arenas.length] = 0 := List.count_eq_zero.2 (by simp; omega)
        rw [this, List.getElem?_eq_none (by simp; omega)]
        rfl
  · refine f2_append (f2_mem a.rel fun o ho s hs => ?_) ⟨b, by simp, hb, fun _ => rfl⟩
    cases o with
    | none => cases s <;> exact hs
    | some o => cases o with
      | owns x => cases s with
        | none => exact hs
        | some s => cases s <;> exact hs
      | view v' =>
        cases s with
        | none => exact hs
        | some s => cases s with
          | fresh => exact hs
          | set S => exact hs
          | view S' =>
            obtain ⟨b', hb', r'⟩ := hs
            exact ⟨b', by rw [List.getElem?_append_left (lt_of_get hb')]; exact hb', r'⟩

end CRoaring
