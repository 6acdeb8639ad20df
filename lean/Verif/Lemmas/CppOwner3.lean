import Verif.Lemmas.CppOwner2

set_option linter.unusedSimpArgs false
set_option linter.unusedVariables false

/-! Calls of the C library on objects of the C++ class `Roaring`. -/

namespace CRoaring
open Spec

variable {g : Bool}

/-- The bitmaps that are alive before and after a call are the same, and the new ones follow. -/
def SamePat (p q : History.Pool) : Prop := ∀ (k : Nat) (o : Option NSet), p[k]? = some o → ∃ o', q[k]? = some o' ∧ o'.isSome = o.isSome

theorem samePat_set {p : History.Pool} {i : Nat} {S T : NSet} (h : History.get p i = some S) : SamePat p (p.set i (some T)) := by
  intro k o ho
  by_cases hk : i = k
  · subst hk
    have h1 := get_some h
    rw [h1] at ho
    cases ho
    exact ⟨some T, by simp [lt_of_get h1], rfl⟩
  · exact ⟨o, by rw [List.getElem?_set_ne hk]; exact ho, rfl⟩

theorem samePat_append (p : History.Pool) (x : Option NSet) : SamePat p (p ++ [x]) := by
  intro k o ho
  exact ⟨o, by rw [List.getElem?_append_left (lt_of_get ho)]; exact ho, rfl⟩

theorem pat_upd {p q : History.Pool} {i : Nat} {f : NSet → NSet} (h : History.upd p i f = some q) : SamePat p q := by
  simp only [History.upd, Option.bind_eq_bind, Option.bind_eq_some_iff, Option.some.injEq] at h
  obtain ⟨S, hS, rfl⟩ := h
  exact samePat_set hS

theorem pat_new1 {p q : History.Pool} {i : Nat} {f : NSet → NSet} (h : History.new1 p i f = some q) : SamePat p q := by
  simp only [History.new1, Option.bind_eq_bind, Option.bind_eq_some_iff, Option.some.injEq] at h
  obtain ⟨S, hS, rfl⟩ := h
  exact samePat_append _ _

theorem pat_upd2 {p q : History.Pool} {i j : Nat} {f : NSet → NSet → NSet} (h : History.upd2 p i j f = some q) : SamePat p q := by
  simp only [History.upd2, Option.bind_eq_bind, Option.bind_eq_some_iff] at h
  obtain ⟨S, hS, T, hT, h⟩ := h
  split at h
  · exact absurd h (by simp)
  · simp only [Option.some.injEq] at h
    subst h
    exact samePat_set hS

theorem pat_new2 {p q : History.Pool} {i j : Nat} {f : NSet → NSet → NSet} (h : History.new2 p i j f = some q) : SamePat p q := by
  simp only [History.new2, Option.bind_eq_bind, Option.bind_eq_some_iff, Option.some.injEq] at h
  obtain ⟨S, hS, T, hT, rfl⟩ := h
  exact samePat_append _ _

theorem pat_newMany {p q : History.Pool} {is : List Nat} {f : List NSet → NSet} (h : History.newMany p is f = some q) : SamePat p q := by
  simp only [History.newMany, Option.bind_eq_bind, Option.bind_eq_some_iff, Option.some.injEq] at h
  obtain ⟨S, hS, rfl⟩ := h
  exact samePat_append _ _

theorem pat_step {p q : History.Pool} {op : Op} (hf : op.isFree = false) (h : History.step g p op = some q) : SamePat p q := by
  cases op with
  | create =>
    simp only [History.step, Option.some.injEq] at h
    subst h
    exact samePat_append _ _
  | free i => simp [Op.isFree] at hf
  | copy i => exact pat_new1 h
  | overwrite i j => exact pat_upd2 h
  | clear i => exact pat_upd h
  | add i v => exact pat_upd (u32_some h).2
  | remove i v => exact pat_upd (u32_some h).2
  | addMany i vs =>
    simp only [History.step] at h
    split at h
    · exact pat_upd h
    · exact absurd h (by simp)
  | removeMany i vs =>
    simp only [History.step] at h
    split at h
    · exact pat_upd h
    · exact absurd h (by simp)
  | addRange i m n => exact pat_upd (u32_some h).2
  | removeRange i m n => exact pat_upd (u32_some h).2
  | flip i m n => exact pat_new1 (u32_some h).2
  | flipInplace i m n => exact pat_upd (u32_some h).2
  | and i j => exact pat_new2 h
  | or i j => exact pat_new2 h
  | xor i j => exact pat_new2 h
  | andnot i j => exact pat_new2 h
  | andInplace i j =>
    simp only [History.step] at h
    split at h
    · exact pat_upd h
    · exact pat_upd2 h
  | orInplace i j => exact pat_upd2 h
  | xorInplace i j => exact pat_upd2 h
  | andnotInplace i j => exact pat_upd2 h
  | runOptimize i => exact pat_upd h
  | removeRunCompression i => exact pat_upd h
  | rangeArray i a b =>
    simp only [History.step] at h
    split at h
    · exact pat_upd h
    · exact absurd h (by simp)
  | addOffset i d => exact pat_new1 h
  | orMany is =>
    simp only [History.step] at h
    split at h
    · exact pat_newMany h
    · exact absurd h (by simp)
  | xorMany is =>
    simp only [History.step] at h
    split at h
    · exact pat_newMany h
    · exact absurd h (by simp)
  | orManyHeap is =>
    simp only [History.step] at h
    split at h
    · exact pat_newMany h
    · exact absurd h (by simp)

/-- The bitmaps that calls may be given, and their sets. -/
theorem pool_of {h : Heap} {ar : List (Option Bitmap)} {l : List (Option CObj)} {sp : Owner.Objs} (a : List.Forall₂ (ORel g h ar) l sp) :
    prefs (l.map (CObj.ownPart g)) = crefs l ∧ PRel g h (l.map (CObj.ownPart g)) (sp.map Owner.setPart) := by
  induction a with
  | nil => exact ⟨rfl, fun k => by simp [ERel]⟩
  | @cons o s l sp r _ ih =>
    obtain ⟨h1, h2⟩ := ih
    have key : ERel g h (some (CObj.ownPart g o)) (some (Owner.setPart s)) ∧
        prefs (CObj.ownPart g o :: l.map (CObj.ownPart g)) = orefs o ++ prefs (l.map (CObj.ownPart g)) := by
      cases o with
      | none => cases s with
        | none => exact ⟨trivial, rfl⟩
        | some s => exact r.elim
      | some o => cases o with
        | owns x => cases s with
          | none => exact r.elim
          | some s => cases s with
            | fresh =>
              obtain ⟨rfl, rfl⟩ := r
              exact ⟨trivial, rfl⟩
            | set S =>
              obtain ⟨r1, r2⟩ := r
              simp only [CObj.ownPart, if_pos r1]
              exact ⟨⟨r1, r2⟩, rfl⟩
            | view S => exact r.elim
        | view v => cases s with
          | none => exact r.elim
          | some s => cases s with
            | fresh => exact r.elim
            | set S => exact r.elim
            | view S => exact ⟨trivial, rfl⟩
    refine ⟨by rw [List.map_cons, key.2, h1]; simp [crefs], fun k => ?_⟩
    cases k with
    | zero => exact key.1
    | succ k => simpa using h2 k

theorem pool_back {h h' : Heap} {ar : List (Option Bitmap)} {l : List (Option CObj)} {sp : Owner.Objs}
    (a : List.Forall₂ (ORel g h ar) l sp) : ∀ {P : List (Option HBitmap)} {q : History.Pool}, PRel g h' P q → SamePat (sp.map Owner.setPart) q →
      List.Forall₂ (ORel g h' ar) (putBack g l P) (Owner.merge sp q) ∧ crefs (putBack g l P) = prefs P ∧ cviews (putBack g l P) = cviews l := by
  induction a with
  | nil =>
    intro P
    induction P with
    | nil =>
      intro q hP _
      have : q = [] := List.eq_nil_of_length_eq_zero hP.length.symm
      subst this
      exact ⟨.nil, rfl, rfl⟩
    | cons x P ih =>
      intro q hP hp
      cases q with
      | nil => exact absurd hP.length (by simp)
      | cons y q =>
        obtain ⟨h1, h2, h3⟩ := ih (q := q) (fun k => by simpa using hP (k + 1)) (fun k o ho => by simp at ho)
        have h0 : ERel g h' (some x) (some y) := by simpa using hP 0
        simp only [putBack, Owner.merge, List.map_cons] at h1 h2 h3 ⊢
        cases x with
        | none => cases y with
          | none => exact ⟨.cons trivial h1, by simpa [crefs, orefs, prefs] using h2, by simpa [cviews, oviews] using h3⟩
          | some y => exact h0.elim
        | some x => cases y with
          | none => exact h0.elim
          | some y => exact ⟨.cons h0 h1, by simpa [crefs, orefs, prefs] using h2, by simpa [cviews, oviews] using h3⟩
  | @cons o s l sp r _ ih =>
    intro P q hP hp
    obtain ⟨y, hy, hyo⟩ := hp 0 (Owner.setPart s) (by simp)
    cases q with
    | nil => simp at hy
    | cons y' q =>
      simp only [List.getElem?_cons_zero, Option.some.injEq] at hy
      subst hy
      cases P with
      | nil => exact absurd hP.length (by simp)
      | cons x P =>
        obtain ⟨h1, h2, h3⟩ := ih (P := P) (q := q) (fun k => by simpa using hP (k + 1)) (fun k o ho => by simpa using hp (k + 1) o (by simpa using ho))
        have h0 : ERel g h' (some x) (some y') := by simpa using hP 0
        have key : ∀ o' s', (if (CObj.ownPart g o).isSome then x.map CObj.owns else o) = o' → (if (Owner.setPart s).isSome then y'.map Owner.Obj.set else s) = s' →
            ORel g h' ar o' s' ∧ orefs o' = (match x with | none => [] | some x => refs x.slots) ∧ oviews o' = oviews o := by
          intro o' s' e1 e2
          cases o with
          | none => cases s with
            | none =>
              cases y' with
              | some y => simp [Owner.setPart] at hyo
              | none =>
                cases x with
                | some x => exact h0.elim
                | none =>
                  simp [CObj.ownPart] at e1
                  simp [Owner.setPart] at e2
                  subst e1; subst e2
                  exact ⟨trivial, rfl, rfl⟩
            | some s => exact r.elim
          | some o => cases o with
            | owns z => cases s with
              | none => exact r.elim
              | some s => cases s with
                | fresh =>
                  obtain ⟨rfl, rfl⟩ := r
                  cases y' with
                  | some y => simp [Owner.setPart] at hyo
                  | none =>
                    cases x with
                    | some x => exact h0.elim
                    | none =>
                      simp [CObj.ownPart] at e1
                      simp [Owner.setPart] at e2
                      subst e1; subst e2
                      exact ⟨⟨rfl, rfl⟩, rfl, rfl⟩
                | set S =>
                  cases y' with
                  | none => simp [Owner.setPart] at hyo
                  | some y =>
                    cases x with
                    | none => exact h0.elim
                    | some x =>
                      simp [CObj.ownPart, r.1] at e1
                      simp [Owner.setPart] at e2
                      subst e1; subst e2
                      exact ⟨h0, rfl, rfl⟩
                | view S => exact r.elim
            | view v => cases s with
              | none => exact r.elim
              | some s => cases s with
                | fresh => exact r.elim
                | set S => exact r.elim
                | view S =>
                  cases y' with
                  | some y => simp [Owner.setPart] at hyo
                  | none =>
                    cases x with
                    | some x => exact h0.elim
                    | none =>
                      simp [CObj.ownPart] at e1
                      simp [Owner.setPart] at e2
                      subst e1; subst e2
                      exact ⟨r, rfl, rfl⟩
        obtain ⟨k1, k2, k3⟩ := key _ _ rfl rfl
        simp only [putBack, Owner.merge]
        refine ⟨.cons k1 h1, ?_, ?_⟩
        · simp only [crefs, List.flatMap_cons, k2]
          rw [show List.flatMap orefs (putBack g l P) = prefs P from h2]
          cases x <;> rfl
        · simp only [cviews, List.flatMap_cons, k3]
          rw [show List.flatMap oviews (putBack g l P) = List.flatMap oviews l from h3]

theorem call_ok {w : CWorld} {sp sp' : Owner.Objs} (o : Nat → Bool) (caps : Nat → Nat) (a : OInv g [] w sp) {op : Op}
    (hs : Owner.step false g sp (.call op) = some sp') : ∃ w', cstep g o caps w (.call op) = some w' ∧ OInv g [] w' sp' := by
  simp only [Owner.step] at hs
  split at hs
  · exact absurd hs (by simp)
  · rename_i hf
    simp only [Option.bind_eq_bind, Option.bind_eq_some_iff, Option.some.injEq] at hs
    obtain ⟨q, hq, rfl⟩ := hs
    have hf' : op.isFree = false := by simpa using hf
    obtain ⟨e1, e2⟩ := pool_of a.rel
    obtain ⟨w', f1, f2⟩ := step_ok o caps (w := ⟨w.heap, w.objs.map (CObj.ownPart g)⟩) ⟨by simp only [e1]; exact a.inv, e2⟩ hq
    obtain ⟨b1, b2, b3⟩ := pool_back a.rel f2.2 (pat_step hf' hq)
    refine ⟨⟨w'.heap, w.arenas, putBack g w.objs w'.pool⟩, by simp [cstep, hf', f1], ⟨?_, ?_, b1⟩⟩
    · simp only [List.nil_append, b2]; exact f2.1
    · intro x; simp only [b3]; exact a.ar x

theorem cstep_ok {w : CWorld} {sp sp' : Owner.Objs} (o : Nat → Bool) (caps : Nat → Nat) (a : OInv g [] w sp) {op : COp}
    (hv : ∀ b, op = .frozenView b → BInv b) (hs : Owner.step false g sp op = some sp') :
    ∃ w', cstep g o caps w op = some w' ∧ OInv g [] w' sp' := by
  cases op with
  | make => exact make_ok o caps a hs
  | setCow i => exact setCow_ok o caps a hs
  | copyNew i => exact copyNew_ok o caps a hs
  | moveNew i => exact moveNew_ok o caps a hs
  | assign i j => exact assign_ok o caps a hs
  | moveAssign i j => exact moveAssign_ok o caps a hs
  | swap i j => exact swap_ok o caps a hs
  | destroy i => exact destroy_ok o caps a hs
  | frozenView b => exact frozenView_ok o caps a (hv b rfl) hs
  | call op => exact call_ok o caps a hs

theorem crun_ok : ∀ (ops : List (COp × (Nat → Bool) × (Nat → Nat))) {w : CWorld} {sp sp' : Owner.Objs}, OInv g [] w sp →
    (∀ b, COp.frozenView b ∈ ops.map (·.1) → BInv b) → Owner.run false g sp (ops.map (·.1)) = some sp' →
    ∃ w', crun g w ops = some w' ∧ OInv g [] w' sp' := by
  intro ops
  induction ops with
  | nil =>
    intro w sp sp' a _ hs
    simp only [List.map_nil, Owner.run, Option.some.injEq] at hs
    subst hs
    exact ⟨w, rfl, a⟩
  | cons p t ih =>
    obtain ⟨op, o, caps⟩ := p
    intro w sp sp' a hv hs
    simp only [List.map_cons, Owner.run, Option.bind_eq_bind, Option.bind_eq_some_iff] at hs
    obtain ⟨sp1, h1, h2⟩ := hs
    obtain ⟨w1, e1, a1⟩ := cstep_ok o caps a (fun b hb => hv b (by simp [hb])) h1
    obtain ⟨w2, e2, a2⟩ := ih a1 (fun b hb => hv b (by simp only [List.map_cons, List.mem_cons]; exact Or.inr hb)) h2
    exact ⟨w2, by simp [crun, e1, e2], a2⟩

theorem contains_get {w : CWorld} {sp : Owner.Objs} (a : OInv g [] w sp) (i v : Nat) :
    w.contains i v = (Owner.get sp i).map (fun s => s.has v) := by
  cases hs : Owner.get sp i with
  | none =>
    have : w.obj i = none := by
      simp only [CWorld.obj]
      cases ho : w.objs[i]? with
      | none => rfl
      | some o =>
        cases o with
        | none => rfl
        | some o =>
          have hi : i < sp.length := by rw [← orel_lt a]; exact lt_of_get ho
          obtain ⟨o', e, r⟩ := f2_get a.rel (List.getElem?_eq_getElem hi)
          rw [ho] at e
          cases e
          have h1 : sp[i]? = some sp[i] := List.getElem?_eq_getElem hi
          simp only [Owner.get, h1] at hs
          cases hx : sp[i] with
          | some x => rw [hx] at hs; simp at hs
          | none => rw [hx] at r; cases o <;> exact r.elim
    simp [CWorld.contains, this]
  | some s =>
    obtain ⟨o, e1, e2, r⟩ := a.get hs
    have hsub : ∀ x, o = .owns x → refs x.slots ⊆ crefs w.objs := fun x hx rr hr =>
      List.mem_flatMap.2 ⟨some o, List.mem_of_getElem? e2, by subst hx; exact hr⟩
    cases o with
    | owns x =>
      have key : ∀ S : NSet, BInv (vw w.heap x.slots) → (∀ v, bhas (vw w.heap x.slots) v = S v) → hContains w.heap x v = some (S v) := by
        intro S b hb
        rw [hContains_spec (by simpa using a.inv) (hsub x rfl) b, rbContains_eq b, hb]
      cases s with
      | fresh =>
        obtain ⟨rfl, rfl⟩ := r
        simpa [CWorld.contains, e1, Owner.Obj.has] using key Spec.empty trivial (fun _ => rfl)
      | set S => simpa [CWorld.contains, e1, Owner.Obj.has] using key S r.2.1 r.2.2
      | view S => exact r.elim
    | view b =>
      cases s with
      | fresh => exact r.elim
      | set S => exact r.elim
      | view S =>
        obtain ⟨b', hb, _, hbs⟩ := r
        simp [CWorld.contains, e1, hb, hbs, Owner.Obj.has]

theorem cell_reach {w : CWorld} {sp : Owner.Objs} (a : OInv g [] w sp) {k : Nat} (hk : w.heap.cell k ≠ none) :
    ∃ i x, w.obj i = some (.owns x) ∧ ∃ p ∈ x.slots, p.2.addr = k := by
  have ai : HInv g w.heap (crefs w.objs) := by simpa using a.inv
  have : ∃ sh, (⟨sh, k⟩ : Ref) ∈ crefs w.objs := by
    cases hc : w.heap.cell k with
    | none => exact (hk hc).elim
    | some c =>
      cases c with
      | plain c => exact ⟨false, List.count_pos_iff.1 (by have := ai.own k c hc; omega)⟩
      | shared c n => exact ⟨true, List.count_pos_iff.1 (by have := ai.cnt k c n hc; omega)⟩
  obtain ⟨sh, hm⟩ := this
  obtain ⟨o, ho, hr⟩ := List.mem_flatMap.1 hm
  obtain ⟨i, hi⟩ := List.mem_iff_getElem?.1 ho
  cases o with
  | none => simp [orefs] at hr
  | some o =>
    cases o with
    | view b => simp [orefs] at hr
    | owns x =>
      obtain ⟨p, hp, e⟩ := List.mem_map.1 hr
      exact ⟨i, x, by simp [CWorld.obj, hi], p, hp, by rw [e]⟩

theorem arena_reach {w : CWorld} {sp : Owner.Objs} (a : OInv g [] w sp) {k : Nat} {b : Bitmap} (hk : w.arenas[k]? = some (some b)) :
    ∃ i, w.obj i = some (.view k) ∧ ∀ j, w.obj j = some (.view k) → j = i := by
  have h1 : (cviews w.objs).count k = 1 := by rw [a.ar, hk]; rfl
  obtain ⟨o, ho, hr⟩ := List.mem_flatMap.1 (List.count_pos_iff.1 (by omega : 0 < (cviews w.objs).count k))
  obtain ⟨i, hi⟩ := List.mem_iff_getElem?.1 ho
  have hw : o = some (.view k) := by
    cases o with
    | none => simp [oviews] at hr
    | some o => cases o with
      | owns x => simp [oviews] at hr
      | view v => simp [oviews] at hr; rw [hr]
  subst hw
  refine ⟨i, by simp [CWorld.obj, hi], fun j hj => ?_⟩
  have hj' : w.objs[j]? = some (some (.view k)) := by
    simp only [CWorld.obj] at hj
    cases h : w.objs[j]? with
    | none => simp [h] at hj
    | some o => cases o <;> simp_all
  apply Classical.byContradiction
  intro hne
  have h2 := cviews_take hi k
  have h3 := cviews_take (l := w.objs.set i none) (i := j) (o := some (.view k)) (by rw [List.getElem?_set_ne (Ne.symm hne)]; exact hj') k
  simp only [oviews, List.count_cons_self, List.count_nil] at h2 h3
  omega

theorem view_lives {w : CWorld} {sp : Owner.Objs} (a : OInv g [] w sp) {i k : Nat} (h : w.obj i = some (.view k)) :
    ∃ b, w.arenas[k]? = some (some b) := by
  have hi : w.objs[i]? = some (some (.view k)) := by
    simp only [CWorld.obj] at h
    cases h' : w.objs[i]? with
    | none => simp [h'] at h
    | some o => cases o <;> simp_all
  have h1 := a.ar k
  have h2 := cviews_take hi k
  simp only [oviews, List.count_cons_self, List.count_nil] at h2
  cases hk : w.arenas[k]? with
  | none => simp [hk] at h1; omega
  | some b => cases b with
    | none => simp [hk] at h1; omega
    | some b => exact ⟨b, rfl⟩

theorem cinit_ok : OInv g [] CWorld.init [] where
  inv := (init_ok (g := g)).1
  ar := fun a => by simp [CWorld.init, cviews]
  rel := .nil

end CRoaring
