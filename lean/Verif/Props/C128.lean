import Verif.Lemmas.CppOwner3
/-!
C128: objects of the C++ class `Roaring` (construction, copy, move, assignment, swap, destruction, and the calls of their methods) are
sets of their own; their memory is used safely, and nothing is lost or released twice.

The specification is Verif/OwnerSpec.lean, with Verif/HistorySpec.lean for the calls of the C library.
-/
namespace CRoaring.Props
open CRoaring

/-- Steps of a program, each with the oracles of the container functions (whether a container function works in place, and the
capacities of array containers). -/
abbrev CCall := COp × (Nat → Bool) × (Nat → Nat)

/-- The frozen bytes that are given are those of valid bitmaps. -/
def GoodViews (ops : List CCall) : Prop := ∀ b, COp.frozenView b ∈ ops.map (·.1) → Valid b

/-- The objects stand for the sets: an object is alive if it should be, and `contains` answers as its set does. -/
def ShowsObjs (w : CWorld) (sp : Owner.Objs) : Prop := ∀ i v, w.contains i v = (Owner.get sp i).map (fun s => s.has v)

/-- No memory is lost, and none is owned twice: each container in memory is one of an object that is alive; the arena of a view that is
alive is there, and each arena in memory is that of exactly one object. -/
def Tidy (w : CWorld) : Prop :=
  (∀ a, w.heap.cell a ≠ none → ∃ i x, w.obj i = some (.owns x) ∧ ∃ p ∈ x.slots, p.2.addr = a) ∧
  (∀ i k, w.obj i = some (.view k) → ∃ b, w.arenas[k]? = some (some b)) ∧
  (∀ k b, w.arenas[k]? = some (some b) → ∃ i, w.obj i = some (.view k) ∧ ∀ j, w.obj j = some (.view k) → j = i)

/-- C128: any program over any number of objects, with copy-on-write (`g`) or without: there is no undefined behaviour, the objects are the
sets that the specification says, no memory is lost, and when all objects are destroyed all memory was given back.

Partial: an object is not assigned to itself by copying, and no view is assigned to: see `C128_false`. -/
theorem C128_history_partial (g : Bool) (ops : List CCall) {sp : Owner.Objs} (hv : GoodViews ops)
    (hs : Owner.run false g [] (ops.map (·.1)) = some sp) :
    ∃ w, crun g CWorld.init ops = some w ∧ w.objs.length = sp.length ∧ ShowsObjs w sp ∧ Tidy w ∧
      ((∀ i, Owner.get sp i = none) → (∀ a, w.heap.cell a = none) ∧ ∀ (k : Nat) (b : Bitmap), w.arenas[k]? ≠ some (some b)) := by
  obtain ⟨w, e, a⟩ := crun_ok ops (cinit_ok (g := g)) (fun b hb => (hv b hb).inv) hs
  have t : Tidy w := ⟨fun k hk => cell_reach a hk, fun i k h => view_lives a h, fun k b hk => arena_reach a hk⟩
  have n : (∀ i, Owner.get sp i = none) → ∀ i, w.obj i = none := by
    intro hd i
    cases ho : w.obj i with
    | none => rfl
    | some o =>
      have h1 := contains_get a i 0
      rw [hd i] at h1
      cases o with
      | owns x =>
        obtain ⟨x', h2⟩ : ∃ x', w.objs[i]? = some (some x') := by
          simp only [CWorld.obj] at ho
          cases h : w.objs[i]? with
          | none => simp [h] at ho
          | some o => cases o <;> simp_all
        have hi : i < sp.length := by rw [← orel_lt a]; exact lt_of_get h2
        obtain ⟨o', e1, r⟩ := f2_get a.rel (List.getElem?_eq_getElem hi)
        rw [h2] at e1
        cases e1
        have h3 := hd i
        simp only [Owner.get, List.getElem?_eq_getElem hi] at h3
        cases hx : sp[i] with
        | some x => rw [hx] at h3; simp at h3
        | none => rw [hx] at r; cases x' <;> exact r.elim
      | view v =>
        obtain ⟨b, hb⟩ := view_lives a ho
        simp [CWorld.contains, ho, hb] at h1
  refine ⟨w, e, orel_lt a, contains_get a, t, fun hd => ⟨fun k => ?_, fun k b hk => ?_⟩⟩
  · apply Classical.byContradiction
    intro hk
    obtain ⟨i, x, h, _⟩ := t.1 k hk
    rw [n hd i] at h
    exact absurd h (by simp)
  · obtain ⟨i, h, _⟩ := t.2.2 k b hk
    rw [n hd i] at h
    exact absurd h (by simp)

/-- C128: after any program, `Roaring b(std::move(a))` gives `b` the values of `a` and leaves `a` empty; it works for views, too.  All other
objects keep their values. -/
theorem C128_move (g : Bool) (ops : List CCall) {sp : Owner.Objs} (hv : GoodViews ops) (hs : Owner.run false g [] (ops.map (·.1)) = some sp)
    {i : Nat} {s : Owner.Obj} (hi : Owner.get sp i = some s) (o : Nat → Bool) (caps : Nat → Nat) :
    ∃ w w', crun g CWorld.init ops = some w ∧ cstep g o caps w (.moveNew i) = some w' ∧
      (∀ v, w'.contains w.objs.length v = w.contains i v ∧ w'.contains i v = some false) ∧
      ∀ k v, k ≠ i → k < w.objs.length → w'.contains k v = w.contains k v := by
  obtain ⟨w, e, a⟩ := crun_ok ops (cinit_ok (g := g)) (fun b hb => (hv b hb).inv) hs
  obtain ⟨w', e', a'⟩ := cstep_ok (sp' := sp.set i (some (Owner.blank g)) ++ [some s]) (op := .moveNew i) o caps a (fun b h => by cases h)
    (by simp [Owner.step, hi])
  have hl := orel_lt a
  have hlt : i < sp.length := lt_of_get (oget_some hi)
  refine ⟨w, w', e, e', fun v => ⟨?_, ?_⟩, fun k v hk hlk => ?_⟩
  · rw [contains_get a', contains_get a, hi]
    have : Owner.get (sp.set i (some (Owner.blank g)) ++ [some s]) w.objs.length = some s := by
      simp [Owner.get, hl]
    rw [this]
  · rw [contains_get a']
    have : Owner.get (sp.set i (some (Owner.blank g)) ++ [some s]) i = some (Owner.blank g) := by
      rw [Owner.get, List.getElem?_append_left (by simpa using hlt)]
      simp [hlt]
    rw [this]
    cases g <;> rfl
  · rw [contains_get a', contains_get a]
    have : Owner.get (sp.set i (some (Owner.blank g)) ++ [some s]) k = Owner.get sp k := by
      rw [Owner.get, List.getElem?_append_left (by simp; omega), List.getElem?_set_ne (Ne.symm hk)]
      rfl
    rw [this]

/-- C128: after any program, `Roaring b(a)` gives `b` the values of `a`, and all objects that were there, `a` included, keep their values.
Whatever is done to `b` afterwards by steps that do not name `a` leaves `a` alone, and conversely (`C128_history_partial`). -/
theorem C128_copy (g : Bool) (ops : List CCall) {sp : Owner.Objs} (hv : GoodViews ops) (hs : Owner.run false g [] (ops.map (·.1)) = some sp)
    {i : Nat} {s : Owner.Obj} (hi : Owner.get sp i = some s) (hg : g = false ∨ s.isView = false) (o : Nat → Bool) (caps : Nat → Nat) :
    ∃ w w', crun g CWorld.init ops = some w ∧ cstep g o caps w (.copyNew i) = some w' ∧
      (∀ v, w'.contains w.objs.length v = w.contains i v) ∧ ∀ k v, k < w.objs.length → w'.contains k v = w.contains k v := by
  obtain ⟨w, e, a⟩ := crun_ok ops (cinit_ok (g := g)) (fun b hb => (hv b hb).inv) hs
  obtain ⟨c, hc, hcs⟩ : ∃ c, Owner.copied g s = some c ∧ c.has = s.has := by
    cases s with
    | fresh => exact ⟨_, rfl, rfl⟩
    | set S => exact ⟨_, rfl, rfl⟩
    | view S =>
      rcases hg with rfl | h
      · exact ⟨.set S, rfl, rfl⟩
      · simp [Owner.Obj.isView] at h
  obtain ⟨w', e', a'⟩ := cstep_ok (sp' := sp ++ [some c]) (op := .copyNew i) o caps a (fun b h => by cases h) (by simp [Owner.step, hi, hc])
  have hl := orel_lt a
  refine ⟨w, w', e, e', fun v => ?_, fun k v hk => ?_⟩
  · rw [contains_get a', contains_get a, hi]
    have : Owner.get (sp ++ [some c]) w.objs.length = some c := by simp [Owner.get, hl]
    rw [this, Option.map_some, Option.map_some, hcs]
  · rw [contains_get a', contains_get a]
    have : Owner.get (sp ++ [some c]) k = Owner.get sp k := by
      rw [Owner.get, List.getElem?_append_left (by omega)]
      rfl
    rw [this]

/-- C128: after any program, the assignment of a set to another object gives it these values, and all other objects keep theirs. -/
theorem C128_assign (g : Bool) (ops : List CCall) {sp : Owner.Objs} (hv : GoodViews ops) (hs : Owner.run false g [] (ops.map (·.1)) = some sp)
    {i j : Nat} {d s : Owner.Obj} (hi : Owner.get sp i = some d) (hj : Owner.get sp j = some s) (hij : i ≠ j) (hd : d.isView = false)
    (hg : g = false ∨ s.isView = false) (o : Nat → Bool) (caps : Nat → Nat) :
    ∃ w w', crun g CWorld.init ops = some w ∧ cstep g o caps w (.assign i j) = some w' ∧
      (∀ v, w'.contains i v = w.contains j v) ∧ ∀ k v, k ≠ i → w'.contains k v = w.contains k v := by
  obtain ⟨w, e, a⟩ := crun_ok ops (cinit_ok (g := g)) (fun b hb => (hv b hb).inv) hs
  obtain ⟨c, hc, hcs⟩ : ∃ c, Owner.copied g s = some c ∧ c.has = s.has := by
    cases s with
    | fresh => exact ⟨_, rfl, rfl⟩
    | set S => exact ⟨_, rfl, rfl⟩
    | view S =>
      rcases hg with rfl | h
      · exact ⟨.set S, rfl, rfl⟩
      · simp [Owner.Obj.isView] at h
  obtain ⟨w', e', a'⟩ := cstep_ok (sp' := sp.set i (some c)) (op := .assign i j) o caps a (fun b h => by cases h)
    (by simp [Owner.step, hi, hj, hc, hij, hd])
  have hlt : i < sp.length := lt_of_get (oget_some hi)
  refine ⟨w, w', e, e', fun v => ?_, fun k v hk => ?_⟩
  · rw [contains_get a', contains_get a, hj]
    have : Owner.get (sp.set i (some c)) i = some c := by simp [Owner.get, hlt]
    rw [this, Option.map_some, Option.map_some, hcs]
  · rw [contains_get a', contains_get a, get_set_ne (Ne.symm hk)]

/-- The oracles of the examples: container functions work in place. -/
def inPlaceC (ops : List COp) : List CCall := ops.map fun op => (op, fun _ => true, fun _ => 65536)

/-- The full claim: an object may also be assigned to itself, and a view may be assigned to. -/
def FullOwner : Prop :=
  ∀ (ops : List CCall) (sp : Owner.Objs), GoodViews ops → Owner.run true false [] (ops.map (·.1)) = some sp →
    ∃ w, crun false CWorld.init ops = some w

/-- `x = x` for {1}. -/
def exSelf : List COp := [.make, .call (.add 0 1), .assign 0 0]

/-- C128 fails for `x = x`: `roaring_bitmap_overwrite` releases the containers that it copies then. -/
theorem C128_false : ¬ FullOwner := by
  intro H
  obtain ⟨sp, h1⟩ := Option.isSome_iff_exists.1
    (show (Owner.run true false [] ((inPlaceC exSelf).map (·.1))).isSome = true by decide +kernel)
  obtain ⟨w, e⟩ := H _ _ (by intro b hb; simp [exSelf, inPlaceC] at hb) h1
  have h2 : (crun false CWorld.init (inPlaceC exSelf)).isNone = true := by decide +kernel
  rw [e] at h2
  simp at h2

/-- C128 fails for views: after any program, with any oracles, whatever is moved to a view, and whatever non-empty object is copied to a
view, parts of the arena of the view are given to `free`. -/
theorem C128_view_assign_false (g : Bool) (ops : List CCall) {sp : Owner.Objs} (hv : GoodViews ops)
    (hs : Owner.run false g [] (ops.map (·.1)) = some sp) {i j : Nat} {S : NSet} {s : Owner.Obj} (hi : Owner.get sp i = some (.view S))
    (hj : Owner.get sp j = some s) (o : Nat → Bool) (caps : Nat → Nat) :
    ∃ w, crun g CWorld.init ops = some w ∧ cstep g o caps w (.moveAssign i j) = none ∧
      (∀ v, s.has v = true ∨ S v = true → cstep g o caps w (.assign i j) = none) := by
  obtain ⟨w, e, a⟩ := crun_ok ops (cinit_ok (g := g)) (fun b hb => (hv b hb).inv) hs
  obtain ⟨oi, e1, e2, r1⟩ := a.get hi
  obtain ⟨oj, f1, f2, r2⟩ := a.get hj
  cases oi with
  | owns x => exact r1.elim
  | view k =>
    obtain ⟨b, hb, hbi, hbs⟩ := r1
    refine ⟨w, e, by simp [cstep, e1, clearObj], fun v hv => ?_⟩
    have hb0 : ∀ (b : Bitmap), rbContains b v = true → b.isEmpty = false := by
      intro b h
      cases b with
      | nil => simp [rbContains, raGetIndex] at h
      | cons p t => rfl
    cases oj with
    | owns y =>
      have : (b.isEmpty && y.slots.isEmpty) = false := by
        rcases hv with h | h
        · have hc := contains_get a j v
          rw [hj] at hc
          simp only [CWorld.contains, f1, Option.map_some, h, Option.bind_eq_bind, Option.bind_some] at hc
          have hne : y.slots.isEmpty = false := by
            cases hy : y.slots with
            | nil =>
              have := hContains_spec (g := g) (x := y) (by simpa using a.inv) (by rw [hy]; simp) (by rw [hy]; exact trivial) v
              rw [this, hy] at hc
              simp [rbContains, raGetIndex] at hc
            | cons p t => rfl
          rw [hne, Bool.and_false]
        · rw [hb0 b (by rw [hbs]; exact h), Bool.false_and]
      simp [cstep, e1, f1, CWorld.overwrite, hb]
      simpa using this
    | view c =>
      cases s with
      | fresh => exact r2.elim
      | set T => exact r2.elim
      | view T =>
        obtain ⟨b', hb', hbi', hbs'⟩ := r2
        have : (b.isEmpty && b'.isEmpty) = false := by
          rcases hv with h | h
          · rw [hb0 b' (by rw [hbs']; exact h), Bool.and_false]
          · rw [hb0 b (by rw [hbs]; exact h), Bool.false_and]
        simp [cstep, e1, f1, CWorld.overwrite, hb, hb']
        simpa using this

/-- A program with copies, moves, assignments, a self-move, a swap, a view, its copy, and destructors. -/
def exOwner : List COp :=
  [.make, .call (.add 0 1), .copyNew 0, .call (.add 1 70000), .moveNew 1, .assign 1 0, .call (.or 0 2), .frozenView [(0, .array [5])],
    .copyNew 4, .swap 4 5, .moveAssign 0 2, .moveAssign 3 3, .moveNew 5, .destroy 6, .destroy 5]

/-- It meets the hypotheses, without copy-on-write and, with the flag set and without the copy of the view, with it. -/
example : (Owner.run false false [] exOwner).isSome = true := by decide +kernel

example : (Owner.run false true [] [.make, .setCow 0, .call (.add 0 1), .copyNew 0, .moveNew 1, .assign 1 0, .call (.or 0 2), .frozenView [(0, .array [5])],
    .swap 0 4, .moveAssign 1 0, .destroy 4]).isSome = true := by decide +kernel

example : GoodViews (inPlaceC exOwner) := by
  intro b hb
  simp [exOwner, inPlaceC] at hb
  subst hb
  exact ⟨by simp [Typed, CTyped], by decide +kernel⟩

/-- A view and a set meet the hypotheses of `C128_view_assign_false`. -/
example : (Owner.run false false [] [.frozenView [(0, .array [5])], .make]).isSome = true ∧
    ((Owner.run false false [] [.frozenView [(0, .array [5])], .make]).bind fun p => Owner.get p 0).map Owner.Obj.isView = some true := by
  decide +kernel

/-- What it leaves: 0 has the values of 2 (1 and 70000), 2 is empty, 1 is {1}, 4 is the copy of the view. -/
example : ((Owner.run false false [] exOwner).map fun p =>
    [1, 5, 70000].map fun v => (List.range 7).map fun i => (Owner.get p i).map fun s => s.has v) =
    some [[some true, some true, some false, some false, some false, none, none],
      [some false, some false, some false, some false, some true, none, none],
      [some true, some false, some false, some false, some false, none, none]] := by decide +kernel

example : (crun false CWorld.init (inPlaceC exOwner)).map (fun w => [1, 5, 70000].map fun v => (List.range 7).map fun i => w.contains i v) =
    some [[some true, some true, some false, some false, some false, none, none],
      [some false, some false, some false, some false, some true, none, none],
      [some true, some false, some false, some false, some false, none, none]] := by decide +kernel

end CRoaring.Props
