import Verif.Props.Common
import Verif.Lemmas.CowSteps
/-
C38, C41: copy-on-write, copying and clearing.

The meaning of a history of calls over several bitmaps is in Verif/HistorySpec.lean: every bitmap is a set of its own.
The model of the code (Verif/Model/Cow.lean) has a heap of containers and of reference-counted shared containers;
`none` is undefined behaviour: an access through a dangling pointer or a pointer with a wrong typecode, freeing
something twice, the use of a null pointer.
`vw h s` (Verif/Lemmas/Cow.lean) is the bitmap as the other files model it: the cells with the containers that the
pointers lead to.
-/
namespace CRoaring.Props
open CRoaring

/-- A call with the choices of the container functions: which of them work in place, and the capacities. -/
abbrev Call := Op × (Nat → Bool) × (Nat → Nat)

/-- The memory `w` stands for the sets `sp`: the bitmaps that are alive are the same, they are valid, and
`roaring_bitmap_contains` answers as the set does. -/
def Stands (w : World) (sp : History.Pool) : Prop :=
  w.pool.length = sp.length ∧
  (∀ i, History.get sp i = none → w.get i = none) ∧
  (∀ i S, History.get sp i = some S → ∃ x, w.get i = some x ∧ Valid (vw w.heap x.slots) ∧
    ∀ v, hContains w.heap x v = some (S v))

theorem stands {g : Bool} {w : World} {sp : History.Pool} (a : WInv g w sp) : Stands w sp := by
  refine ⟨a.2.length, fun i hi => ?_, fun i S hS => ?_⟩
  · have := a.2 i
    simp only [History.get] at hi
    simp only [World.get]
    revert this hi
    cases hp : w.pool[i]? with
    | none => simp
    | some o =>
      cases o with
      | none => simp
      | some x =>
        cases hs : sp[i]? with
        | none => intro h; simp at h; exact fun h2 => h2.elim
        | some S => cases S with
          | none => intro h; simp at h; exact fun h2 => h2.elim
          | some S => intro h; simp at h
  · obtain ⟨x, e, ep, b⟩ := a.2.get (get_some hS)
    refine ⟨x, e, b.2.1.valid, fun v => ?_⟩
    rw [hContains_spec a.1 (mem_prefs ep) b.2.1, rbContains_eq b.2.1, b.2.2]

/-- C38: every finite history of calls over any number of bitmaps, all with the flag `g`, is free of undefined
behaviour (no dangling pointer is used, nothing is freed twice), and at its end every bitmap has the contents that its
own calls give it.  Every container belongs to a bitmap that is alive, so nothing leaks; when all bitmaps are freed the
heap is empty.

Partial: with `g` (copy-on-write) the calls `remove_many`, `range_uint32_array` and `or_many_heap` are not allowed in the
history (`History.step`), nor are `or_many` and `xor_many` of no bitmap at all, and bulk contexts are only used inside
`add_many`; see `C38_false` and the theorems after it, and C114 for `or_many_heap`. -/
theorem C38_history_partial (g : Bool) (calls : List Call) {sp : History.Pool}
    (hs : History.run g [] (calls.map (·.1)) = some sp) :
    ∃ w, run g World.init calls = some w ∧ Stands w sp ∧
      (∀ a, w.heap.cell a ≠ none → ∃ i x, w.get i = some x ∧ ∃ p ∈ x.slots, p.2.addr = a) ∧
      ((∀ i, History.get sp i = none) → ∀ a, w.heap.cell a = none) := by
  obtain ⟨w, e, a⟩ := run_ok calls (init_ok (g := g)) hs
  refine ⟨w, e, stands a, fun k hk => a.reach hk, fun hd k => ?_⟩
  apply Classical.byContradiction
  intro hk
  obtain ⟨i, x, hx, _⟩ := a.reach hk
  rw [(stands a).2.1 i (hd i)] at hx
  exact absurd hx (by simp)

/-- In the specification a call changes its own bitmap only. -/
theorem history_frame {g : Bool} {sp sp' : History.Pool} {op : Op} (hs : History.step g sp op = some sp') {k : Nat}
    (hk : k < sp.length) (ht : History.target op ≠ some k) : sp'[k]? = sp[k]? := by
  have hset : ∀ {i : Nat} {o : Option NSet}, i ≠ k → (sp.set i o)[k]? = sp[k]? := by
    intro i o hi; rw [List.getElem?_set]; simp [hi]
  have happ : ∀ {o : Option NSet}, (sp ++ [o])[k]? = sp[k]? := by
    intro o; rw [List.getElem?_append_left hk]
  have hupd : ∀ {i : Nat} {f : NSet → NSet}, i ≠ k → History.upd sp i f = some sp' → sp'[k]? = sp[k]? := by
    intro i f hi h
    simp only [History.upd, Option.bind_eq_bind, Option.bind_eq_some_iff, Option.some.injEq] at h
    obtain ⟨S, _, rfl⟩ := h
    exact hset hi
  have hnew1 : ∀ {i : Nat} {f : NSet → NSet}, History.new1 sp i f = some sp' → sp'[k]? = sp[k]? := by
    intro i f h
    simp only [History.new1, Option.bind_eq_bind, Option.bind_eq_some_iff, Option.some.injEq] at h
    obtain ⟨S, _, rfl⟩ := h
    exact happ
  have hupd2 : ∀ {i j : Nat} {f : NSet → NSet → NSet}, i ≠ k → History.upd2 sp i j f = some sp' →
      sp'[k]? = sp[k]? := by
    intro i j f hi h
    simp only [History.upd2, Option.bind_eq_bind, Option.bind_eq_some_iff] at h
    obtain ⟨S, _, T, _, h⟩ := h
    split at h
    · simp at h
    · simp only [Option.some.injEq] at h; subst h; exact hset hi
  have hnew2 : ∀ {i j : Nat} {f : NSet → NSet → NSet}, History.new2 sp i j f = some sp' → sp'[k]? = sp[k]? := by
    intro i j f h
    simp only [History.new2, Option.bind_eq_bind, Option.bind_eq_some_iff, Option.some.injEq] at h
    obtain ⟨S, _, T, _, rfl⟩ := h
    exact happ
  have hmany : ∀ {is : List Nat} {f : List NSet → NSet}, History.newMany sp is f = some sp' → sp'[k]? = sp[k]? := by
    intro is f h
    simp only [History.newMany, Option.bind_eq_bind, Option.bind_eq_some_iff, Option.some.injEq] at h
    obtain ⟨l, _, rfl⟩ := h
    exact happ
  have hne : ∀ {i : Nat}, some i ≠ some k → i ≠ k := fun h e => h (by rw [e])
  cases op with
  | create => simp only [History.step, Option.some.injEq] at hs; subst hs; exact happ
  | copy i => exact hnew1 hs
  | overwrite i j => exact hupd2 (hne ht) hs
  | clear i => exact hupd (hne ht) hs
  | free i =>
    simp only [History.step, Option.bind_eq_bind, Option.bind_eq_some_iff, Option.some.injEq] at hs
    obtain ⟨S, _, rfl⟩ := hs
    exact hset (hne ht)
  | add i v => exact hupd (hne ht) (u32_some hs).2
  | remove i v => exact hupd (hne ht) (u32_some hs).2
  | addMany i vs =>
    simp only [History.step] at hs
    split at hs
    · exact hupd (hne ht) hs
    · simp at hs
  | removeMany i vs =>
    simp only [History.step] at hs
    split at hs
    · exact hupd (hne ht) hs
    · simp at hs
  | addRange i m n => exact hupd (hne ht) (u32_some hs).2
  | removeRange i m n => exact hupd (hne ht) (u32_some hs).2
  | flip i m n => exact hnew1 (u32_some hs).2
  | flipInplace i m n => exact hupd (hne ht) (u32_some hs).2
  | and i j => exact hnew2 hs
  | or i j => exact hnew2 hs
  | xor i j => exact hnew2 hs
  | andnot i j => exact hnew2 hs
  | andInplace i j =>
    simp only [History.step] at hs
    split at hs
    · exact hupd (hne ht) hs
    · exact hupd2 (hne ht) hs
  | orInplace i j => exact hupd2 (hne ht) hs
  | xorInplace i j => exact hupd2 (hne ht) hs
  | andnotInplace i j => exact hupd2 (hne ht) hs
  | runOptimize i => exact hupd (hne ht) hs
  | removeRunCompression i => exact hupd (hne ht) hs
  | rangeArray i off lim =>
    simp only [History.step] at hs
    split at hs
    · exact hupd (hne ht) hs
    · simp at hs
  | addOffset i d => exact hnew1 hs
  | orMany is =>
    simp only [History.step] at hs
    split at hs
    · exact hmany hs
    · simp at hs
  | xorMany is =>
    simp only [History.step] at hs
    split at hs
    · exact hmany hs
    · simp at hs
  | orManyHeap is =>
    simp only [History.step] at hs
    split at hs
    · exact hmany hs
    · simp at hs

/-- C38: after any history, a call on one bitmap leaves the contents of every other bitmap as they were.  Partial in
the same way as `C38_history_partial`. -/
theorem C38_isolation_partial (g : Bool) (calls : List Call) (op : Op) (o : Nat → Bool) (caps : Nat → Nat)
    {sp : History.Pool} (hs : History.run g [] (calls.map (·.1) ++ [op]) = some sp) :
    ∃ w w', run g World.init calls = some w ∧ step g o caps w op = some w' ∧
      ∀ k x, w.get k = some x → History.target op ≠ some k →
        ∃ x', w'.get k = some x' ∧ ∀ v, (hContains w.heap x v).isSome ∧ hContains w'.heap x' v = hContains w.heap x v := by
  have hsplit : ∀ (l : List Op) (p : History.Pool), History.run g p (l ++ [op]) = some sp →
      ∃ q, History.run g p l = some q ∧ History.step g q op = some sp := by
    intro l
    induction l with
    | nil =>
      intro p h
      simp only [List.nil_append, History.run, Option.bind_eq_bind, Option.bind_eq_some_iff, Option.some.injEq] at h
      obtain ⟨a, h1, h2⟩ := h
      exact ⟨p, rfl, h2 ▸ h1⟩
    | cons c t ih =>
      intro p h
      simp only [List.cons_append, History.run, Option.bind_eq_bind, Option.bind_eq_some_iff] at h
      obtain ⟨a, h1, h2⟩ := h
      obtain ⟨q, h3, h4⟩ := ih a h2
      exact ⟨q, by simp [History.run, h1, h3], h4⟩
  obtain ⟨q, h1, h2⟩ := hsplit _ _ hs
  obtain ⟨w, e, a⟩ := run_ok calls (init_ok (g := g)) h1
  obtain ⟨w', e', a'⟩ := step_ok o caps a h2
  refine ⟨w, w', e, e', fun k x hx ht => ?_⟩
  have s := stands a
  have s' := stands a'
  cases hq : History.get q k with
  | none => rw [s.2.1 k hq] at hx; exact absurd hx (by simp)
  | some S =>
    obtain ⟨y, ey, _, c⟩ := s.2.2 k S hq
    obtain rfl : y = x := by rw [ey] at hx; exact Option.some.inj hx
    have hk := lt_of_get (get_some hq)
    have hq' : History.get sp k = some S := by
      rw [History.get, history_frame h2 hk ht]; exact hq
    obtain ⟨x', ex', _, c'⟩ := s'.2.2 k S hq'
    exact ⟨x', ex', fun v => by rw [c, c']; exact ⟨rfl, rfl⟩⟩

/-- Calls with all container functions working in place. -/
def inPlace (l : List Op) : List Call := l.map fun op => (op, fun _ => true, fun _ => 0)

/-- Calls with none of them doing so. -/
def outOfPlace (l : List Op) : List Call := l.map fun op => (op, fun _ => false, fun _ => 0)

/-- A history that shares containers between three bitmaps, changes them and frees them. -/
def exOps : List Op :=
  [.create, .add 0 1, .addMany 0 [70000, 2, 70001], .copy 0, .copy 1, .add 1 3, .remove 0 1, .or 0 2, .orInplace 2 1,
    .flipInplace 1 0 100, .free 0, .runOptimize 1, .overwrite 1 3, .addRange 3 65530 65540, .xor 3 3, .free 2]

example : (History.run true [] exOps).isSome = true := by decide +kernel
example : (History.run true [] (exOps ++ [.free 1, .free 3, .free 4])).isSome = true := by decide +kernel

/-- The contents after the history, for the values that occur. -/
example : ((run true World.init (outOfPlace exOps)).bind fun w => (w.get 1).map fun x =>
    [1, 2, 3, 70000, 70001].map (hContains w.heap x)) =
      some [some true, some true, some false, some true, some true] := by decide +kernel

example : ((run true World.init (inPlace exOps)).bind fun w => (w.get 3).map fun x =>
    [1, 2, 65529, 65530, 65540, 65541, 70000].map (hContains w.heap x)) =
      some [some true, some true, some false, some true, some true, some false, some true] := by decide +kernel

/-! ### Where the claim fails -/

/-- The claim C38 for all calls: with copy-on-write on all bitmaps, every history that is meaningful without it is free
of undefined behaviour and gives the same sets.  (`History.step false` allows `remove_many`,
`range_uint32_array` and `or_many_heap`.) -/
def FullIsolation : Prop :=
  ∀ (calls : List Call) (sp : History.Pool), History.run false [] (calls.map (·.1)) = some sp →
    ∃ w, run true World.init calls = some w ∧ Stands w sp

/-- `add`, `copy`, then `remove_many` on the original. -/
def exRemoveMany : List Op := [.create, .add 0 1, .add 0 2, .copy 0, .removeMany 0 [1]]

/-- C38 fails: `remove_many` on a bitmap gives back its reference to a shared container twice.  Afterwards the copy has
a dangling pointer: `roaring_bitmap_contains` on the copy reads freed memory. -/
theorem C38_false : ¬ FullIsolation := by
  intro H
  obtain ⟨sp, h1⟩ := Option.isSome_iff_exists.1
    (show (History.run false [] ((inPlace exRemoveMany).map (·.1))).isSome = true by decide +kernel)
  obtain ⟨w, e, s⟩ := H _ _ h1
  have h2 : ((run true World.init (inPlace exRemoveMany)).bind fun w => (w.get 1).bind fun x =>
      hContains w.heap x 1) = none := by decide +kernel
  have h3 : ∃ S, History.get sp 1 = some S := by
    have : ((History.run false [] ((inPlace exRemoveMany).map (·.1))).bind fun p => History.get p 1).isSome = true := by
      decide +kernel
    rw [h1] at this
    exact Option.isSome_iff_exists.1 this
  obtain ⟨S, h3⟩ := h3
  obtain ⟨x, ex, _, c⟩ := s.2.2 1 S h3
  rw [e] at h2
  simp only [Option.bind_some, ex, c] at h2
  exact absurd h2 (by simp)

/-- C38 fails: `remove_many` in the same history when the container functions return new containers. -/
theorem C38_false_remove_many_new : ((run true World.init (outOfPlace exRemoveMany)).bind fun w =>
    (w.get 1).map fun x => hContains w.heap x 1) = some none := by decide +kernel

/-- C38 fails: `range_uint32_array`, a function that only reads, stores the typecode of the wrapped container in the
bitmap while the pointer still leads to the wrapper.  The next call on the bitmap that uses the container is undefined
behaviour. -/
theorem C38_false_range_array :
    (run true World.init (inPlace [.create, .add 0 1, .copy 0, .rangeArray 0 0 10])).isSome = true ∧
    ((run true World.init (inPlace [.create, .add 0 1, .copy 0, .rangeArray 0 0 10])).bind fun w =>
      (w.get 0).map fun x => hContains w.heap x 1) = some none ∧
    (run true World.init (inPlace [.create, .add 0 1, .copy 0, .rangeArray 0 0 10, .free 0])).isNone = true := by
  decide +kernel

/-- C38 fails: `add_bulk` with a context that a `contains_bulk` call on the same bitmap filled in (a context is usable
with all `_bulk` functions, `include/roaring/roaring.h:336-346`) gives back its reference to a shared container twice; the copy has a dangling pointer afterwards. -/
theorem C38_false_bulk_context :
    ((run true World.init (inPlace [.create, .add 0 1, .copy 0])).bind fun w => do
      let x ← w.get 0
      let y ← w.get 1
      let (_, ctx) ← hContainsBulk w.heap x none 1
      let (_, _, h) ← hAddBulk true w.heap x ctx 2
      some (hContains w.heap y 1, hContains h y 1)) = some (some true, none) := by decide +kernel

/-- The restriction of `overwrite` to two different bitmaps is needed: `roaring_bitmap_overwrite(x, x)` frees the
containers and copies them afterwards. -/
theorem C41_overwrite_self :
    (run false World.init (inPlace [.create, .add 0 1, .overwrite 0 0])).isNone = true ∧
    (run true World.init (inPlace [.create, .add 0 1, .overwrite 0 0])).isNone = true := by decide +kernel

/-- The restriction to one value of the flag is needed (and documented): copying a bitmap without copy-on-write that has
shared containers uses a null pointer. -/
theorem C38_mixed_flags :
    ((run true World.init (inPlace [.create, .add 0 1, .copy 0])).bind fun w => do
      let x ← w.get 0
      some (hCopy w.heap ⟨false, x.slots⟩).isNone) = some true := by decide +kernel

/-! ### C41 -/

/-- C41: after any history of calls, `roaring_bitmap_copy` gives a new valid bitmap with the same elements as the
bitmap, and no other bitmap changes. -/
theorem C41_copy (g : Bool) (calls : List Call) {sp : History.Pool} {i : Nat} {S : NSet} (o : Nat → Bool)
    (caps : Nat → Nat) (hs : History.run g [] (calls.map (·.1)) = some sp) (hi : History.get sp i = some S) :
    ∃ w w', run g World.init calls = some w ∧ step g o caps w (.copy i) = some w' ∧ Stands w' (sp ++ [some S]) := by
  obtain ⟨w, e, a⟩ := run_ok calls (init_ok (g := g)) hs
  obtain ⟨w', e', a'⟩ := step_ok (sp' := sp ++ [some S]) (op := .copy i) o caps a
    (by simp [History.step, History.new1, hi])
  exact ⟨w, w', e, e', stands a'⟩

/-- C41: after any history of calls, `roaring_bitmap_overwrite` gives the destination the elements of another bitmap,
and no other bitmap changes. -/
theorem C41_overwrite (g : Bool) (calls : List Call) {sp : History.Pool} {i j : Nat} {S T : NSet} (o : Nat → Bool)
    (caps : Nat → Nat) (hs : History.run g [] (calls.map (·.1)) = some sp) (hi : History.get sp i = some S)
    (hj : History.get sp j = some T) (hij : i ≠ j) :
    ∃ w w', run g World.init calls = some w ∧ step g o caps w (.overwrite i j) = some w' ∧
      Stands w' (sp.set i (some T)) := by
  obtain ⟨w, e, a⟩ := run_ok calls (init_ok (g := g)) hs
  obtain ⟨w', e', a'⟩ := step_ok (sp' := sp.set i (some T)) (op := .overwrite i j) o caps a
    (by simp [History.step, History.upd2, hi, hj, hij])
  exact ⟨w, w', e, e', stands a'⟩

/-- C41: after any history of calls, `roaring_bitmap_clear` empties the bitmap, and no other bitmap changes. -/
theorem C41_clear (g : Bool) (calls : List Call) {sp : History.Pool} {i : Nat} {S : NSet} (o : Nat → Bool)
    (caps : Nat → Nat) (hs : History.run g [] (calls.map (·.1)) = some sp) (hi : History.get sp i = some S) :
    ∃ w w', run g World.init calls = some w ∧ step g o caps w (.clear i) = some w' ∧
      Stands w' (sp.set i (some Spec.empty)) := by
  obtain ⟨w, e, a⟩ := run_ok calls (init_ok (g := g)) hs
  obtain ⟨w', e', a'⟩ := step_ok (sp' := sp.set i (some Spec.empty)) (op := .clear i) o caps a
    (by simp [History.step, History.upd, hi])
  exact ⟨w, w', e, e', stands a'⟩

/-- C41 for a bitmap that no history needs to produce: any valid bitmap, in a heap where its cells lead to containers
of its own, next to any other pointers `l`.  The copy has the same cells with the same containers; nothing else
changes. -/
theorem C41_copy_exact {g : Bool} {h : Heap} {x : HBitmap} {l : List Ref} (i : HInv g h (refs x.slots ++ l))
    (hx : x.cow = g) (hv : Valid (vw h x.slots)) :
    ∃ y x' h', hCopy h x = some (y, x', h') ∧ HInv g h' (refs y.slots ++ (refs x'.slots ++ l)) ∧
      vw h' y.slots = vw h x.slots ∧ vw h' x'.slots = vw h x.slots ∧ Valid (vw h' y.slots) ∧
      ∀ r ∈ l, readC h' r = readC h r := by
  obtain ⟨b, s', h', e, i', w1, w2, q⟩ := copySlots_spec i
  refine ⟨⟨g, b⟩, ⟨g, s'⟩, h', by simp [hCopy, hx, e], i', w1, w2, w1 ▸ hv, fun r hr => ?_⟩
  rw [i.live (r := r) (by simp [hr]), i'.live (r := r) (by simp [hr]), q r hr]

/-- C41 for `roaring_bitmap_overwrite`, in the same generality: whatever the destination was, it has the elements of the
source afterwards, and nothing else changes. -/
theorem C41_overwrite_exact {g : Bool} {h : Heap} {x y : HBitmap} {l : List Ref}
    (i : HInv g h (refs x.slots ++ (refs y.slots ++ l))) (hy : y.cow = g) (hv : Valid (vw h y.slots)) :
    ∃ x' y' h', hOverwrite h x y = some (x', y', h') ∧ HInv g h' (refs x'.slots ++ (refs y'.slots ++ l)) ∧
      vw h' x'.slots = vw h y.slots ∧ vw h' y'.slots = vw h y.slots ∧ Valid (vw h' x'.slots) ∧
      ∀ r ∈ l, readC h' r = readC h r := by
  obtain ⟨h1, e1, i1, q1⟩ := freeSlots_spec i
  obtain ⟨d, s', h2, e2, i2, w1, w2, q2⟩ := copySlots_spec i1
  have wy : vw h1 y.slots = vw h y.slots := Keep.vw (q1.mono (by sub_tac))
  refine ⟨⟨g, d⟩, ⟨g, s'⟩, h2, by simp [hOverwrite, e1, hy, e2], i2, w1.trans wy, w2.trans wy,
    (w1.trans wy) ▸ hv, fun r hr => ?_⟩
  rw [i.live (r := r) (by simp [hr]), i2.live (r := r) (by simp [hr]), q2 r hr, q1 r (by simp [hr])]

/-- C41 for `roaring_bitmap_clear`, in the same generality. -/
theorem C41_clear_exact {g : Bool} {h : Heap} {x : HBitmap} {l : List Ref} (i : HInv g h (refs x.slots ++ l)) :
    ∃ x' h', hClear h x = some (x', h') ∧ x'.slots = [] ∧ HInv g h' l ∧ ∀ r ∈ l, readC h' r = readC h r := by
  obtain ⟨h', e, i', q⟩ := freeSlots_spec i
  refine ⟨⟨x.cow, []⟩, h', by simp [hClear, e], rfl, i', fun r hr => ?_⟩
  rw [i.live (r := r) (by simp [hr]), i'.live (r := r) hr, q r hr]

/-- A heap with one container, shared by two bitmaps. -/
example : HInv true ⟨1, fun a => if a = 0 then some (.shared (.array [1, 5]) 2) else none⟩
    (refs [(0, ⟨true, 0⟩)] ++ [⟨true, 0⟩]) := by
  refine ⟨fun a ha => ?_, fun a ha => ?_, fun a c ha => ?_, fun a c n ha => ?_, fun h => by simp at h⟩
  · simp only at ha
    exact if_neg (by omega)
  · by_cases h0 : a = 0
    · simp [h0] at ha
    · have h1 : ¬ 0 = a := fun h => h0 h.symm
      simp [refs, h1]
  · by_cases h0 : a = 0 <;> simp [h0] at ha
  · by_cases h0 : a = 0
    · simp only [h0, if_true, Option.some.injEq, Cell.shared.injEq] at ha
      obtain ⟨_, rfl⟩ := ha
      subst h0
      decide
    · simp [h0] at ha

example : ((History.run true [] exOps).bind fun sp => History.get sp 3).isSome = true := by decide +kernel

end CRoaring.Props
