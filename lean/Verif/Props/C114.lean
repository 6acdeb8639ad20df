import Verif.Props.C38
/-
C114: the unions and symmetric differences of many bitmaps (`roaring_bitmap_or_many`, `roaring_bitmap_xor_many`,
`roaring_bitmap_or_many_heap`) and the shift (`roaring_bitmap_add_offset`) on memory, after any history of calls, with
and without copy-on-write.

The specification is the one of C38 (Verif/HistorySpec.lean): `unionAll` is the set of the values in at least one of the
sets, `symmAll` the set of the values in an odd number of them, `shift` moves the values and drops those that are no
32-bit values then.  The memory model of these calls is Verif/Model/CowMany.lean.
-/
namespace CRoaring.Props
open CRoaring

/-- No container is lost: each one is reached from a bitmap that is alive. -/
def NoLeak (w : World) : Prop :=
  ∀ a, w.heap.cell a ≠ none → ∃ i x, w.get i = some x ∧ ∃ p ∈ x.slots, p.2.addr = a

/-- C114: after any history, `or_many` of one or more bitmaps that are alive (the same one may be given more than once)
gives a new valid bitmap with exactly the values that are in one of them; all other bitmaps, the arguments included,
have the contents they had, and nothing leaks.  Without copy-on-write no bitmap at all may be given, too. -/
theorem C114_or_many (g : Bool) (calls : List Call) {sp : History.Pool} {is : List Nat} {l : List NSet} (o : Nat → Bool)
    (caps : Nat → Nat) (hs : History.run g [] (calls.map (·.1)) = some sp) (hl : History.gets sp is = some l)
    (hg : g = false ∨ is ≠ []) :
    ∃ w w', run g World.init calls = some w ∧ step g o caps w (.orMany is) = some w' ∧
      Stands w' (sp ++ [some (History.unionAll l)]) ∧ NoLeak w' := by
  obtain ⟨w, e, a⟩ := run_ok calls (init_ok (g := g)) hs
  obtain ⟨w', e', a'⟩ := step_ok (sp' := sp ++ [some (History.unionAll l)]) (op := .orMany is) o caps a
    (by simp only [History.step, if_pos hg, History.newMany, hl]; rfl)
  exact ⟨w, w', e, e', stands a', fun k hk => a'.reach hk⟩

/-- C114: the same for `xor_many` and the values that are in an odd number of the bitmaps. -/
theorem C114_xor_many (g : Bool) (calls : List Call) {sp : History.Pool} {is : List Nat} {l : List NSet} (o : Nat → Bool)
    (caps : Nat → Nat) (hs : History.run g [] (calls.map (·.1)) = some sp) (hl : History.gets sp is = some l)
    (hg : g = false ∨ is ≠ []) :
    ∃ w w', run g World.init calls = some w ∧ step g o caps w (.xorMany is) = some w' ∧
      Stands w' (sp ++ [some (History.symmAll l)]) ∧ NoLeak w' := by
  obtain ⟨w, e, a⟩ := run_ok calls (init_ok (g := g)) hs
  obtain ⟨w', e', a'⟩ := step_ok (sp' := sp ++ [some (History.symmAll l)]) (op := .xorMany is) o caps a
    (by simp only [History.step, if_pos hg, History.newMany, hl]; rfl)
  exact ⟨w, w', e, e', stands a', fun k hk => a'.reach hk⟩

/-- C114: after any history, `add_offset` gives a new valid bitmap with the values of the argument moved by the offset;
all other bitmaps, the argument included, have the contents they had, and nothing leaks. -/
theorem C114_add_offset (g : Bool) (calls : List Call) {sp : History.Pool} {i : Nat} {S : NSet} (d : Int) (o : Nat → Bool)
    (caps : Nat → Nat) (hs : History.run g [] (calls.map (·.1)) = some sp) (hi : History.get sp i = some S) :
    ∃ w w', run g World.init calls = some w ∧ step g o caps w (.addOffset i d) = some w' ∧
      Stands w' (sp ++ [some (History.shift S d)]) ∧ NoLeak w' := by
  obtain ⟨w, e, a⟩ := run_ok calls (init_ok (g := g)) hs
  obtain ⟨w', e', a'⟩ := step_ok (sp' := sp ++ [some (History.shift S d)]) (op := .addOffset i d) o caps a
    (by simp only [History.step, History.new1, hi]; rfl)
  exact ⟨w, w', e, e', stands a', fun k hk => a'.reach hk⟩

/-! ### `or_many_heap` -/

/-- A pool that stands for sets, with one more bitmap that may have another flag. -/
theorem stands_append {g f : Bool} {h : Heap} {p : List (Option HBitmap)} {sp : History.Pool} {n : HBitmap} {S : NSet}
    (iv : HInv g h (refs n.slots ++ prefs p)) (a : PRel g h p sp) (c : Good f h n S) :
    Stands ⟨h, p ++ [some n]⟩ (sp ++ [some S]) ∧ NoLeak ⟨h, p ++ [some n]⟩ := by
  have hl := a.length
  have iv' : HInv g h (prefs (p ++ [some n])) := iv.perm (fun r => by
    simp only [prefs_append, List.count_append, prefs, List.append_nil]; omega)
  refine ⟨⟨by simp [hl], fun i hi => ?_, fun i T hT => ?_⟩, fun k hk => ?_⟩
  · have hne : i ≠ sp.length := by
      intro h0; subst h0; simp [History.get] at hi
    by_cases hlt : i < sp.length
    · have h1 : History.get sp i = none := by
        simpa only [History.get, List.getElem?_append_left hlt] using hi
      have := a i
      simp only [World.get]
      rw [List.getElem?_append_left (by omega)]
      revert this h1
      simp only [History.get]
      cases hp : p[i]? with
      | none => simp
      | some o =>
        cases o with
        | none => simp
        | some x =>
          cases hs : sp[i]? with
          | none => intro _ h; exact h.elim
          | some S => cases S with
            | none => intro _ h; exact h.elim
            | some S => intro h; simp at h
    · simp only [World.get]
      rw [List.getElem?_eq_none (by simp; omega)]
      rfl
  · have hT := get_some hT
    have : ∃ x f, (p ++ [some n])[i]? = some (some x) ∧ Good f h x T := by
      by_cases hlt : i < sp.length
      · rw [List.getElem?_append_left hlt] at hT
        obtain ⟨x, _, ep, b⟩ := a.pget hT
        exact ⟨x, g, by rw [List.getElem?_append_left (by omega)]; exact ep, b⟩
      · have : i = sp.length := by
          have := lt_of_get hT
          simp at this
          omega
        subst this
        simp at hT
        subst hT
        exact ⟨n, f, by rw [← hl]; simp, c⟩
    obtain ⟨x, f', ep, b⟩ := this
    refine ⟨x, by simp [World.get, ep], b.2.1.valid, fun v => ?_⟩
    rw [hContains_spec iv' (mem_prefs ep) b.2.1, rbContains_eq b.2.1, b.2.2]
  · have : ∃ sh, (⟨sh, k⟩ : Ref) ∈ prefs (p ++ [some n]) := by
      cases hc : h.cell k with
      | none => exact (hk hc).elim
      | some c =>
        cases c with
        | plain c => exact ⟨false, List.count_pos_iff.1 (by have := iv'.own k c hc; omega)⟩
        | shared c n => exact ⟨true, List.count_pos_iff.1 (by have := iv'.cnt k c n hc; omega)⟩
    obtain ⟨sh, hm⟩ := this
    obtain ⟨i, x, h1, h2⟩ := mem_prefs_inv hm
    obtain ⟨q, hq, e⟩ := List.mem_map.1 h2
    exact ⟨i, x, by simp [World.get, h1], q, hq, by rw [e]⟩

/-- C114: after any history, with or without copy-on-write, `or_many_heap` of any bitmaps that are alive is free of
undefined behaviour and gives a new valid bitmap with exactly the values that are in one of them.  All other bitmaps,
the arguments included, have the contents they had; nothing leaks.  The new bitmap has no container in common with
another bitmap when two or more bitmaps were given.  Freed at once, it leaves a memory in which every further history
`rest` works.

Partial: with copy-on-write, the new bitmap itself may not be used in all the ways in which a bitmap may be used
(`C114_false`): its copy-on-write flag may be off. -/
theorem C114_or_many_heap_partial (g : Bool) (calls : List Call) {sp : History.Pool} {is : List Nat} {l : List NSet}
    (o : Nat → Bool) (caps : Nat → Nat) (hs : History.run g [] (calls.map (·.1)) = some sp)
    (hl : History.gets sp is = some l) :
    ∃ w w', run g World.init calls = some w ∧ step g o caps w (.orManyHeap is) = some w' ∧
      Stands w' (sp ++ [some (History.unionAll l)]) ∧ NoLeak w' ∧
      (∃ n, w'.get sp.length = some n ∧ (n.cow = g ∨ n.cow = false) ∧
        (2 ≤ is.length → ∀ s ∈ n.slots, s.2.sh = false)) ∧
      ∀ (rest : List Call) (sp2 : History.Pool),
        History.run g (sp ++ [none]) (rest.map (·.1)) = some sp2 →
        ∃ w'' w3, step g o caps w' (.free sp.length) = some w'' ∧ run g w'' rest = some w3 ∧ Stands w3 sp2 ∧
          NoLeak w3 := by
  obtain ⟨w, e, a⟩ := run_ok calls (init_ok (g := g)) hs
  obtain ⟨n, p', h', e', i', a', ⟨f, hf, c, hn⟩, _⟩ := hOrManyHeap_ok o caps (L := []) (by simpa using a.1) a.2 hl
  rw [List.append_nil] at i'
  have st := stands_append i' a' c
  have hlen := a'.length
  have hget : World.get ⟨h', p' ++ [some n]⟩ sp.length = some n := by rw [← hlen]; simp [World.get]
  refine ⟨w, ⟨h', p' ++ [some n]⟩, e, by simp [step, stepMany, e'], st.1, st.2, ⟨n, hget, ?_, hn⟩, ?_⟩
  · rcases hf with hf | hf
    · exact Or.inl (c.1.trans hf)
    · exact Or.inr (c.1.trans hf)
  · intro rest sp2 h2
    obtain ⟨h3, e3, i3, q3⟩ := freeSlots_spec i'
    have hset : (p' ++ [some n]).set sp.length none = p' ++ [none] := by
      rw [← hlen, List.set_append_right _ _ (Nat.le_refl _)]; simp
    have a3 : WInv g ⟨h3, p' ++ [none]⟩ (sp ++ [none]) := by
      refine ⟨by simpa [prefs_append, prefs] using i3, ?_⟩
      have a4 := a'.keep q3
      intro k
      by_cases hk : k < sp.length
      · simp only [List.getElem?_append_left hk, List.getElem?_append_left (hlen ▸ hk)]
        exact a4 k
      · by_cases hk2 : k = sp.length
        · subst hk2
          have : (p' ++ [none])[sp.length]? = some none := by rw [← hlen]; simp
          simp only [this]
          simp [ERel]
        · simp only
          rw [List.getElem?_eq_none (by simp; omega), List.getElem?_eq_none (by simp; omega)]
          trivial
    obtain ⟨w3, e4, a4⟩ := run_ok rest a3 h2
    refine ⟨⟨h3, p' ++ [none]⟩, w3, ?_, e4, stands a4, fun k hk => a4.reach hk⟩
    simp only [step, hget, hFree, e3, Option.bind_eq_bind, Option.bind_some, hset]

/-- A history with copy-on-write after which the calls are made: three bitmaps, two of which share a container. -/
def exMany : List Op := [.create, .addMany 0 [1, 2, 70000], .copy 0, .add 1 3, .create, .add 2 70001]

example : (History.run true [] exMany).isSome = true := by decide +kernel
example : ((History.run true [] exMany).bind fun sp => History.gets sp [0, 1, 2, 1]).isSome = true := by decide +kernel
example : ((History.run true [] exMany).bind fun sp =>
    History.run true (sp ++ [none]) [.or 0 1, .xorMany [0, 2, 4], .addOffset 5 (-3), .free 0]).isSome = true := by
  decide +kernel

/-- The values 1, 2, 3, 70000, 70001 in the new bitmap of each call. -/
example : ([.xorMany [0, 1, 2, 1], .orManyHeap [0, 1, 2, 1], .addOffset 1 (-1)] : List Op).map
    (fun op => (run true World.init (inPlace (exMany ++ [op]))).bind fun w => (w.get 3).map fun x =>
      [1, 2, 3, 70000, 70001].map (hContains w.heap x)) =
    [some [some true, some true, some false, some true, some true],
      some [some true, some true, some true, some true, some true],
      some [some true, some true, some false, some false, some false]] := by decide +kernel

example : (run true World.init (outOfPlace (exMany ++ [.xorMany [0, 1, 2, 1], .addOffset 3 65536, .xorMany [4, 3, 3],
    .orManyHeap [5, 4, 0], .free 6, .copy 5]))).isSome = true := by decide +kernel

example : ((run true World.init (inPlace [.create, .add 0 1, .create, .add 1 70000, .orMany [0, 1]])).bind fun w =>
    (w.get 2).map fun x => [0, 1, 70000].map (hContains w.heap x)) = some [some false, some true, some true] := by
  decide +kernel

/-! ### Where the claim fails -/

/-- The claim C114 for `or_many_heap`: with copy-on-write on all bitmaps, the call may occur anywhere in a history, and
the rest of the history works. -/
def HeapUnionUsable : Prop :=
  ∀ (before after : List Call) (is : List Nat) (o : Nat → Bool) (caps : Nat → Nat) (sp : History.Pool) (l : List NSet)
    (sp2 : History.Pool),
    History.run true [] (before.map (·.1)) = some sp → History.gets sp is = some l →
    History.run true (sp ++ [some (History.unionAll l)]) (after.map (·.1)) = some sp2 →
    ∃ w, run true World.init (before ++ (.orManyHeap is, o, caps) :: after) = some w ∧ Stands w sp2

/-- Four bitmaps with copy-on-write, with one value each. -/
def exFour : List Op :=
  [.create, .create, .create, .create, .add 0 1, .add 1 2, .add 2 3, .add 3 4]

/-- The rest of the history: the union is united with a fifth bitmap, and copied. -/
def exFifth : List Op := [.create, .add 5 70000, .orInplace 4 5, .copy 4]

/-- C114 fails: when `or_many_heap` unites two intermediate bitmaps, the result has its copy-on-write flag off although
it is on for all arguments (D46).  Once a container of another bitmap is shared with it (`or_inplace`), copying it uses
a null pointer. -/
theorem C114_false : ¬ HeapUnionUsable := by
  intro H
  obtain ⟨sp, h1⟩ := Option.isSome_iff_exists.1
    (show (History.run true [] ((inPlace exFour).map (·.1))).isSome = true by decide +kernel)
  obtain ⟨l, h2⟩ : ∃ l, History.gets sp [0, 1, 2, 3] = some l := by
    have : ((History.run true [] ((inPlace exFour).map (·.1))).bind fun p => History.gets p [0, 1, 2, 3]).isSome = true := by
      decide +kernel
    rw [h1] at this
    exact Option.isSome_iff_exists.1 this
  obtain ⟨sp2, h3⟩ : ∃ sp2, History.run true (sp ++ [some (History.unionAll l)]) ((inPlace exFifth).map (·.1)) =
      some sp2 := by
    have : ((History.run true [] ((inPlace exFour).map (·.1))).bind fun p =>
        (History.gets p [0, 1, 2, 3]).bind fun l =>
          History.run true (p ++ [some (History.unionAll l)]) ((inPlace exFifth).map (·.1))).isSome = true := by
      decide +kernel
    rw [h1, Option.bind_some, h2, Option.bind_some] at this
    exact Option.isSome_iff_exists.1 this
  obtain ⟨w, e, _⟩ := H (inPlace exFour) (inPlace exFifth) [0, 1, 2, 3] (fun _ => true) (fun _ => 0) sp l sp2 h1 h2 h3
  have h4 : run true World.init (inPlace exFour ++ (.orManyHeap [0, 1, 2, 3], fun _ => true, fun _ => 0) ::
      inPlace exFifth) = none := by
    have : (run true World.init (inPlace exFour ++ (.orManyHeap [0, 1, 2, 3], fun _ => true, fun _ => 0) ::
      inPlace exFifth)).isNone = true := by decide +kernel
    exact Option.isNone_iff_eq_none.1 this
  rw [h4] at e
  exact absurd e (by simp)

/-- In that history the flag of the union is off, and `or_inplace` puts a shared container into it. -/
theorem C114_flag_lost :
    ((run true World.init (inPlace (exFour ++ [.orManyHeap [0, 1, 2, 3]]))).bind fun w => (w.get 4).map (·.cow)) =
      some false ∧
    ((run true World.init (inPlace (exFour ++ [.orManyHeap [0, 1, 2, 3], .create, .add 5 70000, .orInplace 4 5]))).bind
      fun w => (w.get 4).map fun x => (x.cow, x.slots.map fun s => s.2.sh)) = some (false, [false, true]) := by
  decide +kernel

end CRoaring.Props
