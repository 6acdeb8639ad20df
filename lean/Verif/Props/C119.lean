import Verif.Lemmas.ArtHeapIter3
/-
C119, C120: iterators over a radix tree, on its arrays.  The words of the statements are in `Verif/ArtIterSpec.lean`.
-/
set_option linter.unusedSimpArgs false
namespace CRoaring.Props
open Spec

section
variable {V : Type}

/-- C119: values are set, looked up and erased, the arrays are shrunk, iterators are made at the first key, at the last one, or by searches, moved forward,
backward and by searches, keys are inserted and erased through them and values stored through their pointers, in whatever order: no stale pointer and no place
that is not a node is used, the iterator shows after each call what a cursor on a map shows, and in the end the tree holds what the map holds.  Beyond what
the declarations ask for, a search through an iterator that has run out needs one that a search has not made and that has not erased the last key. -/
theorem C119_cursor (ops : List (ItOp V)) (h : ItsAllowed (fun _ => none) none ops) :
    ∃ a it outs m c, itRun (ArtT.init, none) ops = .ok ((a, it), outs) ∧ ItSpecs (fun _ => none) none ops outs m c ∧ Safe a ∧
      ∀ key, SixBytes key → a.step (.get key) = .ok (a, m key) := by
  have h0 : ItSt (ArtT.init, none) (fun _ => none : List Nat → Option V) none (fun _ => False) none := by
    obtain ⟨root, g1, g2, g3⟩ := amap_init (V := V)
    have : root = none := arep_none g1 rfl
    subst this
    exact ⟨g1, g2, g3, trivial⟩
  obtain ⟨⟨a, it⟩, outs, m, c, L, root, g1, g2, g3⟩ := it_steps ops h0 h
  refine ⟨a, it, outs, m, c, g1, g2, g3.rep.safe, fun key hk => ?_⟩
  have hm := g3.map key (six_iff.1 hk)
  unfold ArtT.step
  simp only
  rcases arep_find g3.rep g3.ok (six_iff.1 hk) with ⟨e1, e2⟩ | ⟨v, p, e1, e2, e3, _⟩
  · simp only at e2
    rw [e2, ok_bind, ← hm, e1]
  · simp only at e2 e3
    rw [e2, ok_bind]
    simp only
    rw [e3, ok_bind, ← hm, e1]

/-- What a cursor on a map shows is determined by the calls. -/
theorem C119_determined (ops : List (ItOp V)) {outs outs' m m' c c'} (h : ItSpecs (V := V) (fun _ => none) none ops outs m c)
    (h' : ItSpecs (fun _ => none) none ops outs' m' c') : outs = outs' ∧ m = m' ∧ c = c' :=
  h.unique h'

end

/-! ### A concrete case -/

/-- Set three keys, walk forward and erase the second, find the third, go back, insert a key and store a value through the iterator. -/
def c119_ops : List (ItOp Nat) :=
  [.call (.req (.put [0, 0, 0, 0, 0, 1] 10)), .call (.req (.put [0, 0, 0, 0, 0, 3] 30)), .call (.req (.put [0, 0, 5, 0, 0, 0] 50)),
    .first, .next, .erase, .prev, .seek [0, 0, 0, 0, 0, 2], .insert [0, 0, 0, 9, 0, 0] 90, .store 91, .last, .next, .seek [0, 0, 0, 0, 0, 0],
    .lower [0, 0, 0, 0, 0, 2], .upper [0, 0, 0, 0, 0, 1]]

theorem least_in {m : List Nat → Option Nat} {P : Nat → Prop} (l : List (List Nat)) (hl : ∀ k, k ∉ l → m k = none) (k : List Nat) (v : Nat)
    (h6 : SixBytes k) (hv : m k = some v) (hp : P (keyOrd k)) (h : ∀ k' ∈ l, P (keyOrd k') → keyOrd k ≤ keyOrd k') : LeastKey m P (some (k, v)) :=
  ⟨h6, hv, hp, fun k' _ hne => h k' (Classical.byContradiction (fun hn => hne (hl k' hn)))⟩

theorem greatest_in {m : List Nat → Option Nat} {P : Nat → Prop} (l : List (List Nat)) (hl : ∀ k, k ∉ l → m k = none) (k : List Nat) (v : Nat)
    (h6 : SixBytes k) (hv : m k = some v) (hp : P (keyOrd k)) (h : ∀ k' ∈ l, P (keyOrd k') → keyOrd k' ≤ keyOrd k) : GreatestKey m P (some (k, v)) :=
  ⟨h6, hv, hp, fun k' _ hne => h k' (Classical.byContradiction (fun hn => hne (hl k' hn)))⟩

theorem least_out {m : List Nat → Option Nat} {P : Nat → Prop} (l : List (List Nat)) (hl : ∀ k, k ∉ l → m k = none) (h : ∀ k' ∈ l, ¬ P (keyOrd k')) :
    LeastKey m P none :=
  fun k' _ hne => h k' (Classical.byContradiction (fun hn => hne (hl k' hn)))

/-- The calls are allowed. -/
theorem c119_allowed : ItsAllowed (fun _ => none) none c119_ops := by
  refine ItSpecs.allowed (.cons (.call ?_) <| .cons (.call ?_) <| .cons (.call ?_) <|
    .cons (.first (least_in [[0, 0, 0, 0, 0, 1], [0, 0, 0, 0, 0, 3], [0, 0, 5, 0, 0, 0]] ?_ [0, 0, 0, 0, 0, 1] 10 ?_ ?_ ?_ ?_)) <|
    .cons (.next (least_in [[0, 0, 0, 0, 0, 1], [0, 0, 0, 0, 0, 3], [0, 0, 5, 0, 0, 0]] ?_ [0, 0, 0, 0, 0, 3] 30 ?_ ?_ ?_ ?_)) <|
    .cons (.erase (v := 30) ?_ (least_in [[0, 0, 0, 0, 0, 1], [0, 0, 0, 0, 0, 3], [0, 0, 5, 0, 0, 0]] ?_ [0, 0, 5, 0, 0, 0] 50 ?_ ?_ ?_ ?_) true ?_) <|
    .cons (.prev (greatest_in [[0, 0, 0, 0, 0, 1], [0, 0, 5, 0, 0, 0]] ?_ [0, 0, 0, 0, 0, 1] 10 ?_ ?_ ?_ ?_)) <|
    .cons (.seek ?_ ?_ (least_in [[0, 0, 0, 0, 0, 1], [0, 0, 5, 0, 0, 0]] ?_ [0, 0, 5, 0, 0, 0] 50 ?_ ?_ ?_ ?_)) <|
    .cons (.insert ?_ ?_) <| .cons .store <|
    .cons (.last (greatest_in [[0, 0, 0, 0, 0, 1], [0, 0, 0, 9, 0, 0], [0, 0, 5, 0, 0, 0]] ?_ [0, 0, 5, 0, 0, 0] 50 ?_ ?_ ?_ ?_)) <|
    .cons (.next (least_out [[0, 0, 0, 0, 0, 1], [0, 0, 0, 9, 0, 0], [0, 0, 5, 0, 0, 0]] ?_ ?_)) <|
    .cons (.seek ?_ ?_ (least_in [[0, 0, 0, 0, 0, 1], [0, 0, 0, 9, 0, 0], [0, 0, 5, 0, 0, 0]] ?_ [0, 0, 0, 0, 0, 1] 10 ?_ ?_ ?_ ?_)) <|
    .cons (.lower ?_ (least_in [[0, 0, 0, 0, 0, 1], [0, 0, 0, 9, 0, 0], [0, 0, 5, 0, 0, 0]] ?_ [0, 0, 0, 9, 0, 0] 91 ?_ ?_ ?_ ?_)) <|
    .cons (.upper ?_ (least_in [[0, 0, 0, 0, 0, 1], [0, 0, 0, 9, 0, 0], [0, 0, 5, 0, 0, 0]] ?_ [0, 0, 0, 9, 0, 0] 91 ?_ ?_ ?_ ?_)) <|
    .nil)
  all_goals first
    | exact ⟨rfl, by decide⟩
    | rfl
    | trivial
    | decide
    | exact ⟨fun _ => ⟨[0, 0, 0, 0, 0, 1], by decide, ⟨rfl, by decide⟩, by decide⟩, fun _ => rfl⟩
    | (intro k hk; simp only [List.mem_cons, List.not_mem_nil, or_false, not_or] at hk; simp [mapCall, mapStep, hk])
    | skip

example : ∃ s, itRun (ArtT.init, none) c119_ops = .ok (s,
    [(some 10, none), (some 30, none), (some 50, none), (none, some ([0, 0, 0, 0, 0, 1], 10)), (none, some ([0, 0, 0, 0, 0, 3], 30)),
      (some 30, some ([0, 0, 5, 0, 0, 0], 50)), (none, some ([0, 0, 0, 0, 0, 1], 10)), (none, some ([0, 0, 5, 0, 0, 0], 50)),
      (none, some ([0, 0, 0, 9, 0, 0], 90)), (none, some ([0, 0, 0, 9, 0, 0], 91)), (none, some ([0, 0, 5, 0, 0, 0], 50)), (none, none),
      (none, some ([0, 0, 0, 0, 0, 1], 10)), (none, some ([0, 0, 0, 9, 0, 0], 91)), (none, some ([0, 0, 0, 9, 0, 0], 91))]) :=
  ⟨_, rfl⟩

/-! ### C120 -/

/-- C120, full statement: a search through an iterator gives what a search from the root gives, whatever iterator it is.  False (see below). -/
def SeekAnywhere : Prop :=
  ∀ (ops : List (ItOp Nat)) (key : List Nat) (a : ArtT Nat) (it : HIt) (outs : List (Option Nat × Option (List Nat × Nat))),
    ItsAllowed (fun _ => none) none ops → SixBytes key → itRun (ArtT.init, none) ops = .ok ((a, some it), outs) →
    ∃ it1 it2 o, itStep (a, some it) (.seek key) = .ok ((a, some it1), none, o) ∧ itStep (a, none) (.lower key) = .ok ((a, some it2), none, o)

theorem c120_missed_allowed : ItsAllowed (V := Nat) (fun _ => none) none [.call (.req (.put [0, 0, 0, 0, 0, 1] 10)), .lower [0, 0, 0, 0, 0, 2]] := by
  refine ItSpecs.allowed (.cons (.call ?_) <| .cons (.lower ?_ (least_out [[0, 0, 0, 0, 0, 1]] ?_ ?_)) <| .nil)
  all_goals first
    | exact ⟨rfl, by decide⟩
    | decide
    | (intro k hk; simp only [List.mem_cons, List.not_mem_nil, or_false, not_or] at hk; simp [mapCall, mapStep, hk])

/-- An iterator that `art_lower_bound` made beyond the last key finds no key that is there. -/
theorem C120_missed : ∃ a it outs,
    itRun (ArtT.init, none) [.call (.req (.put [0, 0, 0, 0, 0, 1] 10)), .lower [0, 0, 0, 0, 0, 2]] = .ok ((a, some it), outs) ∧
    itStep (a, some it) (.seek [0, 0, 0, 0, 0, 0]) = .ok ((a, some it), none, none) ∧
    ∃ it2, itStep (a, none) (.lower [0, 0, 0, 0, 0, 0]) = .ok ((a, some it2), none, some ([0, 0, 0, 0, 0, 1], 10)) :=
  ⟨_, _, _, rfl, rfl, _, rfl⟩

theorem c120_freed_allowed : ItsAllowed (V := Nat) (fun _ => none) none [.call (.req (.put [0, 0, 0, 0, 0, 1] 10)), .first, .erase] := by
  refine ItSpecs.allowed (.cons (.call ?_) <| .cons (.first (least_in [[0, 0, 0, 0, 0, 1]] ?_ [0, 0, 0, 0, 0, 1] 10 ?_ ?_ ?_ ?_)) <|
    .cons (.erase (v := 10) ?_ (least_out [[0, 0, 0, 0, 0, 1]] ?_ ?_) false ?_) <| .nil)
  all_goals first
    | exact ⟨rfl, by decide⟩
    | rfl
    | trivial
    | decide
    | (intro k hk; simp only [List.mem_cons, List.not_mem_nil, or_false, not_or] at hk; simp [mapCall, mapStep, hk])
    | (simp [mapCall, mapStep]; done)

/-- A search through an iterator that has erased the last key reads the leaf that was freed. -/
theorem C120_freed : ∃ a it outs,
    itRun (ArtT.init, none) [.call (.req (.put [0, 0, 0, 0, 0, 1] 10)), .first, .erase] = .ok ((a, some it), outs) ∧
    itStep (a, some it) (.seek [0, 0, 0, 0, 0, 0]) = .oob ∧
    ∃ it2, itStep (a, none) (.lower [0, 0, 0, 0, 0, 0]) = .ok ((a, some it2), none, none) :=
  ⟨_, _, _, rfl, rfl, _, rfl⟩

/-- C120: the full statement is false. -/
theorem C120_false : ¬ SeekAnywhere := by
  intro h
  obtain ⟨a, it, outs, h1, h2, h3⟩ := C120_freed
  obtain ⟨it1, it2, o, g1, -⟩ := h _ [0, 0, 0, 0, 0, 0] a it outs c120_freed_allowed ⟨rfl, by decide⟩ h1
  rw [h2] at g1
  cases g1

section
variable {V : Type}

/-- C120, what holds: a search through an iterator that is on a key, or that has run out after it was made at the first or the last key, moved, or used to
erase a key that was not the last one, gives what a search from the root gives.  Missing: iterators made by a search that found nothing, and iterators that
have erased the last key. -/
theorem C120_partial (ops : List (ItOp V)) (key : List Nat) (hk : SixBytes key) (h : ItsAllowed (fun _ => none) none (ops ++ [.seek key])) :
    ∃ a it outs it1 it2 o, itRun (ArtT.init, none) ops = .ok ((a, some it), outs) ∧
      itStep (a, some it) (.seek key) = .ok ((a, some it1), none, o) ∧ itStep (a, none) (.lower key) = .ok ((a, some it2), none, o) := by
  have split : ∀ (ops : List (ItOp V)) {m c}, ItsAllowed m c (ops ++ [.seek key]) →
      ItsAllowed m c ops ∧ ∀ outs m' c', ItSpecs m c ops outs m' c' → (ItOp.seek key).Allowed m' c' := by
    intro ops
    induction ops with
    | nil => intro m c h; exact ⟨trivial, fun _ _ _ hs => by cases hs; exact h.1⟩
    | cons op ops ih =>
      intro m c h
      refine ⟨⟨h.1, fun out m1 c1 hs => (ih (h.2 out m1 c1 hs)).1⟩, fun outs m' c' hs => ?_⟩
      cases hs with
      | cons g gs => exact (ih (h.2 _ _ _ g)).2 _ _ _ gs
  obtain ⟨hA, hS⟩ := split ops h
  have h0 : ItSt (ArtT.init, none) (fun _ => none : List Nat → Option V) none (fun _ => False) none := by
    obtain ⟨root, g1, g2, g3⟩ := amap_init (V := V)
    have : root = none := arep_none g1 rfl
    subst this
    exact ⟨g1, g2, g3, trivial⟩
  obtain ⟨⟨a, oit⟩, outs, m, c, L, root, g1, g2, g3⟩ := it_steps ops h0 hA
  have hs := hS _ _ _ g2
  obtain ⟨s1, out1, m1, c1, L1, r1, e1, e2, e3⟩ := it_step g3 (.seek key) hs
  have g4 : ItSt (a, none) m none L root := ⟨g3.rep, g3.ok, g3.map, trivial⟩
  obtain ⟨s2, out2, m2, c2, L2, r2, f1, f2, f3⟩ := it_step g4 (.lower key) hk
  cases oit with
  | none =>
    obtain ⟨-, p, b, rfl, -⟩ := hs
    exact g3.cur.elim
  | some it =>
    have sh : ∀ {b : ArtT V} {ans : Option V} {it : HIt} {s out}, b.show ans it = .ok (s, out) → s = (b, some it) := by
      intro b ans it s out h
      unfold ArtT.show at h
      cases hq : b.see it with
      | ok o => rw [hq] at h; simp only [ok_bind, Out.ok.injEq, Prod.mk.injEq] at h; exact h.1.symm
      | oob => rw [hq] at h; cases h
      | fail => rw [hq] at h; cases h
    have k1 : ∃ it1, s1 = (a, some it1) := by
      have := e1
      simp only [itStep] at this
      cases hq : a.itLowerBound it key with
      | ok it1 => rw [hq, ok_bind] at this; exact ⟨it1, sh this⟩
      | oob => rw [hq] at this; cases this
      | fail => rw [hq] at this; cases this
    have k2 : ∃ it2, s2 = (a, some it2) := by
      have := f1
      simp only [itStep] at this
      cases hq : a.lowerBound key with
      | ok it2 => rw [hq, ok_bind] at this; exact ⟨it2, sh this⟩
      | oob => rw [hq] at this; cases this
      | fail => rw [hq] at this; cases this
    obtain ⟨it1, rfl⟩ := k1
    obtain ⟨it2, rfl⟩ := k2
    cases e2 with
    | seek _ _ l1 =>
      cases f2 with
      | lower _ l2 =>
        cases l1.unique l2
        exact ⟨a, it, outs, it1, it2, _, g1, e1, f1⟩

end

/-- The hypothesis of `C120_partial` holds for the first seven calls of `c119_ops`. -/
example : ItsAllowed (fun _ => none) none (c119_ops.take 7 ++ [.seek [0, 0, 0, 0, 0, 2]]) := by
  have cut : ∀ (l r : List (ItOp Nat)) {m c}, ItsAllowed m c (l ++ r) → ItsAllowed m c l := by
    intro l r
    induction l with
    | nil => intro m c _; trivial
    | cons op l ih => intro m c h; exact ⟨h.1, fun out m1 c1 hs => ih (h.2 out m1 c1 hs)⟩
  exact cut (c119_ops.take 8) (c119_ops.drop 8) c119_allowed

end CRoaring.Props
