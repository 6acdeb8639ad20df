import Verif.Lemmas.ArtHeapLive
/-
C106: the radix tree in its arrays of nodes.
-/
namespace CRoaring.Props
open CRoaring

theorem isKey_of_six {key : List Nat} (h : SixBytes key) : IsKey key := ⟨h.1, h.2⟩

/-- C106: whatever values are set, looked up and erased under keys of six bytes, and in whatever order, no pointer from before an array moved is used, no
access goes to a place that holds no such node, no prefix runs over its five bytes; the answers are those of a map; and in the end each place of the
arrays is a node that one reference leads to, or named once by the list of unused places. -/
theorem C106_history {V : Type} (ops : List (ArtOp V)) (hk : ∀ op ∈ ops, SixBytes op.key) :
    ∃ a, ArtT.init.run ops = .ok (a, (mapRun (fun _ => none) ops).2) ∧ Tidy a ∧
      ∀ key, SixBytes key → a.step (.get key) = .ok (a, (mapRun (fun _ => none) ops).1 key) := by
  obtain ⟨a, h1, h2⟩ := amap_run ops amap_init (fun op ho => isKey_of_six (hk op ho))
  refine ⟨a, h1, h2.tidy, fun key hkey => ?_⟩
  have h := h2
  obtain ⟨root, g1, g2, g3⟩ := h
  rcases arep_find g1 g2 (isKey_of_six hkey) with ⟨e1, e2⟩ | ⟨v, p, e1, e2, e3, _⟩
  · simp only [ArtT.step, e2, ok_bind, ← g3 key (isKey_of_six hkey), e1]
  · simp only [ArtT.step, e2, ok_bind, ← g3 key (isKey_of_six hkey), e1, e3]

/-- C106, for one more request: it can be made in every such state, and leads to another. -/
theorem C106_step {V : Type} (ops : List (ArtOp V)) (hk : ∀ op ∈ ops, SixBytes op.key) {a : ArtT V} {outs : List (Option V)}
    (h : ArtT.init.run ops = .ok (a, outs)) (op : ArtOp V) (ho : SixBytes op.key) :
    ∃ b, a.step op = .ok (b, (mapStep (mapRun (fun _ => none) ops).1 op).2) ∧ Tidy b := by
  obtain ⟨a', h1, h2⟩ := amap_run ops amap_init (fun op ho => isKey_of_six (hk op ho))
  rw [h] at h1
  cases h1
  obtain ⟨b, h3, h4⟩ := amap_step h2 op (isKey_of_six ho)
  exact ⟨b, h3, h4.tidy⟩

/-- C106: once the last key is erased, no place is in use: the lists of unused places name all of them. -/
theorem C106_empty {V : Type} (ops : List (ArtOp V)) (hk : ∀ op ∈ ops, SixBytes op.key)
    (he : ∀ key, SixBytes key → (mapRun (fun _ => none) ops).1 key = none) :
    ∃ a outs, ArtT.init.run ops = .ok (a, outs) ∧ a.root = none ∧
      ∀ t, ∃ l : List Nat, FreeFrom a.heap t (a.heap.first t) l ∧ l.Nodup ∧ ∀ i, i ∈ l ↔ i < (a.heap.nodes t).length := by
  obtain ⟨a, h1, root, g1, g2, g3⟩ := amap_run ops amap_init (fun op ho => isKey_of_six (hk op ho))
  have hn : root = none := by
    cases hr : root with
    | none => rfl
    | some t =>
      subst hr
      obtain ⟨k, v, hh⟩ := Inv.nonempty (g2 t rfl)
      have hkey := g2.key ⟨t, rfl, hh⟩
      have := (artFind_iff g2 hkey v).2 ⟨t, rfl, hh⟩
      rw [g3 k hkey, he k ⟨hkey.1, hkey.2⟩] at this
      cases this
  subst hn
  refine ⟨a, _, h1, g1.1, fun t => ?_⟩
  obtain ⟨l, a1, a2, a3⟩ := g1.2.free t
  exact ⟨l, a3.from, a1, fun i => by rw [a2]; simp⟩

/-! Concrete cases: seventeen keys with the same five bytes, so that the node grows to `node16` and on to `node48`; then all but two are erased, so that it
shrinks again; then one that parts from the others at the third byte. -/

/-- The history. -/
def c106ops : List (ArtOp Nat) :=
  (List.range 17).map (fun i => .put [1, 2, 3, 4, 5, i] (100 + i)) ++ [.put [1, 2, 3, 4, 5, 3] 7, .get [1, 2, 3, 4, 5, 3]] ++
  (List.range 15).map (fun i => .erase [1, 2, 3, 4, 5, i]) ++ [.put [1, 2, 9, 4, 5, 6] 8, .get [1, 2, 3, 4, 5, 16], .get [1, 2, 3, 4, 5, 0]]

example : ∀ op ∈ c106ops, SixBytes op.key := by
  intro op h
  simp only [c106ops, List.range, List.range.loop, List.map, List.cons_append, List.nil_append, List.mem_cons, List.not_mem_nil, or_false] at h
  rcases h with rfl | rfl | rfl | rfl | rfl | rfl | rfl | rfl | rfl | rfl | rfl | rfl | rfl | rfl | rfl | rfl | rfl | rfl | rfl | rfl | rfl | rfl |
    rfl | rfl | rfl | rfl | rfl | rfl | rfl | rfl | rfl | rfl | rfl | rfl | rfl | rfl | rfl <;>
    exact ⟨rfl, by simp [ArtOp.key]⟩

/-- The arrays afterwards: the capacities, and the root. -/
example : (do let r ← ArtT.init.run c106ops
              Out.ok ((r.1.heap.nodes .leaf).length, (r.1.heap.nodes .n4).length, (r.1.heap.nodes .n16).length, (r.1.heap.nodes .n48).length, r.1.root)) =
    .ok (32, 2, 2, 2, some ⟨.n4, 1⟩) := by decide +kernel

example : ((mapRun (fun _ => none) c106ops).2.drop 17).take 4 = [some 7, some 7, some 100, some 101] := by decide +kernel

/-- A pointer to a leaf kept while the array grows is the kind of access that C106 rules out: the model does tell. -/
example : (do let r1 ← ArtT.init.insert [0, 0, 0, 0, 0, 0] 1
              let r2 ← r1.1.insert [0, 0, 0, 0, 0, 1] 2
              let r3 ← r2.1.insert [0, 0, 0, 0, 0, 2] 3
              r3.1.load r1.2) = Out.oob (α := Nat) := by decide +kernel

end CRoaring.Props
