import Verif.Lemmas.ArtHeapCalls
import Verif.Props.C106
/-
C107: `art_shrink_to_fit`.
-/
namespace CRoaring.Props
open CRoaring

theorem calls_ok {V : Type} (cs : List (ArtCall V)) (hk : ∀ c ∈ cs, c.Ok) :
    ∃ a L, ArtT.init.calls cs = .ok (a, (mapCalls (fun _ => none) cs).2) ∧ AMap a L (mapCalls (fun _ => none) cs).1 ∧
      (ShrinksNonEmpty (fun _ => none) cs → ∀ x, ¬ L x) := by
  obtain ⟨a, L, h1, h2, h3⟩ := amap_calls cs amap_init hk
  exact ⟨a, L, h1, h2, h3 (fun _ h => h)⟩

/-- C107: `art_shrink_to_fit` may be called at any time, any number of times: no access goes through a pointer from before an array moved or to a
place without a node, the answers before and after are those of a map that knows nothing of it, and no node is on a list of unused places. -/
theorem C107_history {V : Type} (cs : List (ArtCall V)) (hk : ∀ c ∈ cs, c.Ok) :
    ∃ a, ArtT.init.calls cs = .ok (a, (mapCalls (fun _ => none) cs).2) ∧ Safe a ∧
      ∀ key, SixBytes key → a.step (.get key) = .ok (a, (mapCalls (fun _ => none) cs).1 key) := by
  obtain ⟨a, L, h1, h2, _⟩ := calls_ok cs hk
  obtain ⟨root, g1, g2, g3⟩ := h2
  refine ⟨a, h1, g1.safe, fun key hkey => ?_⟩
  rcases arep_find g1 g2 (isKey_of_six hkey) with ⟨e1, e2⟩ | ⟨v, p, e1, e2, e3, _⟩
  · simp only [ArtT.step, e2, ok_bind, ← g3 key (isKey_of_six hkey), e1]
  · simp only [ArtT.step, e2, ok_bind, ← g3 key (isKey_of_six hkey), e1, e3]

/-- C107, for trees with a key (the full claim, for empty trees too, is false: `C107_lost`): afterwards every place of every array is a node of the
tree, and the result is the number of bytes by which the arrays have become smaller. -/
theorem C107_fit_partial {V : Type} (cs : List (ArtCall V)) (hk : ∀ c ∈ cs, c.Ok) (hs : ShrinksNonEmpty (fun _ => none) cs) {a : ArtT V}
    {outs : List (Option V)} (h : ArtT.init.calls cs = .ok (a, outs)) :
    Tidy a ∧ (NonEmpty (mapCalls (fun _ => none) cs).1 → ∃ b freed, a.shrinkToFit = .ok (b, freed) ∧ Tidy b ∧
      (∀ x, b.IsLive x ↔ x.idx < (b.heap.nodes x.ty).length) ∧ a.bytes = b.bytes + freed) := by
  obtain ⟨a', L, h1, h2, h3⟩ := calls_ok cs hk
  rw [h] at h1
  cases h1
  have hL : L = fun _ => False := funext fun x => propext ⟨h3 hs x, False.elim⟩
  subst hL
  refine ⟨h2.tidy, fun hne => ?_⟩
  obtain ⟨b, f, g1, g2, g3, L', g4, g5⟩ := amap_shrink h2
  have hL' : L' = fun _ => False := funext fun x => propext ⟨g5 (fun _ h => h) hne x, False.elim⟩
  subst hL'
  refine ⟨b, f, g1, g4.tidy, fun x => ?_, by rw [← total_bytes, ← total_bytes]; exact g3⟩
  obtain ⟨key, hk', hv⟩ := hne
  obtain ⟨root, r1, r2, r3⟩ := g4
  cases root with
  | none => exact absurd (r3 key (isKey_of_six hk')).symm hv
  | some t =>
    obtain ⟨r, F, q1, q2, q3, _⟩ := r1
    rw [ARep.live (L := fun _ => False) q1 q2]
    constructor
    · exact fun hx => q3.used x (Or.inl hx)
    · intro hx
      rcases q3.full (g2 x.ty) hx with h | h
      · exact h
      · exact h.elim

/-- C107: a second `art_shrink_to_fit` changes nothing and reports 0 bytes. -/
theorem C107_again {V : Type} (cs : List (ArtCall V)) (hk : ∀ c ∈ cs, c.Ok) {a : ArtT V} {outs : List (Option V)}
    (h : ArtT.init.calls cs = .ok (a, outs)) : ∃ b freed, a.shrinkToFit = .ok (b, freed) ∧ b.shrinkToFit = .ok (b, 0) := by
  obtain ⟨a', L, h1, h2, h3⟩ := calls_ok cs hk
  rw [h] at h1
  cases h1
  obtain ⟨b, f, g1, g2, _⟩ := amap_shrink h2
  refine ⟨b, f, g1, ?_⟩
  unfold ArtT.shrinkToFit
  rw [if_pos (isShrunken_iff.2 g2)]

/-- Two keys, set and erased, and `art_shrink_to_fit` on the empty tree. -/
def c107cycle : List (ArtCall Nat) :=
  [.req (.put [0, 0, 0, 0, 0, 1] 1), .req (.put [0, 0, 0, 0, 0, 2] 2), .req (.erase [0, 0, 0, 0, 0, 1]), .req (.erase [0, 0, 0, 0, 0, 2]), .shrink]

/-- C107 fails for empty trees: the lists of unused places are not sorted, and the arrays are cut at the first of them.  A place before it is neither
a node nor on the list any more; every round loses one more. -/
theorem C107_lost :
    (do let r ← ArtT.init.calls c107cycle
        Out.ok (r.1.root, r.1.bytes)) = .ok (none, 16) ∧
    (do let r ← ArtT.init.calls (c107cycle ++ c107cycle)
        Out.ok (r.1.root, r.1.bytes)) = .ok (none, 32) ∧
    (do let r ← ArtT.init.calls (c107cycle ++ c107cycle ++ c107cycle ++ c107cycle ++ c107cycle)
        Out.ok (r.1.root, r.1.bytes)) = .ok (none, 80) := by decide +kernel

/-! Concrete cases: after the history of C106 and an erasure, a shrink moves nodes of three types; then the tree is used again. -/

/-- The history. -/
def c107calls : List (ArtCall Nat) :=
  c106ops.map .req ++ [.req (.erase [1, 2, 3, 4, 5, 15]), .shrink, .req (.put [7, 7, 7, 7, 7, 7] 9), .req (.get [1, 2, 3, 4, 5, 16])]

example : (do let r ← ArtT.init.calls (c107calls.take 39)
              Out.ok (r.1.root, (r.1.heap.nodes .leaf).length, (r.1.heap.nodes .n4).length, (r.1.heap.nodes .n16).length, r.1.bytes)) =
    .ok (some ⟨.n4, 0⟩, 2, 1, 0, 80) := by decide +kernel

example : (do let r ← ArtT.init.calls c107calls
              Out.ok (r.2.drop 37)) = .ok [some 115, none, some 9, some 116] := by decide +kernel

example : NonEmpty (mapCalls (fun _ => none) c107calls).1 := ⟨[1, 2, 3, 4, 5, 16], ⟨rfl, by simp⟩, by decide +kernel⟩

end CRoaring.Props
