import Verif.Lemmas.ArtHeapShrink2
/-
Histories with `art_shrink_to_fit`.
-/
set_option linter.unusedSimpArgs false
set_option linter.unusedVariables false
namespace CRoaring
open Spec

section
variable {V : Type}

theorem ARep.live {a : ArtT V} {L : ArtRef → Prop} {t : Art V} {r : ArtRef} {F : ArtRef → Prop} (h1 : a.root = some r) (h2 : HRep a.heap r t F) (x : ArtRef) :
    a.IsLive x ↔ F x := by
  constructor
  · rintro ⟨r', e, hl⟩
    rw [h1] at e; cases e
    exact (h2.live x).2 hl
  · exact fun hx => ⟨r, h1, (h2.live x).1 hx⟩

theorem ARep.safe {a : ArtT V} {L : ArtRef → Prop} {root : Option (Art V)} (h : ARep a L root) : Safe a := by
  cases root with
  | none =>
    obtain ⟨h1, h2⟩ := h
    have no : ∀ x, ¬ a.IsLive x := by
      rintro x ⟨r, e, _⟩; rw [h1] at e; cases e
    refine ⟨fun t => ?_, fun x hx => absurd hx (no x), fun x y c d z hx => absurd hx (no x), fun x c r hx => absurd hx (no x)⟩
    obtain ⟨l, a1, a2, a3⟩ := h2.free t
    exact ⟨l, a3.from, a1, fun i hi => ⟨((a2 i).1 hi).1, no _⟩⟩
  | some t =>
    obtain ⟨r, F, h1, h2, h3, _⟩ := h
    have live := ARep.live (L := L) h1 h2
    refine ⟨fun t => ?_, fun x hx => h2.there x ((live x).1 hx), fun x y c d z hx hy => h2.unique.2 x y c d z ((live x).1 hx) ((live y).1 hy), ?_⟩
    · obtain ⟨l, a1, a2, a3⟩ := h3.free t
      exact ⟨l, a3.from, a1, fun i hi => ⟨((a2 i).1 hi).1, fun hl => ((a2 i).1 hi).2 (Or.inl ((live _).1 hl))⟩⟩
    · intro x c r' hx e
      rw [h1] at e; cases e
      exact h2.unique.1 x c ((live x).1 hx)

theorem amap_shrink {a : ArtT V} {L : ArtRef → Prop} {m : List Nat → Option V} (h : AMap a L m) :
    ∃ b f, a.shrinkToFit = .ok (b, f) ∧ (∀ t, b.heap.first t = (b.heap.nodes t).length) ∧ a.heap.total = b.heap.total + f ∧ ∃ L', AMap b L' m ∧
      ((∀ x, ¬ L x) → NonEmpty m → ∀ x, ¬ L' x) := by
  obtain ⟨root, h1, h2, h3⟩ := h
  obtain ⟨b, f, g1, g2, g3, g4⟩ := arep_shrink h1 h2
  refine ⟨b, f, g1, g2, g3, _, ⟨root, g4, h2, h3⟩, ?_⟩
  rintro hL ⟨key, hk, hne⟩ x ⟨_, hx | hx⟩
  · subst hx
    exact hne ((h3 key ⟨hk.1, hk.2⟩).symm)
  · exact hL x hx

theorem amap_calls : ∀ (cs : List (ArtCall V)) {a : ArtT V} {L : ArtRef → Prop} {m : List Nat → Option V}, AMap a L m → (∀ c ∈ cs, c.Ok) →
    ∃ b L', a.calls cs = .ok (b, (mapCalls m cs).2) ∧ AMap b L' (mapCalls m cs).1 ∧ ((∀ x, ¬ L x) → ShrinksNonEmpty m cs → ∀ x, ¬ L' x)
  | [], a, L, m, h, _ => ⟨a, L, rfl, h, fun h _ => h⟩
  | c :: cs, a, L, m, h, hk => by
    have step : ∃ b L', a.call c = .ok (b, (mapCall m c).2) ∧ AMap b L' (mapCall m c).1 ∧
        ((∀ x, ¬ L x) → ShrinkNonEmpty m c → ∀ x, ¬ L' x) := by
      cases c with
      | req op =>
        obtain ⟨b, h1, h2⟩ := amap_step h op ⟨(hk _ (List.mem_cons_self ..)).1, (hk _ (List.mem_cons_self ..)).2⟩
        exact ⟨b, L, h1, h2, fun h _ => h⟩
      | shrink =>
        obtain ⟨b, f, h1, _, _, L', h2, h3⟩ := amap_shrink h
        refine ⟨b, L', ?_, h2, h3⟩
        simp only [ArtT.call, h1, ok_bind, mapCall]
    obtain ⟨b, L1, h1, h2, h3⟩ := step
    obtain ⟨d, L2, h4, h5, h6⟩ := amap_calls cs h2 (fun o ho => hk o (List.mem_cons_of_mem _ ho))
    refine ⟨d, L2, ?_, h5, fun hL hs => h6 (h3 hL hs.1) hs.2⟩
    simp only [ArtT.calls, h1, ok_bind, h4, mapCalls]

theorem total_bytes (a : ArtT V) : a.heap.total = a.bytes := by
  unfold ArtHeap.total ArtT.bytes artTypes
  simp only [List.map_cons, List.map_nil, List.sum_cons, List.sum_nil, ArtTy.size]
  omega

end
end CRoaring
