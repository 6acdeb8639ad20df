import Verif.Lemmas.ArtHeapErase
import Verif.ArtHeapSpec
/-
Which places are nodes of the tree.
-/
set_option linter.unusedSimpArgs false
set_option linter.unusedVariables false
namespace CRoaring
open Spec

section
variable {V : Type}

theorem HRep.live {H : ArtHeap V} {r : ArtRef} {t : Art V} {F : ArtRef → Prop} (h : HRep H r t F) (x : ArtRef) : F x ↔ Live H r x := by
  induction h with
  | @leaf r k v F ht hg hF =>
    rw [hF]
    constructor
    · rintro rfl; exact .self _
    · intro hl
      cases hl with
      | self => rfl
      | child hc hx => obtain ⟨p, n, h1, _⟩ := hc; rw [hg] at h1; cases h1
  | @inner r pfx nr n Fs F ht hg hk hs hc he hd hr hF ih =>
    rw [hF]
    constructor
    · rintro (rfl | ⟨c, hx⟩)
      · exact .self _
      · cases hs' : nr.find c with
        | none => exact absurd hx (he c hs' x)
        | some s =>
          obtain ⟨t, ht'⟩ := shape_some hs hs'
          exact .child ⟨pfx, nr, hg, hs'⟩ ((ih c s t hs' ht').1 hx)
    · intro hl
      cases hl with
      | self => exact Or.inl rfl
      | @child _ s _ c hcd hx =>
        obtain ⟨p, n', h1, h2⟩ := hcd
        rw [hg] at h1
        cases h1
        obtain ⟨t, ht'⟩ := shape_some hs h2
        exact Or.inr ⟨c, (ih c s t h2 ht').2 hx⟩

/-- A child of a node of the tree is in the tree. -/
theorem Live.snoc {H : ArtHeap V} {r x y : ArtRef} {c : Nat} (h : Live H r x) (hc : ChildOf H x c y) : Live H r y := by
  induction h with
  | self => exact .child hc (.self _)
  | child h1 _ ih => exact .child h1 (ih hc)

/-- No reference leads to the root, and one to every other node. -/
theorem HRep.unique {H : ArtHeap V} {r : ArtRef} {t : Art V} {F : ArtRef → Prop} (h : HRep H r t F) :
    (∀ x c, F x → ¬ ChildOf H x c r) ∧ ∀ x y c d z, F x → F y → ChildOf H x c z → ChildOf H y d z → x = y ∧ c = d := by
  induction h with
  | @leaf r k v F ht hg hF =>
    have no : ∀ x c z, F x → ¬ ChildOf H x c z := by
      rintro x c z hx ⟨p, n, h1, _⟩
      rw [(hF x).1 hx, hg] at h1; cases h1
    exact ⟨fun x c hx => no x c r hx, fun x y c d z hx _ h1 _ => absurd h1 (no x c z hx)⟩
  | @inner r pfx nr n Fs F ht hg hk hs hc he hd hr hF ih =>
    have sub : ∀ c s, nr.find c = some s → ∃ t, HRep H s t (Fs c) ∧ (∀ x d, Fs c x → ¬ ChildOf H x d s) ∧
        ∀ x y e d z, Fs c x → Fs c y → ChildOf H x e z → ChildOf H y d z → x = y ∧ e = d := by
      intro c s hs'
      obtain ⟨t, ht'⟩ := shape_some hs hs'
      exact ⟨t, hc c s t hs' ht', ih c s t hs' ht'⟩
    have some_of : ∀ c x, Fs c x → ∃ s, nr.find c = some s := by
      intro c x hx
      cases hs' : nr.find c with
      | none => exact absurd hx (he c hs' x)
      | some s => exact ⟨s, rfl⟩
    have inside : ∀ c x d z, Fs c x → ChildOf H x d z → Fs c z := by
      intro c x d z hx hz
      obtain ⟨s, hs'⟩ := some_of c x hx
      obtain ⟨t, hrep, _⟩ := sub c s hs'
      exact (hrep.live z).2 (((hrep.live x).1 hx).snoc hz)
    have top : ∀ c z, ChildOf H r c z → nr.find c = some z ∧ Fs c z := by
      rintro c z ⟨p, n', h1, h2⟩
      rw [hg] at h1
      cases h1
      obtain ⟨t, hrep, _⟩ := sub c z h2
      exact ⟨h2, hrep.root⟩
    have same : ∀ c d z, Fs c z → Fs d z → c = d := by
      intro c d z h1 h2
      by_cases e : c = d
      · exact e
      · exact absurd h2 (hd c d z e h1)
    constructor
    · intro x c hx hcr
      rcases (hF x).1 hx with rfl | ⟨e, hx⟩
      · exact hr c (top c _ hcr).2
      · exact hr e (inside e x c r hx hcr)
    · intro x y c d z hx hy h1 h2
      rcases (hF x).1 hx with rfl | ⟨e, hx⟩
      · obtain ⟨a1, a2⟩ := top c z h1
        rcases (hF y).1 hy with rfl | ⟨f, hy⟩
        · exact ⟨rfl, same c d z a2 (top d z h2).2⟩
        · have := same c f z a2 (inside f y d z hy h2)
          subst this
          obtain ⟨t, _, b1, _⟩ := sub c z a1
          exact absurd h2 (b1 y d hy)
      · rcases (hF y).1 hy with rfl | ⟨f, hy⟩
        · obtain ⟨a1, a2⟩ := top d z h2
          have := same d e z a2 (inside e x c z hx h1)
          subst this
          obtain ⟨t, _, b1, _⟩ := sub d z a1
          exact absurd h1 (b1 x c hx)
        · have := same e f z (inside e x c z hx h1) (inside f y d z hy h2)
          subst this
          obtain ⟨s, hs'⟩ := some_of e x hx
          obtain ⟨t, _, _, b2⟩ := sub e s hs'
          exact b2 x y c d z hx hy h1 h2

/-- A node of the tree is at the place it is said to be at. -/
theorem HRep.there {H : ArtHeap V} {r : ArtRef} {t : Art V} {F : ArtRef → Prop} (h : HRep H r t F) :
    ∀ x, F x → (∃ k v, H.get x = some (.leaf k v) ∧ x.ty = .leaf) ∨ ∃ p n, H.get x = some (.inner p n) ∧ x.ty = n.ty := by
  induction h with
  | @leaf r k v F ht hg hF =>
    intro x hx
    rw [(hF x).1 hx]
    exact Or.inl ⟨k, v, hg, ht⟩
  | @inner r pfx nr n Fs F ht hg hk hs hc he hd hr hF ih =>
    intro x hx
    rcases (hF x).1 hx with rfl | ⟨c, hx⟩
    · exact Or.inr ⟨pfx, nr, hg, ht.symm⟩
    · cases hs' : nr.find c with
      | none => exact absurd hx (he c hs' x)
      | some s =>
        obtain ⟨t, ht'⟩ := shape_some hs hs'
        exact ih c s t hs' ht' x hx

theorem Chain.from {H : ArtHeap V} {t : ArtTy} : ∀ {l : List Nat} {a : Nat}, Chain H t a l → FreeFrom H t a l
  | [], _, h => h
  | _ :: _, _, ⟨h1, n, h2, h3⟩ => ⟨h1, n, h2, h3.from⟩

theorem ARep.tidy {a : ArtT V} {root : Option (Art V)} (h : ARep a (fun _ => False) root) : Tidy a := by
  cases root with
  | none =>
    obtain ⟨h1, h2⟩ := h
    have no : ∀ x, ¬ a.IsLive x := by
      rintro x ⟨r, e, _⟩; rw [h1] at e; cases e
    refine ⟨fun t => ?_, fun x hx => absurd hx (no x), fun x y c d z hx => absurd hx (no x), fun x c r hx => absurd hx (no x)⟩
    obtain ⟨l, a1, a2, a3⟩ := h2.free t
    refine ⟨l, a3.from, a1, fun i => ?_⟩
    rw [a2]
    exact ⟨fun h => ⟨h.1, no _⟩, fun h => ⟨h.1, fun f => f⟩⟩
  | some t =>
    obtain ⟨r, F, h1, h2, h3, _⟩ := h
    have live : ∀ x, a.IsLive x ↔ F x := by
      intro x
      constructor
      · rintro ⟨r', e, hl⟩
        rw [h1] at e; cases e
        exact (h2.live x).2 hl
      · exact fun hx => ⟨r, h1, (h2.live x).1 hx⟩
    refine ⟨fun t => ?_, fun x hx => h2.there x ((live x).1 hx), fun x y c d z hx hy => h2.unique.2 x y c d z ((live x).1 hx) ((live y).1 hy), ?_⟩
    · obtain ⟨l, a1, a2, a3⟩ := h3.free t
      refine ⟨l, a3.from, a1, fun i => ?_⟩
      rw [a2, live]; simp
    · intro x c r' hx e
      rw [h1] at e; cases e
      exact h2.unique.1 x c ((live x).1 hx)

/-- Written through a pointer, a value is there. -/
theorem store_load {a b : ArtT V} {p : ArtPtr} {val : V} (h : a.store p val = .ok b) : b.load p = .ok val := by
  unfold ArtT.store at h
  cases h1 : a.heap.peekLeaf p with
  | oob => rw [h1] at h; cases h
  | fail => rw [h1] at h; cases h
  | ok l =>
    rw [h1, ok_bind] at h
    unfold ArtHeap.poke at h
    by_cases hc : p.gen = a.heap.gen p.ref.ty ∧ p.ref.idx < (a.heap.nodes p.ref.ty).length
    · rw [if_pos hc, ok_bind] at h
      cases h
      unfold ArtT.load
      have := peekLeaf_ok (H := ⟨updTy a.heap.nodes p.ref.ty ((a.heap.nodes p.ref.ty).set p.ref.idx (.leaf l.1 val)), a.heap.first, a.heap.gen⟩)
        (p := p) (k := l.1) (v := val) hc.1 (by simp [ArtHeap.get, updTy_same, hc.2])
      simp only [this, ok_bind]
    · rw [if_neg hc] at h; cases h

/-- The structure holds what the map holds. -/
def AMap (a : ArtT V) (L : ArtRef → Prop) (m : List Nat → Option V) : Prop := ∃ root, ARep a L root ∧ ArtOk root ∧ ∀ k, IsKey k → artFind root k = m k

theorem find_eq {root root' : Option (Art V)} (h : ArtOk root) {k : List Nat} (hk : IsKey k) {o : Option V} (ho : ∀ v, RHas root k v ↔ o = some v) :
    artFind root k = o := by
  cases e : o with
  | none =>
    rw [artFind_none_iff h hk]
    intro v hv
    rw [ho, e] at hv; cases hv
  | some v => rw [artFind_iff h hk, ho, e]

theorem amap_step {a : ArtT V} {L : ArtRef → Prop} {m : List Nat → Option V} (h : AMap a L m) (op : ArtOp V) (hk : IsKey op.key) :
    ∃ b, a.step op = .ok (b, (mapStep m op).2) ∧ AMap b L (mapStep m op).1 := by
  obtain ⟨root, h1, h2, h3⟩ := h
  cases op with
  | put key val =>
    have hk : IsKey key := hk
    rcases arep_find h1 h2 hk with ⟨e1, e2⟩ | ⟨v, p, e1, e2, e3, e4⟩
    · obtain ⟨b, l, i1, i2, i3⟩ := arep_insert h1 h2 hk e1 val
      obtain ⟨j1, j2⟩ := artInsert_has h2 hk e1 val
      refine ⟨b, ?_, _, i2, j1, fun k hk' => ?_⟩
      · simp only [ArtT.step, e2, ok_bind, i1, mapStep]
        have : b.load (b.heap.deref l) = .ok val := by
          unfold ArtT.load
          rw [peekLeaf_ok (deref_valid _ l) i3]; rfl
        rw [this]; rfl
      · refine find_eq (root' := root) j1 hk' (fun v => ?_)
        rw [j2, ← artFind_iff h2 hk', h3 k hk']
        simp only [mapStep]
        by_cases e : k = key
        · subst e
          rw [← h3 k hk', e1]
          simp [eq_comm]
        · simp [e]
    · obtain ⟨b, i1, i2⟩ := e4 val
      obtain ⟨j1, j2⟩ := artStore_has h2 hk e1 val
      refine ⟨b, ?_, _, i2, j1, fun k hk' => ?_⟩
      · simp only [ArtT.step, e2, ok_bind, i1, mapStep, store_load i1]
      · refine find_eq (root' := root) j1 hk' (fun v => ?_)
        rw [j2, ← artFind_iff h2 hk', h3 k hk']
        simp only [mapStep]
        by_cases e : k = key
        · simp [e, eq_comm]
        · simp [e]
  | erase key =>
    have hk : IsKey key := hk
    obtain ⟨b, i1, i2⟩ := arep_erase h1 h2 hk
    obtain ⟨j1, j2, j3⟩ := artErase_has h2 hk
    refine ⟨b, ?_, _, i2, j2, fun k hk' => ?_⟩
    · simp only [ArtT.step, i1, j1, h3 key hk, mapStep]
    · refine find_eq (root' := root) j2 hk' (fun v => ?_)
      rw [j3, ← artFind_iff h2 hk', h3 k hk']
      simp only [mapStep]
      by_cases e : k = key <;> simp [e]
  | get key =>
    have hk : IsKey key := hk
    refine ⟨a, ?_, root, h1, h2, h3⟩
    rcases arep_find h1 h2 hk with ⟨e1, e2⟩ | ⟨v, p, e1, e2, e3, e4⟩
    · simp only [ArtT.step, e2, ok_bind, mapStep, ← h3 key hk, e1]
    · simp only [ArtT.step, e2, ok_bind, mapStep, ← h3 key hk, e1, e3]

theorem amap_run : ∀ (ops : List (ArtOp V)) {a : ArtT V} {L : ArtRef → Prop} {m : List Nat → Option V}, AMap a L m → (∀ op ∈ ops, IsKey op.key) →
    ∃ b, a.run ops = .ok (b, (mapRun m ops).2) ∧ AMap b L (mapRun m ops).1
  | [], a, L, m, h, _ => ⟨a, rfl, h⟩
  | op :: ops, a, L, m, h, hk => by
    obtain ⟨b, h1, h2⟩ := amap_step h op (hk op (List.mem_cons_self ..))
    obtain ⟨c, h3, h4⟩ := amap_run ops h2 (fun o ho => hk o (List.mem_cons_of_mem _ ho))
    refine ⟨c, ?_, h4⟩
    simp only [ArtT.run, h1, ok_bind, h3, mapRun]

theorem amap_init : AMap (ArtT.init : ArtT V) (fun _ => False) (fun _ => none) := ⟨none, arep_init, artOk_none, fun _ _ => rfl⟩

theorem AMap.tidy {a : ArtT V} {m : List Nat → Option V} (h : AMap a (fun _ => False) m) : Tidy a := by
  obtain ⟨_, h, _, _⟩ := h; exact h.tidy

end
end CRoaring
