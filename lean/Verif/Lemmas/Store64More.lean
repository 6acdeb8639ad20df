import Verif.Lemmas.Store64Ops3
import Verif.Lemmas.Store64d
import Verif.Model.Store64More
/-
Bulk operations on a 64-bit bitmap in memory: the pointer in the context.
-/
set_option linter.unusedSimpArgs false
set_option linter.unusedVariables false
namespace CRoaring
open Spec

/-! ### The pointer that an insertion returns -/

theorem arep_insert_f {V : Type} {a : ArtT V} {L : ArtRef → Prop} {root : Option (Art V)} (ha : ARep a L root) (ho : ArtOk root) {key : List Nat} (hk : IsKey key)
    (hn : artFind root key = none) (val : V) :
    ∃ a' l F, a.insert key val = .ok (a', a'.heap.deref l) ∧ ARepF a' L F (artInsert root key val) ∧ F l ∧ a'.heap.get l = some (.leaf key val) := by
  cases root with
  | none =>
    obtain ⟨h1, h2⟩ := ha
    obtain ⟨H1, r, e1, ht, hc⟩ := createLeaf_ok h2 key val
    refine ⟨⟨H1, some r⟩, r, (· = r), ?_, ⟨r, rfl, .leaf ht hc.here (fun _ => Iff.rfl), hc.hok.congr (fun x => ?_), ?_⟩, rfl, hc.here⟩
    · unfold ArtT.insert
      rw [e1, ok_bind, h1]
    · exact or_comm
    · rintro x rfl; exact hc.new
  | some t =>
    obtain ⟨r, F, h1, h2, h3, h4⟩ := ha
    obtain ⟨H1, l, e1, ht, hc⟩ := createLeaf_ok h3 key val
    have hnl : ¬ F l := fun h => hc.new (Or.inl h)
    have hh : ∀ v, ¬ Has t key v := fun v hv => (artFind_none_iff ho hk).1 hn v ⟨t, rfl, hv⟩
    obtain ⟨H2, r2, F2, e2, hsim, hl2⟩ := insertAt_sim hk LEVELS (path := []) hc.hok (fun x h => Or.inl (Or.inl h))
      (h2.frame (fun x h => hc.get x (Or.inl h))) ⟨ht, hc.here, Or.inr rfl, hnl⟩ (ho t rfl) List.nil_prefix (by decide) hh
    refine ⟨⟨H2, some r2⟩, l, F2, ?_, ⟨r2, rfl, hsim.rep, hsim.hok.congr (fun x => ?_), ?_⟩, hl2, ?_⟩
    · unfold ArtT.insert
      rw [e1, ok_bind, h1]
      simp only
      have e2 : ArtHeap.insertAt key l LEVELS H1 r 0 = .ok (H2, r2) := e2
      rw [e2]; rfl
    · constructor
      · rintro (⟨(h | h) | h, h'⟩ | h)
        · exact absurd h h'
        · exact Or.inr h
        · exact Or.inl (h ▸ hl2)
        · exact Or.inl h
      · rintro (h | h)
        · exact Or.inr h
        · exact Or.inl ⟨Or.inl (Or.inr h), fun h' => h4 x h' h⟩
    · intro x hx hL
      rcases hsim.sub x hx with h | h | h
      · exact h4 x h hL
      · exact hc.new (h ▸ Or.inr hL)
      · exact h (Or.inl (Or.inr hL))
    · show H2.get l = _
      rw [hsim.frame l (Or.inr rfl) hnl, hc.here]

theorem amap_insert_ptr {a : ArtT Nat} {L : ArtRef → Prop} {m : List Nat → Option Nat} (h : AMap a L m) {k : List Nat} (hk : IsKey k) (hn : m k = none) (v : Nat) :
    ∃ b p F, a.insert k v = .ok (b, p) ∧ AMapF b L F (updKey m k (some v)) ∧ PtrTo b L F (updKey m k (some v)) k p := by
  obtain ⟨root, h1, h2, h3⟩ := h
  have e1 : artFind root k = none := (h3 k hk).trans hn
  obtain ⟨b, l, F, i1, i2, i3, i4⟩ := arep_insert_f h1 h2 hk e1 v
  obtain ⟨j1, -⟩ := artInsert_has h2 hk e1 v
  have hm : AMapF b L F (updKey m k (some v)) := by
    refine ⟨_, i2, j1, fun k' hk' => ?_⟩
    rw [← find_insert h2 hk e1 v k' hk']
    unfold updKey
    split
    · rfl
    · exact h3 k' hk'
  exact ⟨b, _, F, i1, hm, hm.ptr ⟨i3, v, i4⟩⟩

theorem St.put_ptr {r : R64M} {L F : ArtRef → Prop} {m : List Nat → Option Nat} {C : List Nat → Option Container} (h : St r L F m C) {k : List Nat}
    (hk : IsKey k) (hn : m k = none) (c : Container) :
    ∃ r' p F' m', r.put k c = .ok (r', p) ∧ St r' L F' m' (updKey C k (some c)) ∧ PtrTo r'.art L F' m' k p := by
  obtain ⟨r1, n, a1, a2, a3, a4, a5, a6⟩ := addContainer_ok (r := (r.new c).1) h.first r.mem.length (typecode c)
  have hi := (h.slots.extend n).insert hk hn a4 c
  obtain ⟨b, p, F', i1, i4, i3⟩ := amap_insert_ptr h.map.map hk hn (createLeaf r.first (typecode c))
  have hst : St { r1 with art := b } L F' (updKey m k (some (createLeaf r.first (typecode c)))) (updKey C k (some c)) := by
    refine ⟨i4, ?_, a6⟩
    simp only [a5, a3]
    exact hi
  refine ⟨_, p, F', _, ?_, hst, i3⟩
  have e1 : r1.art.insert k (createLeaf r.first (typecode c)) = .ok (b, p) := by rw [a2]; exact i1
  have e2 : (r.new c).1.addContainer (r.new c).2 (typecode c) = .ok (r1, createLeaf r.first (typecode c)) := a1
  simp only [R64M.put, e2, ok_bind, e1]

/-! ### A leaf that has been freed -/

theorem freed_load {a b : ArtT Nat} {p : ArtPtr} {v : Nat} (h : a.loadFreed b p = .ok v) : b.load p = .oob := by
  unfold ArtT.loadFreed at h
  split at h
  · next hg =>
    split at h
    · next x hx =>
      simp only [ArtT.load, ArtHeap.peekLeaf, ArtHeap.peek, if_pos hg, hx, ok_bind]
      rfl
    · cases h
  · cases h

theorem St.erase_both {r : R64M} {L F : ArtRef → Prop} {m : List Nat → Option Nat} {C : List Nat → Option Container} (h : St r L F m C) {k : List Nat}
    {p : ArtPtr} {l a : Nat} {c : Container} (hA : Leads r L F m C k p l a c) :
    ∃ r1 r' F' m', r.freeContainer a (typecode c) = .ok r1 ∧ r1.eraseLeaf k p = .ok r' ∧ r1.eraseOut k = .ok r' ∧ St r' L F' m' (updKey C k none) ∧
      r'.art.load p = .oob := by
  have hf : r.freeContainer a (typecode c) = .ok { r with mem := r.mem.set a none } := by
    simp only [R64M.freeContainer, R64M.deref, hA.obj, if_true, ok_bind]
  obtain ⟨b, i1, i2⟩ := amap_erase h.map.map hA.ptr.key
  obtain ⟨F', i3⟩ := i2.withF
  rw [hA.leaf] at i1
  have hl : r.art.loadFreed b p = .ok l := (loadFreed_ok hA.ptr.find i1).trans hA.load
  have hs : R64M.setSlot { art := b, containers := r.containers, first := r.first, mem := r.mem.set a none } (leafIndex l) none =
      .ok { art := b, containers := r.containers.set (l / 256) none, first := r.first, mem := r.mem.set a none } :=
    setSlot_ok (r := { art := b, containers := r.containers, first := r.first, mem := r.mem.set a none }) (slot_lt hA.slot) none
  refine ⟨_, { art := b, containers := r.containers.set (l / 256) none, first := if leafIndex l < r.first then leafIndex l else r.first, mem := r.mem.set a none },
    F', _, hf, ?_, ?_, ⟨i3, h.slots.erase hA.ptr.key hA.leaf hA.slot, h.first.remove hA.slot⟩, freed_load hl⟩
  · simp only [R64M.eraseLeaf, i1, ok_bind, hl, R64M.removeContainer, hs]
  · simp only [R64M.eraseOut, i1, ok_bind, R64M.removeContainer, hs]

/-! ### The context -/

/-- What a context stands for in the tree: the key, if the pointer is not null. -/
def Bulk64M.abs (ctx : Bulk64M) : BulkCtx64 := ctx.leaf.map fun _ => ctx.high

/-- The pointer of a context leads to the leaf of its key, or the leaf has been freed. -/
def Held (r : R64M) (L F : ArtRef → Prop) (m : List Nat → Option Nat) (C : List Nat → Option Container) (ctx : Bulk64M) : Prop :=
  ∀ p, ctx.leaf = some p → IsKey ctx.high ∧ (PtrTo r.art L F m ctx.high p ∨ (C ctx.high = none ∧ r.art.load p = .oob))

def BSim (r : R64M) (L : ArtRef → Prop) (R : R64) (ctx : Bulk64M) : Prop := ∃ F m, St r L F m (artFind R) ∧ Held r L F m (artFind R) ctx

theorem BSim.sim {r : R64M} {L : ArtRef → Prop} {R : R64} {ctx : Bulk64M} (h : BSim r L R ctx) : Sim64 r L R := by
  obtain ⟨F, m, h, -⟩ := h; exact ⟨F, m, h⟩

theorem Sim64.bulk {r : R64M} {L : ArtRef → Prop} {R : R64} (h : Sim64 r L R) : BSim r L R Bulk64M.zero := by
  obtain ⟨F, m, h⟩ := h
  exact ⟨F, m, h, fun p hp => by cases hp⟩

/-- The cases of a call with a context. -/
theorem Held.cases {r : R64M} {L F : ArtRef → Prop} {m : List Nat → Option Nat} {C : List Nat → Option Container} (h : St r L F m C) {ctx : Bulk64M}
    (hh : Held r L F m C ctx) (v : Nat) :
    (ctx.hit v = none ∧ (ctx.abs = none ∨ ∃ k, ctx.abs = some k ∧ artCompareKeys k (splitKey v).1 ≠ 0)) ∨
    (∃ p l a c, ctx.hit v = some p ∧ ctx.abs = some (splitKey v).1 ∧ ctx.leaf = some p ∧ ctx.high = (splitKey v).1 ∧ Leads r L F m C (splitKey v).1 p l a c) ∨
    (∃ p, ctx.hit v = some p ∧ ctx.abs = some (splitKey v).1 ∧ C (splitKey v).1 = none ∧ r.look p = .oob) := by
  unfold Bulk64M.hit Bulk64M.abs
  cases hl : ctx.leaf with
  | none => exact Or.inl ⟨rfl, Or.inl rfl⟩
  | some p =>
    obtain ⟨hk, hp⟩ := hh p hl
    by_cases hc : artCompareKeys ctx.high (splitKey v).1 = 0
    · have e := same_key64 hk hc
      refine Or.inr ?_
      simp only [if_pos hc, Option.map_some]
      rw [e] at hp ⊢
      rcases hp with hp | ⟨h1, h2⟩
      · obtain ⟨l, a, c, hA⟩ := h.at hp
        exact Or.inl ⟨p, l, a, c, rfl, rfl, rfl, rfl, hA⟩
      · refine Or.inr ⟨p, rfl, rfl, h1, ?_⟩
        simp only [R64M.look, h2]; rfl
    · refine Or.inl ⟨by simp only [if_neg hc], Or.inr ⟨_, rfl, hc⟩⟩

theorem cmp_self (v : Nat) : artCompareKeys (splitKey v).1 (splitKey v).1 = 0 := (artCompareKeys_spec (splitKey_isKey v) (splitKey_isKey v)).1.2 rfl

theorem addAt_ptr {r : R64M} {L F : ArtRef → Prop} {m : List Nat → Option Nat} {R : R64} (h : St r L F m (artFind R)) (hR : ArtOk R) {k : List Nat}
    (hk : IsKey k) (low : Nat) :
    ∃ o r' p F' m', r.art.find k = .ok o ∧ r.addAt k low o = .ok (r', p) ∧ St r' L F' m' (artFind (r64AddAt R k low (artFind R k))) ∧ PtrTo r'.art L F' m' k p := by
  rcases h.find hk with ⟨h1, h2, h3⟩ | ⟨p, l, a, c, h1, hA⟩
  · obtain ⟨r', p, F', m', g1, g2, g3⟩ := h.put_ptr hk h1 (containerAdd low (.array []))
    refine ⟨none, r', p, F', m', h3, g1, ?_, g3⟩
    rw [h2]; exact g2.congr (artInsert_upd hR hk h2 (containerAdd low (.array [])))
  · obtain ⟨r', m', a', l', g1, g2, g3⟩ := h.change_ok hA (containerAdd low c)
    refine ⟨some p, r', p, F, m', h1, ?_, ?_, g3.ptr⟩
    · simp only [R64M.addAt, hA.look, ok_bind, g1]
    · rw [hA.here]; exact g2.congr (artStore_upd hR hk hA.here (containerAdd low c))

theorem addBulk_sim {r : R64M} {L : ArtRef → Prop} {R : R64} {ctx : Bulk64M} (h : BSim r L R ctx) (hR : ArtOk R) (v : Nat) :
    match r64AddBulk R ctx.abs v with
    | none => r.addBulk ctx v = .oob
    | some y => ∃ r' ctx', r.addBulk ctx v = .ok (r', ctx') ∧ ctx'.abs = y.2 ∧ BSim r' L y.1 ctx' := by
  obtain ⟨F, m, h, hh⟩ := h
  rcases hh.cases h v with ⟨h1, h2⟩ | ⟨p, l, a, c, h1, h2, h3, h4, hA⟩ | ⟨p, h1, h2, h3, h4⟩
  · obtain ⟨o, r', p, F', m', g1, g2, g3, g4⟩ := addAt_ptr h hR (splitKey_isKey v) (splitKey v).2
    have e : r64AddBulk R ctx.abs v = some (r64AddAt R (splitKey v).1 (splitKey v).2 (artFind R (splitKey v).1), some (splitKey v).1) := by
      unfold r64AddBulk
      rcases h2 with h2 | ⟨k, h2, h3⟩
      · rw [h2]
      · rw [h2]; simp only [if_neg h3]
    rw [e]
    refine ⟨r', ⟨(splitKey v).1, some p⟩, ?_, rfl, F', m', g3, fun q hq => ?_⟩
    · simp only [R64M.addBulk, h1, g1, ok_bind, g2]
    · cases hq; exact ⟨splitKey_isKey v, Or.inl g4⟩
  · obtain ⟨r', m', a', l', g1, g2, g3⟩ := h.change_ok hA (containerAdd (splitKey v).2 c)
    have e : r64AddBulk R ctx.abs v = some (artStore R (splitKey v).1 (containerAdd (splitKey v).2 c), ctx.abs) := by
      unfold r64AddBulk
      rw [h2]; simp only [if_pos (cmp_self v), hA.here]
    rw [e]
    refine ⟨r', ctx, ?_, rfl, F, m', g2.congr (artStore_upd hR hA.ptr.key hA.here _), fun q hq => ?_⟩
    · simp only [R64M.addBulk, h1, hA.look, ok_bind, g1]
    · rw [h3] at hq; cases hq
      rw [h4]; exact ⟨splitKey_isKey v, Or.inl g3.ptr⟩
  · have e : r64AddBulk R ctx.abs v = none := by
      unfold r64AddBulk
      rw [h2]; simp only [if_pos (cmp_self v), h3]
    rw [e]
    simp only [R64M.addBulk, h1, h4]; rfl

theorem containsBulk_sim {r : R64M} {L : ArtRef → Prop} {R : R64} {ctx : Bulk64M} (h : BSim r L R ctx) (v : Nat) :
    match r64ContainsBulk R ctx.abs v with
    | none => r.containsBulk ctx v = .oob
    | some y => ∃ ctx', r.containsBulk ctx v = .ok (y.1, ctx') ∧ ctx'.abs = y.2 ∧ BSim r L R ctx' := by
  obtain ⟨F, m, h, hh⟩ := h
  rcases hh.cases h v with ⟨h1, h2⟩ | ⟨p, l, a, c, h1, h2, h3, h4, hA⟩ | ⟨p, h1, h2, h3, h4⟩
  · have e : r64ContainsBulk R ctx.abs v = (match artFind R (splitKey v).1 with
      | none => some (false, ctx.abs)
      | some c => some (containerContains (splitKey v).2 c, some (splitKey v).1)) := by
      unfold r64ContainsBulk
      rcases h2 with h2 | ⟨k, h2, h3⟩
      · rw [h2]; rfl
      · rw [h2]; simp only [if_pos h3]; rfl
    rw [e]
    rcases h.find (splitKey_isKey v) with ⟨f1, f2, f3⟩ | ⟨p, l, a, c, f1, hA⟩
    · rw [f2]
      exact ⟨ctx, by simp only [R64M.containsBulk, h1, f3, ok_bind], rfl, F, m, h, hh⟩
    · rw [hA.here]
      refine ⟨⟨(splitKey v).1, some p⟩, by simp only [R64M.containsBulk, h1, f1, ok_bind, hA.look], rfl, F, m, h, fun q hq => ?_⟩
      cases hq; exact ⟨splitKey_isKey v, Or.inl hA.ptr⟩
  · have e : r64ContainsBulk R ctx.abs v = some (containerContains (splitKey v).2 c, ctx.abs) := by
      unfold r64ContainsBulk
      rw [h2]; simp only [cmp_self v, ne_eq, not_true_eq_false, if_false, hA.here]
    rw [e]
    exact ⟨ctx, by simp only [R64M.containsBulk, h1, hA.look, ok_bind], rfl, F, m, h, hh⟩
  · have e : r64ContainsBulk R ctx.abs v = none := by
      unfold r64ContainsBulk
      rw [h2]; simp only [cmp_self v, ne_eq, not_true_eq_false, if_false, h3]
    rw [e]
    simp only [R64M.containsBulk, h1, h4]; rfl

/-- A value is removed from a container that was found; the pointer stays, or its leaf is freed. -/
theorem removeHere {r : R64M} {L F : ArtRef → Prop} {m : List Nat → Option Nat} {R : R64} (h : St r L F m (artFind R)) (hR : ArtOk R) {k : List Nat}
    {p : ArtPtr} {l a : Nat} {c : Container} (hA : Leads r L F m (artFind R) k p l a c) (low : Nat) :
    ∃ r1 a1 r' F' m', r.change p a c (containerRemove low c) = .ok (r1, a1) ∧ St r' L F' m' (artFind (r64RemoveAt R k low (some c)).1) ∧
      (PtrTo r'.art L F' m' k p ∨ (artFind (r64RemoveAt R k low (some c)).1 k = none ∧ r'.art.load p = .oob)) ∧
      (if containerNonzero (containerRemove low c) = true then r' = r1
        else ∃ r2, r1.freeContainer a1 (typecode (containerRemove low c)) = .ok r2 ∧ r2.eraseLeaf k p = .ok r' ∧ r2.eraseOut k = .ok r') := by
  have hk := hA.ptr.key
  obtain ⟨r', m', a', l', g1, g2, g3⟩ := h.change_ok hA (containerRemove low c)
  have e := artStore_upd hR hk hA.here (containerRemove low c)
  simp only [r64RemoveAt]
  cases hz : containerNonzero (containerRemove low c) with
  | true => exact ⟨r', a', r', F, m', g1, g2.congr e, Or.inl g3.ptr, rfl⟩
  | false =>
    obtain ⟨r1, r2, F', m2, f1, f2, f2', f3, f4⟩ := g2.erase_both g3
    obtain ⟨j1, -⟩ := artStore_has hR hk hA.here (containerRemove low c)
    rw [upd_upd] at f3
    have hE : ∀ k', IsKey k' → updKey (artFind R) k none k' = artFind (artErase (artStore R k (containerRemove low c)) k).2 k' := by
      intro k' hk'
      rw [← artErase_upd j1 hk k' hk']
      unfold updKey
      split
      · rfl
      · next hne => rw [← e k' hk', upd_ne _ _ hne]
    refine ⟨r', a', r2, F', m2, g1, f3.congr hE, Or.inr ⟨?_, f4⟩, r1, f1, f2, f2'⟩
    simp only [Bool.not_false, if_true]
    rw [← hE k hk, upd_same]

theorem removeBulk_sim {r : R64M} {L : ArtRef → Prop} {R : R64} {ctx : Bulk64M} (h : BSim r L R ctx) (hR : ArtOk R) (v : Nat) :
    match r64RemoveBulk R ctx.abs v with
    | none => r.removeBulk ctx v = .oob
    | some y => ∃ r' ctx', r.removeBulk ctx v = .ok (r', ctx') ∧ ctx'.abs = y.2 ∧ BSim r' L y.1 ctx' := by
  obtain ⟨F, m, h, hh⟩ := h
  rcases hh.cases h v with ⟨h1, h2⟩ | ⟨p, l, a, c, h1, h2, h3, h4, hA⟩ | ⟨p, h1, h2, h3, h4⟩
  · have e : r64RemoveBulk R ctx.abs v = some ((r64RemoveAt R (splitKey v).1 (splitKey v).2 (artFind R (splitKey v).1)).1,
        (artFind R (splitKey v).1).map fun _ => (splitKey v).1) := by
      unfold r64RemoveBulk
      rcases h2 with h2 | ⟨k, h2, h3⟩
      · rw [h2]
      · rw [h2]; simp only [if_neg h3]
    rw [e]
    rcases h.find (splitKey_isKey v) with ⟨f1, f2, f3⟩ | ⟨p, l, a, c, f1, hA⟩
    · rw [f2]
      exact ⟨r, ⟨(splitKey v).1, none⟩, by simp only [R64M.removeBulk, h1, f3, ok_bind, R64M.removeAt], rfl, F, m, h, fun q hq => by cases hq⟩
    · obtain ⟨r1, a1, r', F', m', g1, g2, g3, g4⟩ := removeHere h hR hA (splitKey v).2
      rw [hA.here]
      refine ⟨r', ⟨(splitKey v).1, some p⟩, ?_, rfl, F', m', g2, fun q hq => ?_⟩
      · simp only [R64M.removeBulk, h1, f1, ok_bind, R64M.removeAt, hA.look, g1, R64M.dropEmpty]
        split at g4
        · next hz => rw [if_pos hz, g4]; rfl
        · next hz =>
          obtain ⟨r2, w1, w2, -⟩ := g4
          rw [if_neg hz, w1, ok_bind, w2]; rfl
      · cases hq; exact ⟨splitKey_isKey v, g3⟩
  · obtain ⟨r1, a1, r', F', m', g1, g2, g3, g4⟩ := removeHere h hR hA (splitKey v).2
    have e : r64RemoveBulk R ctx.abs v = some ((r64RemoveAt R (splitKey v).1 (splitKey v).2 (some c)).1, ctx.abs) := by
      unfold r64RemoveBulk r64RemoveAt
      rw [h2]; simp only [if_pos (cmp_self v), hA.here]
      split <;> rfl
    rw [e]
    refine ⟨r', ctx, ?_, rfl, F', m', g2, fun q hq => ?_⟩
    · simp only [R64M.removeBulk, h1, ok_bind, hA.look, g1]
      split at g4
      · next hz => rw [if_pos hz, g4]
      · next hz =>
        obtain ⟨r2, w1, -, w2⟩ := g4
        rw [if_neg hz, w1, ok_bind, w2]; rfl
    · rw [h3] at hq; cases hq
      rw [h4]; exact ⟨splitKey_isKey v, g3⟩
  · have e : r64RemoveBulk R ctx.abs v = none := by
      unfold r64RemoveBulk
      rw [h2]; simp only [if_pos (cmp_self v), h3]
    rw [e]
    simp only [R64M.removeBulk, h1, h4]; rfl

end CRoaring
