import Verif.Lemmas.Store64
import Verif.Lemmas.R64i
/-
The operations of a 64-bit bitmap in memory.
-/
set_option linter.unusedSimpArgs false
set_option linter.unusedVariables false
namespace CRoaring
open Spec

/-! ### The radix tree -/

theorem amap_insert {a : ArtT Nat} {L : ArtRef → Prop} {m : List Nat → Option Nat} (h : AMap a L m) {k : List Nat} (hk : IsKey k) (hn : m k = none) (v : Nat) :
    ∃ b p, a.insert k v = .ok (b, p) ∧ AMap b L (updKey m k (some v)) ∧ b.load p = .ok v := by
  obtain ⟨root, h1, h2, h3⟩ := h
  have e1 : artFind root k = none := (h3 k hk).trans hn
  obtain ⟨b, l, i1, i2, i3⟩ := arep_insert h1 h2 hk e1 v
  obtain ⟨j1, j2⟩ := artInsert_has h2 hk e1 v
  refine ⟨b, _, i1, ⟨_, i2, j1, fun k' hk' => ?_⟩, ?_⟩
  · refine find_eq (root' := root) j1 hk' (fun v' => ?_)
    rw [j2, ← artFind_iff h2 hk', h3 k' hk']
    unfold updKey
    by_cases e : k' = k
    · subst e
      rw [hn]
      simp [eq_comm]
    · simp [e]
  · unfold ArtT.load
    rw [peekLeaf_ok (deref_valid _ l) i3]; rfl

theorem amap_erase {a : ArtT Nat} {L : ArtRef → Prop} {m : List Nat → Option Nat} (h : AMap a L m) {k : List Nat} (hk : IsKey k) :
    ∃ b, a.erase k = .ok (b, m k) ∧ AMap b L (updKey m k none) := by
  obtain ⟨root, h1, h2, h3⟩ := h
  obtain ⟨b, i1, i2⟩ := arep_erase h1 h2 hk
  obtain ⟨j1, j2, j3⟩ := artErase_has h2 hk
  refine ⟨b, ?_, _, i2, j2, fun k' hk' => ?_⟩
  · rw [i1, j1, h3 k hk]
  · refine find_eq (root' := root) j2 hk' (fun v => ?_)
    rw [j3, ← artFind_iff h2 hk', h3 k' hk']
    unfold updKey
    by_cases e : k' = k <;> simp [e]

/-! ### A new leaf -/

theorem allocateIndex_ok {r : R64M}
    (hf : FirstFree r.containers r.first) : ∃ n, r.allocateIndex.1.containers = r.containers ++ List.replicate n none ∧ r.allocateIndex.1.art = r.art ∧
      r.allocateIndex.1.mem = r.mem ∧ r.allocateIndex.2 = r.first ∧ (r.containers ++ List.replicate n none)[r.first]? = some none ∧
      ∀ a, FirstFree ((r.containers ++ List.replicate n none).set r.first (some a)) r.allocateIndex.1.first := by
  have key : ∀ n, r.first < r.containers.length + n → (r.containers ++ List.replicate n none)[r.first]? = some none → ∀ a,
      FirstFree ((r.containers ++ List.replicate n none).set r.first (some a)) (R64M.nextFree { r with containers := r.containers ++ List.replicate n none }) := by
    intro n hlt hn a
    refine slotNext_ok (r := { r with containers := r.containers ++ List.replicate n none }) (by simp) (fun i hi => ?_) (fun i hi => ?_) (by simpa using hlt)
    · simp only at hi
      rw [get_set]
      split
      · simp
      · next hne =>
        have : i < r.first := by
          rcases Nat.lt_or_ge i r.first with h | h
          · exact h
          · exact absurd ⟨by omega, by simpa using hlt⟩ hne
        rw [List.getElem?_append_left (by have := hf.le; omega)]
        exact hf.before i this
    · simp only at hi
      rw [List.getElem?_set_ne (by omega)]
  unfold R64M.allocateIndex R64M.extendContainers
  by_cases hl : r.first = r.containers.length
  · have hgt := artNewCapacity_gt r.containers.length
    have h0 : (r.containers ++ List.replicate (artNewCapacity r.containers.length - r.containers.length) none)[r.first]? = some none := by
      rw [List.getElem?_append_right (by omega), List.getElem?_replicate, if_pos (by omega)]
    refine ⟨artNewCapacity r.containers.length - r.containers.length, ?_, ?_, ?_, ?_, h0, fun a => ?_⟩
    · simp only [if_pos hl, if_neg (show ¬ r.first < r.containers.length by omega)]
    · simp only [if_pos hl, if_neg (show ¬ r.first < r.containers.length by omega)]
    · simp only [if_pos hl, if_neg (show ¬ r.first < r.containers.length by omega)]
    · simp only [if_pos hl, if_neg (show ¬ r.first < r.containers.length by omega)]
    · simp only [if_pos hl, if_neg (show ¬ r.first < r.containers.length by omega)]
      exact key _ (by omega) h0 a
  · have hlt : r.first < r.containers.length := by have := hf.le; omega
    have h0 := hf.here hlt
    refine ⟨0, ?_, ?_, ?_, ?_, by simpa using h0, fun a => ?_⟩
    · simp only [if_neg hl, List.replicate_zero, List.append_nil]
    · simp only [if_neg hl]
    · simp only [if_neg hl]
    · simp only [if_neg hl]
    · simp only [if_neg hl]
      have := key 0 (by omega) (by simpa using h0) a
      simpa using this

theorem addContainer_ok {r : R64M} (hf : FirstFree r.containers r.first) (a t : Nat) :
    ∃ r' n, r.addContainer a t = .ok (r', createLeaf r.first t) ∧ r'.art = r.art ∧ r'.mem = r.mem ∧ (r.containers ++ List.replicate n none)[r.first]? = some none ∧
      r'.containers = (r.containers ++ List.replicate n none).set r.first (some a) ∧ FirstFree r'.containers r'.first := by
  obtain ⟨n, a1, a2, a3, a4, a5, a6⟩ := allocateIndex_ok hf
  refine ⟨{ r.allocateIndex.1 with containers := r.allocateIndex.1.containers.set r.allocateIndex.2 (some a) }, n, ?_, a2, a3, a5, ?_, ?_⟩
  · simp only [R64M.addContainer]
    rw [setSlot_ok (by rw [a1, a4]; exact slot_lt a5), ok_bind, a4]
  · simp only [a1, a4]
  · simp only [a1, a4]; exact a6 a

theorem St.put_ok {r : R64M} {L F : ArtRef → Prop} {m : List Nat → Option Nat} {C : List Nat → Option Container} (h : St r L F m C) {k : List Nat}
    (hk : IsKey k) (hn : m k = none) (c : Container) :
    ∃ r' p F' m', r.put k c = .ok (r', p) ∧ St r' L F' m' (updKey C k (some c)) ∧ (∃ l a, r'.look p = .ok (l, a, c)) ∧ ∀ k', k' ≠ k → m' k' = m k' := by
  obtain ⟨r1, n, a1, a2, a3, a4, a5, a6⟩ := addContainer_ok (r := (r.new c).1) h.first r.mem.length (typecode c)
  have hi := (h.slots.extend n).insert hk hn a4 c
  obtain ⟨b, p, i1, i2, i3⟩ := amap_insert h.map.map hk hn (createLeaf r.first (typecode c))
  obtain ⟨F', i4⟩ := i2.withF
  have hst : St { r1 with art := b } L F' (updKey m k (some (createLeaf r.first (typecode c)))) (updKey C k (some c)) := by
    refine ⟨i4, ?_, a6⟩
    simp only [a5, a3]
    exact hi
  refine ⟨_, p, F', _, ?_, hst, ?_, fun k' hk' => upd_ne _ _ hk'⟩
  · have e1 : r1.art.insert k (createLeaf r.first (typecode c)) = .ok (b, p) := by rw [a2]; exact i1
    have e2 : (r.new c).1.addContainer (r.new c).2 (typecode c) = .ok (r1, createLeaf r.first (typecode c)) := a1
    simp only [R64M.put, e2, ok_bind, e1]
  · obtain ⟨a, c', g1, g2, g3, g4⟩ := hst.slots.found k _ hk (upd_same _ _ _)
    rw [upd_same] at g4
    cases g4
    refine ⟨createLeaf r.first (typecode c), a, ?_⟩
    have e1 : R64M.getContainer { r1 with art := b } (createLeaf r.first (typecode c)) = .ok a := by
      simp only [R64M.getContainer, leafIndex]
      rw [g1]
    have e2 : R64M.deref { r1 with art := b } a (leafType (createLeaf r.first (typecode c))) = .ok c := by
      simp only [R64M.deref, leafType]
      rw [g2]
      exact if_pos g3
    simp only [R64M.look, i3, ok_bind, e1, e2]

/-! ### A leaf is gone -/

theorem FirstFree.remove {cs : List (Option Nat)} {f : Nat} (h : FirstFree cs f) {i a : Nat} (hi : cs[i]? = some (some a)) :
    FirstFree (cs.set i none) (if i < f then i else f) := by
  have hlt := slot_lt hi
  split
  · next hf =>
    refine ⟨by simp; omega, fun j hj e => ?_, fun _ => List.getElem?_set_self hlt⟩
    rw [List.getElem?_set_ne (by omega)] at e
    exact h.before j (by omega) e
  · next hf =>
    refine ⟨by simpa using h.le, fun j hj e => ?_, fun hl => ?_⟩
    · rw [List.getElem?_set_ne (by omega)] at e
      exact h.before j hj e
    · rw [get_set]
      split
      · rfl
      · exact h.here (by simpa using hl)

/-- The object of a leaf is freed and the leaf erased. -/
theorem St.erase_ok {r : R64M} {L F : ArtRef → Prop} {m : List Nat → Option Nat} {C : List Nat → Option Container} (h : St r L F m C) {k : List Nat}
    {p : ArtPtr} {l a : Nat} {c : Container} (hA : Leads r L F m C k p l a c) :
    ∃ r1 r' F' m', r.freeContainer a (typecode c) = .ok r1 ∧ r1.eraseLeaf k p = .ok r' ∧ St r' L F' m' (updKey C k none) := by
  have hf : r.freeContainer a (typecode c) = .ok { r with mem := r.mem.set a none } := by
    simp only [R64M.freeContainer, R64M.deref, hA.obj, if_true, ok_bind]
  obtain ⟨b, i1, i2⟩ := amap_erase h.map.map hA.ptr.key
  obtain ⟨F', i3⟩ := i2.withF
  rw [hA.leaf] at i1
  have hl : r.art.loadFreed b p = .ok l := (loadFreed_ok hA.ptr.find i1).trans hA.load
  have hs : R64M.setSlot { art := b, containers := r.containers, first := r.first, mem := r.mem.set a none } (leafIndex l) none =
      .ok { art := b, containers := r.containers.set (l / 256) none, first := r.first, mem := r.mem.set a none } :=
    setSlot_ok (r := { art := b, containers := r.containers, first := r.first, mem := r.mem.set a none }) (slot_lt hA.slot) none
  refine ⟨_, { art := b, containers := r.containers.set (l / 256) none, first := if leafIndex l < r.first then leafIndex l else r.first, mem := r.mem.set a none },
    F', _, hf, ?_, ⟨i3, h.slots.erase hA.ptr.key hA.leaf hA.slot, h.first.remove hA.slot⟩⟩
  simp only [R64M.eraseLeaf, i1, ok_bind, hl, R64M.removeContainer, hs]

/-! ### The operations -/

/-- The bitmap in memory has the same containers as the tree `R`. -/
def Sim64 (r : R64M) (L : ArtRef → Prop) (R : R64) : Prop := ∃ F m, St r L F m (artFind R)

theorem artStore_upd {R : R64} (h : ArtOk R) {k : List Nat} (hk : IsKey k) {c : Container} (hc : artFind R k = some c) (c2 : Container) :
    ∀ k', IsKey k' → updKey (artFind R) k (some c2) k' = artFind (artStore R k c2) k' := by
  intro k' hk'
  obtain ⟨j1, j2⟩ := artStore_has h hk hc c2
  refine (find_eq (root' := R) j1 hk' (fun v => ?_)).symm
  rw [j2, ← artFind_iff h hk']
  unfold updKey
  by_cases e : k' = k <;> simp [e, eq_comm]

theorem artInsert_upd {R : R64} (h : ArtOk R) {k : List Nat} (hk : IsKey k) (hc : artFind R k = none) (c2 : Container) :
    ∀ k', IsKey k' → updKey (artFind R) k (some c2) k' = artFind (artInsert R k c2) k' := by
  intro k' hk'
  obtain ⟨j1, j2⟩ := artInsert_has h hk hc c2
  refine (find_eq (root' := R) j1 hk' (fun v => ?_)).symm
  rw [j2, ← artFind_iff h hk']
  unfold updKey
  by_cases e : k' = k
  · subst e; rw [hc]; simp [eq_comm]
  · simp [e]

theorem artErase_upd {R : R64} (h : ArtOk R) {k : List Nat} (hk : IsKey k) :
    ∀ k', IsKey k' → updKey (artFind R) k none k' = artFind (artErase R k).2 k' := by
  intro k' hk'
  obtain ⟨_, j1, j2⟩ := artErase_has h hk
  refine (find_eq (root' := R) j1 hk' (fun v => ?_)).symm
  rw [j2, ← artFind_iff h hk']
  unfold updKey
  by_cases e : k' = k <;> simp [e]

theorem upd_upd {β : Type} (m : List Nat → β) (k : List Nat) (x y : β) : updKey (updKey m k x) k y = updKey m k y := by
  funext k'; unfold updKey; split <;> rfl

theorem sim64_create : Sim64 R64M.create (fun _ => False) r64Create := by
  obtain ⟨F, h⟩ := (amap_init (V := Nat)).withF
  refine ⟨F, _, h, ⟨fun _ _ _ => rfl, by simp, by simp, ?_, ?_, ?_⟩, ⟨by simp [R64M.create], by simp [R64M.create], by simp [R64M.create]⟩⟩
  · intro i a hi; simp [R64M.create] at hi
  · intro i j a hi; simp [R64M.create] at hi
  · intro a c ha; simp [R64M.create] at ha

theorem addAt_ok {r : R64M} {L : ArtRef → Prop} {R : R64} (h : Sim64 r L R) (hR : ArtOk R) {k : List Nat} (hk : IsKey k) (low : Nat) :
    ∃ o r' p l a c, r.art.find k = .ok o ∧ r.oldCard o = .ok (match artFind R k with
      | some c => containerCard c
      | none => 0) ∧ r.addAt k low o = .ok (r', p) ∧ Sim64 r' L (r64AddAt R k low (artFind R k)) ∧
      r'.look p = .ok (l, a, c) ∧ artFind (r64AddAt R k low (artFind R k)) k = some c := by
  obtain ⟨F, m, h⟩ := h
  rcases h.find hk with ⟨h1, h2, h3⟩ | ⟨p, l, a, c, h1, hA⟩
  · obtain ⟨r', p, F', m', g1, g2, ⟨l, a, g3⟩, -⟩ := h.put_ok hk h1 (containerAdd low (.array []))
    have e := artInsert_upd hR hk h2 (containerAdd low (.array []))
    refine ⟨none, r', p, l, a, _, h3, ?_, g1, ?_, g3, ?_⟩
    · rw [h2]; rfl
    · rw [h2]; exact ⟨F', m', g2.congr e⟩
    · rw [h2]; simp only [r64AddAt]; rw [← e k hk, upd_same]
  · obtain ⟨r', m', a', l', g1, g2, g3⟩ := h.change_ok hA (containerAdd low c)
    have e := artStore_upd hR hk hA.here (containerAdd low c)
    refine ⟨some p, r', p, l', a', _, h1, ?_, ?_, ?_, g3.look, ?_⟩
    · rw [hA.here]; simp only [R64M.oldCard, hA.look, ok_bind]
    · simp only [R64M.addAt, hA.look, ok_bind, g1]
    · rw [hA.here]; exact ⟨F, m', g2.congr e⟩
    · rw [hA.here]; simp only [r64AddAt]; rw [← e k hk, upd_same]

theorem add_ok {r : R64M} {L : ArtRef → Prop} {R : R64} (h : Sim64 r L R) (hR : ArtOk R) (v : Nat) :
    ∃ r', r.add v = .ok r' ∧ Sim64 r' L (r64Add R v) := by
  obtain ⟨o, r', p, l, a, c, h1, h2, h3, h4, h5, h6⟩ := addAt_ok h hR (splitKey_isKey v) (splitKey v).2
  exact ⟨r', by simp only [R64M.add, h1, ok_bind, h3], h4⟩

theorem addChecked_ok {r : R64M} {L : ArtRef → Prop} {R : R64} (h : Sim64 r L R) (hR : ArtOk R) (v : Nat) :
    ∃ r', r.addChecked v = .ok (r', (r64AddChecked R v).2) ∧ Sim64 r' L (r64AddChecked R v).1 := by
  obtain ⟨o, r', p, l, a, c, h1, h2, h3, h4, h5, h6⟩ := addAt_ok h hR (splitKey_isKey v) (splitKey v).2
  refine ⟨r', ?_, h4⟩
  simp only [R64M.addChecked, h1, ok_bind, h2, h3, h5, r64AddChecked, leafAt, h6, Option.getD_some]
  rfl

theorem contains_ok {r : R64M} {L : ArtRef → Prop} {R : R64} (h : Sim64 r L R) (v : Nat) : r.contains v = .ok (r64Contains R v) := by
  obtain ⟨F, m, h⟩ := h
  rcases h.find (splitKey_isKey v) with ⟨h1, h2, h3⟩ | ⟨p, l, a, c, h1, hA⟩
  · simp only [R64M.contains, h3, ok_bind, r64Contains, h2]
  · simp only [R64M.contains, h1, ok_bind, hA.look, r64Contains, hA.here]

theorem removeAt_ok {r : R64M} {L F : ArtRef → Prop} {m : List Nat → Option Nat} {R : R64} (h : St r L F m (artFind R)) (hR : ArtOk R) {k : List Nat}
    {p : ArtPtr} {l a : Nat} {c : Container} (hA : Leads r L F m (artFind R) k p l a c) (low : Nat) :
    ∃ r' rem, r.removeAt k low (some p) = .ok (r', rem) ∧ rem = (r64RemoveAt R k low (some c)).2 ∧ Sim64 r' L (r64RemoveAt R k low (some c)).1 ∧
      (rem = false → ∃ l a c', r'.look p = .ok (l, a, c') ∧ artFind (r64RemoveAt R k low (some c)).1 k = some c') := by
  have hk := hA.ptr.key
  obtain ⟨r', m', a', l', g1, g2, g3⟩ := h.change_ok hA (containerRemove low c)
  have e := artStore_upd hR hk hA.here (containerRemove low c)
  simp only [R64M.removeAt, hA.look, ok_bind, g1, R64M.dropEmpty, r64RemoveAt]
  cases hz : containerNonzero (containerRemove low c) with
  | true =>
    refine ⟨r', false, rfl, rfl, ⟨F, m', g2.congr e⟩, fun _ => ⟨l', a', _, g3.look, ?_⟩⟩
    simp only [Bool.not_true, Bool.false_eq_true, if_false]
    rw [← e k hk, upd_same]
  | false =>
    obtain ⟨r1, r2, F', m2, f1, f2, f3⟩ := g2.erase_ok g3
    refine ⟨r2, true, ?_, rfl, ⟨F', m2, ?_⟩, fun h => by cases h⟩
    · simp only [Bool.false_eq_true, if_false, f1, ok_bind, f2]
    · rw [upd_upd] at f3
      simp only [Bool.not_false, if_true]
      obtain ⟨j1, -⟩ := artStore_has hR hk hA.here (containerRemove low c)
      refine f3.congr fun k' hk' => ?_
      rw [← artErase_upd j1 hk k' hk']
      unfold updKey
      split
      · rfl
      · next hne => rw [← e k' hk', upd_ne _ _ hne]

theorem remove_ok {r : R64M} {L : ArtRef → Prop} {R : R64} (h : Sim64 r L R) (hR : ArtOk R) (v : Nat) :
    ∃ r', r.remove v = .ok r' ∧ Sim64 r' L (r64Remove R v) := by
  obtain ⟨F, m, h⟩ := h
  rcases h.find (splitKey_isKey v) with ⟨h1, h2, h3⟩ | ⟨p, l, a, c, h1, hA⟩
  · exact ⟨r, by simp only [R64M.remove, h3, ok_bind, R64M.removeAt], by
      show Sim64 r L (r64RemoveAt R (splitKey v).1 (splitKey v).2 (artFind R (splitKey v).1)).1
      rw [h2]; exact ⟨F, m, h⟩⟩
  · obtain ⟨r', rem, g1, -, g2, -⟩ := removeAt_ok h hR hA (splitKey v).2
    refine ⟨r', by simp only [R64M.remove, h1, ok_bind, g1], ?_⟩
    show Sim64 r' L (r64RemoveAt R (splitKey v).1 (splitKey v).2 (artFind R (splitKey v).1)).1
    rw [hA.here]; exact g2

theorem removeChecked_ok {r : R64M} {L : ArtRef → Prop} {R : R64} (h : Sim64 r L R) (hR : ArtOk R) (v : Nat) :
    ∃ r', r.removeChecked v = .ok (r', (r64RemoveChecked R v).2) ∧ Sim64 r' L (r64RemoveChecked R v).1 := by
  obtain ⟨F, m, h⟩ := h
  rcases h.find (splitKey_isKey v) with ⟨h1, h2, h3⟩ | ⟨p, l, a, c, h1, hA⟩
  · simp only [r64RemoveChecked, h2]
    exact ⟨r, by simp only [R64M.removeChecked, h3, ok_bind], F, m, h⟩
  · obtain ⟨r', rem, g1, g2, g3, g4⟩ := removeAt_ok h hR hA (splitKey v).2
    simp only [R64M.removeChecked, h1, ok_bind, hA.look, g1, r64RemoveChecked, hA.here]
    cases hrem : rem with
    | true =>
      rw [hrem] at g2
      rw [← g2]
      exact ⟨r', by simp only [R64M.lessNow, if_true, ok_bind], g3⟩
    | false =>
      obtain ⟨l2, a2, c2, f1, f2⟩ := g4 hrem
      rw [hrem] at g2
      rw [← g2]
      refine ⟨r', ?_, g3⟩
      simp only [R64M.lessNow, Bool.false_eq_true, if_false, f1, ok_bind, leafAt, f2, Option.getD_some]

theorem addRangeAt_ok {r : R64M} {L : ArtRef → Prop} {R : R64} (h : Sim64 r L R) (hR : ArtOk R) {k : List Nat} (hk : IsKey k) (min max : Nat) :
    ∃ r', r.addRangeAt k min max = .ok r' ∧ Sim64 r' L (addRangeClosedAt R k min max) := by
  obtain ⟨F, m, h⟩ := h
  unfold addRangeClosedAt
  rcases h.find hk with ⟨h1, h2, h3⟩ | ⟨p, l, a, c, h1, hA⟩
  · obtain ⟨r', p, F', m', g1, g2, _⟩ := h.put_ok hk h1 (containerRangeOfOnes min (max + 1))
    rw [h2]
    exact ⟨r', by simp only [R64M.addRangeAt, h3, ok_bind, g1], F', m', g2.congr (artInsert_upd hR hk h2 _)⟩
  · obtain ⟨r', m', a', l', g1, g2, g3⟩ := h.change_ok hA (containerAddRange min max c)
    rw [hA.here]
    exact ⟨r', by simp only [R64M.addRangeAt, h1, ok_bind, hA.look, g1], F, m', g2.congr (artStore_upd hR hk hA.here _)⟩

theorem removeRangeAt_ok {r : R64M} {L : ArtRef → Prop} {R : R64} (h : Sim64 r L R) (hR : ArtOk R) {k : List Nat} (hk : IsKey k) (min max : Nat) :
    ∃ r', r.removeRangeAt k min max = .ok r' ∧ Sim64 r' L (removeRangeClosedAt R k min max) := by
  obtain ⟨F, m, h⟩ := h
  unfold removeRangeClosedAt
  rcases h.find hk with ⟨h1, h2, h3⟩ | ⟨p, l, a, c, h1, hA⟩
  · rw [h2]
    exact ⟨r, by simp only [R64M.removeRangeAt, h3, ok_bind], F, m, h⟩
  · rw [hA.here]
    simp only [R64M.removeRangeAt, h1, ok_bind, hA.look]
    cases hc : containerRemoveRange min max c with
    | some c2 =>
      obtain ⟨r', m', a', l', g1, g2, g3⟩ := h.change_ok hA c2
      exact ⟨r', by simp only [ok_bind, g1], F, m', g2.congr (artStore_upd hR hk hA.here _)⟩
    | none =>
      obtain ⟨r1, r2, F', m2, f1, f2, f3⟩ := h.erase_ok hA
      have e : leafType l = typecode c := hA.type.symm
      exact ⟨r2, by simp only [e, f1, ok_bind, f2], F', m2, f3.congr (artErase_upd hR hk)⟩

end CRoaring
