import Verif.Lemmas.Store64Validate2
/-
Validation of 64-bit bitmaps in memory.
-/
set_option linter.unusedSimpArgs false
set_option linter.unusedVariables false
namespace CRoaring
open Spec

theorem chain_le {V : Type} {H : ArtHeap V} {t : ArtTy} {a : Nat} {l : List Nat} (h : Chain H t a l) : a ≤ (H.nodes t).length := by
  cases l with
  | nil => exact Nat.le_of_eq h
  | cons x l =>
    obtain ⟨rfl, n, hg, -⟩ := h
    unfold ArtHeap.get at hg
    exact Nat.le_of_lt (List.getElem?_eq_some_iff.1 hg).1

theorem freeWithin_ok {V : Type} {H : ArtHeap V} {U : ArtRef → Prop} (h : HOk H U) : H.freeWithin = true := by
  unfold ArtHeap.freeWithin
  simp only [List.all_eq_true]
  intro t _ i _
  obtain ⟨l, -, -, hc⟩ := h.free t
  have := chain_le hc
  simpa using this

theorem leafValidate_ok {r : R64M} {l a : Nat} {c : Container} (h1 : r.containers[l / 256]? = some (some a)) (h2 : r.mem[a]? = some (some c))
    (h3 : typecode c = l % 256) : r.leafValidate l = .ok (containerValidate c) := by
  unfold R64M.leafValidate R64M.getContainer R64M.deref
  rw [show leafIndex l = l / 256 from rfl, h1]
  simp only [ok_bind]
  rw [h2]
  simp only
  rw [if_pos (show typecode c = leafType l from h3), ok_bind]

/-- The answer of the validation of a bitmap is whether all its containers are valid. -/
theorem internalValidate_st {r : R64M} {L F : ArtRef → Prop} {m : List Nat → Option Nat} {C : List Nat → Option Container} (h : St r L F m C) :
    ∃ b, r.internalValidate = .ok b ∧ (b = true ↔ ∀ (a : Nat) (c : Container), r.mem[a]? = some (some c) → containerValidate c = true) := by
  obtain ⟨root, h1, h2, h3⟩ := h.map
  -- objects are the containers of leaves
  have hobj : (∀ (a : Nat) (c : Container), r.mem[a]? = some (some c) → containerValidate c = true) ↔ ∀ k v, RHas root k v → r.leafValidate v = .ok true := by
    constructor
    · intro ho k v hv
      have hk := h2.key hv
      have hm : m k = some v := by rw [← h3 k hk]; exact (artFind_iff h2 hk _).2 hv
      obtain ⟨a, c, e1, e2, e3, -⟩ := h.slots.found k v hk hm
      rw [leafValidate_ok e1 e2 e3, ho a c e2]
    · intro ho a c hc
      obtain ⟨i, hi⟩ := h.slots.kept a c hc
      obtain ⟨k, l, hk, hm, rfl⟩ := h.slots.used i a hi
      obtain ⟨a', c', e1, e2, e3, -⟩ := h.slots.found k l hk hm
      rw [hi] at e1; cases e1
      rw [hc] at e2; cases e2
      have := ho k l ((artFind_iff h2 hk _).1 (by rw [h3 k hk]; exact hm))
      rw [leafValidate_ok hi hc e3] at this
      cases e : containerValidate c with
      | true => rfl
      | false => rw [e] at this; cases this
  have hcb : ∀ k v, RHas root k v → ∃ b, r.leafValidate v = .ok b := by
    intro k v hv
    have hk := h2.key hv
    have hm : m k = some v := by rw [← h3 k hk]; exact (artFind_iff h2 hk _).2 hv
    obtain ⟨a, c, e1, e2, e3, -⟩ := h.slots.found k v hk hm
    exact ⟨_, leafValidate_ok e1 e2 e3⟩
  rw [hobj]
  cases root with
  | none =>
    refine ⟨true, ?_, ⟨fun _ k v hv => ?_, fun _ => rfl⟩⟩
    · unfold R64M.internalValidate ArtT.internalValidate; rw [h1.1]
    · obtain ⟨t, e, -⟩ := hv; cases e
  | some t =>
    obtain ⟨ref, e1, e2, e3, -⟩ := h1
    obtain ⟨b, g1, g2⟩ := validateAt_complete (cb := r.leafValidate) e2 (fuel := 7) (path := []) (by intro b hb; cases hb) (by simp) (by simp) (h2 t rfl)
      (fun k v hv => hcb k v ⟨t, rfl, hv⟩)
    refine ⟨b, ?_, g2.trans ⟨?_, fun hh k v hv => hh k v ⟨t, rfl, hv⟩⟩⟩
    · unfold R64M.internalValidate ArtT.internalValidate
      rw [e1]
      simp only
      rw [if_pos (freeWithin_ok e3), g1]
    · rintro hh k v ⟨t', e, hv⟩
      cases e; exact hh k v hv

/-- What an accepted bitmap holds: a tree whose leaves name valid containers. -/
theorem internalValidate_sound {r : R64M} (ht : HTyped r.art.heap) (h : r.internalValidate = .ok true) :
    ∃ root : Option (Art Nat), ArtOk root ∧
      (∀ k, IsKey k → (artFind root k = none ∧ r.art.find k = .ok none) ∨ ∃ v p, artFind root k = some v ∧ r.art.find k = .ok (some p) ∧ r.art.load p = .ok v) ∧
      ∀ k v, RHas root k v → ∃ a c, r.containers[v / 256]? = some (some a) ∧ r.mem[a]? = some (some c) ∧ typecode c = v % 256 ∧ containerValidate c = true := by
  unfold R64M.internalValidate ArtT.internalValidate at h
  cases e : r.art.root with
  | none =>
    refine ⟨none, artOk_none, fun k _ => .inl ⟨rfl, ?_⟩, ?_⟩
    · unfold ArtT.find; rw [e]
    · rintro k v ⟨t, h, -⟩; cases h
  | some ref =>
    rw [e] at h
    simp only at h
    split at h
    rotate_left
    · cases h
    obtain ⟨t, F, h1, h2, h3⟩ := validateAt_sound ht 7 ref [] (by intro b hb; cases hb) (by simp) h
    refine ⟨some t, fun t' e => by cases e; exact h2, fun k hk => ?_, ?_⟩
    · have h := findAt_sim hk LEVELS (path := []) h1 h2 List.nil_prefix (by decide)
      have e0 : r.art.find k = r.art.heap.findAt k LEVELS ref 0 := by unfold ArtT.find; rw [e]
      have e1 : artFind (some t) k = artFindAt LEVELS t k 0 := rfl
      rw [show artFindAt LEVELS t k ([] : List Nat).length = artFindAt LEVELS t k 0 from rfl] at h
      rw [e0, e1]
      cases hr : artFindAt LEVELS t k 0 with
      | none => rw [hr] at h; exact .inl ⟨rfl, h⟩
      | some v =>
        rw [hr] at h
        obtain ⟨l, a1, a2, a3, -⟩ := h
        refine .inr ⟨v, _, rfl, a1, ?_⟩
        unfold ArtT.load
        rw [peekLeaf_ok (deref_valid _ l) a3]; rfl
    · rintro k v ⟨t', e', hv⟩
      cases e'
      have := h3 k v hv
      unfold R64M.leafValidate at this
      obtain ⟨a, g1, this⟩ := bind_ok_true this
      obtain ⟨c, g2, this⟩ := bind_ok_true this
      refine ⟨a, c, ?_, ?_, ?_, by simpa using this⟩
      · unfold R64M.getContainer at g1
        split at g1
        · next hg => cases g1; exact hg
        · cases g1
      · unfold R64M.deref at g2
        split at g2
        · next hg =>
          split at g2
          · cases g2; exact hg
          · cases g2
        · cases g2
      · unfold R64M.deref at g2
        split at g2
        · next hg =>
          split at g2
          · next ht => cases g2; exact ht
          · cases g2
        · cases g2

end CRoaring
