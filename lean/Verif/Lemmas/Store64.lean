import Verif.Lemmas.ArtHeapPtr
import Verif.Lemmas.R64h
/-
The array of containers and the container objects of a 64-bit bitmap.
-/
set_option linter.unusedSimpArgs false
set_option linter.unusedVariables false
namespace CRoaring
open Spec

/-- The leaves `m` lead to the containers `C`: one place in the array for each leaf, one object for each place, and no other objects. -/
structure Slots (cs : List (Option Nat)) (mem : List (Option Container)) (m : List Nat → Option Nat) (C : List Nat → Option Container) : Prop where
  absent : ∀ k, IsKey k → m k = none → C k = none
  found : ∀ k l, IsKey k → m k = some l → ∃ a c, cs[l / 256]? = some (some a) ∧ mem[a]? = some (some c) ∧ typecode c = l % 256 ∧ C k = some c
  inj : ∀ k k' l l', IsKey k → IsKey k' → m k = some l → m k' = some l' → l / 256 = l' / 256 → k = k'
  used : ∀ i a : Nat, cs[i]? = some (some a) → ∃ k l, IsKey k ∧ m k = some l ∧ l / 256 = i
  one : ∀ i j a : Nat, cs[i]? = some (some a) → cs[j]? = some (some a) → i = j
  kept : ∀ (a : Nat) (c : Container), mem[a]? = some (some c) → ∃ i : Nat, cs[i]? = some (some a)

/-- `first` is the first place that is not in use, or the capacity. -/
structure FirstFree (cs : List (Option Nat)) (first : Nat) : Prop where
  le : first ≤ cs.length
  before : ∀ i, i < first → cs[i]? ≠ some none
  here : first < cs.length → cs[first]? = some none

/-- A map after a change. -/
def updKey {β : Type} (m : List Nat → β) (k : List Nat) (x : β) : List Nat → β := fun k' => if k' = k then x else m k'

theorem upd_same {β : Type} (m : List Nat → β) (k : List Nat) (x : β) : updKey m k x k = x := by simp [updKey]
theorem upd_ne {β : Type} (m : List Nat → β) {k k' : List Nat} (x : β) (h : k' ≠ k) : updKey m k x k' = m k' := by simp [updKey, h]
theorem upd_eq {β : Type} {m : List Nat → β} {k : List Nat} {x : β} (h : m k = x) : updKey m k x = m := by
  funext k'
  by_cases e : k' = k
  · rw [e, upd_same, h]
  · rw [upd_ne _ _ e]

theorem typecode_byte (c : Container) : typecode c < 256 := by cases c <;> simp [typecode, BITSET_TYPE, ARRAY_TYPE, RUN_TYPE]

theorem leaf_index (i : Nat) {t : Nat} (h : t < 256) : (i * 256 + t) / 256 = i ∧ (i * 256 + t) % 256 = t := by omega

theorem get_set {α : Type} (l : List α) (i j : Nat) (x : α) : (l.set i x)[j]? = if i = j ∧ i < l.length then some x else l[j]? := by
  rw [List.getElem?_set]
  by_cases h : i = j
  · subst h
    by_cases h2 : i < l.length
    · simp [h2]
    · simp [h2]
  · simp [h]

theorem slot_lt {α : Type} {l : List α} {i : Nat} {x : α} (h : l[i]? = some x) : i < l.length := by
  rw [List.getElem?_eq_some_iff] at h; exact h.1

theorem Slots.congr {cs : List (Option Nat)} {mem : List (Option Container)} {m : List Nat → Option Nat} {C D : List Nat → Option Container}
    (h : Slots cs mem m C) (e : ∀ k, IsKey k → C k = D k) : Slots cs mem m D :=
  ⟨fun k hk hm => by rw [← e k hk]; exact h.absent k hk hm,
   fun k l hk hm => by obtain ⟨a, c, h1, h2, h3, h4⟩ := h.found k l hk hm; exact ⟨a, c, h1, h2, h3, by rw [← e k hk]; exact h4⟩,
   h.inj, h.used, h.one, h.kept⟩

/-- The container of a leaf changes, in place or to another object. -/
theorem Slots.change {cs : List (Option Nat)} {mem mem' : List (Option Container)} {m : List Nat → Option Nat} {C : List Nat → Option Container}
    (h : Slots cs mem m C) {k : List Nat} {l a a' l' : Nat} {c2 : Container} (hk : IsKey k) (hm : m k = some l) (ha : cs[l / 256]? = some (some a))
    (h1 : mem'[a']? = some (some c2)) (h2 : ∀ x, x ≠ a → x ≠ a' → mem'[x]? = mem[x]?)
    (h3 : a' = a ∨ (mem'[a]? = some none ∧ mem[a']? = none)) (hl : l' / 256 = l / 256) (ht : typecode c2 = l' % 256) :
    Slots (cs.set (l / 256) (some a')) mem' (updKey m k (some l')) (updKey C k (some c2)) := by
  have hlt := slot_lt ha
  have get : ∀ j : Nat, (cs.set (l / 256) (some a'))[j]? = if l / 256 = j then some (some a') else cs[j]? := by
    intro j; rw [get_set]; simp [hlt]
  have fresh : ∀ j : Nat, cs[j]? = some (some a') → j = l / 256 := by
    intro j hj
    rcases h3 with rfl | ⟨_, h3⟩
    · exact h.one _ _ _ hj ha
    · obtain ⟨k', l2, e1, e2, e3⟩ := h.used j a' hj
      obtain ⟨b, c, f1, f2, _⟩ := h.found k' l2 e1 e2
      rw [e3, hj] at f1
      cases f1
      rw [h3] at f2; cases f2
  have slot : ∀ k' l2, IsKey k' → updKey m k (some l') k' = some l2 → k' ≠ k → m k' = some l2 ∧ l / 256 ≠ l2 / 256 := by
    intro k' l2 hk' e hne
    rw [upd_ne _ _ hne] at e
    exact ⟨e, fun e2 => hne (h.inj k' k l2 l hk' hk e hm e2.symm)⟩
  constructor
  · intro k' hk' e
    by_cases hne : k' = k
    · rw [hne, upd_same] at e; cases e
    · rw [upd_ne _ _ hne] at e ⊢; exact h.absent k' hk' e
  · intro k' l2 hk' e
    by_cases hne : k' = k
    · rw [hne, upd_same] at e
      cases e
      exact ⟨a', c2, by rw [get, if_pos hl.symm], h1, ht, by rw [hne, upd_same]⟩
    · obtain ⟨e, ne⟩ := slot k' l2 hk' e hne
      obtain ⟨b, c, f1, f2, f3, f4⟩ := h.found k' l2 hk' e
      refine ⟨b, c, by rw [get, if_neg ne]; exact f1, ?_, f3, by rw [upd_ne _ _ hne]; exact f4⟩
      rw [h2 b, f2]
      · intro eb; rw [eb] at f1; exact ne (h.one _ _ _ ha f1)
      · intro eb; rw [eb] at f1; exact ne (fresh _ f1).symm
  · intro k1 k2 l1 l2 hk1 hk2 e1 e2 e
    by_cases n1 : k1 = k
    · by_cases n2 : k2 = k
      · rw [n1, n2]
      · rw [n1, upd_same] at e1
        cases e1
        exact absurd (hl.symm.trans e) (slot k2 l2 hk2 e2 n2).2
    · by_cases n2 : k2 = k
      · rw [n2, upd_same] at e2
        cases e2
        exact absurd (hl.symm.trans e.symm) (slot k1 l1 hk1 e1 n1).2
      · exact h.inj _ _ _ _ hk1 hk2 (slot k1 l1 hk1 e1 n1).1 (slot k2 l2 hk2 e2 n2).1 e
  · intro i b hb
    rw [get] at hb
    by_cases hi : l / 256 = i
    · exact ⟨k, l', hk, upd_same _ _ _, hl.trans hi⟩
    · rw [if_neg hi] at hb
      obtain ⟨k', l2, e1, e2, e3⟩ := h.used i b hb
      refine ⟨k', l2, e1, ?_, e3⟩
      rw [upd_ne _ _ (fun e => ?_)]
      · exact e2
      · rw [e, hm] at e2; cases e2; exact hi e3
  · intro i j b hi hj
    rw [get] at hi hj
    by_cases ni : l / 256 = i
    · by_cases nj : l / 256 = j
      · rw [← ni, ← nj]
      · rw [if_pos ni] at hi
        rw [if_neg nj] at hj
        cases hi
        exact absurd (fresh j hj).symm nj
    · by_cases nj : l / 256 = j
      · rw [if_neg ni] at hi
        rw [if_pos nj] at hj
        cases hj
        exact absurd (fresh i hi).symm ni
      · rw [if_neg ni] at hi
        rw [if_neg nj] at hj
        exact h.one _ _ _ hi hj
  · intro b c hb
    by_cases eb : b = a'
    · exact ⟨l / 256, by rw [get, if_pos rfl, eb]⟩
    · have na : b ≠ a := by
        intro e
        rcases h3 with h3 | ⟨h3, _⟩
        · exact eb (e.trans h3.symm)
        · rw [e, h3] at hb; cases hb
      rw [h2 b na eb] at hb
      obtain ⟨i, hi⟩ := h.kept b c hb
      refine ⟨i, ?_⟩
      rw [get, if_neg (fun e => ?_)]
      · exact hi
      · rw [← e, ha] at hi; cases hi; exact na rfl

theorem Slots.extend {cs : List (Option Nat)} {mem : List (Option Container)} {m : List Nat → Option Nat} {C : List Nat → Option Container}
    (h : Slots cs mem m C) (n : Nat) : Slots (cs ++ List.replicate n none) mem m C := by
  have get : ∀ j a : Nat, (cs ++ List.replicate n none)[j]? = some (some a) ↔ cs[j]? = some (some a) := by
    intro j a
    by_cases hj : j < cs.length
    · rw [List.getElem?_append_left hj]
    · rw [List.getElem?_append_right (by omega), List.getElem?_eq_none (by omega : cs.length ≤ j), List.getElem?_replicate]
      split <;> simp
  refine ⟨h.absent, fun k l hk hm => ?_, h.inj, fun i a hi => h.used i a ((get i a).1 hi), fun i j a hi hj => h.one i j a ((get i a).1 hi) ((get j a).1 hj),
    fun a c ha => ?_⟩
  · obtain ⟨a, c, h1, h2⟩ := h.found k l hk hm
    exact ⟨a, c, (get _ _).2 h1, h2⟩
  · obtain ⟨i, hi⟩ := h.kept a c ha
    exact ⟨i, (get _ _).2 hi⟩

/-- A new leaf. -/
theorem Slots.insert {cs : List (Option Nat)} {mem : List (Option Container)} {m : List Nat → Option Nat} {C : List Nat → Option Container}
    (h : Slots cs mem m C) {k : List Nat} (hk : IsKey k) (hm : m k = none) {i : Nat} (hi : cs[i]? = some none) (c : Container) :
    Slots (cs.set i (some mem.length)) (mem ++ [some c]) (updKey m k (some (i * 256 + typecode c))) (updKey C k (some c)) := by
  have hlt := slot_lt hi
  obtain ⟨d1, d2⟩ := leaf_index i (typecode_byte c)
  have get : ∀ j : Nat, (cs.set i (some mem.length))[j]? = if i = j then some (some mem.length) else cs[j]? := by
    intro j; rw [get_set]; simp [hlt]
  have old : ∀ x d, mem[x]? = some (some d) → (mem ++ [some c])[x]? = some (some d) ∧ x ≠ mem.length := by
    intro x d hx
    have := slot_lt hx
    exact ⟨by rw [List.getElem?_append_left this]; exact hx, by omega⟩
  have alloc : ∀ j a : Nat, cs[j]? = some (some a) → ∃ d, mem[a]? = some (some d) := by
    intro j a hj
    obtain ⟨k', l2, e1, e2, e3⟩ := h.used j a hj
    obtain ⟨b, d, f1, f2, _⟩ := h.found k' l2 e1 e2
    rw [e3, hj] at f1
    cases f1
    exact ⟨d, f2⟩
  have fresh : ∀ j : Nat, cs[j]? ≠ some (some mem.length) := by
    intro j hj
    obtain ⟨d, hd⟩ := alloc j _ hj
    exact (old _ d hd).2 rfl
  have slot : ∀ k' l2, IsKey k' → m k' = some l2 → i ≠ l2 / 256 := by
    intro k' l2 hk' e e2
    obtain ⟨b, d, f1, _⟩ := h.found k' l2 hk' e
    rw [← e2, hi] at f1; cases f1
  constructor
  · intro k' hk' e
    by_cases hne : k' = k
    · rw [hne, upd_same] at e; cases e
    · rw [upd_ne _ _ hne] at e ⊢; exact h.absent k' hk' e
  · intro k' l2 hk' e
    by_cases hne : k' = k
    · rw [hne, upd_same] at e
      cases e
      exact ⟨mem.length, c, by rw [get, d1, if_pos rfl], by simp, d2.symm, by rw [hne, upd_same]⟩
    · rw [upd_ne _ _ hne] at e
      obtain ⟨b, d, f1, f2, f3, f4⟩ := h.found k' l2 hk' e
      exact ⟨b, d, by rw [get, if_neg (slot k' l2 hk' e)]; exact f1, (old b d f2).1, f3, by rw [upd_ne _ _ hne]; exact f4⟩
  · intro k1 k2 l1 l2 hk1 hk2 e1 e2 e
    by_cases n1 : k1 = k
    · by_cases n2 : k2 = k
      · rw [n1, n2]
      · rw [n1, upd_same] at e1
        rw [upd_ne _ _ n2] at e2
        cases e1
        exact absurd (d1.symm.trans e) (slot k2 l2 hk2 e2)
    · by_cases n2 : k2 = k
      · rw [n2, upd_same] at e2
        rw [upd_ne _ _ n1] at e1
        cases e2
        exact absurd (d1.symm.trans e.symm) (slot k1 l1 hk1 e1)
      · rw [upd_ne _ _ n1] at e1
        rw [upd_ne _ _ n2] at e2
        exact h.inj _ _ _ _ hk1 hk2 e1 e2 e
  · intro j b hb
    rw [get] at hb
    by_cases hj : i = j
    · exact ⟨k, _, hk, upd_same _ _ _, d1.trans hj⟩
    · rw [if_neg hj] at hb
      obtain ⟨k', l2, e1, e2, e3⟩ := h.used j b hb
      refine ⟨k', l2, e1, ?_, e3⟩
      rw [upd_ne _ _ (fun e => ?_)]
      · exact e2
      · rw [e, hm] at e2; cases e2
  · intro x y b hx hy
    rw [get] at hx hy
    by_cases nx : i = x
    · by_cases ny : i = y
      · rw [← nx, ← ny]
      · rw [if_pos nx] at hx
        rw [if_neg ny] at hy
        cases hx
        exact absurd hy (fresh y)
    · by_cases ny : i = y
      · rw [if_neg nx] at hx
        rw [if_pos ny] at hy
        cases hy
        exact absurd hx (fresh x)
      · rw [if_neg nx] at hx
        rw [if_neg ny] at hy
        exact h.one _ _ _ hx hy
  · intro b d hb
    by_cases eb : b = mem.length
    · exact ⟨i, by rw [get, if_pos rfl, eb]⟩
    · have hb' : mem[b]? = some (some d) := by
        by_cases hl : b < mem.length
        · rw [List.getElem?_append_left hl] at hb; exact hb
        · rw [List.getElem?_eq_none (by simp; omega)] at hb; cases hb
      obtain ⟨j, hj⟩ := h.kept b d hb'
      refine ⟨j, ?_⟩
      rw [get, if_neg (fun e => ?_)]
      · exact hj
      · rw [← e, hi] at hj; cases hj

/-- A leaf and its container are gone. -/
theorem Slots.erase {cs : List (Option Nat)} {mem : List (Option Container)} {m : List Nat → Option Nat} {C : List Nat → Option Container}
    (h : Slots cs mem m C) {k : List Nat} (hk : IsKey k) {l a : Nat} (hm : m k = some l) (ha : cs[l / 256]? = some (some a)) :
    Slots (cs.set (l / 256) none) (mem.set a none) (updKey m k none) (updKey C k none) := by
  have hlt := slot_lt ha
  have get : ∀ j : Nat, (cs.set (l / 256) none)[j]? = if l / 256 = j then some none else cs[j]? := by
    intro j; rw [get_set]; simp [hlt]
  have slot : ∀ k' l2, IsKey k' → updKey m k none k' = some l2 → k' ≠ k ∧ m k' = some l2 ∧ l / 256 ≠ l2 / 256 := by
    intro k' l2 hk' e
    have hne : k' ≠ k := by rintro rfl; rw [upd_same] at e; cases e
    rw [upd_ne _ _ hne] at e
    exact ⟨hne, e, fun e2 => hne (h.inj k' k l2 l hk' hk e hm e2.symm)⟩
  have old : ∀ j b : Nat, (cs.set (l / 256) none)[j]? = some (some b) → l / 256 ≠ j ∧ cs[j]? = some (some b) := by
    intro j b hj
    rw [get] at hj
    by_cases e : l / 256 = j
    · rw [if_pos e] at hj; cases hj
    · rw [if_neg e] at hj; exact ⟨e, hj⟩
  constructor
  · intro k' hk' e
    by_cases hne : k' = k
    · rw [hne, upd_same]
    · rw [upd_ne _ _ hne] at e ⊢; exact h.absent k' hk' e
  · intro k' l2 hk' e
    obtain ⟨hne, e, ne⟩ := slot k' l2 hk' e
    obtain ⟨b, d, f1, f2, f3, f4⟩ := h.found k' l2 hk' e
    refine ⟨b, d, by rw [get, if_neg ne]; exact f1, ?_, f3, by rw [upd_ne _ _ hne]; exact f4⟩
    rw [List.getElem?_set_ne (fun e => ?_)]
    · exact f2
    · rw [← e] at f1; exact ne (h.one _ _ _ ha f1)
  · intro k1 k2 l1 l2 hk1 hk2 e1 e2 e
    exact h.inj _ _ _ _ hk1 hk2 (slot k1 l1 hk1 e1).2.1 (slot k2 l2 hk2 e2).2.1 e
  · intro j b hb
    obtain ⟨nj, hb⟩ := old j b hb
    obtain ⟨k', l2, e1, e2, e3⟩ := h.used j b hb
    refine ⟨k', l2, e1, ?_, e3⟩
    rw [upd_ne _ _ (fun e => ?_)]
    · exact e2
    · rw [e, hm] at e2; cases e2; exact nj e3
  · intro x y b hx hy
    exact h.one _ _ _ (old x b hx).2 (old y b hy).2
  · intro b d hb
    have na : b ≠ a := by
      rintro rfl
      have hlt : b < mem.length := by have := slot_lt hb; simpa using this
      rw [List.getElem?_set_self hlt] at hb; cases hb
    rw [List.getElem?_set_ne (Ne.symm na)] at hb
    obtain ⟨j, hj⟩ := h.kept b d hb
    refine ⟨j, ?_⟩
    rw [get, if_neg (fun e => ?_)]
    · exact hj
    · rw [← e, ha] at hj; cases hj; exact na rfl

/-- A container pointer moves to a place that is not in use. -/
theorem Slots.moveSlot {cs : List (Option Nat)} {mem : List (Option Container)} {m : List Nat → Option Nat} {C : List Nat → Option Container}
    (h : Slots cs mem m C) {k : List Nat} (hk : IsKey k) {l a f : Nat} (hm : m k = some l) (ha : cs[l / 256]? = some (some a))
    (hf : cs[f]? = some none) : Slots ((cs.set f (some a)).set (l / 256) none) mem (updKey m k (some (f * 256 + l % 256))) C := by
  have h1 := slot_lt ha
  have h2 := slot_lt hf
  have hne : l / 256 ≠ f := by intro e; rw [e, hf] at ha; cases ha
  obtain ⟨d1, d2⟩ := leaf_index f (Nat.mod_lt l (by decide : 0 < 256))
  have get : ∀ j : Nat, ((cs.set f (some a)).set (l / 256) none)[j]? = if l / 256 = j then some none else if f = j then some (some a) else cs[j]? := by
    intro j; rw [get_set, get_set]; simp [h1, h2]
  have slot : ∀ k' l2, IsKey k' → m k' = some l2 → f ≠ l2 / 256 := by
    intro k' l2 hk' e e2
    obtain ⟨b, d, f1, _⟩ := h.found k' l2 hk' e
    rw [← e2, hf] at f1; cases f1
  have other : ∀ k' l2, IsKey k' → k' ≠ k → m k' = some l2 → l / 256 ≠ l2 / 256 := fun k' l2 hk' n e e2 => n (h.inj k' k l2 l hk' hk e hm e2.symm)
  have old : ∀ j b : Nat, ((cs.set f (some a)).set (l / 256) none)[j]? = some (some b) → (j = f ∧ b = a) ∨ (j ≠ f ∧ l / 256 ≠ j ∧ cs[j]? = some (some b)) := by
    intro j b hj
    rw [get] at hj
    by_cases e : l / 256 = j
    · rw [if_pos e] at hj; cases hj
    · rw [if_neg e] at hj
      by_cases e2 : f = j
      · rw [if_pos e2] at hj; cases hj; exact Or.inl ⟨e2.symm, rfl⟩
      · rw [if_neg e2] at hj; exact Or.inr ⟨Ne.symm e2, e, hj⟩
  constructor
  · intro k' hk' e
    by_cases hn : k' = k
    · rw [hn, upd_same] at e; cases e
    · rw [upd_ne _ _ hn] at e; exact h.absent k' hk' e
  · intro k' l2 hk' e
    by_cases hn : k' = k
    · rw [hn, upd_same] at e
      cases e
      obtain ⟨b, d, f1, f2, f3, f4⟩ := h.found k l hk hm
      rw [ha] at f1
      cases f1
      exact ⟨a, d, by rw [get, d1, if_neg hne, if_pos rfl], f2, by rw [d2]; exact f3, by rw [hn]; exact f4⟩
    · rw [upd_ne _ _ hn] at e
      obtain ⟨b, d, f1, f2, f3, f4⟩ := h.found k' l2 hk' e
      exact ⟨b, d, by rw [get, if_neg (other k' l2 hk' hn e), if_neg (slot k' l2 hk' e)]; exact f1, f2, f3, f4⟩
  · intro k1 k2 l1 l2 hk1 hk2 e1 e2 e
    by_cases n1 : k1 = k
    · by_cases n2 : k2 = k
      · rw [n1, n2]
      · rw [n1, upd_same] at e1
        rw [upd_ne _ _ n2] at e2
        cases e1
        exact absurd (d1.symm.trans e) (slot k2 l2 hk2 e2)
    · by_cases n2 : k2 = k
      · rw [n2, upd_same] at e2
        rw [upd_ne _ _ n1] at e1
        cases e2
        exact absurd (d1.symm.trans e.symm) (slot k1 l1 hk1 e1)
      · rw [upd_ne _ _ n1] at e1
        rw [upd_ne _ _ n2] at e2
        exact h.inj _ _ _ _ hk1 hk2 e1 e2 e
  · intro j b hb
    rcases old j b hb with ⟨e1, e2⟩ | ⟨e1, e2, e3⟩
    · exact ⟨k, _, hk, upd_same _ _ _, d1.trans e1.symm⟩
    · obtain ⟨k', l2, g1, g2, g3⟩ := h.used j b e3
      refine ⟨k', l2, g1, ?_, g3⟩
      rw [upd_ne _ _ (fun e => ?_)]
      · exact g2
      · rw [e, hm] at g2; cases g2; exact e2 g3
  · intro x y b hx hy
    rcases old x b hx with ⟨e1, e2⟩ | ⟨e1, e2, e3⟩
    · rcases old y b hy with ⟨g1, g2⟩ | ⟨g1, g2, g3⟩
      · rw [e1, g1]
      · rw [e2] at g3; exact absurd (h.one _ _ _ ha g3) g2
    · rcases old y b hy with ⟨g1, g2⟩ | ⟨g1, g2, g3⟩
      · rw [g2] at e3; exact absurd (h.one _ _ _ ha e3) e2
      · exact h.one _ _ _ e3 g3
  · intro b d hb
    obtain ⟨j, hj⟩ := h.kept b d hb
    by_cases e : j = l / 256
    · rw [e, ha] at hj
      cases hj
      exact ⟨f, by rw [get, if_neg hne, if_pos rfl]⟩
    · refine ⟨j, ?_⟩
      rw [get, if_neg (Ne.symm e), if_neg (fun e => ?_)]
      · exact hj
      · rw [← e, hf] at hj; cases hj

theorem Slots.take {cs : List (Option Nat)} {mem : List (Option Container)} {m : List Nat → Option Nat} {C : List Nat → Option Container}
    (h : Slots cs mem m C) {n : Nat} (hn : ∀ i a, cs[i]? = some (some a) → i < n) : Slots (cs.take n) mem m C := by
  have get : ∀ j a : Nat, (cs.take n)[j]? = some (some a) ↔ cs[j]? = some (some a) := by
    intro j a
    rw [List.getElem?_take]
    constructor
    · intro hj; split at hj
      · exact hj
      · cases hj
    · intro hj; rw [if_pos (hn j a hj)]; exact hj
  refine ⟨h.absent, fun k l hk hm => ?_, h.inj, fun i a hi => h.used i a ((get i a).1 hi), fun i j a hi hj => h.one i j a ((get i a).1 hi) ((get j a).1 hj),
    fun a c ha => ?_⟩
  · obtain ⟨a, c, h1, h2⟩ := h.found k l hk hm
    exact ⟨a, c, (get _ _).2 h1, h2⟩
  · obtain ⟨i, hi⟩ := h.kept a c ha
    exact ⟨i, (get _ _).2 hi⟩

/-! ### The first place that is not in use -/

theorem slotNext_ok {r : R64M} {cs : List (Option Nat)} (hlen : cs.length = r.containers.length) (h : ∀ i, i ≤ r.first → cs[i]? ≠ some none)
    (h' : ∀ i, r.first < i → cs[i]? = r.containers[i]?) (hl : r.first < r.containers.length) : FirstFree cs r.nextFree := by
  unfold R64M.nextFree
  cases hf : (List.range' (r.first + 1) (r.containers.length - (r.first + 1))).find? (fun i => r.containers[i]? == some none) with
  | none =>
    rw [List.find?_eq_none] at hf
    refine ⟨by simp [hlen], fun i hi e => ?_, fun h => by simp [hlen] at h⟩
    simp only [Option.getD_none] at hi
    by_cases hc : i ≤ r.first
    · exact h i hc e
    · rw [h' i (by omega)] at e
      exact hf i (List.mem_range'_1.2 (by omega)) (by simp [e])
  | some j =>
    obtain ⟨h1, h2⟩ := List.find?_range'_eq_some.1 hf
    simp only [Option.getD_some]
    have hj := List.mem_range'_1.1 h2.1
    refine ⟨by omega, fun i hi e => ?_, fun _ => by rw [h' j (by omega)]; simpa using h1⟩
    by_cases hc : i ≤ r.first
    · exact h i hc e
    · have := h2.2 i (by omega) hi
      rw [h' i (by omega)] at e
      simp [e] at this

/-! ### States -/

/-- The bitmap in memory has the containers `C`; `m` is what the leaves of the radix tree say. -/
structure St (r : R64M) (L F : ArtRef → Prop) (m : List Nat → Option Nat) (C : List Nat → Option Container) : Prop where
  map : AMapF r.art L F m
  slots : Slots r.containers r.mem m C
  first : FirstFree r.containers r.first

theorem St.congr {r : R64M} {L F : ArtRef → Prop} {m : List Nat → Option Nat} {C D : List Nat → Option Container} (h : St r L F m C)
    (e : ∀ k, IsKey k → C k = D k) : St r L F m D := ⟨h.map, h.slots.congr e, h.first⟩

/-- The leaf `l` of the key `k`, at `p`, leads to the object `c` at `a`. -/
structure Leads (r : R64M) (L F : ArtRef → Prop) (m : List Nat → Option Nat) (C : List Nat → Option Container) (k : List Nat) (p : ArtPtr) (l a : Nat) (c : Container) :
    Prop where
  ptr : PtrTo r.art L F m k p
  leaf : m k = some l
  load : r.art.load p = .ok l
  slot : r.containers[l / 256]? = some (some a)
  obj : r.mem[a]? = some (some c)
  type : typecode c = l % 256
  here : C k = some c
  look : r.look p = .ok (l, a, c)

theorem St.at {r : R64M} {L F : ArtRef → Prop} {m : List Nat → Option Nat} {C : List Nat → Option Container} (h : St r L F m C) {k : List Nat} {p : ArtPtr}
    (hp : PtrTo r.art L F m k p) : ∃ l a c, Leads r L F m C k p l a c := by
  obtain ⟨l, h1, h2⟩ := hp.load
  obtain ⟨a, c, g1, g2, g3, g4⟩ := h.slots.found k l hp.key h1
  refine ⟨l, a, c, hp, h1, h2, g1, g2, g3, g4, ?_⟩
  simp only [R64M.look, h2, ok_bind, R64M.getContainer, leafIndex, g1, R64M.deref, g2, leafType, g3, if_true]

theorem St.find {r : R64M} {L F : ArtRef → Prop} {m : List Nat → Option Nat} {C : List Nat → Option Container} (h : St r L F m C) {k : List Nat} (hk : IsKey k) :
    (m k = none ∧ C k = none ∧ r.art.find k = .ok none) ∨ ∃ p l a c, r.art.find k = .ok (some p) ∧ Leads r L F m C k p l a c := by
  rcases h.map.find hk with ⟨h1, h2⟩ | ⟨p, hp⟩
  · exact Or.inl ⟨h1, h.slots.absent k hk h1, h2⟩
  · obtain ⟨l, a, c, hA⟩ := h.at hp
    exact Or.inr ⟨p, l, a, c, hp.find, hA⟩

theorem FirstFree.set_some {cs : List (Option Nat)} {f : Nat} (h : FirstFree cs f) {i a b : Nat} (hi : cs[i]? = some (some a)) : FirstFree (cs.set i (some b)) f := by
  have hlt := slot_lt hi
  refine ⟨by simpa using h.le, fun j hj e => ?_, fun hf => ?_⟩
  · rw [get_set] at e
    split at e
    · cases e
    · exact h.before j hj e
  · have := h.here (by simpa using hf)
    rw [get_set, if_neg]
    · exact this
    · rintro ⟨rfl, _⟩; rw [hi] at this; cases this

theorem setSlot_ok {r : R64M} {i : Nat} (h : i < r.containers.length) (a : Option Nat) : r.setSlot i a = .ok { r with containers := r.containers.set i a } := if_pos h

/-- The leaf is given the object at `a'`, after the memory has changed. -/
theorem St.replace {r : R64M} {L F : ArtRef → Prop} {m : List Nat → Option Nat} {C : List Nat → Option Container} (h : St r L F m C) {k : List Nat} {p : ArtPtr}
    {l a : Nat} {c : Container} (hA : Leads r L F m C k p l a c) {mem' : List (Option Container)} {a' : Nat} {c2 : Container}
    (h1 : mem'[a']? = some (some c2)) (h2 : ∀ x, x ≠ a → x ≠ a' → mem'[x]? = r.mem[x]?) (h3 : a' = a ∨ (mem'[a]? = some none ∧ r.mem[a']? = none)) :
    ∃ r' m', R64M.replaceContainer { r with mem := mem' } p a' (typecode c2) = .ok r' ∧ St r' L F m' (updKey C k (some c2)) ∧
      (∃ l', Leads r' L F m' (updKey C k (some c2)) k p l' a' c2) ∧ (∀ k' x, LeafOf r.art F k' x → LeafOf r'.art F k' x) ∧
      r'.art.heap.gen = r.art.heap.gen ∧ r'.art.root = r.art.root := by
  obtain ⟨b, s1, s2, s3, s4, s5, s6, s7⟩ := hA.ptr.store (createLeaf (leafIndex l) (typecode c2))
  obtain ⟨d1, d2⟩ := leaf_index (l / 256) (typecode_byte c2)
  have hst : St { r with mem := mem', containers := r.containers.set (l / 256) (some a'), art := b } L F
      (updKey m k (some (createLeaf (leafIndex l) (typecode c2)))) (updKey C k (some c2)) :=
    ⟨s2, h.slots.change hA.ptr.key hA.leaf hA.slot h1 h2 h3 d1 d2.symm, h.first.set_some hA.slot⟩
  have hp : PtrTo b L F (updKey m k (some (createLeaf (leafIndex l) (typecode c2)))) k p := by
    have := s2.ptr (s6 k p.ref hA.ptr.leaf)
    have e : b.heap.deref p.ref = p := by
      have := hA.ptr.ref
      unfold ArtHeap.deref at this ⊢
      rw [s3]; exact this.symm
    rw [e] at this
    exact this
  refine ⟨_, _, ?_, hst, ?_, s6, s3, s7⟩
  · have e : R64M.setSlot { r with mem := mem' } (leafIndex l) (some a') = .ok { r with mem := mem', containers := r.containers.set (l / 256) (some a') } :=
      setSlot_ok (r := { r with mem := mem' }) (slot_lt hA.slot) _
    simp only [R64M.replaceContainer, hA.load, ok_bind, e, s1]
  · obtain ⟨l', a2, c', hB⟩ := hst.at (p := p) hp
    have e1 : l' = createLeaf (leafIndex l) (typecode c2) := by
      have := hB.leaf; rw [upd_same] at this; cases this; rfl
    have e2 : a2 = a' := by
      have := hB.slot
      rw [e1] at this
      simp only [createLeaf, leafIndex, d1] at this
      rw [List.getElem?_set_self (slot_lt hA.slot)] at this
      cases this; rfl
    have e3 : c' = c2 := by
      have := hB.here; rw [upd_same] at this; cases this; rfl
    rw [e2, e3] at hB
    exact ⟨l', hB⟩

theorem St.change_ok {r : R64M} {L F : ArtRef → Prop} {m : List Nat → Option Nat} {C : List Nat → Option Container} (h : St r L F m C) {k : List Nat} {p : ArtPtr}
    {l a : Nat} {c : Container} (hA : Leads r L F m C k p l a c) (c2 : Container) :
    ∃ r' m' a' l', r.change p a c c2 = .ok (r', a') ∧ St r' L F m' (updKey C k (some c2)) ∧ Leads r' L F m' (updKey C k (some c2)) k p l' a' c2 := by
  have halt := slot_lt hA.obj
  unfold R64M.change
  by_cases ht : typecode c2 = typecode c
  · rw [if_pos ht]
    have hm : updKey m k (some l) = m := upd_eq hA.leaf
    have hc : r.containers.set (l / 256) (some a) = r.containers := by
      apply List.ext_getElem?
      intro i
      rw [get_set]
      split
      · next e => rw [← e.1, hA.slot]
      · rfl
    have hsl := h.slots.change (mem' := r.mem.set a (some c2)) (a' := a) hA.ptr.key hA.leaf hA.slot (List.getElem?_set_self halt)
      (fun x hx _ => List.getElem?_set_ne (Ne.symm hx)) (Or.inl rfl) rfl (c2 := c2) (by rw [ht, hA.type])
    rw [hm, hc] at hsl
    have hst : St (r.write a c2) L F m (updKey C k (some c2)) := ⟨h.map, hsl, h.first⟩
    obtain ⟨l', a2, c', hB⟩ := hst.at (p := p) hA.ptr
    have e1 : l' = l := by have := hB.leaf; rw [hA.leaf] at this; cases this; rfl
    have e2 : a2 = a := by
      have := hB.slot
      rw [e1] at this
      exact (Option.some.inj (Option.some.inj (this.symm.trans hA.slot)))
    have e3 : c' = c2 := by
      have := hB.here; rw [upd_same] at this; cases this; rfl
    rw [e2, e3] at hB
    exact ⟨_, m, a, l', rfl, hst, hB⟩
  · rw [if_neg ht]
    obtain ⟨r', m', g1, g2, ⟨l', g3⟩, _⟩ := h.replace hA (mem' := (r.mem ++ [some c2]).set a none) (a' := r.mem.length) (c2 := c2)
      (by rw [List.getElem?_set_ne (by omega)]; simp)
      (fun x hx hx' => by
        rw [List.getElem?_set_ne (Ne.symm hx)]
        by_cases hlt : x < r.mem.length
        · rw [List.getElem?_append_left hlt]
        · rw [List.getElem?_eq_none (by simp; omega), List.getElem?_eq_none (by omega)])
      (Or.inr ⟨List.getElem?_set_self (by simp; omega), List.getElem?_eq_none (by omega)⟩)
    refine ⟨r', m', r.mem.length, l', ?_, g2, g3⟩
    have hd : R64M.deref { r with mem := r.mem ++ [some c2] } a (typecode c) = .ok c := by
      simp only [R64M.deref]
      rw [List.getElem?_append_left halt, hA.obj]
      simp
    simp only [R64M.new, R64M.freeContainer, hd, ok_bind]
    rw [g1]
    rfl

end CRoaring
