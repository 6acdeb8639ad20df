import Verif.Props.C30
import Verif.Props.C60
/-
C78, C79: the adaptive radix tree is an ordered map; validation of 64-bit bitmaps.
-/
namespace CRoaring.Props
open CRoaring

/-! ### The specification: maps from six-byte keys -/

/-- Six bytes. -/
def Key6 (k : List Nat) : Prop := k.length = 6 ∧ ∀ b ∈ k, b < 256

/-- A map from keys to values. -/
abbrev KMap (V : Type) := List Nat → Option V

def KMap.set {V : Type} (m : KMap V) (key : List Nat) (o : Option V) : KMap V := fun k => if k = key then o else m k

/-- Keys are ordered as numbers with the first byte most significant (that is, like `memcmp`). -/
def keyVal (k : List Nat) : Nat := k.foldl (fun a b => a * 256 + b) 0

/-- `o` is the least key of the map with the property, or `none` if no key has it. -/
def Least {V : Type} (m : KMap V) (P : Nat → Prop) : Option (List Nat) → Prop
  | none => ∀ k, m k ≠ none → ¬ P (keyVal k)
  | some k => m k ≠ none ∧ P (keyVal k) ∧ ∀ k', m k' ≠ none → P (keyVal k') → keyVal k ≤ keyVal k'

/-- `o` is the greatest key of the map with the property, or `none` if no key has it. -/
def Greatest {V : Type} (m : KMap V) (P : Nat → Prop) : Option (List Nat) → Prop
  | none => ∀ k, m k ≠ none → ¬ P (keyVal k)
  | some k => m k ≠ none ∧ P (keyVal k) ∧ ∀ k', m k' ≠ none → P (keyVal k') → keyVal k' ≤ keyVal k

/-- The states that calls can reach: a tree, the map it must stand for, and possibly an iterator with the key it must be
on (or `none`: it must be past an end).  A change of the tree that does not go through the iterator invalidates the
iterator.  Preconditions of the code: only absent keys are inserted, and `next`, `prev` and `erase` need an iterator
that is on a key.  `store` is a write through the pointer that a search returned. -/
inductive ArtState {V : Type} : Option (Art V) → KMap V → Option (ArtIt V × Option (List Nat)) → Prop
  | empty : ArtState none (fun _ => none) none
  | insert {r m c k} (v : V) : ArtState r m c → Key6 k → m k = none → ArtState (artInsert r k v) (m.set k (some v)) none
  | erase {r m c k} : ArtState r m c → Key6 k → ArtState (artErase r k).2 (m.set k none) none
  | store {r m c k} (v : V) : ArtState r m c → Key6 k → m k ≠ none → ArtState (artStore r k v) (m.set k (some v)) none
  | first {r m c o} : ArtState r m c → Least m (fun _ => True) o → ArtState r m (some (artInitIterator r true, o))
  | last {r m c o} : ArtState r m c → Greatest m (fun _ => True) o → ArtState r m (some (artInitIterator r false, o))
  | lowerBound {r m c o k} : ArtState r m c → Key6 k → Least m (fun x => keyVal k ≤ x) o → ArtState r m (some (artLowerBound r k, o))
  | upperBound {r m c o k} : ArtState r m c → Key6 k → Least m (fun x => keyVal k < x) o → ArtState r m (some (artUpperBound r k, o))
  | next {r m it k o} : ArtState r m (some (it, some k)) → Least m (fun x => keyVal k < x) o → ArtState r m (some (itNext r it, o))
  | prev {r m it k o} : ArtState r m (some (it, some k)) → Greatest m (fun x => x < keyVal k) o → ArtState r m (some (itPrev r it, o))
  | seek {r m it p k o} : ArtState r m (some (it, p)) → Key6 k → Least m (fun x => keyVal k ≤ x) o →
      ArtState r m (some (itLowerBound r it k, o))
  | itInsert {r m it p k} (v : V) : ArtState r m (some (it, p)) → Key6 k → m k = none →
      ArtState (itInsert r it k v).1 (m.set k (some v)) (some ((itInsert r it k v).2, some k))
  | itErase {r m it k o} : ArtState r m (some (it, some k)) → Least (m.set k none) (fun x => keyVal k < x) o →
      ArtState (itErase r it).2.1 (m.set k none) (some ((itErase r it).2.2, o))
  | itStore {r m it k} (v : V) : ArtState r m (some (it, some k)) →
      ArtState (artStore r k v) (m.set k (some v)) (some ({ it with value := some v }, some k))

/-! ### The proof -/

theorem key6_iff {k : List Nat} : Key6 k ↔ IsKey k := ⟨fun h => ⟨h.1, h.2⟩, fun h => ⟨h.len, h.byte⟩⟩

/-- The invariant. -/
def StateInv {V : Type} (r : Option (Art V)) (m : KMap V) (c : Option (ArtIt V × Option (List Nat))) : Prop :=
  (ArtOk r ∧ ∀ k v, RHas r k v ↔ m k = some v) ∧
  ∀ it o, c = some (it, o) → match o with
    | none => it.value = none
    | some k => it.key = k ∧ ∃ v, RAt r it v ∧ m k = some v

theorem mapKey {V : Type} {r : Option (Art V)} {m : KMap V} (h : ArtOk r ∧ ∀ k v, RHas r k v ↔ m k = some v) {k : List Nat} (hk : m k ≠ none) :
    IsKey k ∧ ∃ v, m k = some v := by
  obtain ⟨v, hv⟩ := Option.ne_none_iff_exists'.1 hk
  exact ⟨h.1.key ((h.2 k v).2 hv), v, hv⟩

theorem map_ne {V : Type} {r : Option (Art V)} {m : KMap V} (h : ArtOk r ∧ ∀ k v, RHas r k v ↔ m k = some v) {k : List Nat} {v : V}
    (hk : RHas r k v) : m k ≠ none := by rw [(h.2 k v).1 hk]; simp

theorem least_of {V : Type} {r : Option (Art V)} {m : KMap V} (h : ArtOk r ∧ ∀ k v, RHas r k v ↔ m k = some v)
    {P : Nat → Prop} {X : Nat} (hP : ∀ k, m k ≠ none → (P (keyVal k) ↔ X ≤ keyVal k)) {it : ArtIt V} (hf : RFirst r X it) {o} (ho : Least m P o) :
    StateInv r m (some (it, o)) := by
  refine ⟨h, fun it' o' e => ?_⟩
  cases e
  unfold RFirst at hf
  cases hv : it.value with
  | none =>
    rw [hv] at hf
    cases o with
    | none => rfl
    | some k =>
      obtain ⟨h1, h2, -⟩ := ho
      obtain ⟨hk, v, hv'⟩ := mapKey h h1
      have := hf k v ((h.2 k v).2 hv')
      have := (hP k h1).1 h2
      exact absurd this (by show ¬ X ≤ keyNum k; omega)
  | some w =>
    rw [hv] at hf
    obtain ⟨h1, h2, h3⟩ := hf
    have hh := h1.has h.1
    have hn := map_ne h hh
    cases o with
    | none => exact absurd ((hP _ hn).2 h2) (ho _ hn)
    | some k =>
      obtain ⟨g1, g2, g3⟩ := ho
      obtain ⟨hk, v, hv'⟩ := mapKey h g1
      have a1 := g3 _ hn ((hP _ hn).2 h2)
      have a2 := h3 k v ((h.2 k v).2 hv') ((hP k g1).1 g2)
      have e : it.key = k := key_inj (h.1.key hh) hk (Nat.le_antisymm a2 a1)
      refine ⟨e, w, h1, ?_⟩
      rw [← e]
      exact (h.2 _ _).1 hh

theorem greatest_of {V : Type} {r : Option (Art V)} {m : KMap V} (h : ArtOk r ∧ ∀ k v, RHas r k v ↔ m k = some v)
    {P : Nat → Prop} {X : Nat} (hP : ∀ k, m k ≠ none → (P (keyVal k) ↔ keyVal k < X)) {it : ArtIt V} (hf : RLast r X it) {o} (ho : Greatest m P o) :
    StateInv r m (some (it, o)) := by
  refine ⟨h, fun it' o' e => ?_⟩
  cases e
  unfold RLast at hf
  cases hv : it.value with
  | none =>
    rw [hv] at hf
    cases o with
    | none => rfl
    | some k =>
      obtain ⟨h1, h2, -⟩ := ho
      obtain ⟨hk, v, hv'⟩ := mapKey h h1
      have := hf k v ((h.2 k v).2 hv')
      have := (hP k h1).1 h2
      exact absurd this (by show ¬ keyNum k < X; omega)
  | some w =>
    rw [hv] at hf
    obtain ⟨h1, h2, h3⟩ := hf
    have hh := h1.has h.1
    have hn := map_ne h hh
    cases o with
    | none => exact absurd ((hP _ hn).2 h2) (ho _ hn)
    | some k =>
      obtain ⟨g1, g2, g3⟩ := ho
      obtain ⟨hk, v, hv'⟩ := mapKey h g1
      have a1 := g3 _ hn ((hP _ hn).2 h2)
      have a2 := h3 k v ((h.2 k v).2 hv') ((hP k g1).1 g2)
      have e : it.key = k := key_inj (h.1.key hh) hk (Nat.le_antisymm a1 a2)
      refine ⟨e, w, h1, ?_⟩
      rw [← e]
      exact (h.2 _ _).1 hh

theorem noIt {V : Type} {r : Option (Art V)} {m : KMap V} (h : ArtOk r ∧ ∀ k v, RHas r k v ↔ m k = some v) : StateInv r m none :=
  ⟨h, fun _ _ e => by cases e⟩

theorem inv_find {V : Type} {r : Option (Art V)} {m : KMap V} (h : ArtOk r ∧ ∀ k v, RHas r k v ↔ m k = some v) {k : List Nat} (hk : IsKey k) :
    artFind r k = m k := by
  cases hm : m k with
  | some v => exact (artFind_iff h.1 hk v).2 ((h.2 k v).2 hm)
  | none =>
    refine (artFind_none_iff h.1 hk).2 fun v hv => ?_
    rw [(h.2 k v).1 hv] at hm
    cases hm

theorem set_some {V : Type} (m : KMap V) (key : List Nat) (v : V) (k : List Nat) (w : V) :
    m.set key (some v) k = some w ↔ if k = key then w = v else m k = some w := by
  unfold KMap.set
  split
  · rw [Option.some.injEq, eq_comm]
  · rfl

theorem set_none {V : Type} (m : KMap V) (key k : List Nat) (w : V) : m.set key none k = some w ↔ k ≠ key ∧ m k = some w := by
  unfold KMap.set
  split
  · rename_i e; simp [e]
  · rename_i e; simp [e]

theorem insert_inv {V : Type} {r : Option (Art V)} {m : KMap V} (h : ArtOk r ∧ ∀ k v, RHas r k v ↔ m k = some v) {k : List Nat} (hk : IsKey k)
    (hn : m k = none) (v : V) : ArtOk (artInsert r k v) ∧ ∀ k' w, RHas (artInsert r k v) k' w ↔ m.set k (some v) k' = some w := by
  obtain ⟨h1, h2⟩ := artInsert_has h.1 hk (by rw [inv_find h hk, hn]) v
  refine ⟨h1, fun k' w => ?_⟩
  rw [h2, set_some, h.2]
  by_cases e : k' = k
  · subst e; simp [hn]
  · simp [e]

theorem store_inv {V : Type} {r : Option (Art V)} {m : KMap V} (h : ArtOk r ∧ ∀ k v, RHas r k v ↔ m k = some v) {k : List Nat} (hk : IsKey k)
    (hn : m k ≠ none) (v : V) : ArtOk (artStore r k v) ∧ ∀ k' w, RHas (artStore r k v) k' w ↔ m.set k (some v) k' = some w := by
  obtain ⟨-, w0, hw⟩ := mapKey h hn
  obtain ⟨h1, h2⟩ := artStore_has h.1 hk (by rw [inv_find h hk, hw]) v
  refine ⟨h1, fun k' w => ?_⟩
  rw [h2, set_some, h.2]

theorem artState_inv {V : Type} {r : Option (Art V)} {m : KMap V} {c} (h : ArtState r m c) : StateInv r m c := by
  induction h with
  | empty => exact noIt ⟨artOk_none, fun k v => ⟨fun h => absurd h rhas_none, fun h => by cases h⟩⟩
  | insert v _ hk hn ih => exact noIt (insert_inv ih.1 (key6_iff.1 hk) hn v)
  | erase _ hk ih =>
    obtain ⟨-, h1, h2⟩ := artErase_has ih.1.1 (key6_iff.1 hk)
    exact noIt ⟨h1, fun k' w => by rw [h2, set_none, ih.1.2]⟩
  | store v _ hk hn ih => exact noIt (store_inv ih.1 (key6_iff.1 hk) hn v)
  | first _ ho ih => exact least_of ih.1 (X := 0) (fun k _ => by simp) (artInit_first ih.1.1) ho
  | last _ ho ih =>
    exact greatest_of ih.1 (X := 256 ^ 6) (fun k hk => iff_of_true trivial (keyNum_lt_top (mapKey ih.1 hk).1)) (artInit_last ih.1.1) ho
  | lowerBound _ hk ho ih => exact least_of ih.1 (fun k _ => Iff.rfl) (artLowerBound_first ih.1.1 (key6_iff.1 hk)) ho
  | upperBound _ hk ho ih => exact least_of ih.1 (fun k _ => Iff.rfl) (artUpperBound_first ih.1.1 (key6_iff.1 hk)) ho
  | next _ ho ih =>
    obtain ⟨rfl, v, ha, -⟩ := ih.2 _ _ rfl
    exact least_of ih.1 (fun k _ => Iff.rfl) (itNext_first ih.1.1 ha) ho
  | prev _ ho ih =>
    obtain ⟨rfl, v, ha, -⟩ := ih.2 _ _ rfl
    exact greatest_of ih.1 (fun k _ => Iff.rfl) (itPrev_last ih.1.1 ha) ho
  | @seek r m it p k o _ hk ho ih =>
    have := ih.2 _ _ rfl
    refine least_of ih.1 (fun k _ => Iff.rfl) ?_ ho
    cases p with
    | none => exact itLowerBound_none ih.1.1 (key6_iff.1 hk) this
    | some p =>
      obtain ⟨-, v, ha, -⟩ := this
      exact itLowerBound_first ih.1.1 (key6_iff.1 hk) ha
  | @itInsert r m it p k v _ hk hn ih =>
    obtain ⟨h1, h2, h3⟩ := itInsert_spec ih.1.1 it (key6_iff.1 hk) (by rw [inv_find ih.1 (key6_iff.1 hk), hn]) v
    refine ⟨by rw [h1]; exact insert_inv ih.1 (key6_iff.1 hk) hn v, fun it' o' e => ?_⟩
    cases e
    exact ⟨h3, v, h2, by simp [KMap.set]⟩
  | @itErase r m it k o _ ho ih =>
    obtain ⟨rfl, v, ha, -⟩ := ih.2 _ _ rfl
    obtain ⟨h1, h2, h3, h4⟩ := itErase_spec ih.1.1 ha
    exact least_of ⟨h2, fun k' w => by rw [h3, set_none, ih.1.2]⟩ (fun k _ => Iff.rfl) h4 ho
  | @itStore r m it k v _ ih =>
    obtain ⟨rfl, w, ha, hm⟩ := ih.2 _ _ rfl
    obtain ⟨h1, h2, -⟩ := RAt.store ih.1.1 ha v
    refine ⟨store_inv ih.1 (ih.1.1.key (ha.has ih.1.1)) (by rw [hm]; simp) v, fun it' o' e => ?_⟩
    cases e
    exact ⟨rfl, v, h2, by simp [KMap.set]⟩

/-- **C78.** In every reachable state, the tree answers like the map, the iterator is where the ordered map says (with the
value of its key), and validation accepts the tree if all values pass the given test. -/
theorem C78_ordered_map {V : Type} {r : Option (Art V)} {m : KMap V} {c} (h : ArtState r m c) :
    (∀ k, Key6 k → artFind r k = m k ∧ (artErase r k).1 = m k) ∧
    (artIsEmpty r = true ↔ ∀ k, m k = none) ∧
    (∀ cb : V → Bool, artInternalValidate r cb = true ↔ ∀ k v, m k = some v → cb v = true) ∧
    ∀ it o, c = some (it, o) → it.value = o.bind m ∧ ∀ k, o = some k → it.key = k ∧ (itErase r it).1 = m k := by
  have hi := artState_inv h
  refine ⟨fun k hk => ?_, ?_, fun cb => ?_, fun it o e => ?_⟩
  · have hk := key6_iff.1 hk
    refine ⟨inv_find hi.1 hk, ?_⟩
    rw [(artErase_has hi.1.1 hk).1, inv_find hi.1 hk]
  · cases r with
    | none =>
      refine iff_of_true rfl fun k => ?_
      cases hm : m k with
      | none => rfl
      | some v => exact absurd ((hi.1.2 k v).2 hm) rhas_none
    | some t =>
      refine iff_of_false (by simp [artIsEmpty]) fun hh => ?_
      have hf := artInit_first hi.1.1
      unfold RFirst at hf
      obtain ⟨k, v, hk⟩ := Inv.nonempty (hi.1.1 t rfl)
      have := (hi.1.2 k v).1 (rhas_some.2 hk)
      rw [hh k] at this
      cases this
  · cases r with
    | none =>
      refine iff_of_true rfl fun k v hm => ?_
      exact absurd ((hi.1.2 k v).2 hm) rhas_none
    | some t =>
      have hv := artValidateAt_iff cb 7 t [] (hi.1.1 t rfl).typed (by simp [Bytes]) (by simp) (by simp)
      show artValidateAt cb 7 (some t) [] = true ↔ _
      rw [hv]
      constructor
      · intro h1 k v hm
        exact h1.2 k v (rhas_some.1 ((hi.1.2 k v).2 hm))
      · intro h1
        exact ⟨hi.1.1 t rfl, fun k v hk => h1 k v ((hi.1.2 k v).1 (rhas_some.2 hk))⟩
  · have := hi.2 it o e
    cases o with
    | none => exact ⟨this, fun k e => by cases e⟩
    | some k =>
      obtain ⟨h1, v, h2, h3⟩ := this
      refine ⟨by rw [h2.value]; exact h3.symm, fun k' e => ?_⟩
      cases e
      refine ⟨h1, ?_⟩
      rw [(itErase_spec hi.1.1 h2).1, h3]

/-! ### A concrete history: three keys, an erasure through the iterator -/

example : ∃ (r : Option (Art Nat)) (m : KMap Nat) (it : ArtIt Nat), ArtState r m (some (it, some [0, 0, 0, 1, 0, 0])) ∧
    m [0, 0, 0, 0, 0, 7] = none ∧ m [0, 0, 0, 1, 0, 0] = some 30 ∧ m [9, 0, 0, 0, 0, 0] = some 10 := by
  have h0 := ArtState.empty (V := Nat)
  have h1 := h0.insert (k := [9, 0, 0, 0, 0, 0]) 10 (by simp [Key6]) rfl
  have h2 := h1.insert (k := [0, 0, 0, 0, 0, 7]) 20 (by simp [Key6]) (by simp [KMap.set])
  have h3 := h2.insert (k := [0, 0, 0, 1, 0, 0]) 30 (by simp [Key6]) (by simp [KMap.set])
  have h4 := h3.first (o := some [0, 0, 0, 0, 0, 7]) (by
    refine ⟨by simp [KMap.set], trivial, fun k' hk _ => ?_⟩
    simp only [KMap.set] at hk
    split at hk
    · subst_vars; simp [keyVal]
    · split at hk
      · subst_vars; simp [keyVal]
      · split at hk
        · subst_vars; simp [keyVal]
        · exact absurd rfl hk)
  have h5 := h4.itErase (o := some [0, 0, 0, 1, 0, 0]) (by
    refine ⟨by simp [KMap.set], by simp [keyVal], fun k' hk hlt => ?_⟩
    simp only [KMap.set] at hk
    split at hk
    · exact absurd rfl hk
    · split at hk
      · subst_vars; simp [keyVal]
      · split at hk
        · subst_vars; simp [keyVal]
        · exact absurd rfl hk)
  exact ⟨_, _, _, h5, by simp [KMap.set], by simp [KMap.set], by simp [KMap.set]⟩

/-! ### C79: validation -/

/-- `t` is the child of the node under the byte `b`. -/
def Child {α : Type} : Node α → Nat → α → Prop
  | .n4 ks, b, t => (b, t) ∈ ks
  | .n16 ks, b, t => (b, t) ∈ ks
  | .n48 n, b, t => b < 256 ∧ n.keys.getD b 48 ≠ 48 ∧ n.children.getD (n.keys.getD b 48) none = some t
  | .n256 n, b, t => n.children.getD b none = some t

/-- A well-formed node.  Small nodes: two to four, or five to sixteen, children, their bytes strictly increasing.  A
node48: an entry for every byte, which is the empty mark 48 or points into the 48 slots; different bytes use different
slots; a slot in use has a child; the available slots are exactly those not in use; the count is the number of entries
in use, 17 or more.  A node256: the count is the number of children, 49 or more. -/
def WellFormedNode {α : Type} : Node α → Prop
  | .n4 ks => 2 ≤ ks.length ∧ ks.length ≤ 4 ∧ (ks.map (·.1)).Pairwise (· < ·) ∧ ∀ p ∈ ks, p.1 < 256
  | .n16 ks => 5 ≤ ks.length ∧ ks.length ≤ 16 ∧ (ks.map (·.1)).Pairwise (· < ·) ∧ ∀ p ∈ ks, p.1 < 256
  | .n48 n => n.keys.length = 256 ∧ n.children.length = 48 ∧
      (∀ b, b < 256 → n.keys.getD b 48 ≤ 48) ∧
      (∀ a b, a < 256 → b < 256 → n.keys.getD a 48 ≠ 48 → n.keys.getD a 48 = n.keys.getD b 48 → a = b) ∧
      (∀ b, b < 256 → n.keys.getD b 48 ≠ 48 → n.children.getD (n.keys.getD b 48) none ≠ none) ∧
      (∀ s, n.avail.getLsbD s = true ↔ s < 48 ∧ ∀ b, b < 256 → n.keys.getD b 48 ≠ s) ∧
      Spec.card 256 (fun b => decide (n.keys.getD b 48 ≠ 48)) = n.count ∧ 17 ≤ n.count
  | .n256 n => n.children.length = 256 ∧ Spec.card 256 (fun b => (n.children.getD b none).isSome) = n.count ∧ 49 ≤ n.count

/-- A well-formed tree below the key bytes `path`: the keys of leaves have six bytes and start with the path to them,
inner nodes are well formed and leave at least one byte for their children, and all values satisfy `Q`. -/
inductive WellFormedTree {V : Type} (Q : V → Prop) : List Nat → Art V → Prop
  | leaf {path k : List Nat} {v : V} : Key6 k → path <+: k → Q v → WellFormedTree Q path (.leaf k v)
  | inner {path pfx : List Nat} {n : Node (Art V)} : WellFormedNode n → path.length + pfx.length < 6 → (∀ b ∈ pfx, b < 256) →
      (∀ b t, Child n b t → WellFormedTree Q (path ++ pfx ++ [b]) t) → WellFormedTree Q path (.inner pfx n)

/-- A well-formed 64-bit bitmap: empty, or a well-formed tree of well-formed containers. -/
def WellFormed64 (r : R64) : Prop := ∀ t, r = some t → WellFormedTree WellFormedC [] t

theorem pairwise_keys {α : Type} (ks : List (Nat × α)) : (ks.map (·.1)).Pairwise (· < ·) ↔ ks.Pairwise (fun p q => p.1 < q.1) :=
  List.pairwise_map

theorem wellFormedNode_iff {α : Type} (n : Node α) : WellFormedNode n ↔ KOk n := by
  cases n with
  | n4 ks =>
    simp only [WellFormedNode, KOk, pairwise_keys]
    exact ⟨fun ⟨a, b, c, d⟩ => ⟨⟨c, d⟩, a, b⟩, fun ⟨⟨c, d⟩, a, b⟩ => ⟨a, b, c, d⟩⟩
  | n16 ks =>
    simp only [WellFormedNode, KOk, pairwise_keys]
    exact ⟨fun ⟨a, b, c, d⟩ => ⟨⟨c, d⟩, a, b⟩, fun ⟨⟨c, d⟩, a, b⟩ => ⟨a, b, c, d⟩⟩
  | n256 n =>
    exact ⟨fun ⟨a, b, c⟩ => ⟨⟨a, b⟩, c⟩, fun ⟨⟨a, b⟩, c⟩ => ⟨a, b, c⟩⟩
  | n48 n =>
    have hd : ∀ b, n.keys.getD b 48 = n.K b := fun _ => rfl
    simp only [WellFormedNode, KOk, hd]
    have hcard : Spec.card 256 (fun b => decide (n.K b ≠ 48)) = Spec.card 256 (fun i => n.K i != 48) :=
      card_congr fun i _ => by by_cases h : n.K i = 48 <;> simp [h]
    rw [hcard]
    constructor
    · rintro ⟨hkl, hcl, hk, hinj, hch, hav, hcnt, h17⟩
      have hge : ∀ i, n.K i ≠ 48 → i < 256 := fun i hi => by
        rcases Nat.lt_or_ge i 256 with hl | hg
        · exact hl
        · exfalso; apply hi; simp only [N48.K]; exact getD_ge _ (by rw [hkl]; exact hg)
      have ht : NTyped (.n48 n) := by
        refine ⟨hkl, hcl, fun k hm => ?_, ?_⟩
        · obtain ⟨i, hi, rfl⟩ := List.mem_iff_getElem.1 hm
          have := hk i (by omega)
          simpa [N48.K, List.getD, List.getElem?_eq_getElem hi] using this
        · rw [filter_getD_card n.keys _ NODE48_EMPTY, hkl]; exact hcnt
      refine ⟨?_, h17⟩
      rw [← check48_iff ht, used48_eq]
      have hK : ∀ i, n.K i ≤ 48 := fun i => by
        by_cases h : n.K i = 48
        · omega
        · exact hk i (hge i h)
      obtain ⟨g1, g2⟩ := used48_go n hK 256
      obtain ⟨used, hu⟩ := g2 (fun i j hi hj => hinj i j hi hj) (fun i hi h => Option.isSome_iff_ne_none.2 (hch i hi h))
      refine ⟨used, hu, ?_⟩
      have hU := g1 used hu
      apply BitVec.eq_of_getLsbD_eq
      intro s hs
      rw [BitVec.getLsbD_xor, mask48_bit]
      have h1 := hU.bit s
      have h2 := hav s
      by_cases h48 : s < 48
      · by_cases hex : ∃ i, i < 256 ∧ n.K i = s ∧ s ≠ 48
        · rw [h1.2 hex]
          have : n.avail.getLsbD s = false := by
            rw [Bool.eq_false_iff]; intro e
            obtain ⟨i, hi, hi2, -⟩ := hex
            exact (h2.1 e).2 i hi hi2
          rw [this]; simp [h48]
        · have e1 : used.getLsbD s = false := by rw [Bool.eq_false_iff]; exact fun e => hex (h1.1 e)
          rw [e1, h2.2 ⟨h48, fun b hb e => hex ⟨b, hb, e, by omega⟩⟩]; simp [h48]
      · have e1 : used.getLsbD s = false := by
          rw [Bool.eq_false_iff]; intro e
          obtain ⟨i, hi, hi2, hi3⟩ := h1.1 e
          have := hK i; omega
        have e2 : n.avail.getLsbD s = false := by rw [Bool.eq_false_iff]; exact fun e => h48 (h2.1 e).1
        rw [e1, e2]; simp [h48]
    · rintro ⟨h, h17⟩
      refine ⟨h.kl, h.cl, fun b _ => h.kb b, fun a b _ _ => h.inj a b, fun b _ hb => Option.isSome_iff_ne_none.1 (h.ch b hb), fun s => ?_,
        h.cnt, h17⟩
      have ht := h.typed
      obtain ⟨used, hu, he⟩ := (check48_iff ht).2 h
      rw [used48_eq] at hu
      have hU := (used48_go n h.kb 256).1 used hu
      have h1 := hU.bit s
      rw [he, BitVec.getLsbD_xor, mask48_bit] at h1
      by_cases h48 : s < 48
      · have h1' : (!n.avail.getLsbD s) = true ↔ ∃ i, i < 256 ∧ n.K i = s ∧ s ≠ 48 := by simpa [h48] using h1
        constructor
        · intro e
          refine ⟨h48, fun b hb eb => ?_⟩
          have := h1'.2 ⟨b, hb, eb, by omega⟩
          rw [e] at this; cases this
        · rintro ⟨-, h2⟩
          cases ha : n.avail.getLsbD s with
          | true => rfl
          | false =>
            obtain ⟨i, hi, hi2, -⟩ := h1'.1 (by rw [ha]; rfl)
            exact absurd hi2 (h2 i hi)
      · rw [h.hi s (by omega)]
        constructor
        · intro e; cases e
        · intro e; exact absurd e.1 h48

theorem child_iff {α : Type} {n : Node α} (h : KOk n) (b : Nat) (t : α) : Child n b t ↔ n.find b = some t := by
  cases n with
  | n4 ks => exact (findKs_eq_some h.1).symm
  | n16 ks => exact (findKs_eq_some h.1).symm
  | n256 n => exact Iff.rfl
  | n48 n =>
    show (b < 256 ∧ n.K b ≠ 48 ∧ n.children.getD (n.K b) none = some t) ↔ n.find b = some t
    rw [W48.find_eq]
    constructor
    · rintro ⟨h1, h2, h3⟩; rw [if_pos h2]; exact h3
    · intro h1
      split at h1
      · rename_i h2; exact ⟨h.1.K_lt h2, h2, h1⟩
      · cases h1

theorem wellFormedTree_iff {V : Type} {Q : V → Prop} {path : List Nat} {t : Art V} :
    WellFormedTree Q path t ↔ Inv path t ∧ ∀ k v, Has t k v → Q v := by
  constructor
  · intro h
    induction h with
    | leaf hk hp hq => exact ⟨.leaf (key6_iff.1 hk) hp, fun k v hv => by obtain ⟨-, rfl⟩ := has_leaf.1 hv; exact hq⟩
    | inner hn hl hb hc ih =>
      have hn := (wellFormedNode_iff _).1 hn
      refine ⟨.inner hn hl hb fun c t hf => (ih c t ((child_iff hn c t).2 hf)).1, fun k v hv => ?_⟩
      obtain ⟨c, t, hf, hv⟩ := has_inner.1 hv
      exact (ih c t ((child_iff hn c t).2 hf)).2 k v hv
  · rintro ⟨h, hq⟩
    induction h with
    | leaf hk hp => exact .leaf (key6_iff.2 hk) hp (hq _ _ (.leaf _ _))
    | inner hn hl hb hc ih =>
      refine .inner ((wellFormedNode_iff _).2 hn) hl hb fun b t hf => ?_
      have hf := (child_iff hn b t).1 hf
      exact ih b t hf fun k v hv => hq k v (.inner hf hv)

theorem wellFormed64_iff {r : R64} : WellFormed64 r ↔ R64Inv r := by
  constructor
  · intro h
    refine ⟨fun t e => (wellFormedTree_iff.1 (h t e)).1, ?_⟩
    rintro k c ⟨t, e, hh⟩
    exact (wellFormedC_iff c).1 ((wellFormedTree_iff.1 (h t e)).2 k c hh)
  · intro h t e
    exact wellFormedTree_iff.2 ⟨h.1 t e, fun k c hh => (wellFormedC_iff c).2 (h.2 k c ⟨t, e, hh⟩)⟩

/-- **C79 (partial).** Validation accepts every well-formed bitmap.  Among the bitmaps in memory whose fields have the
declared C types and sizes, and whose node48 counts are right, it accepts only well-formed ones.  (Missing: the code
does not compare the count of a node48 with its children, see `C79_validate_false`.) -/
theorem C79_validate_partial (r : R64) :
    (WellFormed64 r → r64InternalValidate r = true) ∧ (Typed64 r → r64InternalValidate r = true → WellFormed64 r) :=
  ⟨fun h => (wellFormed64_iff.1 h).valid.2, fun ht hv => wellFormed64_iff.2 (valid64_iff.1 ⟨ht, hv⟩)⟩

/-- A node48 with 18 children, its count field set to `count`. -/
def exBad48 (count : Nat) : R64 :=
  some (.inner [0, 0, 0, 0, 0] (.n48 ⟨count, NODE48_MASK ^^^ 0x3FFFF#64, (List.range 256).map (fun b => if b < 18 then b else 48),
    (List.range 48).map (fun s => if s < 18 then some (.leaf [0, 0, 0, 0, 0, s] (.array [5])) else none)⟩))

/-- The full claim is false: a bitmap in which a node48 with 18 children has the count 17 is accepted. -/
theorem C79_validate_false : ∃ r : R64, r64InternalValidate r = true ∧ ¬ WellFormed64 r := by
  refine ⟨exBad48 17, by decide +kernel, fun h => ?_⟩
  have h1 := h _ rfl
  cases h1 with
  | inner hn _ _ _ =>
    obtain ⟨-, -, -, -, -, -, hc, -⟩ := hn
    revert hc
    decide +kernel

/-- With the right count the same tree is well formed: additions build it. -/
example : WellFormed64 (exBad48 18) := by
  have e : exBad48 18 = ((List.range 18).map (fun s => s * 65536 + 5)).foldl r64Add none := by
    set_option maxRecDepth 100000 in rfl
  rw [e]
  have : ∀ (l : List Nat) (r : R64), Valid64 r → (∀ v ∈ l, v < TOP64) → Valid64 (l.foldl r64Add r) := by
    intro l
    induction l with
    | nil => intro r h _; exact h
    | cons v l ih =>
      intro r h hl
      exact ih _ ((C53_add h (hl v (by simp))).1) fun w hw => hl w (by simp [hw])
  refine wellFormed64_iff.2 (this _ none C53_create.1 ?_).inv
  decide

end CRoaring.Props
