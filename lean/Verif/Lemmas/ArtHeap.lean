import Verif.Lemmas.ArtHeapNode
import Verif.Lemmas.Serial
/-
The arrays of nodes: allocation, release, reads and writes, and the operations on one node.
-/
set_option linter.unusedSimpArgs false
set_option linter.unusedVariables false
namespace CRoaring
open Spec

section
variable {V : Type}

/-- The free list from `a`: the indices of `l` in this order, and then the capacity. -/
def Chain (H : ArtHeap V) (t : ArtTy) : Nat → List Nat → Prop
  | a, [] => a = (H.nodes t).length
  | a, x :: l => a = x ∧ ∃ next, H.get ⟨t, x⟩ = some (.free next) ∧ Chain H t next l

/-- The used places `U` exist, and for every type the free list goes once through all the others. -/
structure HOk (H : ArtHeap V) (U : ArtRef → Prop) : Prop where
  used : ∀ r, U r → r.idx < (H.nodes r.ty).length
  free : ∀ t, ∃ l : List Nat, l.Nodup ∧ (∀ i, i ∈ l ↔ i < (H.nodes t).length ∧ ¬ U ⟨t, i⟩) ∧ Chain H t (H.first t) l

/-- A pointer into the array as it is now. -/
def ArtPtr.valid (p : ArtPtr) (H : ArtHeap V) : Prop := p.gen = H.gen p.ref.ty

theorem updTy_same {β : Type} (f : ArtTy → β) (t : ArtTy) (x : β) : updTy f t x t = x := by simp [updTy]
theorem updTy_ne {β : Type} (f : ArtTy → β) {t u : ArtTy} (x : β) (h : u ≠ t) : updTy f t x u = f u := by simp [updTy, h]

theorem deref_valid (H : ArtHeap V) (r : ArtRef) : (H.deref r).valid H := rfl

theorem hok_empty : HOk (ArtHeap.empty : ArtHeap V) (fun _ => False) :=
  ⟨fun _ h => h.elim, fun t => ⟨[], List.nodup_nil, fun i => by simp [ArtHeap.empty], rfl⟩⟩

theorem HOk.congr {H : ArtHeap V} {U W : ArtRef → Prop} (h : HOk H U) (e : ∀ r, U r ↔ W r) : HOk H W := by
  refine ⟨fun r hr => h.used r ((e r).2 hr), fun t => ?_⟩
  obtain ⟨l, h1, h2, h3⟩ := h.free t
  exact ⟨l, h1, fun i => by rw [h2, e], h3⟩

theorem Chain.congr {H H' : ArtHeap V} {t : ArtTy} (hl : (H'.nodes t).length = (H.nodes t).length) :
    ∀ {l : List Nat} {a : Nat}, (∀ x ∈ l, H'.get ⟨t, x⟩ = H.get ⟨t, x⟩) → Chain H t a l → Chain H' t a l
  | [], a, _, h => by simpa [Chain, hl] using h
  | x :: l, a, hx, ⟨h1, n, h2, h3⟩ =>
    ⟨h1, n, by rw [hx x (List.mem_cons_self ..), h2], Chain.congr hl (fun y hy => hx y (List.mem_cons_of_mem _ hy)) h3⟩

/-! ### Reads and writes -/

theorem peek_ok {H : ArtHeap V} {p : ArtPtr} {s : ArtSlot V} (hp : p.valid H) (hs : H.get p.ref = some s) : H.peek p = .ok s := by
  unfold ArtHeap.peek
  rw [if_pos (show p.gen = H.gen p.ref.ty from hp), hs]

theorem peekLeaf_ok {H : ArtHeap V} {p : ArtPtr} {k : List Nat} {v : V} (hp : p.valid H) (hs : H.get p.ref = some (.leaf k v)) :
    H.peekLeaf p = .ok (k, v) := by
  unfold ArtHeap.peekLeaf
  rw [peek_ok hp hs]; rfl

theorem peekInner_ok {H : ArtHeap V} {p : ArtPtr} {pfx : List Nat} {n : Node ArtRef} (hp : p.valid H) (hs : H.get p.ref = some (.inner pfx n))
    (ht : n.ty = p.ref.ty) : H.peekInner p = .ok (pfx, n) := by
  unfold ArtHeap.peekInner
  rw [peek_ok hp hs]
  show (if n.ty = p.ref.ty then Out.ok (pfx, n) else .oob) = _
  rw [if_pos ht]

/-- What a write does. -/
structure Poked (H H' : ArtHeap V) (r : ArtRef) (s : ArtSlot V) : Prop where
  get : ∀ x, H'.get x = if x = r then some s else H.get x
  len : ∀ t, (H'.nodes t).length = (H.nodes t).length
  gen : H'.gen = H.gen
  first : H'.first = H.first

theorem poke_ok {H : ArtHeap V} {p : ArtPtr} (hp : p.valid H) (hb : p.ref.idx < (H.nodes p.ref.ty).length) (s : ArtSlot V) :
    ∃ H', H.poke p s = .ok H' ∧ Poked H H' p.ref s := by
  refine ⟨_, if_pos ⟨hp, hb⟩, ?_, ?_, rfl, rfl⟩
  · intro x
    unfold ArtHeap.get
    by_cases ht : x.ty = p.ref.ty
    · simp only [ht, updTy_same, List.getElem?_set]
      by_cases hi : p.ref.idx = x.idx
      · have : x = p.ref := by cases x; cases h : p.ref; simp_all
        have hb' : x.idx < (H.nodes p.ref.ty).length := hi ▸ hb
        simp [hi, this, hb']
      · have : x ≠ p.ref := fun e => hi (by rw [e])
        simp [hi, this]
    · have : x ≠ p.ref := fun e => ht (by rw [e])
      simp only [updTy_ne _ _ ht, this, if_false]
  · intro t
    by_cases ht : t = p.ref.ty
    · subst ht; simp [updTy_same]
    · simp [updTy_ne _ _ ht]

theorem Poked.hok {H H' : ArtHeap V} {r : ArtRef} {s : ArtSlot V} (hw : Poked H H' r s) {U : ArtRef → Prop} (h : HOk H U) (hr : U r) : HOk H' U := by
  refine ⟨fun x hx => by rw [hw.len]; exact h.used x hx, fun t => ?_⟩
  obtain ⟨l, h1, h2, h3⟩ := h.free t
  refine ⟨l, h1, fun i => by rw [hw.len, h2], ?_⟩
  rw [hw.first]
  refine Chain.congr (hw.len t) (fun x hx => ?_) h3
  rw [hw.get, if_neg]
  intro e
  exact ((h2 x).1 hx).2 (e ▸ hr)

theorem Poked.valid {H H' : ArtHeap V} {r : ArtRef} {s : ArtSlot V} (hw : Poked H H' r s) {p : ArtPtr} (h : p.valid H) : p.valid H' := by
  unfold ArtPtr.valid; rw [hw.gen]; exact h

theorem pokeInner_ok {H : ArtHeap V} {p : ArtPtr} (hp : p.valid H) (hb : p.ref.idx < (H.nodes p.ref.ty).length) {pfx : List Nat} (hl : pfx.length < 6)
    (n : Node ArtRef) : ∃ H', H.pokeInner p pfx n = .ok H' ∧ Poked H H' p.ref (.inner pfx n) := by
  unfold ArtHeap.pokeInner
  rw [if_pos (show pfx.length < KEY_BYTES from hl)]
  exact poke_ok hp hb _

/-! ### Allocation -/

theorem artNewCapacity_gt (c : Nat) : c < artNewCapacity c := by
  unfold artNewCapacity
  split
  · omega
  · split <;> omega

theorem chain_fresh {H : ArtHeap V} {t : ArtTy} {c c' : Nat} (hc : (H.nodes t).length = c')
    (hg : ∀ i, c ≤ i → i < c' → H.get ⟨t, i⟩ = some (.free (i + 1))) :
    ∀ m a, c ≤ a → a + m = c' → Chain H t a (List.range' a m)
  | 0, a, _, e => by simp only [List.range'_zero, Chain]; omega
  | m + 1, a, h, e => by
    rw [List.range'_succ]
    exact ⟨rfl, a + 1, hg a h (by omega), chain_fresh hc hg m (a + 1) (by omega) (by omega)⟩

theorem extend_nodes (H : ArtHeap V) (t : ArtTy) : (H.extend t).nodes t = H.nodes t ++
    (List.range' (H.nodes t).length (artNewCapacity (H.nodes t).length - (H.nodes t).length)).map (fun i => .free (i + 1)) := by
  simp [ArtHeap.extend, updTy_same]

theorem extend_ne (H : ArtHeap V) {t u : ArtTy} (h : u ≠ t) : (H.extend t).nodes u = H.nodes u := by
  simp [ArtHeap.extend, updTy_ne _ _ h]

theorem extend_len (H : ArtHeap V) (t : ArtTy) : ((H.extend t).nodes t).length = artNewCapacity (H.nodes t).length := by
  rw [extend_nodes]
  have := artNewCapacity_gt (H.nodes t).length
  simp only [List.length_append, List.length_map, List.length_range']; omega

theorem extend_get_old (H : ArtHeap V) (t : ArtTy) {r : ArtRef} (hr : r.idx < (H.nodes r.ty).length) : (H.extend t).get r = H.get r := by
  unfold ArtHeap.get
  by_cases h : r.ty = t
  · subst h
    rw [extend_nodes, List.getElem?_append_left hr]
  · rw [extend_ne H h]

theorem extend_get_new (H : ArtHeap V) (t : ArtTy) {i : Nat} (h1 : (H.nodes t).length ≤ i) (h2 : i < artNewCapacity (H.nodes t).length) :
    (H.extend t).get ⟨t, i⟩ = some (.free (i + 1)) := by
  unfold ArtHeap.get
  rw [extend_nodes, List.getElem?_append_right h1, List.getElem?_map, List.getElem?_range' (by omega)]
  simp only [Option.map_some, Nat.one_mul]
  congr 2; omega

/-- What the reservation of a place does. -/
structure Alloced (H H' : ArtHeap V) (U : ArtRef → Prop) (r : ArtRef) : Prop where
  new : ¬ U r
  hok : HOk H' (fun x => U x ∨ x = r)
  get : ∀ x, U x → H'.get x = H.get x
  gen : ∀ t, t ≠ r.ty → H'.gen t = H.gen t

theorem alloc_ok {H : ArtHeap V} {U : ArtRef → Prop} (h : HOk H U) (t : ArtTy) :
    ∃ H' i, H.alloc t = .ok (H', i) ∧ Alloced H H' U ⟨t, i⟩ := by
  obtain ⟨l, h1, h2, h3⟩ := h.free t
  unfold ArtHeap.alloc
  by_cases hf : H.first t = (H.nodes t).length
  · rw [if_pos hf]
    have hln : l = [] := by
      cases l with
      | nil => rfl
      | cons x l => exact absurd ((h2 x).1 (List.mem_cons_self ..)).1 (by rw [← h3.1, hf]; omega)
    have hgt := artNewCapacity_gt (H.nodes t).length
    refine ⟨_, _, rfl, ?_, ⟨?_, ?_⟩, ?_, ?_⟩
    · intro hu
      have := h.used _ hu
      simp only [hf] at this; omega
    · intro r hr
      show r.idx < ((H.extend t).nodes r.ty).length
      by_cases ht : r.ty = t
      · subst ht
        rw [extend_len]
        rcases hr with hr | hr
        · have := h.used r hr; omega
        · rw [hr]; simp only [hf]; omega
      · rw [extend_ne H ht]
        rcases hr with hr | hr
        · exact h.used r hr
        · exact absurd (by rw [hr]) ht
    · intro u
      by_cases hu : u = t
      · subst hu
        refine ⟨List.range' (H.first u + 1) (artNewCapacity (H.nodes u).length - (H.first u + 1)), List.nodup_range' .., ?_, ?_⟩
        · intro i
          show _ ↔ i < ((H.extend u).nodes u).length ∧ _
          rw [extend_len, List.mem_range'_1]
          constructor
          · intro hi
            refine ⟨by omega, fun hc => ?_⟩
            rcases hc with hc | hc
            · have := h.used _ hc; simp only at this; omega
            · have : i = H.first u := congrArg ArtRef.idx hc
              omega
          · intro ⟨hi, hc⟩
            have h4 : ¬ i < (H.nodes u).length := by
              intro hlt
              have := (h2 i).2 ⟨hlt, fun hc' => hc (Or.inl hc')⟩
              rw [hln] at this; exact absurd this (by simp)
            have h5 : i ≠ H.first u := fun e => hc (Or.inr (by rw [e]))
            omega
        · have := chain_fresh (H := { H.extend u with first := updTy H.first u (H.first u + 1) }) (t := u) (c := (H.nodes u).length)
            (c' := artNewCapacity (H.nodes u).length) (extend_len H u) (fun i hi1 hi2 => extend_get_new H u hi1 hi2)
            (artNewCapacity (H.nodes u).length - (H.first u + 1)) (H.first u + 1) (by omega) (by omega)
          simpa only [updTy_same] using this
      · obtain ⟨l', g1, g2, g3⟩ := h.free u
        refine ⟨l', g1, ?_, ?_⟩
        · intro i
          show _ ↔ i < ((H.extend t).nodes u).length ∧ _
          rw [extend_ne H hu, g2]
          have : ¬ (⟨u, i⟩ : ArtRef) = ⟨t, H.first t⟩ := fun e => hu (congrArg ArtRef.ty e)
          simp [this]
        · simp only [updTy_ne _ _ hu]
          refine Chain.congr (H := H) (by rw [extend_ne H hu]) (fun x hx => ?_) g3
          exact extend_get_old H t ((g2 x).1 hx).1
    · intro x hx
      exact extend_get_old H t (h.used x hx)
    · intro u hu
      simp [ArtHeap.extend, updTy_ne _ _ hu]
  · rw [if_neg hf]
    cases l with
    | nil => exact absurd h3 hf
    | cons x l =>
      obtain ⟨e1, next, e2, e3⟩ := h3
      rw [e1, e2]
      have hx := (h2 x).1 (List.mem_cons_self ..)
      refine ⟨_, _, rfl, hx.2, ⟨?_, ?_⟩, fun _ _ => rfl, fun _ _ => rfl⟩
      · intro r hr
        rcases hr with hr | hr
        · exact h.used r hr
        · rw [hr]; exact hx.1
      · intro u
        by_cases hu : u = t
        · subst hu
          refine ⟨l, (List.nodup_cons.1 h1).2, fun i => ?_, ?_⟩
          · have hxl := (List.nodup_cons.1 h1).1
            have := h2 i
            simp only [List.mem_cons] at this
            constructor
            · intro hi
              have := this.1 (Or.inr hi)
              refine ⟨this.1, fun hc => ?_⟩
              rcases hc with hc | hc
              · exact this.2 hc
              · have : i = x := congrArg ArtRef.idx hc
                exact hxl (this ▸ hi)
            · intro ⟨hi, hc⟩
              rcases this.2 ⟨hi, fun hc' => hc (Or.inl hc')⟩ with e | e
              · exact absurd (Or.inr (by rw [e])) hc
              · exact e
          · simp only [updTy_same]
            exact Chain.congr (H := H) (H' := { H with first := updTy H.first u next }) rfl (fun _ _ => rfl) e3
        · obtain ⟨l', g1, g2, g3⟩ := h.free u
          refine ⟨l', g1, ?_, ?_⟩
          · intro i
            have : ¬ (⟨u, i⟩ : ArtRef) = ⟨t, x⟩ := fun e => hu (congrArg ArtRef.ty e)
            rw [g2]; simp [this]
          · simp only [updTy_ne _ _ hu]
            exact Chain.congr (H := H) (H' := { H with first := updTy H.first t next }) rfl (fun _ _ => rfl) g3

theorem Alloced.used {H H' : ArtHeap V} {U : ArtRef → Prop} {r : ArtRef} (ha : Alloced H H' U r) : r.idx < (H'.nodes r.ty).length :=
  ha.hok.used r (Or.inr rfl)

theorem Alloced.valid {H H' : ArtHeap V} {U : ArtRef → Prop} {r : ArtRef} (ha : Alloced H H' U r) {p : ArtPtr} (hp : p.valid H) (ht : p.ref.ty ≠ r.ty) :
    p.valid H' := by
  unfold ArtPtr.valid; rw [ha.gen _ ht]; exact hp

/-- What the creation of a node does. -/
structure Created (H H' : ArtHeap V) (U : ArtRef → Prop) (r : ArtRef) (s : ArtSlot V) : Prop where
  new : ¬ U r
  hok : HOk H' (fun x => U x ∨ x = r)
  get : ∀ x, U x → H'.get x = H.get x
  here : H'.get r = some s
  gen : ∀ t, t ≠ r.ty → H'.gen t = H.gen t

theorem Alloced.created {H H' H'' : ArtHeap V} {U : ArtRef → Prop} {r : ArtRef} {s : ArtSlot V} (ha : Alloced H H' U r) (hw : Poked H' H'' r s) :
    Created H H'' U r s := by
  refine ⟨ha.new, hw.hok ha.hok (Or.inr rfl), fun x hx => ?_, by rw [hw.get, if_pos rfl], fun t ht => by rw [hw.gen, ha.gen t ht]⟩
  rw [hw.get, if_neg, ha.get x hx]
  rintro rfl
  exact ha.new hx

theorem createLeaf_ok {H : ArtHeap V} {U : ArtRef → Prop} (h : HOk H U) (key : List Nat) (val : V) :
    ∃ H' r, H.createLeaf key val = .ok (H', r) ∧ r.ty = .leaf ∧ Created H H' U r (.leaf key val) := by
  obtain ⟨H1, i, e1, ha⟩ := alloc_ok h .leaf
  obtain ⟨H2, e2, hw⟩ := poke_ok (deref_valid H1 ⟨.leaf, i⟩) ha.used (.leaf key val)
  refine ⟨H2, ⟨.leaf, i⟩, ?_, rfl, ha.created hw⟩
  unfold ArtHeap.createLeaf
  rw [e1, ok_bind]
  simp only
  rw [e2]; rfl

theorem createInner_ok {H : ArtHeap V} {U : ArtRef → Prop} (h : HOk H U) {pfx : List Nat} (hl : pfx.length < 6) (n : Node ArtRef) :
    ∃ H' p, H.createInner pfx n = .ok (H', p) ∧ p.ref.ty = n.ty ∧ p.valid H' ∧ Created H H' U p.ref (.inner pfx n) := by
  obtain ⟨H1, i, e1, ha⟩ := alloc_ok h n.ty
  obtain ⟨H2, e2, hw⟩ := pokeInner_ok (deref_valid H1 ⟨n.ty, i⟩) ha.used hl n
  refine ⟨H2, H1.deref ⟨n.ty, i⟩, ?_, rfl, hw.valid (deref_valid H1 _), ha.created hw⟩
  unfold ArtHeap.createInner
  rw [e1, ok_bind]
  simp only
  rw [e2]; rfl

/-! ### Release -/

/-- What the release of a node does. -/
structure Released (H H' : ArtHeap V) (U : ArtRef → Prop) (r : ArtRef) : Prop where
  hok : HOk H' (fun x => U x ∧ x ≠ r)
  get : ∀ x, x ≠ r → H'.get x = H.get x
  gen : H'.gen = H.gen

theorem release_ok {H : ArtHeap V} {U : ArtRef → Prop} (h : HOk H U) {p : ArtPtr} (hp : p.valid H) (hu : U p.ref) :
    ∃ H', H.release p = .ok H' ∧ Released H H' U p.ref := by
  obtain ⟨H1, e1, hw⟩ := poke_ok hp (h.used _ hu) (.free (H.first p.ref.ty))
  refine ⟨{ H1 with first := updTy H1.first p.ref.ty p.ref.idx }, ?_, ⟨?_, ?_⟩, ?_, hw.gen⟩
  · unfold ArtHeap.release; rw [e1]; rfl
  · intro r hr
    show r.idx < (H1.nodes r.ty).length
    rw [hw.len]; exact h.used r hr.1
  · intro t
    obtain ⟨l, h1, h2, h3⟩ := h.free t
    have hch : Chain H1 t (H.first t) l := by
      refine Chain.congr (hw.len t) (fun x hx => ?_) h3
      rw [hw.get, if_neg]
      intro e
      exact ((h2 x).1 hx).2 (e ▸ hu)
    by_cases ht : t = p.ref.ty
    · subst ht
      refine ⟨p.ref.idx :: l, List.nodup_cons.2 ⟨fun hm => ((h2 _).1 hm).2 hu, h1⟩, fun i => ?_, ?_⟩
      · show _ ↔ i < (H1.nodes _).length ∧ _
        rw [hw.len, List.mem_cons, h2]
        constructor
        · rintro (e | e)
          · subst e; exact ⟨h.used _ hu, fun hc => hc.2 rfl⟩
          · exact ⟨e.1, fun hc => e.2 hc.1⟩
        · intro ⟨e1, e2⟩
          by_cases hi : i = p.ref.idx
          · exact Or.inl hi
          · exact Or.inr ⟨e1, fun hc => e2 ⟨hc, fun e => hi (by rw [← e])⟩⟩
      · simp only [updTy_same]
        refine ⟨rfl, H.first p.ref.ty, ?_, Chain.congr (H := H1) (H' := { H1 with first := updTy H1.first p.ref.ty p.ref.idx }) rfl (fun _ _ => rfl) hch⟩
        show H1.get _ = _
        rw [hw.get, if_pos rfl]
    · refine ⟨l, h1, fun i => ?_, ?_⟩
      · show _ ↔ i < (H1.nodes _).length ∧ _
        rw [hw.len, h2]
        have : (⟨t, i⟩ : ArtRef) ≠ p.ref := fun e => ht (by rw [← e])
        simp [this]
      · simp only [updTy_ne _ _ ht, hw.first]
        exact Chain.congr (H := H1) (H' := { H1 with first := updTy H.first p.ref.ty p.ref.idx }) rfl (fun _ _ => rfl) hch
  · intro x hx
    show H1.get x = _
    rw [hw.get, if_neg hx]

/-! ### Insertion into and removal from one node -/

/-- A used inner node at `r`. -/
structure IsNode (H : ArtHeap V) (U : ArtRef → Prop) (r : ArtRef) (pfx : List Nat) (n : Node ArtRef) : Prop where
  used : U r
  get : H.get r = some (.inner pfx n)
  ty : n.ty = r.ty
  len : pfx.length < 6

/-- The node at `r` has become the node at `r'`; nothing else has changed. -/
structure Moved (H H' : ArtHeap V) (U : ArtRef → Prop) (r r' : ArtRef) (pfx : List Nat) (n : Node ArtRef) : Prop where
  ty : n.ty = r'.ty
  get : H'.get r' = some (.inner pfx n)
  fresh : r' = r ∨ ¬ U r'
  hok : HOk H' (fun x => (U x ∧ x ≠ r) ∨ x = r')
  other : ∀ x, U x → x ≠ r → H'.get x = H.get x

theorem Poked.moved {H H' : ArtHeap V} {U : ArtRef → Prop} {r : ArtRef} {pfx : List Nat} {n : Node ArtRef} (h : HOk H U) (hw : Poked H H' r (.inner pfx n))
    (hu : U r) (ht : n.ty = r.ty) : Moved H H' U r r pfx n := by
  refine ⟨ht, by rw [hw.get, if_pos rfl], Or.inl rfl, (hw.hok h hu).congr (fun x => ?_), fun x _ hx => by rw [hw.get, if_neg hx]⟩
  constructor
  · intro hx
    by_cases e : x = r
    · exact Or.inr e
    · exact Or.inl ⟨hx, e⟩
  · rintro (hx | rfl)
    · exact hx.1
    · exact hu

/-- A node is replaced by a new one of another type, which is written after the creation; the old one is released. -/
theorem replace_by_new {H : ArtHeap V} {U : ArtRef → Prop} (h : HOk H U) {p : ArtPtr} (hp : p.valid H) {pfx : List Nat} {n e m : Node ArtRef}
    (hn : IsNode H U p.ref pfx n) (he : e.ty ≠ n.ty) (hm : m.ty = e.ty) :
    ∃ H1 q H2 H3, H.createInner pfx e = .ok (H1, q) ∧ H1.peekInner p = .ok (pfx, n) ∧ H1.pokeInner q pfx m = .ok H2 ∧ H2.release p = .ok H3 ∧
      q.valid H3 ∧ Moved H H3 U p.ref q.ref pfx m := by
  obtain ⟨H1, q, e1, ht, hq, hc⟩ := createInner_ok h hn.len e
  have htn : p.ref.ty ≠ q.ref.ty := by rw [← hn.ty, ht]; exact he.symm
  have hv1 : p.valid H1 := by unfold ArtPtr.valid; rw [hc.gen _ htn]; exact hp
  have hne : p.ref ≠ q.ref := fun e => htn (by rw [e])
  obtain ⟨H2, e2, hw⟩ := pokeInner_ok hq (hc.hok.used _ (Or.inr rfl)) hn.len m
  obtain ⟨H3, e3, hr⟩ := release_ok (hw.hok hc.hok (Or.inr rfl)) (hw.valid hv1) (Or.inl hn.used)
  refine ⟨H1, q, H2, H3, e1, ?_, e2, e3, ?_, hm.trans ht.symm, ?_, Or.inr hc.new, hr.hok.congr (fun x => ?_), fun x hx hxr => ?_⟩
  · exact peekInner_ok hv1 (by rw [hc.get _ hn.used, hn.get]) hn.ty
  · unfold ArtPtr.valid; rw [hr.gen]; exact hw.valid hq
  · rw [hr.get _ hne.symm, hw.get, if_pos rfl]
  · constructor
    · rintro ⟨hx | hx, h2⟩
      · exact Or.inl ⟨hx, h2⟩
      · exact Or.inr hx
    · rintro (hx | rfl)
      · exact ⟨Or.inl hx.1, hx.2⟩
      · exact ⟨Or.inr rfl, hne.symm⟩
  · rw [hr.get x hxr, hw.get, if_neg, hc.get x hx]
    rintro rfl
    exact hc.new hx

theorem nodeInsert_ok {H : ArtHeap V} {U : ArtRef → Prop} (h : HOk H U) {p : ArtPtr} (hp : p.valid H) {pfx : List Nat} {n : Node ArtRef}
    (hn : IsNode H U p.ref pfx n) (child : ArtRef) (c : Nat) :
    ∃ H' r', H.nodeInsert p child c = .ok (H', r') ∧ Moved H H' U p.ref r' pfx (n.insert child c) := by
  unfold ArtHeap.nodeInsert
  rw [peekInner_ok hp hn.get hn.ty, ok_bind]
  simp only
  rw [insert_steps]
  by_cases hroom : n.room = true
  · rw [if_pos hroom, if_pos hroom]
    obtain ⟨H1, e1, hw⟩ := pokeInner_ok hp (h.used _ hn.used) hn.len (n.put child c)
    exact ⟨H1, p.ref, by rw [e1]; rfl, hw.moved h hn.used (by rw [put_ty]; exact hn.ty)⟩
  · rw [if_neg hroom, if_neg hroom]
    obtain ⟨H1, q, H2, H3, e1, e2, e3, e4, hq, hm⟩ := replace_by_new h hp hn (larger_ty (by simpa using hroom)) (grown_ty n)
    have hq3 : q.ref.idx < (H3.nodes q.ref.ty).length := hm.hok.used _ (Or.inr rfl)
    obtain ⟨H4, e5, hw⟩ := pokeInner_ok hq hq3 hn.len (n.grown.put child c)
    refine ⟨H4, q.ref, ?_, ?_, ?_, hm.fresh, hw.hok hm.hok (Or.inr rfl), ?_⟩
    · unfold ArtHeap.growInsert
      rw [e1, ok_bind]; simp only
      rw [e2, ok_bind]; simp only
      rw [e3, ok_bind, e4, ok_bind, peekInner_ok hq hm.get hm.ty, ok_bind]; simp only
      rw [e5]; rfl
    · rw [put_ty]; exact hm.ty
    · rw [hw.get, if_pos rfl]
    · intro x hx hxr
      rw [hw.get, if_neg, hm.other x hx hxr]
      rintro rfl
      rcases hm.fresh with h1 | h1
      · exact hxr h1
      · exact h1 hx

theorem bigErase_ok {H : ArtHeap V} {U : ArtRef → Prop} (h : HOk H U) {p : ArtPtr} (hp : p.valid H) {pfx : List Nat} {n : Node ArtRef}
    (hn : IsNode H U p.ref pfx n) (h4 : n.ty ≠ .n4) (c : Nat) :
    ∃ H' r', H.bigErase p pfx n c = .ok (H', r') ∧ Moved H H' U p.ref r' pfx (n.cut c) := by
  obtain ⟨H1, e1, hw⟩ := pokeInner_ok hp (h.used _ hn.used) hn.len (n.drop c)
  have hm1 := hw.moved h hn.used (by rw [drop_ty]; exact hn.ty)
  unfold ArtHeap.bigErase Node.cut
  rw [e1, ok_bind]
  by_cases hs : n.stays c = true
  · rw [if_pos hs, if_pos hs]
    exact ⟨H1, p.ref, rfl, hm1⟩
  · rw [if_neg hs, if_neg hs]
    have hn1 : IsNode H1 U p.ref pfx (n.drop c) := ⟨hn.used, hm1.get, hm1.ty, hn.len⟩
    obtain ⟨H1', q, H2, H3, e1', e2, e3, e4, hq, hm⟩ := replace_by_new (hw.hok h hn.used) (hw.valid hp) hn1
      (smaller_ty (by rw [drop_ty]; exact h4)) (shrunk_ty (n.drop c))
    refine ⟨H3, q.ref, ?_, hm.ty, hm.get, hm.fresh, hm.hok, fun x hx hxr => by rw [hm.other x hx hxr, hm1.other x hx hxr]⟩
    unfold ArtHeap.shrinkNode
    rw [e1', ok_bind]; simp only
    rw [e2, ok_bind]; simp only
    rw [e3, ok_bind, e4]; rfl

end
end CRoaring
