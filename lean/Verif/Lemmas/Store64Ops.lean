import Verif.Model.Store64Ops
import Verif.Lemmas.Store64b
import Verif.Lemmas.ArtHeapIter2
/-
One step of the set operations of 64-bit bitmaps in memory.
-/
set_option linter.unusedSimpArgs false
set_option linter.unusedVariables false
namespace CRoaring
open Spec

/-! ### The radix tree as a map -/

theorem find_store {V : Type} {root : Option (Art V)} (h : ArtOk root) {k : List Nat} (hk : IsKey k) {v : V} (hv : artFind root k = some v) (w : V) :
    ∀ k', IsKey k' → updKey (artFind root) k (some w) k' = artFind (artStore root k w) k' := by
  intro k' hk'
  obtain ⟨j1, j2⟩ := artStore_has h hk hv w
  refine (find_eq (root' := root) j1 hk' (fun v => ?_)).symm
  rw [j2, ← artFind_iff h hk']
  unfold updKey
  by_cases e : k' = k <;> simp [e, eq_comm]

theorem find_insert {V : Type} {root : Option (Art V)} (h : ArtOk root) {k : List Nat} (hk : IsKey k) (hc : artFind root k = none) (w : V) :
    ∀ k', IsKey k' → updKey (artFind root) k (some w) k' = artFind (artInsert root k w) k' := by
  intro k' hk'
  obtain ⟨j1, j2⟩ := artInsert_has h hk hc w
  refine (find_eq (root' := root) j1 hk' (fun v => ?_)).symm
  rw [j2, ← artFind_iff h hk']
  unfold updKey
  by_cases e : k' = k
  · subst e; rw [hc]; simp [eq_comm]
  · simp [e]

theorem find_erase {V : Type} {root : Option (Art V)} (h : ArtOk root) {k : List Nat} (hk : IsKey k) :
    ∀ k', IsKey k' → updKey (artFind root) k none k' = artFind (artErase root k).2 k' := by
  intro k' hk'
  obtain ⟨_, j1, j2⟩ := artErase_has h hk
  refine (find_eq (root' := root) j1 hk' (fun v => ?_)).symm
  rw [j2, ← artFind_iff h hk']
  unfold updKey
  by_cases e : k' = k <;> simp [e]

theorem Slots.congrM {cs : List (Option Nat)} {mem : List (Option Container)} {m m' : List Nat → Option Nat} {C : List Nat → Option Container}
    (h : Slots cs mem m C) (e : ∀ k, IsKey k → m k = m' k) : Slots cs mem m' C :=
  ⟨fun k hk hm => h.absent k hk (by rw [e k hk]; exact hm),
   fun k l hk hm => h.found k l hk (by rw [e k hk]; exact hm),
   fun k k' l l' hk hk' hm hm' => h.inj k k' l l' hk hk' (by rw [e k hk]; exact hm) (by rw [e k' hk']; exact hm'),
   fun i a hi => by obtain ⟨k, l, h1, h2, h3⟩ := h.used i a hi; exact ⟨k, l, h1, by rw [← e k h1]; exact h2, h3⟩,
   h.one, h.kept⟩

theorem Slots.pad {cs : List (Option Nat)} {mem : List (Option Container)} {m : List Nat → Option Nat} {C : List Nat → Option Container}
    (h : Slots cs mem m C) : Slots cs (mem ++ [none]) m C := by
  refine ⟨h.absent, fun k l hk hm => ?_, h.inj, h.used, h.one, fun a c ha => ?_⟩
  · obtain ⟨a, c, h1, h2, h3⟩ := h.found k l hk hm
    exact ⟨a, c, h1, by rw [List.getElem?_append_left (slot_lt h2)]; exact h2, h3⟩
  · by_cases hl : a < mem.length
    · rw [List.getElem?_append_left hl] at ha; exact h.kept a c ha
    · rw [List.getElem?_append_right (by omega)] at ha
      cases e : a - mem.length with
      | zero => rw [e] at ha; cases ha
      | succ n => rw [e] at ha; cases ha

/-! ### Where an iterator stands -/

/-- The first key at or after `X`. -/
def From (C : List Nat → Option Container) (X : Nat) : Option (List Nat) → Prop
  | none => ∀ k, IsKey k → C k ≠ none → keyNum k < X
  | some k => IsKey k ∧ C k ≠ none ∧ X ≤ keyNum k ∧ ∀ k', IsKey k' → C k' ≠ none → X ≤ keyNum k' → keyNum k ≤ keyNum k'

/-- A bitmap with containers `C`, and an iterator at the key `o`. -/
structure CS (r : R64M) (L : ArtRef → Prop) (C : List Nat → Option Container) (B : Prop) (it : HIt) (o : Option (List Nat)) (root : Option (Art Nat)) : Prop where
  rep : ARep r.art L root
  ok : ArtOk root
  slots : Slots r.containers r.mem (artFind root) C
  first : FirstFree r.containers r.first
  cur : ∃ e, HAtO r.art root B it e ∧ e.map Prod.fst = o

def Cs (r : R64M) (L : ArtRef → Prop) (C : List Nat → Option Container) (B : Prop) (it : HIt) (o : Option (List Nat)) : Prop := ∃ root, CS r L C B it o root

theorem slots_none {cs : List (Option Nat)} {mem : List (Option Container)} {m : List Nat → Option Nat} {C : List Nat → Option Container}
    (h : Slots cs mem m C) {k : List Nat} (hk : IsKey k) : C k = none ↔ m k = none := by
  constructor
  · intro hc
    cases hm : m k with
    | none => rfl
    | some l =>
      obtain ⟨a, c, _, _, _, h4⟩ := h.found k l hk hm
      rw [hc] at h4; cases h4
  · exact h.absent k hk

theorem from_first {cs : List (Option Nat)} {mem : List (Option Container)} {root : Option (Art Nat)} {C : List Nat → Option Container}
    (h : Slots cs mem (artFind root) C) (ho : ArtOk root) {X : Nat} {e : Option (List Nat × Nat)} (hf : FirstO root X e) : From C X (e.map Prod.fst) := by
  have has : ∀ k, IsKey k → C k ≠ none → ∃ v, RHas root k v := by
    intro k hk hc
    rw [Ne, slots_none h hk] at hc
    obtain ⟨v, hv⟩ := Option.ne_none_iff_exists'.1 hc
    exact ⟨v, (artFind_iff ho hk v).1 hv⟩
  cases e with
  | none =>
    intro k hk hc
    obtain ⟨v, hv⟩ := has k hk hc
    exact hf k v hv
  | some e =>
    obtain ⟨h1, h2, h3⟩ := hf
    have hk := ho.key h1
    refine ⟨hk, ?_, h2, fun k' hk' hc' hx => ?_⟩
    · rw [Ne, slots_none h hk, (artFind_iff ho hk _).2 h1]; simp
    · obtain ⟨v, hv⟩ := has k' hk' hc'
      exact h3 k' v hv hx

theorem CS.st {r : R64M} {L : ArtRef → Prop} {C : List Nat → Option Container} {B : Prop} {it : HIt} {o : Option (List Nat)} {root : Option (Art Nat)}
    (h : CS r L C B it o root) : ∃ F, St r L F (artFind root) C := by
  obtain ⟨F, hF⟩ := h.rep.repF
  exact ⟨F, ⟨root, hF, h.ok, fun _ _ => rfl⟩, h.slots, h.first⟩

theorem Cs.st {r : R64M} {L : ArtRef → Prop} {C : List Nat → Option Container} {B : Prop} {it : HIt} {o : Option (List Nat)}
    (h : Cs r L C B it o) : ∃ F m, St r L F m C := by
  obtain ⟨root, h⟩ := h
  obtain ⟨F, h⟩ := h.st
  exact ⟨F, _, h⟩

theorem Cs.weaken {r : R64M} {L : ArtRef → Prop} {C : List Nat → Option Container} {B B' : Prop} {it : HIt} {o : Option (List Nat)}
    (h : Cs r L C B it o) (hb : B' → B) : Cs r L C B' it o := by
  obtain ⟨root, h1, h2, h3, h4, e, h5, h6⟩ := h
  exact ⟨root, h1, h2, h3, h4, e, h5.imp hb, h6⟩

theorem Cs.congr {r : R64M} {L : ArtRef → Prop} {C D : List Nat → Option Container} {B : Prop} {it : HIt} {o : Option (List Nat)}
    (h : Cs r L C B it o) (hc : ∀ k, IsKey k → C k = D k) : Cs r L D B it o := by
  obtain ⟨root, h1, h2, h3, h4, h5⟩ := h
  exact ⟨root, h1, h2, h3.congr hc, h4, h5⟩

/-- The iterator at the start. -/
theorem St.start {r : R64M} {L F : ArtRef → Prop} {m : List Nat → Option Nat} {C : List Nat → Option Container} (h : St r L F m C) :
    ∃ it o, r.art.initIterator true = .ok it ∧ Cs r L C True it o ∧ From C 0 o := by
  obtain ⟨⟨root, h1, h2, h3⟩, h4, h5⟩ := h
  have hs := h4.congrM (m' := artFind root) (fun k hk => (h3 k hk).symm)
  obtain ⟨hit, e, g1, g2, g3, -⟩ := it_init h1.rep h2 true
  exact ⟨hit, _, g1, ⟨root, h1.rep, h2, hs, h5, e, g2, rfl⟩, from_first hs h2 (g3 rfl)⟩

/-- What the iterator shows. -/
theorem CS.see {r : R64M} {L : ArtRef → Prop} {C : List Nat → Option Container} {B : Prop} {it : HIt} {k : List Nat} {root : Option (Art Nat)}
    (h : CS r L C B it (some k) root) : ∃ p l a c F, it.value = some p ∧ it.key = k ∧ HCur r.art root it k l ∧ St r L F (artFind root) C ∧
      Leads r L F (artFind root) C k p l a c := by
  obtain ⟨F, hst⟩ := h.st
  obtain ⟨e, h1, h2⟩ := h.cur
  cases e with
  | none => cases h2
  | some e =>
    obtain ⟨k1, v⟩ := e
    have h2 : k1 = k := Option.some.inj h2
    rw [h2] at h1
    have h1 : HCur r.art root it k v := h1
    obtain ⟨s, g1, g2, g3, g4⟩ := h1.see
    obtain ⟨F, hF⟩ := h.rep.repF
    have hst : St r L F (artFind root) C := ⟨⟨root, hF, h.ok, fun _ _ => rfl⟩, h.slots, h.first⟩
    have hFs : F s := by
      obtain ⟨r0, t, it0, s0, j, path, o1, o2, o3, o4, o5, o6, o7, o8, o9, o10, o11⟩ := h1.open
      rw [o2] at hF
      obtain ⟨r1, q1, q2, q3, q4⟩ := hF
      rw [o1] at q1
      cases q1
      obtain ⟨p1, p2, p3, p4, p5, p6⟩ := o3.reach q2 (h.ok t o2)
      have := p6 s0 p5.root
      rw [o11] at g1
      have e : s0 = s := by
        have := congrArg ArtPtr.ref (Option.some.inj g1)
        exact this
      exact e ▸ this
    have hp := hst.map.ptr (k := k) (x := s) ⟨hFs, v, g2⟩
    obtain ⟨l, a, c, hA⟩ := hst.at hp
    have : l = v := by
      have e1 := hA.load
      rw [load_ok g2] at e1
      cases e1; rfl
    subst this
    exact ⟨_, l, a, c, F, g1, g3, h1, hst, hA⟩

theorem Cs.key {r : R64M} {L : ArtRef → Prop} {C : List Nat → Option Container} {B : Prop} {it : HIt} {k : List Nat}
    (h : Cs r L C B it (some k)) : IsKey k ∧ ∃ p l a c, it.value = some p ∧ it.key = k ∧ C k = some c ∧ r.look p = .ok (l, a, c) := by
  obtain ⟨root, h⟩ := h
  obtain ⟨p, l, a, c, F, h1, h2, h3, h4, h5⟩ := h.see
  exact ⟨h5.ptr.key, p, l, a, c, h1, h2, h5.here, h5.look⟩

theorem Cs.ended {r : R64M} {L : ArtRef → Prop} {C : List Nat → Option Container} {B : Prop} {it : HIt}
    (h : Cs r L C B it none) : it.value = none := by
  obtain ⟨root, h1, h2, h3, h4, e, h5, h6⟩ := h
  cases e with
  | none => exact h5.1
  | some e => cases h6

theorem Cs.len {r : R64M} {L : ArtRef → Prop} {C : List Nat → Option Container} {B : Prop} {it : HIt} {o : Option (List Nat)}
    (h : Cs r L C B it o) : it.frames.length = 7 := by
  obtain ⟨root, h1, h2, h3, h4, e, h5, h6⟩ := h
  cases e with
  | none => exact h5.2.1
  | some e =>
    obtain ⟨r0, t, it0, s0, j, path, o1, o2, o3, o4, -⟩ := HCur.open h5
    exact o4.len

theorem Cs.next {r : R64M} {L : ArtRef → Prop} {C : List Nat → Option Container} {B : Prop} {it : HIt} {k : List Nat}
    (h : Cs r L C B it (some k)) : ∃ it' o, r.art.itNext it = .ok it' ∧ Cs r L C True it' o ∧ From C (keyNum k + 1) o := by
  obtain ⟨root, h⟩ := h
  obtain ⟨p, l, a, c, F, h1, h2, h3, h4, h5⟩ := h.see
  obtain ⟨it', e, g1, g2, g3⟩ := it_next h.rep h.ok h3
  exact ⟨it', _, g1, ⟨root, h.rep, h.ok, h.slots, h.first, e, g2, rfl⟩, from_first h.slots h.ok g3⟩

theorem Cs.seek {r : R64M} {L : ArtRef → Prop} {C : List Nat → Option Container} {it : HIt} {o : Option (List Nat)}
    (h : Cs r L C True it o) {k : List Nat} (hk : IsKey k) :
    ∃ it' o, r.art.itLowerBound it k = .ok it' ∧ Cs r L C True it' o ∧ From C (keyNum k) o := by
  obtain ⟨root, h1, h2, h3, h4, e, h5, h6⟩ := h
  obtain ⟨it', e, g1, g2, g3⟩ := it_seek h1 h2 hk h5
  exact ⟨it', _, g1, ⟨root, h1, h2, h3, h4, e, g2, rfl⟩, from_first h3 h2 g3⟩

/-! ### Changes -/

/-- The leaf gets another object, or the same with another content. -/
theorem CS.change {r : R64M} {L F : ArtRef → Prop} {C : List Nat → Option Container} {it : HIt} {k : List Nat} {root : Option (Art Nat)} {p : ArtPtr} {l a : Nat}
    {c : Container} (hrep : ARep r.art L root) (hok : ArtOk root) (hst : St r L F (artFind root) C) (hc : HCur r.art root it k l) (hp : it.value = some p)
    (hA : Leads r L F (artFind root) C k p l a c) (c2 : Container) (keep : Bool) :
    ∃ r1 r', (r.computed a c c2 keep).1.freeOld (r.computed a c c2 keep).2 a (leafType l) = .ok r1 ∧
      (if (r.computed a c c2 keep).2 = a then .ok r1 else r1.replaceContainer p (r.computed a c c2 keep).2 (typecode c2)) = .ok r' ∧
      Cs r' L (updKey C k (some c2)) True it (some k) := by
  have halt := slot_lt hA.obj
  have hk := hA.ptr.key
  unfold R64M.computed
  by_cases hkeep : keep = true ∧ typecode c2 = typecode c
  · simp only [if_pos hkeep, R64M.freeOld, if_true]
    refine ⟨_, _, rfl, rfl, root, hrep, hok, ?_, hst.first, some (k, l), hc, rfl⟩
    have hm : updKey (artFind root) k (some l) = artFind root := upd_eq hA.leaf
    have hcs : r.containers.set (l / 256) (some a) = r.containers := by
      apply List.ext_getElem?
      intro i
      rw [get_set]
      split
      · next e => rw [← e.1, hA.slot]
      · rfl
    have hsl := hst.slots.change (mem' := r.mem.set a (some c2)) (a' := a) hk hA.leaf hA.slot (List.getElem?_set_self halt)
      (fun x hx _ => List.getElem?_set_ne (Ne.symm hx)) (Or.inl rfl) rfl (c2 := c2) (by rw [hkeep.2, hA.type])
    rw [hm, hcs] at hsl
    exact hsl
  · have hne : r.mem.length ≠ a := by omega
    simp only [if_neg hkeep, R64M.new, R64M.freeOld, if_neg hne]
    have hd : R64M.freeContainer { r with mem := r.mem ++ [some c2] } a (leafType l) = .ok { r with mem := (r.mem ++ [some c2]).set a none } := by
      simp only [R64M.freeContainer, R64M.deref, leafType]
      rw [List.getElem?_append_left halt, hA.obj]
      simp only [hA.type, if_true, ok_bind]
    obtain ⟨p', b, s0, s1, s2, s3⟩ := it_store hrep hok hc (createLeaf (leafIndex l) (typecode c2))
    rw [hp] at s0
    cases s0
    obtain ⟨d1, d2⟩ := leaf_index (l / 256) (typecode_byte c2)
    obtain ⟨j1, -⟩ := artStore_has hok hk hA.leaf (createLeaf (leafIndex l) (typecode c2))
    refine ⟨_, { art := b, containers := r.containers.set (l / 256) (some r.mem.length), first := r.first, mem := (r.mem ++ [some c2]).set a none }, hd, ?_,
      artStore root k (createLeaf (leafIndex l) (typecode c2)), s2, j1, ?_, hst.first.set_some hA.slot, some (k, _), s3, rfl⟩
    · have e : R64M.setSlot { r with mem := (r.mem ++ [some c2]).set a none } (leafIndex l) (some r.mem.length) =
          .ok { r with mem := (r.mem ++ [some c2]).set a none, containers := r.containers.set (l / 256) (some r.mem.length) } :=
        setSlot_ok (r := { r with mem := (r.mem ++ [some c2]).set a none }) (slot_lt hA.slot) _
      simp only [R64M.replaceContainer, hA.load, ok_bind, e, s1]
    · refine Slots.congrM ?_ (find_store hok hk hA.leaf _)
      refine hst.slots.change hk hA.leaf hA.slot ?_ ?_ ?_ d1 d2.symm
      · rw [List.getElem?_set_ne (by omega)]; simp
      · intro x hx hx'
        rw [List.getElem?_set_ne (Ne.symm hx)]
        by_cases hlt : x < r.mem.length
        · rw [List.getElem?_append_left hlt]
        · rw [List.getElem?_eq_none (by simp; omega), List.getElem?_eq_none (by omega)]
      · exact Or.inr ⟨List.getElem?_set_self (by simp; omega), List.getElem?_eq_none (by omega)⟩

theorem From.skip {C : List Nat → Option Container} {k : List Nat} (hk : IsKey k) {o : Option (List Nat)} (h : From C (keyNum k) o) (hc : C k = none) :
    From C (keyNum k + 1) o := by
  cases o with
  | none => exact fun k' hk' hc' => Nat.lt_succ_of_lt (h k' hk' hc')
  | some k1 =>
    obtain ⟨h1, h2, h3, h4⟩ := h
    refine ⟨h1, h2, ?_, fun k' hk' hc' hx => h4 k' hk' hc' (by omega)⟩
    rcases Nat.lt_or_ge (keyNum k) (keyNum k1) with hlt | hge
    · exact hlt
    · have := key_inj h1 hk (by omega)
      rw [this] at h2
      exact absurd hc h2

/-- The tree after a leaf was erased through the iterator. -/
theorem erase_tree {r : R64M} {L F : ArtRef → Prop} {C : List Nat → Option Container} {it : HIt} {k : List Nat} {root : Option (Art Nat)} {p : ArtPtr} {l a : Nat}
    {c : Container} (hrep : ARep r.art L root) (hok : ArtOk root) (hst : St r L F (artFind root) C) (hc : HCur r.art root it k l) (hp : it.value = some p)
    (hA : Leads r L F (artFind root) C k p l a c) :
    ∃ b it' o, r.art.itErase it = .ok (some l, b, it') ∧ r.art.loadFreed b p = .ok l ∧
      ∀ mem, mem = r.mem.set a none ∨ mem = r.mem.set a none ++ [none] → Cs ⟨b, r.containers.set (l / 256) none, if leafIndex l < r.first then leafIndex l else r.first, mem⟩ L (updKey C k none)
        False it' o ∧ From (updKey C k none) (keyNum k + 1) o := by
  have hk := hA.ptr.key
  obtain ⟨b, it', e, g1, g2, g3, g4⟩ := it_erase hrep hok hc
  have her : r.art.erase k = .ok (b, some l) := by
    rcases it_erase_core hrep hok hc with ⟨a', h1, h2, h3, h4⟩ | ⟨a', hit1, r', h1, h2, h3, h4, h5⟩
    · rw [g1] at h3; cases h3; exact h1
    · rw [g1] at h5
      unfold ArtT.afterItErase at h5
      rw [h2] at h5
      simp only at h5
      obtain ⟨z, z1, z2⟩ := out_bind h5.symm
      obtain ⟨y, y1, y2⟩ := out_bind z1
      cases y2
      cases z2
      exact h1
  obtain ⟨-, j1, -⟩ := artErase_has hok hk
  have hl : r.art.loadFreed b p = .ok l := (loadFreed_ok hA.ptr.find her).trans hA.load
  refine ⟨b, it', e.map Prod.fst, g1, hl, fun mem hmem => ?_⟩
  have hs : Slots (r.containers.set (l / 256) none) mem (artFind (artErase root k).2) (updKey C k none) := by
    have hs := (hst.slots.erase hk hA.leaf hA.slot).congrM (find_erase hok hk)
    rcases hmem with rfl | rfl
    · exact hs
    · exact hs.pad
  exact ⟨⟨(artErase root k).2, g2, j1, hs, hst.first.remove hA.slot, e, g3.imp (fun f => f.elim), rfl⟩, (from_first hs j1 g4).skip hk (upd_same _ _ _)⟩

/-- What `combine` puts at a key. -/
def nz (c : Container) : Option Container := if containerNonzero c = true then some c else none

theorem Cs.combine {r1 r2 : R64M} {L1 L2 : ArtRef → Prop} {C1 C2 : List Nat → Option Container} {B1 B2 : Prop} {it1 it2 : HIt} {k : List Nat}
    (h1 : Cs r1 L1 C1 B1 it1 (some k)) (h2 : Cs r2 L2 C2 B2 it2 (some k)) (f : Container → Container → Container) (keep : Bool) :
    ∃ p1 p2 c1 c2 r' it' o, it1.value = some p1 ∧ it2.value = some p2 ∧ C1 k = some c1 ∧ C2 k = some c2 ∧
      r1.combine f keep r2 it1 p1 p2 = .ok (r', it') ∧ Cs r' L1 (updKey C1 k (nz (f c1 c2))) False it' o ∧
      From (updKey C1 k (nz (f c1 c2))) (keyNum k + 1) o := by
  obtain ⟨-, p2, l2, a2, c2, e1, -, e3, e4⟩ := h2.key
  obtain ⟨root, h⟩ := h1
  obtain ⟨p, l, a, c, F, g1, g2, g3, g4, g5⟩ := h.see
  have hk := g5.ptr.key
  obtain ⟨ra, rb, q1, q2, q3⟩ := CS.change h.rep h.ok g4 g3 g1 g5 (f c c2) keep
  unfold R64M.combine
  cases hz : containerNonzero (f c c2) with
  | true =>
    obtain ⟨it', o, n1, n2, n3⟩ := q3.next
    have hn : nz (f c c2) = some (f c c2) := if_pos hz
    refine ⟨p, p2, c, c2, rb, it', o, g1, e1, g5.here, e3, ?_, by rw [hn]; exact n2.weaken (fun _ => trivial), by rw [hn]; exact n3⟩
    simp only [g5.look, e4, ok_bind, q1, hz, Bool.true_eq_false, if_false]
    split at q2
    · next e => cases q2; rw [if_pos e, n1]; rfl
    · next e => rw [if_neg e, q2, ok_bind, n1]; rfl
  | false =>
    obtain ⟨b, it', o, t1, t2, t3⟩ := erase_tree h.rep h.ok g4 g3 g1 g5
    have hn : nz (f c c2) = none := if_neg (by rw [hz]; decide)
    have halt := slot_lt g5.obj
    have hdrop : ∀ mem, R64M.itDrop { r1 with mem := mem } it1 p =
        .ok (⟨b, r1.containers.set (l / 256) none, if leafIndex l < r1.first then leafIndex l else r1.first, mem⟩, it') := by
      intro mem
      have hs : R64M.setSlot { art := b, containers := r1.containers, first := r1.first, mem := mem } (leafIndex l) none =
          .ok { art := b, containers := r1.containers.set (l / 256) none, first := r1.first, mem := mem } :=
        setSlot_ok (r := { art := b, containers := r1.containers, first := r1.first, mem := mem }) (slot_lt g5.slot) none
      simp only [R64M.itDrop, t1, ok_bind, t2, R64M.removeContainer, hs]
    by_cases hkeep : keep = true ∧ typecode (f c c2) = typecode c
    · obtain ⟨s1, s2⟩ := t3 _ (Or.inl rfl)
      refine ⟨p, p2, c, c2, _, it', o, g1, e1, g5.here, e3, ?_, by rw [hn]; exact s1, by rw [hn]; exact s2⟩
      have hfr : R64M.freeContainer (r1.write a (f c c2)) a (typecode (f c c2)) = .ok { r1 with mem := r1.mem.set a none } := by
        simp only [R64M.freeContainer, R64M.deref, R64M.write]
        rw [List.getElem?_set_self halt]
        simp [ok_bind]
      simp only [g5.look, e4, ok_bind, R64M.computed, if_pos hkeep, R64M.freeOld, if_true, hz, hfr, hdrop]
    · have hne : r1.mem.length ≠ a := by omega
      have hd : R64M.freeContainer { r1 with mem := r1.mem ++ [some (f c c2)] } a (leafType l) = .ok { r1 with mem := (r1.mem ++ [some (f c c2)]).set a none } := by
        simp only [R64M.freeContainer, R64M.deref, leafType]
        rw [List.getElem?_append_left halt, g5.obj]
        simp only [g5.type, if_true, ok_bind]
      have hfr : R64M.freeContainer { r1 with mem := (r1.mem ++ [some (f c c2)]).set a none } r1.mem.length (typecode (f c c2)) =
          .ok { r1 with mem := ((r1.mem ++ [some (f c c2)]).set a none).set r1.mem.length none } := by
        simp only [R64M.freeContainer, R64M.deref]
        rw [List.getElem?_set_ne (by omega)]
        simp [ok_bind]
      have hmem : ((r1.mem ++ [some (f c c2)]).set a none).set r1.mem.length none = r1.mem.set a none ++ [none] := by
        rw [List.set_append_left _ _ halt, List.set_append_right _ _ (by simp)]
        simp
      obtain ⟨s1, s2⟩ := t3 _ (Or.inr rfl)
      refine ⟨p, p2, c, c2, _, it', o, g1, e1, g5.here, e3, ?_, by rw [hn]; exact s1, by rw [hn]; exact s2⟩
      simp only [g5.look, e4, ok_bind, R64M.computed, if_neg hkeep, R64M.new, R64M.freeOld, if_neg hne, hd, hz, if_true, hfr, hdrop, hmem]

theorem Cs.unite {r1 r2 : R64M} {L1 L2 : ArtRef → Prop} {C1 C2 : List Nat → Option Container} {B1 B2 : Prop} {it1 it2 : HIt} {k : List Nat}
    (h1 : Cs r1 L1 C1 B1 it1 (some k)) (h2 : Cs r2 L2 C2 B2 it2 (some k)) (f : Container → Container → Container) (keep : Bool) :
    ∃ p1 p2 c1 c2 r' it' o, it1.value = some p1 ∧ it2.value = some p2 ∧ C1 k = some c1 ∧ C2 k = some c2 ∧
      r1.unite f keep r2 it1 p1 p2 = .ok (r', it') ∧ Cs r' L1 (updKey C1 k (some (f c1 c2))) True it' o ∧
      From (updKey C1 k (some (f c1 c2))) (keyNum k + 1) o := by
  obtain ⟨-, p2, l2, a2, c2, e1, -, e3, e4⟩ := h2.key
  obtain ⟨root, h⟩ := h1
  obtain ⟨p, l, a, c, F, g1, g2, g3, g4, g5⟩ := h.see
  obtain ⟨ra, rb, q1, q2, q3⟩ := CS.change h.rep h.ok g4 g3 g1 g5 (f c c2) keep
  unfold R64M.unite
  obtain ⟨it', o, n1, n2, n3⟩ := q3.next
  refine ⟨p, p2, c, c2, rb, it', o, g1, e1, g5.here, e3, ?_, n2, n3⟩
  simp only [g5.look, e4, ok_bind, q1]
  split at q2
  · next e => cases q2; rw [if_pos e, n1]; rfl
  · next e => rw [if_neg e, q2, ok_bind, n1]; rfl

theorem Cs.remove {r : R64M} {L : ArtRef → Prop} {C : List Nat → Option Container} {B : Prop} {it : HIt} {k : List Nat}
    (h : Cs r L C B it (some k)) :
    ∃ r' it' o, r.itRemove it = .ok (r', it') ∧ Cs r' L (updKey C k none) False it' o ∧ From (updKey C k none) (keyNum k + 1) o := by
  obtain ⟨root, h⟩ := h
  obtain ⟨p, l, a, c, F, g1, g2, g3, g4, g5⟩ := h.see
  obtain ⟨b, it', o, t1, t2, t3⟩ := erase_tree h.rep h.ok g4 g3 g1 g5
  obtain ⟨s1, s2⟩ := t3 _ (Or.inl rfl)
  refine ⟨_, it', o, ?_, s1, s2⟩
  have e1 : r.getContainer l = .ok a := by simp only [R64M.getContainer, leafIndex, g5.slot]
  have e2 : R64M.freeContainer { r with art := b } a (leafType l) = .ok { r with art := b, mem := r.mem.set a none } := by
    simp only [R64M.freeContainer, R64M.deref, g5.obj, leafType, g5.type, if_true, ok_bind]
  have hs : R64M.setSlot { art := b, containers := r.containers, first := r.first, mem := r.mem.set a none } (leafIndex l) none =
      .ok { art := b, containers := r.containers.set (l / 256) none, first := r.first, mem := r.mem.set a none } :=
    setSlot_ok (r := { art := b, containers := r.containers, first := r.first, mem := r.mem.set a none }) (slot_lt g5.slot) none
  simp only [R64M.itRemove, t1, ok_bind, e1, e2, R64M.removeContainer, hs]

theorem Cs.copyIn {r1 r2 : R64M} {L1 L2 : ArtRef → Prop} {C1 C2 : List Nat → Option Container} {B1 B2 : Prop} {it1 it2 : HIt} {o1 : Option (List Nat)}
    {k : List Nat} (h1 : Cs r1 L1 C1 B1 it1 o1) (h2 : Cs r2 L2 C2 B2 it2 (some k)) (hn : C1 k = none) :
    ∃ p2 c2 r' it', it2.value = some p2 ∧ C2 k = some c2 ∧ r1.itCopy r2 it1 k p2 = .ok (r', it') ∧ Cs r' L1 (updKey C1 k (some c2)) True it' (some k) := by
  obtain ⟨hk, p2, l2, a2, c2, e1, -, e3, e4⟩ := h2.key
  have hlen := h1.len
  obtain ⟨root, h⟩ := h1
  have hm := (slots_none h.slots hk).1 hn
  obtain ⟨ra, n, q1, q2, q3, q4, q5, q6⟩ := addContainer_ok (r := (r1.new c2).1) h.first r1.mem.length (typecode c2)
  have hi := (h.slots.extend n).insert hk hm q4 c2
  obtain ⟨b, it', i1, i2, i3⟩ := it_insert h.rep h.ok hk hm (createLeaf r1.first (typecode c2)) hlen
  obtain ⟨j1, -⟩ := artInsert_has h.ok hk hm (createLeaf r1.first (typecode c2))
  refine ⟨p2, c2, { ra with art := b }, it', e1, e3, ?_, artInsert root k (createLeaf r1.first (typecode c2)), i2, j1, ?_, q6, some (k, _), i3, rfl⟩
  · have w1 : ra.art.itInsert it1 k (createLeaf r1.first (typecode c2)) = .ok (b, it') := by rw [q2]; exact i1
    have w2 : (r1.new c2).1.addContainer (r1.new c2).2 (typecode c2) = .ok (ra, createLeaf r1.first (typecode c2)) := q1
    simp only [R64M.itCopy, R64M.copyContainer, e4, ok_bind, w2, w1]
  · refine Slots.congrM ?_ (find_insert h.ok hk hm _)
    simp only [q5, q3]
    exact hi

theorem copyTo_eq (r result : R64M) (key : List Nat) (p : ArtPtr) {l a : Nat} {c : Container} (h : r.look p = .ok (l, a, c)) :
    r.copyTo result key p = (do
      let x ← result.put key c
      .ok x.1) := by
  simp only [R64M.copyTo, R64M.copyContainer, h, ok_bind, R64M.put]
  cases (result.new c).1.addContainer (result.new c).2 (typecode c) with
  | oob => rfl
  | fail => rfl
  | ok x =>
    simp only [ok_bind]
    cases x.1.art.insert key x.2 <;> rfl

theorem Cs.copyTo {r2 result : R64M} {L F L2 : ArtRef → Prop} {m : List Nat → Option Nat} {C D : List Nat → Option Container} {B2 : Prop} {it2 : HIt}
    {k : List Nat} (h2 : Cs r2 L2 C B2 it2 (some k)) (h : St result L F m D) (hn : D k = none) :
    ∃ p2 c2 r' F' m', it2.value = some p2 ∧ C k = some c2 ∧ r2.copyTo result k p2 = .ok r' ∧ St r' L F' m' (updKey D k (some c2)) := by
  obtain ⟨hk, p2, l2, a2, c2, e1, -, e3, e4⟩ := h2.key
  obtain ⟨r', p, F', m', g1, g2, -⟩ := h.put_ok hk ((slots_none h.slots hk).1 hn) c2
  exact ⟨p2, c2, r', F', m', e1, e3, by rw [copyTo_eq _ _ _ _ e4, g1]; rfl, g2⟩

theorem St.ended {r : R64M} {L F : ArtRef → Prop} {m : List Nat → Option Nat} {C : List Nat → Option Container} (h : St r L F m C) {it : HIt}
    (hv : it.value = none) (hl : it.frames.length = 7) : Cs r L C False it none := by
  obtain ⟨⟨root, h1, h2, h3⟩, h4, h5⟩ := h
  exact ⟨root, h1.rep, h2, h4.congrM (fun k hk => (h3 k hk).symm), h5, none, ⟨hv, hl, fun f => f.elim⟩, rfl⟩

theorem addResult_ok {result : R64M} {L F : ArtRef → Prop} {m : List Nat → Option Nat} {D : List Nat → Option Container} {k : List Nat} (hk : IsKey k)
    (h : St result L F m D) (hn : D k = none) (c : Container) :
    ∃ r' F' m', result.addResult k c = .ok r' ∧ St r' L F' m' (updKey D k (nz c)) := by
  unfold R64M.addResult nz
  by_cases hz : containerNonzero c = true
  · obtain ⟨r', p, F', m', g1, g2, -⟩ := h.put_ok hk ((slots_none h.slots hk).1 hn) c
    exact ⟨r', F', m', by rw [if_pos hz, g1]; rfl, by rw [if_pos hz]; exact g2⟩
  · refine ⟨{ result with mem := result.mem ++ [none] }, F, m, ?_, ?_⟩
    · rw [if_neg hz]
      simp only [R64M.new, R64M.freeContainer, R64M.deref]
      rw [List.getElem?_append_right (Nat.le_refl _)]
      simp [ok_bind, List.set_append_right]
    · rw [if_neg hz, upd_eq hn]
      exact ⟨h.map, h.slots.pad, h.first⟩

end CRoaring
