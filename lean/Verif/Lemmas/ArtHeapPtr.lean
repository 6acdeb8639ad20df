import Verif.Lemmas.ArtHeapCalls
import Verif.Model.Frozen64
/-
Pointers to leaves: which place a leaf is at, and what becomes of it.
-/
set_option linter.unusedSimpArgs false
set_option linter.unusedVariables false
namespace CRoaring
open Spec

theorem out_bind {α β : Type} {x : Out α} {f : α → Out β} {y : β} (h : (x >>= f) = .ok y) : ∃ a, x = .ok a ∧ f a = .ok y := by
  cases x with
  | oob => cases h
  | fail => cases h
  | ok a => exact ⟨a, rfl, h⟩

section
variable {V : Type}

/-- The array of leaves is the same. -/
def SameLeaves (H H' : ArtHeap V) : Prop := H'.nodes .leaf = H.nodes .leaf ∧ H'.gen .leaf = H.gen .leaf

theorem SameLeaves.refl (H : ArtHeap V) : SameLeaves H H := ⟨rfl, rfl⟩
theorem SameLeaves.trans {A B C : ArtHeap V} (h : SameLeaves A B) (g : SameLeaves B C) : SameLeaves A C := ⟨g.1.trans h.1, g.2.trans h.2⟩

theorem poke_leaves {H H' : ArtHeap V} {p : ArtPtr} {s : ArtSlot V} (h : H.poke p s = .ok H') (ht : p.ref.ty ≠ .leaf) : SameLeaves H H' := by
  unfold ArtHeap.poke at h
  split at h
  · cases h; exact ⟨by simp only; rw [updTy_ne _ _ (Ne.symm ht)], rfl⟩
  · cases h

theorem pokeInner_leaves {H H' : ArtHeap V} {p : ArtPtr} {pfx : List Nat} {n : Node ArtRef} (h : H.pokeInner p pfx n = .ok H') (ht : p.ref.ty ≠ .leaf) :
    SameLeaves H H' := by
  unfold ArtHeap.pokeInner at h
  split at h
  · exact poke_leaves h ht
  · cases h

theorem release_leaves {H H' : ArtHeap V} {p : ArtPtr} (h : H.release p = .ok H') (ht : p.ref.ty ≠ .leaf) : SameLeaves H H' := by
  unfold ArtHeap.release at h
  obtain ⟨a, h1, h2⟩ := out_bind h
  cases h2
  have h3 := poke_leaves h1 ht
  exact ⟨h3.1, h3.2⟩

theorem alloc_leaves {H : ArtHeap V} {t : ArtTy} {x : ArtHeap V × Nat} (h : H.alloc t = .ok x) (ht : t ≠ .leaf) : SameLeaves H x.1 := by
  unfold ArtHeap.alloc at h
  split at h
  · cases h
    refine ⟨?_, ?_⟩
    · show (H.extend t).nodes .leaf = _
      rw [extend_ne _ (Ne.symm ht)]
    · show updTy H.gen t _ .leaf = _
      rw [updTy_ne _ _ (Ne.symm ht)]
  · split at h
    · cases h; exact ⟨rfl, rfl⟩
    · cases h

theorem createInner_leaves {H : ArtHeap V} {pfx : List Nat} {e : Node ArtRef} {x : ArtHeap V × ArtPtr} (h : H.createInner pfx e = .ok x) :
    SameLeaves H x.1 ∧ x.2.ref.ty ≠ .leaf := by
  unfold ArtHeap.createInner at h
  obtain ⟨a, h1, h2⟩ := out_bind h
  obtain ⟨b, h3, h4⟩ := out_bind h2
  cases h4
  exact ⟨(alloc_leaves h1 (ty_ne_leaf e)).trans (pokeInner_leaves h3 (ty_ne_leaf e)), ty_ne_leaf e⟩

theorem joinPrefix_leaves {H H' : ArtHeap V} {pfx : List Nat} {c : Nat} {s : ArtRef} (h : H.joinPrefix pfx c s = .ok H') : SameLeaves H H' := by
  unfold ArtHeap.joinPrefix at h
  split at h
  · cases h; exact .refl _
  · next hs =>
    obtain ⟨a, _, h2⟩ := out_bind h
    exact pokeInner_leaves h2 hs

theorem nodeErase_leaves {H : ArtHeap V} {p : ArtPtr} {key : Nat} {x : ArtHeap V × ArtRef} (h : H.nodeErase p key = .ok x) (ht : p.ref.ty ≠ .leaf) :
    SameLeaves H x.1 := by
  have big : ∀ (pfx : List Nat) (n : Node ArtRef), H.bigErase p pfx n key = .ok x → SameLeaves H x.1 := by
    intro pfx n h
    unfold ArtHeap.bigErase at h
    obtain ⟨a, h1, h2⟩ := out_bind h
    refine (pokeInner_leaves h1 ht).trans ?_
    split at h2
    · cases h2; exact .refl _
    · unfold ArtHeap.shrinkNode at h2
      obtain ⟨b, g1, h3⟩ := out_bind h2
      obtain ⟨c, g2, h4⟩ := out_bind h3
      obtain ⟨d, g3, h5⟩ := out_bind h4
      obtain ⟨e, g4, h6⟩ := out_bind h5
      cases h6
      obtain ⟨k1, k2⟩ := createInner_leaves g1
      exact (k1.trans (pokeInner_leaves g3 k2)).trans (release_leaves g4 ht)
  unfold ArtHeap.nodeErase at h
  obtain ⟨a, h1, h2⟩ := out_bind h
  split at h2
  · next ks _ =>
    unfold ArtHeap.node4Erase at h2
    split at h2
    · cases h2; exact .refl _
    · split at h2
      · split at h2
        · cases h2
        · obtain ⟨b, g1, h3⟩ := out_bind h2
          obtain ⟨c, g2, h4⟩ := out_bind h3
          cases h4
          exact (joinPrefix_leaves g1).trans (release_leaves g2 ht)
      · obtain ⟨b, g1, h3⟩ := out_bind h2
        cases h3
        exact pokeInner_leaves g1 ht
  · exact big _ _ h2

theorem afterErase_leaves {H : ArtHeap V} {r child : ArtRef} {c : Nat} {o : Option ArtRef} {x : ArtHeap V × ArtRef}
    (h : H.afterErase r c child o = .ok x) (ht : r.ty ≠ .leaf) : SameLeaves H x.1 := by
  unfold ArtHeap.afterErase at h
  split at h
  · exact nodeErase_leaves h ht
  · obtain ⟨a, h1, h2⟩ := out_bind h
    cases h2
    unfold ArtHeap.storeChild at h1
    split at h1
    · unfold ArtHeap.nodeReplace at h1
      obtain ⟨b, _, h3⟩ := out_bind h1
      exact pokeInner_leaves h3 ht
    · cases h1; exact .refl _

theorem erase_find_leaf {H H' : ArtHeap V} {key : List Nat} {ref : ArtRef} {depth : Nat} {p : ArtPtr} {x : V × Option ArtRef} (ht : ref.ty = .leaf)
    (hf : H.findAtLeaf ref key depth = .ok (some p)) (he : H.eraseAtLeaf ref key = .ok (H', some x)) :
    p = H.deref p.ref ∧ p.ref.ty = .leaf ∧ H'.gen .leaf = H.gen .leaf ∧ ∃ nx, H'.get p.ref = some (.free nx) := by
  have hp : p = H.deref ref := by
    unfold ArtHeap.findAtLeaf at hf
    obtain ⟨a, _, h2⟩ := out_bind hf
    split at h2
    · cases h2; rfl
    · split at h2
      · cases h2; rfl
      · cases h2
  subst hp
  refine ⟨rfl, ht, ?_⟩
  unfold ArtHeap.eraseAtLeaf at he
  obtain ⟨a, _, h2⟩ := out_bind he
  split at h2
  · cases h2
  · obtain ⟨b, h3, h4⟩ := out_bind h2
    cases h4
    unfold ArtHeap.release at h3
    obtain ⟨c, h5, h6⟩ := out_bind h3
    cases h6
    unfold ArtHeap.poke at h5
    split at h5
    · next hb =>
      cases h5
      refine ⟨rfl, H.first ref.ty, ?_⟩
      show (updTy H.nodes ref.ty ((H.nodes ref.ty).set ref.idx (.free (H.first ref.ty))) ref.ty)[ref.idx]? = _
      rw [updTy_same, List.getElem?_set_self (show ref.idx < (H.nodes ref.ty).length from hb.2)]
    · cases h5

/-- The leaf that is found is the one whose place is put on the list of unused ones; the array of leaves stays where it is. -/
theorem erase_find {key : List Nat} : ∀ (fuel : Nat) {H H' : ArtHeap V} {ref : ArtRef} {depth : Nat} {p : ArtPtr} {x : V × Option ArtRef},
    H.findAt key fuel ref depth = .ok (some p) → ArtHeap.eraseAt key fuel H ref depth = .ok (H', some x) →
    p = H.deref p.ref ∧ p.ref.ty = .leaf ∧ H'.gen .leaf = H.gen .leaf ∧ ∃ nx, H'.get p.ref = some (.free nx)
  | 0, H, H', ref, depth, p, x, hf, he => by
    unfold ArtHeap.findAt at hf
    unfold ArtHeap.eraseAt at he
    by_cases ht : ref.ty = .leaf
    · rw [if_pos ht] at hf he
      exact erase_find_leaf ht hf he
    · rw [if_neg ht] at hf; cases hf
  | fuel + 1, H, H', ref, depth, p, x, hf, he => by
    unfold ArtHeap.findAt at hf
    unfold ArtHeap.eraseAt at he
    by_cases ht : ref.ty = .leaf
    · rw [if_pos ht] at hf he
      exact erase_find_leaf ht hf he
    · rw [if_neg ht] at hf he
      obtain ⟨i, h1, h2⟩ := out_bind hf
      rw [h1, ok_bind] at he
      simp only at he h2
      by_cases hcp : artCommonPrefix i.1 0 i.1.length key depth KEY_BYTES = i.1.length
      · rw [if_neg (by simpa using hcp)] at he h2
        rw [hcp] at he
        cases hc : i.2.find (key.getD (depth + i.1.length) 0) with
        | none => rw [hc] at h2; cases h2
        | some child =>
          rw [hc] at h2 he
          simp only at h2 he
          obtain ⟨r, g1, g2⟩ := out_bind he
          cases hr : r.2 with
          | none => rw [hr] at g2; cases g2
          | some e =>
            rw [hr] at g2
            obtain ⟨s, g3, g4⟩ := out_bind g2
            cases g4
            have hg1 : ArtHeap.eraseAt key fuel H child (depth + (i.1.length + 1)) = .ok (r.1, some e) := by
              rw [← hr]; rw [← Nat.add_assoc]; exact g1
            obtain ⟨a1, a2, a3, nx, a4⟩ := erase_find fuel h2 hg1
            have hs := afterErase_leaves g3 ht
            refine ⟨a1, a2, hs.2.trans a3, nx, ?_⟩
            unfold ArtHeap.get at a4 ⊢
            rw [a2] at a4 ⊢
            rw [hs.1]; exact a4
      · rw [if_pos (by simpa using hcp)] at h2; cases h2

/-- After `art_erase` the value is where the pointer of `art_find` points. -/
theorem loadFreed_ok {a b : ArtT Nat} {key : List Nat} {p : ArtPtr} {v : Nat} (hf : a.find key = .ok (some p)) (he : a.erase key = .ok (b, some v)) :
    a.loadFreed b p = a.load p := by
  unfold ArtT.find at hf
  unfold ArtT.erase at he
  cases hr : a.root with
  | none => rw [hr] at hf; cases hf
  | some root =>
    rw [hr] at hf he
    obtain ⟨r, h1, h2⟩ := out_bind he
    cases hx : r.2 with
    | none => rw [hx] at h2; cases h2
    | some e =>
      rw [hx] at h2
      cases h2
      obtain ⟨a1, a2, a3, nx, a4⟩ := erase_find LEVELS (H' := r.1) (x := e) hf (by rw [← hx]; exact h1)
      unfold ArtT.loadFreed
      have hg : p.gen = r.1.gen p.ref.ty := by rw [a2, a3, ← a2]; exact congrArg ArtPtr.gen a1
      rw [if_pos hg]
      simp only [a4]

/-! ### The place of a leaf -/

/-- A leaf among the places of a tree has the value of its key in the tree. -/
theorem HRep.has {H : ArtHeap V} {r : ArtRef} {t : Art V} {F : ArtRef → Prop} (h : HRep H r t F) {x : ArtRef} (hx : F x) {k : List Nat} {v : V}
    (hg : H.get x = some (.leaf k v)) : Has t k v := by
  induction h with
  | @leaf r k' v' F ht hg' hF =>
    rw [(hF x).1 hx, hg'] at hg
    cases hg
    exact .leaf _ _
  | @inner r pfx nr n Fs F ht hg' hk hs hc he hd hr hF ih =>
    rcases (hF x).1 hx with rfl | ⟨c, hx⟩
    · rw [hg'] at hg; cases hg
    · cases hs' : nr.find c with
      | none => exact absurd hx (he c hs' x)
      | some s =>
        obtain ⟨t, ht'⟩ := shape_some hs hs'
        exact .inner ht' (ih c s t hs' ht' hx)

/-- There is one place for a key. -/
theorem HRep.key_unique {H : ArtHeap V} {r : ArtRef} {t : Art V} {F : ArtRef → Prop} (h : HRep H r t F) {path : List Nat} (hi : Inv path t)
    {x y : ArtRef} (hx : F x) (hy : F y) {k : List Nat} {v w : V} (gx : H.get x = some (.leaf k v)) (gy : H.get y = some (.leaf k w)) : x = y := by
  induction h generalizing path with
  | @leaf r k' v' F ht hg' hF => rw [(hF x).1 hx, (hF y).1 hy]
  | @inner r pfx nr n Fs F ht hg' hk hs hc he hd hr hF ih =>
    cases hi with
    | inner hn hl hb hcs =>
      rcases (hF x).1 hx with rfl | ⟨c, hx⟩
      · rw [hg'] at gx; cases gx
      · rcases (hF y).1 hy with rfl | ⟨d, hy⟩
        · rw [hg'] at gy; cases gy
        · cases hs1 : nr.find c with
          | none => exact absurd hx (he c hs1 x)
          | some s1 =>
            obtain ⟨t1, ht1⟩ := shape_some hs hs1
            cases hs2 : nr.find d with
            | none => exact absurd hy (he d hs2 y)
            | some s2 =>
              obtain ⟨t2, ht2⟩ := shape_some hs hs2
              have p1 := ((hcs c t1 ht1).key ((hc c s1 t1 hs1 ht1).has hx gx)).2
              have p2 := ((hcs d t2 ht2).key ((hc d s2 t2 hs2 ht2).has hy gy)).2
              have e : path ++ pfx ++ [c] = path ++ pfx ++ [d] :=
                List.prefix_of_prefix_length_le p1 p2 (by simp) |>.eq_of_length (by simp)
              have e' : c = d := by simpa using e
              subst e'
              exact ih c s1 t1 hs1 ht1 (hcs c t1 ht1) hx hy

theorem bytes_nodup {α : Type} {n : Node α} (h : KOk n) : n.bytes.Nodup := by
  cases n with
  | n4 ks => exact List.pairwise_map.2 (h.1.sorted.imp (fun h => Nat.ne_of_lt h))
  | n16 ks => exact List.pairwise_map.2 (h.1.sorted.imp (fun h => Nat.ne_of_lt h))
  | n48 n => exact List.nodup_range
  | n256 n => exact List.nodup_range

/-- The traversal names every leaf once. -/
theorem leavesAt_ok (fuel : Nat) {H : ArtHeap V} {r : ArtRef} {t : Art V} {F : ArtRef → Prop} {path : List Nat} (hrep : HRep H r t F) (hi : Inv path t)
    (hf : 6 ≤ fuel + path.length) : ∃ l, H.leavesAt fuel r = .ok l ∧ l.Nodup ∧ ∀ x, x ∈ l ↔ F x ∧ ∃ k v, H.get x = some (.leaf k v) := by
  have leafCase : ∀ (fuel : Nat) {r : ArtRef} {k : List Nat} {v : V} {F : ArtRef → Prop}, HRep H r (.leaf k v) F →
      ∃ l, H.leavesAt fuel r = .ok l ∧ l.Nodup ∧ ∀ x, x ∈ l ↔ F x ∧ ∃ k v, H.get x = some (.leaf k v) := by
    intro fuel r k v F hrep
    refine ⟨[r], ?_, by simp, fun x => ?_⟩
    · cases fuel <;> (unfold ArtHeap.leavesAt; rw [if_pos hrep.leaf_ty])
    · cases hrep with
      | leaf ht hg hF =>
        rw [List.mem_singleton, hF]
        exact ⟨fun e => ⟨e, k, v, e ▸ hg⟩, fun h => h.1⟩
  induction fuel generalizing r t F path with
  | zero =>
    cases hi with
    | leaf hk' hp' => exact leafCase 0 hrep
    | inner h1 hl => omega
  | succ fuel ih =>
    cases hi with
    | leaf hk' hp' => exact leafCase _ hrep
    | @inner _ pfx n hok hll hb hcs =>
      cases hrep with
      | @inner _ _ nr _ Fs _ ht hg hkr hs hch he hd hr hF =>
        have hnl : ¬ r.ty = .leaf := by rw [← ht]; exact ty_ne_leaf nr
        unfold ArtHeap.leavesAt
        rw [if_neg hnl, peekInner_ok (deref_valid H r) hg ht, ok_bind]
        simp only
        have hsub : ∀ c s, nr.find c = some s → ∃ l, H.leavesAt fuel s = .ok l ∧ l.Nodup ∧ ∀ x, x ∈ l ↔ Fs c x ∧ ∃ k v, H.get x = some (.leaf k v) := by
          intro c s h1
          obtain ⟨t, h2⟩ := shape_some hs h1
          exact ih (hch c s t h1 h2) (hcs c t h2) (by simp; omega)
        have loop : ∀ (cs : List Nat), cs.Nodup → ∀ acc : List ArtRef, acc.Nodup → (∀ x ∈ acc, ∀ c ∈ cs, ¬ Fs c x) →
            ∃ l, (cs.filterMap nr.find).foldlM (fun l s => do
              let l' ← H.leavesAt fuel s
              .ok (l ++ l')) acc = .ok l ∧ l.Nodup ∧
              ∀ x, x ∈ l ↔ x ∈ acc ∨ ∃ c ∈ cs, Fs c x ∧ ∃ k v, H.get x = some (.leaf k v) := by
          intro cs
          induction cs with
          | nil => intro _ acc ha _; exact ⟨acc, rfl, ha, fun x => by simp⟩
          | cons c cs ihc =>
            intro hn acc ha hdis
            rw [List.nodup_cons] at hn
            cases hc : nr.find c with
            | none =>
              obtain ⟨l, g1, g2, g3⟩ := ihc hn.2 acc ha (fun x hx d hd' => hdis x hx d (List.mem_cons_of_mem _ hd'))
              refine ⟨l, by rw [List.filterMap_cons_none hc]; exact g1, g2, fun x => ?_⟩
              rw [g3]
              constructor
              · rintro (h | ⟨d, hd', h⟩)
                · exact Or.inl h
                · exact Or.inr ⟨d, List.mem_cons_of_mem _ hd', h⟩
              · rintro (h | ⟨d, hd', h⟩)
                · exact Or.inl h
                · rcases List.mem_cons.1 hd' with rfl | hd'
                  · exact absurd h.1 (he d hc x)
                  · exact Or.inr ⟨d, hd', h⟩
            | some s =>
              obtain ⟨l1, k1, k2, k3⟩ := hsub c s hc
              obtain ⟨l, g1, g2, g3⟩ := ihc hn.2 (acc ++ l1) (by
                rw [List.nodup_append]
                refine ⟨ha, k2, fun x hx y hy e => ?_⟩
                subst e
                exact hdis x hx c (List.mem_cons_self ..) ((k3 x).1 hy).1) (fun x hx d hd' => by
                  rcases List.mem_append.1 hx with hx | hx
                  · exact hdis x hx d (List.mem_cons_of_mem _ hd')
                  · exact hd c d x (fun e => hn.1 (e ▸ hd')) ((k3 x).1 hx).1)
              refine ⟨l, ?_, g2, fun x => ?_⟩
              · rw [List.filterMap_cons_some hc, List.foldlM_cons, k1, ok_bind, ok_bind]; exact g1
              · rw [g3, List.mem_append, k3]
                constructor
                · rintro ((h | h) | ⟨d, hd', h⟩)
                  · exact Or.inl h
                  · exact Or.inr ⟨c, List.mem_cons_self .., h⟩
                  · exact Or.inr ⟨d, List.mem_cons_of_mem _ hd', h⟩
                · rintro (h | ⟨d, hd', h⟩)
                  · exact Or.inl (Or.inl h)
                  · rcases List.mem_cons.1 hd' with rfl | hd'
                    · exact Or.inl (Or.inr h)
                    · exact Or.inr ⟨d, hd', h⟩
        obtain ⟨l, g1, g2, g3⟩ := loop nr.bytes (bytes_nodup hkr) [] (by simp) (by simp)
        refine ⟨l, g1, g2, fun x => ?_⟩
        rw [g3, hF]
        constructor
        · rintro (h | ⟨c, _, h1, h2⟩)
          · cases h
          · exact ⟨Or.inr ⟨c, h1⟩, h2⟩
        · rintro ⟨rfl | ⟨c, h1⟩, k, v, h2⟩
          · rw [hg] at h2; cases h2
          · refine Or.inr ⟨c, ?_, h1, k, v, h2⟩
            cases hc : nr.find c with
            | none => exact absurd h1 (he c hc x)
            | some s => exact mem_bytes hkr hc

/-! ### Structures and the places of their nodes -/

/-- As `ARep`, with the places of the nodes. -/
def ARepF (a : ArtT V) (L F : ArtRef → Prop) : Option (Art V) → Prop
  | none => a.root = none ∧ HOk a.heap L ∧ ∀ x, ¬ F x
  | some t => ∃ r, a.root = some r ∧ HRep a.heap r t F ∧ HOk a.heap (fun x => F x ∨ L x) ∧ ∀ x, F x → ¬ L x

theorem ARepF.rep {a : ArtT V} {L F : ArtRef → Prop} {root : Option (Art V)} (h : ARepF a L F root) : ARep a L root := by
  cases root with
  | none => exact ⟨h.1, h.2.1⟩
  | some t => obtain ⟨r, h⟩ := h; exact ⟨r, F, h⟩

theorem ARep.repF {a : ArtT V} {L : ArtRef → Prop} {root : Option (Art V)} (h : ARep a L root) : ∃ F, ARepF a L F root := by
  cases root with
  | none => exact ⟨fun _ => False, h.1, h.2, fun _ h => h⟩
  | some t => obtain ⟨r, F, h⟩ := h; exact ⟨F, r, h⟩

/-- As `AMap`, with the places of the nodes. -/
def AMapF (a : ArtT V) (L F : ArtRef → Prop) (m : List Nat → Option V) : Prop :=
  ∃ root, ARepF a L F root ∧ ArtOk root ∧ ∀ k, IsKey k → artFind root k = m k

theorem AMap.withF {a : ArtT V} {L : ArtRef → Prop} {m : List Nat → Option V} (h : AMap a L m) : ∃ F, AMapF a L F m := by
  obtain ⟨root, h1, h2, h3⟩ := h
  obtain ⟨F, h4⟩ := h1.repF
  exact ⟨F, root, h4, h2, h3⟩

theorem AMapF.map {a : ArtT V} {L F : ArtRef → Prop} {m : List Nat → Option V} (h : AMapF a L F m) : AMap a L m := by
  obtain ⟨root, h1, h2, h3⟩ := h
  exact ⟨root, h1.rep, h2, h3⟩

/-- The place `x` has the leaf of the key `k`. -/
def LeafOf (a : ArtT V) (F : ArtRef → Prop) (k : List Nat) (x : ArtRef) : Prop := F x ∧ ∃ v, a.heap.get x = some (.leaf k v)

/-- A pointer to the leaf of a key: reads and writes. -/
structure PtrTo (a : ArtT V) (L F : ArtRef → Prop) (m : List Nat → Option V) (k : List Nat) (p : ArtPtr) : Prop where
  key : IsKey k
  ref : p = a.heap.deref p.ref
  leaf : LeafOf a F k p.ref
  find : a.find k = .ok (some p)
  load : ∃ v, m k = some v ∧ a.load p = .ok v
  store : ∀ val, ∃ b, a.store p val = .ok b ∧ AMapF b L F (fun k' => if k' = k then some val else m k') ∧ b.heap.gen = a.heap.gen ∧
    b.heap.isShrunken = a.heap.isShrunken ∧ b.load p = .ok val ∧ (∀ k' x, LeafOf a F k' x → LeafOf b F k' x) ∧ b.root = a.root

theorem artStore_map {root : Option (Art V)} {m : List Nat → Option V} (h2 : ArtOk root) (h3 : ∀ k, IsKey k → artFind root k = m k) {key : List Nat}
    (hk : IsKey key) {v : V} (e1 : artFind root key = some v) (val : V) :
    ArtOk (artStore root key val) ∧ ∀ k, IsKey k → artFind (artStore root key val) k = if k = key then some val else m k := by
  obtain ⟨j1, j2⟩ := artStore_has h2 hk e1 val
  refine ⟨j1, fun k hk' => find_eq (root' := root) j1 hk' (fun v => ?_)⟩
  rw [j2, ← artFind_iff h2 hk', h3 k hk']
  by_cases e : k = key
  · simp [e, eq_comm]
  · simp [e]

theorem AMapF.find {a : ArtT V} {L F : ArtRef → Prop} {m : List Nat → Option V} (h : AMapF a L F m) {k : List Nat} (hk : IsKey k) :
    (m k = none ∧ a.find k = .ok none) ∨ ∃ p, PtrTo a L F m k p := by
  obtain ⟨root, h1, h2, h3⟩ := h
  cases root with
  | none =>
    refine Or.inl ⟨by rw [← h3 k hk]; rfl, ?_⟩
    unfold ArtT.find
    rw [h1.1]
  | some t =>
    obtain ⟨r, g1, g2, g3, g4⟩ := h1
    have h := findAt_sim hk LEVELS (path := []) g2 (h2 t rfl) List.nil_prefix (by decide)
    have e0 : a.find k = a.heap.findAt k LEVELS r 0 := by unfold ArtT.find; rw [g1]
    have e1 : artFind (some t) k = artFindAt LEVELS t k 0 := rfl
    have e2 : artFindAt LEVELS t k ([] : List Nat).length = artFindAt LEVELS t k 0 := rfl
    rw [e2] at h
    cases hr : artFindAt LEVELS t k 0 with
    | none =>
      rw [hr] at h
      exact Or.inl ⟨by rw [← h3 k hk, e1, hr], e0.trans h⟩
    | some v =>
      rw [hr] at h
      obtain ⟨l, a1, a2, a3, a4⟩ := h
      have hm : m k = some v := by rw [← h3 k hk, e1, hr]
      refine Or.inr ⟨a.heap.deref l, hk, rfl, ⟨a2, v, a3⟩, e0.trans a1, ⟨v, hm, ?_⟩, fun val => ?_⟩
      · unfold ArtT.load
        rw [peekLeaf_ok (deref_valid _ l) a3]; rfl
      · obtain ⟨H1, e3, hw⟩ := poke_ok (deref_valid a.heap l) (g3.used l (Or.inl a2)) (.leaf k val)
        have hst : a.store (a.heap.deref l) val = .ok ⟨H1, a.root⟩ := by
          unfold ArtT.store
          rw [peekLeaf_ok (deref_valid _ l) a3, ok_bind]
          simp only
          rw [e3]; rfl
        obtain ⟨j1, j2⟩ := artStore_map h2 h3 hk (e1.trans hr) val
        refine ⟨⟨H1, a.root⟩, hst, ⟨some (artStoreAt LEVELS t k 0 val), ⟨r, g1, a4 val H1 hw, hw.hok g3 (Or.inl a2), g4⟩, j1, j2⟩, hw.gen, ?_, store_load hst, ?_, rfl⟩
        · unfold ArtHeap.isShrunken
          simp only [hw.first, hw.len]
        · rintro k' x ⟨f1, w, f2⟩
          refine ⟨f1, ?_⟩
          simp only
          rw [hw.get]
          by_cases e : x = l
          · subst e
            rw [a3] at f2
            cases f2
            exact ⟨val, if_pos rfl⟩
          · exact ⟨w, by rw [if_neg (show ¬ x = (a.heap.deref l).ref from e)]; exact f2⟩

/-- The place of a leaf is where its key is found. -/
theorem AMapF.ptr {a : ArtT V} {L F : ArtRef → Prop} {m : List Nat → Option V} (h : AMapF a L F m) {k : List Nat} {x : ArtRef} (hx : LeafOf a F k x) :
    PtrTo a L F m k (a.heap.deref x) := by
  obtain ⟨root, h1, h2, h3⟩ := id h
  obtain ⟨hF, v, hg⟩ := hx
  cases root with
  | none => exact absurd hF (h1.2.2 x)
  | some t =>
    obtain ⟨r, g1, g2, g3, g4⟩ := h1
    have hk : IsKey k := ((h2 t rfl).key (g2.has hF hg)).1
    have hv : m k = some v := by
      rw [← h3 k hk, artFind_iff h2 hk]; exact ⟨t, rfl, g2.has hF hg⟩
    rcases h.find hk with ⟨e, _⟩ | ⟨p, hp⟩
    · rw [hv] at e; cases e
    · obtain ⟨f1, w, f2⟩ := hp.leaf
      have := g2.key_unique (h2 t rfl) f1 hF f2 hg
      rw [← this, ← hp.ref]
      exact hp

theorem AMapF.leaves {a : ArtT V} {L F : ArtRef → Prop} {m : List Nat → Option V} (h : AMapF a L F m) :
    ∃ l, a.leaves = .ok l ∧ l.Nodup ∧ (∀ x ∈ l, ∃ k, LeafOf a F k x) ∧
      (∀ k, IsKey k → m k ≠ none → ∃ x ∈ l, LeafOf a F k x) := by
  obtain ⟨root, h1, h2, h3⟩ := id h
  cases root with
  | none =>
    refine ⟨[], by unfold ArtT.leaves; rw [h1.1], by simp, by simp, fun k hk hne => ?_⟩
    exact absurd (h3 k hk).symm hne
  | some t =>
    obtain ⟨r, g1, g2, g3, g4⟩ := h1
    obtain ⟨l, e1, e2, e3⟩ := leavesAt_ok LEVELS (path := []) g2 (h2 t rfl) (by decide)
    refine ⟨l, by unfold ArtT.leaves; rw [g1]; exact e1, e2, fun x hx => ?_, fun k hk hne => ?_⟩
    · obtain ⟨f1, k, v, f2⟩ := (e3 x).1 hx
      exact ⟨k, f1, v, f2⟩
    · rcases h.find hk with ⟨e, _⟩ | ⟨p, hp⟩
      · exact absurd e hne
      · obtain ⟨f1, w, f2⟩ := hp.leaf
        exact ⟨p.ref, (e3 _).2 ⟨f1, k, w, f2⟩, f1, w, f2⟩

end
end CRoaring
