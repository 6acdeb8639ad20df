import Verif.Lemmas.ArtHeapTree
/-
Removal, search and whole histories on the arrays of nodes.
-/
set_option linter.unusedSimpArgs false
set_option linter.unusedVariables false
namespace CRoaring
open Spec

section
variable {V : Type}

theorem two_left {α : Type} {ks : List (Nat × α)} (h : KsOk ks) (hl : ks.length = 2) {c j : Nat} (hj : ks.findIdx? (fun p => p.1 == c) = some j) :
    ∃ d x, ks[j ^^^ 1]? = some (d, x) ∧ d ≠ c ∧ findKs ks d = some x ∧ ∀ i, i ≠ c → i ≠ d → findKs ks i = none := by
  obtain ⟨hjl, hp, _⟩ := List.findIdx?_eq_some_iff_getElem.1 hj
  match ks, hl with
  | [(a, s), (b, t)], _ =>
    have hab := h.sorted
    simp at hab
    simp only [List.length_cons, List.length_nil] at hjl
    rcases (show j = 0 ∨ j = 1 by omega) with rfl | rfl
    · simp at hp
      refine ⟨b, t, rfl, by omega, idx_findKs h (j := 1) rfl, ?_⟩
      intro i h4 h5
      rw [findKs_eq_none]; simp; omega
    · simp at hp
      refine ⟨a, s, rfl, by omega, idx_findKs h (j := 0) rfl, ?_⟩
      intro i h4 h5
      rw [findKs_eq_none]; simp; omega

/-- The nodes at `F`, of which those at `Fc` had gone, now hold the tree `t'` at the places `F'`. -/
structure NodeSim (H H' : ArtHeap V) (U F Fc : ArtRef → Prop) (r' : ArtRef) (t' : Art V) (F' : ArtRef → Prop) : Prop where
  rep : HRep H' r' t' F'
  hok : HOk H' (fun x => (U x ∧ ¬ F x) ∨ F' x)
  frame : ∀ x, U x → ¬ F x → H'.get x = H.get x
  sub : ∀ x, F' x → F x ∨ ¬ (U x ∧ ¬ Fc x)

/-- A node after the removal of one of its children, whose subtree has gone. -/
theorem nodeErase_sim {H : ArtHeap V} {U F : ArtRef → Prop} {r s : ArtRef} {path pfx : List Nat} {nr : Node ArtRef} {n : Node (Art V)}
    {Fs : Nat → ArtRef → Prop} {c : Nat}
    (hu : HOk H (fun x => U x ∧ ¬ Fs c x)) (hFU : ∀ x, F x → U x) (ht : nr.ty = r.ty) (hg : H.get r = some (.inner pfx nr)) (hk : KOk nr) (hi : Inv path (.inner pfx n))
    (hs : nr.shape = n.shape)
    (hc : ∀ d s t, d ≠ c → nr.find d = some s → n.find d = some t → HRep H s t (Fs d))
    (he : ∀ c, nr.find c = none → ∀ x, ¬ Fs c x)
    (hd : ∀ c d x, c ≠ d → Fs c x → ¬ Fs d x) (hr : ∀ c, ¬ Fs c r)
    (hF : ∀ x, F x ↔ x = r ∨ ∃ c, Fs c x) (hx : nr.find c = some s) :
    ∃ H' r' F', H.nodeErase (H.deref r) c = .ok (H', r') ∧ NodeSim H H' U F (Fs c) r' (nodeErase pfx n c) F' := by
  cases hi with
  | inner hkn hll hb hcn =>
  obtain ⟨t, hy⟩ := shape_some hs hx
  have hrF : F r := (hF r).2 (Or.inl rfl)
  have hrU := hFU r hrF
  have hsF : ∀ d x, Fs d x → F x := fun d x h => (hF x).2 (Or.inr ⟨d, h⟩)
  have hn1 : IsNode H (fun x => U x ∧ ¬ Fs c x) r pfx nr := ⟨⟨hrU, hr c⟩, hg, ht, by omega⟩
  -- the node becomes another one without the child
  have general : ∀ (H' : ArtHeap V) (r' : ArtRef) (nr' : Node ArtRef) (n' : Node (Art V)), Moved H H' (fun x => U x ∧ ¬ Fs c x) r r' pfx nr' → KOk nr' →
      nr'.shape = n'.shape → (∀ i, nr'.find i = if i = c then none else nr.find i) → (∀ i, n'.find i = if i = c then none else n.find i) →
      ∃ F', NodeSim H H' U F (Fs c) r' (.inner pfx n') F' := by
    intro H' r' nr' n' hmv k1 k2 k3 k4
    have hr' : ∀ d, d ≠ c → ¬ Fs d r' := by
      intro d hdc h
      rcases hmv.fresh with e | e
      · exact hr d (e ▸ h)
      · exact e ⟨hFU _ (hsF d _ h), hd d c _ hdc h⟩
    refine ⟨_, HRep.rebuild (Fs := Fs) (X := none) (Y := none) (Fc := fun _ => False) hmv.ty hmv.get k1 k2 k3 k4 (fun _ _ h _ => by cases h) (fun _ _ h => h)
      ?_ he hd hr' (fun h => h) (fun _ _ _ _ h => h), ?_, ?_, ?_⟩
    · intro d s0 t0 hdc h1 h2
      refine (hc d s0 t0 hdc h1 h2).frame (fun x h => hmv.other x ⟨hFU x (hsF d x h), hd d c x hdc h⟩ (fun e => hr d (e ▸ h)))
    · refine hmv.hok.congr (fun x => ?_)
      constructor
      · rintro (⟨⟨h1, h2⟩, h3⟩ | h)
        · by_cases hxF : F x
          · rcases (hF x).1 hxF with h4 | ⟨d, h4⟩
            · exact absurd h4 h3
            · refine Or.inr (Or.inr (Or.inr ⟨d, ?_, h4⟩))
              rintro rfl
              exact h2 h4
          · exact Or.inl ⟨h1, hxF⟩
        · exact Or.inr (Or.inl h)
      · rintro (⟨h1, h2⟩ | h | h | ⟨d, hdc, h⟩)
        · exact Or.inl ⟨⟨h1, fun h => h2 (hsF c x h)⟩, fun e => h2 (e ▸ hrF)⟩
        · exact Or.inr h
        · exact h.elim
        · exact Or.inl ⟨⟨hFU x (hsF d x h), hd d c x hdc h⟩, fun e => hr d (e ▸ h)⟩
    · intro x hxU hxF
      exact hmv.other x ⟨hxU, fun h => hxF (hsF c x h)⟩ (fun e => hxF (e ▸ hrF))
    · rintro x (rfl | h | ⟨d, _, h⟩)
      · rcases hmv.fresh with e | e
        · exact Or.inl (e ▸ hrF)
        · exact Or.inr e
      · exact h.elim
      · exact Or.inl (hsF d x h)
  have big : nr.ty ≠ .n4 → nodeErase pfx n c = .inner pfx (n.cut c) → H.nodeErase (H.deref r) c = H.bigErase (H.deref r) pfx nr c →
      ∃ H' r' F', H.nodeErase (H.deref r) c = .ok (H', r') ∧ NodeSim H H' U F (Fs c) r' (nodeErase pfx n c) F' := by
    intro h4 e1 e2
    obtain ⟨H', r', e3, hmv⟩ := bigErase_ok hu (deref_valid H r) hn1 h4 c
    obtain ⟨k1, k2⟩ := hk.cut h4 hx
    obtain ⟨k3, k4⟩ := hkn.cut (by rw [← shape_ty hs]; exact h4) hy
    obtain ⟨F', g1⟩ := general H' r' (nr.cut c) (n.cut c) hmv k1 (shape_cut hs c) k2 k4
    exact ⟨H', r', F', e2.trans e3, by rw [e1]; exact g1⟩
  have hpeek := peekInner_ok (deref_valid H r) hg ht
  match nr, n, hs, hpeek with
  | .n16 kr, .n16 kt, _, hpeek =>
    exact big (fun h => ArtTy.noConfusion h) (by rw [cut16]; rfl) (by unfold ArtHeap.nodeErase; rw [hpeek]; rfl)
  | .n48 kr, .n48 kt, _, hpeek =>
    exact big (fun h => ArtTy.noConfusion h) (by rw [cut48]; rfl) (by unfold ArtHeap.nodeErase; rw [hpeek]; rfl)
  | .n256 kr, .n256 kt, _, hpeek =>
    exact big (fun h => ArtTy.noConfusion h) (by rw [cut256]; rfl) (by unfold ArtHeap.nodeErase; rw [hpeek]; rfl)
  | .n4 kr, .n4 kt, hs, hpeek =>
    have hmap : mapKs (fun _ => ()) kr = mapKs (fun _ => ()) kt := by
      have h : Node.n4 (mapKs (fun _ => ()) kr) = Node.n4 (mapKs (fun _ => ()) kt) := hs
      injection h
    have hlen : kr.length = kt.length := by rw [← mapKs_length (fun _ => ()) kr, hmap, mapKs_length]
    obtain ⟨j, hj⟩ := findIdx_of_find (show findKs kr c = some s from hx)
    have hj' : kt.findIdx? (fun p => p.1 == c) = some j := by rw [← findIdx_mapKs (fun _ => ()), ← hmap, findIdx_mapKs, hj]
    obtain ⟨h1, h2, h3⟩ := eraseKs_spec hk.1 hj
    obtain ⟨h1', h2', h3'⟩ := eraseKs_spec hkn.1 hj'
    have e0 : H.nodeErase (H.deref r) c = H.node4Erase (H.deref r) pfx kr c := by unfold ArtHeap.nodeErase; rw [hpeek]; rfl
    rw [e0]
    unfold ArtHeap.node4Erase
    rw [hj]
    simp only
    by_cases hl2 : kr.length = 2
    · rw [if_pos hl2]
      obtain ⟨d, x, a1, a2, a3, a4⟩ := two_left hk.1 hl2 hj
      obtain ⟨d', y, b1, b2, b3, b4⟩ := two_left hkn.1 (hlen ▸ hl2) hj'
      have hdd : d' = d := by
        have m1 : (mapKs (fun _ => ()) kr)[j ^^^ 1]? = some (d, ()) := by unfold mapKs; rw [List.getElem?_map, a1]; rfl
        have m2 : (mapKs (fun _ => ()) kt)[j ^^^ 1]? = some (d', ()) := by unfold mapKs; rw [List.getElem?_map, b1]; rfl
        rw [hmap, m2] at m1
        exact congrArg Prod.fst (Option.some.inj m1)
      subst hdd
      rw [a1]
      simp only
      have hcol : nodeErase pfx (.n4 kt) c = collapse pfx d' y := by
        simp only [nodeErase, node4Erase, hj', b1]
        rw [if_pos (hlen ▸ hl2)]
        cases y <;> rfl
      rw [hcol]
      have hcr : HRep H x y (Fs d') := hc d' x y a2 a3 b3
      have hxF := hcr.root
      have hxU : U x ∧ ¬ Fs c x := ⟨hFU x (hsF d' x hxF), hd d' c x a2 hxF⟩
      have hxr : x ≠ r := fun e => hr d' (e ▸ hxF)
      -- the prefix of the child, and then the release of the node
      have fin : ∀ H1 : ArtHeap V, H.joinPrefix pfx d' x = .ok H1 → HRep H1 x (collapse pfx d' y) (Fs d') → HOk H1 (fun x => U x ∧ ¬ Fs c x) →
          (∀ z, ¬ Fs d' z → H1.get z = H.get z) → H1.gen = H.gen →
          ∃ H' r' F', (do
            let H1 ← H.joinPrefix pfx d' x
            let H2 ← H1.release (H.deref r)
            Out.ok (H2, x)) = .ok (H', r') ∧ NodeSim H H' U F (Fs c) r' (collapse pfx d' y) F' := by
        intro H1 e1 g1 g2 g3 g4
        obtain ⟨H2, e2, hrl⟩ := release_ok g2 (p := H.deref r) (by unfold ArtPtr.valid; rw [g4]; rfl) ⟨hrU, hr c⟩
        have hrl : Released H1 H2 (fun x => U x ∧ ¬ Fs c x) r := hrl
        refine ⟨H2, x, Fs d', ?_, g1.frame (fun z hz => hrl.get z (fun e => hr d' (e ▸ hz))), hrl.hok.congr (fun z => ?_), ?_,
          fun z hz => Or.inl (hsF d' z hz)⟩
        · rw [e1, ok_bind, e2]; rfl
        · constructor
          · rintro ⟨⟨q1, q2⟩, q3⟩
            by_cases hzF : F z
            · rcases (hF z).1 hzF with h4 | ⟨i, h4⟩
              · exact absurd h4 q3
              · by_cases hic : i = c
                · exact absurd (hic ▸ h4) q2
                · by_cases hid : i = d'
                  · exact Or.inr (hid ▸ h4)
                  · exact absurd h4 (he i (a4 i hic hid) z)
            · exact Or.inl ⟨q1, hzF⟩
          · rintro (⟨q1, q2⟩ | q)
            · exact ⟨⟨q1, fun h => q2 (hsF c z h)⟩, fun e => q2 (e ▸ hrF)⟩
            · exact ⟨⟨hFU z (hsF d' z q), hd d' c z a2 q⟩, fun e => hr d' (e ▸ q)⟩
        · intro z hz hzF
          rw [hrl.get z (fun e => hzF (e ▸ hrF)), g3 z (fun h => hzF (hsF d' z h))]
      cases hcr with
      | leaf ht' hg' hF' =>
        exact fin H (by unfold ArtHeap.joinPrefix; rw [if_pos ht']) (.leaf ht' hg' hF') hu (fun _ _ => rfl) rfl
      | @inner _ p' nr' n' Fs' _ ht' hg' hk' hs' hc' he' hd' hr' hF' =>
        have hin := hcn d' _ b3
        have hpl : (pfx ++ d' :: p').length < 6 := by
          cases hin with
          | inner q1 q2 q3 q4 => simp only [List.length_append, List.length_cons, List.length_nil] at q2 ⊢; omega
        obtain ⟨H1, e1, hw⟩ := pokeInner_ok (deref_valid H x) (hu.used x hxU) hpl nr'
        have hw : Poked H H1 x (.inner (pfx ++ d' :: p') nr') := hw
        refine fin H1 ?_ ?_ (hw.hok hu hxU) (fun z hz => by rw [hw.get, if_neg (show z ≠ x from fun e => hz (e ▸ hxF))]) hw.gen
        · unfold ArtHeap.joinPrefix
          rw [if_neg (show ¬ x.ty = .leaf from by rw [← ht']; exact ty_ne_leaf nr'), peekInner_ok (deref_valid H x) hg' ht', ok_bind]
          exact e1
        · exact HRep.reprefix (.inner ht' hg' hk' hs' hc' he' hd' hr' hF') hg' (by rw [hw.get, if_pos rfl]) (fun z _ hz => by rw [hw.get, if_neg hz])
    · rw [if_neg hl2]
      have hkk := hk.2
      obtain ⟨H1, e1, hw⟩ := pokeInner_ok (deref_valid H r) (hu.used r ⟨hrU, hr c⟩) (show pfx.length < 6 by omega) (.n4 (kr.eraseIdx j))
      have hmv := Poked.moved (r := r) hu hw ⟨hrU, hr c⟩ ht
      obtain ⟨F', g1⟩ := general H1 r (.n4 (kr.eraseIdx j)) (.n4 (kt.eraseIdx j)) hmv ⟨h1, by omega, by omega⟩ (by
        show Node.n4 _ = Node.n4 _
        rw [eraseIdx_mapKs, hmap, ← eraseIdx_mapKs]) h3 h3'
      refine ⟨H1, r, F', by rw [e1]; rfl, ?_⟩
      simp only [nodeErase, node4Erase, hj']
      rw [if_neg (hlen ▸ hl2)]
      exact g1

theorem HRep.leaf_ty {H : ArtHeap V} {r : ArtRef} {k : List Nat} {v : V} {F : ArtRef → Prop} (h : HRep H r (.leaf k v) F) : r.ty = .leaf := by
  cases h; assumption

/-- What a removal does, by the result of the removal from the tree. -/
def EraseSim (H : ArtHeap V) (U F : ArtRef → Prop) (key : List Nat) (fuel : Nat) (r : ArtRef) (depth : Nat) : Option (V × Option (Art V)) → Prop
  | none => ArtHeap.eraseAt key fuel H r depth = .ok (H, none)
  | some (v, none) => ∃ H', ArtHeap.eraseAt key fuel H r depth = .ok (H', some (v, none)) ∧ HOk H' (fun x => U x ∧ ¬ F x) ∧
      ∀ x, U x → ¬ F x → H'.get x = H.get x
  | some (v, some t') => ∃ H' r' F', ArtHeap.eraseAt key fuel H r depth = .ok (H', some (v, some r')) ∧ Sim H H' U F (fun _ => False) r' t' F'

theorem leafErase_sim {H : ArtHeap V} {U F : ArtRef → Prop} {r : ArtRef} {key lkey : List Nat} {lval : V} (fuel d : Nat)
    (hu : HOk H U) (hFU : ∀ x, F x → U x) (hrep : HRep H r (.leaf lkey lval) F) :
    EraseSim H U F key fuel r d (artEraseAt fuel (.leaf lkey lval) key d) := by
  have e0 : ArtHeap.eraseAt key fuel H r d = H.eraseAtLeaf r key := by
    cases fuel <;> (unfold ArtHeap.eraseAt; rw [if_pos hrep.leaf_ty])
  have e1 : artEraseAt fuel (.leaf lkey lval) key d = if artCommonPrefix lkey 0 KEY_BYTES key 0 KEY_BYTES ≠ KEY_BYTES then none else some (lval, none) := by
    cases fuel <;> simp only [artEraseAt]
  have hroot := hrep.root
  cases hrep with
  | leaf ht hg hF =>
    have e2 : H.eraseAtLeaf r key = if artCommonPrefix lkey 0 KEY_BYTES key 0 KEY_BYTES ≠ KEY_BYTES then .ok (H, none)
        else (do
          let H ← H.release (H.deref r)
          .ok (H, some (lval, none))) := by
      unfold ArtHeap.eraseAtLeaf
      rw [peekLeaf_ok (deref_valid H r) hg, ok_bind]
    rw [e1]
    by_cases hc : artCommonPrefix lkey 0 KEY_BYTES key 0 KEY_BYTES ≠ KEY_BYTES
    · rw [if_pos hc]
      show ArtHeap.eraseAt key fuel H r d = _
      rw [e0, e2, if_pos hc]
    · rw [if_neg hc]
      obtain ⟨H1, e3, hrl⟩ := release_ok hu (deref_valid H r) (hFU r hroot)
      have hrl : Released H H1 U r := hrl
      refine ⟨H1, ?_, hrl.hok.congr (fun x => by rw [hF]), fun x _ hx => hrl.get x (fun e => hx (e ▸ hroot))⟩
      rw [e0, e2, if_neg hc, e3]; rfl

theorem eraseAt_sim {H : ArtHeap V} {key : List Nat} (hk : IsKey key) (fuel : Nat) {U F : ArtRef → Prop} {r : ArtRef} {t : Art V}
    {path : List Nat} (hu : HOk H U) (hFU : ∀ x, F x → U x) (hrep : HRep H r t F) (hi : Inv path t)
    (hp : path <+: key) (hf : 6 ≤ fuel + path.length) :
    EraseSim H U F key fuel r path.length (artEraseAt fuel t key path.length) := by
  induction fuel generalizing t path r F with
  | zero =>
    cases hi with
    | leaf hk' hp' => exact leafErase_sim 0 _ hu hFU hrep
    | inner h1 hl => omega
  | succ fuel ih =>
    cases hi with
    | leaf hk' hp' => exact leafErase_sim _ _ hu hFU hrep
    | @inner _ pfx n hok hll hb hc =>
      have hi := Inv.inner hok hll hb hc
      have hroot := hrep.root
      cases hrep with
      | @inner _ _ nr _ Fs _ ht hg hkr hs hch he hd hr hF =>
        have hrU := hFU r hroot
        have hnl : ¬ r.ty = .leaf := by rw [← ht]; exact ty_ne_leaf nr
        have hpk := peekInner_ok (deref_valid H r) hg ht
        simp only [artEraseAt]
        rw [artCommonPrefix_pfx hk.len]
        by_cases hme : commonLen pfx (key.drop path.length) = pfx.length
        · rw [if_neg (by simpa using hme), hme]
          have hme' := hme
          rw [commonLen_eq_left, prefix_append_drop hp] at hme'
          have step : ArtHeap.eraseAt key (fuel + 1) H r path.length =
              match nr.find (key.getD (path.length + pfx.length) 0) with
              | none => .ok (H, none)
              | some child => (do
                let r1 ← ArtHeap.eraseAt key fuel H child (path.length + pfx.length + 1)
                match r1.2 with
                | none => .ok (r1.1, none)
                | some e => do
                  let s ← r1.1.afterErase r (key.getD (path.length + pfx.length) 0) child e.2
                  .ok (s.1, some (e.1, some s.2))) := by
            conv => lhs; unfold ArtHeap.eraseAt
            rw [if_neg hnl, hpk, ok_bind]
            simp only
            rw [artCommonPrefix_pfx hk.len, hme, if_neg (by simp)]
            cases nr.find (key.getD (path.length + pfx.length) 0) <;> rfl
          cases hx : nr.find (key.getD (path.length + pfx.length) 0) with
          | none =>
            rw [shape_none hs hx]
            show ArtHeap.eraseAt key (fuel + 1) H r path.length = _
            rw [step, hx]
          | some s =>
            obtain ⟨child, hy⟩ := shape_some hs hx
            rw [hy]
            simp only
            rw [hx] at step
            simp only at step
            have hsn : path ++ pfx ++ [key.getD (path.length + pfx.length) 0] <+: key := by
              have := snoc_prefix hme' (by rw [List.length_append, hk.len]; exact hll)
              rw [List.length_append] at this; exact this
            have hlen : (path ++ pfx ++ [key.getD (path.length + pfx.length) 0]).length = path.length + pfx.length + 1 := by
              simp only [List.length_append, List.length_singleton]
            have hsF : ∀ d x, Fs d x → F x := fun d x h => (hF x).2 (Or.inr ⟨d, h⟩)
            have h1 := ih (fun x h => hFU x (hsF _ x h)) (hch _ _ _ hx hy) (hc _ _ hy) hsn (by rw [hlen]; omega)
            rw [hlen] at h1
            cases hr1 : artEraseAt fuel child key (path.length + pfx.length + 1) with
            | none =>
              rw [hr1] at h1
              have h1 : ArtHeap.eraseAt key fuel H s (path.length + pfx.length + 1) = .ok (H, none) := h1
              show ArtHeap.eraseAt key (fuel + 1) H r path.length = _
              rw [step, h1]; rfl
            | some z =>
              rw [hr1] at h1
              obtain ⟨v, t'⟩ := z
              cases t' with
              | none =>
                obtain ⟨H1, e1, hok1, fr1⟩ := h1
                have hgr : H1.get r = some (.inner pfx nr) := by rw [fr1 r hrU (hr _), hg]
                obtain ⟨H2, r2, F2, e2, hsim⟩ := nodeErase_sim hok1 hFU ht hgr hkr hi hs (fun d s0 t0 hdc a1 a2 =>
                  (hch d s0 t0 a1 a2).frame (fun x h => fr1 x (hFU x (hsF d x h)) (hd d _ x hdc h))) he hd hr hF hx
                refine ⟨H2, r2, F2, ?_, hsim.rep, hsim.hok, fun x hxU hxF => ?_, fun x hxF => ?_⟩
                · rw [step, e1, ok_bind]
                  simp only [ArtHeap.afterErase]
                  rw [e2]; rfl
                · rw [hsim.frame x hxU hxF, fr1 x hxU (fun h => hxF (hsF _ x h))]
                · rcases hsim.sub x hxF with h | h
                  · exact Or.inl h
                  · by_cases hxU : U x
                    · by_cases hxc : Fs (key.getD (path.length + pfx.length) 0) x
                      · exact Or.inl (hsF _ x hxc)
                      · exact absurd ⟨hxU, hxc⟩ h
                    · exact Or.inr (Or.inr hxU)
              | some t' =>
                obtain ⟨H1, s', F1, e1, hsim⟩ := h1
                obtain ⟨H2, F2, e2, hsim2, _⟩ := storeChild_sim hu hFU ht hg hkr hok hs hch he hd hr hF (by omega) (fun x h => h.elim) hx hy hsim
                refine ⟨H2, r, F2, ?_, hsim2⟩
                rw [step, e1, ok_bind]
                simp only [ArtHeap.afterErase]
                rw [e2]; rfl
        · rw [if_pos hme]
          show ArtHeap.eraseAt key (fuel + 1) H r path.length = _
          unfold ArtHeap.eraseAt
          rw [if_neg hnl, hpk, ok_bind]
          simp only
          rw [artCommonPrefix_pfx hk.len, if_pos hme]

/-! ### Search -/

/-- What a search gives: a pointer to the leaf with the key, or nothing; and what a store through the pointer does. -/
def FindSim (H : ArtHeap V) (F : ArtRef → Prop) (key : List Nat) (r : ArtRef) (st : V → Art V) (o : Out (Option ArtPtr)) : Option V → Prop
  | none => o = .ok none
  | some v => ∃ l, o = .ok (some (H.deref l)) ∧ F l ∧ H.get l = some (.leaf key v) ∧
      ∀ (val : V) (H' : ArtHeap V), Poked H H' l (.leaf key val) → HRep H' r (st val) F

theorem leafFind_sim {H : ArtHeap V} {F : ArtRef → Prop} {r : ArtRef} {path key lkey : List Nat} {lval : V} (fuel : Nat)
    (hrep : HRep H r (.leaf lkey lval) F) (hk : IsKey key) (hk' : IsKey lkey) (hp : path <+: key) (hp' : path <+: lkey) :
    FindSim H F key r (fun val => artStoreAt fuel (.leaf lkey lval) key path.length val) (H.findAt key fuel r path.length)
      (artFindAt fuel (.leaf lkey lval) key path.length) := by
  have hst := fun val => leafStore (lval := lval) (val := val) fuel hk hk' hp hp'
  have e0 : H.findAt key fuel r path.length = H.findAtLeaf r key path.length := by
    cases fuel <;> (unfold ArtHeap.findAt; rw [if_pos hrep.leaf_ty])
  have e1 : artFindAt fuel (.leaf lkey lval) key path.length = if path.length ≥ KEY_BYTES then some lval
      else if artCommonPrefix lkey 0 KEY_BYTES key 0 KEY_BYTES = KEY_BYTES then some lval else none := by
    cases fuel <;> simp only [artFindAt]
  have hroot := hrep.root
  cases hrep with
  | leaf ht hg hF =>
    rw [e0, e1]
    unfold ArtHeap.findAtLeaf
    rw [peekLeaf_ok (deref_valid H r) hg, ok_bind]
    simp only
    by_cases h1 : path.length ≥ KEY_BYTES
    · rw [if_pos h1, if_pos h1]
      have hkk := same_key hk hk' hp hp' h1
      refine ⟨r, rfl, hroot, by rw [hg, hkk], fun val H' hw => ?_⟩
      show HRep H' r (artStoreAt fuel (.leaf lkey lval) key path.length val) F
      rw [hst, if_pos hkk, hkk]
      exact .leaf ht (by rw [hw.get, if_pos rfl]) hF
    · rw [if_neg h1, if_neg h1]
      by_cases h2 : artCommonPrefix lkey 0 KEY_BYTES key 0 KEY_BYTES = KEY_BYTES
      · rw [if_pos h2, if_pos h2]
        rw [artCommonPrefix_full hk'.len hk.len] at h2
        refine ⟨r, rfl, hroot, by rw [hg, h2], fun val H' hw => ?_⟩
        show HRep H' r (artStoreAt fuel (.leaf lkey lval) key path.length val) F
        rw [hst, if_pos h2, h2]
        exact .leaf ht (by rw [hw.get, if_pos rfl]) hF
      · rw [if_neg h2, if_neg h2]
        rfl

theorem findAt_sim {H : ArtHeap V} {key : List Nat} (hk : IsKey key) (fuel : Nat) {F : ArtRef → Prop} {r : ArtRef} {t : Art V}
    {path : List Nat} (hrep : HRep H r t F) (hi : Inv path t) (hp : path <+: key) (hf : 6 ≤ fuel + path.length) :
    FindSim H F key r (fun val => artStoreAt fuel t key path.length val) (H.findAt key fuel r path.length) (artFindAt fuel t key path.length) := by
  induction fuel generalizing t path r F with
  | zero =>
    cases hi with
    | leaf hk' hp' => exact leafFind_sim 0 hrep hk hk' hp hp'
    | inner h1 hl => omega
  | succ fuel ih =>
    cases hi with
    | leaf hk' hp' => exact leafFind_sim _ hrep hk hk' hp hp'
    | @inner _ pfx n hok hll hb hc =>
      have hroot := hrep.root
      cases hrep with
      | @inner _ _ nr _ Fs _ ht hg hkr hs hch he hd hr hF =>
        have hnl : ¬ r.ty = .leaf := by rw [← ht]; exact ty_ne_leaf nr
        simp only [artFindAt]
        unfold ArtHeap.findAt
        rw [if_neg hnl, peekInner_ok (deref_valid H r) hg ht, ok_bind]
        simp only
        rw [artCommonPrefix_pfx hk.len]
        by_cases hme : commonLen pfx (key.drop path.length) = pfx.length
        · rw [if_neg (by simpa using hme), if_neg (by simpa using hme)]
          rw [commonLen_eq_left, prefix_append_drop hp] at hme
          cases hx : nr.find (key.getD (path.length + pfx.length) 0) with
          | none =>
            rw [shape_none hs hx]
            rfl
          | some s =>
            obtain ⟨child, hy⟩ := shape_some hs hx
            rw [hy]
            simp only
            have hsn : path ++ pfx ++ [key.getD (path.length + pfx.length) 0] <+: key := by
              have := snoc_prefix hme (by rw [List.length_append, hk.len]; exact hll)
              rw [List.length_append] at this; exact this
            have hlen : (path ++ pfx ++ [key.getD (path.length + pfx.length) 0]).length = path.length + (pfx.length + 1) := by
              simp only [List.length_append, List.length_singleton]; omega
            have h1 := ih (hch _ _ _ hx hy) (hc _ _ hy) hsn (by rw [hlen]; omega)
            rw [hlen] at h1
            cases e : artFindAt fuel child key (path.length + (pfx.length + 1)) with
            | none => rw [e] at h1; exact h1
            | some v =>
              rw [e] at h1
              obtain ⟨l, a1, a2, a3, a4⟩ := h1
              refine ⟨l, a1, (hF l).2 (Or.inr ⟨_, a2⟩), a3, fun val H' hw => ?_⟩
              simp only [artStoreAt]
              rw [hy]
              simp only
              obtain ⟨k1, k2⟩ := hok.replace hy (artStoreAt fuel child key (path.length + (pfx.length + 1)) val)
              have hlr : r ≠ l := fun e => hr _ (e ▸ a2)
              have hsame : ∀ d x, d ≠ key.getD (path.length + pfx.length) 0 → Fs d x → x ≠ l := fun d x hdc hx' e => hd d _ x hdc hx' (e ▸ a2)
              refine (HRep.rebuild (nr := nr) (n := n) (Fs := Fs) (X := some s) (Fc := Fs (key.getD (path.length + pfx.length) 0))
                (c := key.getD (path.length + pfx.length) 0) (Y := some (artStoreAt fuel child key (path.length + (pfx.length + 1)) val)) ht
                (by rw [hw.get, if_neg hlr]; exact hg) hkr (by rw [shape_replace hy]; exact hs) (fun i => ?_) k2 ?_ (fun h => by cases h) ?_ he hd
                (fun d _ => hr d) (hr _) (fun d x hdc h => hd d _ x hdc h)).congr (fun x => ?_)
              · by_cases e : i = key.getD (path.length + pfx.length) 0
                · rw [if_pos e, e, hx]
                · rw [if_neg e]
              · intro s0 t0 b1 b2
                cases b1; cases b2
                exact a4 val H' hw
              · intro d s0 t0 hdc b1 b2
                exact (hch d s0 t0 b1 b2).frame (fun x h => by rw [hw.get, if_neg (hsame d x hdc h)])
              · rw [hF]
                constructor
                · rintro (h | h | ⟨d, _, h⟩)
                  · exact Or.inl h
                  · exact Or.inr ⟨_, h⟩
                  · exact Or.inr ⟨d, h⟩
                · rintro (h | ⟨d, h⟩)
                  · exact Or.inl h
                  · by_cases e : d = key.getD (path.length + pfx.length) 0
                    · exact Or.inr (Or.inl (e ▸ h))
                    · exact Or.inr (Or.inr ⟨d, e, h⟩)
        · rw [if_pos hme, if_pos hme]
          rfl

/-! ### The whole structure -/

/-- The structure holds the tree, and every place that is not a node of it and not in `L` is on the free list.  (`L` are places that are lost.) -/
def ARep (a : ArtT V) (L : ArtRef → Prop) : Option (Art V) → Prop
  | none => a.root = none ∧ HOk a.heap L
  | some t => ∃ r F, a.root = some r ∧ HRep a.heap r t F ∧ HOk a.heap (fun x => F x ∨ L x) ∧ ∀ x, F x → ¬ L x

theorem arep_init : ARep (ArtT.init : ArtT V) (fun _ => False) none := ⟨rfl, hok_empty⟩

theorem arep_insert {a : ArtT V} {L : ArtRef → Prop} {root : Option (Art V)} (ha : ARep a L root) (ho : ArtOk root) {key : List Nat} (hk : IsKey key)
    (hn : artFind root key = none) (val : V) :
    ∃ a' l, a.insert key val = .ok (a', a'.heap.deref l) ∧ ARep a' L (artInsert root key val) ∧ a'.heap.get l = some (.leaf key val) := by
  cases root with
  | none =>
    obtain ⟨h1, h2⟩ := ha
    obtain ⟨H1, r, e1, ht, hc⟩ := createLeaf_ok h2 key val
    refine ⟨⟨H1, some r⟩, r, ?_, ⟨r, (· = r), rfl, .leaf ht hc.here (fun _ => Iff.rfl), hc.hok.congr (fun x => ?_), ?_⟩, hc.here⟩
    · unfold ArtT.insert
      rw [e1, ok_bind, h1]
    · exact or_comm
    · rintro x rfl; exact hc.new
  | some t =>
    obtain ⟨r, F, h1, h2, h3, h4⟩ := ha
    obtain ⟨H1, l, e1, ht, hc⟩ := createLeaf_ok h3 key val
    have hnl : ¬ F l := fun h => hc.new (Or.inl h)
    have hh : ∀ v, ¬ Has t key v := fun v hv => (artFind_none_iff ho hk).1 hn v ⟨t, rfl, hv⟩
    obtain ⟨H2, r2, F2, e2, hsim, hl2⟩ := insertAt_sim hk LEVELS (path := []) hc.hok (fun x h => Or.inl (Or.inl h))
      (h2.frame (fun x h => hc.get x (Or.inl h))) ⟨ht, hc.here, Or.inr rfl, hnl⟩ (ho t rfl) List.nil_prefix (by decide) hh
    refine ⟨⟨H2, some r2⟩, l, ?_, ⟨r2, F2, rfl, hsim.rep, hsim.hok.congr (fun x => ?_), ?_⟩, ?_⟩
    · unfold ArtT.insert
      rw [e1, ok_bind, h1]
      simp only
      have e2 : ArtHeap.insertAt key l LEVELS H1 r 0 = .ok (H2, r2) := e2
      rw [e2]; rfl
    · constructor
      · rintro (⟨(h | h) | h, h'⟩ | h)
        · exact absurd h h'
        · exact Or.inr h
        · exact Or.inl (h ▸ hl2)
        · exact Or.inl h
      · rintro (h | h)
        · exact Or.inr h
        · exact Or.inl ⟨Or.inl (Or.inr h), fun h' => h4 x h' h⟩
    · intro x hx hL
      rcases hsim.sub x hx with h | h | h
      · exact h4 x h hL
      · exact hc.new (h ▸ Or.inr hL)
      · exact h (Or.inl (Or.inr hL))
    · show H2.get l = _
      rw [hsim.frame l (Or.inr rfl) hnl, hc.here]

theorem arep_erase {a : ArtT V} {L : ArtRef → Prop} {root : Option (Art V)} (ha : ARep a L root) (ho : ArtOk root) {key : List Nat} (hk : IsKey key) :
    ∃ a', a.erase key = .ok (a', (artErase root key).1) ∧ ARep a' L (artErase root key).2 := by
  cases root with
  | none =>
    obtain ⟨h1, h2⟩ := ha
    refine ⟨a, ?_, h1, h2⟩
    unfold ArtT.erase
    rw [h1]; rfl
  | some t =>
    obtain ⟨r, F, h1, h2, h3, h4⟩ := ha
    have h := eraseAt_sim hk LEVELS (path := []) h3 (fun x h => Or.inl h) h2 (ho t rfl) List.nil_prefix (by decide)
    have e0 : a.erase key = (do
        let r ← ArtHeap.eraseAt key LEVELS a.heap r 0
        match r.2 with
        | none => .ok (⟨r.1, a.root⟩, none)
        | some e => .ok (⟨r.1, e.2⟩, some e.1)) := by
      unfold ArtT.erase; rw [h1]; rfl
    have e1 : artErase (some t) key = match artEraseAt LEVELS t key 0 with
        | none => (none, some t)
        | some (v, r) => (some v, r) := rfl
    have e2 : artEraseAt LEVELS t key ([] : List Nat).length = artEraseAt LEVELS t key 0 := rfl
    rw [e2] at h
    rw [e0, e1]
    cases hr : artEraseAt LEVELS t key 0 with
    | none =>
      rw [hr] at h
      have h : ArtHeap.eraseAt key LEVELS a.heap r 0 = .ok (a.heap, none) := h
      exact ⟨⟨a.heap, a.root⟩, by rw [h]; rfl, r, F, h1, h2, h3, h4⟩
    | some z =>
      rw [hr] at h
      obtain ⟨v, t'⟩ := z
      cases t' with
      | none =>
        obtain ⟨H1, e3, hok, _⟩ := h
        have e3 : ArtHeap.eraseAt key LEVELS a.heap r 0 = _ := e3
        refine ⟨⟨H1, none⟩, by rw [e3]; rfl, rfl, hok.congr (fun x => ?_)⟩
        constructor
        · rintro ⟨h | h, h'⟩
          · exact absurd h h'
          · exact h
        · exact fun h => ⟨Or.inr h, fun h' => h4 x h' h⟩
      | some t' =>
        obtain ⟨H1, r', F', e3, hsim⟩ := h
        have e3 : ArtHeap.eraseAt key LEVELS a.heap r 0 = _ := e3
        refine ⟨⟨H1, some r'⟩, by rw [e3]; rfl, r', F', rfl, hsim.rep, hsim.hok.congr (fun x => ?_), ?_⟩
        · constructor
          · rintro (⟨h | h, h'⟩ | h)
            · exact absurd h h'
            · exact Or.inr h
            · exact Or.inl h
          · rintro (h | h)
            · exact Or.inr h
            · exact Or.inl ⟨Or.inr h, fun h' => h4 x h' h⟩
        · intro x hx hL
          rcases hsim.sub x hx with h | h | h
          · exact h4 x h hL
          · exact h
          · exact h (Or.inr hL)

theorem arep_find {a : ArtT V} {L : ArtRef → Prop} {root : Option (Art V)} (ha : ARep a L root) (ho : ArtOk root) {key : List Nat} (hk : IsKey key) :
    (artFind root key = none ∧ a.find key = .ok none) ∨
    ∃ v p, artFind root key = some v ∧ a.find key = .ok (some p) ∧ a.load p = .ok v ∧
      ∀ val, ∃ a', a.store p val = .ok a' ∧ ARep a' L (artStore root key val) := by
  cases root with
  | none =>
    refine Or.inl ⟨rfl, ?_⟩
    unfold ArtT.find
    rw [ha.1]
  | some t =>
    obtain ⟨r, F, h1, h2, h3, h4⟩ := ha
    have h := findAt_sim hk LEVELS (path := []) h2 (ho t rfl) List.nil_prefix (by decide)
    have e0 : a.find key = a.heap.findAt key LEVELS r 0 := by unfold ArtT.find; rw [h1]
    have e1 : artFind (some t) key = artFindAt LEVELS t key 0 := rfl
    have e2 : artFindAt LEVELS t key ([] : List Nat).length = artFindAt LEVELS t key 0 := rfl
    rw [e2] at h
    rw [e0, e1]
    cases hr : artFindAt LEVELS t key 0 with
    | none => rw [hr] at h; exact Or.inl ⟨rfl, h⟩
    | some v =>
      rw [hr] at h
      obtain ⟨l, a1, a2, a3, a4⟩ := h
      refine Or.inr ⟨v, a.heap.deref l, rfl, a1, ?_, fun val => ?_⟩
      · unfold ArtT.load
        rw [peekLeaf_ok (deref_valid _ l) a3]; rfl
      · obtain ⟨H1, e3, hw⟩ := poke_ok (deref_valid a.heap l) (h3.used l (Or.inl a2)) (.leaf key val)
        refine ⟨⟨H1, a.root⟩, ?_, r, F, h1, a4 val H1 hw, hw.hok h3 (Or.inl a2), h4⟩
        unfold ArtT.store
        rw [peekLeaf_ok (deref_valid _ l) a3, ok_bind]
        simp only
        rw [e3]; rfl

end
end CRoaring
