import Verif.Lemmas.Store64Validate
/-
The tree behind a validated array of nodes, and validation of bitmaps.
-/
set_option linter.unusedSimpArgs false
set_option linter.unusedVariables false
namespace CRoaring
open Spec

section
variable {V : Type}

/-- A place of an array has values of the declared types: six bytes of a key, bytes of a prefix, the fields of a node. -/
def SlotTyped : ArtSlot V → Prop
  | .leaf k _ => IsKey k
  | .inner pfx n => Bytes pfx ∧ NTyped n
  | .free _ => True

/-- All places have values of the declared types. -/
def HTyped (H : ArtHeap V) : Prop := ∀ x s, H.get x = some s → SlotTyped s

/-- A leaf with the key is reached from the place. -/
inductive Under (H : ArtHeap V) : ArtRef → List Nat → Prop
  | leaf {x : ArtRef} {k : List Nat} {v : V} (hg : H.get x = some (.leaf k v)) : Under H x k
  | inner {x s : ArtRef} {pfx : List Nat} {n : Node ArtRef} {c : Nat} {k : List Nat} (hg : H.get x = some (.inner pfx n)) (hf : n.find c = some s)
      (h : Under H s k) : Under H x k

theorem KOk.other {α : Type} {n : Node α} (h : KOk n) (c : Nat) : ∃ d s, d ≠ c ∧ n.find d = some s := by
  have h2 := h.card_ge
  unfold card at h2
  match e : enum 256 (fun c => (n.find c).isSome), h2 with
  | a :: b :: t, _ =>
    have hs : (enum 256 (fun c => (n.find c).isSome)).Pairwise (· < ·) := List.pairwise_lt_range.filter _
    have ha : (n.find a).isSome = true := (mem_enum (n := 256) (s := fun c => (n.find c).isSome)).1 (by rw [e]; simp) |>.2
    have hb : (n.find b).isSome = true := (mem_enum (n := 256) (s := fun c => (n.find c).isSome)).1 (by rw [e]; simp) |>.2
    have hlt : a < b := by rw [e, List.pairwise_cons] at hs; exact hs.1 b (by simp)
    obtain ⟨x, hx⟩ := Option.isSome_iff_exists.1 ha
    obtain ⟨y, hy⟩ := Option.isSome_iff_exists.1 hb
    by_cases hc : a = c
    · exact ⟨b, y, by omega, hy⟩
    · exact ⟨a, x, hc, hx⟩

theorem under_has {H : ArtHeap V} {r : ArtRef} {t : Art V} {F : ArtRef → Prop} (h : HRep H r t F) {x : ArtRef} (hx : F x) {k : List Nat} (hu : Under H x k) :
    ∃ v, Has t k v := by
  induction h generalizing x with
  | leaf ht hg hF =>
    have := (hF x).1 hx
    subst this
    cases hu with
    | leaf hg' => rw [hg] at hg'; cases hg'; exact ⟨_, .leaf _ _⟩
    | inner hg' => rw [hg] at hg'; cases hg'
  | @inner r pfx nr n Fs F ht hg hk hs hc he hd hr hF ih =>
    rcases (hF x).1 hx with e | ⟨c, hcx⟩
    · subst e
      cases hu with
      | leaf hg' => rw [hg] at hg'; cases hg'
      | inner hg' hf hu' =>
        rw [hg] at hg'; cases hg'
        obtain ⟨t', ht'⟩ := shape_some hs hf
        obtain ⟨v, hv⟩ := ih _ _ _ hf ht' (hc _ _ _ hf ht').root hu'
        exact ⟨v, .inner ht' hv⟩
    · cases hf : nr.find c with
      | none => exact absurd hcx (he c hf x)
      | some s =>
        obtain ⟨t', ht'⟩ := shape_some hs hf
        obtain ⟨v, hv⟩ := ih _ _ _ hf ht' hcx hu
        exact ⟨v, .inner ht' hv⟩

theorem has_under {H : ArtHeap V} {r : ArtRef} {t : Art V} {F : ArtRef → Prop} (h : HRep H r t F) {x : ArtRef} (hx : F x) : ∃ k v, Has t k v ∧ Under H x k := by
  induction h generalizing x with
  | leaf ht hg hF =>
    have := (hF x).1 hx
    subst this
    exact ⟨_, _, .leaf _ _, .leaf hg⟩
  | @inner r pfx nr n Fs F ht hg hk hs hc he hd hr hF ih =>
    rcases (hF x).1 hx with e | ⟨c, hcx⟩
    · subst e
      obtain ⟨d, s, -, hf⟩ := hk.other 0
      obtain ⟨t', ht'⟩ := shape_some hs hf
      obtain ⟨k, v, h1, h2⟩ := ih _ _ _ hf ht' (hc _ _ _ hf ht').root
      exact ⟨k, v, .inner ht' h1, .inner hg hf h2⟩
    · cases hf : nr.find c with
      | none => exact absurd hcx (he c hf x)
      | some s =>
        obtain ⟨t', ht'⟩ := shape_some hs hf
        obtain ⟨k, v, h1, h2⟩ := ih _ _ _ hf ht' hcx
        exact ⟨k, v, .inner ht' h1, h2⟩

theorem peekLeaf_get {H : ArtHeap V} {r : ArtRef} {x : List Nat × V} (h : H.peekLeaf (H.deref r) = .ok x) : H.get r = some (.leaf x.1 x.2) := by
  unfold ArtHeap.peekLeaf ArtHeap.peek at h
  rw [if_pos (show (H.deref r).gen = H.gen (H.deref r).ref.ty from rfl)] at h
  change (match H.get r with | some s => Out.ok s | none => .oob) >>= _ = _ at h
  cases e : H.get r with
  | none => rw [e] at h; cases h
  | some s =>
    rw [e] at h
    cases s with
    | leaf k v => cases h; rfl
    | inner _ _ => cases h
    | free _ => cases h

theorem peekInner_get {H : ArtHeap V} {r : ArtRef} {x : List Nat × Node ArtRef} (h : H.peekInner (H.deref r) = .ok x) :
    H.get r = some (.inner x.1 x.2) ∧ x.2.ty = r.ty := by
  unfold ArtHeap.peekInner ArtHeap.peek at h
  rw [if_pos (show (H.deref r).gen = H.gen (H.deref r).ref.ty from rfl)] at h
  change (match H.get r with | some s => Out.ok s | none => .oob) >>= _ = _ at h
  cases e : H.get r with
  | none => rw [e] at h; cases h
  | some s =>
    rw [e] at h
    cases s with
    | leaf k v => cases h
    | inner pfx n =>
      simp only [ok_bind] at h
      split at h
      · next ht => cases h; exact ⟨rfl, ht⟩
      · cases h
    | free _ => cases h

theorem bind_ok_true {α : Type} {x : Out α} {f : α → Out Bool} (h : (x >>= f) = .ok true) : ∃ a, x = .ok a ∧ f a = .ok true := by
  cases x with
  | oob => cases h
  | fail => cases h
  | ok a => exact ⟨a, rfl, h⟩

theorem kok_map {α β : Type} (f : α → β) {n : Node α} (h : KOk n) : KOk (n.map f) := by
  cases n with
  | n4 ks => exact ⟨⟨by simpa [mapKs, List.pairwise_map] using h.1.sorted, fun p hp => by
      obtain ⟨q, hq, rfl⟩ := List.mem_map.1 hp
      exact h.1.byte q hq⟩, by simpa [mapKs] using h.2⟩
  | n16 ks => exact ⟨⟨by simpa [mapKs, List.pairwise_map] using h.1.sorted, fun p hp => by
      obtain ⟨q, hq, rfl⟩ := List.mem_map.1 hp
      exact h.1.byte q hq⟩, by simpa [mapKs] using h.2⟩
  | n48 n =>
    obtain ⟨h, h2⟩ := h
    refine ⟨⟨h.kl, by simpa [N48.map] using h.cl, h.kb, h.inj, h.av, h.hi, fun i hi => ?_, h.cnt, h.cntA⟩, h2⟩
    have := h.ch i hi
    obtain ⟨x, hx⟩ := Option.isSome_iff_exists.1 this
    show ((n.children.map (Option.map f)).getD (n.K i) none).isSome = true
    rw [List.getD_eq_getElem?_getD] at hx ⊢
    rw [List.getElem?_map]
    cases e : n.children[n.K i]? with
    | none => rw [e] at hx; cases hx
    | some y => rw [e] at hx; simp at hx; subst hx; rfl
  | n256 n =>
    obtain ⟨h, h2⟩ := h
    refine ⟨⟨by simpa [N256.map] using h.cl, ?_⟩, h2⟩
    show _ = n.count
    rw [← h.cnt]
    refine card_congr fun c _ => ?_
    have := Node.find_map f (.n256 n) c
    have e : (n.map f).find c = (n.find c).map f := this
    rw [e]; cases n.find c <;> rfl

theorem prefix_last {p k : List Nat} {c d : Nat} (h1 : p ++ [c] <+: k) (h2 : p ++ [d] <+: k) : c = d := by
  have := (List.prefix_of_prefix_length_le h1 h2 (by simp)).eq_of_length (by simp)
  simpa using this

/-- What is accepted is a tree of the invariant: its nodes are at different places, and each leaf is accepted. -/
theorem validateAt_sound {H : ArtHeap V} (ht : HTyped H) {cb : V → Out Bool} : ∀ (fuel : Nat) (r : ArtRef) (path : List Nat), Bytes path → path.length ≤ 6 →
    H.validateAt cb fuel r path = .ok true → ∃ t F, HRep H r t F ∧ Inv path t ∧ ∀ k v, Has t k v → cb v = .ok true := by
  intro fuel
  induction fuel with
  | zero => intro r path _ _ h; cases h
  | succ fuel ih =>
    intro r path hb hl h
    rw [ArtHeap.validateAt] at h
    by_cases hty : r.ty = .leaf
    · rw [if_pos hty] at h
      obtain ⟨x, h1, h2⟩ := bind_ok_true h
      obtain ⟨k, v⟩ := x
      have hg := peekLeaf_get h1
      have hk : IsKey k := ht _ _ hg
      simp only at h2
      split at h2
      · cases h2
      next hp =>
      refine ⟨.leaf k v, fun x => x = r, .leaf hty hg (fun _ => Iff.rfl), .leaf hk ((leaf_prefix hk hb hl).1 (by simpa using hp)), fun k' v' hh => ?_⟩
      obtain ⟨-, rfl⟩ := has_leaf.1 hh
      exact h2
    · rw [if_neg hty] at h
      obtain ⟨x, h1, h2⟩ := bind_ok_true h
      obtain ⟨pfx, nr⟩ := x
      obtain ⟨hg, hnt⟩ := peekInner_get h1
      obtain ⟨hbp, hnty⟩ : Bytes pfx ∧ NTyped nr := ht _ _ hg
      simp only at h2 hnt
      split at h2
      · cases h2
      next hlen =>
      have hlt : path.length + pfx.length < 6 := by unfold KEY_BYTES at hlen; omega
      obtain ⟨hk, hinj, hrec⟩ := nodeValidateM_sound hnty h2
      have hch : ∀ c s, nr.find c = some s → ∃ t F, HRep H s t F ∧ Inv (path ++ pfx ++ [c]) t ∧ ∀ k v, Has t k v → cb v = .ok true := by
        intro c s hf
        refine ih s _ (fun b h => ?_) ?_ (hrec c s hf)
        · simp only [List.mem_append, List.mem_singleton] at h
          rcases h with (h | h) | h
          · exact hb b h
          · exact hbp b h
          · have := hk.find_lt hf; omega
        · simp only [List.length_append, List.length_singleton]; omega
      -- the tree and the places of each child
      have hex : ∀ s : ArtRef, ∃ p : Art V × (ArtRef → Prop), ∀ c, nr.find c = some s →
          HRep H s p.1 p.2 ∧ Inv (path ++ pfx ++ [c]) p.1 ∧ ∀ k v, Has p.1 k v → cb v = .ok true := by
        intro s
        by_cases hs : ∃ c, nr.find c = some s
        · obtain ⟨c, hc⟩ := hs
          obtain ⟨t, F, a⟩ := hch c s hc
          refine ⟨(t, F), fun d hd => ?_⟩
          have := hinj d c s hd hc
          subst this
          exact a
        · obtain ⟨d, s', -, hf⟩ := hk.other 0
          obtain ⟨t, F, -⟩ := hch d s' hf
          exact ⟨(t, F), fun c hc => absurd ⟨c, hc⟩ hs⟩
      obtain ⟨g, hgs⟩ := Classical.axiomOfChoice hex
      let Fs : Nat → ArtRef → Prop := fun c x => ∃ s, nr.find c = some s ∧ (g s).2 x
      have hfm : ∀ c, (nr.map fun s => (g s).1).find c = (nr.find c).map fun s => (g s).1 := fun c => Node.find_map _ nr c
      have hHas : ∀ c x k, Fs c x → Under H x k → path ++ pfx ++ [c] <+: k := by
        rintro c x k ⟨s, hf, hx⟩ hu
        obtain ⟨a1, a2, -⟩ := hgs s c hf
        obtain ⟨v, hv⟩ := under_has a1 hx hu
        exact (a2.key hv).2
      have hUn : ∀ c x, Fs c x → ∃ k, Under H x k := by
        rintro c x ⟨s, hf, hx⟩
        obtain ⟨k, v, -, hu⟩ := has_under (hgs s c hf).1 hx
        exact ⟨k, hu⟩
      refine ⟨.inner pfx (nr.map fun s => (g s).1), fun x => x = r ∨ ∃ c, Fs c x, ?_, ?_, ?_⟩
      · refine .inner hnt hg hk ?_ (Fs := Fs) ?_ ?_ ?_ ?_ (fun _ => Iff.rfl)
        · unfold Node.shape
          cases nr <;> simp [Node.map, mapKs, N48.map, N256.map]
        · intro c s t h3 h4
          rw [hfm, h3] at h4
          cases h4
          refine (hgs s c h3).1.congr fun x => ⟨fun hx => ⟨s, h3, hx⟩, ?_⟩
          rintro ⟨s', h5, hx⟩
          rw [h3] at h5; cases h5; exact hx
        · rintro c hn x ⟨s, h5, -⟩
          rw [hn] at h5; cases h5
        · intro c d x hne hc hd
          obtain ⟨k, hu⟩ := hUn c x hc
          exact hne (prefix_last (hHas c x k hc hu) (hHas d x k hd hu))
        · intro c hc
          obtain ⟨d, s, hne, hf⟩ := hk.other c
          obtain ⟨k, hu⟩ := hUn d s ⟨s, hf, (hgs s d hf).1.root⟩
          exact hne (prefix_last (hHas d s k ⟨s, hf, (hgs s d hf).1.root⟩ hu) (hHas c r k hc (.inner hg hf hu)))
      · refine .inner (kok_map _ hk) hlt hbp fun c t hf => ?_
        rw [hfm] at hf
        cases e : nr.find c with
        | none => rw [e] at hf; cases hf
        | some s => rw [e] at hf; cases hf; exact (hgs s c e).2.1
      · intro k v hv
        obtain ⟨c, t, hf, hh⟩ := has_inner.1 hv
        rw [hfm] at hf
        cases e : nr.find c with
        | none => rw [e] at hf; cases hf
        | some s => rw [e] at hf; cases hf; exact (hgs s c e).2.2 k v hh

/-- The answer, or no. -/
def Out.yes (x : Out Bool) : Bool := match x with | .ok b => b | _ => false

/-- Of a tree of the invariant the answer is that of the leaves. -/
theorem validateAt_complete {H : ArtHeap V} {cb : V → Out Bool} {r : ArtRef} {t : Art V} {F : ArtRef → Prop} (h : HRep H r t F) :
    ∀ {fuel : Nat} {path : List Nat}, Bytes path → path.length ≤ 6 → 7 ≤ fuel + path.length → Inv path t → (∀ k v, Has t k v → ∃ b, cb v = .ok b) →
    ∃ b, H.validateAt cb fuel r path = .ok b ∧ (b = true ↔ ∀ k v, Has t k v → cb v = .ok true) := by
  induction h with
  | @leaf r k v F ht hg hF =>
    intro fuel path hb hl hf hi hcb
    obtain ⟨fuel, rfl⟩ : ∃ n, fuel = n + 1 := ⟨fuel - 1, by omega⟩
    cases hi with
    | leaf hk hp =>
      obtain ⟨b, e⟩ := hcb k v (.leaf _ _)
      refine ⟨b, ?_, ?_⟩
      · rw [ArtHeap.validateAt, if_pos ht, peekLeaf_ok (deref_valid H r) hg, ok_bind, if_neg (by simpa using (leaf_prefix hk hb hl).2 hp), e]
      · constructor
        · intro hb k' v' hh
          obtain ⟨-, rfl⟩ := has_leaf.1 hh
          rw [e, hb]
        · intro hh
          have := hh _ _ (.leaf k v)
          rw [e] at this
          cases this; rfl
  | @inner r pfx nr n Fs F ht hg hk hs hc he hd hr hF ih =>
    intro fuel path hb hl hf hi hcb
    obtain ⟨fuel, rfl⟩ : ∃ n, fuel = n + 1 := ⟨fuel - 1, by omega⟩
    cases hi with
    | inner hn hlt hbp hci =>
      have hrec : ∀ c s t', nr.find c = some s → n.find c = some t' →
          ∃ b, H.validateAt cb fuel s (path ++ pfx ++ [c]) = .ok b ∧ (b = true ↔ ∀ k v, Has t' k v → cb v = .ok true) := by
        intro c s t' h1 h2
        refine ih c s t' h1 h2 (fun b h => ?_) ?_ ?_ (hci c t' h2) (fun k v hh => hcb k v (.inner h2 hh))
        · simp only [List.mem_append, List.mem_singleton] at h
          rcases h with (h | h) | h
          · exact hb b h
          · exact hbp b h
          · have := hk.find_lt h1; omega
        · simp only [List.length_append, List.length_singleton]; omega
        · simp only [List.length_append, List.length_singleton]; omega
      have hinj : NInj nr := by
        intro c d s h1 h2
        by_cases hcd : c = d
        · exact hcd
        · obtain ⟨t1, e1⟩ := shape_some hs h1
          obtain ⟨t2, e2⟩ := shape_some hs h2
          exact absurd (hc d s t2 h2 e2).root (hd c d s hcd (hc c s t1 h1 e1).root)
      obtain ⟨b, h1, h2⟩ := nodeValidateM_complete (rec := fun child key => H.validateAt cb fuel child (path ++ pfx ++ [key]))
        (P := fun child key => (H.validateAt cb fuel child (path ++ pfx ++ [key])).yes) hk hinj (fun c s hf => by
          obtain ⟨t', e⟩ := shape_some hs hf
          obtain ⟨b, h1, -⟩ := hrec c s t' hf e
          simp only [h1, Out.yes])
      have hnl : ¬ r.ty = .leaf := by rw [← ht]; exact ty_ne_leaf nr
      refine ⟨b, ?_, h2.trans ?_⟩
      · rw [ArtHeap.validateAt, if_neg hnl, peekInner_ok (deref_valid H r) hg ht, ok_bind]
        simp only
        rw [if_neg (by unfold KEY_BYTES; omega)]
        exact h1
      · constructor
        · intro hh k v hv
          obtain ⟨c, t', hf, hv⟩ := has_inner.1 hv
          obtain ⟨s, e⟩ := shape_some hs.symm hf
          obtain ⟨b, g1, g2⟩ := hrec c s t' e hf
          have := hh c s e
          rw [g1] at this
          exact g2.1 this k v hv
        · intro hh c s hf
          obtain ⟨t', e⟩ := shape_some hs hf
          obtain ⟨b, g1, g2⟩ := hrec c s t' hf e
          rw [g1]
          exact g2.2 fun k v hv => hh k v (.inner e hv)

end

end CRoaring
