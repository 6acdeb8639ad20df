import Verif.Lemmas.ArtHeapShrink
/-
Shrinking: the walk over the tree, and the arrays cut.
-/
set_option linter.unusedSimpArgs false
set_option linter.unusedVariables false
namespace CRoaring
open Spec

section
variable {V : Type}

theorem Poked.ord {H H' : ArtHeap V} {r : ArtRef} {s : ArtSlot V} (hw : Poked H H' r s) {U : ArtRef → Prop} {P : ArtTy → Prop} (h : HOrd H U P) (hr : U r) :
    HOrd H' U P := by
  refine ⟨fun x hx => by rw [hw.len]; exact h.used x hx, fun t => ?_⟩
  obtain ⟨l, h1, h2, h3, h4⟩ := h.free t
  refine ⟨l, h1, fun i => by rw [hw.len]; exact h2 i, ?_, h4⟩
  rw [hw.first]
  refine Chain.congr (hw.len t) (fun x hx => ?_) h3
  rw [hw.get, if_neg]
  intro e
  exact ((h2 x).1 hx).2 (e ▸ hr)

/-- The root of a tree at another place. -/
theorem HRep.move {H H' : ArtHeap V} {s s' : ArtRef} {t : Art V} {F : ArtRef → Prop} (h : HRep H s t F) (ht : s'.ty = s.ty) (hg : H'.get s' = H.get s)
    (hx : ∀ x, F x → x ≠ s → H'.get x = H.get x) (hn : s' = s ∨ ¬ F s') : HRep H' s' t (fun x => (F x ∧ x ≠ s) ∨ x = s') := by
  cases h with
  | @leaf _ k v _ h1 h2 h3 =>
    refine .leaf (ht.trans h1) (hg.trans h2) (fun x => ?_)
    constructor
    · rintro (⟨h, h'⟩ | h)
      · exact absurd ((h3 x).1 h) h'
      · exact h
    · exact Or.inr
  | @inner _ pfx nr n Fs _ h1 h2 hk hs hc he hd hr hF =>
    refine .inner (Fs := Fs) (h1.trans ht.symm) (hg.trans h2) hk hs (fun c u t a1 a2 => ?_) he hd (fun c h => ?_) (fun x => ?_)
    · refine (hc c u t a1 a2).frame (fun x h => hx x ((hF x).2 (Or.inr ⟨c, h⟩)) (fun e => hr c (e ▸ h)))
    · rcases hn with rfl | hn
      · exact hr c h
      · exact hn ((hF _).2 (Or.inr ⟨c, h⟩))
    · constructor
      · rintro (⟨h, h'⟩ | h)
        · rcases (hF x).1 h with h | h
          · exact absurd h h'
          · exact Or.inr h
        · exact Or.inl h
      · rintro (h | ⟨c, h⟩)
        · exact Or.inr h
        · exact Or.inl ⟨(hF x).2 (Or.inr ⟨c, h⟩), fun e => hr c (e ▸ h)⟩

/-- The tree is still at `r`, all its other nodes at low places. -/
structure Compacted (H H' : ArtHeap V) (U F : ArtRef → Prop) (r : ArtRef) (t : Art V) (F' : ArtRef → Prop) : Prop where
  rep : HRep H' r t F'
  ord : HOrd H' (fun x => (U x ∧ ¬ F x) ∨ F' x) (fun _ => True)
  frame : ∀ x, U x → ¬ F x → H'.get x = H.get x
  sub : ∀ x, F' x → F x ∨ ¬ U x
  low : ∀ x, F' x → x = r ∨ x.idx < H'.first x.ty
  mono : ∀ t, H.first t ≤ H'.first t
  len : ∀ t, (H'.nodes t).length = (H.nodes t).length
  gen : H'.gen = H.gen

/-- Between two rounds of the loop over the children; the children under the bytes `D` are done. -/
structure Midway (H0 : ArtHeap V) (U F : ArtRef → Prop) (r : ArtRef) (pfx : List Nat) (nr0 : Node ArtRef) (n : Node (Art V)) (H : ArtHeap V) (nr : Node ArtRef)
    (Fs : Nat → ArtRef → Prop) (D : Nat → Prop) : Prop where
  ty : nr.ty = r.ty
  get : H.get r = some (.inner pfx nr)
  kok : KOk nr
  shape : nr.shape = n.shape
  kids : ∀ c s t, nr.find c = some s → n.find c = some t → HRep H s t (Fs c)
  none : ∀ c, nr.find c = none → ∀ x, ¬ Fs c x
  disj : ∀ c d x, c ≠ d → Fs c x → ¬ Fs d x
  root : ∀ c, ¬ Fs c r
  ord : HOrd H (fun x => (U x ∧ ¬ F x) ∨ x = r ∨ ∃ c, Fs c x) (fun _ => True)
  frame : ∀ x, U x → ¬ F x → H.get x = H0.get x
  sub : ∀ c x, Fs c x → F x ∨ ¬ U x
  low : ∀ c x, D c → Fs c x → x.idx < H.first x.ty
  mono : ∀ t, H0.first t ≤ H.first t
  len : ∀ t, (H.nodes t).length = (H0.nodes t).length
  gen : H.gen = H0.gen

/-- What the loop body does to the child under `c`. -/
def shrinkBody (fuel : Nat) (p : ArtPtr) (H' : ArtHeap V) (c : Nat) : Out (ArtHeap V) := do
  let i ← H'.peekInner p
  match i.2.find c with
  | none => .ok H'
  | some child => do
    let m ← H'.moveToShrink child
    let H'' ← m.1.nodeReplace p c m.2
    ArtHeap.shrinkAt fuel H'' m.2

theorem shrinkAt_succ (fuel : Nat) (H : ArtHeap V) (ref : ArtRef) : ArtHeap.shrinkAt (fuel + 1) H ref =
    if ref.ty = .leaf then .ok H else (do
      let n ← H.peekInner (H.deref ref)
      n.2.bytes.foldlM (shrinkBody fuel (H.deref ref)) H) := rfl

theorem body_ok {fuel : Nat} {H0 : ArtHeap V} {U F : ArtRef → Prop} {r : ArtRef} {pfx : List Nat} {nr0 : Node ArtRef} {n : Node (Art V)}
    (hrF : F r) (hrU : U r) (hpl : pfx.length < 6)
    (ih : ∀ {H : ArtHeap V} {U F : ArtRef → Prop} {s : ArtRef} {t : Art V} {c : Nat}, n.find c = some t → HRep H s t F → HOrd H U (fun _ => True) →
      (∀ x, F x → U x) → ∃ H' F', ArtHeap.shrinkAt fuel H s = .ok H' ∧ Compacted H H' U F s t F')
    {H : ArtHeap V} {nr : Node ArtRef} {Fs : Nat → ArtRef → Prop} {D : Nat → Prop} (h : Midway H0 U F r pfx nr0 n H nr Fs D) (c : Nat) :
    ∃ H' nr' Fs', shrinkBody fuel (H0.deref r) H c = .ok H' ∧ Midway H0 U F r pfx nr0 n H' nr' Fs' (fun d => D d ∨ d = c) := by
  have hv : (H0.deref r).valid H := by unfold ArtPtr.valid; rw [h.gen]; rfl
  unfold shrinkBody
  rw [peekInner_ok hv h.get h.ty, ok_bind]
  cases hx : nr.find c with
  | none =>
    refine ⟨H, nr, Fs, ?_, { h with low := ?_ }⟩
    · simp only [hx]
    · rintro d x (hd | rfl) hf
      · exact h.low d x hd hf
      · exact absurd hf (h.none d hx x)
  | some s =>
    obtain ⟨t, hy⟩ := shape_some h.shape hx
    simp only [hx]
    have hrep := h.kids c s t hx hy
    have hs : Fs c s := hrep.root
    have hsr : s ≠ r := fun e => h.root c (e ▸ hs)
    obtain ⟨H2, s', e2, hsh⟩ := moveToShrink_ok h.ord (r := s) (Or.inr (Or.inr ⟨c, hs⟩))
    rw [e2, ok_bind]
    simp only
    have hgr2 : H2.get r = some (.inner pfx nr) := by
      rw [hsh.frame r (Or.inr (Or.inl rfl)) hsr.symm]; exact h.get
    have hv2 : (H0.deref r).valid H2 := by unfold ArtPtr.valid; rw [hsh.gen, h.gen]; rfl
    have hsr' : s' ≠ r := by
      rcases hsh.new with e | e
      · rw [e]; exact hsr
      · rintro rfl; exact e (Or.inr (Or.inl rfl))
    have hru2 : (fun x => (((U x ∧ ¬ F x) ∨ x = r ∨ ∃ c, Fs c x) ∧ x ≠ s) ∨ x = s') r := Or.inl ⟨Or.inr (Or.inl rfl), hsr.symm⟩
    obtain ⟨k1, k2⟩ := h.kok.replace hx s'
    have hty' : (nr.replace c s').ty = nr.ty := shape_ty (shape_replace hx s')
    obtain ⟨H3, e3, hw⟩ := pokeInner_ok hv2 (hsh.ord.used r hru2) hpl (nr.replace c s')
    have hw : Poked H2 H3 r (.inner pfx (nr.replace c s')) := hw
    have er : H2.nodeReplace (H0.deref r) c s' = .ok H3 := by
      unfold ArtHeap.nodeReplace
      rw [peekInner_ok hv2 hgr2 h.ty, ok_bind, e3]
    rw [er, ok_bind]
    have hord3 := hw.ord hsh.ord hru2
    -- the subtree at its new root
    have hsn : s' = s ∨ ¬ Fs c s' := by
      rcases hsh.new with e | e
      · exact Or.inl e
      · exact Or.inr (fun h' => e (Or.inr (Or.inr ⟨c, h'⟩)))
    have hrep3 : HRep H3 s' t (fun x => (Fs c x ∧ x ≠ s) ∨ x = s') := by
      refine hrep.move hsh.ty ?_ (fun x hf hxs => ?_) hsn
      · rw [hw.get, if_neg hsr']; exact hsh.here
      · rw [hw.get, if_neg (show x ≠ r from fun e => h.root c (e ▸ hf))]
        exact hsh.frame x (Or.inr (Or.inr ⟨c, hf⟩)) hxs
    obtain ⟨H4, F4, e4, hcp⟩ := ih hy hrep3 hord3 (by
      rintro x (⟨h1, h2⟩ | h1)
      · exact Or.inl ⟨Or.inr (Or.inr ⟨c, h1⟩), h2⟩
      · exact Or.inr h1)
    have hsub4 : ∀ x, F4 x → Fs c x ∨ ¬ ((U x ∧ ¬ F x) ∨ x = r ∨ ∃ c, Fs c x) := by
      intro x hx4
      rcases hcp.sub x hx4 with (⟨h1, _⟩ | h1) | h1
      · exact Or.inl h1
      · subst h1
        rcases hsh.new with e | e
        · exact Or.inl (e ▸ hs)
        · exact Or.inr e
      · by_cases hxs : x = s
        · exact Or.inl (hxs ▸ hs)
        · exact Or.inr (fun h' => h1 (Or.inl ⟨h', hxs⟩))
    have hd4 : ∀ d x, d ≠ c → Fs d x → ¬ F4 x := by
      intro d x hdc hf h4
      rcases hsub4 x h4 with h' | h'
      · exact h.disj d c x hdc hf h'
      · exact h' (Or.inr (Or.inr ⟨d, hf⟩))
    have hr4 : ¬ F4 r := by
      intro h4
      rcases hsub4 r h4 with h' | h'
      · exact h.root c h'
      · exact h' (Or.inr (Or.inl rfl))
    have hout : ∀ x, ((U x ∧ ¬ F x) ∨ x = r ∨ ∃ d, Fs d x) → ¬ Fs c x → H4.get x = H3.get x := by
      intro x hux hfc
      refine hcp.frame x (Or.inl ⟨hux, fun e => hfc (e ▸ hs)⟩) ?_
      rintro (⟨h1, _⟩ | h1)
      · exact hfc h1
      · rcases hsh.new with e | e
        · rw [h1, e] at hfc; exact hfc hs
        · exact e (h1 ▸ hux)
    refine ⟨H4, nr.replace c s', fun d => if d = c then F4 else Fs d, e4, hty'.trans h.ty, ?_, k1, (shape_replace hx s').trans h.shape, ?_, ?_, ?_, ?_, ?_, ?_, ?_, ?_, ?_,
      ?_, ?_⟩
    · rw [hout r (Or.inr (Or.inl rfl)) (h.root c), hw.get, if_pos rfl]
    · intro d u t' a1 a2
      rw [k2] at a1
      by_cases e : d = c
      · subst e
        rw [if_pos rfl] at a1 ⊢
        cases a1
        rw [hy] at a2; cases a2
        exact hcp.rep
      · rw [if_neg e] at a1 ⊢
        refine (h.kids d u t' a1 a2).frame (fun x hf => ?_)
        rw [hout x (Or.inr (Or.inr ⟨d, hf⟩)) (h.disj d c x e hf), hw.get, if_neg (show x ≠ r from fun e' => h.root d (e' ▸ hf))]
        exact hsh.frame x (Or.inr (Or.inr ⟨d, hf⟩)) (fun e' => h.disj d c x e hf (e' ▸ hs))
    · intro d hdn x
      rw [k2] at hdn
      by_cases e : d = c
      · rw [if_pos e] at hdn; cases hdn
      · rw [if_neg e] at hdn ⊢
        exact h.none d hdn x
    · intro d e x hde
      by_cases h1 : d = c
      · by_cases h2 : e = c
        · exact absurd (h1.trans h2.symm) hde
        · rw [if_pos h1, if_neg h2]
          exact fun a b => hd4 e x h2 b a
      · by_cases h2 : e = c
        · rw [if_neg h1, if_pos h2]
          exact fun a b => hd4 d x h1 a b
        · rw [if_neg h1, if_neg h2]
          exact h.disj d e x hde
    · intro d
      by_cases e : d = c
      · rw [if_pos e]; exact hr4
      · rw [if_neg e]; exact h.root d
    · refine hcp.ord.congr (fun x => ?_)
      constructor
      · rintro (⟨h1, h2⟩ | h1)
        · rcases h1 with ⟨h1 | h1 | ⟨d, h1⟩, h3⟩ | h1
          · exact Or.inl h1
          · exact Or.inr (Or.inl h1)
          · by_cases e : d = c
            · subst e; exact absurd (Or.inl ⟨h1, h3⟩) h2
            · exact Or.inr (Or.inr ⟨d, by rw [if_neg e]; exact h1⟩)
          · exact absurd (Or.inr h1) h2
        · exact Or.inr (Or.inr ⟨c, by rw [if_pos rfl]; exact h1⟩)
      · have notin : ∀ x, ((U x ∧ ¬ F x) ∨ x = r ∨ ∃ d, Fs d x) → ¬ Fs c x →
            ((((U x ∧ ¬ F x) ∨ x = r ∨ ∃ c, Fs c x) ∧ x ≠ s) ∨ x = s') ∧ ¬ ((Fs c x ∧ x ≠ s) ∨ x = s') := by
          intro x hux hfc
          refine ⟨Or.inl ⟨hux, fun e => hfc (e ▸ hs)⟩, ?_⟩
          rintro (⟨h1, _⟩ | h1)
          · exact hfc h1
          · rcases hsh.new with e | e
            · rw [h1, e] at hfc; exact hfc hs
            · exact e (h1 ▸ hux)
        rintro (h1 | rfl | ⟨d, h1⟩)
        · refine Or.inl (notin x (Or.inl h1) (fun hf => ?_))
          rcases h.sub c x hf with h' | h'
          · exact h1.2 h'
          · exact h' h1.1
        · exact Or.inl (notin x (Or.inr (Or.inl rfl)) (h.root c))
        · by_cases e : d = c
          · rw [if_pos e] at h1; exact Or.inr h1
          · rw [if_neg e] at h1
            exact Or.inl (notin x (Or.inr (Or.inr ⟨d, h1⟩)) (h.disj d c x e h1))
    · intro x hu hf
      have hnc : ¬ Fs c x := fun hfc => by
        rcases h.sub c x hfc with h' | h'
        · exact hf h'
        · exact h' hu
      rw [hout x (Or.inl ⟨hu, hf⟩) hnc, hw.get, if_neg (show x ≠ r from fun e => hf (e ▸ hrF)), hsh.frame x (Or.inl ⟨hu, hf⟩) (fun e => hnc (e ▸ hs))]
      exact h.frame x hu hf
    · intro d x
      by_cases e : d = c
      · rw [if_pos e]
        intro h4
        rcases hsub4 x h4 with h' | h'
        · exact h.sub c x h'
        · by_cases hxF : F x
          · exact Or.inl hxF
          · exact Or.inr (fun hu => h' (Or.inl ⟨hu, hxF⟩))
      · rw [if_neg e]; exact h.sub d x
    · intro d x hD
      have hm : ∀ t, H.first t ≤ H4.first t := fun t => by
        have h1 := hsh.mono t
        have h2 := hcp.mono t
        rw [hw.first] at h2
        omega
      by_cases e : d = c
      · rw [if_pos e]
        intro h4
        rcases hcp.low x h4 with h' | h'
        · subst h'
          have h1 := hsh.low
          have h2 := hcp.mono x.ty
          rw [hw.first] at h2
          omega
        · exact h'
      · rw [if_neg e]
        intro hf
        have h1 := h.low d x (by rcases hD with hD | hD; exact hD; exact absurd hD e) hf
        have := hm x.ty
        omega
    · intro u
      have h1 := h.mono u
      have h2 := hsh.mono u
      have h3 := hcp.mono u
      rw [hw.first] at h3
      omega
    · intro u
      rw [hcp.len, hw.len, hsh.len, h.len]
    · rw [hcp.gen, hw.gen, hsh.gen, h.gen]

theorem loop_ok {fuel : Nat} {H0 : ArtHeap V} {U F : ArtRef → Prop} {r : ArtRef} {pfx : List Nat} {nr0 : Node ArtRef} {n : Node (Art V)}
    (hrF : F r) (hrU : U r) (hpl : pfx.length < 6)
    (ih : ∀ {H : ArtHeap V} {U F : ArtRef → Prop} {s : ArtRef} {t : Art V} {c : Nat}, n.find c = some t → HRep H s t F → HOrd H U (fun _ => True) →
      (∀ x, F x → U x) → ∃ H' F', ArtHeap.shrinkAt fuel H s = .ok H' ∧ Compacted H H' U F s t F') :
    ∀ (cs : List Nat) {H : ArtHeap V} {nr : Node ArtRef} {Fs : Nat → ArtRef → Prop} {D : Nat → Prop}, Midway H0 U F r pfx nr0 n H nr Fs D →
    ∃ H' nr' Fs', cs.foldlM (shrinkBody fuel (H0.deref r)) H = .ok H' ∧ Midway H0 U F r pfx nr0 n H' nr' Fs' (fun d => D d ∨ d ∈ cs)
  | [], H, nr, Fs, D, h => ⟨H, nr, Fs, rfl, by simpa using h⟩
  | c :: cs, H, nr, Fs, D, h => by
    obtain ⟨H1, nr1, Fs1, e1, h1⟩ := body_ok hrF hrU hpl ih h c
    obtain ⟨H2, nr2, Fs2, e2, h2⟩ := loop_ok hrF hrU hpl ih cs h1
    refine ⟨H2, nr2, Fs2, ?_, { h2 with low := ?_ }⟩
    · rw [List.foldlM_cons, e1, ok_bind, e2]
    · intro d x hd
      refine h2.low d x ?_
      rcases hd with hd | hd
      · exact Or.inl (Or.inl hd)
      · rcases List.mem_cons.1 hd with rfl | hd
        · exact Or.inl (Or.inr rfl)
        · exact Or.inr hd

theorem mem_bytes {α : Type} {n : Node α} (h : KOk n) {c : Nat} {x : α} (hx : n.find c = some x) : c ∈ n.bytes := by
  have hks : ∀ ks : List (Nat × α), findKs ks c = some x → c ∈ ks.map Prod.fst := by
    intro ks hf
    by_cases hm : c ∈ ks.map Prod.fst
    · exact hm
    · rw [(findKs_eq_none (c := c)).2 (fun p hp e => hm (List.mem_map.2 ⟨p, hp, e⟩))] at hf; cases hf
  have hlt := h.find_lt hx
  cases n with
  | n4 ks => exact hks ks hx
  | n16 ks => exact hks ks hx
  | n48 n => exact List.mem_range.2 hlt
  | n256 n => exact List.mem_range.2 hlt

theorem shrinkAt_ok (fuel : Nat) {H : ArtHeap V} {U F : ArtRef → Prop} {r : ArtRef} {t : Art V} {path : List Nat} (hrep : HRep H r t F) (hi : Inv path t)
    (ho : HOrd H U (fun _ => True)) (hFU : ∀ x, F x → U x) (hf : 6 ≤ fuel + path.length) :
    ∃ H' F', ArtHeap.shrinkAt fuel H r = .ok H' ∧ Compacted H H' U F r t F' := by
  have leafCase : ∀ fuel, r.ty = .leaf → (∀ x, F x → x = r) → ∃ H' F', ArtHeap.shrinkAt fuel H r = .ok H' ∧ Compacted H H' U F r t F' := by
    intro fuel hty hF
    refine ⟨H, F, ?_, hrep, ho.congr (fun x => ?_), fun _ _ _ => rfl, fun x h => Or.inl h, fun x h => Or.inl (hF x h), fun _ => Nat.le_refl _, fun _ => rfl, rfl⟩
    · cases fuel <;> (unfold ArtHeap.shrinkAt; rw [if_pos hty])
    · constructor
      · intro hx
        by_cases e : F x
        · exact Or.inr e
        · exact Or.inl ⟨hx, e⟩
      · rintro (h | h)
        · exact h.1
        · exact hFU x h
  induction fuel generalizing H U F r t path with
  | zero =>
    cases hi with
    | leaf => cases hrep with | leaf ht hg hF => exact leafCase 0 ht (fun x h => (hF x).1 h)
    | inner h1 hl => omega
  | succ fuel ih =>
    cases hi with
    | leaf => cases hrep with | leaf ht hg hF => exact leafCase _ ht (fun x h => (hF x).1 h)
    | @inner _ pfx n hok hl hb hc =>
      have hrF := hrep.root
      cases hrep with
      | @inner _ _ nr _ Fs _ ht hg hk hs hch he hd hr hF =>
        have hnl : ¬ r.ty = .leaf := by rw [← ht]; exact ty_ne_leaf nr
        rw [shrinkAt_succ, if_neg hnl, peekInner_ok (deref_valid H r) hg ht, ok_bind]
        have hm : Midway H U F r pfx nr n H nr Fs (fun _ => False) := by
          refine ⟨ht, hg, hk, hs, hch, he, hd, hr, ho.congr (fun x => ?_), fun _ _ _ => rfl, fun c x h => Or.inl ((hF x).2 (Or.inr ⟨c, h⟩)),
            fun _ _ h => h.elim, fun _ => Nat.le_refl _, fun _ => rfl, rfl⟩
          constructor
          · intro hx
            by_cases e : F x
            · exact Or.inr ((hF x).1 e)
            · exact Or.inl ⟨hx, e⟩
          · rintro (h | h)
            · exact h.1
            · exact hFU x ((hF x).2 h)
        have ih' : ∀ {H : ArtHeap V} {U F : ArtRef → Prop} {s : ArtRef} {t : Art V} {c : Nat}, n.find c = some t → HRep H s t F → HOrd H U (fun _ => True) →
            (∀ x, F x → U x) → ∃ H' F', ArtHeap.shrinkAt fuel H s = .ok H' ∧ Compacted H H' U F s t F' := by
          intro H' U' F' s t' c hy hrep' ho' hFU'
          refine ih (path := path ++ pfx ++ [c]) hrep' (hc c t' hy) ho' hFU' (by simp; omega) ?_
          intro fuel' hty hF'
          refine ⟨H', F', ?_, hrep', ho'.congr (fun x => ?_), fun _ _ _ => rfl, fun x h => Or.inl h, fun x h => Or.inl (hF' x h), fun _ => Nat.le_refl _,
            fun _ => rfl, rfl⟩
          · cases fuel' <;> (unfold ArtHeap.shrinkAt; rw [if_pos hty])
          · constructor
            · intro hx
              by_cases e : F' x
              · exact Or.inr e
              · exact Or.inl ⟨hx, e⟩
            · rintro (h | h)
              · exact h.1
              · exact hFU' x h
        obtain ⟨H', nr', Fs', e, h⟩ := loop_ok hrF (hFU r hrF) (by omega) ih' nr.bytes hm
        refine ⟨H', fun x => x = r ∨ ∃ c, Fs' c x, e, .inner h.ty h.get h.kok h.shape h.kids h.none h.disj h.root (fun _ => Iff.rfl), h.ord, h.frame, ?_, ?_, h.mono,
          h.len, h.gen⟩
        · rintro x (rfl | ⟨c, hx⟩)
          · exact Or.inl hrF
          · exact h.sub c x hx
        · rintro x (rfl | ⟨c, hx⟩)
          · exact Or.inl rfl
          · right
            refine h.low c x (Or.inr ?_) hx
            cases hx' : nr'.find c with
            | none => exact absurd hx (h.none c hx' x)
            | some u =>
              obtain ⟨w, hw⟩ := shape_some (h.shape.trans hs.symm) hx'
              exact mem_bytes hk hw

/-! ### The arrays cut -/

theorem cutArray_nodes {H : ArtHeap V} {t : ArtTy} (h : H.first t ≤ (H.nodes t).length) (u : ArtTy) :
    (H.cutArray t).1.nodes u = if u = t then (H.nodes u).take (H.first u) else H.nodes u := by
  unfold ArtHeap.cutArray
  split
  · by_cases e : u = t
    · subst e; simp [updTy_same]
    · simp [updTy_ne _ _ e, e]
  · split
    · rename_i h1 e
      subst e
      rw [List.take_of_length_le (by omega)]
    · rfl

theorem cutArray_first (H : ArtHeap V) (t : ArtTy) : (H.cutArray t).1.first = H.first := by
  unfold ArtHeap.cutArray; split <;> rfl

theorem cutArray_freed {H : ArtHeap V} {t : ArtTy} (h : H.first t ≤ (H.nodes t).length) : (H.cutArray t).2 = ((H.nodes t).length - H.first t) * t.size := by
  unfold ArtHeap.cutArray
  split
  · rfl
  · rw [show (H.nodes t).length - H.first t = 0 by omega, Nat.zero_mul]

theorem cutFold_ok : ∀ (ts : List ArtTy) (H : ArtHeap V) (f : Nat), ts.Nodup → (∀ t, H.first t ≤ (H.nodes t).length) →
    let r := ts.foldl (fun p t => ((p.1.cutArray t).1, p.2 + (p.1.cutArray t).2)) (H, f)
    (∀ u, r.1.nodes u = if u ∈ ts then (H.nodes u).take (H.first u) else H.nodes u) ∧ r.1.first = H.first ∧
      r.2 = f + (ts.map (fun t => ((H.nodes t).length - H.first t) * t.size)).sum
  | [], H, f, _, _ => by simp
  | t :: ts, H, f, hn, h => by
    rw [List.nodup_cons] at hn
    have hc : ∀ u, (H.cutArray t).1.first u ≤ ((H.cutArray t).1.nodes u).length := by
      intro u
      rw [cutArray_first, cutArray_nodes (h t)]
      split
      · rw [List.length_take]; have := h u; omega
      · exact h u
    obtain ⟨h1, h2, h3⟩ := cutFold_ok ts (H.cutArray t).1 (f + (H.cutArray t).2) hn.2 hc
    simp only [List.foldl_cons]
    refine ⟨fun u => ?_, by rw [h2, cutArray_first], ?_⟩
    · rw [h1, cutArray_first, cutArray_nodes (h t)]
      by_cases e : u = t
      · subst e
        simp [hn.1]
      · simp [e]
    · rw [h3, cutArray_freed (h t), List.map_cons, List.sum_cons, Nat.add_assoc]
      congr 2
      refine congrArg List.sum (List.map_congr_left (fun u hu => ?_))
      have : u ≠ t := fun e => hn.1 (e ▸ hu)
      rw [cutArray_first, cutArray_nodes (h t), if_neg this]

theorem cutArrays_ok {H : ArtHeap V} (h : ∀ t, H.first t ≤ (H.nodes t).length) :
    (∀ u, H.cutArrays.1.nodes u = (H.nodes u).take (H.first u)) ∧ H.cutArrays.1.first = H.first ∧
      H.cutArrays.2 = (artTypes.map (fun t => ((H.nodes t).length - H.first t) * t.size)).sum := by
  have h0 := cutFold_ok artTypes H 0 (by decide) h
  unfold ArtHeap.cutArrays
  generalize artTypes.foldl (fun p t => ((p.1.cutArray t).1, p.2 + (p.1.cutArray t).2)) (H, 0) = r at *
  obtain ⟨h1, h2, h3⟩ := h0
  refine ⟨fun u => ?_, h2, by rw [Nat.zero_add] at h3; exact h3⟩
  have := h1 u
  rw [if_pos (by cases u <;> decide)] at this
  exact this

theorem Chain.first_le {H : ArtHeap V} {t : ArtTy} {a : Nat} {l : List Nat} (h : Chain H t a l) (hl : ∀ x ∈ l, x < (H.nodes t).length) : a ≤ (H.nodes t).length := by
  cases l with
  | nil => exact Nat.le_of_eq h
  | cons x l => have := h.1; have := hl x (List.mem_cons_self ..); omega

theorem HOk.first_le {H : ArtHeap V} {U : ArtRef → Prop} (h : HOk H U) (t : ArtTy) : H.first t ≤ (H.nodes t).length := by
  obtain ⟨l, _, h2, h3⟩ := h.free t
  exact h3.first_le (fun x hx => ((h2 x).1 hx).1)

/-- No unused place: all places are used. -/
theorem HOk.full {H : ArtHeap V} {U : ArtRef → Prop} (h : HOk H U) {t : ArtTy} (hf : H.first t = (H.nodes t).length) {i : Nat} (hi : i < (H.nodes t).length) :
    U ⟨t, i⟩ := by
  obtain ⟨l, _, h2, h3⟩ := h.free t
  cases l with
  | nil =>
    by_cases e : U ⟨t, i⟩
    · exact e
    · exact absurd ((h2 i).2 ⟨hi, e⟩) (by simp)
  | cons x l =>
    have := h3.1
    have := ((h2 x).1 (List.mem_cons_self ..)).1
    omega

theorem hok_full {H : ArtHeap V} {U : ArtRef → Prop} (hf : ∀ t, H.first t = (H.nodes t).length) (hu : ∀ x, U x ↔ x.idx < (H.nodes x.ty).length) : HOk H U :=
  ⟨fun r hr => (hu r).1 hr, fun t => ⟨[], List.nodup_nil, fun i => by rw [hu]; simp, hf t⟩⟩

/-- Every place below the first unused one is used. -/
theorem HOrd.below {H : ArtHeap V} {U : ArtRef → Prop} (h : HOrd H U (fun _ => True)) {t : ArtTy} {i : Nat} (hi : i < H.first t) : U ⟨t, i⟩ := by
  have hle := h.hok.first_le t
  obtain ⟨l, _, h2, h3, h4⟩ := h.free t
  by_cases e : U ⟨t, i⟩
  · exact e
  · have hm := (h2 i).2 ⟨by omega, e⟩
    cases l with
    | nil => simp at hm
    | cons x l =>
      have h5 := h3.1
      have h4 := h4 trivial
      rw [List.pairwise_cons] at h4
      rcases List.mem_cons.1 hm with rfl | hm
      · omega
      · have := h4.1 i hm; omega

theorem take_get {H H' : ArtHeap V} (h : ∀ u, H'.nodes u = (H.nodes u).take (H.first u)) {x : ArtRef} (hx : x.idx < H.first x.ty) : H'.get x = H.get x := by
  unfold ArtHeap.get
  rw [h, List.getElem?_take, if_pos hx]

/-- The bytes of the arrays. -/
def ArtHeap.total (H : ArtHeap V) : Nat := (artTypes.map (fun t => (H.nodes t).length * t.size)).sum

theorem sum_split (f g : ArtTy → Nat) (h : ∀ t, g t ≤ f t) : ∀ ts : List ArtTy,
    (ts.map (fun t => f t * t.size)).sum = (ts.map (fun t => g t * t.size)).sum + (ts.map (fun t => (f t - g t) * t.size)).sum
  | [] => rfl
  | t :: ts => by
    simp only [List.map_cons, List.sum_cons]
    rw [sum_split f g h ts]
    have : f t * t.size = g t * t.size + (f t - g t) * t.size := by
      rw [← Nat.add_mul]
      congr 1
      have := h t
      omega
    omega

theorem total_eq {H H' : ArtHeap V} (h : ∀ t, (H.nodes t).length = (H'.nodes t).length) : H.total = H'.total := by
  unfold ArtHeap.total
  refine congrArg List.sum (List.map_congr_left (fun t _ => ?_))
  rw [h]

theorem total_cut {H : ArtHeap V} (h : ∀ t, H.first t ≤ (H.nodes t).length) : H.total = H.cutArrays.1.total + H.cutArrays.2 := by
  obtain ⟨c1, c2, c3⟩ := cutArrays_ok h
  have h1 := sum_split (fun t => (H.nodes t).length) (fun t => H.first t) h artTypes
  have h2 : H.cutArrays.1.total = (artTypes.map (fun t => H.first t * t.size)).sum := by
    unfold ArtHeap.total
    refine congrArg List.sum (List.map_congr_left (fun t _ => ?_))
    rw [c1, List.length_take, Nat.min_eq_left (h t)]
  rw [h2, c3]
  exact h1

theorem cut_ok {H : ArtHeap V} (h : ∀ t, H.first t ≤ (H.nodes t).length) : ∃ C f, H.cutArrays = (C, f) ∧ (∀ u, C.nodes u = (H.nodes u).take (H.first u)) ∧
    C.first = H.first ∧ (∀ u, (C.nodes u).length = H.first u) ∧ H.total = C.total + f := by
  obtain ⟨c1, c2, c3⟩ := cutArrays_ok h
  have c4 := total_cut h
  generalize H.cutArrays = p at *
  exact ⟨p.1, p.2, rfl, c1, c2, fun u => by rw [c1, List.length_take, Nat.min_eq_left (h u)], c4⟩

theorem isShrunken_iff {H : ArtHeap V} : H.isShrunken = true ↔ ∀ t, H.first t = (H.nodes t).length := by
  unfold ArtHeap.isShrunken
  rw [List.all_eq_true]
  constructor
  · intro h t
    have := h t (by cases t <;> decide)
    simpa using this
  · intro h t _
    simpa using h t

/-- `art_shrink_to_fit`: the tree stays, and no unused place is left; but all places of the arrays of an empty tree are lost. -/
theorem arep_shrink {a : ArtT V} {L : ArtRef → Prop} {root : Option (Art V)} (ha : ARep a L root) (ho : ArtOk root) :
    ∃ a' f, a.shrinkToFit = .ok (a', f) ∧ (∀ t, a'.heap.first t = (a'.heap.nodes t).length) ∧ a.heap.total = a'.heap.total + f ∧
      ARep a' (fun x => x.idx < (a'.heap.nodes x.ty).length ∧ (root = none ∨ L x)) root := by
  unfold ArtT.shrinkToFit
  by_cases hsh : a.heap.isShrunken = true
  · rw [if_pos hsh]
    rw [isShrunken_iff] at hsh
    refine ⟨a, 0, rfl, hsh, rfl, ?_⟩
    cases root with
    | none => exact ⟨ha.1, hok_full hsh (fun x => by simp)⟩
    | some t =>
      obtain ⟨r, F, h1, h2, h3, h4⟩ := ha
      refine ⟨r, F, h1, h2, h3.congr (fun x => ?_), fun x hx h => ?_⟩
      · constructor
        · rintro (h | h)
          · exact Or.inl h
          · exact Or.inr ⟨h3.used x (Or.inr h), Or.inr h⟩
        · rintro (h | ⟨_, h | h⟩)
          · exact Or.inl h
          · cases h
          · exact Or.inr h
      · rcases h with ⟨_, h | h⟩
        · cases h
        · exact h4 x hx h
  · rw [if_neg hsh]
    cases root with
    | none =>
      obtain ⟨h1, h2⟩ := ha
      have hle := h2.first_le
      obtain ⟨C, f, hC, c1, c2, hlen, htot⟩ := cut_ok hle
      rw [h1]
      refine ⟨⟨C, none⟩, f, ?_, fun t => ?_, htot, rfl, hok_full (fun t => ?_) (fun x => by simp)⟩
      · simp only [hC]
      · show C.first t = _
        rw [c2, hlen]
      · show C.first t = _
        rw [c2, hlen]
    | some t =>
      obtain ⟨r, F, h1, h2, h3, h4⟩ := ha
      obtain ⟨H1, e1, o1, g1, l1⟩ := sortFreeLists_ok h3
      have hrF := h2.root
      obtain ⟨H2, r', e2, hs⟩ := moveToShrink_ok o1 (r := r) (Or.inl hrF)
      have hnew : r' = r ∨ ¬ F r' := hs.new.imp id (fun h h' => h (Or.inl h'))
      have hrep2 : HRep H2 r' t (fun x => (F x ∧ x ≠ r) ∨ x = r') := by
        refine (h2.frame (fun x h => g1 x (Or.inl h))).move hs.ty hs.here (fun x hx hxr => hs.frame x (Or.inl hx) hxr) hnew
      obtain ⟨H3, F3, e3, hc⟩ := shrinkAt_ok LEVELS (path := []) hrep2 (ho t rfl) hs.ord (by
        rintro x (⟨h, h'⟩ | h)
        · exact Or.inl ⟨Or.inl h, h'⟩
        · exact Or.inr h) (by decide)
      have hle := hc.ord.hok.first_le
      obtain ⟨C, f, hC, c1, c2, hlen, htot⟩ := cut_ok hle
      have hlow : ∀ x, F3 x → x.idx < H3.first x.ty := by
        intro x hx
        rcases hc.low x hx with rfl | h
        · have := hs.low
          have := hc.mono x.ty
          omega
        · exact h
      have hL3 : ∀ x, F3 x → ¬ L x := by
        intro x hx hL
        rcases hc.sub x hx with (⟨h, _⟩ | h) | h
        · exact h4 x h hL
        · rcases hs.new with e | e
          · exact h4 x (by rw [h, e]; exact hrF) hL
          · exact e (h ▸ Or.inr hL)
        · exact h (Or.inl ⟨Or.inr hL, fun e => h4 r hrF (e ▸ hL)⟩)
      rw [h1]
      refine ⟨⟨C, some r'⟩, f, ?_, fun t => ?_, ?_, r', F3, rfl, hc.rep.frame (fun x hx => take_get c1 (hlow x hx)),
        hok_full (fun t => ?_) (fun x => ?_), fun x hx h => ?_⟩
      · simp only [e1, ok_bind, e2, e3, hC]
      · show C.first t = _
        rw [c2, hlen]
      · rw [total_eq (H' := H3) (fun t => by rw [hc.len, hs.len, l1])]
        exact htot
      · show C.first t = _
        rw [c2, hlen]
      · simp only [hlen]
        constructor
        · rintro (h | h)
          · exact hlow x h
          · exact h.1
        · intro hx
          rcases hc.ord.below hx with ⟨h, h'⟩ | h
          · refine Or.inr ⟨hx, Or.inr ?_⟩
            rcases h with ⟨h | h, h''⟩ | h
            · exact absurd (Or.inl ⟨h, h''⟩) h'
            · exact h
            · exact absurd (Or.inr h) h'
          · exact Or.inl h
      · rcases h with ⟨_, h | h⟩
        · cases h
        · exact hL3 x hx h

end
end CRoaring
