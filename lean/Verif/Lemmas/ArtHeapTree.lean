import Verif.Lemmas.ArtHeap
/-
The tree that the arrays of nodes hold, and the operations on the arrays against those on the tree.
-/
set_option linter.unusedSimpArgs false
set_option linter.unusedVariables false
namespace CRoaring
open Spec

section
variable {V : Type}

/-- The reference `r` leads to the tree `t`, whose nodes are at the places `F`, one place for each node. -/
inductive HRep (H : ArtHeap V) : ArtRef → Art V → (ArtRef → Prop) → Prop
  | leaf {r : ArtRef} {k : List Nat} {v : V} {F : ArtRef → Prop} (ht : r.ty = .leaf) (hg : H.get r = some (.leaf k v)) (hF : ∀ x, F x ↔ x = r) :
      HRep H r (.leaf k v) F
  | inner {r : ArtRef} {pfx : List Nat} {nr : Node ArtRef} {n : Node (Art V)} {Fs : Nat → ArtRef → Prop} {F : ArtRef → Prop}
      (ht : nr.ty = r.ty) (hg : H.get r = some (.inner pfx nr)) (hk : KOk nr) (hs : nr.shape = n.shape)
      (hc : ∀ c s t, nr.find c = some s → n.find c = some t → HRep H s t (Fs c))
      (he : ∀ c, nr.find c = none → ∀ x, ¬ Fs c x)
      (hd : ∀ c d x, c ≠ d → Fs c x → ¬ Fs d x) (hr : ∀ c, ¬ Fs c r)
      (hF : ∀ x, F x ↔ x = r ∨ ∃ c, Fs c x) : HRep H r (.inner pfx n) F

theorem HRep.root {H : ArtHeap V} {r : ArtRef} {t : Art V} {F : ArtRef → Prop} (h : HRep H r t F) : F r := by
  cases h with
  | leaf ht hg hF => exact (hF r).2 rfl
  | inner ht hg hk hs hc he hd hr hF => exact (hF r).2 (Or.inl rfl)

theorem HRep.frame {H H' : ArtHeap V} {r : ArtRef} {t : Art V} {F : ArtRef → Prop} (h : HRep H r t F) (hx : ∀ x, F x → H'.get x = H.get x) :
    HRep H' r t F := by
  induction h with
  | leaf ht hg hF => exact .leaf ht (by rw [hx _ ((hF _).2 rfl)]; exact hg) hF
  | inner ht hg hk hs hc he hd hr hF ih =>
    refine .inner ht (by rw [hx _ ((hF _).2 (Or.inl rfl))]; exact hg) hk hs (fun c s t h1 h2 => ?_) he hd hr hF
    exact ih c s t h1 h2 (fun x h => hx x ((hF x).2 (Or.inr ⟨c, h⟩)))

theorem HRep.congr {H : ArtHeap V} {r : ArtRef} {t : Art V} {F G : ArtRef → Prop} (h : HRep H r t F) (e : ∀ x, F x ↔ G x) : HRep H r t G := by
  cases h with
  | leaf ht hg hF => exact .leaf ht hg (fun x => by rw [← e, hF])
  | inner ht hg hk hs hc he hd hr hF => exact .inner ht hg hk hs hc he hd hr (fun x => by rw [← e, hF])

theorem shape_some {α β : Type} {n : Node α} {m : Node β} (h : n.shape = m.shape) {c : Nat} {x : α} (hx : n.find c = some x) : ∃ y, m.find c = some y := by
  have := shape_find h c
  rw [hx] at this
  exact Option.isSome_iff_exists.1 this.symm

theorem shape_none {α β : Type} {n : Node α} {m : Node β} (h : n.shape = m.shape) {c : Nat} (hx : n.find c = none) : m.find c = none := by
  have := shape_find h c
  rw [hx] at this
  cases e : m.find c with
  | none => rfl
  | some y => rw [e] at this; cases this

/-- The prefix of an inner node changes. -/
theorem HRep.reprefix {H H' : ArtHeap V} {r : ArtRef} {pfx pfx' : List Nat} {n : Node (Art V)} {nr : Node ArtRef} {F : ArtRef → Prop}
    (h : HRep H r (.inner pfx n) F) (hg : H.get r = some (.inner pfx nr)) (hg' : H'.get r = some (.inner pfx' nr))
    (hx : ∀ x, F x → x ≠ r → H'.get x = H.get x) : HRep H' r (.inner pfx' n) F := by
  cases h with
  | @inner _ _ nr0 _ Fs _ ht hg0 hk hs hc he hd hr hF =>
    rw [hg] at hg0
    cases hg0
    refine .inner ht hg' hk hs (fun c s t h1 h2 => (hc c s t h1 h2).frame (fun x h => ?_)) he hd hr hF
    refine hx x ((hF x).2 (Or.inr ⟨c, h⟩)) ?_
    rintro rfl
    exact hr c h

/-- A new node4 with two children. -/
theorem two_rep {H : ArtHeap V} {q r1 r2 : ArtRef} {pfx : List Nat} {t1 t2 : Art V} {F1 F2 : ArtRef → Prop} {c1 c2 : Nat} (b1 : c1 < 256) (b2 : c2 < 256)
    (hne : c1 ≠ c2) (ht : q.ty = .n4) (hg : H.get q = some (.inner pfx (((Node.n4 []).insert r1 c1).insert r2 c2)))
    (h1 : HRep H r1 t1 F1) (h2 : HRep H r2 t2 F2) (hd : ∀ x, F1 x → ¬ F2 x) (q1 : ¬ F1 q) (q2 : ¬ F2 q) :
    HRep H q (.inner pfx (((Node.n4 []).insert t1 c1).insert t2 c2)) (fun x => x = q ∨ F1 x ∨ F2 x) := by
  obtain ⟨k1, k2⟩ := two_kids (a := r1) (b := r2) b1 b2 hne
  obtain ⟨k3, k4⟩ := two_kids (a := t1) (b := t2) b1 b2 hne
  refine .inner (Fs := fun c x => (c = c1 ∧ F1 x) ∨ (c = c2 ∧ F2 x)) ?_ hg k1
    (shape_insert (shape_insert (n := (Node.n4 [] : Node ArtRef)) (m := (Node.n4 [] : Node (Art V))) rfl r1 t1 c1) r2 t2 c2) ?_ ?_ ?_ ?_ ?_
  · rw [ht]
    unfold Node.insert node4Insert
    simp only [List.length_nil, Nat.zero_lt_succ, if_true]
    rw [if_pos (by rw [length_insertKs]; simp)]
    rfl
  · intro c s t hs ht
    rw [k2] at hs
    rw [k4] at ht
    by_cases e2 : c = c2
    · rw [if_pos e2] at hs ht
      cases hs; cases ht
      refine h2.congr (fun x => ?_)
      have : ¬ c = c1 := fun e => hne (e.symm.trans e2)
      simp [e2, this, Ne.symm hne]
    · rw [if_neg e2] at hs ht
      by_cases e1 : c = c1
      · rw [if_pos e1] at hs ht
        cases hs; cases ht
        refine h1.congr (fun x => ?_)
        simp [e1, hne]
      · rw [if_neg e1] at hs; cases hs
  · intro c hs x hx
    rw [k2] at hs
    by_cases e2 : c = c2
    · rw [if_pos e2] at hs; cases hs
    · rw [if_neg e2] at hs
      by_cases e1 : c = c1
      · rw [if_pos e1] at hs; cases hs
      · rcases hx with hx | hx
        · exact e1 hx.1
        · exact e2 hx.1
  · rintro c d x hcd (⟨rfl, hx⟩ | ⟨rfl, hx⟩) (⟨rfl, hy⟩ | ⟨rfl, hy⟩)
    · exact hcd rfl
    · exact hd x hx hy
    · exact hd x hy hx
    · exact hcd rfl
  · rintro c (⟨_, h⟩ | ⟨_, h⟩)
    · exact q1 h
    · exact q2 h
  · intro x
    constructor
    · rintro (h | h | h)
      · exact Or.inl h
      · exact Or.inr ⟨c1, Or.inl ⟨rfl, h⟩⟩
      · exact Or.inr ⟨c2, Or.inr ⟨rfl, h⟩⟩
    · rintro (h | ⟨c, ⟨_, h⟩ | ⟨_, h⟩⟩)
      · exact Or.inl h
      · exact Or.inr (Or.inl h)
      · exact Or.inr (Or.inr h)

/-- A node that differs from another one in the child at `c`. -/
theorem HRep.rebuild {H' : ArtHeap V} {r' : ArtRef} {pfx : List Nat} {nr nr' : Node ArtRef} {n n' : Node (Art V)} {Fs : Nat → ArtRef → Prop}
    {Fc : ArtRef → Prop} {c : Nat} {X : Option ArtRef} {Y : Option (Art V)} (ht : nr'.ty = r'.ty) (hg : H'.get r' = some (.inner pfx nr')) (hk : KOk nr')
    (hs : nr'.shape = n'.shape) (hX : ∀ i, nr'.find i = if i = c then X else nr.find i) (hY : ∀ i, n'.find i = if i = c then Y else n.find i)
    (hXY : ∀ s t, X = some s → Y = some t → HRep H' s t Fc) (hX0 : X = none → ∀ x, ¬ Fc x)
    (hc : ∀ d s t, d ≠ c → nr.find d = some s → n.find d = some t → HRep H' s t (Fs d))
    (he : ∀ d, nr.find d = none → ∀ x, ¬ Fs d x) (hd : ∀ d e x, d ≠ e → Fs d x → ¬ Fs e x) (hr : ∀ d, d ≠ c → ¬ Fs d r') (hrc : ¬ Fc r')
    (hdc : ∀ d x, d ≠ c → Fs d x → ¬ Fc x) :
    HRep H' r' (.inner pfx n') (fun x => x = r' ∨ Fc x ∨ ∃ d, d ≠ c ∧ Fs d x) := by
  refine .inner (Fs := fun d => if d = c then Fc else Fs d) ht hg hk hs ?_ ?_ ?_ ?_ ?_
  · intro d s t h1 h2
    rw [hX] at h1
    rw [hY] at h2
    by_cases e : d = c
    · rw [if_pos e] at h1 h2
      simp only [if_pos e]; exact hXY s t h1 h2
    · rw [if_neg e] at h1 h2
      simp only [if_neg e]; exact hc d s t e h1 h2
  · intro d h1
    rw [hX] at h1
    by_cases e : d = c
    · rw [if_pos e] at h1; simp only [if_pos e]; exact hX0 h1
    · rw [if_neg e] at h1; simp only [if_neg e]; exact he d h1
  · intro d e x hde hx hy
    by_cases e1 : d = c
    · simp only [if_pos e1] at hx
      have e2 : e ≠ c := fun h => hde (e1.trans h.symm)
      simp only [if_neg e2] at hy
      exact hdc e x e2 hy hx
    · simp only [if_neg e1] at hx
      by_cases e2 : e = c
      · simp only [if_pos e2] at hy; exact hdc d x e1 hx hy
      · simp only [if_neg e2] at hy; exact hd d e x hde hx hy
  · intro d hx
    by_cases e1 : d = c
    · simp only [if_pos e1] at hx; exact hrc hx
    · simp only [if_neg e1] at hx; exact hr d e1 hx
  · intro x
    constructor
    · rintro (h | h | ⟨d, hd, h⟩)
      · exact Or.inl h
      · exact Or.inr ⟨c, by simp only [if_true]; exact h⟩
      · exact Or.inr ⟨d, by simp only [if_neg hd]; exact h⟩
    · rintro (h | ⟨d, h⟩)
      · exact Or.inl h
      · by_cases e1 : d = c
        · simp only [if_pos e1] at h; exact Or.inr (Or.inl h)
        · simp only [if_neg e1] at h; exact Or.inr (Or.inr ⟨d, e1, h⟩)

/-- The part of the arrays that held a tree at the places `F` now holds the tree `t'` at the places `F'`; the places `E` may be among them. -/
structure Sim (H H' : ArtHeap V) (U F E : ArtRef → Prop) (r' : ArtRef) (t' : Art V) (F' : ArtRef → Prop) : Prop where
  rep : HRep H' r' t' F'
  hok : HOk H' (fun x => (U x ∧ ¬ F x) ∨ F' x)
  frame : ∀ x, U x → ¬ F x → H'.get x = H.get x
  sub : ∀ x, F' x → F x ∨ E x ∨ ¬ U x

/-! ### Insertion -/

theorem nodeInsert_room {H : ArtHeap V} {U : ArtRef → Prop} (h : HOk H U) {p : ArtPtr} (hp : p.valid H) {pfx : List Nat} {n : Node ArtRef}
    (hn : IsNode H U p.ref pfx n) (hroom : n.room = true) (child : ArtRef) (c : Nat) :
    ∃ H', H.nodeInsert p child c = .ok (H', p.ref) ∧ Poked H H' p.ref (.inner pfx (n.insert child c)) ∧ (n.insert child c).ty = p.ref.ty := by
  unfold ArtHeap.nodeInsert
  rw [peekInner_ok hp hn.get hn.ty, ok_bind]
  simp only
  rw [insert_steps, if_pos hroom, if_pos hroom]
  obtain ⟨H1, e1, hw⟩ := pokeInner_ok hp (h.used _ hn.used) hn.len (n.put child c)
  exact ⟨H1, by rw [e1]; rfl, hw, by rw [put_ty]; exact hn.ty⟩

theorem room_one {α : Type} (x : α) (c : Nat) : ((Node.n4 []).insert x c).room = true := by
  unfold Node.insert node4Insert
  simp only [List.length_nil, Nat.zero_lt_succ, if_true]
  show decide ((insertKs [] x c).length < 4) = true
  rw [length_insertKs]; rfl

/-- The leaf that is to be inserted. -/
structure NewLeaf (H : ArtHeap V) (U F : ArtRef → Prop) (nl : ArtRef) (key : List Nat) (val : V) : Prop where
  ty : nl.ty = .leaf
  get : H.get nl = some (.leaf key val)
  used : U nl
  out : ¬ F nl

theorem leafInsert_sim {H : ArtHeap V} {U F : ArtRef → Prop} {r nl : ArtRef} {path key lkey : List Nat} {lval val : V} (fuel : Nat)
    (hu : HOk H U) (hFU : ∀ x, F x → U x) (hrep : HRep H r (.leaf lkey lval) F) (hl : NewLeaf H U F nl key val)
    (hk : IsKey key) (hk' : IsKey lkey) (hp : path <+: key) (hp' : path <+: lkey) (hne : lkey ≠ key) :
    ∃ H' r' F', H.insertAtLeaf r key path.length nl = .ok (H', r') ∧
      Sim H H' U F (· = nl) r' (artInsertAt fuel (.leaf lkey lval) key path.length val) F' ∧ F' nl := by
  have e : artInsertAt fuel (.leaf lkey lval) key path.length val =
      let m := commonLen (lkey.drop path.length) (key.drop path.length)
      .inner ((key.drop path.length).take m) (((Node.n4 []).insert (.leaf lkey lval) (lkey.getD (path.length + m) 0)).insert
        (.leaf key val) (key.getD (path.length + m) 0)) := by
    cases fuel <;> simp only [artInsertAt, artCommonPrefix_keys hk'.len hk.len]
  rw [e]
  have hroot := hrep.root
  cases hrep with
  | leaf ht hg hF =>
    unfold ArtHeap.insertAtLeaf
    rw [peekLeaf_ok (deref_valid H r) hg, ok_bind]
    simp only [artCommonPrefix_keys hk'.len hk.len]
    generalize hm : commonLen (lkey.drop path.length) (key.drop path.length) = m
    obtain ⟨c1, c2, c3, c4⟩ := commonLen_spec (lkey.drop path.length) (key.drop path.length)
    rw [hm] at c1 c2 c3 c4
    simp only [List.length_drop, hk'.len, hk.len] at c1 c2 c4
    have hlt : path.length + m < 6 := by
      rcases Nat.lt_or_ge (path.length + m) 6 with h | h
      · exact h
      · exfalso; apply hne
        rw [List.take_of_length_le (by rw [List.length_drop, hk'.len]; omega),
          List.take_of_length_le (by rw [List.length_drop, hk.len]; omega)] at c3
        rw [← List.take_append_drop path.length lkey, ← List.take_append_drop path.length key, c3, prefix_take hp, prefix_take hp']
    have hchunk := c4 (by omega) (by omega)
    rw [getD_drop, getD_drop] at hchunk
    have hpl : ((key.drop path.length).take m).length < 6 := by rw [List.length_take, List.length_drop, hk.len]; omega
    obtain ⟨H1, q, e1, qt, qv, hc⟩ := createInner_ok hu hpl (.n4 [])
    have hrU := hFU r hroot
    have hn1 : IsNode H1 (fun x => U x ∨ x = q.ref) q.ref ((key.drop path.length).take m) (.n4 []) := ⟨Or.inr rfl, hc.here, qt.symm, hpl⟩
    obtain ⟨H2, e2, w2, t2⟩ := nodeInsert_room hc.hok qv hn1 rfl r (lkey.getD (path.length + m) 0)
    have hn2 : IsNode H2 (fun x => U x ∨ x = q.ref) q.ref ((key.drop path.length).take m) _ := ⟨Or.inr rfl, by rw [w2.get, if_pos rfl], t2, hpl⟩
    obtain ⟨H3, e3, w3, t3⟩ := nodeInsert_room (w2.hok hc.hok (Or.inr rfl)) (w2.valid qv) hn2 (room_one _ _) nl (key.getD (path.length + m) 0)
    have hpt : (H.deref r).valid H1 := by
      unfold ArtPtr.valid
      rw [hc.gen]
      · rfl
      · rw [qt]; show r.ty ≠ .n4; rw [ht]; exact ArtTy.noConfusion
    have hrq : r ≠ q.ref := fun e => hc.new (e ▸ hrU)
    have hnq : nl ≠ q.ref := fun e => hc.new (e ▸ hl.used)
    have hget : ∀ x, U x → H3.get x = H.get x := by
      intro x hx
      have : x ≠ q.ref := fun e => hc.new (e ▸ hx)
      rw [w3.get, if_neg this, w2.get, if_neg this, hc.get x hx]
    have hrep2 := two_rep (F1 := (· = r)) (F2 := (· = nl)) (t1 := .leaf lkey lval) (t2 := .leaf key val) (getD_byte hk'.byte (path.length + m))
      (getD_byte hk.byte (path.length + m)) hchunk qt (by rw [w3.get, if_pos rfl]) (.leaf ht (by rw [hget r hrU]; exact hg) (fun _ => Iff.rfl))
      (.leaf hl.ty (by rw [hget nl hl.used]; exact hl.get) (fun _ => Iff.rfl)) (by rintro x rfl rfl; exact hl.out hroot) (fun h => hrq h.symm)
      (fun h => hnq h.symm)
    refine ⟨H3, q.ref, _, ?_, ⟨hrep2, ?_, fun x hx _ => hget x hx, ?_⟩, Or.inr (Or.inr rfl)⟩
    · rw [e1, ok_bind]; simp only
      rw [peekLeaf_ok hpt (by show H1.get r = _; rw [hc.get r hrU, hg]), ok_bind]; simp only
      rw [e2, ok_bind]; simp only
      exact e3
    · refine (w3.hok (w2.hok hc.hok (Or.inr rfl)) (Or.inr rfl)).congr (fun x => ?_)
      constructor
      · rintro (h | h)
        · by_cases hx : F x
          · exact Or.inr (Or.inr (Or.inl ((hF x).1 hx)))
          · exact Or.inl ⟨h, hx⟩
        · exact Or.inr (Or.inl h)
      · rintro (h | h | rfl | rfl)
        · exact Or.inl h.1
        · exact Or.inr h
        · exact Or.inl hrU
        · exact Or.inl hl.used
    · rintro x (rfl | rfl | rfl)
      · exact Or.inr (Or.inr hc.new)
      · exact Or.inl hroot
      · exact Or.inr (Or.inl rfl)

theorem splitPrefix_sim {H : ArtHeap V} {U F : ArtRef → Prop} {r nl : ArtRef} {key pfx : List Nat} {n : Node (Art V)} {val : V} {nr : Node ArtRef} {depth m : Nat}
    (hu : HOk H U) (hFU : ∀ x, F x → U x) (hrep : HRep H r (.inner pfx n) F) (hg : H.get r = some (.inner pfx nr)) (ht : nr.ty = r.ty)
    (hl : NewLeaf H U F nl key val)
    (hk : IsKey key) (hb : Bytes pfx) (hm : m < pfx.length) (hpl : pfx.length < 6) (hchunk : pfx.getD m 0 ≠ key.getD (m + depth) 0) :
    ∃ H' r' F', H.splitPrefix r pfx key depth m nl = .ok (H', r') ∧
      Sim H H' U F (· = nl) r' (.inner (pfx.take m) (((Node.n4 []).insert (.inner (pfx.drop (m + 1)) n) (pfx.getD m 0)).insert (.leaf key val)
        (key.getD (m + depth) 0))) F' ∧ F' nl := by
  have hroot := hrep.root
  have hrU := hFU r hroot
  have hpl1 : (pfx.take m).length < 6 := by rw [List.length_take]; omega
  have hpl2 : (pfx.drop (m + 1)).length < 6 := by rw [List.length_drop]; omega
  obtain ⟨H1, q, e1, qt, qv, hc⟩ := createInner_ok hu hpl1 (.n4 [])
  have hrq : r ≠ q.ref := fun e => hc.new (e ▸ hrU)
  have hnq : nl ≠ q.ref := fun e => hc.new (e ▸ hl.used)
  have hn1 : IsNode H1 (fun x => U x ∨ x = q.ref) q.ref (pfx.take m) (.n4 []) := ⟨Or.inr rfl, hc.here, qt.symm, hpl1⟩
  obtain ⟨H2, e2, w2, t2⟩ := nodeInsert_room hc.hok qv hn1 rfl r (pfx.getD m 0)
  have hok2 := w2.hok hc.hok (Or.inr rfl)
  have hg2 : H2.get r = some (.inner pfx nr) := by rw [w2.get, if_neg hrq, hc.get r hrU, hg]
  obtain ⟨H3, e3, w3⟩ := pokeInner_ok (deref_valid H2 r) (hok2.used r (Or.inl hrU)) hpl2 nr
  have w3 : Poked H2 H3 r (.inner (pfx.drop (m + 1)) nr) := w3
  have hok3 := w3.hok hok2 (Or.inl hrU)
  have hn3 : IsNode H3 (fun x => U x ∨ x = q.ref) q.ref (pfx.take m) _ :=
    ⟨Or.inr rfl, by rw [w3.get, if_neg hrq.symm, w2.get, if_pos rfl], t2, hpl1⟩
  obtain ⟨H4, e4, w4, t4⟩ := nodeInsert_room hok3 (w3.valid (w2.valid qv)) hn3 (room_one _ _) nl (key.getD (m + depth) 0)
  have hget : ∀ x, U x → x ≠ r → H4.get x = H.get x := by
    intro x hx hxr
    have : x ≠ q.ref := fun e => hc.new (e ▸ hx)
    rw [w4.get, if_neg this, w3.get, if_neg hxr, w2.get, if_neg this, hc.get x hx]
  have hgr : H4.get r = some (.inner (pfx.drop (m + 1)) nr) := by rw [w4.get, if_neg hrq, w3.get, if_pos rfl]
  have hnr : nl ≠ r := fun e => hl.out (e ▸ hroot)
  have hrep2 := two_rep (F1 := F) (F2 := (· = nl)) (t2 := .leaf key val) (getD_byte hb m) (getD_byte hk.byte (m + depth)) hchunk qt
    (by rw [w4.get, if_pos rfl]) (hrep.reprefix hg hgr (fun x hx hxr => hget x (hFU x hx) hxr))
    (.leaf hl.ty (by rw [hget nl hl.used hnr]; exact hl.get) (fun _ => Iff.rfl)) (by rintro x hx rfl; exact hl.out hx)
    (fun h => hc.new (hFU _ h)) (fun h => hnq h.symm)
  refine ⟨H4, q.ref, _, ?_, ⟨hrep2, ?_, fun x hx hxF => hget x hx (fun e => hxF (e ▸ hroot)), ?_⟩, Or.inr (Or.inr rfl)⟩
  · unfold ArtHeap.splitPrefix
    rw [e1, ok_bind]; simp only
    rw [peekInner_ok (deref_valid H1 r) (by show H1.get r = _; rw [hc.get r hrU, hg]) ht, ok_bind]; simp only
    rw [e2, ok_bind]; simp only
    rw [peekInner_ok (deref_valid H2 r) hg2 ht, ok_bind]; simp only
    rw [e3, ok_bind]
    exact e4
  · refine (w4.hok hok3 (Or.inr rfl)).congr (fun x => ?_)
    constructor
    · rintro (h | h)
      · by_cases hx : F x
        · exact Or.inr (Or.inr (Or.inl hx))
        · exact Or.inl ⟨h, hx⟩
      · exact Or.inr (Or.inl h)
    · rintro (h | h | h | rfl)
      · exact Or.inl h.1
      · exact Or.inr h
      · exact Or.inl (hFU x h)
      · exact Or.inl hl.used
  · rintro x (rfl | h | rfl)
    · exact Or.inr (Or.inr hc.new)
    · exact Or.inl h
    · exact Or.inr (Or.inl rfl)

/-- A child of the node at `r` has been worked on; its new reference is stored in the node. -/
theorem storeChild_sim {H H1 : ArtHeap V} {U F : ArtRef → Prop} {E : ArtRef → Prop} {r s s' : ArtRef} {pfx : List Nat} {nr : Node ArtRef} {n : Node (Art V)}
    {Fs : Nat → ArtRef → Prop} {F1 : ArtRef → Prop} {c : Nat} {t t' : Art V}
    (hu : HOk H U) (hFU : ∀ x, F x → U x) (ht : nr.ty = r.ty) (hg : H.get r = some (.inner pfx nr)) (hk : KOk nr) (hkn : KOk n) (hs : nr.shape = n.shape)
    (hc : ∀ c s t, nr.find c = some s → n.find c = some t → HRep H s t (Fs c))
    (he : ∀ c, nr.find c = none → ∀ x, ¬ Fs c x)
    (hd : ∀ c d x, c ≠ d → Fs c x → ¬ Fs d x) (hr : ∀ c, ¬ Fs c r)
    (hF : ∀ x, F x ↔ x = r ∨ ∃ c, Fs c x) (hpl : pfx.length < 6) (hEU : ∀ x, E x → U x ∧ ¬ F x)
    (hx : nr.find c = some s) (hy : n.find c = some t) (hsim : Sim H H1 U (Fs c) E s' t' F1) :
    ∃ H' F', H1.storeChild r c s s' = .ok H' ∧ Sim H H' U F E r (.inner pfx (n.replace c t')) F' ∧ ∀ x, F1 x → F' x := by
  obtain ⟨k1, k2⟩ := hk.replace hx s'
  obtain ⟨k3, k4⟩ := hkn.replace hy t'
  have hrF : F r := (hF r).2 (Or.inl rfl)
  have hrU := hFU r hrF
  have hgr : H1.get r = some (.inner pfx nr) := by rw [hsim.frame r hrU (hr c), hg]
  have hr1 : ¬ F1 r := by
    intro h
    rcases hsim.sub r h with h | h | h
    · exact hr c h
    · exact (hEU r h).2 hrF
    · exact h hrU
  have hsF : ∀ d x, Fs d x → F x := fun d x h => (hF x).2 (Or.inr ⟨d, h⟩)
  have hd1 : ∀ d x, d ≠ c → Fs d x → ¬ F1 x := by
    intro d x hdc h h1
    rcases hsim.sub x h1 with h2 | h2 | h2
    · exact hd d c x hdc h h2
    · exact (hEU x h2).2 (hsF d x h)
    · exact h2 (hFU x (hsF d x h))
  -- the places of the new tree, and what holds of the arrays when the node has been written
  have finish : ∀ (H' : ArtHeap V) (nr' : Node ArtRef), nr'.ty = r.ty → H'.get r = some (.inner pfx nr') → KOk nr' → nr'.shape = (n.replace c t').shape →
      (∀ i, nr'.find i = if i = c then some s' else nr.find i) → (∀ x, x ≠ r → H'.get x = H1.get x) →
      HOk H' (fun x => (U x ∧ ¬ Fs c x) ∨ F1 x) →
      ∃ F', Sim H H' U F E r (.inner pfx (n.replace c t')) F' ∧ ∀ x, F1 x → F' x := by
    intro H' nr' a1 a2 a3 a4 a5 a6 a7
    refine ⟨_, ⟨HRep.rebuild (X := some s') (Y := some t') (Fc := F1) a1 a2 a3 a4 a5 k4 ?_ (fun h => by cases h) ?_ he hd (fun d _ => hr d) hr1 hd1,
      ?_, ?_, ?_⟩, fun x h => Or.inr (Or.inl h)⟩
    · intro s0 t0 h1 h2
      cases h1; cases h2
      exact hsim.rep.frame (fun x h => a6 x (fun e => hr1 (e ▸ h)))
    · intro d s0 t0 hdc h1 h2
      refine (hc d s0 t0 h1 h2).frame (fun x h => ?_)
      rw [a6 x (fun e => hr d (e ▸ h))]
      exact hsim.frame x (hFU x (hsF d x h)) (hd d c x hdc h)
    · refine a7.congr (fun x => ?_)
      constructor
      · rintro (⟨h1, h2⟩ | h)
        · by_cases hx : F x
          · rcases (hF x).1 hx with h3 | ⟨d, h3⟩
            · exact Or.inr (Or.inl h3)
            · by_cases e : d = c
              · exact absurd (e ▸ h3) h2
              · exact Or.inr (Or.inr (Or.inr ⟨d, e, h3⟩))
          · exact Or.inl ⟨h1, hx⟩
        · exact Or.inr (Or.inr (Or.inl h))
      · rintro (⟨h1, h2⟩ | rfl | h | ⟨d, e, h⟩)
        · exact Or.inl ⟨h1, fun h => h2 (hsF c x h)⟩
        · exact Or.inl ⟨hrU, hr c⟩
        · exact Or.inr h
        · exact Or.inl ⟨hFU x (hsF d x h), hd d c x e h⟩
    · intro x hx hxF
      rw [a6 x (fun e => hxF (e ▸ hrF))]
      exact hsim.frame x hx (fun h => hxF (hsF c x h))
    · rintro x (rfl | h | ⟨d, e, h⟩)
      · exact Or.inl hrF
      · rcases hsim.sub x h with h | h | h
        · exact Or.inl (hsF c x h)
        · exact Or.inr (Or.inl h)
        · exact Or.inr (Or.inr h)
      · exact Or.inl (hsF d x h)
  unfold ArtHeap.storeChild
  by_cases hss : s' = s
  · rw [if_neg (by simpa using hss)]
    obtain ⟨F', h1, h2⟩ := finish H1 nr ht hgr hk (by rw [shape_replace hy]; exact hs) (fun i => by
      by_cases e : i = c
      · rw [if_pos e, e, hx, hss]
      · rw [if_neg e]) (fun _ _ => rfl) hsim.hok
    exact ⟨H1, F', rfl, h1, h2⟩
  · rw [if_pos hss]
    unfold ArtHeap.nodeReplace
    rw [peekInner_ok (deref_valid H1 r) hgr ht, ok_bind]
    simp only
    have hu1 : (U r ∧ ¬ Fs c r) ∨ F1 r := Or.inl ⟨hrU, hr c⟩
    obtain ⟨H2, e2, w2⟩ := pokeInner_ok (deref_valid H1 r) (hsim.hok.used r hu1) hpl (nr.replace c s')
    have w2 : Poked H1 H2 r (.inner pfx (nr.replace c s')) := w2
    have hty : (nr.replace c s').ty = r.ty := by rw [← ht]; exact shape_ty (shape_replace hx s')
    obtain ⟨F', h1, h2⟩ := finish H2 (nr.replace c s') hty (by rw [w2.get, if_pos rfl]) k1 (by rw [shape_replace hy, shape_replace hx]; exact hs) k2
      (fun x hx => by rw [w2.get, if_neg hx]) (w2.hok hsim.hok hu1)
    exact ⟨H2, F', e2, h1, h2⟩

theorem insertAt_sim {H : ArtHeap V} {nl : ArtRef} {key : List Nat} {val : V} (hk : IsKey key) (fuel : Nat) {U F : ArtRef → Prop} {r : ArtRef} {t : Art V}
    {path : List Nat} (hu : HOk H U) (hFU : ∀ x, F x → U x) (hrep : HRep H r t F) (hl : NewLeaf H U F nl key val) (hi : Inv path t)
    (hp : path <+: key) (hf : 6 ≤ fuel + path.length) (hn : ∀ v, ¬ Has t key v) :
    ∃ H' r' F', ArtHeap.insertAt key nl fuel H r path.length = .ok (H', r') ∧
      Sim H H' U F (· = nl) r' (artInsertAt fuel t key path.length val) F' ∧ F' nl := by
  induction fuel generalizing t path r F with
  | zero =>
    cases hi with
    | leaf hk' hp' =>
      have hty : r.ty = .leaf := by cases hrep; assumption
      unfold ArtHeap.insertAt
      rw [if_pos hty]
      exact leafInsert_sim 0 hu hFU hrep hl hk hk' hp hp' (fun e => hn _ (has_leaf.2 ⟨e.symm, rfl⟩))
    | inner h1 hl => omega
  | succ fuel ih =>
    cases hi with
    | leaf hk' hp' =>
      have hty : r.ty = .leaf := by cases hrep; assumption
      unfold ArtHeap.insertAt
      rw [if_pos hty]
      exact leafInsert_sim _ hu hFU hrep hl hk hk' hp hp' (fun e => hn _ (has_leaf.2 ⟨e.symm, rfl⟩))
    | @inner _ pfx n hok hll hb hc =>
      have hrep0 := hrep
      have hroot := hrep.root
      cases hrep with
      | @inner _ _ nr _ Fs _ ht hg hkr hs hch he hd hr hF =>
        have hrU := hFU r hroot
        unfold ArtHeap.insertAt
        rw [if_neg (show ¬ r.ty = .leaf from by rw [← ht]; exact ty_ne_leaf nr), peekInner_ok (deref_valid H r) hg ht, ok_bind]
        simp only [artInsertAt]
        rw [artCommonPrefix_pfx hk.len]
        generalize hm : commonLen pfx (key.drop path.length) = m
        obtain ⟨c1, c2, c3, c4⟩ := commonLen_spec pfx (key.drop path.length)
        rw [hm] at c1 c2 c3 c4
        simp only [List.length_drop, hk.len] at c2 c4
        by_cases hme : m = pfx.length
        · rw [if_neg (by simpa using hme), if_neg (by simpa using hme)]
          have hpp : path ++ pfx <+: key := by rw [← prefix_append_drop hp, ← commonLen_eq_left, hm, hme]
          have hsn : path ++ pfx ++ [key.getD (path.length + m) 0] <+: key := by
            have := snoc_prefix hpp (by rw [List.length_append, hk.len]; exact hll)
            rw [List.length_append] at this; rw [hme]; exact this
          cases hx : nr.find (key.getD (path.length + m) 0) with
          | none =>
            rw [shape_none hs hx]
            simp only
            have hn1 : IsNode H U r pfx nr := ⟨hrU, hg, ht, by omega⟩
            obtain ⟨H', r', e1, hmv⟩ := nodeInsert_ok hu (deref_valid H r) hn1 nl (key.getD (path.length + m) 0)
            have hmv : Moved H H' U r r' pfx (nr.insert nl (key.getD (path.length + m) 0)) := hmv
            obtain ⟨k1, k2⟩ := hkr.insert (getD_byte hk.byte (path.length + m)) nl hx
            obtain ⟨k3, k4⟩ := hok.insert (getD_byte hk.byte (path.length + m)) (.leaf key val) (shape_none hs hx)
            have hnr : nl ≠ r := fun e => hl.out (e ▸ hroot)
            have hsF : ∀ d x, Fs d x → F x := fun d x h => (hF x).2 (Or.inr ⟨d, h⟩)
            have hr' : ∀ d, ¬ Fs d r' := by
              intro d h
              rcases hmv.fresh with e | e
              · exact hr d (e ▸ h)
              · exact e (hFU _ (hsF d _ h))
            have hnr' : nl ≠ r' := by
              rintro rfl
              rcases hmv.fresh with e | e
              · exact hnr e
              · exact e hl.used
            refine ⟨H', r', _, e1, ⟨HRep.rebuild (Fs := Fs) (X := some nl) (Y := some (.leaf key val)) (Fc := (· = nl)) hmv.ty hmv.get k1
              (shape_insert hs _ _ _) k2 k4 ?_ (fun h => by cases h) ?_ he hd (fun d _ => hr' d) (fun h => hnr' h.symm) ?_, ?_, ?_, ?_⟩, Or.inr (Or.inl rfl)⟩
            · intro s0 t0 h1 h2
              cases h1; cases h2
              exact .leaf hl.ty (by rw [hmv.other nl hl.used hnr]; exact hl.get) (fun _ => Iff.rfl)
            · intro d s0 t0 _ h1 h2
              exact (hch d s0 t0 h1 h2).frame (fun x h => hmv.other x (hFU x (hsF d x h)) (fun e => hr d (e ▸ h)))
            · rintro d x _ h rfl
              exact hl.out (hsF d x h)
            · refine hmv.hok.congr (fun x => ?_)
              constructor
              · rintro (⟨h1, h2⟩ | h)
                · by_cases hxF : F x
                  · rcases (hF x).1 hxF with h3 | ⟨d, h3⟩
                    · exact absurd h3 h2
                    · refine Or.inr (Or.inr (Or.inr ⟨d, ?_, h3⟩))
                      rintro rfl
                      exact he _ hx x h3
                  · exact Or.inl ⟨h1, hxF⟩
                · exact Or.inr (Or.inl h)
              · rintro (⟨h1, h2⟩ | h | rfl | ⟨d, _, h⟩)
                · exact Or.inl ⟨h1, fun e => h2 (e ▸ hroot)⟩
                · exact Or.inr h
                · exact Or.inl ⟨hl.used, hnr⟩
                · exact Or.inl ⟨hFU x (hsF d x h), fun e => hr d (e ▸ h)⟩
            · intro x hxU hxF
              exact hmv.other x hxU (fun e => hxF (e ▸ hroot))
            · rintro x (rfl | rfl | ⟨d, _, h⟩)
              · rcases hmv.fresh with e | e
                · exact Or.inl (e ▸ hroot)
                · exact Or.inr (Or.inr e)
              · exact Or.inr (Or.inl rfl)
              · exact Or.inl (hsF d x h)
          | some s =>
            obtain ⟨child, hy⟩ := shape_some hs hx
            rw [hy]
            simp only
            have hic := hc _ _ hy
            have hlen : (path ++ pfx ++ [key.getD (path.length + m) 0]).length = path.length + m + 1 := by
              simp only [List.length_append, List.length_singleton]; omega
            have hsF : ∀ x, Fs (key.getD (path.length + m) 0) x → F x := fun x h => (hF x).2 (Or.inr ⟨_, h⟩)
            obtain ⟨H1, s', F1, e1, hsim, hnl⟩ := ih (fun x h => hFU x (hsF x h)) (hch _ _ _ hx hy)
              ⟨hl.ty, hl.get, hl.used, fun h => hl.out (hsF _ h)⟩ hic hsn (by rw [hlen]; omega) (fun v h => hn v (.inner hy h))
            rw [hlen] at e1 hsim
            obtain ⟨H2, F2, e2, hsim2, hsub⟩ := storeChild_sim hu hFU ht hg hkr hok hs hch he hd hr hF (by omega)
              (by rintro x rfl; exact ⟨hl.used, hl.out⟩) hx hy hsim
            refine ⟨H2, r, F2, ?_, hsim2, hsub _ hnl⟩
            rw [e1, ok_bind]; simp only
            rw [e2]; rfl
        · rw [if_pos hme, if_pos hme]
          have hmlt : m < pfx.length := by omega
          have hchunk := c4 hmlt (by omega)
          rw [getD_drop, Nat.add_comm path.length m] at hchunk
          exact splitPrefix_sim hu hFU hrep0 hg ht hl hk hb hmlt (by omega) hchunk

end
end CRoaring
