import Verif.Lemmas.ArtTree
/-
The iterators of the radix tree: where each move leads, in terms of the keys of the tree.
-/
set_option linter.unusedSimpArgs false
set_option linter.unusedVariables false
namespace CRoaring
open Spec

section
variable {V : Type}

/-- The frames `st` lead from the root to `t`, over the key bytes `path`. -/
inductive Reach (root : Art V) : List Nat → List Nat → Art V → Prop
  | nil : Reach root [] [] root
  | cons {st path pfx : List Nat} {n : Node (Art V)} {i : Nat} {d : Indexed (Art V)}
      (h : Reach root st path (.inner pfx n)) (hd : n.childAt i = some d) :
      Reach root (i :: st) (path ++ pfx ++ [d.chunk]) d.child

theorem artDescend_append (t : Art V) (is : List Nat) (i : Nat) :
    artDescend t (is ++ [i]) = match artDescend t is with
      | some (.inner _ n) => (n.childAt i).map (·.child)
      | _ => none := by
  induction is generalizing t with
  | nil =>
    simp only [List.nil_append]
    cases t with
    | leaf => rfl
    | inner p n =>
      simp only [artDescend]
      cases n.childAt i with
      | none => rfl
      | some c => cases h : c.child <;> simp [h, artDescend]
  | cons j js ih =>
    cases t with
    | leaf => rfl
    | inner p n =>
      simp only [List.cons_append, artDescend]
      cases n.childAt j with
      | none => rfl
      | some c => exact ih c.child

theorem Reach.node {root : Art V} {st path : List Nat} {t : Art V} (h : Reach root st path t) :
    artDescend root st.reverse = some t := by
  induction h with
  | nil => cases root <;> rfl
  | cons h hd ih =>
    rw [List.reverse_cons, artDescend_append, ih]
    simp [hd]

theorem Reach.itNode {root : Art V} {st path : List Nat} {t : Art V} (h : Reach root st path t) :
    itNode (some root) st = some t := h.node

theorem Reach.inv {root : Art V} (hr : Inv [] root) {st path : List Nat} {t : Art V} (h : Reach root st path t) : Inv path t := by
  induction h with
  | nil => exact hr
  | cons h hd ih =>
    cases ih with
    | inner hn hl hb hc => exact hc _ _ (hn.childAt hd).2

theorem Reach.has {root : Art V} (hr : Inv [] root) {st path : List Nat} {t : Art V} (h : Reach root st path t)
    {k : List Nat} {v : V} (hh : Has t k v) : Has root k v := by
  induction h with
  | nil => exact hh
  | cons h hd ih =>
    have := h.inv hr
    cases this with
    | inner hn hl hb hc => exact ih (.inner (hn.childAt hd).2 hh)

theorem Reach.local {root : Art V} (hr : Inv [] root) {st path : List Nat} {t : Art V} (h : Reach root st path t)
    {k : List Nat} {v : V} (hh : Has root k v) (hp : path <+: k) : Has t k v := by
  induction h with
  | nil => exact hh
  | @cons st path pfx n i d h hd ih =>
    have hpre : path <+: k := (List.IsPrefix.trans (by rw [List.append_assoc]; exact List.prefix_append _ _) hp)
    have h1 := ih hpre
    have hi := h.inv hr
    have hk := (hr.key hh).1
    obtain ⟨_, t, ht, h2⟩ := (hi.has_child hk).1 h1
    cases hi with
    | inner hn hl hb hc =>
      rw [snoc_prefix_iff (by rw [List.length_append, hk.len]; exact hl), List.length_append] at hp
      rw [hp.2, (hn.childAt hd).2] at ht
      cases ht; exact h2

/-- A key of the tree in the range of a node is a key of the node. -/
theorem Reach.range {root : Art V} (hr : Inv [] root) {st path : List Nat} {t : Art V} (h : Reach root st path t)
    {k : List Nat} {v : V} (hh : Has root k v) (h1 : lo path ≤ keyNum k) (h2 : keyNum k < hi path) : Has t k v := by
  have := (h.inv hr).path_ok
  exact h.local hr hh (interval_prefix (hr.key hh).1 this.2 this.1 h1 h2)

theorem Reach.bound {root : Art V} (hr : Inv [] root) {st path : List Nat} {t : Art V} (h : Reach root st path t)
    {k : List Nat} {v : V} (hh : Has t k v) : lo path ≤ keyNum k ∧ keyNum k < hi path := by
  have := (h.inv hr).key hh
  exact prefix_interval this.1 this.2

/-- The iterator stands on a leaf with value `v`. -/
def AtLeaf (root : Art V) (it : ArtIt V) (v : V) : Prop :=
  ∃ path, Reach root it.stack path (.leaf it.key v) ∧ it.value = some v ∧ it.depth = path.length

theorem AtLeaf.value {root : Art V} {it : ArtIt V} {v : V} (h : AtLeaf root it v) : it.value = some v := by
  obtain ⟨p, _, hv, _⟩ := h
  exact hv

theorem Reach.cons_inv {root : Art V} {i : Nat} {st path : List Nat} {t : Art V} (h : Reach root (i :: st) path t) :
    ∃ path' pfx n d, Reach root st path' (.inner pfx n) ∧ n.childAt i = some d ∧ path = path' ++ pfx ++ [d.chunk] ∧ t = d.child := by
  generalize hs : i :: st = s at h
  cases h with
  | nil => cases hs
  | cons h hd => cases hs; exact ⟨_, _, _, _, h, hd, rfl, rfl⟩

theorem Reach.nil_inv {root : Art V} {path : List Nat} {t : Art V} (h : Reach root [] path t) : path = [] ∧ t = root := by
  generalize hs : ([] : List Nat) = s at h
  cases h with
  | nil => exact ⟨rfl, rfl⟩
  | cons h hd => cases hs

/-- The iterator stands on the first key from `X` on, or nowhere if there is none. -/
def FirstAt (root : Art V) (X : Nat) (it : ArtIt V) : Prop :=
  match it.value with
  | some v => AtLeaf root it v ∧ X ≤ keyNum it.key ∧ ∀ k w, Has root k w → X ≤ keyNum k → keyNum it.key ≤ keyNum k
  | none => ∀ k w, Has root k w → keyNum k < X

/-- The iterator stands on the last key below `X`, or nowhere if there is none. -/
def LastAt (root : Art V) (X : Nat) (it : ArtIt V) : Prop :=
  match it.value with
  | some v => AtLeaf root it v ∧ keyNum it.key < X ∧ ∀ k w, Has root k w → keyNum k < X → keyNum k ≤ keyNum it.key
  | none => ∀ k w, Has root k w → X ≤ keyNum k

theorem FirstAt.weaken {root : Art V} {X Y : Nat} {it : ArtIt V} (h : FirstAt root Y it) (hxy : X ≤ Y)
    (hk : ∀ k w, Has root k w → X ≤ keyNum k → Y ≤ keyNum k) : FirstAt root X it := by
  unfold FirstAt at *
  cases e : it.value with
  | none =>
    rw [e] at h; simp only at h ⊢
    intro k w hh
    rcases Nat.lt_or_ge (keyNum k) X with h1 | h1
    · exact h1
    · have := hk k w hh h1; have := h k w hh; omega
  | some v =>
    rw [e] at h; simp only at h ⊢
    exact ⟨h.1, by omega, fun k w hh h1 => h.2.2 k w hh (hk k w hh h1)⟩

theorem LastAt.weaken {root : Art V} {X Y : Nat} {it : ArtIt V} (h : LastAt root Y it) (hxy : Y ≤ X)
    (hk : ∀ k w, Has root k w → keyNum k < X → keyNum k < Y) : LastAt root X it := by
  unfold LastAt at *
  cases e : it.value with
  | none =>
    rw [e] at h; simp only at h ⊢
    intro k w hh
    rcases Nat.lt_or_ge (keyNum k) X with h1 | h1
    · have := hk k w hh h1; have := h k w hh; omega
    · exact h1
  | some v =>
    rw [e] at h; simp only at h ⊢
    exact ⟨h.1, by omega, fun k w hh h1 => h.2.2 k w hh (hk k w hh h1)⟩

theorem AtLeaf.has {root : Art V} (hr : Inv [] root) {it : ArtIt V} {v : V} (h : AtLeaf root it v) : Has root it.key v := by
  obtain ⟨path, h1, _⟩ := h
  exact h1.has hr (.leaf _ _)

/-! ### Going down -/

theorem child_bounds {path pfx : List Nat} {n : Node (Art V)} (hi' : Inv path (.inner pfx n)) {c : Nat} {t : Art V}
    (hc : n.find c = some t) {k : List Nat} {v : V} (hk : Has t k v) :
    lo (path ++ pfx ++ [c]) ≤ keyNum k ∧ keyNum k < hi (path ++ pfx ++ [c]) := by
  cases hi' with
  | inner hn hl hb hcs =>
    have := (hcs c t hc).key hk
    exact prefix_interval this.1 this.2

theorem child_range {path pfx : List Nat} {n : Node (Art V)} (hi' : Inv path (.inner pfx n)) {c : Nat} {t : Art V}
    (hc : n.find c = some t) : lo path ≤ lo (path ++ pfx ++ [c]) ∧ hi (path ++ pfx ++ [c]) ≤ hi path := by
  cases hi' with
  | inner hn hl hb hcs =>
    rw [List.append_assoc]
    refine lo_append (by simp only [List.length_append, List.length_singleton]; omega) ?_
    intro b h
    rcases List.mem_append.1 h with h | h
    · exact hb b h
    · rw [List.mem_singleton.1 h]; exact hn.find_lt hc

theorem nodeInit_first {root : Art V} (hr : Inv [] root) (fuel : Nat) {t : Art V} {it : ArtIt V} {path : List Nat}
    (h : Reach root it.stack path t) (hd : it.depth = path.length) (hf : 6 ≤ fuel + path.length) :
    ∃ v, AtLeaf root (nodeInitIterator true fuel t it) v ∧ Has t (nodeInitIterator true fuel t it).key v ∧
      ∀ k w, Has t k w → keyNum (nodeInitIterator true fuel t it).key ≤ keyNum k := by
  have leaf_case : ∀ (fuel : Nat) {k : List Nat} {v : V} {it : ArtIt V} {path : List Nat}, Reach root it.stack path (.leaf k v) →
      it.depth = path.length → ∃ v', AtLeaf root (nodeInitIterator true fuel (.leaf k v) it) v' ∧
      Has (.leaf k v) (nodeInitIterator true fuel (.leaf k v) it).key v' ∧
      ∀ k' w, Has (.leaf k v) k' w → keyNum (nodeInitIterator true fuel (.leaf k v) it).key ≤ keyNum k' := by
    intro fuel k v it path h hd
    have e : nodeInitIterator true fuel (.leaf k v) it = itValid it k v := by cases fuel <;> rfl
    rw [e]
    refine ⟨v, ⟨path, h, rfl, hd⟩, .leaf _ _, fun k' w hh => ?_⟩
    rw [has_leaf] at hh; rw [hh.1]; exact Nat.le_refl _
  induction fuel generalizing t it path with
  | zero =>
    cases t with
    | leaf k v => exact leaf_case 0 h hd
    | inner pfx n => cases h.inv hr with | inner hn hl => omega
  | succ fuel ih =>
    cases t with
    | leaf k v => exact leaf_case _ h hd
    | inner pfx n =>
      have hi := h.inv hr
      have hi' := hi
      cases hi' with
      | inner hn hl hb hc =>
        have hfirst := hn.next_zero
        simp only [nodeInitIterator, if_true]
        cases e : n.nextFrom 0 with
        | none =>
          rw [e] at hfirst
          obtain ⟨c, x, hx⟩ := hn.exists
          rw [hfirst c (Nat.zero_le _)] at hx; cases hx
        | some d =>
          rw [e] at hfirst
          obtain ⟨_, h1, h2, h3⟩ := hfirst
          obtain ⟨v, a1, a2, a3⟩ := ih (it := itDown it pfx d.index) (.cons h h2) (by simp [itDown, hd])
            (by simp only [List.length_append, List.length_singleton]; omega)
          refine ⟨v, a1, .inner h1 a2, fun k w hh => ?_⟩
          rw [has_inner] at hh
          obtain ⟨c, t, hct, hh⟩ := hh
          rcases Nat.lt_trichotomy c d.chunk with hlt | heq | hgt
          · rw [h3 c (Nat.zero_le _) hlt] at hct; cases hct
          · subst heq; rw [h1] at hct; cases hct; exact a3 k w hh
          · have b1 := child_bounds hi h1 a2
            have b2 := child_bounds hi hct hh
            have b3 := hi_le_lo (p := path ++ pfx) hgt
            simp only at b1 ⊢
            omega

theorem nodeInit_last {root : Art V} (hr : Inv [] root) (fuel : Nat) {t : Art V} {it : ArtIt V} {path : List Nat}
    (h : Reach root it.stack path t) (hd : it.depth = path.length) (hf : 6 ≤ fuel + path.length) :
    ∃ v, AtLeaf root (nodeInitIterator false fuel t it) v ∧ Has t (nodeInitIterator false fuel t it).key v ∧
      ∀ k w, Has t k w → keyNum k ≤ keyNum (nodeInitIterator false fuel t it).key := by
  have leaf_case : ∀ (fuel : Nat) {k : List Nat} {v : V} {it : ArtIt V} {path : List Nat}, Reach root it.stack path (.leaf k v) →
      it.depth = path.length → ∃ v', AtLeaf root (nodeInitIterator false fuel (.leaf k v) it) v' ∧
      Has (.leaf k v) (nodeInitIterator false fuel (.leaf k v) it).key v' ∧
      ∀ k' w, Has (.leaf k v) k' w → keyNum k' ≤ keyNum (nodeInitIterator false fuel (.leaf k v) it).key := by
    intro fuel k v it path h hd
    have e : nodeInitIterator false fuel (.leaf k v) it = itValid it k v := by cases fuel <;> rfl
    rw [e]
    refine ⟨v, ⟨path, h, rfl, hd⟩, .leaf _ _, fun k' w hh => ?_⟩
    rw [has_leaf] at hh; rw [hh.1]; exact Nat.le_refl _
  induction fuel generalizing t it path with
  | zero =>
    cases t with
    | leaf k v => exact leaf_case 0 h hd
    | inner pfx n => cases h.inv hr with | inner hn hl => omega
  | succ fuel ih =>
    cases t with
    | leaf k v => exact leaf_case _ h hd
    | inner pfx n =>
      have hi := h.inv hr
      have hi' := hi
      cases hi' with
      | inner hn hl hb hc =>
        have hlast := hn.prev_256
        simp only [nodeInitIterator, Bool.false_eq_true, if_false]
        cases e : n.prevFrom 256 with
        | none =>
          rw [e] at hlast
          obtain ⟨c, x, hx⟩ := hn.exists
          rw [hlast c (hn.find_lt hx)] at hx; cases hx
        | some d =>
          rw [e] at hlast
          obtain ⟨_, h1, h2, h3⟩ := hlast
          obtain ⟨v, a1, a2, a3⟩ := ih (it := itDown it pfx d.index) (.cons h h2) (by simp [itDown, hd])
            (by simp only [List.length_append, List.length_singleton]; omega)
          refine ⟨v, a1, .inner h1 a2, fun k w hh => ?_⟩
          rw [has_inner] at hh
          obtain ⟨c, t, hct, hh⟩ := hh
          rcases Nat.lt_trichotomy c d.chunk with hlt | heq | hgt
          · have b1 := child_bounds hi h1 a2
            have b2 := child_bounds hi hct hh
            have b3 := hi_le_lo (p := path ++ pfx) hlt
            simp only at b1 ⊢
            omega
          · subst heq; rw [h1] at hct; cases hct; exact a3 k w hh
          · rw [h3 c hgt (hn.find_lt hct)] at hct; cases hct

/-! ### Going up -/

theorem prefixSizeAt_eq {root : Art V} {st path pfx : List Nat} {n : Node (Art V)} (h : Reach root st path (.inner pfx n)) :
    prefixSizeAt (some root) st = pfx.length := by
  simp only [prefixSizeAt, h.itNode]

theorem itMoveInner_next {root : Art V} (hr : Inv [] root) {st : List Nat} {it : ArtIt V} {path pfx : List Nat} {n : Node (Art V)}
    {d : Indexed (Art V)} (h : Reach root st path (.inner pfx n)) (hst : it.stack = st) (hd : n.childAt it.idx = some d)
    (hdep : it.depth = path.length) :
    FirstAt root (hi (path ++ pfx ++ [d.chunk])) (itMoveInner (some root) true st it) := by
  induction st generalizing it path pfx n d with
  | nil =>
    have hI := h.inv hr
    have hI' := hI
    cases hI' with
    | inner hn hl hb hc =>
      have hnext := hn.next hd
      have hfd := (hn.childAt hd).2
      simp only [itMoveInner, itNeighbor, hst, h.itNode, if_true]
      cases e : n.nextFrom (it.idx + 1) with
      | none =>
        rw [e] at hnext
        simp only
        intro k w hh
        have hn' : Has (.inner pfx n) k w := by cases h; exact hh
        rw [has_inner] at hn'
        obtain ⟨c, t, hct, hh'⟩ := hn'
        have b := child_bounds hI hct hh'
        rcases Nat.lt_trichotomy c d.chunk with hlt | heq | hgt
        · have b3 := hi_le_lo (p := path ++ pfx) hlt
          have := lo_lt_hi (path ++ pfx ++ [d.chunk]); omega
        · rw [heq] at b; exact b.2
        · rw [hnext c hgt] at hct; cases hct
      | some d' =>
        rw [e] at hnext
        simp only
        obtain ⟨h0, h1, h2, h3⟩ := hnext
        obtain ⟨v, a1, a2, a3⟩ := nodeInit_first hr LEVELS (it := itDown it pfx d'.index)
          (by rw [← hst] at h; exact .cons h h2) (by simp [itDown, hdep]) (by simp only [LEVELS]; omega)
        have b1 := child_bounds hI h1 a2
        have b3 := hi_le_lo (p := path ++ pfx) (show d.chunk < d'.chunk by omega)
        have hv := a1.value
        unfold FirstAt
        rw [hv]
        refine ⟨a1, by omega, fun k w hh hX => ?_⟩
        have hn' : Has (.inner pfx n) k w := by cases h; exact hh
        rw [has_inner] at hn'
        obtain ⟨c, t, hct, hh'⟩ := hn'
        have b := child_bounds hI hct hh'
        rcases Nat.lt_trichotomy c d'.chunk with hlt | heq | hgt
        · rcases Nat.lt_or_ge d.chunk c with h5 | h5
          · rw [h3 c h5 hlt] at hct; cases hct
          · exfalso
            rcases Nat.lt_or_eq_of_le h5 with h6 | h6
            · have b4 := hi_le_lo (p := path ++ pfx) h6
              have := lo_lt_hi (path ++ pfx ++ [d.chunk]); omega
            · rw [h6] at b; omega
        · subst heq; rw [h1] at hct; cases hct; exact a3 k w hh'
        · have b4 := hi_le_lo (p := path ++ pfx) hgt; omega
  | cons i st ih =>
    have hI := h.inv hr
    have hI' := hI
    cases hI' with
    | inner hn hl hb hc =>
      have hnext := hn.next hd
      have hfd := (hn.childAt hd).2
      have hrng := child_range hI hfd
      have hX : ∀ k w, Has root k w → hi (path ++ pfx ++ [d.chunk]) ≤ keyNum k → keyNum k < hi path → ∃ c t, n.find c = some t ∧
          d.chunk < c ∧ Has t k w := by
        intro k w hh h5 h6
        have := lo_lt_hi (path ++ pfx ++ [d.chunk])
        have hn' := h.range hr hh (by omega) h6
        rw [has_inner] at hn'
        obtain ⟨c, t, hct, hh'⟩ := hn'
        have b := child_bounds hI hct hh'
        refine ⟨c, t, hct, ?_, hh'⟩
        rcases Nat.lt_trichotomy c d.chunk with hlt | heq | hgt
        · have b3 := hi_le_lo (p := path ++ pfx) hlt; omega
        · rw [heq] at b; omega
        · exact hgt
      simp only [itMoveInner, itNeighbor, hst, h.itNode, if_true]
      cases e : n.nextFrom (it.idx + 1) with
      | none =>
        rw [e] at hnext
        simp only
        obtain ⟨path', pfx', n', e', h', hd', hpe, hte⟩ := h.cons_inv
        refine (ih (it := { it with stack := st, idx := i, depth := it.depth - (prefixSizeAt (some root) st + 1) })
          h' rfl hd' ?_).weaken ?_ ?_
        · simp only [prefixSizeAt_eq h', hdep, hpe, List.length_append, List.length_singleton]; omega
        · rw [← hpe]; exact hrng.2
        · rw [← hpe]
          intro k w hh h5
          rcases Nat.lt_or_ge (keyNum k) (hi path) with h6 | h6
          · obtain ⟨c, t, hct, h7, _⟩ := hX k w hh h5 h6
            rw [hnext c h7] at hct; cases hct
          · exact h6
      | some d' =>
        rw [e] at hnext
        simp only
        obtain ⟨h0, h1, h2, h3⟩ := hnext
        obtain ⟨v, a1, a2, a3⟩ := nodeInit_first hr LEVELS (it := itDown it pfx d'.index)
          (by rw [← hst] at h; exact .cons h h2) (by simp [itDown, hdep]) (by simp only [LEVELS]; omega)
        have b1 := child_bounds hI h1 a2
        have b3 := hi_le_lo (p := path ++ pfx) (show d.chunk < d'.chunk by omega)
        have hv := a1.value
        unfold FirstAt
        rw [hv]
        refine ⟨a1, by omega, fun k w hh hX' => ?_⟩
        rcases Nat.lt_or_ge (keyNum k) (hi path) with h7 | h7
        · obtain ⟨c, t, hct, h5, hh'⟩ := hX k w hh hX' h7
          have b := child_bounds hI hct hh'
          rcases Nat.lt_trichotomy c d'.chunk with hlt | heq | hgt
          · rw [h3 c h5 hlt] at hct; cases hct
          · subst heq; rw [h1] at hct; cases hct; exact a3 k w hh'
          · have b4 := hi_le_lo (p := path ++ pfx) hgt; omega
        · have := child_range hI h1; omega

theorem itMoveInner_prev {root : Art V} (hr : Inv [] root) {st : List Nat} {it : ArtIt V} {path pfx : List Nat} {n : Node (Art V)}
    {d : Indexed (Art V)} (h : Reach root st path (.inner pfx n)) (hst : it.stack = st) (hd : n.childAt it.idx = some d)
    (hdep : it.depth = path.length) :
    LastAt root (lo (path ++ pfx ++ [d.chunk])) (itMoveInner (some root) false st it) := by
  induction st generalizing it path pfx n d with
  | nil =>
    have hI := h.inv hr
    have hI' := hI
    cases hI' with
    | inner hn hl hb hc =>
      have hnext := hn.prev hd
      have hfd := (hn.childAt hd).2
      simp only [itMoveInner, itNeighbor, hst, h.itNode, Bool.false_eq_true, if_false]
      cases e : n.prevFrom it.idx with
      | none =>
        rw [e] at hnext
        simp only
        intro k w hh
        have hn' : Has (.inner pfx n) k w := by cases h; exact hh
        rw [has_inner] at hn'
        obtain ⟨c, t, hct, hh'⟩ := hn'
        have b := child_bounds hI hct hh'
        rcases Nat.lt_trichotomy c d.chunk with hlt | heq | hgt
        · rw [hnext c hlt] at hct; cases hct
        · rw [heq] at b; exact b.1
        · have b3 := hi_le_lo (p := path ++ pfx) hgt
          have := lo_lt_hi (path ++ pfx ++ [d.chunk]); omega
      | some d' =>
        rw [e] at hnext
        simp only
        obtain ⟨h0, h1, h2, h3⟩ := hnext
        obtain ⟨v, a1, a2, a3⟩ := nodeInit_last hr LEVELS (it := itDown it pfx d'.index)
          (by rw [← hst] at h; exact .cons h h2) (by simp [itDown, hdep]) (by simp only [LEVELS]; omega)
        have b1 := child_bounds hI h1 a2
        have b3 := hi_le_lo (p := path ++ pfx) (show d'.chunk < d.chunk by omega)
        have hv := a1.value
        unfold LastAt
        rw [hv]
        refine ⟨a1, by omega, fun k w hh hX => ?_⟩
        have hn' : Has (.inner pfx n) k w := by cases h; exact hh
        rw [has_inner] at hn'
        obtain ⟨c, t, hct, hh'⟩ := hn'
        have b := child_bounds hI hct hh'
        rcases Nat.lt_trichotomy c d'.chunk with hlt | heq | hgt
        · have b4 := hi_le_lo (p := path ++ pfx) hlt; omega
        · subst heq; rw [h1] at hct; cases hct; exact a3 k w hh'
        · rcases Nat.lt_or_ge c d.chunk with h5 | h5
          · rw [h3 c hgt h5] at hct; cases hct
          · exfalso
            rcases Nat.lt_or_eq_of_le h5 with h6 | h6
            · have b4 := hi_le_lo (p := path ++ pfx) h6
              have := lo_lt_hi (path ++ pfx ++ [d.chunk]); omega
            · rw [h6] at hX; omega
  | cons i st ih =>
    have hI := h.inv hr
    have hI' := hI
    cases hI' with
    | inner hn hl hb hc =>
      have hnext := hn.prev hd
      have hfd := (hn.childAt hd).2
      have hrng := child_range hI hfd
      have hX : ∀ k w, Has root k w → keyNum k < lo (path ++ pfx ++ [d.chunk]) → lo path ≤ keyNum k → ∃ c t, n.find c = some t ∧
          c < d.chunk ∧ Has t k w := by
        intro k w hh h5 h6
        have := lo_lt_hi (path ++ pfx ++ [d.chunk])
        have hn' := h.range hr hh h6 (by omega)
        rw [has_inner] at hn'
        obtain ⟨c, t, hct, hh'⟩ := hn'
        have b := child_bounds hI hct hh'
        refine ⟨c, t, hct, ?_, hh'⟩
        rcases Nat.lt_trichotomy c d.chunk with hlt | heq | hgt
        · exact hlt
        · rw [heq] at b; omega
        · have b3 := hi_le_lo (p := path ++ pfx) hgt; omega
      simp only [itMoveInner, itNeighbor, hst, h.itNode, Bool.false_eq_true, if_false]
      cases e : n.prevFrom it.idx with
      | none =>
        rw [e] at hnext
        simp only
        obtain ⟨path', pfx', n', e', h', hd', hpe, hte⟩ := h.cons_inv
        refine (ih (it := { it with stack := st, idx := i, depth := it.depth - (prefixSizeAt (some root) st + 1) })
          h' rfl hd' ?_).weaken ?_ ?_
        · simp only [prefixSizeAt_eq h', hdep, hpe, List.length_append, List.length_singleton]; omega
        · rw [← hpe]; exact hrng.1
        · rw [← hpe]
          intro k w hh h5
          rcases Nat.lt_or_ge (keyNum k) (lo path) with h6 | h6
          · exact h6
          · obtain ⟨c, t, hct, h7, _⟩ := hX k w hh h5 h6
            rw [hnext c h7] at hct; cases hct
      | some d' =>
        rw [e] at hnext
        simp only
        obtain ⟨h0, h1, h2, h3⟩ := hnext
        obtain ⟨v, a1, a2, a3⟩ := nodeInit_last hr LEVELS (it := itDown it pfx d'.index)
          (by rw [← hst] at h; exact .cons h h2) (by simp [itDown, hdep]) (by simp only [LEVELS]; omega)
        have b1 := child_bounds hI h1 a2
        have b3 := hi_le_lo (p := path ++ pfx) (show d'.chunk < d.chunk by omega)
        have hv := a1.value
        unfold LastAt
        rw [hv]
        refine ⟨a1, by omega, fun k w hh hX' => ?_⟩
        rcases Nat.lt_or_ge (keyNum k) (lo path) with h7 | h7
        · have := child_range hI h1; omega
        · obtain ⟨c, t, hct, h5, hh'⟩ := hX k w hh hX' h7
          have b := child_bounds hI hct hh'
          rcases Nat.lt_trichotomy c d'.chunk with hlt | heq | hgt
          · have b4 := hi_le_lo (p := path ++ pfx) hlt; omega
          · subst heq; rw [h1] at hct; cases hct; exact a3 k w hh'
          · rw [h3 c hgt h5] at hct; cases hct

theorem keyNum_lt_top {k : List Nat} (h : IsKey k) : keyNum k < 256 ^ 6 := by
  have := keyNum_lt h.byte; rwa [h.len] at this

theorem itUpAndMove_next {root : Art V} (hr : Inv [] root) {it : ArtIt V} {path : List Nat} {t : Art V}
    (h : Reach root it.stack path t) (hdep : it.depth = path.length) :
    FirstAt root (hi path) (itUpAndMove (some root) true it) := by
  cases hs : it.stack with
  | nil =>
    rw [hs] at h
    obtain ⟨rfl, rfl⟩ := h.nil_inv
    simp only [itUpAndMove, hs]
    intro k w hh
    have := keyNum_lt_top (hr.key hh).1
    have e : hi ([] : List Nat) = 256 ^ 6 := by decide
    omega
  | cons i st =>
    rw [hs] at h
    obtain ⟨path', pfx', n', e', h', hd', hpe, hte⟩ := h.cons_inv
    simp only [itUpAndMove, hs]
    rw [hpe]
    refine itMoveInner_next hr h' rfl hd' ?_
    simp only [prefixSizeAt_eq h', hdep, hpe, List.length_append, List.length_singleton]; omega

theorem itUpAndMove_prev {root : Art V} (hr : Inv [] root) {it : ArtIt V} {path : List Nat} {t : Art V}
    (h : Reach root it.stack path t) (hdep : it.depth = path.length) :
    LastAt root (lo path) (itUpAndMove (some root) false it) := by
  cases hs : it.stack with
  | nil =>
    rw [hs] at h
    obtain ⟨rfl, rfl⟩ := h.nil_inv
    simp only [itUpAndMove, hs]
    intro k w hh
    have e : lo ([] : List Nat) = 0 := by decide
    omega
  | cons i st =>
    rw [hs] at h
    obtain ⟨path', pfx', n', e', h', hd', hpe, hte⟩ := h.cons_inv
    simp only [itUpAndMove, hs]
    rw [hpe]
    refine itMoveInner_prev hr h' rfl hd' ?_
    simp only [prefixSizeAt_eq h', hdep, hpe, List.length_append, List.length_singleton]; omega

/-- `next` goes to the next key. -/
theorem itNext_spec {root : Art V} (hr : Inv [] root) {it : ArtIt V} {v : V} (h : AtLeaf root it v) :
    FirstAt root (keyNum it.key + 1) (itNext (some root) it) := by
  obtain ⟨path, h1, _, h3⟩ := h
  have hb := h1.bound hr (.leaf _ _)
  simp only [itNext, itMove, h1.itNode]
  refine (itUpAndMove_next hr h1 h3).weaken (by omega) ?_
  intro k w hh hk
  rcases Nat.lt_or_ge (keyNum k) (hi path) with h6 | h6
  · have := h1.range hr hh (by omega) h6
    rw [has_leaf] at this
    rw [this.1] at hk; omega
  · exact h6

/-- `prev` goes to the previous key. -/
theorem itPrev_spec {root : Art V} (hr : Inv [] root) {it : ArtIt V} {v : V} (h : AtLeaf root it v) :
    LastAt root (keyNum it.key) (itPrev (some root) it) := by
  obtain ⟨path, h1, _, h3⟩ := h
  have hb := h1.bound hr (.leaf _ _)
  simp only [itPrev, itMove, h1.itNode]
  refine (itUpAndMove_prev hr h1 h3).weaken (by omega) ?_
  intro k w hh hk
  rcases Nat.lt_or_ge (keyNum k) (lo path) with h6 | h6
  · exact h6
  · have := h1.range hr hh h6 (by omega)
    rw [has_leaf] at this
    rw [this.1] at hk; omega

/-! ### Lower bounds -/

theorem hi_le_lo' {p a b : List Nat} (hab : keyNum a < keyNum b) (hl : a.length = b.length) : hi (p ++ a) ≤ lo (p ++ b) := by
  unfold hi lo
  rw [List.length_append, List.length_append, hl]
  refine Nat.mul_le_mul_right _ ?_
  rw [keyNum_append, keyNum_append, hl]; omega

theorem bytes_take {k : List Nat} (h : Bytes k) (n : Nat) : Bytes (k.take n) := fun b hb => h b (List.mem_of_mem_take hb)
theorem bytes_drop {k : List Nat} (h : Bytes k) (n : Nat) : Bytes (k.drop n) := fun b hb => h b (List.mem_of_mem_drop hb)

theorem artCompareKeys_spec {a b : List Nat} (ha : IsKey a) (hb : IsKey b) :
    (artCompareKeys a b = 0 ↔ a = b) ∧ (artCompareKeys a b < 0 ↔ keyNum a < keyNum b) ∧
    (artCompareKeys a b > 0 ↔ keyNum b < keyNum a) := by
  have e : artCompareKeys a b = memcmp a b := by
    simp only [artCompareKeys, artComparePrefix, List.drop_zero, KEY_BYTES]
    rw [List.take_of_length_le (by rw [ha.len]; exact Nat.le_refl _), List.take_of_length_le (by rw [hb.len]; exact Nat.le_refl _)]
  rw [e]
  exact memcmp_spec (by rw [ha.len, hb.len]) ha.byte hb.byte

/-- A minimum of a node is the first key of the tree from `X` on, if `X` is in or before the range of the node and the
tree has nothing in between. -/
theorem firstAt_of_node {root : Art V} {it : ArtIt V} {X : Nat} {v : V} (ha : AtLeaf root it v) (h1 : X ≤ keyNum it.key)
    (h2 : ∀ k w, Has root k w → X ≤ keyNum k → keyNum it.key ≤ keyNum k) : FirstAt root X it := by
  unfold FirstAt
  rw [ha.value]
  exact ⟨ha, h1, h2⟩

theorem nodeLowerBound_spec {root : Art V} (hr : Inv [] root) {key : List Nat} (hk : IsKey key) (fuel : Nat) {t : Art V}
    {it : ArtIt V} {path : List Nat} (h : Reach root it.stack path t) (hdep : it.depth = path.length) (hp : path <+: key)
    (hf : 6 ≤ fuel + path.length) : FirstAt root (keyNum key) (nodeLowerBound (some root) key fuel t it) := by
  have leaf_case : ∀ (fuel : Nat) {k : List Nat} {v : V} {it : ArtIt V} {path : List Nat}, Reach root it.stack path (.leaf k v) →
      it.depth = path.length → path <+: key → FirstAt root (keyNum key) (nodeLowerBound (some root) key fuel (.leaf k v) it) := by
    intro fuel k v it path h hdep hp
    have e : nodeLowerBound (some root) key fuel (.leaf k v) it =
        if artCompareKeys k key ≥ 0 then itValid it k v else itUpAndMove (some root) true it := by cases fuel <;> rfl
    have hkk := ((h.inv hr).key (.leaf _ _)).1
    have hb := prefix_interval hk hp
    have hb2 := h.bound hr (.leaf _ _)
    have hc := artCompareKeys_spec hkk hk
    have hloc : ∀ k' w, Has root k' w → keyNum key ≤ keyNum k' → keyNum k' < hi path → k' = k := by
      intro k' w hh h1 h2
      have := h.range hr hh (by omega) h2
      rw [has_leaf] at this; exact this.1
    rw [e]
    by_cases hge : artCompareKeys k key ≥ 0
    · rw [if_pos hge]
      refine firstAt_of_node (v := v) ⟨path, h, rfl, hdep⟩ ?_ ?_
      · show keyNum key ≤ keyNum k
        rcases Nat.lt_or_ge (keyNum k) (keyNum key) with h5 | h5
        · have := hc.2.1.2 h5; omega
        · exact h5
      · intro k' w hh h1
        show keyNum k ≤ keyNum k'
        rcases Nat.lt_or_ge (keyNum k') (hi path) with h5 | h5
        · rw [hloc k' w hh h1 h5]; exact Nat.le_refl _
        · omega
    · rw [if_neg hge]
      have hlt := hc.2.1.1 (by omega)
      refine (itUpAndMove_next hr h hdep).weaken (by omega) ?_
      intro k' w hh h1
      rcases Nat.lt_or_ge (keyNum k') (hi path) with h5 | h5
      · rw [hloc k' w hh h1 h5] at h1; omega
      · exact h5
  induction fuel generalizing t it path with
  | zero =>
    cases t with
    | leaf k v => exact leaf_case 0 h hdep hp
    | inner pfx n => cases h.inv hr with | inner hn hl => omega
  | succ fuel ih =>
    cases t with
    | leaf k v => exact leaf_case _ h hdep hp
    | inner pfx n =>
      have hI := h.inv hr
      have hI' := hI
      cases hI' with
      | inner hn hl hb hc =>
        have hlen := hk.len
        have hbk := prefix_interval hk hp
        -- the bytes of the key at the place of the prefix
        have hseg : ((key.drop path.length).take pfx.length).length = pfx.length := by
          rw [List.length_take, List.length_drop]; omega
        have happ : path ++ (key.drop path.length).take pfx.length <+: key := by
          rw [append_drop_take hp]; exact List.take_prefix _ _
        have hbk2 := prefix_interval hk happ
        have hcmp : artComparePrefix pfx 0 key it.depth pfx.length = memcmp pfx ((key.drop path.length).take pfx.length) := by
          simp only [artComparePrefix, List.drop_zero, hdep, List.take_length]
        have hms := memcmp_spec hseg.symm hb (bytes_take (bytes_drop hk.byte _) _)
        have hpk : ∀ k w, Has (.inner pfx n) k w → lo (path ++ pfx) ≤ keyNum k ∧ keyNum k < hi (path ++ pfx) := by
          intro k w hh
          have hkk := (hI.key hh).1
          exact prefix_interval hkk ((hI.has_child hkk).1 hh).1
        -- moving on is right if no key of the node is at or above the wanted key
        have hup : (∀ k w, Has (.inner pfx n) k w → keyNum k < keyNum key) →
            FirstAt root (keyNum key) (itUpAndMove (some root) true it) := by
          intro hall
          refine (itUpAndMove_next hr h hdep).weaken (by omega) ?_
          intro k w hh h1
          rcases Nat.lt_or_ge (keyNum k) (hi path) with h5 | h5
          · have := hall k w (h.range hr hh (by omega) h5); omega
          · exact h5
        -- the first key of a part of the node is right if the rest of the node is below the wanted key
        have hfirst : ∀ {it' : ArtIt V} {v : V}, AtLeaf root it' v → keyNum key ≤ keyNum it'.key → keyNum it'.key < hi path →
            (∀ k w, Has (.inner pfx n) k w → keyNum key ≤ keyNum k → keyNum it'.key ≤ keyNum k) →
            FirstAt root (keyNum key) it' := by
          intro it' v ha h1 h2 h3
          refine firstAt_of_node ha h1 fun k w hh h4 => ?_
          rcases Nat.lt_or_ge (keyNum k) (hi path) with h5 | h5
          · exact h3 k w (h.range hr hh (by omega) h5) h4
          · omega
        simp only [nodeLowerBound, hcmp]
        by_cases h1 : memcmp pfx ((key.drop path.length).take pfx.length) < 0
        · rw [if_pos h1]
          refine hup fun k w hh => ?_
          have := hpk k w hh
          have := hi_le_lo' (p := path) (hms.2.1.1 h1) hseg.symm
          omega
        · rw [if_neg h1]
          by_cases h2 : memcmp pfx ((key.drop path.length).take pfx.length) > 0
          · rw [if_pos h2]
            obtain ⟨v, a1, a2, a3⟩ := nodeInit_first hr LEVELS h hdep (by simp only [LEVELS]; omega)
            have b1 := hpk _ _ a2
            have b2 := hi_le_lo' (p := path) (hms.2.2.1 h2) hseg
            have b3 := h.bound hr a2
            exact hfirst a1 (by omega) b3.2 fun k w hh _ => a3 k w hh
          · rw [if_neg h2]
            have heq := hms.1.1 (by omega)
            rw [← heq] at happ
            have hchunk := snoc_prefix happ (by rw [List.length_append]; omega)
            rw [List.length_append] at hchunk
            have hbk3 := prefix_interval hk hchunk
            have hlb := hn.lowerBound (key.getD (it.depth + pfx.length) 0)
            rw [hdep] at hlb ⊢
            cases e : n.lowerBound (key.getD (path.length + pfx.length) 0) with
            | none =>
              rw [e] at hlb
              simp only
              refine hup fun k w hh => ?_
              rw [has_inner] at hh
              obtain ⟨c, t, hct, hh'⟩ := hh
              have b := child_bounds hI hct hh'
              rcases Nat.lt_or_ge c (key.getD (path.length + pfx.length) 0) with h5 | h5
              · have := hi_le_lo (p := path ++ pfx) h5; omega
              · rw [hlb c h5] at hct; cases hct
            | some d =>
              rw [e] at hlb
              simp only
              obtain ⟨d1, d2, d3, d4⟩ := hlb
              have hbelow : ∀ k w c t, n.find c = some t → Has t k w → keyNum key ≤ keyNum k → d.chunk ≤ c := by
                intro k w c t hct hh' hge
                have b := child_bounds hI hct hh'
                rcases Nat.lt_or_ge c (key.getD (path.length + pfx.length) 0) with h5 | h5
                · have := hi_le_lo (p := path ++ pfx) h5; omega
                · rcases Nat.lt_or_ge c d.chunk with h6 | h6
                  · rw [d4 c h5 h6] at hct; cases hct
                  · exact h6
              have hreach : Reach root (itDown it pfx d.index).stack (path ++ pfx ++ [d.chunk]) d.child := .cons h d3
              have hdep' : (itDown it pfx d.index).depth = (path ++ pfx ++ [d.chunk]).length := by simp [itDown, hdep]
              by_cases hgt : d.chunk > key.getD (path.length + pfx.length) 0
              · rw [if_pos hgt]
                obtain ⟨v, a1, a2, a3⟩ := nodeInit_first hr LEVELS hreach hdep' (by simp only [LEVELS]; omega)
                have b1 := child_bounds hI d2 a2
                have b2 := hi_le_lo (p := path ++ pfx) hgt
                have b3 := child_range hI d2
                refine hfirst a1 (by omega) (by omega) fun k w hh hge => ?_
                rw [has_inner] at hh
                obtain ⟨c, t, hct, hh'⟩ := hh
                have h5 := hbelow k w c t hct hh' hge
                rcases Nat.lt_or_eq_of_le h5 with h6 | h6
                · have b := child_bounds hI hct hh'
                  have := hi_le_lo (p := path ++ pfx) h6; omega
                · subst h6; rw [d2] at hct; cases hct; exact a3 k w hh'
              · rw [if_neg hgt]
                have hce : d.chunk = key.getD (path.length + pfx.length) 0 := by omega
                refine ih hreach hdep' (by rw [hce]; exact hchunk) ?_
                simp only [List.length_append, List.length_singleton]; omega

theorem itLowerLoop_spec {root : Art V} (hr : Inv [] root) {key : List Nat} (hk : IsKey key) {st : List Nat} {t : Art V}
    {it : ArtIt V} {path q : List Nat} (h : Reach root st path t) (hst : it.stack = st) (hdep : it.depth = path.length)
    (hik : IsKey it.key) (hpq : path <+: q) (hq : q <+: it.key)
    (hall : ∀ k w, Has t k w → q <+: k) :
    FirstAt root (keyNum key) (itLowerLoop (some root) key st (artComparePrefix it.key 0 key 0 q.length) it) := by
  induction st generalizing t it path q with
  | nil =>
    have hI := h.inv hr
    obtain ⟨rfl, rfl⟩ := h.nil_inv
    have h : Reach t it.stack [] t := by rw [hst]; exact h
    have hl : q.length ≤ 6 := by have := hq.length_le; rw [hik.len] at this; exact this
    have ht : it.key.take q.length = q := prefix_take hq
    have hcmp : artComparePrefix it.key 0 key 0 q.length = memcmp q (key.take q.length) := by
      simp only [artComparePrefix, List.drop_zero, ht]
    have hlen : q.length = (key.take q.length).length := by rw [List.length_take, hk.len]; omega
    have hqb : Bytes q := by rw [← ht]; exact bytes_take hik.byte _
    have hms := memcmp_spec hlen hqb (bytes_take hk.byte _)
    have hkk := prefix_interval hk (List.take_prefix q.length key)
    rw [hcmp]
    simp only [itLowerLoop, h.itNode]
    by_cases h1 : memcmp q (key.take q.length) ≠ 0
    · rw [if_pos h1]
      by_cases h2 : memcmp q (key.take q.length) < 0
      · rw [if_pos h2]
        intro k w hh
        have := prefix_interval (hr.key hh).1 (hall k w hh)
        have := hi_le_lo' (p := []) (hms.2.1.1 h2) hlen
        simp only [List.nil_append] at this
        omega
      · rw [if_neg h2]
        obtain ⟨v, a1, a2, a3⟩ := nodeInit_first hr LEVELS h hdep (by simp only [LEVELS]; omega)
        have b1 := prefix_interval (hr.key a2).1 (hall _ _ a2)
        have b2 := hi_le_lo' (p := []) (hms.2.2.1 (by omega)) hlen.symm
        simp only [List.nil_append] at b2
        exact firstAt_of_node a1 (by omega) fun k w hh _ => a3 k w hh
    · rw [if_neg h1]
      exact nodeLowerBound_spec hr hk LEVELS h hdep (List.nil_prefix) (by simp only [LEVELS]; omega)
  | cons i st ih =>
    have ht : it.key.take q.length = q := prefix_take hq
    simp only [itLowerLoop]
    by_cases h1 : artComparePrefix it.key 0 key 0 q.length ≠ 0
    · rw [if_pos h1]
      obtain ⟨path', pfx', n', e', h', hd', hpe, hte⟩ := h.cons_inv
      have e1 : it.depth - (prefixSizeAt (some root) st + 1) = path'.length := by
        simp only [prefixSizeAt_eq h', hdep, hpe, List.length_append, List.length_singleton]; omega
      have hpre : path' ++ pfx' <+: it.key := (List.prefix_append _ _).trans ((hpe ▸ hpq).trans hq)
      have e2 : it.depth - (prefixSizeAt (some root) st + 1) + prefixSizeAt (some root) st = (path' ++ pfx').length := by
        rw [e1, prefixSizeAt_eq h', List.length_append]
      rw [e2]
      refine ih (it := { it with stack := st, idx := i, depth := _ }) h' rfl e1 hik (List.prefix_append _ _) hpre ?_
      intro k w hh
      have hI := h'.inv hr
      exact ((hI.has_child (hI.key hh).1).1 hh).1
    · rw [if_neg h1]
      rw [← hst] at h
      rw [h.itNode]
      have hl : q.length ≤ 6 := by have := hq.length_le; rw [hik.len] at this; exact this
      have hcmp : artComparePrefix it.key 0 key 0 q.length = memcmp q (key.take q.length) := by
        simp only [artComparePrefix, List.drop_zero, ht]
      have hlen : q.length = (key.take q.length).length := by rw [List.length_take, hk.len]; omega
      have hqb : Bytes q := by rw [← ht]; exact bytes_take hik.byte _
      have hms := memcmp_spec hlen hqb (bytes_take hk.byte _)
      have he : q = key.take q.length := hms.1.1 (by rw [← hcmp]; omega)
      refine nodeLowerBound_spec hr hk LEVELS h hdep (hpq.trans ?_) (by simp only [LEVELS]; omega)
      rw [he]; exact List.take_prefix _ _

/-- `art_iterator_lower_bound` from a leaf. -/
theorem itLowerBound_spec {root : Art V} (hr : Inv [] root) {key : List Nat} (hk : IsKey key) {it : ArtIt V} {v : V}
    (h : AtLeaf root it v) : FirstAt root (keyNum key) (itLowerBound (some root) it key) := by
  obtain ⟨path, h1, h2, h3⟩ := h
  have hik := (h1.inv hr).key (.leaf _ _)
  simp only [itLowerBound, h2]
  have e : KEY_BYTES = it.key.length := hik.1.len.symm
  rw [e]
  refine itLowerLoop_spec hr hk h1 rfl h3 hik.1 hik.2 (List.prefix_refl _) ?_
  intro k w hh
  rw [has_leaf] at hh; rw [hh.1]; exact List.prefix_refl _

/-! ### Stores and removals through an iterator -/

theorem childAtKs_replace {ks : List (Nat × α)} (h : KsOk ks) {i : Nat} {d : Indexed α} (hd : childAtKs ks i = some d) (x : α) :
    childAtKs (replaceKs ks d.chunk x) i = some { d with child := x } := by
  obtain ⟨h1, h2⟩ := childAtKs_some hd
  have hm := replaceKs_map ks d.chunk x
  have hf := idx_findKs h h2
  have e : ((replaceKs ks d.chunk x).map (·.1))[i]? = some d.chunk := by rw [hm, List.getElem?_map, h2]; rfl
  rw [List.getElem?_map] at e
  cases e2 : (replaceKs ks d.chunk x)[i]? with
  | none => rw [e2] at e; cases e
  | some p =>
    rw [e2] at e
    obtain ⟨a, b⟩ := p
    have ea : a = d.chunk := by simpa using e
    subst ea
    have hmem : (d.chunk, b) ∈ replaceKs ks d.chunk x := List.mem_of_getElem? e2
    rw [← findKs_eq_some (replaceKs_ok h _ _), findKs_replaceKs, if_pos rfl, hf] at hmem
    simp only [childAtKs, e2, Option.map_some] at hmem ⊢
    cases hmem
    rw [← h1]

theorem KOk.childAt_replace {n : Node α} (h : KOk n) {i : Nat} {d : Indexed α} (hd : n.childAt i = some d) (x : α) :
    (n.replace d.chunk x).childAt i = some { d with child := x } := by
  have hf := h.childAt hd
  obtain ⟨k1, k2⟩ := h.replace hf.2 x
  match n, h with
  | .n4 ks, h => exact childAtKs_replace h.1 hd x
  | .n16 ks, h => exact childAtKs_replace h.1 hd x
  | .n48 n, h =>
    have hfx := k2 d.chunk
    rw [if_pos rfl] at hfx
    simp only [Node.childAt, N48.childAt] at hd
    split at hd
    · cases hd
    · rename_i hi
      simp only [Option.map_eq_some_iff] at hd
      obtain ⟨c, hc, rfl⟩ := hd
      simp only [Node.replace, Node.find] at hfx
      rw [W48.find_eq] at hfx
      split at hfx
      · show N48.childAt _ i = _
        unfold N48.childAt
        rw [if_neg hi]
        have hfx' : (n.children.set (n.keys.getD i NODE48_EMPTY) (some x)).getD (n.keys.getD i NODE48_EMPTY) none = some x := hfx
        simp only [hfx', Option.map_some]
      · cases hfx
  | .n256 n, h =>
    have hfx := k2 d.chunk
    rw [if_pos rfl] at hfx
    simp only [Node.childAt, N256.childAt] at hd
    split at hd
    · cases hd
    · rename_i hi
      simp only [Option.map_eq_some_iff] at hd
      obtain ⟨c, hc, rfl⟩ := hd
      simp only [Node.replace, Node.find, N256.find] at hfx
      show N256.childAt _ i = _
      unfold N256.childAt
      rw [if_neg hi]
      simp only [hfx, Option.map_some]

/-- A store through the pointer to a value leaves every iterator frame in place. -/
theorem Reach.store {root : Art V} (hr : Inv [] root) {st path : List Nat} {t : Art V} (h : Reach root st path t)
    {key : List Nat} {v : V} (hh : Has t key v) (val : V) :
    st.length ≤ path.length ∧
    Reach (artStoreAt LEVELS root key 0 val) st path (artStoreAt (LEVELS - st.length) t key path.length val) := by
  induction h with
  | nil => exact ⟨Nat.le_refl _, .nil⟩
  | @cons st path pfx n i d h hd ih =>
    have hI := h.inv hr
    have hI' := hI
    cases hI' with
    | inner hn hl hb hc =>
      have hf := (hn.childAt hd).2
      obtain ⟨i1, i2⟩ := ih (.inner hf hh)
      have hkk := (hI.key (.inner hf hh)).1
      have hpre := ((hc _ _ hf).key hh).2
      rw [snoc_prefix_iff (by rw [List.length_append, hkk.len]; exact hl), List.length_append] at hpre
      refine ⟨by simp only [List.length_append, List.length_singleton, List.length_cons]; omega, ?_⟩
      have e : LEVELS - st.length = LEVELS - (i :: st).length + 1 := by
        simp only [List.length_cons, LEVELS]; omega
      rw [e] at i2
      simp only [artStoreAt, hpre.2, hf] at i2
      have := Reach.cons i2 (hn.childAt_replace hd
        (artStoreAt (LEVELS - (i :: st).length) d.child key (path.length + (pfx.length + 1)) val))
      simp only at this
      have e2 : (path ++ pfx ++ [d.chunk]).length = path.length + (pfx.length + 1) := by
        simp only [List.length_append, List.length_singleton]; omega
      rw [e2]
      exact this

theorem AtLeaf.store {root : Art V} (hr : Inv [] root) {it : ArtIt V} {v : V} (h : AtLeaf root it v) (val : V) :
    AtLeaf (artStoreAt LEVELS root it.key 0 val) { it with value := some val } val := by
  obtain ⟨path, h1, h2, h3⟩ := h
  have h4 := (h1.store hr (.leaf _ _) val).2
  have hik := (h1.inv hr).key (.leaf _ _)
  rw [leafStore _ hik.1 hik.1 hik.2 hik.2, if_pos rfl] at h4
  exact ⟨path, h4, rfl, h3⟩

theorem descend_has {t s : Art V} {path : List Nat} (hi : Inv path t) (is : List Nat) (hd : artDescend t is = some s) {k : List Nat}
    {v : V} (hh : Has s k v) : Has t k v := by
  induction is generalizing t path with
  | nil =>
    have : t = s := by cases t <;> simpa [artDescend] using hd
    rw [this]; exact hh
  | cons i is ih =>
    cases hi with
    | leaf => simp [artDescend] at hd
    | @inner _ pfx n hn hl hb hc =>
      simp only [artDescend] at hd
      cases e : n.childAt i with
      | none => rw [e] at hd; cases hd
      | some c =>
        rw [e] at hd
        exact .inner (hn.childAt e).2 (ih (hc _ _ (hn.childAt e).2) hd)

/-- Putting a changed node in the place of the one that the frames lead to. -/
theorem artPlace_spec {t s new : Art V} {path : List Nat} (hi : Inv path t) (is : List Nat) (hd : artDescend t is = some s)
    {key : List Nat} {v : V} (hh : Has s key v) (h1 : ∀ p, Inv p s → Inv p new)
    (h2 : ∀ k w, Has new k w ↔ k ≠ key ∧ Has s k w) :
    Inv path (artPlace t is key path.length new) ∧
    ∀ k w, Has (artPlace t is key path.length new) k w ↔ k ≠ key ∧ Has t k w := by
  induction is generalizing t path with
  | nil =>
    have : t = s := by cases t <;> simpa [artDescend] using hd
    subst this
    have e : artPlace t [] key path.length new = new := by cases t <;> rfl
    rw [e]; exact ⟨h1 _ hi, h2⟩
  | cons i is ih =>
    have hi' := hi
    cases hi' with
    | leaf => simp [artDescend] at hd
    | @inner _ pfx n hn hl hb hc =>
      simp only [artDescend] at hd
      cases e : n.childAt i with
      | none => rw [e] at hd; cases hd
      | some c =>
        rw [e] at hd
        have hf := (hn.childAt e).2
        have hck := descend_has (hc _ _ hf) is hd hh
        have hkk := (hi.key (.inner hf hck)).1
        have hpre := ((hc _ _ hf).key hck).2
        rw [snoc_prefix_iff (by rw [List.length_append, hkk.len]; exact hl), List.length_append] at hpre
        obtain ⟨i1, i2⟩ := ih (hc _ _ hf) hd
        have e2 : (path ++ pfx ++ [c.chunk]).length = path.length + (pfx.length + 1) := by
          simp only [List.length_append, List.length_singleton]; omega
        rw [e2] at i1 i2
        simp only [artPlace, e, hpre.2]
        obtain ⟨r1, r2⟩ := replace_spec hi hf i1
        refine ⟨r1, fun k w => ?_⟩
        rw [r2, has_split hf, i2]
        constructor
        · rintro (⟨a, b⟩ | ⟨d, s', hd', hs', hk'⟩)
          · exact ⟨a, .inl b⟩
          · refine ⟨?_, .inr ⟨d, s', hd', hs', hk'⟩⟩
            rintro rfl
            exact other_key hi hkk (by rw [hpre.2]; exact hd') hs' hk'
        · rintro ⟨a, b | b⟩
          · exact .inl ⟨a, b⟩
          · exact .inr b

/-! ### Trees that may be empty -/

def RAt (root : Option (Art V)) (it : ArtIt V) (v : V) : Prop := ∃ t, root = some t ∧ AtLeaf t it v

/-- The iterator stands on the first key from `X` on, or nowhere if there is none. -/
def RFirst (root : Option (Art V)) (X : Nat) (it : ArtIt V) : Prop :=
  match it.value with
  | some v => RAt root it v ∧ X ≤ keyNum it.key ∧ ∀ k w, RHas root k w → X ≤ keyNum k → keyNum it.key ≤ keyNum k
  | none => ∀ k w, RHas root k w → keyNum k < X

/-- The iterator stands on the last key below `X`, or nowhere if there is none. -/
def RLast (root : Option (Art V)) (X : Nat) (it : ArtIt V) : Prop :=
  match it.value with
  | some v => RAt root it v ∧ keyNum it.key < X ∧ ∀ k w, RHas root k w → keyNum k < X → keyNum k ≤ keyNum it.key
  | none => ∀ k w, RHas root k w → X ≤ keyNum k

theorem rhas_some {t : Art V} {k : List Nat} {v : V} : RHas (some t) k v ↔ Has t k v :=
  ⟨fun ⟨_, e, h⟩ => by cases e; exact h, fun h => ⟨t, rfl, h⟩⟩

theorem rhas_none {k : List Nat} {v : V} : ¬ RHas (none : Option (Art V)) k v := fun ⟨_, e, _⟩ => by cases e

theorem FirstAt.r {t : Art V} {X : Nat} {it : ArtIt V} (h : FirstAt t X it) : RFirst (some t) X it := by
  unfold FirstAt at h
  unfold RFirst
  cases e : it.value with
  | none => rw [e] at h; exact fun k w hh => h k w (rhas_some.1 hh)
  | some v =>
    rw [e] at h
    exact ⟨⟨t, rfl, h.1⟩, h.2.1, fun k w hh => h.2.2 k w (rhas_some.1 hh)⟩

theorem LastAt.r {t : Art V} {X : Nat} {it : ArtIt V} (h : LastAt t X it) : RLast (some t) X it := by
  unfold LastAt at h
  unfold RLast
  cases e : it.value with
  | none => rw [e] at h; exact fun k w hh => h k w (rhas_some.1 hh)
  | some v =>
    rw [e] at h
    exact ⟨⟨t, rfl, h.1⟩, h.2.1, fun k w hh => h.2.2 k w (rhas_some.1 hh)⟩

theorem RAt.has {root : Option (Art V)} (h : ArtOk root) {it : ArtIt V} {v : V} (ha : RAt root it v) : RHas root it.key v := by
  obtain ⟨t, rfl, ha⟩ := ha
  exact ⟨t, rfl, ha.has (h t rfl)⟩

theorem RAt.value {root : Option (Art V)} {it : ArtIt V} {v : V} (ha : RAt root it v) : it.value = some v := by
  obtain ⟨t, rfl, ha⟩ := ha
  exact ha.value

theorem reach_start (t : Art V) (it : ArtIt V) : Reach t ({ it with stack := [], depth := 0 } : ArtIt V).stack [] t := .nil

theorem artInit_first {root : Option (Art V)} (h : ArtOk root) : RFirst root 0 (artInitIterator root true) := by
  cases root with
  | none => exact fun k w hh => absurd hh rhas_none
  | some t =>
    obtain ⟨v, a1, a2, a3⟩ := nodeInit_first (h t rfl) LEVELS (it := itZero) (path := []) .nil rfl (by simp only [LEVELS]; omega)
    exact (firstAt_of_node a1 (Nat.zero_le _) fun k w hh _ => a3 k w hh).r

theorem artInit_last {root : Option (Art V)} (h : ArtOk root) : RLast root (256 ^ 6) (artInitIterator root false) := by
  cases root with
  | none => exact fun k w hh => absurd hh rhas_none
  | some t =>
    obtain ⟨v, a1, a2, a3⟩ := nodeInit_last (h t rfl) LEVELS (it := itZero) (path := []) .nil rfl (by simp only [LEVELS]; omega)
    refine LastAt.r ?_
    unfold LastAt
    have e : (artInitIterator (some t) false).value = some v := a1.value
    rw [e]
    exact ⟨a1, keyNum_lt_top ((h t rfl).key a2).1, fun k w hh _ => a3 k w hh⟩

theorem itNext_first {root : Option (Art V)} (h : ArtOk root) {it : ArtIt V} {v : V} (ha : RAt root it v) :
    RFirst root (keyNum it.key + 1) (itNext root it) := by
  obtain ⟨t, rfl, ha⟩ := ha
  exact (itNext_spec (h t rfl) ha).r

theorem itPrev_last {root : Option (Art V)} (h : ArtOk root) {it : ArtIt V} {v : V} (ha : RAt root it v) :
    RLast root (keyNum it.key) (itPrev root it) := by
  obtain ⟨t, rfl, ha⟩ := ha
  exact (itPrev_spec (h t rfl) ha).r

theorem artLowerBound_first {root : Option (Art V)} (h : ArtOk root) {key : List Nat} (hk : IsKey key) :
    RFirst root (keyNum key) (artLowerBound root key) := by
  cases root with
  | none => exact fun k w hh => absurd hh rhas_none
  | some t =>
    exact (nodeLowerBound_spec (h t rfl) hk LEVELS (it := itZero) (path := []) .nil rfl List.nil_prefix
      (by simp only [LEVELS]; omega)).r

theorem itLowerBound_first {root : Option (Art V)} (h : ArtOk root) {key : List Nat} (hk : IsKey key) {it : ArtIt V} {v : V}
    (ha : RAt root it v) : RFirst root (keyNum key) (itLowerBound root it key) := by
  obtain ⟨t, rfl, ha⟩ := ha
  exact (itLowerBound_spec (h t rfl) hk ha).r

theorem itLowerBound_none {root : Option (Art V)} (h : ArtOk root) {key : List Nat} (hk : IsKey key) {it : ArtIt V}
    (hv : it.value = none) : RFirst root (keyNum key) (itLowerBound root it key) := by
  cases root with
  | none => simp only [itLowerBound, hv]; unfold RFirst; rw [hv]; exact fun k w hh => absurd hh rhas_none
  | some t =>
    have e : itLowerBound (some t) it key = nodeLowerBound (some t) key LEVELS t { it with stack := [], depth := 0 } := by
      unfold itLowerBound; rw [hv]
    rw [e]
    exact (nodeLowerBound_spec (h t rfl) hk LEVELS (reach_start t it) rfl List.nil_prefix (by simp only [LEVELS]; omega)).r

theorem RFirst.next {root : Option (Art V)} (h : ArtOk root) {X : Nat} {it : ArtIt V} {v : V} (hf : RFirst root X it)
    (hv : it.value = some v) : RAt root it v := by
  unfold RFirst at hf
  rw [hv] at hf; exact hf.1

theorem artUpperBound_first {root : Option (Art V)} (h : ArtOk root) {key : List Nat} (hk : IsKey key) :
    RFirst root (keyNum key + 1) (artUpperBound root key) := by
  have hlb := artLowerBound_first h hk
  cases root with
  | none => exact fun k w hh => absurd hh rhas_none
  | some t =>
    simp only [artUpperBound]
    simp only [artLowerBound] at hlb
    generalize nodeLowerBound (some t) key LEVELS t itZero = it at hlb
    unfold RFirst at hlb
    cases e : it.value with
    | none =>
      rw [e] at hlb
      rw [if_neg (by simp)]
      unfold RFirst
      rw [e]
      exact fun k w hh => Nat.lt_succ_of_lt (hlb k w hh)
    | some v =>
      rw [e] at hlb
      obtain ⟨a1, a2, a3⟩ := hlb
      have hc := artCompareKeys_spec (h.key (a1.has h)) hk
      by_cases hz : artCompareKeys it.key key = 0
      · rw [if_pos ⟨rfl, hz⟩]
        rw [← hc.1.1 hz]
        exact itNext_first h a1
      · rw [if_neg (fun x => hz x.2)]
        unfold RFirst
        rw [e]
        refine ⟨a1, ?_, fun k w hh hge => a3 k w hh (by omega)⟩
        rcases Nat.lt_or_eq_of_le a2 with h5 | h5
        · exact h5
        · exfalso; apply hz; rw [hc.1]
          exact (keyNum_inj hk.byte (h.key (a1.has h)).byte (by rw [hk.len, (h.key (a1.has h)).len]) h5).symm

/-- A store through the value pointer of an iterator. -/
theorem RAt.store {root : Option (Art V)} (h : ArtOk root) {it : ArtIt V} {v : V} (ha : RAt root it v) (val : V) :
    ArtOk (artStore root it.key val) ∧ RAt (artStore root it.key val) { it with value := some val } val ∧
    ∀ k w, RHas (artStore root it.key val) k w ↔ if k = it.key then w = val else RHas root k w := by
  have hkk := h.key (ha.has h)
  have hs := artStore_has h hkk ((artFind_iff h hkk v).2 (ha.has h)) val
  refine ⟨hs.1, ?_, hs.2⟩
  obtain ⟨t, rfl, ha⟩ := ha
  exact ⟨_, rfl, ha.store (h t rfl) val⟩

/-- `art_iterator_insert`. -/
theorem itInsert_spec {root : Option (Art V)} (h : ArtOk root) (it : ArtIt V) {key : List Nat} (hk : IsKey key)
    (hn : artFind root key = none) (val : V) :
    (itInsert root it key val).1 = artInsert root key val ∧ RAt (itInsert root it key val).1 (itInsert root it key val).2 val ∧
    (itInsert root it key val).2.key = key := by
  obtain ⟨h1, h2⟩ := artInsert_has h hk hn val
  have hkey : RHas (artInsert root key val) key val := (h2 key val).2 (.inr ⟨rfl, rfl⟩)
  obtain ⟨t, e, ht⟩ := hkey
  simp only [itInsert, e]
  rw [e] at h1 h2
  have hb := nodeLowerBound_spec (h1 t rfl) hk LEVELS (reach_start t it) rfl List.nil_prefix (by simp only [LEVELS]; omega)
  generalize nodeLowerBound (some t) key LEVELS t { it with stack := [], depth := 0 } = it' at hb
  unfold FirstAt at hb
  cases ev : it'.value with
  | none => rw [ev] at hb; have := hb key val ht; omega
  | some v =>
    rw [ev] at hb
    obtain ⟨a1, a2, a3⟩ := hb
    have hkk := ((h1 t rfl).key (a1.has (h1 t rfl))).1
    have ek : it'.key = key := keyNum_inj hkk.byte hk.byte (by rw [hk.len, hkk.len])
      (Nat.le_antisymm (a3 key val ht (Nat.le_refl _)) a2)
    have hv := a1.has (h1 t rfl)
    rw [ek] at hv
    have : v = val := Has.unique (h1 t rfl) hv ht
    subst this
    exact ⟨trivial, ⟨t, rfl, a1⟩, ek⟩

/-- `art_iterator_erase`. -/
theorem itErase_spec {root : Option (Art V)} (h : ArtOk root) {it : ArtIt V} {v : V} (ha : RAt root it v) :
    (itErase root it).1 = some v ∧ ArtOk (itErase root it).2.1 ∧
    (∀ k w, RHas (itErase root it).2.1 k w ↔ k ≠ it.key ∧ RHas root k w) ∧
    RFirst (itErase root it).2.1 (keyNum it.key + 1) (itErase root it).2.2 := by
  obtain ⟨t, rfl, path, h1, h2, h3⟩ := ha
  have hr := h t rfl
  have hkk := (hr.key (h1.has hr (.leaf _ _))).1
  cases hs : it.stack with
  | nil =>
    rw [hs] at h1
    obtain ⟨rfl, e⟩ := h1.nil_inv
    simp only [itErase, h2, hs]
    refine ⟨trivial, artOk_none, fun k w => ?_, fun k w hh => absurd hh rhas_none⟩
    rw [rhas_some, ← e, has_leaf]
    exact ⟨fun hh => absurd hh rhas_none, fun ⟨a, b, _⟩ => absurd b a⟩
  | cons i st =>
    rw [hs] at h1
    obtain ⟨path', pfx, n, d, h', hd', hpe, hte⟩ := h1.cons_inv
    have hI := h'.inv hr
    have hI' := hI
    cases hI' with
    | inner hn hl hb hc =>
      have hf := (hn.childAt hd').2
      rw [← hte] at hf
      have hpre := ((h1.inv hr).key (.leaf _ _)).2
      rw [hpe, snoc_prefix_iff (by rw [List.length_append, hkk.len]; exact hl), List.length_append] at hpre
      have hdep : it.depth - (pfx.length + 1) = path'.length := by
        rw [h3, hpe]; simp only [List.length_append, List.length_singleton]; omega
      have hh : Has (.inner pfx n) it.key v := .inner hf (.leaf _ _)
      simp only [itErase, h2, hs, h'.node, hdep, hpre.2]
      have hp := artPlace_spec hr st.reverse h'.node hh (new := nodeErase pfx n d.chunk)
        (fun p hp => (nodeErase_spec hp hf).1) (fun k w => by
          rw [(nodeErase_spec hI hf).2, has_split hf, has_leaf]
          constructor
          · rintro ⟨c, s, h5, h6, h7⟩
            refine ⟨?_, .inr ⟨c, s, h5, h6, h7⟩⟩
            rintro rfl
            exact other_key hI hkk (by rw [hpre.2]; exact h5) h6 h7
          · rintro ⟨a, ⟨b, _⟩ | b⟩
            · exact absurd b a
            · exact b)
      simp only [List.length_nil] at hp
      have hok : ArtOk (some (artPlace t st.reverse it.key 0 (nodeErase pfx n d.chunk))) := fun s hs => by cases hs; exact hp.1
      refine ⟨trivial, hok, fun k w => by rw [rhas_some, rhas_some]; exact hp.2 k w, ?_⟩
      have hb := nodeLowerBound_spec hp.1 hkk LEVELS (reach_start _ { it with value := some v }) rfl List.nil_prefix (by simp only [LEVELS]; omega)
      refine (hb.r : RFirst _ _ _) |> fun hx => ?_
      generalize hg : artPlace t st.reverse it.key 0 (nodeErase pfx n d.chunk) = T at hp hok hx ⊢
      generalize nodeLowerBound (some T) it.key LEVELS T _ = it' at hx ⊢
      unfold RFirst at hx ⊢
      cases ev : it'.value with
      | none => rw [ev] at hx; exact fun k w hh => Nat.lt_succ_of_lt (hx k w hh)
      | some v' =>
        rw [ev] at hx
        obtain ⟨a1, a2, a3⟩ := hx
        refine ⟨a1, ?_, fun k w hh hge => a3 k w hh (by omega)⟩
        have hk' := a1.has hok
        have hne := ((hp.2 _ _).1 (rhas_some.1 hk')).1
        have hk'' := hok.key hk'
        rcases Nat.lt_or_eq_of_le a2 with h5 | h5
        · exact h5
        · exact absurd (keyNum_inj hkk.byte hk''.byte (by rw [hkk.len, hk''.len]) h5).symm hne

end
end CRoaring
