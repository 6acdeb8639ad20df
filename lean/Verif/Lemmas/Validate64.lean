import Verif.Model.Validate64
import Verif.Lemmas.R64b
import Verif.Lemmas.BitsetT
/-
The validation of a 64-bit bitmap accepts exactly the bitmaps that satisfy the invariant.
-/
set_option linter.unusedSimpArgs false
set_option linter.unusedVariables false
namespace CRoaring
open Spec

/-- The fields of a node have the C types and sizes of their declarations, keys of a node48 point into its array of
children or are the empty mark, and its count is the number of keys in use. -/
def NTyped {α : Type} : Node α → Prop
  | .n4 ks => ∀ p ∈ ks, p.1 < 256
  | .n16 ks => ∀ p ∈ ks, p.1 < 256
  | .n48 n => n.keys.length = 256 ∧ n.children.length = 48 ∧ (∀ k ∈ n.keys, k ≤ 48) ∧
      (n.keys.filter (fun k => k != 48)).length = n.count
  | .n256 n => n.children.length = 256

/-- Every node reachable in the tree has the C types and sizes of its declaration. -/
inductive ATyped {V : Type} : Art V → Prop
  | leaf {k : List Nat} {v : V} (hk : IsKey k) : ATyped (.leaf k v)
  | inner {pfx : List Nat} {n : Node (Art V)} (hb : Bytes pfx) (hn : NTyped n)
      (hc : ∀ c t, n.find c = some t → ATyped t) : ATyped (.inner pfx n)

theorem keysIncrease_iff {α : Type} (ks : List (Nat × α)) :
    keysIncrease ks = true ↔ ks.Pairwise (fun p q => p.1 < q.1) := by
  induction ks with
  | nil => simp [keysIncrease]
  | cons p t ih =>
    cases t with
    | nil => simp [keysIncrease]
    | cons q t =>
      simp only [keysIncrease]
      constructor
      · intro h
        split at h
        · cases h
        · next hlt =>
          have h2 := ih.1 h
          refine List.pairwise_cons.2 ⟨?_, h2⟩
          intro a ha
          rcases List.mem_cons.1 ha with rfl | ha
          · omega
          · have := (List.pairwise_cons.1 h2).1 a ha; omega
      · intro h
        obtain ⟨h1, h2⟩ := List.pairwise_cons.1 h
        have := h1 q List.mem_cons_self
        rw [if_neg (by omega)]
        exact ih.2 h2

/-- What the first loop over a node48 establishes for the keys below `m`. -/
structure U48 {α : Type} (n : N48 α) (m : Nat) (used : Word) : Prop where
  inj : ∀ i j, i < m → j < m → n.K i ≠ 48 → n.K i = n.K j → i = j
  ch : ∀ i, i < m → n.K i ≠ 48 → (n.children.getD (n.K i) none).isSome = true
  bit : ∀ s, used.getLsbD s = true ↔ ∃ i, i < m ∧ n.K i = s ∧ s ≠ 48
  cnt : card 48 (fun s => used.getLsbD s) = card m (fun i => n.K i != 48)

def usedStep {α : Type} (n : N48 α) (acc : Option Word) (i : Nat) : Option Word :=
  match acc with
  | none => none
  | some used =>
    let child_idx := n.keys.getD i NODE48_EMPTY
    if child_idx ≠ NODE48_EMPTY then
      if used &&& oneBit child_idx ≠ 0#64 then none
      else match n.children.getD child_idx none with
        | none => none
        | some _ => some (used ||| oneBit child_idx)
    else some used

theorem used48_go {α : Type} (n : N48 α) (hK : ∀ i, n.K i ≤ 48) (m : Nat) :
    (∀ used, (List.range m).foldl (usedStep n) (some 0#64) = some used → U48 n m used) ∧
    ((∀ i j, i < m → j < m → n.K i ≠ 48 → n.K i = n.K j → i = j) →
      (∀ i, i < m → n.K i ≠ 48 → (n.children.getD (n.K i) none).isSome = true) →
      ∃ used, (List.range m).foldl (usedStep n) (some 0#64) = some used) := by
  induction m with
  | zero =>
    refine ⟨fun used h => ?_, fun _ _ => ⟨_, rfl⟩⟩
    simp only [List.range_zero, List.foldl_nil, Option.some.injEq] at h
    subst h
    refine ⟨fun i j h => absurd h (by omega), fun i h => absurd h (by omega), fun s => ?_, ?_⟩
    · simp
    · simp only [BitVec.getLsbD_zero]; rw [card_false]; rfl
  | succ m ih =>
    rw [List.range_succ, List.foldl_append, List.foldl_cons, List.foldl_nil]
    obtain ⟨ih1, ih2⟩ := ih
    have hKm := hK m
    have hdef : n.keys.getD m NODE48_EMPTY = n.K m := rfl
    constructor
    · intro used h
      generalize hacc : (List.range m).foldl (usedStep n) (some 0#64) = acc at h ih1
      cases acc with
      | none => simp [usedStep] at h
      | some u =>
        have hu := ih1 u rfl
        simp only [usedStep, hdef] at h
        by_cases h48 : n.K m = 48
        · rw [if_neg (by simp [h48, NODE48_EMPTY])] at h
          simp only [Option.some.injEq] at h
          subst h
          refine ⟨?_, ?_, ?_, ?_⟩
          · intro i j hi hj hne e
            have hi' : i ≠ m := by rintro rfl; exact hne h48
            have hj' : j ≠ m := by rintro rfl; rw [h48] at e; exact hne e
            exact hu.inj i j (by omega) (by omega) hne e
          · intro i hi hne
            have hi' : i ≠ m := by rintro rfl; exact hne h48
            exact hu.ch i (by omega) hne
          · intro s
            rw [hu.bit]
            constructor
            · rintro ⟨i, h1, h2, h3⟩; exact ⟨i, by omega, h2, h3⟩
            · rintro ⟨i, h1, h2, h3⟩
              refine ⟨i, ?_, h2, h3⟩
              have : i ≠ m := by rintro rfl; omega
              omega
          · rw [hu.cnt, card_succ]; simp [h48]
        · rw [if_pos (by simpa [NODE48_EMPTY] using h48)] at h
          have hlt : n.K m < 48 := by omega
          have hb := and_oneBit_ne_zero u (n.K m) (by omega)
          split at h
          · cases h
          · next hz =>
            have hz0 : u.getLsbD (n.K m) = false := by
              rw [← hb]; simpa using hz
            split at h
            · cases h
            · next hch =>
              simp only [Option.some.injEq] at h
              subst h
              have hno : ∀ i, i < m → n.K i ≠ n.K m := by
                intro i hi e
                have := (hu.bit (n.K m)).2 ⟨i, hi, e, h48⟩
                rw [hz0] at this; cases this
              refine ⟨?_, ?_, ?_, ?_⟩
              · intro i j hi hj hne e
                by_cases hi' : i = m
                · by_cases hj' : j = m
                  · omega
                  · exact absurd (by rw [← e, hi']) (hno j (by omega))
                · by_cases hj' : j = m
                  · exact absurd (by rw [e, hj']) (hno i (by omega))
                  · exact hu.inj i j (by omega) (by omega) hne e
              · intro i hi hne
                by_cases hi' : i = m
                · subst hi'; rw [hch]; rfl
                · exact hu.ch i (by omega) hne
              · intro s
                simp only [BitVec.getLsbD_or, Bool.or_eq_true, hu.bit, oneBit_getLsbD, Bool.and_eq_true, decide_eq_true_eq]
                constructor
                · rintro (⟨i, h1, h2, h3⟩ | ⟨h1, h2⟩)
                  · exact ⟨i, by omega, h2, h3⟩
                  · exact ⟨m, by omega, h2.symm, by omega⟩
                · rintro ⟨i, h1, h2, h3⟩
                  by_cases hi' : i = m
                  · subst hi'; exact Or.inr ⟨by omega, h2.symm⟩
                  · exact Or.inl ⟨i, by omega, h2, h3⟩
              · rw [card_succ m, ← hu.cnt]
                have := card_set_true (n := 48) (v := n.K m) (s := fun s => u.getLsbD s)
                  (t := fun s => (u ||| oneBit (n.K m)).getLsbD s) hlt hz0
                  (by simp only [BitVec.getLsbD_or, oneBit_getLsbD]; simp; omega)
                  (by intro x hne; simp only [BitVec.getLsbD_or, oneBit_getLsbD]; simp [hne])
                rw [this]; simp [h48]
    · intro hinj hch
      obtain ⟨u, hu⟩ := ih2 (fun i j hi hj => hinj i j (by omega) (by omega)) (fun i hi => hch i (by omega))
      have hU := ih1 u hu
      rw [hu]
      simp only [usedStep, hdef]
      by_cases h48 : n.K m = 48
      · rw [if_neg (by simp [h48, NODE48_EMPTY])]; exact ⟨_, rfl⟩
      · rw [if_pos (by simpa [NODE48_EMPTY] using h48)]
        have hb := and_oneBit_ne_zero u (n.K m) (by omega)
        have hz0 : u.getLsbD (n.K m) = false := by
          rw [Bool.eq_false_iff]
          intro e
          obtain ⟨i, h1, h2, h3⟩ := (hU.bit _).1 e
          have := hinj i m (by omega) (by omega) (by omega) h2
          omega
        rw [hz0] at hb
        rw [if_neg (by simpa using hb)]
        obtain ⟨x, hx⟩ := Option.isSome_iff_exists.1 (hch m (by omega) h48)
        rw [hx]; exact ⟨_, rfl⟩

theorem used48_eq {α : Type} (n : N48 α) : used48 n = (List.range 256).foldl (usedStep n) (some 0#64) := rfl

theorem filter_getD_card (l : List Nat) (p : Nat → Bool) (d : Nat) :
    (l.filter p).length = card l.length (fun i => p (l.getD i d)) := by
  have e : l = (List.range l.length).map (fun i => l.getD i d) := by
    apply List.ext_getElem (by simp)
    intro i h1 h2
    simp [List.getD, List.getElem?_eq_getElem h1]
  have : l.filter p = ((List.range l.length).filter (fun i => p (l.getD i d))).map (fun i => l.getD i d) := by
    conv => lhs; rw [e, List.filter_map]
    rfl
  rw [this, List.length_map]; rfl

/-- For a node48 of the declared shape, the checks of the validator amount to the invariant. -/
theorem check48_iff {α : Type} {n : N48 α} (ht : NTyped (.n48 n)) :
    (∃ used, used48 n = some used ∧ used = n.avail ^^^ NODE48_MASK) ↔ W48 n := by
  obtain ⟨hkl, hcl, hk, hcnt⟩ := ht
  have hK : ∀ i, n.K i ≤ 48 := by
    intro i
    rcases Nat.lt_or_ge i n.keys.length with hl | hg
    · simp only [N48.K, List.getD, List.getElem?_eq_getElem hl, Option.getD_some]
      exact hk _ (List.getElem_mem hl)
    · simp only [N48.K]; rw [getD_ge _ hg]; exact Nat.le_refl _
  have hKge : ∀ i, n.K i ≠ 48 → i < 256 := by
    intro i hi
    rcases Nat.lt_or_ge i 256 with hl | hg
    · exact hl
    · exfalso; apply hi; simp only [N48.K]; exact getD_ge _ (by rw [hkl]; exact hg)
  have hc : card 256 (fun i => n.K i != 48) = n.count := by
    rw [← hcnt, filter_getD_card n.keys _ NODE48_EMPTY, hkl]; rfl
  rw [used48_eq]
  obtain ⟨g1, g2⟩ := used48_go n hK 256
  constructor
  · rintro ⟨used, h1, h2⟩
    have hu := g1 used h1
    have hbit : ∀ s, used.getLsbD s = (n.avail.getLsbD s ^^ decide (s < 48)) := by
      intro s; rw [h2, BitVec.getLsbD_xor, mask48_bit]
    refine ⟨hkl, hcl, hK, fun i j hi e => hu.inj i j (hKge i hi) (hKge j (by rw [← e]; exact hi)) hi e, ?_, ?_,
      fun i hi => hu.ch i (hKge i hi) hi, hc, ?_⟩
    · intro i hi
      have := (hu.bit (n.K i)).2 ⟨i, hKge i hi, rfl, hi⟩
      rw [hbit] at this
      have hlt : n.K i < 48 := by have := hK i; omega
      simpa [hlt] using this
    · intro s hs
      have h0 : used.getLsbD s = false := by
        rw [Bool.eq_false_iff]; intro e
        obtain ⟨i, _, h4, h5⟩ := (hu.bit s).1 e
        have := hK i; omega
      rw [hbit] at h0
      have : ¬ s < 48 := by omega
      simpa [this] using h0
    · rw [← hc, ← hu.cnt]
      refine card_congr fun s hs => ?_
      rw [hbit]; simp [hs]
  · intro h
    obtain ⟨used, hu⟩ := g2 (fun i j _ _ => h.inj i j) (fun i _ => h.ch i)
    refine ⟨used, hu, ?_⟩
    have hU := g1 used hu
    have hsub : ∀ x, x < 48 → used.getLsbD x = true → (!n.avail.getLsbD x) = true := by
      intro x hx e
      obtain ⟨i, h1, h2, h3⟩ := (hU.bit x).1 e
      have := h.av i (by omega)
      rw [h2] at this; rw [this]; rfl
    have heq := eq_of_card_le hsub (by rw [h.cntA, hU.cnt, h.cnt]; exact Nat.le_refl _)
    apply BitVec.eq_of_getLsbD_eq
    intro s hs
    rw [BitVec.getLsbD_xor, mask48_bit]
    by_cases h48 : s < 48
    · rw [heq s h48]; simp [h48]
    · have h0 : used.getLsbD s = false := by
        rw [Bool.eq_false_iff]; intro e
        obtain ⟨i, _, h4, h5⟩ := (hU.bit s).1 e
        have := hK i; omega
      rw [h0, h.hi s (by omega)]; simp [h48]

section
variable {V : Type}

theorem leaf_prefix {key path : List Nat} (hk : IsKey key) (hb : Bytes path) (hl : path.length ≤ 6) :
    artComparePrefix key 0 path 0 path.length = 0 ↔ path <+: key := by
  simp only [artComparePrefix, List.drop_zero, List.take_length]
  have hlen : (key.take path.length).length = path.length := by rw [List.length_take, hk.len]; omega
  rw [(memcmp_spec hlen (fun b h => hk.byte b (List.mem_of_mem_take h)) hb).1]
  constructor
  · intro h; rw [← h]; exact List.take_prefix _ _
  · intro h; exact prefix_take h

/-- The children that the loops over a node visit are those that a search finds. -/
theorem all_ks {ks : List (Nat × Art V)} (h : KsOk ks) (P : Art V → Nat → Bool) :
    ks.all (fun p => P p.2 p.1) = true ↔ ∀ c t, findKs ks c = some t → P t c = true := by
  rw [List.all_eq_true]
  constructor
  · intro ha c t hf; exact ha (c, t) ((findKs_eq_some h).1 hf)
  · intro ha p hp; exact ha p.1 p.2 ((findKs_eq_some h).2 hp)

theorem artValidateAt_iff (cb : V → Bool) (fuel : Nat) : ∀ (t : Art V) (path : List Nat), ATyped t → Bytes path →
    path.length ≤ 6 → 7 ≤ fuel + path.length →
    (artValidateAt cb fuel (some t) path = true ↔ Inv path t ∧ ∀ k v, Has t k v → cb v = true) := by
  induction fuel with
  | zero => intro t path _ _ h1 h2; omega
  | succ fuel ih =>
    intro t path ht hb hl hf
    cases ht with
    | @leaf key val hk =>
      simp only [artValidateAt]
      by_cases hp : path <+: key
      · rw [if_neg (by simpa using (leaf_prefix hk hb hl).2 hp)]
        constructor
        · intro h; exact ⟨.leaf hk hp, fun k v hv => by obtain ⟨_, rfl⟩ := has_leaf.1 hv; exact h⟩
        · rintro ⟨_, h⟩; exact h _ _ (.leaf _ _)
      · rw [if_pos (fun e => hp ((leaf_prefix hk hb hl).1 e))]
        constructor
        · intro h; cases h
        · rintro ⟨h, _⟩; cases h with | leaf _ h => exact absurd h hp
    | @inner pfx n hbp hn hc =>
      -- children
      have hrec : path.length + pfx.length < 6 → ∀ c t, c < 256 → n.find c = some t →
          (artValidateAt cb fuel (some t) (path ++ pfx ++ [c]) = true ↔
            Inv (path ++ pfx ++ [c]) t ∧ ∀ k v, Has t k v → cb v = true) := by
        intro hlt c t hc256 hfind
        refine ih t _ (hc c t hfind) ?_ ?_ ?_
        · intro b h
          simp only [List.mem_append, List.mem_singleton] at h
          rcases h with (h | h) | h
          · exact hb b h
          · exact hbp b h
          · omega
        · simp only [List.length_append, List.length_singleton]; omega
        · simp only [List.length_append, List.length_singleton]; omega
      have hmain : path.length + pfx.length < 6 → (∀ c t, n.find c = some t → c < 256) → KOk n →
          ((∀ c t, n.find c = some t → artValidateAt cb fuel (some t) (path ++ pfx ++ [c]) = true) ↔
            Inv path (.inner pfx n) ∧ ∀ k v, Has (.inner pfx n) k v → cb v = true) := by
        intro hlt hcl hk
        constructor
        · intro h
          refine ⟨.inner hk hlt hbp fun c t hf => ((hrec hlt c t (hcl c t hf) hf).1 (h c t hf)).1, ?_⟩
          intro k v hv
          obtain ⟨c, t, hf, hh⟩ := has_inner.1 hv
          exact ((hrec hlt c t (hcl c t hf) hf).1 (h c t hf)).2 k v hh
        · rintro ⟨h1, h2⟩ c t hf
          cases h1 with
          | inner _ _ _ hci =>
            exact (hrec hlt c t (hcl c t hf) hf).2 ⟨hci c t hf, fun k v hh => h2 k v (has_inner.2 ⟨c, t, hf, hh⟩)⟩
      by_cases hlt : path.length + pfx.length < 6
      · have hmain := hmain hlt
        have hnot : ¬ (path.length + pfx.length + 1 > KEY_BYTES) := by simp only [KEY_BYTES]; omega
        cases n with
        | n4 ks =>
          simp only [artValidateAt]
          rw [if_neg hnot]
          simp only [nodeValidate]
          by_cases hk : KOk (.n4 ks)
          · obtain ⟨h1, h2, h3⟩ := id hk
            rw [if_neg (by omega), if_neg (by omega), if_neg (by omega), (keysIncrease_iff ks).2 h1.sorted, Bool.true_and,
              all_ks h1 (fun t c => artValidateAt cb fuel (some t) (path ++ pfx ++ [c]))]
            exact hmain (fun c t hf => h1.byte _ ((findKs_eq_some h1).1 hf)) hk
          · constructor
            · intro h
              exfalso
              split at h
              · cases h
              split at h
              · cases h
              split at h
              · cases h
              rw [Bool.and_eq_true] at h
              exact hk ⟨⟨(keysIncrease_iff ks).1 h.1, hn⟩, by omega, by omega⟩
            · rintro ⟨h, _⟩; cases h with | inner h => exact absurd h hk
        | n16 ks =>
          simp only [artValidateAt]
          rw [if_neg hnot]
          simp only [nodeValidate]
          by_cases hk : KOk (.n16 ks)
          · obtain ⟨h1, h2, h3⟩ := id hk
            rw [if_neg (by omega), if_neg (by omega), (keysIncrease_iff ks).2 h1.sorted, Bool.true_and,
              all_ks h1 (fun t c => artValidateAt cb fuel (some t) (path ++ pfx ++ [c]))]
            exact hmain (fun c t hf => h1.byte _ ((findKs_eq_some h1).1 hf)) hk
          · constructor
            · intro h
              exfalso
              split at h
              · cases h
              split at h
              · cases h
              rw [Bool.and_eq_true] at h
              exact hk ⟨⟨(keysIncrease_iff ks).1 h.1, hn⟩, by omega, by omega⟩
            · rintro ⟨h, _⟩; cases h with | inner h => exact absurd h hk
        | n48 n =>
          simp only [artValidateAt]
          rw [if_neg hnot]
          simp only [nodeValidate]
          have hch := check48_iff hn
          by_cases hk : KOk (.n48 n)
          · obtain ⟨h1, h2⟩ := id hk
            have hle : n.count ≤ 48 := by rw [← h1.cntA]; exact card_le _ _
            obtain ⟨used, hu, hav⟩ := hch.2 h1
            rw [if_neg (by omega), if_neg (by omega), hu]
            simp only
            rw [if_neg (by simpa using hav)]
            rw [← hmain (fun c t hf => h1.K_lt (fun e => by rw [show Node.find (.n48 n) c = n.find c from rfl, h1.find_none.2 e] at hf; cases hf)) hk]
            rw [List.all_eq_true]
            constructor
            · intro ha c t hf
              have hf' : n.find c = some t := hf
              have hne : n.K c ≠ 48 := fun e => by rw [h1.find_none.2 e] at hf'; cases hf'
              have := ha c (List.mem_range.2 (h1.K_lt hne))
              rw [if_pos (by exact hne)] at this
              rw [W48.find_eq, if_pos hne] at hf'
              rw [show n.keys.getD c NODE48_EMPTY = n.K c from rfl, hf'] at this
              exact this
            · intro ha i hi
              by_cases hne : n.K i ≠ 48
              · rw [if_pos (by exact hne)]
                obtain ⟨x, hx⟩ := Option.isSome_iff_exists.1 (h1.ch i hne)
                have := ha i x (by show n.find i = some x; rw [W48.find_eq, if_pos hne, hx])
                rw [show n.keys.getD i NODE48_EMPTY = n.K i from rfl, hx]
                exact this
              · rw [if_neg (by exact hne)]
          · constructor
            · intro h
              exfalso
              split at h
              · cases h
              split at h
              · cases h
              split at h
              · cases h
              · next used hu =>
                split at h
                · cases h
                · next hav =>
                  exact hk ⟨hch.1 ⟨used, hu, by simpa using hav⟩, by omega⟩
            · rintro ⟨h, _⟩; cases h with | inner h => exact absurd h hk
        | n256 n =>
          simp only [artValidateAt]
          rw [if_neg hnot]
          simp only [nodeValidate]
          have hcard : ((List.range 256).filter (fun i => (n.children.getD i none).isSome)).length =
            card 256 (fun c => (n.find c).isSome) := rfl
          by_cases hk : KOk (.n256 n)
          · obtain ⟨h1, h2⟩ := id hk
            have hle : n.count ≤ 256 := by rw [← h1.cnt]; exact card_le _ _
            rw [if_neg (by omega), if_neg (by omega), hcard, h1.cnt, decide_eq_true rfl, Bool.and_true]
            have hlt256 : ∀ c t, Node.find (.n256 n) c = some t → c < 256 := by
              intro c t hf
              rcases Nat.lt_or_ge c 256 with h | h
              · exact h
              · have : n.find c = none := N256.find_ge h1.cl h
                rw [show Node.find (.n256 n) c = n.find c from rfl, this] at hf; cases hf
            rw [← hmain hlt256 hk, List.all_eq_true]
            constructor
            · intro ha c t hf
              have := ha c (List.mem_range.2 (hlt256 c t hf))
              have hf' : n.children.getD c none = some t := hf
              rw [hf'] at this; exact this
            · intro ha i hi
              cases hx : n.children.getD i none with
              | none => rfl
              | some x => exact ha i x hx
          · constructor
            · intro h
              exfalso
              split at h
              · cases h
              split at h
              · cases h
              rw [Bool.and_eq_true, decide_eq_true_eq, hcard] at h
              exact hk ⟨⟨hn, h.2⟩, by omega⟩
            · rintro ⟨h, _⟩; cases h with | inner h => exact absurd h hk
      · constructor
        · intro h
          simp only [artValidateAt] at h
          rw [if_pos (by simp only [KEY_BYTES]; omega)] at h
          cases h
        · rintro ⟨h, _⟩; cases h with | inner _ h => exact absurd h hlt

theorem W48.typed {α : Type} {n : N48 α} (h : W48 n) : NTyped (.n48 n) := by
  refine ⟨h.kl, h.cl, ?_, ?_⟩
  · intro k hk
    obtain ⟨i, hi, rfl⟩ := List.getElem_of_mem hk
    have := h.kb i
    simpa [N48.K, List.getD, List.getElem?_eq_getElem hi] using this
  · rw [← h.cnt, filter_getD_card n.keys _ NODE48_EMPTY, h.kl]; rfl

theorem KOk.typed {α : Type} {n : Node α} (h : KOk n) : NTyped n := by
  match n, h with
  | .n4 ks, h => exact h.1.byte
  | .n16 ks, h => exact h.1.byte
  | .n48 n, h => exact h.1.typed
  | .n256 n, h => exact h.1.cl

theorem Inv.typed {path : List Nat} {t : Art V} (h : Inv path t) : ATyped t := by
  induction h with
  | leaf hk hp => exact .leaf hk
  | inner hn hl hb hc ih => exact .inner hb hn.typed ih

end

/-- The memory of a 64-bit bitmap holds values of the declared C types: nodes and containers. -/
def Typed64 (r : R64) : Prop := (∀ t, r = some t → ATyped t) ∧ ∀ k c, RHas r k c → CTyped c

/-- A valid 64-bit bitmap: well typed, and accepted by `roaring64_bitmap_internal_validate`. -/
def Valid64 (r : R64) : Prop := Typed64 r ∧ r64InternalValidate r = true

theorem valid64_iff {r : R64} : Valid64 r ↔ R64Inv r := by
  cases r with
  | none =>
    refine ⟨fun _ => ⟨artOk_none, ?_⟩, fun _ => ⟨⟨?_, ?_⟩, rfl⟩⟩
    · rintro k c ⟨t, h, _⟩; cases h
    · intro t h; cases h
    · rintro k c ⟨t, h, _⟩; cases h
  | some t =>
    have hh : ∀ k c, RHas (some t) k c ↔ Has t k c := by
      intro k c
      constructor
      · rintro ⟨t', h, hh⟩; cases h; exact hh
      · intro h; exact ⟨t, rfl, h⟩
    constructor
    · rintro ⟨⟨h1, h2⟩, h3⟩
      have := (artValidateAt_iff containerValidate 7 t [] (h1 t rfl) (by intro b hb; cases hb) (by simp) (by simp)).1 h3
      refine ⟨fun t' e => by cases e; exact this.1, fun k c hc => ?_⟩
      exact (containerValidate_iff (h2 k c hc)).1 (this.2 k c ((hh k c).1 hc))
    · rintro ⟨h1, h2⟩
      have hi := h1 t rfl
      refine ⟨⟨fun t' e => by cases e; exact hi.typed, fun k c hc => (h2 k c hc).1.typed⟩, ?_⟩
      refine (artValidateAt_iff containerValidate 7 t [] hi.typed (by intro b hb; cases hb) (by simp) (by simp)).2 ⟨hi, ?_⟩
      intro k c hc
      have hc := h2 k c ((hh k c).2 hc)
      exact (containerValidate_iff hc.1.typed).2 hc

theorem Valid64.inv {r : R64} (h : Valid64 r) : R64Inv r := valid64_iff.1 h
theorem R64Inv.valid {r : R64} (h : R64Inv r) : Valid64 r := valid64_iff.2 h

end CRoaring
