import Verif.Model.Store64Validate
import Verif.Lemmas.Validate64
import Verif.Lemmas.Store64Serial
/-
The validation of a 64-bit bitmap in memory accepts exactly the arrays of nodes that hold a tree of the invariant.
-/
set_option linter.unusedSimpArgs false
set_option linter.unusedVariables false
namespace CRoaring
open Spec

theorem andThen_true {x : Out Bool} {A : Out Bool} : (x >>= fun b => if b = true then A else .ok false) = .ok true ↔ x = .ok true ∧ A = .ok true := by
  cases x with
  | oob => exact ⟨fun h => (by cases h), fun h => (by cases h.1)⟩
  | fail => exact ⟨fun h => (by cases h), fun h => (by cases h.1)⟩
  | ok b => cases b <;> simp [ok_bind]

theorem andThen_ok {A : Out Bool} {b c : Bool} (h : b = true → A = .ok c) : (Out.ok b >>= fun b => if b = true then A else .ok false) = .ok (b && c) := by
  cases b <;> simp [ok_bind]
  exact h rfl

theorem validateKs_sound {rec : ArtRef → Nat → Out Bool} : ∀ {ks : List (Nat × ArtRef)} {prev : Option Nat}, validateKs rec prev ks = .ok true →
    (∀ k p, prev = some k → p ∈ ks → k < p.1) ∧ ks.Pairwise (fun p q => p.1 < q.1) ∧ ks.Pairwise (fun p q => p.2 ≠ q.2) ∧ ∀ p ∈ ks, rec p.2 p.1 = .ok true
  | [], prev, _ => ⟨fun _ _ _ h => by simp at h, .nil, .nil, fun _ h => by simp at h⟩
  | p :: t, prev, h => by
    rw [validateKs] at h
    split at h
    · cases h
    next h1 =>
    split at h
    · cases h
    next h2 =>
    obtain ⟨h3, h4⟩ := andThen_true.1 h
    obtain ⟨a, b, c, d⟩ := validateKs_sound h4
    refine ⟨fun k q hk hq => ?_, List.pairwise_cons.2 ⟨fun q hq => a _ q rfl hq, b⟩, List.pairwise_cons.2 ⟨fun q hq e => h2 ?_, c⟩, fun q hq => ?_⟩
    · subst hk
      simp at h1
      rcases List.mem_cons.1 hq with e | hq
      · subst e; exact h1
      · exact Nat.lt_trans h1 (a _ q rfl hq)
    · exact List.any_eq_true.2 ⟨q, hq, by simpa using e⟩
    · rcases List.mem_cons.1 hq with e | hq
      · subst e; exact h3
      · exact d q hq

theorem validateKs_complete {rec : ArtRef → Nat → Out Bool} {P : ArtRef → Nat → Bool} : ∀ {ks : List (Nat × ArtRef)} {prev : Option Nat},
    (∀ k p, prev = some k → p ∈ ks → k < p.1) → ks.Pairwise (fun p q => p.1 < q.1) → ks.Pairwise (fun p q => p.2 ≠ q.2) →
    (∀ p ∈ ks, rec p.2 p.1 = .ok (P p.2 p.1)) → validateKs rec prev ks = .ok (ks.all fun p => P p.2 p.1)
  | [], prev, _, _, _, _ => rfl
  | p :: t, prev, a, b, c, d => by
    rw [List.pairwise_cons] at b c
    rw [validateKs, if_neg, if_neg, d p List.mem_cons_self, List.all_cons]
    · exact andThen_ok fun _ => validateKs_complete (fun k q hk hq => by cases hk; exact b.1 q hq) b.2 c.2 (fun q hq => d q (List.mem_cons_of_mem _ hq))
    · intro h
      obtain ⟨q, hq, e⟩ := List.any_eq_true.1 h
      exact c.1 q hq (by simpa using e)
    · cases prev with
      | none => simp
      | some k => have := a k p rfl List.mem_cons_self; simp; exact this

theorem otherSame_iff {children : List (Option ArtRef)} {child : Option ArtRef} : ∀ {n : Nat} {w : Word}, (∀ j, j + n < 64 → w.getLsbD j = false) →
    (otherSame children child n w = true ↔ ∃ s, w.getLsbD s = true ∧ child = children.getD s none)
  | 0, w, h => by
    refine ⟨fun h => (by cases h), fun ⟨s, h1, _⟩ => ?_⟩
    by_cases hs : s < 64
    · rw [h s (by omega)] at h1; cases h1
    · rw [getLsbD_ge (by omega)] at h1; cases h1
  | n + 1, w, h => by
    rw [otherSame]
    by_cases hw : w = 0#64
    · rw [if_pos hw]; subst hw; simp
    · rw [if_neg hw]
      obtain ⟨c1, c2, c3⟩ := ctz_spec hw
      by_cases he : child = children.getD (ctz w) none
      · rw [if_pos he]; exact ⟨fun _ => ⟨_, c2, he⟩, fun _ => rfl⟩
      · rw [if_neg he, otherSame_iff (n := n)]
        · refine ⟨fun ⟨s, h1, h2⟩ => ⟨s, ?_, h2⟩, fun ⟨s, h1, h2⟩ => ⟨s, ?_, h2⟩⟩
          · rw [getLsbD_clearLowest hw] at h1; simp at h1; exact h1.1
          · rw [getLsbD_clearLowest hw, h1]
            have : s ≠ ctz w := by rintro rfl; exact he h2
            simp [this]
        · intro j hj
          rw [getLsbD_clearLowest hw]
          by_cases hc : j = ctz w
          · simp [hc]
          · by_cases hb : w.getLsbD j = true
            · have : ¬ j < ctz w := fun hl => by rw [c3 j hl] at hb; cases hb
              have hz : w.getLsbD (ctz w) = false := h _ (by omega)
              rw [hz] at c2; cases c2
            · simp [Bool.eq_false_iff.2 hb]

theorem dup48_iff {children : List (Option ArtRef)} : ∀ {n : Nat} {w : Word}, (∀ j, j + n < 64 → w.getLsbD j = false) →
    (dup48 children n w = true ↔ ∃ s t, s < t ∧ w.getLsbD s = true ∧ w.getLsbD t = true ∧ children.getD s none = children.getD t none)
  | 0, w, h => by
    refine ⟨fun h => (by cases h), fun ⟨s, t, _, h1, _⟩ => ?_⟩
    by_cases hs : s < 64
    · rw [h s (by omega)] at h1; cases h1
    · rw [getLsbD_ge (by omega)] at h1; cases h1
  | n + 1, w, h => by
    rw [dup48]
    by_cases hw : w = 0#64
    · rw [if_pos hw]; subst hw; simp
    · rw [if_neg hw]
      obtain ⟨c1, c2, c3⟩ := ctz_spec hw
      have hbit := getLsbD_clearLowest hw
      simp only
      have hi : ∀ j, j + n < 64 → (w &&& (w - 1#64)).getLsbD j = false := by
        intro j hj
        rw [hbit]
        by_cases hc : j = ctz w
        · simp [hc]
        · by_cases hb : w.getLsbD j = true
          · have : ¬ j < ctz w := fun hl => by rw [c3 j hl] at hb; cases hb
            have hz : w.getLsbD (ctz w) = false := h _ (by omega)
            rw [hz] at c2; cases c2
          · simp [Bool.eq_false_iff.2 hb]
      by_cases he : otherSame children (children.getD (ctz w) none) 64 (w &&& (w - 1#64)) = true
      · rw [if_pos he]
        obtain ⟨s, h1, h2⟩ := (otherSame_iff (fun j hj => by omega)).1 he
        rw [hbit] at h1
        simp at h1
        have : ¬ s < ctz w := fun hl => by rw [c3 s hl] at h1; cases h1.1
        exact ⟨fun _ => ⟨ctz w, s, by omega, c2, h1.1, h2⟩, fun _ => rfl⟩
      · rw [if_neg he, dup48_iff hi]
        refine ⟨fun ⟨s, t, g1, g2, g3, g4⟩ => ⟨s, t, g1, ?_, ?_, g4⟩, fun ⟨s, t, g1, g2, g3, g4⟩ => ⟨s, t, g1, ?_, ?_, g4⟩⟩
        · rw [hbit] at g2; simp at g2; exact g2.1
        · rw [hbit] at g3; simp at g3; exact g3.1
        · rw [hbit, g2]
          have : s ≠ ctz w := by
            rintro rfl
            refine he ((otherSame_iff (fun j hj => by omega)).2 ⟨t, ?_, g4⟩)
            rw [hbit, g3]
            have : t ≠ ctz w := by omega
            simp [this]
          simp [this]
        · rw [hbit, g3]
          have : ¬ s < ctz w := fun hl => by rw [c3 s hl] at g2; cases g2
          have : t ≠ ctz w := by omega
          simp [this]

theorem validate48_sound {rec : ArtRef → Nat → Out Bool} {n : N48 ArtRef} : ∀ {l : List Nat}, validate48 rec n l = .ok true →
    ∀ i c, i ∈ l → n.find i = some c → rec c i = .ok true
  | [], _, i, c, hi, _ => by simp at hi
  | j :: t, h, i, c, hi, hf => by
    rw [validate48] at h
    have hf' := hf
    unfold N48.find at hf'
    by_cases hj : n.keys.getD j NODE48_EMPTY ≠ NODE48_EMPTY
    · rw [if_pos hj] at h
      cases hc : n.children.getD (n.keys.getD j NODE48_EMPTY) none with
      | none => rw [hc] at h; cases h
      | some d =>
        rw [hc] at h
        obtain ⟨h1, h2⟩ := andThen_true.1 h
        rcases List.mem_cons.1 hi with e | hi
        · subst e; rw [if_pos hj, hc] at hf'; cases hf'; exact h1
        · exact validate48_sound h2 i c hi hf
    · rw [if_neg hj] at h
      rcases List.mem_cons.1 hi with e | hi
      · subst e; rw [if_neg hj] at hf'; cases hf'
      · exact validate48_sound h i c hi hf

theorem validate48_complete {rec : ArtRef → Nat → Out Bool} {P : ArtRef → Nat → Bool} {n : N48 ArtRef} (hn : W48 n)
    (hr : ∀ i c, n.find i = some c → rec c i = .ok (P c i)) : ∀ (l : List Nat),
    validate48 rec n l = .ok (l.all fun i => match n.find i with | some c => P c i | none => true)
  | [] => rfl
  | i :: t => by
    rw [validate48, List.all_cons]
    by_cases hj : n.keys.getD i NODE48_EMPTY ≠ NODE48_EMPTY
    · rw [if_pos hj]
      obtain ⟨c, hc⟩ := Option.isSome_iff_exists.1 (hn.ch i hj)
      have hf : n.find i = some c := by rw [W48.find_eq, if_pos (show n.K i ≠ 48 from hj), hc]
      rw [show n.keys.getD i NODE48_EMPTY = n.K i from rfl, hc, hf]
      simp only
      rw [hr i c hf]
      exact andThen_ok fun _ => validate48_complete hn hr t
    · rw [if_neg hj]
      have hf : n.find i = none := by rw [W48.find_eq, if_neg (show ¬ n.K i ≠ 48 from hj)]
      rw [hf, validate48_complete hn hr t]; simp

theorem validate256_sound {rec : ArtRef → Nat → Out Bool} {n : N256 ArtRef} : ∀ {l : List Nat} {a : Nat}, validate256 rec n l a = .ok true →
    (∀ i c, i ∈ l → n.find i = some c → rec c i = .ok true) ∧ l.Pairwise (fun i j => ∀ c, n.find i = some c → n.find j ≠ some c) ∧
      a + (l.filter fun i => (n.find i).isSome).length = n.count
  | [], a, h => ⟨fun i c hi => (by simp at hi), .nil, by simpa [validate256] using h⟩
  | j :: t, a, h => by
    rw [validate256] at h
    cases hc : n.children.getD j none with
    | none =>
      rw [hc] at h
      have hf : n.find j = none := hc
      obtain ⟨h1, h2, h3⟩ := validate256_sound h
      refine ⟨fun i c hi e => ?_, List.pairwise_cons.2 ⟨fun i _ c e => (by rw [hf] at e; cases e), h2⟩, ?_⟩
      · rcases List.mem_cons.1 hi with e' | hi
        · subst e'; rw [hf] at e; cases e
        · exact h1 i c hi e
      · rw [List.filter_cons, if_neg (by simp [hf])]; exact h3
    | some d =>
      rw [hc] at h
      have hf : n.find j = some d := hc
      simp only at h
      split at h
      · cases h
      next hd =>
      obtain ⟨g1, g2⟩ := andThen_true.1 h
      obtain ⟨h1, h2, h3⟩ := validate256_sound g2
      refine ⟨fun i c hi e => ?_, List.pairwise_cons.2 ⟨fun i hi c e e2 => ?_, h2⟩, ?_⟩
      · rcases List.mem_cons.1 hi with e' | hi
        · subst e'; rw [hf] at e; cases e; exact g1
        · exact h1 i c hi e
      · rw [hf] at e; cases e
        exact hd (List.any_eq_true.2 ⟨i, hi, by simpa using (show n.children.getD i none = some d from e2).symm⟩)
      · rw [List.filter_cons, if_pos (by simp [hf]), List.length_cons]; omega

theorem validate256_complete {rec : ArtRef → Nat → Out Bool} {P : ArtRef → Nat → Bool} {n : N256 ArtRef}
    (hr : ∀ i c, n.find i = some c → rec c i = .ok (P c i)) : ∀ {l : List Nat} {a : Nat},
    l.Pairwise (fun i j => ∀ c, n.find i = some c → n.find j ≠ some c) → a + (l.filter fun i => (n.find i).isSome).length = n.count →
    validate256 rec n l a = .ok (l.all fun i => match n.find i with | some c => P c i | none => true)
  | [], a, _, h => by simpa [validate256] using h
  | i :: t, a, hp, h => by
    rw [List.pairwise_cons] at hp
    rw [validate256, List.all_cons]
    cases hc : n.children.getD i none with
    | none =>
      have hf : n.find i = none := hc
      simp only [hf]
      rw [List.filter_cons, if_neg (by simp [hf])] at h
      rw [validate256_complete hr hp.2 h]; simp
    | some d =>
      have hf : n.find i = some d := hc
      simp only [hf]
      rw [List.filter_cons, if_pos (by simp [hf]), List.length_cons] at h
      rw [if_neg, hr i d hf]
      · exact andThen_ok fun _ => validate256_complete hr hp.2 (by omega)
      · intro hh
        obtain ⟨j, hj, e⟩ := List.any_eq_true.1 hh
        exact hp.1 j hj d hf (of_decide_eq_true e).symm

/-- No two children of the node are the same reference. -/
def NInj (n : Node ArtRef) : Prop := ∀ c d s, n.find c = some s → n.find d = some s → c = d

theorem ks_inj {ks : List (Nat × ArtRef)} (hk : KsOk ks) : (∀ c d s, findKs ks c = some s → findKs ks d = some s → c = d) ↔ ks.Pairwise (fun p q => p.2 ≠ q.2) := by
  constructor
  · intro h
    refine hk.sorted.imp_of_mem fun {p q} hp hq hl e => ?_
    have := h p.1 q.1 p.2 ((findKs_eq_some hk).2 hp) (by rw [e]; exact (findKs_eq_some hk).2 hq)
    omega
  · intro h c d s hc hd
    rw [findKs_eq_some hk] at hc hd
    clear hk
    induction ks with
    | nil => simp at hc
    | cons p t ih =>
      rw [List.pairwise_cons] at h
      rcases List.mem_cons.1 hc with e1 | hc
      · rcases List.mem_cons.1 hd with e2 | hd
        · rw [← e2] at e1; exact (Prod.mk.inj e1).1
        · exact absurd (by rw [← e1]) (h.1 _ hd)
      · rcases List.mem_cons.1 hd with e2 | hd
        · exact absurd (by rw [← e2]) (h.1 _ hc)
        · exact ih h.2 hc hd

theorem used48_bits {n : N48 ArtRef} (hn : W48 n) {used : Word} (hu : used48 n = some used) (s : Nat) : used.getLsbD s = true ↔ ∃ i, n.K i = s ∧ s ≠ 48 := by
  have h := (used48_go n hn.kb 256).1 used (by rw [← used48_eq]; exact hu)
  rw [h.bit]
  constructor
  · rintro ⟨i, -, h1, h2⟩; exact ⟨i, h1, h2⟩
  · rintro ⟨i, h1, h2⟩; exact ⟨i, hn.K_lt (by rw [h1]; exact h2), h1, h2⟩

theorem dup48_inj {n : N48 ArtRef} (hn : W48 n) {used : Word} (hu : used48 n = some used) :
    dup48 n.children 64 used = false ↔ NInj (.n48 n) := by
  rw [Bool.eq_false_iff, Ne, dup48_iff (fun j hj => by omega)]
  constructor
  · intro h c d s hc hd
    have hc : n.find c = some s := hc
    have hd : n.find d = some s := hd
    have kc : n.K c ≠ 48 := fun e => by rw [hn.find_none.2 e] at hc; cases hc
    have kd : n.K d ≠ 48 := fun e => by rw [hn.find_none.2 e] at hd; cases hd
    rw [W48.find_eq, if_pos kc] at hc
    rw [W48.find_eq, if_pos kd] at hd
    have bc := (used48_bits hn hu (n.K c)).2 ⟨c, rfl, kc⟩
    have bd := (used48_bits hn hu (n.K d)).2 ⟨d, rfl, kd⟩
    rcases Nat.lt_trichotomy (n.K c) (n.K d) with hl | he | hl
    · exact absurd ⟨_, _, hl, bc, bd, by rw [hc, hd]⟩ h
    · exact hn.inj c d kc he
    · exact absurd ⟨_, _, hl, bd, bc, by rw [hc, hd]⟩ h
  · rintro h ⟨s, t, h1, h2, h3, h4⟩
    obtain ⟨i, rfl, hi⟩ := (used48_bits hn hu s).1 h2
    obtain ⟨j, rfl, hj⟩ := (used48_bits hn hu t).1 h3
    obtain ⟨x, hx⟩ := Option.isSome_iff_exists.1 (hn.ch i hi)
    have f1 : n.find i = some x := by rw [W48.find_eq, if_pos hi, hx]
    have f2 : n.find j = some x := by rw [W48.find_eq, if_pos hj, ← h4, hx]
    have := h i j x f1 f2
    subst this
    omega

theorem range_pairwise {n : N256 ArtRef} (hl : n.children.length = 256) :
    (List.range 256).Pairwise (fun i j => ∀ c, n.find i = some c → n.find j ≠ some c) ↔ NInj (.n256 n) := by
  have hlt : ∀ {c s}, n.find c = some s → c < 256 := by
    intro c s hf
    rcases Nat.lt_or_ge c 256 with h | h
    · exact h
    · rw [N256.find_ge hl h] at hf; cases hf
  constructor
  · intro h c d s hc hd
    have hc : n.find c = some s := hc
    have hd : n.find d = some s := hd
    rw [List.pairwise_iff_getElem] at h
    rcases Nat.lt_trichotomy c d with e | e | e
    · exact absurd ((congrArg n.find (List.getElem_range _)).trans hd) (h c d (by simpa using hlt hc) (by simpa using hlt hd) e s (by simp only [List.getElem_range]; exact hc))
    · exact e
    · exact absurd ((congrArg n.find (List.getElem_range _)).trans hc) (h d c (by simpa using hlt hd) (by simpa using hlt hc) e s (by simp only [List.getElem_range]; exact hd))
  · intro h
    refine List.pairwise_lt_range.imp fun {i j} hij c h1 h2 => ?_
    have := h i j c h1 h2
    omega

/-- An accepted node is of the invariant, its children are different references, and each child is accepted. -/
theorem nodeValidateM_sound {rec : ArtRef → Nat → Out Bool} {n : Node ArtRef} (ht : NTyped n) (h : nodeValidateM rec n = .ok true) :
    KOk n ∧ NInj n ∧ ∀ c s, n.find c = some s → rec s c = .ok true := by
  cases n with
  | n4 ks =>
    unfold nodeValidateM at h
    simp only at h
    split at h
    · cases h
    split at h
    · cases h
    split at h
    · cases h
    obtain ⟨-, h1, h2, h3⟩ := validateKs_sound h
    have hk : KsOk ks := ⟨h1, ht⟩
    exact ⟨⟨hk, by omega, by omega⟩, (ks_inj hk).2 h2, fun c s hf => h3 (c, s) ((findKs_eq_some hk).1 hf)⟩
  | n16 ks =>
    unfold nodeValidateM at h
    simp only at h
    split at h
    · cases h
    split at h
    · cases h
    obtain ⟨-, h1, h2, h3⟩ := validateKs_sound h
    have hk : KsOk ks := ⟨h1, ht⟩
    exact ⟨⟨hk, by omega, by omega⟩, (ks_inj hk).2 h2, fun c s hf => h3 (c, s) ((findKs_eq_some hk).1 hf)⟩
  | n48 n =>
    unfold nodeValidateM at h
    simp only at h
    split at h
    · cases h
    split at h
    · cases h
    split at h
    · cases h
    next used hu =>
    split at h
    · cases h
    next hav =>
    split at h
    · cases h
    next hd =>
    have hw : W48 n := (check48_iff ht).1 ⟨used, hu, by simpa using hav⟩
    refine ⟨⟨hw, by omega⟩, (dup48_inj hw hu).1 (by simpa using hd), fun c s hf => ?_⟩
    refine validate48_sound h c s (List.mem_range.2 (hw.K_lt fun e => ?_)) hf
    rw [show Node.find (.n48 n) c = n.find c from rfl, hw.find_none.2 e] at hf; cases hf
  | n256 n =>
    unfold nodeValidateM at h
    simp only at h
    split at h
    · cases h
    split at h
    · cases h
    obtain ⟨h1, h2, h3⟩ := validate256_sound h
    have hlt : ∀ {c s}, n.find c = some s → c < 256 := by
      intro c s hf
      rcases Nat.lt_or_ge c 256 with h | h
      · exact h
      · rw [N256.find_ge ht h] at hf; cases hf
    exact ⟨⟨⟨ht, by rw [Nat.zero_add] at h3; exact h3⟩, by omega⟩, (range_pairwise ht).1 h2, fun c s hf => h1 c s (List.mem_range.2 (hlt hf)) hf⟩

/-- Of a node of the invariant with different children, the answer depends on the children only. -/
theorem nodeValidateM_complete {rec : ArtRef → Nat → Out Bool} {P : ArtRef → Nat → Bool} {n : Node ArtRef} (hk : KOk n) (hi : NInj n)
    (hr : ∀ c s, n.find c = some s → rec s c = .ok (P s c)) : ∃ b, nodeValidateM rec n = .ok b ∧ (b = true ↔ ∀ c s, n.find c = some s → P s c = true) := by
  cases n with
  | n4 ks =>
    obtain ⟨h1, h2, h3⟩ := hk
    refine ⟨ks.all fun p => P p.2 p.1, ?_, ?_⟩
    · unfold nodeValidateM
      simp only
      rw [if_neg (by omega), if_neg (by omega), if_neg (by omega)]
      exact validateKs_complete (P := P) (by intro k p h; cases h) h1.sorted ((ks_inj h1).1 hi) (fun p hp => hr p.1 p.2 ((findKs_eq_some h1).2 hp))
    · rw [List.all_eq_true]
      exact ⟨fun h c s hf => h (c, s) ((findKs_eq_some h1).1 hf), fun h p hp => h p.1 p.2 ((findKs_eq_some h1).2 hp)⟩
  | n16 ks =>
    obtain ⟨h1, h2, h3⟩ := hk
    refine ⟨ks.all fun p => P p.2 p.1, ?_, ?_⟩
    · unfold nodeValidateM
      simp only
      rw [if_neg (by omega), if_neg (by omega)]
      exact validateKs_complete (P := P) (by intro k p h; cases h) h1.sorted ((ks_inj h1).1 hi) (fun p hp => hr p.1 p.2 ((findKs_eq_some h1).2 hp))
    · rw [List.all_eq_true]
      exact ⟨fun h c s hf => h (c, s) ((findKs_eq_some h1).1 hf), fun h p hp => h p.1 p.2 ((findKs_eq_some h1).2 hp)⟩
  | n48 n =>
    obtain ⟨h1, h2⟩ := hk
    obtain ⟨used, hu, hav⟩ := (check48_iff h1.typed).2 h1
    have hle : n.count ≤ 48 := by rw [← h1.cntA]; exact card_le _ _
    refine ⟨(List.range 256).all fun i => match n.find i with | some c => P c i | none => true, ?_, ?_⟩
    · unfold nodeValidateM
      simp only
      rw [if_neg (by omega), if_neg (by omega), hu]
      simp only
      rw [if_neg (by simpa using hav), if_neg (by rw [(dup48_inj h1 hu).2 hi]; simp)]
      exact validate48_complete (P := P) h1 hr _
    · rw [List.all_eq_true]
      constructor
      · intro h c s hf
        have hf' : n.find c = some s := hf
        have := h c (List.mem_range.2 (h1.K_lt fun e => by rw [h1.find_none.2 e] at hf'; cases hf'))
        rw [hf'] at this; exact this
      · intro h i hi
        cases hf : n.find i with
        | none => rfl
        | some c => exact h i c hf
  | n256 n =>
    obtain ⟨h1, h2⟩ := hk
    have hle : n.count ≤ 256 := by rw [← h1.cnt]; exact card_le _ _
    have hlt : ∀ {c s}, n.find c = some s → c < 256 := by
      intro c s hf
      rcases Nat.lt_or_ge c 256 with h | h
      · exact h
      · rw [N256.find_ge h1.cl h] at hf; cases hf
    refine ⟨(List.range 256).all fun i => match n.find i with | some c => P c i | none => true, ?_, ?_⟩
    · unfold nodeValidateM
      simp only
      rw [if_neg (by omega), if_neg (by omega)]
      exact validate256_complete (P := P) hr ((range_pairwise h1.cl).2 hi) (by rw [Nat.zero_add]; exact h1.cnt)
    · rw [List.all_eq_true]
      constructor
      · intro h c s hf
        have hf' : n.find c = some s := hf
        have := h c (List.mem_range.2 (hlt hf'))
        rw [hf'] at this; exact this
      · intro h i hi
        cases hf : n.find i with
        | none => rfl
        | some c => exact h i c hf

end CRoaring
