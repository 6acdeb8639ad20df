import Verif.Lemmas.Store64Ops3
import Verif.Lemmas.Store64d
import Verif.Lemmas.R64g
/-
The sets that two 64-bit bitmaps in memory hold, and that of the result.
-/
set_option linter.unusedSimpArgs false
set_option linter.unusedVariables false
namespace CRoaring
open Spec

/-- The containers hold the set. -/
structure HoldsSet (C : Conts) (s : NSet) : Prop where
  at' : ∀ k, IsKey k → ∀ c, C k = some c → CNe c ∧ ∀ x, x / 65536 = keyNum k → s x = chas c (x % 65536)
  off : ∀ k, IsKey k → C k = none → ∀ x, x / 65536 = keyNum k → s x = false
  zero : ∀ x, TOP64 ≤ x → s x = false

theorem Rep64.holds {R : R64} {s : NSet} (h : Rep64 R s) : HoldsSet (artFind R) s := by
  refine ⟨fun k hk c hc => ?_, fun k hk hc => ?_, fun x hx => h.zero hx⟩
  · rcases h.at_key hk with ⟨c', h1, h2, h3, -⟩ | ⟨h1, -⟩
    · rw [hc] at h1; cases h1; exact ⟨h2, h3⟩
    · rw [hc] at h1; cases h1
  · rcases h.at_key hk with ⟨c', h1, -⟩ | ⟨h1, h2, -⟩
    · rw [hc] at h1; cases h1
    · exact h2

theorem rl_of_list : ∀ (l : List (Nat × Container)), KS l.reverse → (∀ p ∈ l, p.1 < P48) → ∃ R : R64, RL R l.reverse
  | [], _, _ => ⟨none, rl_none⟩
  | (n, c) :: l, hs, hl => by
    rw [List.reverse_cons] at hs ⊢
    obtain ⟨s1, s2, s3⟩ := ks_append.1 hs
    obtain ⟨R, hR⟩ := rl_of_list l s1 (fun p hp => hl p (List.mem_cons_of_mem _ hp))
    have hn := hl (n, c) (List.mem_cons_self ..)
    have hk : keyNum (splitKey (n * 65536)).1 = n := by
      rw [keyNum_split]
      · omega
      · unfold P48 at hn; unfold TOP64; simp only at hn; omega
    have := hR.snoc (splitKey_isKey (n * 65536)) (fun p hp => by rw [hk]; exact s3 p hp (n, c) (by simp)) c
    rw [hk] at this
    exact ⟨_, this⟩

/-- A tree with the containers. -/
theorem HoldsSet.tree {C : Conts} {s : NSet} (h : HoldsSet C s) : ∃ R : R64, Rep64 R s ∧ ∀ k, IsKey k → artFind R k = C k := by
  have hks : KS ((List.range P48).filterMap (fun n => (C (splitKey (n * 65536)).1).map (fun v => (n, v)))) := by
    unfold KS
    rw [List.pairwise_filterMap]
    refine List.Pairwise.imp ?_ List.pairwise_lt_range
    intro a b hab p hp q hq
    simp only [Option.map_eq_some_iff] at hp hq
    obtain ⟨v, -, rfl⟩ := hp
    obtain ⟨w, -, rfl⟩ := hq
    exact hab
  have hmem : ∀ n c, (n, c) ∈ (List.range P48).filterMap (fun n => (C (splitKey (n * 65536)).1).map (fun v => (n, v))) ↔ n < P48 ∧ C (splitKey (n * 65536)).1 = some c := by
    intro n c
    simp only [List.mem_filterMap, List.mem_range, Option.map_eq_some_iff, Prod.mk.injEq]
    constructor
    · rintro ⟨m, hm, w, h1, rfl, rfl⟩
      exact ⟨hm, h1⟩
    · rintro ⟨h1, h2⟩
      exact ⟨n, h1, c, h2, rfl, rfl⟩
  generalize (List.range P48).filterMap (fun n => (C (splitKey (n * 65536)).1).map (fun v => (n, v))) = l at hks hmem
  obtain ⟨R, hR⟩ := rl_of_list l.reverse (by rw [List.reverse_reverse]; exact hks) (fun p hp => by
    obtain ⟨n, c⟩ := p
    exact ((hmem n c).1 (List.mem_reverse.1 hp)).1)
  rw [List.reverse_reverse] at hR
  have hf : ∀ k, IsKey k → artFind R k = C k := by
    intro k hk
    refine Option.ext fun c => ?_
    rw [hR.find hk, hmem, splitKey_combine hk]
    exact ⟨fun h => h.2, fun h => ⟨key_lt hk, h⟩⟩
  have hb : B64 R l := ⟨hR, fun p hp => by
    obtain ⟨n, c⟩ := p
    exact (h.at' _ (splitKey_isKey _) c ((hmem n c).1 hp).2).1⟩
  refine ⟨R, hb.rep.congr fun x => ?_, hf⟩
  rcases Nat.lt_or_ge x TOP64 with hx | hx
  · have hk := splitKey_isKey x
    have e : x / 65536 = keyNum (splitKey x).1 := (keyNum_split hx).symm
    rcases hb.rep.at_key hk with ⟨c, h1, h2, h3, -⟩ | ⟨h1, h2, -⟩
    · rw [h3 x e, (h.at' _ hk c (by rw [← hf _ hk]; exact h1)).2 x e]
    · rw [h2 x e, h.off _ hk (by rw [← hf _ hk]; exact h1) x e]
  · rw [hb.rep.zero hx, h.zero x hx]

theorem St.sim {r : R64M} {L F : ArtRef → Prop} {m : List Nat → Option Nat} {C : Conts} {s : NSet} (h : St r L F m C) (hs : HoldsSet C s) :
    ∃ R, Sim64 r L R ∧ Rep64 R s := by
  obtain ⟨R, h1, h2⟩ := hs.tree
  exact ⟨R, ⟨F, m, h.congr fun k hk => (h2 k hk).symm⟩, h1⟩

/-- A set at a key. -/
theorem HoldsSet.key {C : Conts} {s : NSet} (h : HoldsSet C s) {k : List Nat} (hk : IsKey k) {x : Nat} (hx : x / 65536 = keyNum k) :
    (C k = none ∧ s x = false) ∨ ∃ c, C k = some c ∧ CNe c ∧ s x = chas c (x % 65536) := by
  cases hc : C k with
  | none => exact Or.inl ⟨rfl, h.off k hk hc x hx⟩
  | some c => exact Or.inr ⟨c, rfl, (h.at' k hk c hc).1, (h.at' k hk c hc).2 x hx⟩

theorem nz_some {c c' : Container} {s : NSet} (h : Rep c s) (e : nz c = some c') : CNe c' ∧ ∀ x, chas c' x = s x := by
  unfold nz at e
  split at e
  · next hn =>
    cases e
    obtain ⟨y, hy⟩ := (containerNonzero_iff h.lrep).1 hn
    exact ⟨⟨h.inv, y, by rw [h.has]; exact hy⟩, h.has⟩
  · cases e

theorem nz_none {c : Container} {s : NSet} (h : Rep c s) (e : nz c = none) : ∀ x, s x = false := by
  unfold nz at e
  split at e
  · cases e
  · next hn =>
    intro x
    cases hx : s x
    · rfl
    · exact absurd ((containerNonzero_iff h.lrep).2 ⟨x, hx⟩) hn

/-- A set operation key by key. -/
theorem HoldsSet.op {C1 C2 : Conts} {s t : NSet} (h1 : HoldsSet C1 s) (h2 : HoldsSet C2 t) (op : Bool → Bool → Bool) (hop : op false false = false)
    {G : List Nat → Option Container → Option Container → Option Container}
    (hn : ∀ k, G k none none = none)
    (hl : ∀ k a, CNe a → (G k (some a) none = some a ∧ ∀ b, op b false = b) ∨ (G k (some a) none = none ∧ ∀ b, op b false = false))
    (hr : ∀ k a, CNe a → (G k none (some a) = some a ∧ ∀ b, op false b = b) ∨ (G k none (some a) = none ∧ ∀ b, op false b = false))
    (hb : ∀ k a b, CNe a → CNe b → (∀ c, G k (some a) (some b) = some c → CNe c ∧ ∀ x, chas c x = op (chas a x) (chas b x)) ∧
      (G k (some a) (some b) = none → ∀ x, op (chas a x) (chas b x) = false)) : HoldsSet (fun k => G k (C1 k) (C2 k)) (fun x => op (s x) (t x)) := by
  have main : ∀ k, IsKey k → ∀ x, x / 65536 = keyNum k → (∀ c, G k (C1 k) (C2 k) = some c → op (s x) (t x) = chas c (x % 65536)) ∧
      (G k (C1 k) (C2 k) = none → op (s x) (t x) = false) := by
    intro k hk x hx
    rcases h1.key hk hx with ⟨a1, a2⟩ | ⟨c1, a1, a2, a3⟩ <;> rcases h2.key hk hx with ⟨b1, b2⟩ | ⟨c2, b1, b2, b3⟩
    · rw [a1, b1, a2, b2, hn]
      exact ⟨fun c h => (by cases h), fun _ => hop⟩
    · rw [a1, b1, a2, b3]
      rcases hr k c2 b2 with ⟨g1, g2⟩ | ⟨g1, g2⟩
      · rw [g1, g2]; exact ⟨fun c h => (by cases h; rfl), fun h => (by cases h)⟩
      · rw [g1, g2]; exact ⟨fun c h => (by cases h), fun _ => rfl⟩
    · rw [a1, b1, a3, b2]
      rcases hl k c1 a2 with ⟨g1, g2⟩ | ⟨g1, g2⟩
      · rw [g1, g2]; exact ⟨fun c h => (by cases h; rfl), fun h => (by cases h)⟩
      · rw [g1, g2]; exact ⟨fun c h => (by cases h), fun _ => rfl⟩
    · rw [a1, b1, a3, b3]
      exact ⟨fun c h => (((hb k c1 c2 a2 b2).1 c h).2 _).symm, fun h => (hb k c1 c2 a2 b2).2 h _⟩
  refine ⟨fun k hk c hc => ⟨?_, fun x hx => (main k hk x hx).1 c hc⟩, fun k hk hc x hx => (main k hk x hx).2 hc, fun x hx => ?_⟩
  · cases e1 : C1 k with
    | none =>
      cases e2 : C2 k with
      | none => rw [e1, e2, hn] at hc; cases hc
      | some b =>
        have hb' := (h2.at' k hk b e2).1
        rw [e1, e2] at hc
        rcases hr k b hb' with ⟨g1, -⟩ | ⟨g1, -⟩
        · rw [g1] at hc; cases hc; exact hb'
        · rw [g1] at hc; cases hc
    | some a =>
      have ha' := (h1.at' k hk a e1).1
      cases e2 : C2 k with
      | none =>
        rw [e1, e2] at hc
        rcases hl k a ha' with ⟨g1, -⟩ | ⟨g1, -⟩
        · rw [g1] at hc; cases hc; exact ha'
        · rw [g1] at hc; cases hc
      | some b =>
        rw [e1, e2] at hc
        exact ((hb k a b ha' (h2.at' k hk b e2).1).1 c hc).1
  · simp only [h1.zero x hx, h2.zero x hx, hop]

theorem HoldsSet.and {C1 C2 : Conts} {s t : NSet} (h1 : HoldsSet C1 s) (h2 : HoldsSet C2 t) {f : Container → Container → Container}
    (hf : ∀ a b, CNe a → CNe b → Rep (f a b) (inter (chas a) (chas b))) : HoldsSet (fun k => andAt f (C1 k) (C2 k)) (inter s t) :=
  h1.op h2 (fun a b => a && b) rfl (G := fun _ => andAt f) (fun _ => rfl) (fun _ _ _ => Or.inr ⟨rfl, fun b => Bool.and_false b⟩) (fun _ _ _ => Or.inr ⟨rfl, fun _ => rfl⟩)
    (fun _ a b ha hb => ⟨fun c hc => nz_some (hf a b ha hb) hc, fun hc => nz_none (hf a b ha hb) hc⟩)

theorem HoldsSet.or {C1 C2 : Conts} {s t : NSet} (h1 : HoldsSet C1 s) (h2 : HoldsSet C2 t) {f : List Nat → Container → Container → Container}
    (hf : ∀ k a b, CNe a → CNe b → Rep (f k a b) (union (chas a) (chas b))) : HoldsSet (fun k => orAt (f k) (C1 k) (C2 k)) (union s t) :=
  h1.op h2 (fun a b => a || b) rfl (G := fun k => orAt (f k)) (fun _ => rfl) (fun _ _ _ => Or.inl ⟨rfl, fun b => Bool.or_false b⟩) (fun _ _ _ => Or.inl ⟨rfl, fun _ => rfl⟩)
    (fun k a b ha hb => ⟨fun c hc => by
      cases hc
      have h := hf k a b ha hb
      obtain ⟨y, hy⟩ := ha.2
      exact ⟨⟨h.inv, y, by rw [h.has]; simp [union, hy]⟩, h.has⟩, fun hc => by cases hc⟩)

theorem HoldsSet.xor {C1 C2 : Conts} {s t : NSet} (h1 : HoldsSet C1 s) (h2 : HoldsSet C2 t) {f : Container → Container → Container}
    (hf : ∀ a b, CNe a → CNe b → Rep (f a b) (symm (chas a) (chas b))) : HoldsSet (fun k => xorAt f (C1 k) (C2 k)) (symm s t) :=
  h1.op h2 (fun a b => a != b) rfl (G := fun _ => xorAt f) (fun _ => rfl) (fun _ _ _ => Or.inl ⟨rfl, fun b => Bool.xor_false b⟩) (fun _ _ _ => Or.inl ⟨rfl, fun b => Bool.false_xor b⟩)
    (fun _ a b ha hb => ⟨fun c hc => nz_some (hf a b ha hb) hc, fun hc => nz_none (hf a b ha hb) hc⟩)

theorem HoldsSet.andnot {C1 C2 : Conts} {s t : NSet} (h1 : HoldsSet C1 s) (h2 : HoldsSet C2 t) {f : Container → Container → Container}
    (hf : ∀ a b, CNe a → CNe b → Rep (f a b) (diff (chas a) (chas b))) : HoldsSet (fun k => andnotAt f (C1 k) (C2 k)) (diff s t) :=
  h1.op h2 (fun a b => a && !b) rfl (G := fun _ => andnotAt f) (fun _ => rfl) (fun _ _ _ => Or.inl ⟨rfl, fun b => by simp⟩) (fun _ _ _ => Or.inr ⟨rfl, fun _ => rfl⟩)
    (fun _ a b ha hb => ⟨fun c hc => nz_some (hf a b ha hb) hc, fun hc => nz_none (hf a b ha hb) hc⟩)

theorem keys_fuel : P48 < FUEL + 0 ∧ 2 * P48 < FUEL + 0 + 0 := by
  unfold P48 FUEL
  omega

theorem andInplace_ok (E : Reuse) {r1 r2 : R64M} {L1 L2 : ArtRef → Prop} {R1 R2 : R64} {s t : NSet} (h1 : Sim64 r1 L1 R1) (h2 : Sim64 r2 L2 R2)
    (hR1 : Rep64 R1 s) (hR2 : Rep64 R2 t) : ∃ r' R', r1.andInplace E r2 = .ok r' ∧ Sim64 r' L1 R' ∧ Rep64 R' (inter s t) := by
  obtain ⟨F1, m1, h1⟩ := h1
  obtain ⟨F2, m2, h2⟩ := h2
  obtain ⟨it1, o1, a1, a2, a3⟩ := h1.start
  obtain ⟨it2, o2, b1, b2, b3⟩ := h2.start
  obtain ⟨r', F, m, g1, g2⟩ := andInplace_loop E FUEL (X := 0) ⟨a2.weaken (fun _ => trivial), b2, a3, b3, Nat.le_refl _, Nat.zero_le _⟩ keys_fuel.1
  have hh := hR1.holds.and hR2.holds (fun a b ha hb => containerIand_spec ha.1.rep hb.1.rep)
  obtain ⟨R, g3, g4⟩ := (g2.congr (D := fun k => (fun _ => andAt containerIand) k (artFind R1 k) (artFind R2 k)) fun k hk => by simp [Fin]).sim hh
  exact ⟨r', R, by simp only [R64M.andInplace, a1, b1, ok_bind]; exact g1, g3, g4⟩

theorem orInplace_ok (E : Reuse) {r1 r2 : R64M} {L1 L2 : ArtRef → Prop} {R1 R2 : R64} {s t : NSet} (h1 : Sim64 r1 L1 R1) (h2 : Sim64 r2 L2 R2)
    (hR1 : Rep64 R1 s) (hR2 : Rep64 R2 t) : ∃ r' R', r1.orInplace E r2 = .ok r' ∧ Sim64 r' L1 R' ∧ Rep64 R' (union s t) := by
  obtain ⟨F1, m1, h1⟩ := h1
  obtain ⟨F2, m2, h2⟩ := h2
  obtain ⟨it1, o1, a1, a2, a3⟩ := h1.start
  obtain ⟨it2, o2, b1, b2, b3⟩ := h2.start
  obtain ⟨r', F, m, g1, g2⟩ := orInplace_loop E FUEL (X := 0) ⟨a2.weaken (fun _ => trivial), b2, a3, b3, Nat.le_refl _, Nat.zero_le _⟩ keys_fuel.2
  have hh := hR1.holds.or hR2.holds (f := fun k => containerIor (E k).2) (fun k a b ha hb => containerIor_spec _ ha.1.rep hb.1.rep)
  obtain ⟨R, g3, g4⟩ := (g2.congr (D := fun k => (fun k => orAt (containerIor (E k).2)) k (artFind R1 k) (artFind R2 k)) fun k hk => by simp [Fin]).sim hh
  exact ⟨r', R, by simp only [R64M.orInplace, a1, b1, ok_bind]; exact g1, g3, g4⟩

theorem xorInplace_ok (E : Reuse) {r1 r2 : R64M} {L1 L2 : ArtRef → Prop} {R1 R2 : R64} {s t : NSet} (h1 : Sim64 r1 L1 R1) (h2 : Sim64 r2 L2 R2)
    (hR1 : Rep64 R1 s) (hR2 : Rep64 R2 t) : ∃ r' R', r1.xorInplace E r2 = .ok r' ∧ Sim64 r' L1 R' ∧ Rep64 R' (symm s t) := by
  obtain ⟨F1, m1, h1⟩ := h1
  obtain ⟨F2, m2, h2⟩ := h2
  obtain ⟨it1, o1, a1, a2, a3⟩ := h1.start
  obtain ⟨it2, o2, b1, b2, b3⟩ := h2.start
  obtain ⟨r', F, m, g1, g2⟩ := xorInplace_loop E FUEL (X := 0) ⟨a2.weaken (fun _ => trivial), b2, a3, b3, Nat.le_refl _, Nat.zero_le _⟩ keys_fuel.2
  have hh := hR1.holds.xor hR2.holds (fun a b ha hb => containerIxor_spec ha.1.rep hb.1.rep)
  obtain ⟨R, g3, g4⟩ := (g2.congr (D := fun k => (fun _ => xorAt containerIxor) k (artFind R1 k) (artFind R2 k)) fun k hk => by simp [Fin]).sim hh
  exact ⟨r', R, by simp only [R64M.xorInplace, a1, b1, ok_bind]; exact g1, g3, g4⟩

theorem andnotInplace_ok (E : Reuse) {r1 r2 : R64M} {L1 L2 : ArtRef → Prop} {R1 R2 : R64} {s t : NSet} (h1 : Sim64 r1 L1 R1) (h2 : Sim64 r2 L2 R2)
    (hR1 : Rep64 R1 s) (hR2 : Rep64 R2 t) : ∃ r' R', r1.andnotInplace E r2 = .ok r' ∧ Sim64 r' L1 R' ∧ Rep64 R' (diff s t) := by
  obtain ⟨F1, m1, h1⟩ := h1
  obtain ⟨F2, m2, h2⟩ := h2
  obtain ⟨it1, o1, a1, a2, a3⟩ := h1.start
  obtain ⟨it2, o2, b1, b2, b3⟩ := h2.start
  obtain ⟨r', F, m, g1, g2⟩ := andnotInplace_loop E FUEL (X := 0) ⟨a2.weaken (fun _ => trivial), b2, a3, b3, Nat.le_refl _, Nat.zero_le _⟩ keys_fuel.2
  have hh := hR1.holds.andnot hR2.holds (fun a b ha hb => containerIandnot_spec ha.1.rep hb.1.rep)
  obtain ⟨R, g3, g4⟩ := (g2.congr (D := fun k => (fun _ => andnotAt containerIandnot) k (artFind R1 k) (artFind R2 k)) fun k hk => by simp [Fin]).sim hh
  exact ⟨r', R, by simp only [R64M.andnotInplace, a1, b1, ok_bind]; exact g1, g3, g4⟩

theorem and_ok {r1 r2 : R64M} {L1 L2 : ArtRef → Prop} {R1 R2 : R64} {s t : NSet} (h1 : Sim64 r1 L1 R1) (h2 : Sim64 r2 L2 R2)
    (hR1 : Rep64 R1 s) (hR2 : Rep64 R2 t) : ∃ r' L' R', r1.and r2 = .ok r' ∧ Sim64 r' L' R' ∧ Rep64 R' (inter s t) := by
  obtain ⟨F1, m1, h1⟩ := h1
  obtain ⟨F2, m2, h2⟩ := h2
  obtain ⟨it1, o1, a1, a2, a3⟩ := h1.start
  obtain ⟨it2, o2, b1, b2, b3⟩ := h2.start
  obtain ⟨F0, m0, h0⟩ := sim64_create
  obtain ⟨r', F, m, g1, g2⟩ := andNew_loop FUEL (X := 0) ⟨a2, b2, a3, b3, Nat.zero_le _⟩ ⟨⟨F0, m0, h0⟩, fun k _ _ => rfl⟩ keys_fuel.1
  have hh := hR1.holds.and hR2.holds (fun a b ha hb => containerAnd_spec ha.1.rep hb.1.rep)
  obtain ⟨R, g3, g4⟩ := (g2.congr (D := fun k => andAt containerAnd (artFind R1 k) (artFind R2 k)) fun k hk => by simp [Res]).sim hh
  exact ⟨r', _, R, by simp only [R64M.and, a1, b1, ok_bind]; exact g1, g3, g4⟩

theorem or_ok {r1 r2 : R64M} {L1 L2 : ArtRef → Prop} {R1 R2 : R64} {s t : NSet} (h1 : Sim64 r1 L1 R1) (h2 : Sim64 r2 L2 R2)
    (hR1 : Rep64 R1 s) (hR2 : Rep64 R2 t) : ∃ r' L' R', r1.or r2 = .ok r' ∧ Sim64 r' L' R' ∧ Rep64 R' (union s t) := by
  obtain ⟨F1, m1, h1⟩ := h1
  obtain ⟨F2, m2, h2⟩ := h2
  obtain ⟨it1, o1, a1, a2, a3⟩ := h1.start
  obtain ⟨it2, o2, b1, b2, b3⟩ := h2.start
  obtain ⟨F0, m0, h0⟩ := sim64_create
  obtain ⟨r', F, m, g1, g2⟩ := orNew_loop FUEL (X := 0) ⟨a2, b2, a3, b3, Nat.zero_le _⟩ ⟨⟨F0, m0, h0⟩, fun k _ _ => rfl⟩ keys_fuel.1
  have hh := hR1.holds.or hR2.holds (f := fun _ => containerOr) (fun k a b ha hb => containerOr_spec ha.1.rep hb.1.rep)
  obtain ⟨R, g3, g4⟩ := (g2.congr (D := fun k => orAt containerOr (artFind R1 k) (artFind R2 k)) fun k hk => by simp [Res]).sim hh
  exact ⟨r', _, R, by simp only [R64M.or, a1, b1, ok_bind]; exact g1, g3, g4⟩

theorem xor_ok {r1 r2 : R64M} {L1 L2 : ArtRef → Prop} {R1 R2 : R64} {s t : NSet} (h1 : Sim64 r1 L1 R1) (h2 : Sim64 r2 L2 R2)
    (hR1 : Rep64 R1 s) (hR2 : Rep64 R2 t) : ∃ r' L' R', r1.xor r2 = .ok r' ∧ Sim64 r' L' R' ∧ Rep64 R' (symm s t) := by
  obtain ⟨F1, m1, h1⟩ := h1
  obtain ⟨F2, m2, h2⟩ := h2
  obtain ⟨it1, o1, a1, a2, a3⟩ := h1.start
  obtain ⟨it2, o2, b1, b2, b3⟩ := h2.start
  obtain ⟨F0, m0, h0⟩ := sim64_create
  obtain ⟨r', F, m, g1, g2⟩ := xorNew_loop FUEL (X := 0) ⟨a2, b2, a3, b3, Nat.zero_le _⟩ ⟨⟨F0, m0, h0⟩, fun k _ _ => rfl⟩ keys_fuel.1
  have hh := hR1.holds.xor hR2.holds (fun a b ha hb => containerXor_spec ha.1.rep hb.1.rep)
  obtain ⟨R, g3, g4⟩ := (g2.congr (D := fun k => xorAt containerXor (artFind R1 k) (artFind R2 k)) fun k hk => by simp [Res]).sim hh
  exact ⟨r', _, R, by simp only [R64M.xor, a1, b1, ok_bind]; exact g1, g3, g4⟩

theorem andnot_ok {r1 r2 : R64M} {L1 L2 : ArtRef → Prop} {R1 R2 : R64} {s t : NSet} (h1 : Sim64 r1 L1 R1) (h2 : Sim64 r2 L2 R2)
    (hR1 : Rep64 R1 s) (hR2 : Rep64 R2 t) : ∃ r' L' R', r1.andnot r2 = .ok r' ∧ Sim64 r' L' R' ∧ Rep64 R' (diff s t) := by
  obtain ⟨F1, m1, h1⟩ := h1
  obtain ⟨F2, m2, h2⟩ := h2
  obtain ⟨it1, o1, a1, a2, a3⟩ := h1.start
  obtain ⟨it2, o2, b1, b2, b3⟩ := h2.start
  obtain ⟨F0, m0, h0⟩ := sim64_create
  obtain ⟨r', F, m, g1, g2⟩ := andnotNew_loop FUEL (X := 0) ⟨a2, b2, a3, b3, Nat.zero_le _⟩ ⟨⟨F0, m0, h0⟩, fun k _ _ => rfl⟩ keys_fuel.1
  have hh := hR1.holds.andnot hR2.holds (fun a b ha hb => containerAndnot_spec ha.1.rep hb.1.rep)
  obtain ⟨R, g3, g4⟩ := (g2.congr (D := fun k => andnotAt containerAndnot (artFind R1 k) (artFind R2 k)) fun k hk => by simp [Res]).sim hh
  exact ⟨r', _, R, by simp only [R64M.andnot, a1, b1, ok_bind]; exact g1, g3, g4⟩

/-- A value is seen at its key. -/
theorem HoldsSet.all {C1 C2 : Conts} {s t : NSet} (h1 : HoldsSet C1 s) (h2 : HoldsSet C2 t) (P : Bool → Bool → Prop) (hp : P false false)
    {Q : Option Container → Option Container → Prop}
    (hn : Q none none)
    (hl : ∀ a, CNe a → (Q (some a) none ↔ ∀ x, P (chas a x) false))
    (hr : ∀ a, CNe a → (Q none (some a) ↔ ∀ x, P false (chas a x)))
    (hb : ∀ a b, CNe a → CNe b → (Q (some a) (some b) ↔ ∀ x, P (chas a x) (chas b x))) : AllFrom Q C1 C2 0 ↔ ∀ x, P (s x) (t x) := by
  have main : ∀ k, IsKey k → (Q (C1 k) (C2 k) ↔ ∀ x, x / 65536 = keyNum k → P (s x) (t x)) := by
    intro k hk
    have lift : ∀ f g : Nat → Bool, (∀ y, 65536 ≤ y → f y = false) → (∀ y, 65536 ≤ y → g y = false) →
        ((∀ y, P (f y) (g y)) ↔ ∀ x, x / 65536 = keyNum k → P (f (x % 65536)) (g (x % 65536))) := by
      intro f g hf hg
      constructor
      · exact fun h x _ => h _
      · intro h y
        rcases Nat.lt_or_ge y 65536 with hy | hy
        · have := h (keyNum k * 65536 + y) (by omega)
          rwa [show (keyNum k * 65536 + y) % 65536 = y by omega] at this
        · rw [hf y hy, hg y hy]; exact hp
    have cl : ∀ c, CNe c → ∀ y, 65536 ≤ y → chas c y = false := fun c hc y hy => hc.1.rep.zero hy
    cases e1 : C1 k with
    | none =>
      have z1 := h1.off k hk e1
      cases e2 : C2 k with
      | none =>
        have z2 := h2.off k hk e2
        exact ⟨fun _ x hx => by rw [z1 x hx, z2 x hx]; exact hp, fun _ => hn⟩
      | some b =>
        obtain ⟨n2, z2⟩ := h2.at' k hk b e2
        rw [hr b n2, lift (fun _ => false) (chas b) (fun _ _ => rfl) (cl b n2)]
        exact ⟨fun h x hx => by rw [z1 x hx, z2 x hx]; exact h x hx, fun h x hx => by have := h x hx; rwa [z1 x hx, z2 x hx] at this⟩
    | some a =>
      obtain ⟨n1, z1⟩ := h1.at' k hk a e1
      cases e2 : C2 k with
      | none =>
        have z2 := h2.off k hk e2
        rw [hl a n1, lift (chas a) (fun _ => false) (cl a n1) (fun _ _ => rfl)]
        exact ⟨fun h x hx => by rw [z1 x hx, z2 x hx]; exact h x hx, fun h x hx => by have := h x hx; rwa [z1 x hx, z2 x hx] at this⟩
      | some b =>
        obtain ⟨n2, z2⟩ := h2.at' k hk b e2
        rw [hb a b n1 n2, lift (chas a) (chas b) (cl a n1) (cl b n2)]
        exact ⟨fun h x hx => by rw [z1 x hx, z2 x hx]; exact h x hx, fun h x hx => by have := h x hx; rwa [z1 x hx, z2 x hx] at this⟩
  constructor
  · intro h x
    rcases Nat.lt_or_ge x TOP64 with hx | hx
    · exact (main _ (splitKey_isKey x)).1 (h _ (splitKey_isKey x) (Nat.zero_le _)) x (keyNum_split hx).symm
    · rw [h1.zero x hx, h2.zero x hx]; exact hp
  · exact fun h k hk _ => (main k hk).2 fun x _ => h x

theorem HoldsSet.equals {C1 C2 : Conts} {s t : NSet} (h1 : HoldsSet C1 s) (h2 : HoldsSet C2 t) : AllFrom eqAt C1 C2 0 ↔ ∀ x, s x = t x :=
  h1.all h2 (fun a b => a = b) rfl trivial
    (fun a ha => ⟨fun h => h.elim, fun h => by obtain ⟨y, hy⟩ := ha.2; rw [h y] at hy; cases hy⟩)
    (fun a ha => ⟨fun h => h.elim, fun h => by obtain ⟨y, hy⟩ := ha.2; rw [← h y] at hy; cases hy⟩)
    (fun a b ha hb => containerEquals_iff ha.1.rep hb.1.rep)

theorem HoldsSet.subset {C1 C2 : Conts} {s t : NSet} (h1 : HoldsSet C1 s) (h2 : HoldsSet C2 t) : AllFrom subAt C1 C2 0 ↔ ∀ x, s x = true → t x = true :=
  h1.all h2 (fun a b => a = true → b = true) (fun h => h) trivial
    (fun a ha => ⟨fun h => h.elim, fun h => by obtain ⟨y, hy⟩ := ha.2; exact absurd (h y hy) (by decide)⟩)
    (fun a ha => ⟨fun _ x h => absurd h (by decide), fun _ => trivial⟩)
    (fun a b ha hb => containerIsSubset_iff ha.1.rep hb.1.rep)

theorem HoldsSet.meet {C1 C2 : Conts} {s t : NSet} (h1 : HoldsSet C1 s) (h2 : HoldsSet C2 t) : AnyFrom meetAt C1 C2 0 ↔ ∃ x, s x = true ∧ t x = true := by
  have h := h1.all h2 (fun a b => ¬ (a = true ∧ b = true)) (by decide) (Q := fun a b => ¬ meetAt a b) (fun h => h)
    (fun a ha => ⟨fun _ x h => absurd h.2 (by decide), fun _ h => h⟩)
    (fun a ha => ⟨fun _ x h => absurd h.1 (by decide), fun _ h => h⟩)
    (fun a b ha hb => by
      show ¬ containerIntersect a b = true ↔ _
      rw [containerIntersect_iff ha.1.rep hb.1.rep, not_exists])
  rw [← not_exists] at h
  have e : ¬ AnyFrom meetAt C1 C2 0 ↔ ¬ ∃ x, s x = true ∧ t x = true := by
    rw [← h]
    unfold AnyFrom AllFrom
    exact ⟨fun h k hk hx hm => h ⟨k, hk, hx, hm⟩, fun h ⟨k, hk, hx, hm⟩ => h k hk hx hm⟩
  exact ⟨fun h => Classical.byContradiction fun h' => e.2 h' h, fun h => Classical.byContradiction fun h' => e.1 h' h⟩

theorem equals_ok {r1 r2 : R64M} {L1 L2 : ArtRef → Prop} {R1 R2 : R64} {s t : NSet} (h1 : Sim64 r1 L1 R1) (h2 : Sim64 r2 L2 R2)
    (hR1 : Rep64 R1 s) (hR2 : Rep64 R2 t) : ∃ b, r1.equals r2 = .ok b ∧ (b = true ↔ ∀ x, s x = t x) := by
  obtain ⟨F1, m1, h1⟩ := h1
  obtain ⟨F2, m2, h2⟩ := h2
  obtain ⟨it1, o1, a1, a2, a3⟩ := h1.start
  obtain ⟨it2, o2, b1, b2, b3⟩ := h2.start
  obtain ⟨b, g1, g2⟩ := equals_loop FUEL (X := 0) ⟨a2, b2, a3, b3, Nat.zero_le _⟩ keys_fuel.1
  exact ⟨b, by simp only [R64M.equals, a1, b1, ok_bind]; exact g1, g2.trans (hR1.holds.equals hR2.holds)⟩

theorem isSubset_ok {r1 r2 : R64M} {L1 L2 : ArtRef → Prop} {R1 R2 : R64} {s t : NSet} (h1 : Sim64 r1 L1 R1) (h2 : Sim64 r2 L2 R2)
    (hR1 : Rep64 R1 s) (hR2 : Rep64 R2 t) : ∃ b, r1.isSubset r2 = .ok b ∧ (b = true ↔ ∀ x, s x = true → t x = true) := by
  obtain ⟨F1, m1, h1⟩ := h1
  obtain ⟨F2, m2, h2⟩ := h2
  obtain ⟨it1, o1, a1, a2, a3⟩ := h1.start
  obtain ⟨it2, o2, b1, b2, b3⟩ := h2.start
  obtain ⟨b, g1, g2⟩ := subset_loop FUEL (X := 0) ⟨a2, b2, a3, b3, Nat.zero_le _⟩ keys_fuel.1
  exact ⟨b, by simp only [R64M.isSubset, a1, b1, ok_bind]; exact g1, g2.trans (hR1.holds.subset hR2.holds)⟩

theorem intersect_ok {r1 r2 : R64M} {L1 L2 : ArtRef → Prop} {R1 R2 : R64} {s t : NSet} (h1 : Sim64 r1 L1 R1) (h2 : Sim64 r2 L2 R2)
    (hR1 : Rep64 R1 s) (hR2 : Rep64 R2 t) : ∃ b, r1.intersect r2 = .ok b ∧ (b = true ↔ ∃ x, s x = true ∧ t x = true) := by
  obtain ⟨F1, m1, h1⟩ := h1
  obtain ⟨F2, m2, h2⟩ := h2
  obtain ⟨it1, o1, a1, a2, a3⟩ := h1.start
  obtain ⟨it2, o2, b1, b2, b3⟩ := h2.start
  obtain ⟨b, g1, g2⟩ := intersect_loop FUEL (X := 0) (b0 := false) ⟨a2, b2, a3, b3, Nat.zero_le _⟩ keys_fuel.1
  rw [hR1.holds.meet hR2.holds] at g2
  exact ⟨b, by simp only [R64M.intersect, a1, b1, ok_bind]; exact g1, g2.trans (by simp)⟩

end CRoaring
