import Verif.Lemmas.Store64Ops4
import Verif.Lemmas.R64e
import Verif.Lemmas.Iter2
/-
The numbers of values of 64-bit bitmaps in memory.
-/
set_option linter.unusedSimpArgs false
set_option linter.unusedVariables false
namespace CRoaring
open Spec

theorem p48_top : P48 * 65536 = TOP64 := by unfold P48 TOP64; omega

/-- The values with the key `k`, when there are none between `X` and it. -/
theorem card_at {s : NSet} {X n : Nat} {f : Nat → Bool} (hx : X ≤ n) (gap : ∀ x, X ≤ x / 65536 → x / 65536 < n → s x = false)
    (here : ∀ x, x / 65536 = n → s x = f (x % 65536)) : card ((n + 1) * 65536) s = card (X * 65536) s + card 65536 f := by
  rw [show (n + 1) * 65536 = n * 65536 + 65536 by omega, card_add]
  have e1 : card (n * 65536) s = card (X * 65536) s := card_gap (by omega) fun z h1 h2 => gap z (by omega) (by omega)
  have e2 : card 65536 (fun x => s (n * 65536 + x)) = card 65536 f :=
    card_congr fun x hx => by rw [here _ (by omega), show (n * 65536 + x) % 65536 = x by omega]
  rw [e1, e2]

theorem isKey_of_num {n : Nat} (h : n < P48) : ∃ k, IsKey k ∧ keyNum k = n :=
  ⟨(splitKey (n * 65536)).1, splitKey_isKey _, by
    rw [keyNum_split]
    · omega
    · have := p48_top; omega⟩

/-- No values where there are no containers. -/
theorem HoldsSet.none {C : Conts} {s : NSet} (h : HoldsSet C s) {a b : Nat} (hc : ∀ k, IsKey k → a ≤ keyNum k → keyNum k < b → C k = none) {x : Nat} (ha : a ≤ x / 65536)
    (hb : x / 65536 < b) : s x = false := by
  rcases Nat.lt_or_ge x TOP64 with hx | hx
  · obtain ⟨k, hk, e⟩ := isKey_of_num (n := x / 65536) (by have := p48_top; omega)
    exact h.off k hk (hc k hk (by omega) (by omega)) x e.symm
  · exact h.zero x hx

theorem HoldsSet.rest {C : Conts} {s : NSet} (h : HoldsSet C s) {X : Nat} (hX : X ≤ P48) (hc : ∀ k, IsKey k → X ≤ keyNum k → C k = Option.none) : card TOP64 s = card (X * 65536) s := by
  have := p48_top
  exact card_gap (by omega) fun z h1 h2 => h.none (a := X) (b := P48) (fun k hk hx _ => hc k hk hx) (by omega) (by omega)

theorem card_loop {r : R64M} {L : ArtRef → Prop} {C : Conts} {s : NSet} (hs : HoldsSet C s) (n : Nat) : ∀ {it : HIt} {o : Option (List Nat)} {X acc : Nat},
    Cs r L C True it o → From C X o → X ≤ P48 → P48 < n + X → acc = card (X * 65536) s % TOP64 → R64M.cardLoop r n it acc = .ok (card TOP64 s % TOP64) := by
  induction n with
  | zero => intro it o X acc h1 f1 hX hn; omega
  | succ n ih =>
    intro it o X acc h1 f1 hX hn ha
    unfold R64M.cardLoop
    cases o with
    | none =>
      simp only [h1.ended]
      rw [ha, hs.rest hX fun k hk hx => f1.off hk hx]
    | some k1 =>
      obtain ⟨hk1, x1, top1⟩ := f1.isKey
      obtain ⟨-, p1, l1, a1, c1, v1, e1, d1, look1⟩ := h1.key
      obtain ⟨it', o', n1, n2, n3⟩ := h1.next
      simp only [v1, look1, ok_bind, n1]
      obtain ⟨hc, hv⟩ := hs.at' k1 hk1 c1 d1
      refine ih n2 n3 (by omega) (by omega) ?_
      rw [card_at (s := s) x1 (fun x hx hy => hs.none (a := X) (b := keyNum k1) (fun k hk h1 h2 => f1.gap hk h1 h2) hx hy) hv, containerCard_eq hc.1.rep, u64_add, ha, Nat.mod_add_mod]

theorem cardinality_ok {r : R64M} {L : ArtRef → Prop} {R : R64} {s : NSet} (h : Sim64 r L R) (hR : Rep64 R s) : r.cardinality = .ok (card TOP64 s % TOP64) := by
  obtain ⟨F, m, h⟩ := h
  obtain ⟨it, o, a1, a2, a3⟩ := h.start
  simp only [R64M.cardinality, a1, ok_bind]
  exact card_loop hR.holds FUEL a2 a3 (Nat.zero_le _) keys_fuel.1 (by simp)

theorem andCard_loop {r1 r2 : R64M} {L1 L2 : ArtRef → Prop} {C1 C2 : Conts} {s t : NSet} (hs : HoldsSet C1 s) (ht : HoldsSet C2 t) (n : Nat) : ∀ {it1 it2 : HIt}
    {o1 o2 : Option (List Nat)} {X acc : Nat}, Pair r1 r2 L1 L2 C1 C2 it1 it2 o1 o2 X → P48 < n + X → acc = card (X * 65536) (inter s t) % TOP64 →
    R64M.andCardLoop r1 r2 n it1 it2 acc = .ok (card TOP64 (inter s t) % TOP64) := by
  have hi := hs.and ht (fun a b ha hb => containerAnd_spec ha.1.rep hb.1.rep)
  induction n with
  | zero => intro it1 it2 o1 o2 X acc h hn; have := h.top; omega
  | succ n ih =>
    intro it1 it2 o1 o2 X acc h hn ha
    obtain ⟨h1, h2, f1, f2, htop⟩ := h
    unfold R64M.andCardLoop
    cases o1 with
    | none =>
      simp only [h1.ended]
      rw [ha, hi.rest htop fun k hk hx => by rw [f1.off hk hx, andAt_none]]
    | some k1 =>
      obtain ⟨hk1, x1, top1⟩ := f1.isKey
      obtain ⟨-, p1, l1, a1, c1, v1, e1, d1, look1⟩ := h1.key
      cases o2 with
      | none =>
        simp only [v1, h2.ended, e1]
        rw [ha, hi.rest htop fun k hk hx => by rw [f2.off hk hx, andAt_none']]
      | some k2 =>
        obtain ⟨hk2, x2, top2⟩ := f2.isKey
        obtain ⟨-, p2, l2, a2, c2, v2, e2, d2, look2⟩ := h2.key
        simp only [v1, v2, e1, e2]
        rcases cmp3 hk1 hk2 with ⟨c, rfl⟩ | ⟨c, c', hlt⟩ | ⟨c, c', hlt⟩
        · obtain ⟨it1', o1', n1, n2, n3⟩ := h1.next
          obtain ⟨it2', o2', n4, n5, n6⟩ := h2.next
          rw [if_pos c, look1, ok_bind, look2, ok_bind, n1, ok_bind, n4, ok_bind]
          obtain ⟨hc1, hv1⟩ := hs.at' k1 hk1 c1 d1
          obtain ⟨hc2, hv2⟩ := ht.at' k1 hk1 c2 d2
          refine ih ⟨n2, n5, n3, n6, by omega⟩ (by omega) ?_
          rw [card_at (s := inter s t) (f := inter (chas c1) (chas c2)) x1 (fun x hx hy => hi.none (a := X) (b := keyNum k1) (fun k hk h1 h2 => by rw [f1.gap hk h1 h2, andAt_none]) hx hy)
            (fun x hx => by simp only [inter, hv1 x hx, hv2 x hx]), containerAndCard_eq hc1.1.rep hc2.1.rep, u64_add, ha, Nat.mod_add_mod]
        · rw [if_neg c, if_pos c']
          obtain ⟨it', o', n1, n2, n3⟩ := h1.seek hk2
          rw [n1, ok_bind]
          refine ih ⟨n2, h2, n3, f2.up (by omega) (Nat.le_refl _), by omega⟩ (by omega) ?_
          rw [ha, card_gap (s := inter s t) (a := X * 65536) (w := keyNum k2 * 65536) (by omega) fun z g1 g2 => hi.none (a := X) (b := keyNum k2) (fun k hk h1 h2 => by rw [f2.gap hk h1 h2, andAt_none']) (by omega) (by omega)]
        · rw [if_neg c, if_neg c']
          obtain ⟨it', o', n1, n2, n3⟩ := h2.seek hk1
          rw [n1, ok_bind]
          refine ih ⟨h1, n2, f1.up (by omega) (Nat.le_refl _), n3, by omega⟩ (by omega) ?_
          rw [ha, card_gap (s := inter s t) (a := X * 65536) (w := keyNum k1 * 65536) (by omega) fun z g1 g2 => hi.none (a := X) (b := keyNum k1) (fun k hk h1 h2 => by rw [f1.gap hk h1 h2, andAt_none]) (by omega) (by omega)]

section
variable {r1 r2 : R64M} {L1 L2 : ArtRef → Prop} {R1 R2 : R64} {s t : NSet} (h1 : Sim64 r1 L1 R1) (h2 : Sim64 r2 L2 R2) (hR1 : Rep64 R1 s) (hR2 : Rep64 R2 t)
include h1 h2 hR1 hR2

theorem andCardinality_ok : r1.andCardinality r2 = .ok (card TOP64 (inter s t) % TOP64) := by
  obtain ⟨F1, m1, h1⟩ := h1
  obtain ⟨F2, m2, h2⟩ := h2
  obtain ⟨it1, o1, a1, a2, a3⟩ := h1.start
  obtain ⟨it2, o2, b1, b2, b3⟩ := h2.start
  simp only [R64M.andCardinality, a1, b1, ok_bind]
  exact andCard_loop hR1.holds hR2.holds FUEL ⟨a2, b2, a3, b3, Nat.zero_le _⟩ keys_fuel.1 (by simp)

theorem orCardinality_ok : r1.orCardinality r2 = .ok (card TOP64 (union s t) % TOP64) := by
  simp only [R64M.orCardinality, cardinality_ok h1 hR1, cardinality_ok h2 hR2, andCardinality_ok h1 h2 hR1 hR2, ok_bind]
  rw [← r64Cardinality_eq hR1, ← r64Cardinality_eq hR2, ← r64AndCardinality_eq hR1 hR2, ← r64OrCardinality_eq hR1 hR2, r64OrCardinality]

theorem xorCardinality_ok : r1.xorCardinality r2 = .ok (card TOP64 (symm s t) % TOP64) := by
  simp only [R64M.xorCardinality, cardinality_ok h1 hR1, cardinality_ok h2 hR2, andCardinality_ok h1 h2 hR1 hR2, ok_bind]
  rw [← r64Cardinality_eq hR1, ← r64Cardinality_eq hR2, ← r64AndCardinality_eq hR1 hR2, ← r64XorCardinality_eq hR1 hR2, r64XorCardinality]

theorem andnotCardinality_ok : r1.andnotCardinality r2 = .ok (card TOP64 (diff s t) % TOP64) := by
  simp only [R64M.andnotCardinality, cardinality_ok h1 hR1, cardinality_ok h2 hR2, andCardinality_ok h1 h2 hR1 hR2, ok_bind]
  rw [← r64Cardinality_eq hR1, ← r64AndCardinality_eq hR1 hR2, ← r64AndnotCardinality_eq hR1 hR2, r64AndnotCardinality]

theorem isStrictSubset_ok (hb : card TOP64 t < TOP64) :
    ∃ b, r1.isStrictSubset r2 = .ok b ∧ (b = true ↔ (∀ x, s x = true → t x = true) ∧ ∃ x, t x = true ∧ s x = false) := by
  obtain ⟨b, g1, g2⟩ := isSubset_ok h1 h2 hR1 hR2
  rw [← r64IsStrictSubset_iff hR1 hR2 hb]
  have e : b = r64IsSubset R1 R2 := by
    rw [Bool.eq_iff_iff, g2, r64IsSubset_iff hR1 hR2]
  have e1 := cardinality_ok h1 hR1
  have e2 := cardinality_ok h2 hR2
  rw [← r64Cardinality_eq hR1] at e1
  rw [← r64Cardinality_eq hR2] at e2
  unfold r64IsStrictSubset
  rw [← e]
  generalize r64Cardinality R1 = n at e1 ⊢
  generalize r64Cardinality R2 = m at e2 ⊢
  rw [R64M.isStrictSubset, e1, ok_bind, e2, ok_bind]
  by_cases hc : n < m
  · exact ⟨b, by rw [if_pos hc, g1], by simp [hc]⟩
  · exact ⟨false, by rw [if_neg hc], by simp [hc]⟩

end

end CRoaring
