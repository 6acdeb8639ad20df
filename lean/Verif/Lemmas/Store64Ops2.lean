import Verif.Lemmas.Store64Ops
/-
The loops of the set operations of 64-bit bitmaps in memory.
-/
set_option linter.unusedSimpArgs false
set_option linter.unusedVariables false
namespace CRoaring
open Spec

abbrev Conts := List Nat → Option Container

theorem cmp3 {k1 k2 : List Nat} (h1 : IsKey k1) (h2 : IsKey k2) :
    (artCompareKeys k1 k2 = 0 ∧ k1 = k2) ∨ (¬ artCompareKeys k1 k2 = 0 ∧ artCompareKeys k1 k2 < 0 ∧ keyNum k1 < keyNum k2) ∨
      (¬ artCompareKeys k1 k2 = 0 ∧ ¬ artCompareKeys k1 k2 < 0 ∧ keyNum k2 < keyNum k1) := by
  obtain ⟨e1, e2, e3⟩ := artCompareKeys_spec h1 h2
  rcases Int.lt_trichotomy (artCompareKeys k1 k2) 0 with h | h | h
  · exact Or.inr (Or.inl ⟨by omega, h, e2.1 h⟩)
  · exact Or.inl ⟨h, e1.1 h⟩
  · exact Or.inr (Or.inr ⟨by omega, by omega, e3.1 h⟩)

theorem From.isKey {C : Conts} {X : Nat} {k : List Nat} (h : From C X (some k)) : IsKey k ∧ X ≤ keyNum k ∧ keyNum k < P48 := ⟨h.1, h.2.2.1, key_lt h.1⟩

theorem From.gap {C : Conts} {X : Nat} {k1 k : List Nat} (h : From C X (some k1)) (hk : IsKey k) (hx : X ≤ keyNum k) (hlt : keyNum k < keyNum k1) : C k = none := by
  cases hc : C k with
  | none => rfl
  | some c =>
    have := h.2.2.2 k hk (by rw [hc]; simp) hx
    omega

theorem From.off {C : Conts} {X : Nat} {k : List Nat} (h : From C X none) (hk : IsKey k) (hx : X ≤ keyNum k) : C k = none := by
  cases hc : C k with
  | none => rfl
  | some c =>
    have := h k hk (by rw [hc]; simp)
    omega

theorem From.up {C : Conts} {X X' : Nat} {k1 : List Nat} (h : From C X (some k1)) (h1 : X ≤ X') (h2 : X' ≤ keyNum k1) : From C X' (some k1) :=
  ⟨h.1, h.2.1, h2, fun k hk hc hx => h.2.2.2 k hk hc (by omega)⟩

theorem From.upNone {C : Conts} {X X' : Nat} (h : From C X none) (h1 : X ≤ X') : From C X' none :=
  fun k hk hc => Nat.lt_of_lt_of_le (h k hk hc) h1

theorem upd_num {D : Conts} {k1 k : List Nat} (v : Option Container) (h : keyNum k ≠ keyNum k1) : updKey D k1 v k = D k :=
  upd_ne _ _ (fun e => h (by rw [e]))

/-- What is to be seen at the end, when the keys before `X` are done. -/
def Fin (G : List Nat → Option Container → Option Container → Option Container) (D C2 : Conts) (X : Nat) : Conts :=
  fun k => if keyNum k < X then D k else G k (D k) (C2 k)

theorem Fin.step {G : List Nat → Option Container → Option Container → Option Container} {D D1 C2 : Conts} {X X1 : Nat} (hX : X ≤ X1)
    (same : ∀ k, IsKey k → (keyNum k < X ∨ X1 ≤ keyNum k) → D1 k = D k)
    (mid : ∀ k, IsKey k → X ≤ keyNum k → keyNum k < X1 → D1 k = G k (D k) (C2 k)) {r : R64M} {L F : ArtRef → Prop} {m : List Nat → Option Nat}
    (h : St r L F m (Fin G D1 C2 X1)) : St r L F m (Fin G D C2 X) := by
  refine h.congr fun k hk => ?_
  unfold Fin
  by_cases h1 : keyNum k < X
  · rw [if_pos h1, if_pos (by omega), same k hk (Or.inl h1)]
  · rw [if_neg h1]
    by_cases h2 : keyNum k < X1
    · rw [if_pos h2, mid k hk (by omega) h2]
    · rw [if_neg h2, same k hk (Or.inr (by omega))]

theorem Fin.stop {G : List Nat → Option Container → Option Container → Option Container} {D C2 : Conts} {X : Nat} 
    (h : ∀ k, IsKey k → X ≤ keyNum k → D k = G k (D k) (C2 k)) {r : R64M} {L : ArtRef → Prop} {B : Prop} {it : HIt} {o : Option (List Nat)}
    (hr : Cs r L D B it o) : ∃ F m, St r L F m (Fin G D C2 X) := by
  obtain ⟨F, m, hs⟩ := hr.st
  refine ⟨F, m, hs.congr fun k hk => ?_⟩
  unfold Fin
  split
  · rfl
  · exact h k hk (by omega)

/-- The container of the result at a key. -/
def andAt (f : Container → Container → Container) : Option Container → Option Container → Option Container
  | some a, some b => nz (f a b)
  | _, _ => none

def orAt (f : Container → Container → Container) : Option Container → Option Container → Option Container
  | some a, some b => some (f a b)
  | some a, none => some a
  | none, o => o

def xorAt (f : Container → Container → Container) : Option Container → Option Container → Option Container
  | some a, some b => nz (f a b)
  | some a, none => some a
  | none, o => o

def andnotAt (f : Container → Container → Container) : Option Container → Option Container → Option Container
  | some a, some b => nz (f a b)
  | some a, none => some a
  | none, _ => none

theorem andAt_none (f : Container → Container → Container) (o : Option Container) : andAt f none o = none := by cases o <;> rfl
theorem andAt_none' (f : Container → Container → Container) (o : Option Container) : andAt f o none = none := by cases o <;> rfl
theorem orAt_none (f : Container → Container → Container) (o : Option Container) : orAt f none o = o := by cases o <;> rfl
theorem orAt_none' (f : Container → Container → Container) (o : Option Container) : orAt f o none = o := by cases o <;> rfl
theorem xorAt_none (f : Container → Container → Container) (o : Option Container) : xorAt f none o = o := by cases o <;> rfl
theorem xorAt_none' (f : Container → Container → Container) (o : Option Container) : xorAt f o none = o := by cases o <;> rfl
theorem andnotAt_none (f : Container → Container → Container) (o : Option Container) : andnotAt f none o = none := by cases o <;> rfl
theorem andnotAt_none' (f : Container → Container → Container) (o : Option Container) : andnotAt f o none = o := by cases o <;> rfl

/-- The iterator of the first bitmap has passed the keys before `Y`, that of the second those before `X`; the keys before `X` are done. -/
structure Two (r1 r2 : R64M) (L1 L2 : ArtRef → Prop) (D C2 : Conts) (it1 it2 : HIt) (o1 o2 : Option (List Nat)) (X Y : Nat) : Prop where
  one : Cs r1 L1 D False it1 o1
  two : Cs r2 L2 C2 True it2 o2
  from1 : From D Y o1
  from2 : From C2 X o2
  le : Y ≤ X
  top : X ≤ P48

theorem andInplace_loop (E : Reuse) {r2 : R64M} {L1 L2 : ArtRef → Prop} {C2 : Conts} (n : Nat) : ∀ {r1 : R64M} {D : Conts} {it1 it2 : HIt}
    {o1 o2 : Option (List Nat)} {X : Nat}, Two r1 r2 L1 L2 D C2 it1 it2 o1 o2 X X → P48 < n + X →
    ∃ r' F m, R64M.andInplaceLoop E r2 n r1 it1 it2 = .ok r' ∧ St r' L1 F m (Fin (fun _ => andAt containerIand) D C2 X) := by
  induction n with
  | zero => intro r1 D it1 it2 o1 o2 X h hn; have := h.le; have := h.top; omega
  | succ n ih =>
    intro r1 D it1 it2 o1 o2 X h hn
    obtain ⟨h1, h2, f1, f2, hle, htop⟩ := h
    unfold R64M.andInplaceLoop
    cases o1 with
    | none =>
      simp only [h1.ended]
      obtain ⟨F, m, hs⟩ := Fin.stop (G := fun _ => andAt containerIand) (D := D) (C2 := C2) (X := X)
        (fun k hk hx => by rw [f1.off hk (by omega), andAt_none]) h1
      exact ⟨r1, F, m, rfl, hs⟩
    | some k1 =>
      obtain ⟨hk1, y1, top1⟩ := f1.isKey
      obtain ⟨-, p1, l1, a1, c1, v1, e1, d1, -⟩ := h1.key
      have rem : ∀ o2, Cs r2 L2 C2 True it2 o2 → From C2 X o2 → (∀ k2, o2 = some k2 → keyNum k1 < keyNum k2) →
          ∃ r' F m, (do
            let x ← r1.itRemove it1
            R64M.andInplaceLoop E r2 n x.1 x.2 it2) = .ok r' ∧ St r' L1 F m (Fin (fun _ => andAt containerIand) D C2 X) := by
        intro o2 h2 f2 hlt
        obtain ⟨r', it', o, q1, q2, q3⟩ := h1.remove
        have hc2 : ∀ k, IsKey k → X ≤ keyNum k → keyNum k ≤ keyNum k1 → C2 k = none := by
          intro k hk hx hy
          cases o2 with
          | none => exact f2.off hk hx
          | some k2 => exact f2.gap hk hx (by have := hlt k2 rfl; omega)
        have f2' : From C2 (keyNum k1 + 1) o2 := by
          cases o2 with
          | none => exact f2.upNone (by omega)
          | some k2 => have := hlt k2 rfl; have := f2.isKey; exact f2.up (by omega) (by omega)
        obtain ⟨r3, F, m, g1, g2⟩ := ih ⟨q2, h2, q3, f2', by omega, by omega⟩ (by omega)
        refine ⟨r3, F, m, by rw [q1]; exact g1, Fin.step (by omega) (fun k hk hx => ?_) (fun k hk hx hy => ?_) g2⟩
        · exact upd_num _ (by omega)
        · rw [hc2 k hk hx (by omega), andAt_none']
          by_cases he : keyNum k = keyNum k1
          · rw [key_inj hk hk1 he, upd_same]
          · rw [upd_num _ he]
            exact f1.gap hk (by omega) (by omega)
      cases o2 with
      | none =>
        simp only [v1, h2.ended]
        exact rem none h2 f2 (fun _ h => by cases h)
      | some k2 =>
        obtain ⟨hk2, x2, top2⟩ := f2.isKey
        obtain ⟨-, p2, l2, a2, c2, v2, e2, d2, -⟩ := h2.key
        simp only [v1, v2, e1, e2]
        rcases cmp3 hk1 hk2 with ⟨c, rfl⟩ | ⟨c, c', hlt⟩ | ⟨c, c', hlt⟩
        · simp only [if_pos c]
          obtain ⟨p1', p2', c1', c2', r', it', o, w1, w2, w3, w4, w5, w6, w7⟩ := h1.combine h2 containerIand (E k1).1
          rw [v1] at w1; rw [v2] at w2
          cases w1; cases w2
          obtain ⟨it2', o2', n1, n2, n3⟩ := h2.next
          obtain ⟨r3, F, m, g1, g2⟩ := ih ⟨w6, n2, w7, n3, by omega, by omega⟩ (by omega)
          refine ⟨r3, F, m, by rw [w5, ok_bind, n1, ok_bind]; exact g1, Fin.step (by omega) (fun k hk hx => ?_) (fun k hk hx hy => ?_) g2⟩
          · exact upd_num _ (by omega)
          · by_cases he : keyNum k = keyNum k1
            · rw [key_inj hk hk1 he, upd_same, w3, w4]; rfl
            · rw [upd_num _ he, f1.gap hk (by omega) (by omega), andAt_none]
        · simp only [if_neg c, if_pos c']
          exact rem _ h2 f2 (fun k e => by cases e; exact hlt)
        · simp only [if_neg c, if_neg c']
          obtain ⟨it2', o2', n1, n2, n3⟩ := h2.seek hk1
          obtain ⟨r3, F, m, g1, g2⟩ := ih ⟨h1, n2, f1.up y1 (Nat.le_refl _), n3, by omega, by omega⟩ (by omega)
          refine ⟨r3, F, m, by rw [n1, ok_bind]; exact g1, Fin.step (by omega) (fun _ _ _ => rfl) (fun k hk hx hy => ?_) g2⟩
          rw [f1.gap hk (by omega) hy, andAt_none]

theorem orInplace_loop (E : Reuse) {r2 : R64M} {L1 L2 : ArtRef → Prop} {C2 : Conts} (n : Nat) : ∀ {r1 : R64M} {D : Conts} {it1 it2 : HIt}
    {o1 o2 : Option (List Nat)} {X Y : Nat}, Two r1 r2 L1 L2 D C2 it1 it2 o1 o2 X Y → 2 * P48 < n + X + Y →
    ∃ r' F m, R64M.orInplaceLoop E r2 n r1 it1 it2 = .ok r' ∧ St r' L1 F m (Fin (fun k => orAt (containerIor (E k).2)) D C2 X) := by
  induction n with
  | zero => intro r1 D it1 it2 o1 o2 X Y h hn; have := h.le; have := h.top; omega
  | succ n ih =>
    intro r1 D it1 it2 o1 o2 X Y h hn
    obtain ⟨h1, h2, f1, f2, hle, htop⟩ := h
    unfold R64M.orInplaceLoop
    have step1 : ∀ k1 o2, Cs r1 L1 D False it1 (some k1) → From D Y (some k1) → Cs r2 L2 C2 True it2 o2 → From C2 X o2 → (∀ k2, o2 = some k2 → keyNum k1 < keyNum k2) →
        ∃ r' F m, (do
          let it1 ← r1.art.itNext it1
          R64M.orInplaceLoop E r2 n r1 it1 it2) = .ok r' ∧ St r' L1 F m (Fin (fun k => orAt (containerIor (E k).2)) D C2 X) := by
      intro k1 o2 h1 f1 h2 f2 hlt
      obtain ⟨hk1, y1, top1⟩ := f1.isKey
      obtain ⟨it', o, q1, q2, q3⟩ := h1.next
      have hc2 : ∀ k, IsKey k → X ≤ keyNum k → keyNum k ≤ keyNum k1 → C2 k = none := by
        intro k hk hx hy
        cases o2 with
        | none => exact f2.off hk hx
        | some k2 => exact f2.gap hk hx (by have := hlt k2 rfl; omega)
      have f2' : From C2 (max X (keyNum k1 + 1)) o2 := by
        cases o2 with
        | none => exact f2.upNone (by omega)
        | some k2 => have := hlt k2 rfl; have := f2.isKey; exact f2.up (by omega) (by omega)
      obtain ⟨r3, F, m, g1, g2⟩ := ih ⟨q2.weaken (fun _ => trivial), h2, q3, f2', by omega, by omega⟩ (by omega)
      refine ⟨r3, F, m, by rw [q1]; exact g1, Fin.step (by omega) (fun _ _ _ => rfl) (fun k hk hx hy => ?_) g2⟩
      rw [hc2 k hk hx (by omega), orAt_none']
    cases o1 with
    | none =>
      cases o2 with
      | none =>
        simp only [h1.ended, h2.ended]
        obtain ⟨F, m, hs⟩ := Fin.stop (G := fun k => orAt (containerIor (E k).2)) (D := D) (C2 := C2) (X := X)
          (fun k hk hx => by rw [f1.off hk (by omega), orAt_none, f2.off hk hx]) h1
        exact ⟨r1, F, m, rfl, hs⟩
      | some k2 =>
        obtain ⟨hk2, x2, top2⟩ := f2.isKey
        obtain ⟨-, p2, l2, a2, c2, v2, e2, d2, -⟩ := h2.key
        have hn2 : D k2 = none := f1.off hk2 (by omega)
        simp only [h1.ended, v2, e2]
        obtain ⟨it2', o2', n1, n2, n3⟩ := h2.next
        obtain ⟨p2', c2', r', it', w1, w2, w3, w4⟩ := h1.copyIn h2 hn2
        rw [v2] at w1; cases w1
        have f1' : From (updKey D k2 (some c2')) (keyNum k2) (some k2) :=
          ⟨hk2, by rw [upd_same]; simp, Nat.le_refl _, fun k _ _ hx => hx⟩
        obtain ⟨r3, F, m, g1, g2⟩ := ih ⟨w4.weaken (fun _ => trivial), n2, f1', n3, by omega, by omega⟩ (by omega)
        refine ⟨r3, F, m, by rw [w3, ok_bind, n1, ok_bind]; exact g1, Fin.step (by omega) (fun k hk hx => upd_num _ (by omega)) (fun k hk hx hy => ?_) g2⟩
        by_cases he : keyNum k = keyNum k2
        · rw [key_inj hk hk2 he, upd_same, hn2, orAt_none, w2]
        · rw [upd_num _ he, f1.off hk (by omega), orAt_none, f2.gap hk hx (by omega)]
    | some k1 =>
      obtain ⟨hk1, y1, top1⟩ := f1.isKey
      obtain ⟨-, p1, l1, a1, c1, v1, e1, d1, -⟩ := h1.key
      cases o2 with
      | none =>
        simp only [v1, h2.ended]
        exact step1 k1 none h1 f1 h2 f2 (fun _ h => by cases h)
      | some k2 =>
        obtain ⟨hk2, x2, top2⟩ := f2.isKey
        obtain ⟨-, p2, l2, a2, c2, v2, e2, d2, -⟩ := h2.key
        simp only [v1, v2, e1, e2]
        rcases cmp3 hk1 hk2 with ⟨c, rfl⟩ | ⟨c, c', hlt⟩ | ⟨c, c', hlt⟩
        · simp only [if_pos c]
          obtain ⟨p1', p2', c1', c2', r', it', o, w1, w2, w3, w4, w5, w6, w7⟩ := h1.unite h2 (containerIor (E k1).2) (E k1).1
          rw [v1] at w1; rw [v2] at w2
          cases w1; cases w2
          obtain ⟨it2', o2', n1, n2, n3⟩ := h2.next
          obtain ⟨r3, F, m, g1, g2⟩ := ih ⟨w6.weaken (fun _ => trivial), n2, w7, n3, by omega, by omega⟩ (by omega)
          refine ⟨r3, F, m, by rw [w5, ok_bind, n1, ok_bind]; exact g1, Fin.step (by omega) (fun k hk hx => upd_num _ (by omega)) (fun k hk hx hy => ?_) g2⟩
          by_cases he : keyNum k = keyNum k1
          · rw [key_inj hk hk1 he, upd_same, w3, w4]; rfl
          · rw [upd_num _ he, f1.gap hk (by omega) (by omega), orAt_none, f2.gap hk hx (by omega)]
        · simp only [if_neg c, if_pos c']
          exact step1 k1 (some k2) h1 f1 h2 f2 (fun k e => by cases e; exact hlt)
        · simp only [if_neg c, if_neg c']
          obtain ⟨it2', o2', n1, n2, n3⟩ := h2.next
          have hn2 : D k2 = none := f1.gap hk2 (by omega) hlt
          obtain ⟨p2', c2', r', it', w1, w2, w3, w4⟩ := h1.copyIn h2 hn2
          rw [v2] at w1; cases w1
          have f1' : From (updKey D k2 (some c2')) (keyNum k2) (some k2) :=
            ⟨hk2, by rw [upd_same]; simp, Nat.le_refl _, fun k _ _ hx => hx⟩
          obtain ⟨r3, F, m, g1, g2⟩ := ih ⟨w4.weaken (fun _ => trivial), n2, f1', n3, by omega, by omega⟩ (by omega)
          refine ⟨r3, F, m, by rw [w3, ok_bind, n1, ok_bind]; exact g1, Fin.step (by omega) (fun k hk hx => upd_num _ (by omega)) (fun k hk hx hy => ?_) g2⟩
          by_cases he : keyNum k = keyNum k2
          · rw [key_inj hk hk2 he, upd_same, hn2, orAt_none, w2]
          · rw [upd_num _ he, f1.gap hk (by omega) (by omega), orAt_none, f2.gap hk hx (by omega)]

theorem xorInplace_loop (E : Reuse) {r2 : R64M} {L1 L2 : ArtRef → Prop} {C2 : Conts} (n : Nat) : ∀ {r1 : R64M} {D : Conts} {it1 it2 : HIt}
    {o1 o2 : Option (List Nat)} {X Y : Nat}, Two r1 r2 L1 L2 D C2 it1 it2 o1 o2 X Y → 2 * P48 < n + X + Y →
    ∃ r' F m, R64M.xorInplaceLoop E r2 n r1 it1 it2 = .ok r' ∧ St r' L1 F m (Fin (fun _ => xorAt containerIxor) D C2 X) := by
  induction n with
  | zero => intro r1 D it1 it2 o1 o2 X Y h hn; have := h.le; have := h.top; omega
  | succ n ih =>
    intro r1 D it1 it2 o1 o2 X Y h hn
    obtain ⟨h1, h2, f1, f2, hle, htop⟩ := h
    unfold R64M.xorInplaceLoop
    have step1 : ∀ k1 o2, Cs r1 L1 D False it1 (some k1) → From D Y (some k1) → Cs r2 L2 C2 True it2 o2 → From C2 X o2 → (∀ k2, o2 = some k2 → keyNum k1 < keyNum k2) →
        ∃ r' F m, (do
          let it1 ← r1.art.itNext it1
          R64M.xorInplaceLoop E r2 n r1 it1 it2) = .ok r' ∧ St r' L1 F m (Fin (fun _ => xorAt containerIxor) D C2 X) := by
      intro k1 o2 h1 f1 h2 f2 hlt
      obtain ⟨hk1, y1, top1⟩ := f1.isKey
      obtain ⟨it', o, q1, q2, q3⟩ := h1.next
      have hc2 : ∀ k, IsKey k → X ≤ keyNum k → keyNum k ≤ keyNum k1 → C2 k = none := by
        intro k hk hx hy
        cases o2 with
        | none => exact f2.off hk hx
        | some k2 => exact f2.gap hk hx (by have := hlt k2 rfl; omega)
      have f2' : From C2 (max X (keyNum k1 + 1)) o2 := by
        cases o2 with
        | none => exact f2.upNone (by omega)
        | some k2 => have := hlt k2 rfl; have := f2.isKey; exact f2.up (by omega) (by omega)
      obtain ⟨r3, F, m, g1, g2⟩ := ih ⟨q2.weaken (fun _ => trivial), h2, q3, f2', by omega, by omega⟩ (by omega)
      refine ⟨r3, F, m, by rw [q1]; exact g1, Fin.step (by omega) (fun _ _ _ => rfl) (fun k hk hx hy => ?_) g2⟩
      rw [hc2 k hk hx (by omega), xorAt_none']
    cases o1 with
    | none =>
      cases o2 with
      | none =>
        simp only [h1.ended, h2.ended]
        obtain ⟨F, m, hs⟩ := Fin.stop (G := fun _ => xorAt containerIxor) (D := D) (C2 := C2) (X := X)
          (fun k hk hx => by rw [f1.off hk (by omega), xorAt_none, f2.off hk hx]) h1
        exact ⟨r1, F, m, rfl, hs⟩
      | some k2 =>
        obtain ⟨hk2, x2, top2⟩ := f2.isKey
        obtain ⟨-, p2, l2, a2, c2, v2, e2, d2, -⟩ := h2.key
        have hn2 : D k2 = none := f1.off hk2 (by omega)
        simp only [h1.ended, v2, e2]
        obtain ⟨it2', o2', n1, n2, n3⟩ := h2.next
        obtain ⟨F1, m1, hst⟩ := h1.st
        obtain ⟨p2', c2', r', F', m', w1, w2, w3, w4⟩ := h2.copyTo hst hn2
        rw [v2] at w1; cases w1
        have f1' : From (updKey D k2 (some c2')) (keyNum k2 + 1) none := by
          intro k hk hc
          by_cases he : keyNum k = keyNum k2
          · omega
          · rw [upd_num _ he] at hc
            have := f1 k hk hc
            omega
        obtain ⟨r3, F, m, g1, g2⟩ := ih ⟨w4.ended h1.ended h1.len, n2, f1', n3, by omega, by omega⟩ (by omega)
        refine ⟨r3, F, m, by rw [w3, ok_bind, n1, ok_bind]; exact g1, Fin.step (by omega) (fun k hk hx => upd_num _ (by omega)) (fun k hk hx hy => ?_) g2⟩
        by_cases he : keyNum k = keyNum k2
        · rw [key_inj hk hk2 he, upd_same, hn2, xorAt_none, w2]
        · rw [upd_num _ he, f1.off hk (by omega), xorAt_none, f2.gap hk hx (by omega)]
    | some k1 =>
      obtain ⟨hk1, y1, top1⟩ := f1.isKey
      obtain ⟨-, p1, l1, a1, c1, v1, e1, d1, -⟩ := h1.key
      cases o2 with
      | none =>
        simp only [v1, h2.ended]
        exact step1 k1 none h1 f1 h2 f2 (fun _ h => by cases h)
      | some k2 =>
        obtain ⟨hk2, x2, top2⟩ := f2.isKey
        obtain ⟨-, p2, l2, a2, c2, v2, e2, d2, -⟩ := h2.key
        simp only [v1, v2, e1, e2]
        rcases cmp3 hk1 hk2 with ⟨c, rfl⟩ | ⟨c, c', hlt⟩ | ⟨c, c', hlt⟩
        · simp only [if_pos c]
          obtain ⟨p1', p2', c1', c2', r', it', o, w1, w2, w3, w4, w5, w6, w7⟩ := h1.combine h2 containerIxor (E k1).1
          rw [v1] at w1; rw [v2] at w2
          cases w1; cases w2
          obtain ⟨it2', o2', n1, n2, n3⟩ := h2.next
          obtain ⟨r3, F, m, g1, g2⟩ := ih ⟨w6, n2, w7, n3, by omega, by omega⟩ (by omega)
          refine ⟨r3, F, m, by rw [w5, ok_bind, n1, ok_bind]; exact g1, Fin.step (by omega) (fun k hk hx => upd_num _ (by omega)) (fun k hk hx hy => ?_) g2⟩
          by_cases he : keyNum k = keyNum k1
          · rw [key_inj hk hk1 he, upd_same, w3, w4]; rfl
          · rw [upd_num _ he, f1.gap hk (by omega) (by omega), xorAt_none, f2.gap hk hx (by omega)]
        · simp only [if_neg c, if_pos c']
          exact step1 k1 (some k2) h1 f1 h2 f2 (fun k e => by cases e; exact hlt)
        · simp only [if_neg c, if_neg c']
          obtain ⟨it2', o2', n1, n2, n3⟩ := h2.next
          have hn2 : D k2 = none := f1.gap hk2 (by omega) hlt
          obtain ⟨p2', c2', r', it', w1, w2, w3, w4⟩ := h1.copyIn h2 hn2
          rw [v2] at w1; cases w1
          obtain ⟨it1', o1', u1, u2, u3⟩ := w4.next
          obtain ⟨r3, F, m, g1, g2⟩ := ih ⟨u2.weaken (fun _ => trivial), n2, u3, n3, by omega, by omega⟩ (by omega)
          refine ⟨r3, F, m, by rw [w3, ok_bind, u1, ok_bind, n1, ok_bind]; exact g1, Fin.step (by omega) (fun k hk hx => upd_num _ (by omega)) (fun k hk hx hy => ?_) g2⟩
          by_cases he : keyNum k = keyNum k2
          · rw [key_inj hk hk2 he, upd_same, hn2, xorAt_none, w2]
          · rw [upd_num _ he, f1.gap hk (by omega) (by omega), xorAt_none, f2.gap hk hx (by omega)]

theorem andnotInplace_loop (E : Reuse) {r2 : R64M} {L1 L2 : ArtRef → Prop} {C2 : Conts} (n : Nat) : ∀ {r1 : R64M} {D : Conts} {it1 it2 : HIt}
    {o1 o2 : Option (List Nat)} {X Y : Nat}, Two r1 r2 L1 L2 D C2 it1 it2 o1 o2 X Y → 2 * P48 < n + X + Y →
    ∃ r' F m, R64M.andnotInplaceLoop E r2 n r1 it1 it2 = .ok r' ∧ St r' L1 F m (Fin (fun _ => andnotAt containerIandnot) D C2 X) := by
  induction n with
  | zero => intro r1 D it1 it2 o1 o2 X Y h hn; have := h.le; have := h.top; omega
  | succ n ih =>
    intro r1 D it1 it2 o1 o2 X Y h hn
    obtain ⟨h1, h2, f1, f2, hle, htop⟩ := h
    unfold R64M.andnotInplaceLoop
    have step1 : ∀ k1 o2, Cs r1 L1 D False it1 (some k1) → From D Y (some k1) → Cs r2 L2 C2 True it2 o2 → From C2 X o2 → (∀ k2, o2 = some k2 → keyNum k1 < keyNum k2) →
        ∃ r' F m, (do
          let it1 ← r1.art.itNext it1
          R64M.andnotInplaceLoop E r2 n r1 it1 it2) = .ok r' ∧ St r' L1 F m (Fin (fun _ => andnotAt containerIandnot) D C2 X) := by
      intro k1 o2 h1 f1 h2 f2 hlt
      obtain ⟨hk1, y1, top1⟩ := f1.isKey
      obtain ⟨it', o, q1, q2, q3⟩ := h1.next
      have hc2 : ∀ k, IsKey k → X ≤ keyNum k → keyNum k ≤ keyNum k1 → C2 k = none := by
        intro k hk hx hy
        cases o2 with
        | none => exact f2.off hk hx
        | some k2 => exact f2.gap hk hx (by have := hlt k2 rfl; omega)
      have f2' : From C2 (max X (keyNum k1 + 1)) o2 := by
        cases o2 with
        | none => exact f2.upNone (by omega)
        | some k2 => have := hlt k2 rfl; have := f2.isKey; exact f2.up (by omega) (by omega)
      obtain ⟨r3, F, m, g1, g2⟩ := ih ⟨q2.weaken (fun _ => trivial), h2, q3, f2', by omega, by omega⟩ (by omega)
      refine ⟨r3, F, m, by rw [q1]; exact g1, Fin.step (by omega) (fun _ _ _ => rfl) (fun k hk hx hy => ?_) g2⟩
      rw [hc2 k hk hx (by omega), andnotAt_none']
    cases o1 with
    | none =>
      simp only [h1.ended]
      obtain ⟨F, m, hs⟩ := Fin.stop (G := fun _ => andnotAt containerIandnot) (D := D) (C2 := C2) (X := X)
        (fun k hk hx => by rw [f1.off hk (by omega), andnotAt_none]) h1
      exact ⟨r1, F, m, rfl, hs⟩
    | some k1 =>
      obtain ⟨hk1, y1, top1⟩ := f1.isKey
      obtain ⟨-, p1, l1, a1, c1, v1, e1, d1, -⟩ := h1.key
      cases o2 with
      | none =>
        simp only [v1, h2.ended]
        exact step1 k1 none h1 f1 h2 f2 (fun _ h => by cases h)
      | some k2 =>
        obtain ⟨hk2, x2, top2⟩ := f2.isKey
        obtain ⟨-, p2, l2, a2, c2, v2, e2, d2, -⟩ := h2.key
        simp only [v1, v2, e1, e2]
        rcases cmp3 hk1 hk2 with ⟨c, rfl⟩ | ⟨c, c', hlt⟩ | ⟨c, c', hlt⟩
        · simp only [if_pos c]
          obtain ⟨p1', p2', c1', c2', r', it', o, w1, w2, w3, w4, w5, w6, w7⟩ := h1.combine h2 containerIandnot (E k1).1
          rw [v1] at w1; rw [v2] at w2
          cases w1; cases w2
          obtain ⟨it2', o2', n1, n2, n3⟩ := h2.next
          obtain ⟨r3, F, m, g1, g2⟩ := ih ⟨w6, n2, w7, n3, by omega, by omega⟩ (by omega)
          refine ⟨r3, F, m, by rw [w5, ok_bind, n1, ok_bind]; exact g1, Fin.step (by omega) (fun k hk hx => upd_num _ (by omega)) (fun k hk hx hy => ?_) g2⟩
          by_cases he : keyNum k = keyNum k1
          · rw [key_inj hk hk1 he, upd_same, w3, w4]; rfl
          · rw [upd_num _ he, f1.gap hk (by omega) (by omega), andnotAt_none]
        · simp only [if_neg c, if_pos c']
          exact step1 k1 (some k2) h1 f1 h2 f2 (fun k e => by cases e; exact hlt)
        · simp only [if_neg c, if_neg c']
          obtain ⟨it2', o2', n1, n2, n3⟩ := h2.next
          obtain ⟨r3, F, m, g1, g2⟩ := ih ⟨h1, n2, f1, n3, by omega, by omega⟩ (by omega)
          refine ⟨r3, F, m, by rw [n1, ok_bind]; exact g1, Fin.step (by omega) (fun _ _ _ => rfl) (fun k hk hx hy => ?_) g2⟩
          rw [f1.gap hk (by omega) (by omega), andnotAt_none]

end CRoaring
