import Verif.Lemmas.Store64Ops2
/-
The loops of the set operations of 64-bit bitmaps in memory that make a new bitmap, and of the comparisons.
-/
set_option linter.unusedSimpArgs false
set_option linter.unusedVariables false
namespace CRoaring
open Spec

/-- Two iterators have passed the keys before `X`. -/
structure Pair (r1 r2 : R64M) (L1 L2 : ArtRef → Prop) (C1 C2 : Conts) (it1 it2 : HIt) (o1 o2 : Option (List Nat)) (X : Nat) : Prop where
  one : Cs r1 L1 C1 True it1 o1
  two : Cs r2 L2 C2 True it2 o2
  from1 : From C1 X o1
  from2 : From C2 X o2
  top : X ≤ P48

/-- The containers of the result at the end, when the keys before `X` are done. -/
def Res (G : Option Container → Option Container → Option Container) (C1 C2 D : Conts) (X : Nat) : Conts :=
  fun k => if keyNum k < X then D k else G (C1 k) (C2 k)

/-- The result has no containers from `X` on. -/
def Clean (result : R64M) (L : ArtRef → Prop) (D : Conts) (X : Nat) : Prop := (∃ F m, St result L F m D) ∧ ∀ k, IsKey k → X ≤ keyNum k → D k = none

theorem Res.step {G : Option Container → Option Container → Option Container} {C1 C2 D D1 : Conts} {X X1 : Nat} (hX : X ≤ X1)
    (same : ∀ k, IsKey k → keyNum k < X → D1 k = D k)
    (mid : ∀ k, IsKey k → X ≤ keyNum k → keyNum k < X1 → D1 k = G (C1 k) (C2 k)) {r : R64M} {L F : ArtRef → Prop} {m : List Nat → Option Nat}
    (h : St r L F m (Res G C1 C2 D1 X1)) : St r L F m (Res G C1 C2 D X) := by
  refine h.congr fun k hk => ?_
  unfold Res
  by_cases h1 : keyNum k < X
  · rw [if_pos h1, if_pos (by omega), same k hk h1]
  · rw [if_neg h1]
    by_cases h2 : keyNum k < X1
    · rw [if_pos h2, mid k hk (by omega) h2]
    · rw [if_neg h2]

theorem Res.stop {G : Option Container → Option Container → Option Container} {C1 C2 D : Conts} {X : Nat} {result : R64M} {L : ArtRef → Prop}
    (h : Clean result L D X) (hg : ∀ k, IsKey k → X ≤ keyNum k → G (C1 k) (C2 k) = none) : ∃ F m, St result L F m (Res G C1 C2 D X) := by
  obtain ⟨⟨F, m, hs⟩, hc⟩ := h
  refine ⟨F, m, hs.congr fun k hk => ?_⟩
  unfold Res
  split
  · rfl
  · rw [hg k hk (by omega), hc k hk (by omega)]

theorem Clean.up {result : R64M} {L : ArtRef → Prop} {D : Conts} {X X1 : Nat} (h : Clean result L D X) (hx : X ≤ X1) : Clean result L D X1 :=
  ⟨h.1, fun k hk hx' => h.2 k hk (by omega)⟩

theorem Clean.upd {r1 : R64M} {L F : ArtRef → Prop} {m : List Nat → Option Nat} {D : Conts} {X : Nat} {k : List Nat} {v : Option Container}
    (h1 : ∀ k, IsKey k → X ≤ keyNum k → D k = none) (hs : St r1 L F m (updKey D k v)) (hx : X ≤ keyNum k) : Clean r1 L (updKey D k v) (keyNum k + 1) :=
  ⟨⟨F, m, hs⟩, fun k' hk' hx' => by rw [upd_num _ (by omega)]; exact h1 k' hk' (by omega)⟩

theorem From.rest {C : Conts} {X : Nat} {o : Option (List Nat)} {j : Nat} (h : From C X o) (hlt : ∀ k, o = some k → j < keyNum k) :
    (∀ k, IsKey k → X ≤ keyNum k → keyNum k ≤ j → C k = none) ∧ (X ≤ j → From C (j + 1) o) := by
  cases o with
  | none => exact ⟨fun k hk hx _ => h.off hk hx, fun hx => h.upNone (by omega)⟩
  | some k1 =>
    have := hlt k1 rfl
    exact ⟨fun k hk hx hy => h.gap hk hx (by omega), fun hx => h.up (by omega) (by omega)⟩

theorem andNew_loop {r1 r2 : R64M} {L1 L2 L : ArtRef → Prop} {C1 C2 : Conts} (n : Nat) : ∀ {result : R64M} {D : Conts} {it1 it2 : HIt}
    {o1 o2 : Option (List Nat)} {X : Nat}, Pair r1 r2 L1 L2 C1 C2 it1 it2 o1 o2 X → Clean result L D X → P48 < n + X →
    ∃ r' F m, R64M.andLoop r1 r2 n it1 it2 result = .ok r' ∧ St r' L F m (Res (andAt containerAnd) C1 C2 D X) := by
  induction n with
  | zero => intro result D it1 it2 o1 o2 X h hd hn; have := h.top; omega
  | succ n ih =>
    intro result D it1 it2 o1 o2 X h hd hn
    obtain ⟨h1, h2, f1, f2, htop⟩ := h
    unfold R64M.andLoop
    cases o1 with
    | none =>
      simp only [h1.ended]
      obtain ⟨F, m, hs⟩ := Res.stop (G := andAt containerAnd) (C1 := C1) (C2 := C2) hd
        (fun k hk hx => by rw [f1.off hk hx, andAt_none])
      exact ⟨result, F, m, rfl, hs⟩
    | some k1 =>
      obtain ⟨hk1, x1, top1⟩ := f1.isKey
      obtain ⟨-, p1, l1, a1, c1, v1, e1, d1, look1⟩ := h1.key
      cases o2 with
      | none =>
        simp only [v1, h2.ended, e1]
        obtain ⟨F, m, hs⟩ := Res.stop (G := andAt containerAnd) (C1 := C1) (C2 := C2) hd
          (fun k hk hx => by rw [f2.off hk hx, andAt_none'])
        exact ⟨result, F, m, rfl, hs⟩
      | some k2 =>
        obtain ⟨hk2, x2, top2⟩ := f2.isKey
        obtain ⟨-, p2, l2, a2, c2, v2, e2, d2, look2⟩ := h2.key
        simp only [v1, v2, e1, e2]
        rcases cmp3 hk1 hk2 with ⟨c, rfl⟩ | ⟨c, c', hlt⟩ | ⟨c, c', hlt⟩
        · simp only [if_pos c]
          obtain ⟨⟨F0, m0, hs⟩, hcl⟩ := hd
          obtain ⟨r', F', m', w1, w2⟩ := addResult_ok hk1 hs (hcl k1 hk1 x1) (containerAnd c1 c2)
          obtain ⟨it1', o1', n1, n2, n3⟩ := h1.next
          obtain ⟨it2', o2', n4, n5, n6⟩ := h2.next
          obtain ⟨r3, F, m, g1, g2⟩ := ih ⟨n2, n5, n3, n6, by omega⟩ (Clean.upd hcl w2 x1) (by omega)
          refine ⟨r3, F, m, by rw [look1, ok_bind, look2, ok_bind, w1, ok_bind, n1, ok_bind, n4, ok_bind]; exact g1, Res.step (by omega) (fun k hk hx => upd_num _ (by omega)) (fun k hk hx hy => ?_) g2⟩
          by_cases he : keyNum k = keyNum k1
          · rw [key_inj hk hk1 he, upd_same, d1, d2]; rfl
          · rw [upd_num _ he, hcl k hk hx, f1.gap hk hx (by omega), f2.gap hk hx (by omega), andAt_none]
        · simp only [if_neg c, if_pos c']
          obtain ⟨it', o', n1, n2, n3⟩ := h1.seek hk2
          obtain ⟨r3, F, m, g1, g2⟩ := ih ⟨n2, h2, n3, f2.up (by omega) (Nat.le_refl _), by omega⟩ (hd.up (by omega)) (by omega)
          refine ⟨r3, F, m, by rw [n1, ok_bind]; exact g1, Res.step (by omega) (fun k hk hx => rfl) (fun k hk hx hy => ?_) g2⟩
          rw [hd.2 k hk hx, f2.gap hk hx hy, andAt_none']
        · simp only [if_neg c, if_neg c']
          obtain ⟨it', o', n1, n2, n3⟩ := h2.seek hk1
          obtain ⟨r3, F, m, g1, g2⟩ := ih ⟨h1, n2, f1.up (by omega) (Nat.le_refl _), n3, by omega⟩ (hd.up (by omega)) (by omega)
          refine ⟨r3, F, m, by rw [n1, ok_bind]; exact g1, Res.step (by omega) (fun k hk hx => rfl) (fun k hk hx hy => ?_) g2⟩
          rw [hd.2 k hk hx, f1.gap hk hx hy, andAt_none]

theorem orNew_loop {r1 r2 : R64M} {L1 L2 L : ArtRef → Prop} {C1 C2 : Conts} (n : Nat) : ∀ {result : R64M} {D : Conts} {it1 it2 : HIt}
    {o1 o2 : Option (List Nat)} {X : Nat}, Pair r1 r2 L1 L2 C1 C2 it1 it2 o1 o2 X → Clean result L D X → P48 < n + X →
    ∃ r' F m, R64M.orLoop r1 r2 n it1 it2 result = .ok r' ∧ St r' L F m (Res (orAt containerOr) C1 C2 D X) := by
  induction n with
  | zero => intro result D it1 it2 o1 o2 X h hd hn; have := h.top; omega
  | succ n ih =>
    intro result D it1 it2 o1 o2 X h hd hn
    obtain ⟨h1, h2, f1, f2, htop⟩ := h
    unfold R64M.orLoop
    have copy1 : ∀ k1 o2, Cs r1 L1 C1 True it1 (some k1) → From C1 X (some k1) → Cs r2 L2 C2 True it2 o2 → From C2 X o2 → (∀ k, o2 = some k → keyNum k1 < keyNum k) →
        ∀ p1, it1.value = some p1 → ∃ r' F m, (do
          let result ← r1.copyTo result k1 p1
          let it1 ← r1.art.itNext it1
          R64M.orLoop r1 r2 n it1 it2 result) = .ok r' ∧ St r' L F m (Res (orAt containerOr) C1 C2 D X) := by
      intro k1 o2 h1 f1 h2 f2 hlt p1 v1
      obtain ⟨hk1, x1, top1⟩ := f1.isKey
      have hr := f2.rest hlt
      obtain ⟨⟨F0, m0, hs⟩, hcl⟩ := hd
      have hd : Clean result L D X := ⟨⟨F0, m0, hs⟩, hcl⟩
      obtain ⟨p', c', r', F', m', w1, w2, w3, w4⟩ := h1.copyTo hs (hcl k1 hk1 x1)
      rw [v1] at w1; cases w1
      obtain ⟨it', o, q1, q2, q3⟩ := h1.next
      obtain ⟨r3, F, m, g1, g2⟩ := ih ⟨q2, h2, q3, hr.2 x1, by omega⟩ (Clean.upd hcl w4 x1) (by omega)
      refine ⟨r3, F, m, by rw [w3, ok_bind, q1, ok_bind]; exact g1, Res.step (by omega) (fun k hk hx => upd_num _ (by omega)) (fun k hk hx hy => ?_) g2⟩
      by_cases he : keyNum k = keyNum k1
      · rw [key_inj hk hk1 he, upd_same, (hr.1 k1 hk1 x1 (Nat.le_refl _)), w2, orAt_none']
      · rw [upd_num _ he, hd.2 k hk hx, f1.gap hk hx (by omega), (hr.1 k hk hx (by omega)), orAt_none]
    have copy2 : ∀ k2 o1, Cs r2 L2 C2 True it2 (some k2) → From C2 X (some k2) → Cs r1 L1 C1 True it1 o1 → From C1 X o1 → (∀ k, o1 = some k → keyNum k2 < keyNum k) →
        ∀ p2, it2.value = some p2 → ∃ r' F m, (do
          let result ← r2.copyTo result k2 p2
          let it2 ← r2.art.itNext it2
          R64M.orLoop r1 r2 n it1 it2 result) = .ok r' ∧ St r' L F m (Res (orAt containerOr) C1 C2 D X) := by
      intro k2 o1 h2 f2 h1 f1 hlt p2 v2
      obtain ⟨hk2, x2, top2⟩ := f2.isKey
      have hr := f1.rest hlt
      obtain ⟨⟨F0, m0, hs⟩, hcl⟩ := hd
      have hd : Clean result L D X := ⟨⟨F0, m0, hs⟩, hcl⟩
      obtain ⟨p', c', r', F', m', w1, w2, w3, w4⟩ := h2.copyTo hs (hcl k2 hk2 x2)
      rw [v2] at w1; cases w1
      obtain ⟨it', o, q1, q2, q3⟩ := h2.next
      obtain ⟨r3, F, m, g1, g2⟩ := ih ⟨h1, q2, hr.2 x2, q3, by omega⟩ (Clean.upd hcl w4 x2) (by omega)
      refine ⟨r3, F, m, by rw [w3, ok_bind, q1, ok_bind]; exact g1, Res.step (by omega) (fun k hk hx => upd_num _ (by omega)) (fun k hk hx hy => ?_) g2⟩
      by_cases he : keyNum k = keyNum k2
      · rw [key_inj hk hk2 he, upd_same, (hr.1 k2 hk2 x2 (Nat.le_refl _)), w2, orAt_none]
      · rw [upd_num _ he, hd.2 k hk hx, f2.gap hk hx (by omega), (hr.1 k hk hx (by omega)), orAt_none]
    cases o1 with
    | none =>
      cases o2 with
      | none =>
        simp only [h1.ended, h2.ended]
        obtain ⟨F, m, hs⟩ := Res.stop (G := orAt containerOr) (C1 := C1) (C2 := C2) hd
          (fun k hk hx => by rw [f1.off hk hx, f2.off hk hx, orAt_none])
        exact ⟨result, F, m, rfl, hs⟩
      | some k2 =>
        obtain ⟨-, p2, l2, a2, c2, v2, e2, d2, -⟩ := h2.key
        simp only [h1.ended, v2, e2]
        exact copy2 k2 none h2 f2 h1 f1 (fun _ h => by cases h) p2 v2
    | some k1 =>
      obtain ⟨hk1, x1, top1⟩ := f1.isKey
      obtain ⟨-, p1, l1, a1, c1, v1, e1, d1, look1⟩ := h1.key
      cases o2 with
      | none =>
        simp only [v1, h2.ended, e1]
        exact copy1 k1 none h1 f1 h2 f2 (fun _ h => by cases h) p1 v1
      | some k2 =>
        obtain ⟨hk2, x2, top2⟩ := f2.isKey
        obtain ⟨-, p2, l2, a2, c2, v2, e2, d2, look2⟩ := h2.key
        simp only [v1, v2, e1, e2]
        rcases cmp3 hk1 hk2 with ⟨c, rfl⟩ | ⟨c, c', hlt⟩ | ⟨c, c', hlt⟩
        · simp only [if_pos c]
          obtain ⟨⟨F0, m0, hs⟩, hcl⟩ := hd
          obtain ⟨r', p', F', m', w1, w2, -⟩ := hs.put_ok hk1 ((slots_none hs.slots hk1).1 (hcl k1 hk1 x1)) (containerOr c1 c2)
          obtain ⟨it1', o1', n1, n2, n3⟩ := h1.next
          obtain ⟨it2', o2', n4, n5, n6⟩ := h2.next
          obtain ⟨r3, F, m, g1, g2⟩ := ih ⟨n2, n5, n3, n6, by omega⟩ (Clean.upd hcl w2 x1) (by omega)
          refine ⟨r3, F, m, by rw [look1, ok_bind, look2, ok_bind, w1, ok_bind, n1, ok_bind, n4, ok_bind]; exact g1, Res.step (by omega) (fun k hk hx => upd_num _ (by omega)) (fun k hk hx hy => ?_) g2⟩
          by_cases he : keyNum k = keyNum k1
          · rw [key_inj hk hk1 he, upd_same, d1, d2]; rfl
          · rw [upd_num _ he, hcl k hk hx, f1.gap hk hx (by omega), f2.gap hk hx (by omega), orAt_none]
        · simp only [if_neg c, if_pos c']
          exact copy1 k1 (some k2) h1 f1 h2 f2 (fun k e => by cases e; exact hlt) p1 v1
        · simp only [if_neg c, if_neg c']
          exact copy2 k2 (some k1) h2 f2 h1 f1 (fun k e => by cases e; exact hlt) p2 v2

theorem xorNew_loop {r1 r2 : R64M} {L1 L2 L : ArtRef → Prop} {C1 C2 : Conts} (n : Nat) : ∀ {result : R64M} {D : Conts} {it1 it2 : HIt}
    {o1 o2 : Option (List Nat)} {X : Nat}, Pair r1 r2 L1 L2 C1 C2 it1 it2 o1 o2 X → Clean result L D X → P48 < n + X →
    ∃ r' F m, R64M.xorLoop r1 r2 n it1 it2 result = .ok r' ∧ St r' L F m (Res (xorAt containerXor) C1 C2 D X) := by
  induction n with
  | zero => intro result D it1 it2 o1 o2 X h hd hn; have := h.top; omega
  | succ n ih =>
    intro result D it1 it2 o1 o2 X h hd hn
    obtain ⟨h1, h2, f1, f2, htop⟩ := h
    unfold R64M.xorLoop
    have copy1 : ∀ k1 o2, Cs r1 L1 C1 True it1 (some k1) → From C1 X (some k1) → Cs r2 L2 C2 True it2 o2 → From C2 X o2 → (∀ k, o2 = some k → keyNum k1 < keyNum k) →
        ∀ p1, it1.value = some p1 → ∃ r' F m, (do
          let result ← r1.copyTo result k1 p1
          let it1 ← r1.art.itNext it1
          R64M.xorLoop r1 r2 n it1 it2 result) = .ok r' ∧ St r' L F m (Res (xorAt containerXor) C1 C2 D X) := by
      intro k1 o2 h1 f1 h2 f2 hlt p1 v1
      obtain ⟨hk1, x1, top1⟩ := f1.isKey
      have hr := f2.rest hlt
      obtain ⟨⟨F0, m0, hs⟩, hcl⟩ := hd
      have hd : Clean result L D X := ⟨⟨F0, m0, hs⟩, hcl⟩
      obtain ⟨p', c', r', F', m', w1, w2, w3, w4⟩ := h1.copyTo hs (hcl k1 hk1 x1)
      rw [v1] at w1; cases w1
      obtain ⟨it', o, q1, q2, q3⟩ := h1.next
      obtain ⟨r3, F, m, g1, g2⟩ := ih ⟨q2, h2, q3, hr.2 x1, by omega⟩ (Clean.upd hcl w4 x1) (by omega)
      refine ⟨r3, F, m, by rw [w3, ok_bind, q1, ok_bind]; exact g1, Res.step (by omega) (fun k hk hx => upd_num _ (by omega)) (fun k hk hx hy => ?_) g2⟩
      by_cases he : keyNum k = keyNum k1
      · rw [key_inj hk hk1 he, upd_same, (hr.1 k1 hk1 x1 (Nat.le_refl _)), w2, xorAt_none']
      · rw [upd_num _ he, hd.2 k hk hx, f1.gap hk hx (by omega), (hr.1 k hk hx (by omega)), xorAt_none]
    have copy2 : ∀ k2 o1, Cs r2 L2 C2 True it2 (some k2) → From C2 X (some k2) → Cs r1 L1 C1 True it1 o1 → From C1 X o1 → (∀ k, o1 = some k → keyNum k2 < keyNum k) →
        ∀ p2, it2.value = some p2 → ∃ r' F m, (do
          let result ← r2.copyTo result k2 p2
          let it2 ← r2.art.itNext it2
          R64M.xorLoop r1 r2 n it1 it2 result) = .ok r' ∧ St r' L F m (Res (xorAt containerXor) C1 C2 D X) := by
      intro k2 o1 h2 f2 h1 f1 hlt p2 v2
      obtain ⟨hk2, x2, top2⟩ := f2.isKey
      have hr := f1.rest hlt
      obtain ⟨⟨F0, m0, hs⟩, hcl⟩ := hd
      have hd : Clean result L D X := ⟨⟨F0, m0, hs⟩, hcl⟩
      obtain ⟨p', c', r', F', m', w1, w2, w3, w4⟩ := h2.copyTo hs (hcl k2 hk2 x2)
      rw [v2] at w1; cases w1
      obtain ⟨it', o, q1, q2, q3⟩ := h2.next
      obtain ⟨r3, F, m, g1, g2⟩ := ih ⟨h1, q2, hr.2 x2, q3, by omega⟩ (Clean.upd hcl w4 x2) (by omega)
      refine ⟨r3, F, m, by rw [w3, ok_bind, q1, ok_bind]; exact g1, Res.step (by omega) (fun k hk hx => upd_num _ (by omega)) (fun k hk hx hy => ?_) g2⟩
      by_cases he : keyNum k = keyNum k2
      · rw [key_inj hk hk2 he, upd_same, (hr.1 k2 hk2 x2 (Nat.le_refl _)), w2, xorAt_none]
      · rw [upd_num _ he, hd.2 k hk hx, f2.gap hk hx (by omega), (hr.1 k hk hx (by omega)), xorAt_none]
    cases o1 with
    | none =>
      cases o2 with
      | none =>
        simp only [h1.ended, h2.ended]
        obtain ⟨F, m, hs⟩ := Res.stop (G := xorAt containerXor) (C1 := C1) (C2 := C2) hd
          (fun k hk hx => by rw [f1.off hk hx, f2.off hk hx, xorAt_none])
        exact ⟨result, F, m, rfl, hs⟩
      | some k2 =>
        obtain ⟨-, p2, l2, a2, c2, v2, e2, d2, -⟩ := h2.key
        simp only [h1.ended, v2, e2]
        exact copy2 k2 none h2 f2 h1 f1 (fun _ h => by cases h) p2 v2
    | some k1 =>
      obtain ⟨hk1, x1, top1⟩ := f1.isKey
      obtain ⟨-, p1, l1, a1, c1, v1, e1, d1, look1⟩ := h1.key
      cases o2 with
      | none =>
        simp only [v1, h2.ended, e1]
        exact copy1 k1 none h1 f1 h2 f2 (fun _ h => by cases h) p1 v1
      | some k2 =>
        obtain ⟨hk2, x2, top2⟩ := f2.isKey
        obtain ⟨-, p2, l2, a2, c2, v2, e2, d2, look2⟩ := h2.key
        simp only [v1, v2, e1, e2]
        rcases cmp3 hk1 hk2 with ⟨c, rfl⟩ | ⟨c, c', hlt⟩ | ⟨c, c', hlt⟩
        · simp only [if_pos c]
          obtain ⟨⟨F0, m0, hs⟩, hcl⟩ := hd
          obtain ⟨r', F', m', w1, w2⟩ := addResult_ok hk1 hs (hcl k1 hk1 x1) (containerXor c1 c2)
          obtain ⟨it1', o1', n1, n2, n3⟩ := h1.next
          obtain ⟨it2', o2', n4, n5, n6⟩ := h2.next
          obtain ⟨r3, F, m, g1, g2⟩ := ih ⟨n2, n5, n3, n6, by omega⟩ (Clean.upd hcl w2 x1) (by omega)
          refine ⟨r3, F, m, by rw [look1, ok_bind, look2, ok_bind, w1, ok_bind, n1, ok_bind, n4, ok_bind]; exact g1, Res.step (by omega) (fun k hk hx => upd_num _ (by omega)) (fun k hk hx hy => ?_) g2⟩
          by_cases he : keyNum k = keyNum k1
          · rw [key_inj hk hk1 he, upd_same, d1, d2]; rfl
          · rw [upd_num _ he, hcl k hk hx, f1.gap hk hx (by omega), f2.gap hk hx (by omega), xorAt_none]
        · simp only [if_neg c, if_pos c']
          exact copy1 k1 (some k2) h1 f1 h2 f2 (fun k e => by cases e; exact hlt) p1 v1
        · simp only [if_neg c, if_neg c']
          exact copy2 k2 (some k1) h2 f2 h1 f1 (fun k e => by cases e; exact hlt) p2 v2

theorem andnotNew_loop {r1 r2 : R64M} {L1 L2 L : ArtRef → Prop} {C1 C2 : Conts} (n : Nat) : ∀ {result : R64M} {D : Conts} {it1 it2 : HIt}
    {o1 o2 : Option (List Nat)} {X : Nat}, Pair r1 r2 L1 L2 C1 C2 it1 it2 o1 o2 X → Clean result L D X → P48 < n + X →
    ∃ r' F m, R64M.andnotLoop r1 r2 n it1 it2 result = .ok r' ∧ St r' L F m (Res (andnotAt containerAndnot) C1 C2 D X) := by
  induction n with
  | zero => intro result D it1 it2 o1 o2 X h hd hn; have := h.top; omega
  | succ n ih =>
    intro result D it1 it2 o1 o2 X h hd hn
    obtain ⟨h1, h2, f1, f2, htop⟩ := h
    unfold R64M.andnotLoop
    have copy1 : ∀ k1 o2, Cs r1 L1 C1 True it1 (some k1) → From C1 X (some k1) → Cs r2 L2 C2 True it2 o2 → From C2 X o2 → (∀ k, o2 = some k → keyNum k1 < keyNum k) →
        ∀ p1, it1.value = some p1 → ∃ r' F m, (do
          let result ← r1.copyTo result k1 p1
          let it1 ← r1.art.itNext it1
          R64M.andnotLoop r1 r2 n it1 it2 result) = .ok r' ∧ St r' L F m (Res (andnotAt containerAndnot) C1 C2 D X) := by
      intro k1 o2 h1 f1 h2 f2 hlt p1 v1
      obtain ⟨hk1, x1, top1⟩ := f1.isKey
      have hr := f2.rest hlt
      obtain ⟨⟨F0, m0, hs⟩, hcl⟩ := hd
      have hd : Clean result L D X := ⟨⟨F0, m0, hs⟩, hcl⟩
      obtain ⟨p', c', r', F', m', w1, w2, w3, w4⟩ := h1.copyTo hs (hcl k1 hk1 x1)
      rw [v1] at w1; cases w1
      obtain ⟨it', o, q1, q2, q3⟩ := h1.next
      obtain ⟨r3, F, m, g1, g2⟩ := ih ⟨q2, h2, q3, hr.2 x1, by omega⟩ (Clean.upd hcl w4 x1) (by omega)
      refine ⟨r3, F, m, by rw [w3, ok_bind, q1, ok_bind]; exact g1, Res.step (by omega) (fun k hk hx => upd_num _ (by omega)) (fun k hk hx hy => ?_) g2⟩
      by_cases he : keyNum k = keyNum k1
      · rw [key_inj hk hk1 he, upd_same, (hr.1 k1 hk1 x1 (Nat.le_refl _)), w2, andnotAt_none']
      · rw [upd_num _ he, hd.2 k hk hx, f1.gap hk hx (by omega), (hr.1 k hk hx (by omega)), andnotAt_none]
    cases o1 with
    | none =>
      simp only [h1.ended]
      obtain ⟨F, m, hs⟩ := Res.stop (G := andnotAt containerAndnot) (C1 := C1) (C2 := C2) hd
        (fun k hk hx => by rw [f1.off hk hx, andnotAt_none])
      exact ⟨result, F, m, rfl, hs⟩
    | some k1 =>
      obtain ⟨hk1, x1, top1⟩ := f1.isKey
      obtain ⟨-, p1, l1, a1, c1, v1, e1, d1, look1⟩ := h1.key
      cases o2 with
      | none =>
        simp only [v1, h2.ended, e1]
        exact copy1 k1 none h1 f1 h2 f2 (fun _ h => by cases h) p1 v1
      | some k2 =>
        obtain ⟨hk2, x2, top2⟩ := f2.isKey
        obtain ⟨-, p2, l2, a2, c2, v2, e2, d2, look2⟩ := h2.key
        simp only [v1, v2, e1, e2]
        rcases cmp3 hk1 hk2 with ⟨c, rfl⟩ | ⟨c, c', hlt⟩ | ⟨c, c', hlt⟩
        · simp only [if_pos c]
          obtain ⟨⟨F0, m0, hs⟩, hcl⟩ := hd
          obtain ⟨r', F', m', w1, w2⟩ := addResult_ok hk1 hs (hcl k1 hk1 x1) (containerAndnot c1 c2)
          obtain ⟨it1', o1', n1, n2, n3⟩ := h1.next
          obtain ⟨it2', o2', n4, n5, n6⟩ := h2.next
          obtain ⟨r3, F, m, g1, g2⟩ := ih ⟨n2, n5, n3, n6, by omega⟩ (Clean.upd hcl w2 x1) (by omega)
          refine ⟨r3, F, m, by rw [look1, ok_bind, look2, ok_bind, w1, ok_bind, n1, ok_bind, n4, ok_bind]; exact g1, Res.step (by omega) (fun k hk hx => upd_num _ (by omega)) (fun k hk hx hy => ?_) g2⟩
          by_cases he : keyNum k = keyNum k1
          · rw [key_inj hk hk1 he, upd_same, d1, d2]; rfl
          · rw [upd_num _ he, hcl k hk hx, f1.gap hk hx (by omega), f2.gap hk hx (by omega), andnotAt_none]
        · simp only [if_neg c, if_pos c']
          exact copy1 k1 (some k2) h1 f1 h2 f2 (fun k e => by cases e; exact hlt) p1 v1
        · simp only [if_neg c, if_neg c']
          obtain ⟨it', o', n1, n2, n3⟩ := h2.next
          obtain ⟨r3, F, m, g1, g2⟩ := ih ⟨h1, n2, f1.up (by omega) (by omega), n3, by omega⟩ (hd.up (by omega)) (by omega)
          refine ⟨r3, F, m, by rw [n1, ok_bind]; exact g1, Res.step (by omega) (fun k hk hx => rfl) (fun k hk hx hy => ?_) g2⟩
          rw [hd.2 k hk hx, f1.gap hk hx (by omega), andnotAt_none]

/-- What a comparison of the containers of a key says. -/
def eqAt : Option Container → Option Container → Prop
  | some a, some b => containerEquals a b = true
  | none, none => True
  | _, _ => False

def subAt : Option Container → Option Container → Prop
  | some a, some b => containerIsSubset a b = true
  | none, _ => True
  | _, _ => False

def meetAt : Option Container → Option Container → Prop
  | some a, some b => containerIntersect a b = true
  | _, _ => False

/-- A relation between the containers holds from `X` on. -/
def AllFrom (P : Option Container → Option Container → Prop) (C1 C2 : Conts) (X : Nat) : Prop := ∀ k, IsKey k → X ≤ keyNum k → P (C1 k) (C2 k)

def AnyFrom (P : Option Container → Option Container → Prop) (C1 C2 : Conts) (X : Nat) : Prop := ∃ k, IsKey k ∧ X ≤ keyNum k ∧ P (C1 k) (C2 k)

theorem AllFrom.up {P : Option Container → Option Container → Prop} {C1 C2 : Conts} {X X1 : Nat} (hx : X ≤ X1)
    (h : ∀ k, IsKey k → X ≤ keyNum k → keyNum k < X1 → P (C1 k) (C2 k)) : AllFrom P C1 C2 X1 ↔ AllFrom P C1 C2 X := by
  constructor
  · intro h1 k hk hx'
    rcases Nat.lt_or_ge (keyNum k) X1 with hl | hl
    · exact h k hk hx' hl
    · exact h1 k hk hl
  · exact fun h1 k hk hx' => h1 k hk (by omega)

theorem AnyFrom.up {P : Option Container → Option Container → Prop} {C1 C2 : Conts} {X X1 : Nat} (hx : X ≤ X1)
    (h : ∀ k, IsKey k → X ≤ keyNum k → keyNum k < X1 → ¬ P (C1 k) (C2 k)) : AnyFrom P C1 C2 X1 ↔ AnyFrom P C1 C2 X := by
  constructor
  · rintro ⟨k, hk, h1, h2⟩
    exact ⟨k, hk, by omega, h2⟩
  · rintro ⟨k, hk, h1, h2⟩
    refine ⟨k, hk, ?_, h2⟩
    rcases Nat.lt_or_ge (keyNum k) X1 with hl | hl
    · exact absurd h2 (h k hk h1 hl)
    · exact hl

theorem equals_loop {r1 r2 : R64M} {L1 L2 : ArtRef → Prop} {C1 C2 : Conts} (n : Nat) : ∀ {it1 it2 : HIt}
    {o1 o2 : Option (List Nat)} {X : Nat}, Pair r1 r2 L1 L2 C1 C2 it1 it2 o1 o2 X → P48 < n + X →
    ∃ b, R64M.equalsLoop r1 r2 n it1 it2 = .ok b ∧ (b = true ↔ AllFrom eqAt C1 C2 X) := by
  induction n with
  | zero => intro it1 it2 o1 o2 X h hn; have := h.top; omega
  | succ n ih =>
    intro it1 it2 o1 o2 X h hn
    obtain ⟨h1, h2, f1, f2, htop⟩ := h
    unfold R64M.equalsLoop
    cases o1 with
    | none =>
      cases o2 with
      | none =>
        simp only [h1.ended, h2.ended]
        exact ⟨true, rfl, fun _ k hk hx => by rw [f1.off hk hx, f2.off hk hx]; trivial, fun _ => rfl⟩
      | some k2 =>
        obtain ⟨hk2, p2, l2, a2, c2, v2, e2, d2, -⟩ := h2.key
        simp only [h1.ended, v2, e2]
        refine ⟨false, rfl, fun h => absurd h (by decide), fun h => ?_⟩
        have := h k2 hk2 f2.isKey.2.1
        rw [f1.off hk2 f2.isKey.2.1, d2] at this
        exact this.elim
    | some k1 =>
      obtain ⟨hk1, x1, top1⟩ := f1.isKey
      obtain ⟨-, p1, l1, a1, c1, v1, e1, d1, look1⟩ := h1.key
      cases o2 with
      | none =>
        simp only [v1, h2.ended, e1]
        refine ⟨false, rfl, fun h => absurd h (by decide), fun h => ?_⟩
        have := h k1 hk1 x1
        rw [d1, f2.off hk1 x1] at this
        exact this.elim
      | some k2 =>
        obtain ⟨hk2, x2, top2⟩ := f2.isKey
        obtain ⟨-, p2, l2, a2, c2, v2, e2, d2, look2⟩ := h2.key
        simp only [v1, v2, e1, e2]
        rcases cmp3 hk1 hk2 with ⟨c, rfl⟩ | ⟨c, c', hlt⟩ | ⟨c, c', hlt⟩
        · rw [if_neg (fun h => h c), look1, ok_bind, look2, ok_bind]
          by_cases he : containerEquals c1 c2 = false
          · simp only [he, if_true]
            refine ⟨false, rfl, fun h => absurd h (by decide), fun h => ?_⟩
            have := h k1 hk1 x1
            rw [d1, d2] at this
            exact absurd (he.symm.trans this) (by decide)
          · simp only [if_neg he]
            obtain ⟨it1', o1', n1, n2, n3⟩ := h1.next
            obtain ⟨it2', o2', n4, n5, n6⟩ := h2.next
            obtain ⟨b, g1, g2⟩ := ih ⟨n2, n5, n3, n6, by omega⟩ (by omega)
            refine ⟨b, by rw [n1, ok_bind, n4, ok_bind]; exact g1, g2.trans (AllFrom.up (by omega) fun k hk hx hy => ?_)⟩
            by_cases hee : keyNum k = keyNum k1
            · rw [key_inj hk hk1 hee, d1, d2]; exact (by simpa using he : containerEquals c1 c2 = true)
            · rw [f1.gap hk hx (by omega), f2.gap hk hx (by omega)]; trivial
        · rw [if_pos c]
          refine ⟨false, rfl, fun h => absurd h (by decide), fun h => ?_⟩
          have := h k1 hk1 x1
          rw [d1, f2.gap hk1 x1 hlt] at this
          exact this.elim
        · rw [if_pos c]
          refine ⟨false, rfl, fun h => absurd h (by decide), fun h => ?_⟩
          have := h k2 hk2 x2
          rw [d2, f1.gap hk2 x2 hlt] at this
          exact this.elim

theorem subset_loop {r1 r2 : R64M} {L1 L2 : ArtRef → Prop} {C1 C2 : Conts} (n : Nat) : ∀ {it1 it2 : HIt}
    {o1 o2 : Option (List Nat)} {X : Nat}, Pair r1 r2 L1 L2 C1 C2 it1 it2 o1 o2 X → P48 < n + X →
    ∃ b, R64M.subsetLoop r1 r2 n it1 it2 = .ok b ∧ (b = true ↔ AllFrom subAt C1 C2 X) := by
  induction n with
  | zero => intro it1 it2 o1 o2 X h hn; have := h.top; omega
  | succ n ih =>
    intro it1 it2 o1 o2 X h hn
    obtain ⟨h1, h2, f1, f2, htop⟩ := h
    unfold R64M.subsetLoop
    cases o1 with
    | none =>
      simp only [h1.ended]
      exact ⟨true, rfl, fun _ k hk hx => by rw [f1.off hk hx]; trivial, fun _ => rfl⟩
    | some k1 =>
      obtain ⟨hk1, x1, top1⟩ := f1.isKey
      obtain ⟨-, p1, l1, a1, c1, v1, e1, d1, look1⟩ := h1.key
      cases o2 with
      | none =>
        simp only [v1, h2.ended, e1]
        refine ⟨false, rfl, fun h => absurd h (by decide), fun h => ?_⟩
        have := h k1 hk1 x1
        rw [d1, f2.off hk1 x1] at this
        exact this.elim
      | some k2 =>
        obtain ⟨hk2, x2, top2⟩ := f2.isKey
        obtain ⟨-, p2, l2, a2, c2, v2, e2, d2, look2⟩ := h2.key
        simp only [v1, v2, e1, e2]
        rcases cmp3 hk1 hk2 with ⟨c, rfl⟩ | ⟨c, c', hlt⟩ | ⟨c, c', hlt⟩
        · rw [if_pos c, look1, ok_bind, look2, ok_bind]
          by_cases he : containerIsSubset c1 c2 = false
          · simp only [he, if_true]
            refine ⟨false, rfl, fun h => absurd h (by decide), fun h => ?_⟩
            have := h k1 hk1 x1
            rw [d1, d2] at this
            exact absurd (he.symm.trans this) (by decide)
          · simp only [if_neg he]
            obtain ⟨it1', o1', n1, n2, n3⟩ := h1.next
            obtain ⟨it2', o2', n4, n5, n6⟩ := h2.next
            obtain ⟨b, g1, g2⟩ := ih ⟨n2, n5, n3, n6, by omega⟩ (by omega)
            refine ⟨b, by rw [n1, ok_bind, n4, ok_bind]; exact g1, g2.trans (AllFrom.up (by omega) fun k hk hx hy => ?_)⟩
            by_cases hee : keyNum k = keyNum k1
            · rw [key_inj hk hk1 hee, d1, d2]; exact (by simpa using he : containerIsSubset c1 c2 = true)
            · rw [f1.gap hk hx (by omega)]; trivial
        · rw [if_neg c, if_pos c']
          refine ⟨false, rfl, fun h => absurd h (by decide), fun h => ?_⟩
          have := h k1 hk1 x1
          rw [d1, f2.gap hk1 x1 hlt] at this
          exact this.elim
        · rw [if_neg c, if_neg c']
          obtain ⟨it', o', n1, n2, n3⟩ := h2.seek hk1
          obtain ⟨b, g1, g2⟩ := ih ⟨h1, n2, f1.up (by omega) (Nat.le_refl _), n3, by omega⟩ (by omega)
          refine ⟨b, by rw [n1, ok_bind]; exact g1, g2.trans (AllFrom.up (by omega) fun k hk hx hy => ?_)⟩
          rw [f1.gap hk hx hy]; trivial

theorem intersect_loop {r1 r2 : R64M} {L1 L2 : ArtRef → Prop} {C1 C2 : Conts} (n : Nat) : ∀ {it1 it2 : HIt}
    {o1 o2 : Option (List Nat)} {X : Nat} {b0 : Bool}, Pair r1 r2 L1 L2 C1 C2 it1 it2 o1 o2 X → P48 < n + X →
    ∃ b, R64M.intersectLoop r1 r2 n it1 it2 b0 = .ok b ∧ (b = true ↔ b0 = true ∨ AnyFrom meetAt C1 C2 X) := by
  induction n with
  | zero => intro it1 it2 o1 o2 X b0 h hn; have := h.top; omega
  | succ n ih =>
    intro it1 it2 o1 o2 X b0 h hn
    obtain ⟨h1, h2, f1, f2, htop⟩ := h
    unfold R64M.intersectLoop
    cases o1 with
    | none =>
      simp only [h1.ended]
      refine ⟨b0, rfl, Or.inl, ?_⟩
      rintro (h | ⟨k, hk, hx, h⟩)
      · exact h
      · rw [f1.off hk hx] at h; exact h.elim
    | some k1 =>
      obtain ⟨hk1, x1, top1⟩ := f1.isKey
      obtain ⟨-, p1, l1, a1, c1, v1, e1, d1, look1⟩ := h1.key
      cases o2 with
      | none =>
        simp only [v1, h2.ended, e1]
        refine ⟨b0, rfl, Or.inl, ?_⟩
        rintro (h | ⟨k, hk, hx, h⟩)
        · exact h
        · rw [f2.off hk hx] at h
          revert h
          cases C1 k <;> exact fun h => h.elim
      | some k2 =>
        obtain ⟨hk2, x2, top2⟩ := f2.isKey
        obtain ⟨-, p2, l2, a2, c2, v2, e2, d2, look2⟩ := h2.key
        simp only [v1, v2, e1, e2]
        rcases cmp3 hk1 hk2 with ⟨c, rfl⟩ | ⟨c, c', hlt⟩ | ⟨c, c', hlt⟩
        · obtain ⟨it1', o1', n1, n2, n3⟩ := h1.next
          obtain ⟨it2', o2', n4, n5, n6⟩ := h2.next
          obtain ⟨b, g1, g2⟩ := ih (b0 := b0 || containerIntersect c1 c2) ⟨n2, n5, n3, n6, by omega⟩ (by omega)
          refine ⟨b, by rw [if_pos c, look1, ok_bind, look2, ok_bind, n1, ok_bind, n4, ok_bind]; exact g1, g2.trans ?_⟩
          have hab : AnyFrom meetAt C1 C2 X ↔ containerIntersect c1 c2 = true ∨ AnyFrom meetAt C1 C2 (keyNum k1 + 1) := by
            constructor
            · rintro ⟨k, hk, hx, h⟩
              rcases Nat.lt_trichotomy (keyNum k) (keyNum k1) with hl | hl | hl
              · rw [f1.gap hk hx hl] at h; exact h.elim
              · rw [key_inj hk hk1 hl, d1, d2] at h; exact Or.inl h
              · exact Or.inr ⟨k, hk, hl, h⟩
            · rintro (h | ⟨k, hk, hx, h⟩)
              · exact ⟨k1, hk1, x1, by rw [d1, d2]; exact h⟩
              · exact ⟨k, hk, by omega, h⟩
          rw [hab, Bool.or_eq_true, or_assoc]
        · rw [if_neg c, if_pos c']
          obtain ⟨it', o', n1, n2, n3⟩ := h1.seek hk2
          obtain ⟨b, g1, g2⟩ := ih (b0 := b0) ⟨n2, h2, n3, f2.up (by omega) (Nat.le_refl _), by omega⟩ (by omega)
          refine ⟨b, by rw [n1, ok_bind]; exact g1, g2.trans (or_congr_right (AnyFrom.up (by omega) fun k hk hx hy h => ?_))⟩
          rw [f2.gap hk hx hy] at h
          revert h
          cases C1 k <;> exact fun h => h.elim
        · rw [if_neg c, if_neg c']
          obtain ⟨it', o', n1, n2, n3⟩ := h2.seek hk1
          obtain ⟨b, g1, g2⟩ := ih (b0 := b0) ⟨h1, n2, f1.up (by omega) (Nat.le_refl _), n3, by omega⟩ (by omega)
          refine ⟨b, by rw [n1, ok_bind]; exact g1, g2.trans (or_congr_right (AnyFrom.up (by omega) fun k hk hx hy h => ?_))⟩
          rw [f1.gap hk hx hy] at h
          exact h.elim

end CRoaring
