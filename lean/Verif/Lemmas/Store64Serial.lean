import Verif.Model.Store64Serial
import Verif.Lemmas.Store64Ask
import Verif.Lemmas.Serial64b
/-
Writing and reading the portable format of 64-bit bitmaps in memory, and bitmaps from ranges and 32-bit bitmaps.
-/
set_option linter.unusedSimpArgs false
set_option linter.unusedVariables false
namespace CRoaring
open Spec

/-! ### Writing -/

section
variable {r : R64M} {L : ArtRef → Prop} {R : R64} (hR : ArtOk R)
include hR

theorem countSame_ok (same : Nat → Bool) : ∀ (n : Nat) {B : Prop} {it : HIt} {ait : AIt} (c : Nat), Bi r L R B it ait → Gas n ait → ∃ c', r.countSame same n it c = .ok c'
  | 0, _, _, _, _, _, hg => absurd hg.1 (by omega)
  | n + 1, B, it, ait, c, h, hg => by
    rcases h.see hR with ⟨e1, e2⟩ | ⟨p, l, a, d, it', e1, e2, e3, e4, e5, e6, e7, e8, e9⟩
    · exact ⟨c, by simp only [R64M.countSame, e1]⟩
    · simp only [R64M.countSame, e1, e7, ok_bind]
      by_cases hs : same (combineKey it.key 0) = true
      · rw [if_pos hs]; exact countSame_ok same n (c + 1) e8 (e9 n hg)
      · rw [if_neg hs]; exact ⟨c, rfl⟩

theorem count32_loop : ∀ (n : Nat) {B : Prop} {it : HIt} {ait : AIt} (c prev : Nat), Bi r L R B it ait → Gas n ait →
    R64M.countHigh32Loop r n it c prev = .ok (CRoaring.countHigh32Loop R n ait c prev)
  | 0, _, _, _, _, _, _, hg => absurd hg.1 (by omega)
  | n + 1, B, it, ait, c, prev, h, hg => by
    rcases h.see hR with ⟨e1, e2⟩ | ⟨p, l, a, d, it', e1, e2, e3, e4, e5, e6, e7, e8, e9⟩
    · simp only [R64M.countHigh32Loop, CRoaring.countHigh32Loop, e1, e2]
    · have ih := fun c prev => count32_loop n c prev e8 (e9 n hg)
      simp only [R64M.countHigh32Loop, CRoaring.countHigh32Loop, e1, e2, e3, e7, ok_bind, ih]
      split <;> rfl

theorem size_loop : ∀ (n : Nat) {B : Prop} {it : HIt} {ait : AIt} (size prev : Nat) (b : Option Bitmap), Bi r L R B it ait → Gas n ait →
    R64M.sizeLoop r n it size prev b = .ok (size64Loop R n ait size prev b)
  | 0, _, _, _, _, _, _, _, hg => absurd hg.1 (by omega)
  | n + 1, B, it, ait, size, prev, b, h, hg => by
    rcases h.see hR with ⟨e1, e2⟩ | ⟨p, l, a, d, it', e1, e2, e3, e4, e5, e6, e7, e8, e9⟩
    · simp only [R64M.sizeLoop, size64Loop, e1, e2]
      cases b <;> rfl
    · have ih := fun size prev b => size_loop n size prev b e8 (e9 n hg)
      obtain ⟨q, hq⟩ := countSame_ok hR (fun k => k / 4294967296 == combineKey ait.key 0 / 4294967296) FUEL 0 h (gas_start hR (X := 0))
      cases b with
      | none => simp only [R64M.sizeLoop, size64Loop, e1, e2, e3, e5, e7, hq, ok_bind, ih]
      | some b =>
        simp only [R64M.sizeLoop, size64Loop, e1, e2, e3, e5, e7, hq, ok_bind, ih]
        split <;> rfl

theorem ser_loop : ∀ (n : Nat) {B : Prop} {it : HIt} {ait : AIt} (st : WSt) (prev : Nat) (b : Option Bitmap), Bi r L R B it ait → Gas n ait →
    R64M.serLoop r n it st prev b = ser64Loop R n ait st prev b
  | 0, _, _, _, _, _, _, _, hg => absurd hg.1 (by omega)
  | n + 1, B, it, ait, st, prev, b, h, hg => by
    rcases h.see hR with ⟨e1, e2⟩ | ⟨p, l, a, d, it', e1, e2, e3, e4, e5, e6, e7, e8, e9⟩
    · simp only [R64M.serLoop, ser64Loop, e1, e2]
      cases b <;> rfl
    · have ih := fun st prev b => ser_loop n st prev b e8 (e9 n hg)
      obtain ⟨q, hq⟩ := countSame_ok hR (fun k => k % 4294967296 == combineKey ait.key 0 / 4294967296) FUEL 0 h (gas_start hR (X := 0))
      cases b with
      | none => simp only [R64M.serLoop, ser64Loop, e1, e2, e3, e5, e7, hq, ok_bind, ih]
      | some b => simp only [R64M.serLoop, ser64Loop, e1, e2, e3, e5, e7, hq, ok_bind, ih]

variable (h : Sim64 r L R)
include h

theorem portableSize_sim : r.portableSize = .ok (r64PortableSize R) := by
  obtain ⟨it, h1, h2⟩ := Bi.start hR h
  simp only [R64M.portableSize, h1, ok_bind, size_loop hR FUEL 8 0 none h2 (gas_start hR (X := 0)), r64PortableSize]

theorem portableSerialize_sim (mem : List UInt8) : r.portableSerialize mem = r64PortableSerialize R mem := by
  obtain ⟨it, h1, h2⟩ := Bi.start hR h
  simp only [R64M.portableSerialize, R64M.countHigh32, h1, ok_bind, count32_loop hR FUEL 0 0 h2 (gas_start hR (X := 0)), r64PortableSerialize, countHigh32]
  cases put (mem, 0) (leBytes 8 (CRoaring.countHigh32Loop R FUEL (artInitIterator R true) 0 0)) with
  | oob => rfl
  | fail => rfl
  | ok st =>
    simp only [ok_bind, ser_loop hR FUEL st 0 none h2 (gas_start hR (X := 0))]

end

/-! ### New leaves -/

theorem Sim64.put_new {r : R64M} {L : ArtRef → Prop} {R : R64} (h : Sim64 r L R) (hR : ArtOk R) {k : List Nat} (hk : IsKey k) (hn : artFind R k = none) (c : Container) :
    ∃ r' p, r.put k c = .ok (r', p) ∧ Sim64 r' L (artInsert R k c) ∧ ArtOk (artInsert R k c) := by
  obtain ⟨F, m, h⟩ := h
  obtain ⟨r', p, F', m', g1, g2, -⟩ := h.put_ok hk ((slots_none h.slots hk).1 hn) c
  exact ⟨r', p, g1, ⟨F', m', g2.congr (artInsert_upd hR hk hn c)⟩, (artInsert_has hR hk hn c).1⟩

theorem RL.absent {R : R64} {A : Bitmap} (h : RL R A) {k : List Nat} (hk : IsKey k) (hA : ∀ p ∈ A, p.1 < keyNum k) : artFind R k = none := by
  cases hf : artFind R k with
  | none => rfl
  | some c =>
    have h1 := (h.mem (keyNum k) c).2 ⟨k, (artFind_iff h.ok hk c).1 hf, rfl⟩
    exact absurd (hA _ h1) (Nat.lt_irrefl _)

theorem moveOffset_sim {P : Container → Prop} {high : Nat} (hh : high < 4294967296) {L : ArtRef → Prop} : ∀ {b : Bitmap}, BP P b → ∀ {r : R64M} {dst : R64} {A : Bitmap}, RL dst A →
    Sim64 r L dst → (∀ p ∈ A, ∀ q ∈ b, p.1 < high * 65536 + q.1) → ∃ r', R64M.moveOffset high b r = .ok r' ∧ Sim64 r' L (r64MoveOffset high b dst)
  | [], _, r, dst, A, _, h, _ => ⟨r, rfl, h⟩
  | (k, c) :: t, hb, r, dst, A, hrl, h, hA => by
    have hk := hb.1
    have hn := keyNum_split (x := high * 4294967296 + k * 65536) (by unfold TOP64; omega)
    have e : (high * 4294967296 + k * 65536) / 65536 = high * 65536 + k := by omega
    rw [e] at hn
    have hlt : ∀ p ∈ A, p.1 < keyNum (splitKey (high * 4294967296 + k * 65536)).1 := by rw [hn]; exact fun p hp => hA p hp (k, c) (by simp)
    obtain ⟨r1, p, g1, g2, -⟩ := h.put_new hrl.ok (splitKey_isKey _) (hrl.absent (splitKey_isKey _) hlt) c
    have h1 := hrl.snoc (splitKey_isKey _) hlt c
    rw [hn] at h1
    obtain ⟨r', k1, k2⟩ := moveOffset_sim hh hb.2.2.2 h1 g2 (by
      intro p hp q hq
      rcases List.mem_append.1 hp with hp | hp
      · exact hA p hp q (by simp [hq])
      · simp only [List.mem_singleton] at hp
        subst hp
        have := hb.2.2.1 q hq
        simp only
        omega)
    refine ⟨r', ?_, ?_⟩
    · simp only [R64M.moveOffset, high48_bits hk, g1, ok_bind, k1]
    · simp only [r64MoveOffset, high48_bits hk]
      exact k2

theorem moveFrom32_ok {b : Bitmap} (hb : BInv b) : ∃ r' L', R64M.moveFrom32 b = .ok (r', []) ∧ Sim64 r' L' (r64MoveFrom32 b).1 := by
  obtain ⟨r', h1, h2⟩ := moveOffset_sim (P := CNe) (high := 0) (by omega) hb rl_none sim64_create (by simp)
  exact ⟨r', _, by simp only [R64M.moveFrom32, h1, ok_bind], h2⟩

/-! ### Reading -/

theorem giveUp_ok {r : R64M} {L : ArtRef → Prop} {R : R64} (h : Sim64 r L R) : ∃ m, r.giveUp = .ok (.inl m) ∧ ∀ x ∈ m, x = none := by
  obtain ⟨m, h1, -, h2⟩ := free_ok h
  exact ⟨m, by simp only [R64M.giveUp, h1, ok_bind], h2⟩

theorem deser_loop {buf : List UInt8} {maxbytes : Nat} (hl : maxbytes ≤ buf.length) {L : ArtRef → Prop} (n : Nat) :
    ∀ {off : Nat} {prev : Int} {r : R64M} {dst : R64} {A : Bitmap}, off ≤ maxbytes → -1 ≤ prev → RL dst A → Sim64 r L dst → (∀ p ∈ A, (p.1 : Int) < (prev + 1) * 65536) →
    (deser64Loop buf maxbytes n off prev dst = .fail ∧ ∃ m, R64M.deserLoop buf maxbytes n off prev r = .ok (.inl m) ∧ ∀ x ∈ m, x = none) ∨
    ∃ r' R' m, deser64Loop buf maxbytes n off prev dst = .ok (R', m) ∧ R64M.deserLoop buf maxbytes n off prev r = .ok (.inr (r', m)) ∧ Sim64 r' L R' := by
  induction n with
  | zero => intro off prev r dst A ho hp h hs hA; exact .inr ⟨r, dst, off, rfl, rfl, hs⟩
  | succ n ih =>
    intro off prev r dst A ho hp h hs hA
    have hgu := giveUp_ok hs
    unfold deser64Loop R64M.deserLoop
    by_cases h4 : off + 4 > maxbytes
    · rw [if_pos h4, if_pos h4]; exact .inl ⟨rfl, hgu⟩
    rw [if_neg h4, if_neg h4]
    obtain ⟨high, hr, hh⟩ := readLE_ok (buf := buf) (off := off) (k := 4) (by omega)
    rw [hr, ok_bind, ok_bind]
    simp only
    by_cases hpv : (high : Int) ≤ prev
    · rw [if_pos hpv, if_pos hpv]; exact .inl ⟨rfl, hgu⟩
    rw [if_neg hpv, if_neg hpv]
    unfold rbPortableDeserializeSizeAt rbPortableDeserializeSafe
    rcases raPortableDeserialize_total (buf := buf) (base := off + 4) (maxbytes := maxbytes - (off + 4)) (by omega) with
      ⟨_, e⟩ | ⟨b, m, e1, e2, h4', hn, hty⟩
    · rw [e]; simp only [ok_bind, if_true]; exact .inl ⟨trivial, hgu⟩
    rw [e2, e1]
    have hm0 : m ≠ 0 := by omega
    simp only [ok_bind, pure_ok, if_neg hm0]
    by_cases hk : keysOk (-1) b = true
    · rw [if_pos hk, if_pos hk]
      have hbp := (keysOk_bp hty hk).1
      have hh' : high < 4294967296 := by omega
      have hlt : ∀ p ∈ A, ∀ q ∈ b, p.1 < high * 65536 + q.1 := fun p hp' q hq => by have := hA p hp'; omega
      have hmv := moveOffset_rl hh' hbp h hlt
      obtain ⟨r1, s1, s2⟩ := moveOffset_sim hh' hbp h hs hlt
      rw [s1, ok_bind]
      refine ih (off := off + 4 + m) (prev := high) (A := A ++ liftBy high b) (by omega) (by omega) hmv s2 ?_
      intro p hp'
      rcases List.mem_append.1 hp' with hp' | hp'
      · have := hA p hp'; omega
      · simp only [liftBy, List.mem_map] at hp'
        obtain ⟨q, hq, rfl⟩ := hp'
        have := (hty q hq).1
        simp only
        omega
    · rw [if_neg hk, if_neg hk]; exact .inl ⟨rfl, hgu⟩

theorem portableDeserialize_ok {buf : List UInt8} {maxbytes : Nat} (hl : maxbytes ≤ buf.length) :
    (r64PortableDeserialize buf maxbytes = .fail ∧ ∃ m, R64M.portableDeserialize buf maxbytes = .ok (.inl m) ∧ ∀ x ∈ m, x = none) ∨
    ∃ r' L' R' m, r64PortableDeserialize buf maxbytes = .ok (R', m) ∧ R64M.portableDeserialize buf maxbytes = .ok (.inr (r', m)) ∧ Sim64 r' L' R' := by
  unfold r64PortableDeserialize R64M.portableDeserialize
  by_cases h8 : 8 > maxbytes
  · rw [if_pos h8, if_pos h8]; exact .inl ⟨rfl, [], rfl, by simp⟩
  rw [if_neg h8, if_neg h8]
  obtain ⟨v, hr, _⟩ := readLE_ok (buf := buf) (off := 0) (k := 8) (by omega)
  rw [hr, ok_bind, ok_bind]
  by_cases hv : v > 4294967295
  · rw [if_pos hv, if_pos hv]; exact .inl ⟨rfl, [], rfl, by simp⟩
  rw [if_neg hv, if_neg hv]
  rcases deser_loop hl v (A := []) (off := 8) (prev := -1) (by omega) (by omega) rl_none sim64_create (by simp) with h | ⟨r', R', m, h1, h2, h3⟩
  · exact .inl h
  · exact .inr ⟨r', _, R', m, h1, h2, h3⟩

/-! ### Ranges -/

theorem fromRangeValues_sim {max step : Nat} (hs : 0 < step) (hsm : step < TOP64) {L : ArtRef → Prop} (n : Nat) : ∀ {m : Nat} {r : R64M} {R : R64} {s : NSet}, m < TOP64 → TOP64 - m ≤ n → Sim64 r L R → Rep64 R s →
    ∃ r', R64M.fromRangeValues max step n m r = .ok r' ∧ Sim64 r' L (fromRange64Values max step n m R) := by
  induction n with
  | zero => intro m r R s h1 h2; omega
  | succ n ih =>
    intro m r R s h1 h2 h hR
    unfold R64M.fromRangeValues fromRange64Values
    by_cases hm : m < max
    · rw [if_pos hm, if_pos hm]
      obtain ⟨r1, g1, g2⟩ := add_ok h hR.inv.1 m
      simp only [g1, ok_bind]
      by_cases ho : m > TOP64 - 1 - step
      · rw [if_pos ho, if_pos ho]; exact ⟨r1, rfl, g2⟩
      · rw [if_neg ho, if_neg ho]
        exact ih (by omega) (by omega) g2 (r64Add_spec hR h1)
    · rw [if_neg hm, if_neg hm]; exact ⟨r, rfl, h⟩

theorem fromRangeContainers_sim {max step : Nat} (hs : 0 < step) (hs2 : step < 65536) (hmax : max < TOP64) {L : ArtRef → Prop} (n : Nat) : ∀ {m : Nat} {r : R64M} {R : R64}, m < max →
    TOP64 - m ≤ n → Sim64 r L R → ArtOk R → (∀ k, IsKey k → m / 65536 ≤ keyNum k → artFind R k = none) →
    ∀ R', fromRange64Containers max step n m R = some R' → ∃ r', R64M.fromRangeContainers max step n m r = .ok r' ∧ Sim64 r' L R' := by
  induction n with
  | zero => intro m r R h1 h2; omega
  | succ n ih =>
    intro m r R h1 h2 h hR hlow R' hR'
    unfold fromRange64Containers at hR'
    unfold R64M.fromRangeContainers
    have ec : minimum64 (max - clearLow m) 65536 % 4294967296 = if max - m / 65536 * 65536 < 65536 then max - m / 65536 * 65536 else 65536 := by
      unfold minimum64 clearLow
      split <;> omega
    simp only at hR' ⊢
    generalize minimum64 (max - clearLow m) 65536 % 4294967296 = cmax at *
    have hcm : m % 65536 < cmax := by rw [ec]; split <;> omega
    have hcm2 : cmax ≤ 65536 := by rw [ec]; split <;> omega
    have egap : u64 ((u32 ((cmax : Int) - ((m % 65536 : Nat) : Int)) : Int) + (step : Int) - 1) = cmax - m % 65536 + step - 1 := by
      unfold u64 u32; omega
    rw [egap] at hR' ⊢
    cases hc : containerFromRange (m % 65536) cmax (step % 65536) with
    | none => rw [hc] at hR'; cases hR'
    | some c =>
      rw [hc] at hR'
      simp only at hR' ⊢
      have hkn := keyNum_split (x := m) (by omega)
      obtain ⟨r1, p, g1, g2, g3⟩ := h.put_new hR (splitKey_isKey m) (hlow _ (splitKey_isKey m) (by omega)) c
      rw [g1, ok_bind]
      have hmod := Nat.mod_lt (cmax - m % 65536 + step - 1) hs
      generalize hinc : cmax - m % 65536 + step - 1 - (cmax - m % 65536 + step - 1) % step = inc at *
      by_cases ho : m > TOP64 - 1 - inc
      · rw [if_pos ho] at hR' ⊢
        cases hR'
        exact ⟨r1, rfl, g2⟩
      · rw [if_neg ho] at hR' ⊢
        by_cases hlast : m + inc < max
        · rw [if_pos hlast] at hR' ⊢
          have hcm5 : cmax = 65536 := by split at ec <;> omega
          refine ih hlast (by omega) g2 g3 (fun k hk hle => ?_) R' hR'
          rw [← artInsert_upd hR (splitKey_isKey m) (hlow _ (splitKey_isKey m) (by omega)) c k hk]
          have hne : k ≠ (splitKey m).1 := by
            intro e
            rw [e] at hle
            omega
          unfold updKey
          rw [if_neg hne]
          exact hlow k hk (by omega)
        · rw [if_neg hlast] at hR' ⊢
          cases hR'
          exact ⟨r1, rfl, g2⟩

theorem fromRange_ok {min max step : Nat} (hmax : max < TOP64) (hsm : step < TOP64) :
    (step = 0 ∨ max ≤ min → R64M.fromRange min max step = .ok none) ∧
    (0 < step → min < max → ∃ r' L' R', R64M.fromRange min max step = .ok (some r') ∧ Sim64 r' L' R' ∧
      Rep64 R' (fun x => decide (min ≤ x ∧ x < max ∧ (x - min) % step = 0))) := by
  refine ⟨fun h => by unfold R64M.fromRange; rw [if_pos h], fun hs hlt => ?_⟩
  obtain ⟨R', h1, h2⟩ := r64FromRange_spec hmax hs hsm hlt
  have hn : ¬ (step = 0 ∨ max ≤ min) := by omega
  have hfu : TOP64 - min ≤ FUEL := by unfold TOP64 FUEL; omega
  unfold r64FromRange at h1
  unfold R64M.fromRange
  rw [if_neg hn] at h1 ⊢
  by_cases hst : step ≥ 65536
  · rw [if_pos hst] at h1 ⊢
    cases h1
    obtain ⟨r', g1, g2⟩ := fromRangeValues_sim (max := max) hs hsm FUEL (m := min) (by omega) hfu sim64_create rep64_empty
    exact ⟨r', _, _, by simp only [g1, ok_bind], g2, h2⟩
  · rw [if_neg hst] at h1 ⊢
    obtain ⟨r', g1, g2⟩ := fromRangeContainers_sim (max := max) hs (by omega) hmax FUEL hlt hfu sim64_create rl_none.ok (fun k hk _ => rfl) R' h1
    exact ⟨r', _, _, by simp only [g1, ok_bind], g2, h2⟩

end CRoaring
