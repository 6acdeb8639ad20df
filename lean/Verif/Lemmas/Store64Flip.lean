import Verif.Lemmas.Store64Ops4
import Verif.Model.Store64More
/-
Flips of 64-bit bitmaps in memory.
-/
set_option linter.unusedSimpArgs false
set_option linter.unusedVariables false
namespace CRoaring
open Spec

/-! ### In place -/

theorem flipDrop_ok {r : R64M} {L F : ArtRef → Prop} {m : List Nat → Option Nat} {C : Conts} (h : St r L F m C) {k : List Nat} {p : ArtPtr} {l a : Nat}
    {c : Container} (hA : Leads r L F m C k p l a c) {mem mem' : List (Option Container)} {a' t : Nat}
    (hf : ∀ b, R64M.freeContainer { r with art := b, mem := mem } a' t = .ok { r with art := b, mem := mem' })
    (hm : mem' = r.mem.set a none ∨ mem' = r.mem.set a none ++ [none]) :
    ∃ r' F' m', R64M.flipDrop { r with mem := mem } k p a' t = .ok r' ∧ St r' L F' m' (updKey C k none) := by
  obtain ⟨b, i1, i2⟩ := amap_erase h.map.map hA.ptr.key
  obtain ⟨F', i3⟩ := i2.withF
  rw [hA.leaf] at i1
  have hl : r.art.loadFreed b p = .ok l := (loadFreed_ok hA.ptr.find i1).trans hA.load
  have hs : R64M.setSlot { art := b, containers := r.containers, first := r.first, mem := mem' } (leafIndex l) none =
      .ok { art := b, containers := r.containers.set (l / 256) none, first := r.first, mem := mem' } :=
    setSlot_ok (r := { art := b, containers := r.containers, first := r.first, mem := mem' }) (slot_lt hA.slot) none
  have hsl : Slots (r.containers.set (l / 256) none) mem' (updKey m k none) (updKey C k none) := by
    have hq := h.slots.erase hA.ptr.key hA.leaf hA.slot
    rcases hm with rfl | rfl
    · exact hq
    · exact hq.pad
  refine ⟨{ art := b, containers := r.containers.set (l / 256) none, first := if leafIndex l < r.first then leafIndex l else r.first, mem := mem' },
    F', _, ?_, ⟨i3, hsl, h.first.remove hA.slot⟩⟩
  simp only [R64M.flipDrop, i1, ok_bind, hf, hl, R64M.removeContainer, hs]

theorem flipLeafInplace_ok (keep : Bool) {r : R64M} {L : ArtRef → Prop} {R : R64} (h : Sim64 r L R) (hR : ArtOk R) {k : List Nat} (hk : IsKey k) (min max : Nat) :
    ∃ r', R64M.flipLeafInplace keep r k min max = .ok r' ∧ Sim64 r' L (flipLeafInplace64 R k min max) := by
  obtain ⟨F, m, h⟩ := h
  unfold flipLeafInplace64
  rcases h.find hk with ⟨h1, h2, h3⟩ | ⟨p, l, a, c, h1, hA⟩
  · obtain ⟨r', p, F', m', g1, g2, _⟩ := h.put_ok hk h1 (containerRangeOfOnes min max)
    rw [h2]
    exact ⟨r', by simp only [R64M.flipLeafInplace, h3, ok_bind, g1], F', m', g2.congr (artInsert_upd hR hk h2 _)⟩
  · rw [hA.here]
    have halt := slot_lt hA.obj
    simp only [R64M.flipLeafInplace, h1, ok_bind, hA.look]
    generalize flipContainer min max c = c2
    by_cases hkeep : keep = true ∧ typecode c2 = typecode c
    · simp only [R64M.computed, if_pos hkeep, R64M.freeOld, if_true, ok_bind, R64M.write]
      by_cases hz : containerNonzero c2 = true
      · obtain ⟨r', m', g1, g2, -⟩ := h.replace hA (mem' := r.mem.set a (some c2)) (a' := a) (c2 := c2) (List.getElem?_set_self halt)
          (fun x hx _ => List.getElem?_set_ne (Ne.symm hx)) (Or.inl rfl)
        rw [if_pos hz, if_pos hz]
        exact ⟨r', g1, F, m', g2.congr (artStore_upd hR hk hA.here _)⟩
      · obtain ⟨r', F', m', g1, g2⟩ := flipDrop_ok h hA (mem := r.mem.set a (some c2)) (mem' := r.mem.set a none) (a' := a) (t := typecode c2) (fun b => by
          simp only [R64M.freeContainer, R64M.deref]
          rw [List.getElem?_set_self halt]
          simp [ok_bind]) (Or.inl rfl)
        rw [if_neg hz, if_neg hz]
        exact ⟨r', g1, F', m', g2.congr (artErase_upd hR hk)⟩
    · have hne : r.mem.length ≠ a := by omega
      have hd : R64M.freeContainer { r with mem := r.mem ++ [some c2] } a (leafType l) = .ok { r with mem := (r.mem ++ [some c2]).set a none } := by
        simp only [R64M.freeContainer, R64M.deref, leafType]
        rw [List.getElem?_append_left halt, hA.obj]
        simp only [hA.type, if_true, ok_bind]
      simp only [R64M.computed, if_neg hkeep, R64M.new, R64M.freeOld, if_neg hne, hd, ok_bind]
      by_cases hz : containerNonzero c2 = true
      · obtain ⟨r', m', g1, g2, -⟩ := h.replace hA (mem' := (r.mem ++ [some c2]).set a none) (a' := r.mem.length) (c2 := c2)
          (by rw [List.getElem?_set_ne (by omega)]; simp) (fun x hx hx' => by
            rw [List.getElem?_set_ne (Ne.symm hx)]
            by_cases hlt : x < r.mem.length
            · rw [List.getElem?_append_left hlt]
            · rw [List.getElem?_eq_none (by simp; omega), List.getElem?_eq_none (by omega)])
          (Or.inr ⟨List.getElem?_set_self (by simp; omega), List.getElem?_eq_none (by omega)⟩)
        rw [if_pos hz, if_pos hz]
        exact ⟨r', g1, F, m', g2.congr (artStore_upd hR hk hA.here _)⟩
      · obtain ⟨r', F', m', g1, g2⟩ := flipDrop_ok h hA (mem := (r.mem ++ [some c2]).set a none) (mem' := r.mem.set a none ++ [none]) (a' := r.mem.length)
          (t := typecode c2) (fun b => by
            simp only [R64M.freeContainer, R64M.deref]
            rw [List.getElem?_set_ne (by omega), List.set_append_left _ _ halt, List.set_append_right _ _ (by simp)]
            simp [ok_bind]) (Or.inr rfl)
        rw [if_neg hz, if_neg hz]
        exact ⟨r', g1, F', m', g2.congr (artErase_upd hR hk)⟩

theorem flipInplace_fold (E : Reuse) {L : ArtRef → Prop} {min max : Nat} (hmm : min ≤ max) (hmax : max < TOP64) (n : Nat) : ∀ (K : Nat) {r : R64M} {R : R64}
    {s : NSet}, Sim64 r L R → Rep64 R s → min / 65536 ≤ K → K + n = max / 65536 + 1 →
    ∃ r', R64M.flipInplaceLoop E min max r (List.range' K n) = .ok r' ∧ Sim64 r' L ((List.range' K n).foldl (fun r high48_bits =>
      let b := flipBounds min max high48_bits
      flipLeafInplace64 r (splitKey (high48_bits <<< 16)).1 b.1 b.2) R) := by
  induction n with
  | zero => intro K r R s h _ _ _; exact ⟨r, rfl, h⟩
  | succ n ih =>
    intro K r R s h hR h1 h2
    obtain ⟨b1, b2, -⟩ := flip_bounds (min := min) (max := max) (K := K) hmm h1 (by omega)
    obtain ⟨r1, g1, g2⟩ := flipLeafInplace_ok (E (splitKey (K <<< 16)).1).1 h hR.inv.1 (splitKey_isKey (K <<< 16)) (flipBounds min max K).1 (flipBounds min max K).2
    obtain ⟨r2, g4, g5⟩ := ih (K + 1) g2 (flipLeafInplace64_spec hR (splitKey_isKey (K <<< 16)) b1 b2) (by omega) (by omega)
    refine ⟨r2, ?_, ?_⟩
    · unfold R64M.flipInplaceLoop at g4 ⊢
      rw [List.range'_succ, List.foldlM_cons, g1, ok_bind]; exact g4
    · rw [List.range'_succ, List.foldl_cons]; exact g5

theorem flipClosedInplace_ok (E : Reuse) {r : R64M} {L : ArtRef → Prop} {R : R64} {s : NSet} (h : Sim64 r L R) (hR : Rep64 R s) {min max : Nat} (hmax : max < TOP64) :
    ∃ r', r.flipClosedInplace E min max = .ok r' ∧ Sim64 r' L (r64FlipClosedInplace R min max) := by
  unfold R64M.flipClosedInplace r64FlipClosedInplace
  by_cases hlt : min > max
  · rw [if_pos hlt, if_pos hlt]; exact ⟨r, rfl, h⟩
  · rw [if_neg hlt, if_neg hlt]
    have : min / 65536 ≤ max / 65536 := Nat.div_le_div_right (by omega)
    exact flipInplace_fold E (by omega) hmax _ _ h hR (Nat.le_refl _) (by omega)

theorem flipInplace_ok (E : Reuse) {r : R64M} {L : ArtRef → Prop} {R : R64} {s : NSet} (h : Sim64 r L R) (hR : Rep64 R s) {min max : Nat} (hmax : max < TOP64) :
    ∃ r', r.flipInplace E min max = .ok r' ∧ Sim64 r' L (r64FlipInplace R min max) := by
  unfold R64M.flipInplace r64FlipInplace
  by_cases hlt : min ≥ max
  · rw [if_pos hlt, if_pos hlt]; exact ⟨r, rfl, h⟩
  · rw [if_neg hlt, if_neg hlt]
    exact flipClosedInplace_ok E h hR (by omega)

/-! ### A new bitmap -/

theorem copyBefore_loop {r : R64M} {L L' : ArtRef → Prop} {C : Conts} {kx : List Nat} (hx : IsKey kx) (n : Nat) : ∀ {B : Prop} {d : R64M} {F' : ArtRef → Prop}
    {m' : List Nat → Option Nat} {D : Conts} {it : HIt} {o : Option (List Nat)} {X : Nat}, Cs r L C B it o → From C X o → X ≤ P48 → P48 < n + X → St d L' F' m' D →
    (∀ k, IsKey k → X ≤ keyNum k → D k = none) →
    ∃ d' F2 m2, R64M.flipCopyBefore r kx n it d = .ok d' ∧ St d' L' F2 m2 (Fin (fun k _ c => if keyNum k < keyNum kx then c else none) D C X) := by
  induction n with
  | zero => intro B d F' m' D it o X _ _ h1 h2; omega
  | succ n ih =>
    intro B d F' m' D it o X h hf hX hn hd hD
    unfold R64M.flipCopyBefore
    cases o with
    | none =>
      refine ⟨d, F', m', by rw [h.ended], hd.congr fun k hk => ?_⟩
      unfold Fin
      split
      · rfl
      · simp only [hD k hk (by omega), hf.off hk (by omega), ite_self]
    | some k =>
      obtain ⟨hk, hxk, hkl⟩ := hf.isKey
      obtain ⟨-, p', _, _, _, hv, hkey, -⟩ := h.key
      by_cases hc : artCompareKeys k kx < 0
      · obtain ⟨p, c, d1, F1, m1, h1, h2, h3, h4⟩ := h.copyTo hd (hD k hk hxk)
        obtain ⟨it', o', n1, n2, n3⟩ := h.next
        obtain ⟨d', F2, m2, g1, g2⟩ := ih n2 n3 hkl (by omega) h4 (fun k' hk' hx => by rw [upd_num _ (by omega)]; exact hD k' hk' (by omega))
        have hlt := ((artCompareKeys_spec hk hx).2.1).1 hc
        refine ⟨d', F2, m2, ?_, Fin.step (by omega) (fun k' hk' hor => upd_num _ (by omega)) (fun k' hk' hx hx' => ?_) g2⟩
        · simp only [h1, hkey, if_pos hc, h3, ok_bind, n1]; exact g1
        · by_cases e : k' = k
          · subst e; rw [upd_same, h2, if_pos hlt]
          · have : keyNum k' ≠ keyNum k := fun e2 => e (key_inj hk' hk e2)
            rw [upd_ne _ _ e, hD k' hk' hx, hf.gap hk' hx (by omega), ite_self]
      · have hge : ¬ keyNum k < keyNum kx := fun e => hc (((artCompareKeys_spec hk hx).2.1).2 e)
        refine ⟨d, F', m', by simp only [hv, hkey, if_neg hc], hd.congr fun k' hk' => ?_⟩
        unfold Fin
        split
        · rfl
        · simp only
          split
          · rw [hD k' hk' (by omega), hf.gap hk' (by omega) (by omega)]
          · exact hD k' hk' (by omega)

/-- What a flip makes of a container. -/
def flipAt (min max : Nat) (k : List Nat) (o : Option Container) : Option Container :=
  nz (match o with
    | none => containerRangeOfOnes (flipBounds min max (keyNum k)).1 (flipBounds min max (keyNum k)).2
    | some c => flipContainer (flipBounds min max (keyNum k)).1 (flipBounds min max (keyNum k)).2 c)

theorem flip_fold {r1 : R64M} {L1 F1 L : ArtRef → Prop} {m1 : List Nat → Option Nat} {C : Conts} (h1 : St r1 L1 F1 m1 C) {min max : Nat} (hmax : max < TOP64)
    (n : Nat) : ∀ (K : Nat) {r2 : R64M} {F : ArtRef → Prop} {m : List Nat → Option Nat} {D : Conts}, St r2 L F m D → (∀ k, IsKey k → K ≤ keyNum k → D k = none) →
    K + n = max / 65536 + 1 →
    ∃ r' F' m', R64M.flipLoop min max r1 r2 (List.range' K n) = .ok r' ∧
      St r' L F' m' (fun k => if K ≤ keyNum k ∧ keyNum k < K + n then flipAt min max k (C k) else D k) := by
  induction n with
  | zero => intro K r2 F m D h _ _; exact ⟨r2, F, m, rfl, h.congr fun k hk => by rw [if_neg (by omega)]⟩
  | succ n ih =>
    intro K r2 F m D h hD hK
    have hKP : K < P48 := by unfold P48; unfold TOP64 at hmax; omega
    have hk := splitKey_isKey (K <<< 16)
    have hkn := keyAt_num hKP
    have hnone := hD _ hk (by omega)
    have step : ∃ r' F' m', r1.flipLeaf r2 (splitKey (K <<< 16)).1 (flipBounds min max K).1 (flipBounds min max K).2 = .ok r' ∧
        St r' L F' m' (updKey D (splitKey (K <<< 16)).1 (flipAt min max (splitKey (K <<< 16)).1 (C (splitKey (K <<< 16)).1))) := by
      unfold flipAt
      rw [hkn]
      rcases h1.find hk with ⟨f1, f2, f3⟩ | ⟨p, l, a, c, f1, hA⟩
      · obtain ⟨r', F', m', g1, g2⟩ := addResult_ok hk h hnone (containerRangeOfOnes (flipBounds min max K).1 (flipBounds min max K).2)
        exact ⟨r', F', m', by simp only [R64M.flipLeaf, f3, ok_bind, g1], by rw [f2]; exact g2⟩
      · obtain ⟨r', F', m', g1, g2⟩ := addResult_ok hk h hnone (flipContainer (flipBounds min max K).1 (flipBounds min max K).2 c)
        exact ⟨r', F', m', by simp only [R64M.flipLeaf, f1, ok_bind, hA.look, g1], by rw [hA.here]; exact g2⟩
    obtain ⟨r3, F3, m3, g1, g2⟩ := step
    obtain ⟨r4, F4, m4, g3, g4⟩ := ih (K + 1) g2 (fun k' hk' hx => by rw [upd_num _ (by omega)]; exact hD k' hk' (by omega)) (by omega)
    refine ⟨r4, F4, m4, ?_, g4.congr fun k' hk' => ?_⟩
    · unfold R64M.flipLoop at g3 ⊢
      rw [List.range'_succ, List.foldlM_cons, g1, ok_bind]; exact g3
    · by_cases e : keyNum k' = K
      · have : k' = (splitKey (K <<< 16)).1 := key_inj hk' hk (by omega)
        rw [if_neg (by omega), if_pos (by omega), this, upd_same]
      · by_cases e2 : K + 1 ≤ keyNum k' ∧ keyNum k' < K + 1 + n
        · rw [if_pos e2, if_pos (by omega)]
        · rw [if_neg e2, if_neg (by omega), upd_num _ (by omega)]

theorem HoldsSet.flip {C : Conts} {s : NSet} (h : HoldsSet C s) {min max : Nat} (hmm : min ≤ max) (hmax : max < TOP64) :
    HoldsSet (fun k => if min / 65536 ≤ keyNum k ∧ keyNum k < max / 65536 + 1 then flipAt min max k (C k) else C k) (flipR s min (max + 1)) := by
  have main : ∀ k, IsKey k → min / 65536 ≤ keyNum k → keyNum k < max / 65536 + 1 → ∃ c2 f, flipAt min max k (C k) = nz c2 ∧ Rep c2 f ∧
      ∀ x, x / 65536 = keyNum k → flipR s min (max + 1) x = f (x % 65536) := by
    intro k hk h1 h2
    obtain ⟨b1, b2, b3⟩ := flip_bounds (min := min) (max := max) (K := keyNum k) hmm h1 (by omega)
    cases hc : C k with
    | none =>
      refine ⟨_, _, rfl, containerRangeOfOnes_spec b1 b2, fun x hx => ?_⟩
      unfold flipR
      rw [h.off k hk hc x hx, Bool.bne_false, range_dec]
      exact decide_eq_decide.2 (b3 x hx)
    | some c =>
      obtain ⟨c1, c2⟩ := h.at' k hk c hc
      refine ⟨_, _, rfl, flipContainer_spec c1.1.rep (Nat.le_of_lt b1) b2, fun x hx => ?_⟩
      unfold flipR
      rw [c2 x hx]
      congr 1
      exact decide_eq_decide.2 (b3 x hx)
  refine ⟨fun k hk c hc => ?_, fun k hk hc x hx => ?_, fun x hx => ?_⟩
  · split at hc
    · next hr =>
      obtain ⟨c2, f, e1, e2, e3⟩ := main k hk hr.1 hr.2
      rw [e1] at hc
      obtain ⟨w1, w2⟩ := nz_some e2 hc
      exact ⟨w1, fun x hx => by rw [e3 x hx, w2]⟩
    · next hr =>
      obtain ⟨w1, w2⟩ := h.at' k hk c hc
      refine ⟨w1, fun x hx => ?_⟩
      unfold flipR
      rw [w2 x hx, decide_eq_false (by omega)]
      simp
  · split at hc
    · next hr =>
      obtain ⟨c2, f, e1, e2, e3⟩ := main k hk hr.1 hr.2
      rw [e1] at hc
      rw [e3 x hx, nz_none e2 hc]
    · next hr =>
      unfold flipR
      rw [h.off k hk hc x hx, decide_eq_false (by omega)]
      rfl
  · unfold flipR
    rw [h.zero x hx, decide_eq_false (by omega)]
    rfl

theorem flipClosed_ok {r : R64M} {L : ArtRef → Prop} {R : R64} {s : NSet} (h : Sim64 r L R) (hR : Rep64 R s) {min max : Nat} (hmax : max < TOP64) :
    ∃ r' L' R', r.flipClosed min max = .ok r' ∧ Sim64 r' L' R' ∧ Rep64 R' (flipR s min (max + 1)) := by
  unfold R64M.flipClosed
  by_cases hlt : min > max
  · rw [if_pos hlt]
    obtain ⟨d, h1, h2⟩ := copy_ok h
    refine ⟨d, _, R, h1, h2, hR.congr fun x => ?_⟩
    unfold flipR
    rw [decide_eq_false (by omega)]
    simp
  · rw [if_neg hlt]
    have hmm : min / 65536 ≤ max / 65536 := Nat.div_le_div_right (by omega)
    have hk1 := keyNum_split (show min < TOP64 by omega)
    have hk2 := keyNum_split hmax
    have hP : max / 65536 + 1 ≤ P48 := by unfold P48; unfold TOP64 at hmax; omega
    obtain ⟨F, m, h⟩ := h
    obtain ⟨F0, m0, h0⟩ := sim64_create
    obtain ⟨it, o, i1, i2, i3⟩ := h.start
    obtain ⟨d1, F1, m1, g1, g2⟩ := copyBefore_loop (splitKey_isKey min) FUEL i2 i3 FUEL_keys.2 FUEL_keys.1 h0 (fun _ _ _ => rfl)
    have g2' : St d1 _ F1 m1 (fun k => if keyNum k < min / 65536 then artFind R k else none) := g2.congr fun k hk => by
      unfold Fin; rw [if_neg (Nat.not_lt_zero _), hk1]
    obtain ⟨d2, F2, m2, g3, g4⟩ := flip_fold h hmax (min := min) (max / 65536 + 1 - min / 65536) (min / 65536) g2'
      (fun k hk hx => by rw [if_neg (by omega)]) (by omega)
    obtain ⟨it2, o2, j1, j2, j3⟩ := h.after (splitKey_isKey max)
    rw [hk2] at j3
    obtain ⟨d3, F3, m3, g5, g6⟩ := copy_loop FUEL j2 j3 hP (by have := FUEL_keys.1; omega) g4 (fun k hk hx => by
      rw [if_neg (by omega), if_neg (by omega)])
    obtain ⟨R', w1, w2⟩ := (g6.congr (D := fun k => if min / 65536 ≤ keyNum k ∧ keyNum k < max / 65536 + 1 then flipAt min max k (artFind R k) else artFind R k)
      fun k hk => by
        unfold Fin
        simp only
        by_cases e1 : keyNum k < max / 65536 + 1
        · rw [if_pos e1]
          by_cases e2 : min / 65536 ≤ keyNum k
          · have a1 : min / 65536 ≤ keyNum k ∧ keyNum k < min / 65536 + (max / 65536 + 1 - min / 65536) := by omega
            rw [if_pos a1, if_pos ⟨e2, e1⟩]
          · have a1 : ¬ (min / 65536 ≤ keyNum k ∧ keyNum k < min / 65536 + (max / 65536 + 1 - min / 65536)) := by omega
            have a2 : ¬ (min / 65536 ≤ keyNum k ∧ keyNum k < max / 65536 + 1) := by omega
            have a3 : keyNum k < min / 65536 := by omega
            rw [if_neg a1, if_neg a2, if_pos a3]
        · rw [if_neg e1, if_neg (by omega)]).sim (hR.holds.flip (by omega) hmax)
    exact ⟨d3, _, R', by simp only [i1, ok_bind, g1, g3, j1]; exact g5, w1, w2⟩

theorem flip_ok {r : R64M} {L : ArtRef → Prop} {R : R64} {s : NSet} (h : Sim64 r L R) (hR : Rep64 R s) {min max : Nat} (hmax : max < TOP64) :
    ∃ r' L' R', r.flip min max = .ok r' ∧ Sim64 r' L' R' ∧ Rep64 R' (flipR s min max) := by
  unfold R64M.flip
  by_cases hlt : min ≥ max
  · rw [if_pos hlt]
    obtain ⟨d, h1, h2⟩ := copy_ok h
    refine ⟨d, _, R, h1, h2, hR.congr fun x => ?_⟩
    unfold flipR
    rw [decide_eq_false (by omega)]
    simp
  · rw [if_neg hlt]
    have := flipClosed_ok h hR (min := min) (max := max - 1) (by omega)
    rw [show max - 1 + 1 = max by omega] at this
    exact this

end CRoaring
