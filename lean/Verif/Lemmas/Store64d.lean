import Verif.Lemmas.Store64c
/-
The removal of a range that extends over several leaves.
-/
set_option linter.unusedSimpArgs false
set_option linter.unusedVariables false
namespace CRoaring
open Spec

theorem removeBetween_ok {L : ArtRef → Prop} {hi : List Nat} (hhi : IsKey hi) (n : Nat) : ∀ {r : R64M} {R : R64} {s : NSet} {it : HIt} {o : Option (List Nat)}
    {X : Nat}, Cs r L (artFind R) False it o → Rep64 R s → From (artFind R) X o → X ≤ P48 → P48 < n + X →
    ∃ r' R', R64M.removeBetween hi n r it = .ok r' ∧ Sim64 r' L R' ∧ Rep64 R' (fun x => s x && !decide (X ≤ x / 65536 ∧ x / 65536 < keyNum hi)) := by
  induction n with
  | zero => intro r R s it o X _ _ _ h1 h2; omega
  | succ n ih =>
    intro r R s it o X h hR hf hX hn
    have stop : (∀ k, IsKey k → X ≤ keyNum k → keyNum k < keyNum hi → artFind R k = none) →
        Rep64 R (fun x => s x && !decide (X ≤ x / 65536 ∧ x / 65536 < keyNum hi)) := by
      intro hno
      refine hR.congr fun x => ?_
      by_cases hx : X ≤ x / 65536 ∧ x / 65536 < keyNum hi
      · have hlt : x / 65536 < P48 := Nat.lt_trans hx.2 (key_lt hhi)
        have e := keyAt_num hlt
        have hk := splitKey_isKey ((x / 65536) <<< 16)
        have hs : s x = false := by
          rcases hR.at_key hk with ⟨c, hf, -⟩ | ⟨hf, hs, -⟩
          · rw [hno _ hk (by rw [e]; exact hx.1) (by rw [e]; exact hx.2)] at hf
            cases hf
          · exact hs x e.symm
        rw [hs]; rfl
      · rw [decide_eq_false hx]; simp
    unfold R64M.removeBetween
    cases o with
    | none =>
      refine ⟨r, R, ?_, h.st, stop fun k hk hx _ => hf.off hk hx⟩
      rw [h.ended, if_neg (by simp)]
    | some k =>
      obtain ⟨hk, hxk, hkl⟩ := hf.isKey
      obtain ⟨-, p, l, a, c, h1, h2, h3, h4⟩ := h.key
      have hcmp := (artCompareKeys_spec hk hhi).2.1
      by_cases hlt : keyNum k < keyNum hi
      · obtain ⟨r1, it', o', g1, g2, g3⟩ := h.remove
        rcases hR.at_key hk with ⟨c', hf', -, -, -, her, -⟩ | ⟨hf', -⟩
        · have hup := artErase_upd hR.inv.1 hk
          obtain ⟨r2, R2, f1, f2, f3⟩ := ih (g2.congr hup) her (g3.congr hup) hkl (by omega)
          refine ⟨r2, R2, ?_, f2, f3.congr fun x => ?_⟩
          · rw [h1, h2, if_pos ⟨rfl, hcmp.2 hlt⟩, g1, ok_bind]; exact f1
          · have hgap : ∀ x, X ≤ x / 65536 → x / 65536 < keyNum k → s x = false := by
              intro x hx1 hx2
              have e := keyAt_num (Nat.lt_trans hx2 hkl)
              have hk' := splitKey_isKey ((x / 65536) <<< 16)
              rcases hR.at_key hk' with ⟨c, hf2, -⟩ | ⟨hf2, hs, -⟩
              · rw [hf.gap hk' (by rw [e]; exact hx1) (by rw [e]; exact hx2)] at hf2
                cases hf2
              · exact hs x e.symm
            unfold modKey
            split
            · next hx =>
              rw [decide_eq_true (⟨by omega, by omega⟩ : X ≤ x / 65536 ∧ x / 65536 < keyNum hi)]
              simp [Spec.empty]
            · next hx =>
              by_cases hx1 : X ≤ x / 65536 ∧ x / 65536 < keyNum k
              · rw [hgap x hx1.1 hx1.2]; rfl
              · congr 2
                exact decide_eq_decide.2 (by omega)
        · rw [h3] at hf'; cases hf'
      · refine ⟨r, R, ?_, h.st, stop fun k' hk' hx hx' => hf.gap hk' hx (by omega)⟩
        rw [h2, if_neg (fun e => hlt (hcmp.1 e.2))]

theorem removeRangeClosed_ok {r : R64M} {L : ArtRef → Prop} {R : R64} {s : NSet} (h : Sim64 r L R) (hR : Rep64 R s) {min max : Nat} (hmax : max < TOP64) :
    ∃ r' R', r.removeRangeClosed min max = .ok r' ∧ Sim64 r' L R' ∧ Rep64 R' (Spec.diff s (range min (max + 1))) := by
  unfold R64M.removeRangeClosed
  by_cases hlt : min > max
  · rw [if_pos hlt]
    exact ⟨r, R, rfl, h, hR.congr fun x => by simp only [Spec.diff, range_dec]; rw [decide_eq_false (by omega), Bool.not_false, Bool.and_true]⟩
  rw [if_neg hlt]
  have hn1 := keyNum_split (show min < TOP64 by omega)
  have hn2 := keyNum_split hmax
  simp only [key_cmp (show min < TOP64 by omega) hmax, splitKey_low]
  by_cases he : min / 65536 = max / 65536
  · rw [if_pos he]
    obtain ⟨r', g1, g2⟩ := removeRangeAt_ok h hR.inv.1 (splitKey_isKey min) (min % 65536) (max % 65536)
    refine ⟨r', _, g1, g2, (removeRangeClosedAt_spec hR (splitKey_isKey min) (a := min % 65536) (b := max % 65536) (by omega) (by omega)).congr fun x => ?_⟩
    simp only [Spec.diff, range_dec]
    congr 2
    exact decide_eq_decide.2 (by omega)
  · rw [if_neg he]
    obtain ⟨r1, g1, g2⟩ := removeRangeAt_ok h hR.inv.1 (splitKey_isKey min) (min % 65536) 65535
    have h1 := removeRangeClosedAt_spec hR (splitKey_isKey min) (a := min % 65536) (b := 65535) (by omega) (by omega)
    obtain ⟨F, m, g2⟩ := g2
    obtain ⟨it, o, i1, i2, i3⟩ := g2.after (splitKey_isKey min)
    have hkl := key_lt (splitKey_isKey min)
    obtain ⟨r2, R2, f1, f2, f3⟩ := removeBetween_ok (splitKey_isKey max) FUEL i2 h1 i3 hkl (by have := FUEL_keys.1; omega)
    obtain ⟨r3, f4, f5⟩ := removeRangeAt_ok f2 f3.inv.1 (splitKey_isKey max) 0 (max % 65536)
    refine ⟨r3, _, by rw [g1, ok_bind, i1, ok_bind, f1, ok_bind, f4], f5,
      (removeRangeClosedAt_spec f3 (splitKey_isKey max) (a := 0) (b := max % 65536) (by omega) (by omega)).congr fun x => ?_⟩
    simp only [Spec.diff, range_dec, Bool.and_assoc]
    congr 1
    rw [← Bool.not_or, ← Bool.not_or, ← Bool.decide_or, ← Bool.decide_or]
    congr 1
    exact decide_eq_decide.2 (by omega)

/-! ### Copies -/

theorem copy_loop {r : R64M} {L L' : ArtRef → Prop} {C : Conts} (n : Nat) : ∀ {B : Prop} {d : R64M} {F' : ArtRef → Prop} {m' : List Nat → Option Nat} {D : Conts}
    {it : HIt} {o : Option (List Nat)} {X : Nat}, Cs r L C B it o → From C X o → X ≤ P48 → P48 < n + X → St d L' F' m' D →
    (∀ k, IsKey k → X ≤ keyNum k → D k = none) →
    ∃ d' F2 m2, R64M.copyLoop r n it d = .ok d' ∧ St d' L' F2 m2 (Fin (fun _ _ c => c) D C X) := by
  induction n with
  | zero => intro B d F' m' D it o X _ _ h1 h2; omega
  | succ n ih =>
    intro B d F' m' D it o X h hf hX hn hd hD
    unfold R64M.copyLoop
    cases o with
    | none =>
      refine ⟨d, F', m', by rw [h.ended], hd.congr fun k hk => ?_⟩
      unfold Fin
      split
      · rfl
      · rw [hD k hk (by omega), hf.off hk (by omega)]
    | some k =>
      obtain ⟨hk, hxk, hkl⟩ := hf.isKey
      obtain ⟨p, c, d1, F1, m1, h1, h2, h3, h4⟩ := h.copyTo hd (hD k hk hxk)
      obtain ⟨-, _, _, _, _, -, hkey, -⟩ := h.key
      obtain ⟨it', o', n1, n2, n3⟩ := h.next
      obtain ⟨d', F2, m2, g1, g2⟩ := ih n2 n3 hkl (by omega) h4 (fun k' hk' hx => by rw [upd_num _ (by omega)]; exact hD k' hk' (by omega))
      refine ⟨d', F2, m2, ?_, Fin.step (by omega) (fun k' hk' hor => upd_num _ (by omega)) (fun k' hk' hx hx' => ?_) g2⟩
      · simp only [h1, hkey, h3, ok_bind, n1]; exact g1
      · by_cases e : k' = k
        · subst e; rw [upd_same, h2]
        · have : keyNum k' ≠ keyNum k := fun e2 => e (key_inj hk' hk e2)
          rw [upd_ne _ _ e, hD k' hk' hx, hf.gap hk' hx (by omega)]

theorem copy_ok {r : R64M} {L : ArtRef → Prop} {R : R64} (h : Sim64 r L R) : ∃ d, r.copy = .ok d ∧ Sim64 d (fun _ => False) R := by
  obtain ⟨F, m, h⟩ := h
  obtain ⟨it, o, i1, i2, i3⟩ := h.start
  obtain ⟨F', m', h0⟩ := sim64_create
  obtain ⟨d, F2, m2, g1, g2⟩ := copy_loop FUEL i2 i3 FUEL_keys.2 FUEL_keys.1 h0 (fun _ _ _ => rfl)
  exact ⟨d, by unfold R64M.copy; rw [i1, ok_bind]; exact g1, F2, m2, g2.congr fun k hk => if_neg (Nat.not_lt_zero _)⟩

/-! ### Copies, with the traversal -/

theorem copyWalk_loop {r : R64M} {L F : ArtRef → Prop} {m : List Nat → Option Nat} {C : List Nat → Option Container} (h : St r L F m C) {L' : ArtRef → Prop} :
    ∀ (l : List ArtRef) {d : R64M} {F' : ArtRef → Prop} {m' : List Nat → Option Nat} {D : List Nat → Option Container}, St d L' F' m' D → l.Nodup →
    (∀ x ∈ l, ∃ k, LeafOf r.art F k x ∧ m' k = none) →
    ∃ d' F2 m2 D', l.foldlM (fun result ref => r.copyLeaf result ref) d = .ok d' ∧ St d' L' F2 m2 D' ∧
      (∀ k x, x ∈ l → LeafOf r.art F k x → D' k = C k) ∧ (∀ k, (∀ x ∈ l, ¬ LeafOf r.art F k x) → D' k = D k)
  | [], d, F', m', D, hd, _, _ => ⟨d, F', m', D, rfl, hd, by simp, by simp⟩
  | x :: l, d, F', m', D, hd, hn, hl => by
    obtain ⟨k, hk, hkn⟩ := hl x (List.mem_cons_self ..)
    obtain ⟨j, a, c, hA⟩ := h.at (h.map.ptr hk)
    have hn' := List.nodup_cons.1 hn
    have hother : ∀ y ∈ l, ∀ k', LeafOf r.art F k' y → k' ≠ k := by
      rintro y hy k' hk' rfl
      exact hn'.1 ((LeafOf.ref_eq h.map hk hk') ▸ hy)
    obtain ⟨d1, p, F1, m1, g1, g2, -, g3⟩ := hd.put_ok hA.ptr.key hkn c
    obtain ⟨d', F2, m2, D', f1, f2, f3, f4⟩ := copyWalk_loop h l g2 hn'.2 (fun y hy => by
      obtain ⟨k', hk', hkn'⟩ := hl y (List.mem_cons_of_mem _ hy)
      exact ⟨k', hk', by rw [g3 k' (hother y hy k' hk')]; exact hkn'⟩)
    refine ⟨d', F2, m2, D', ?_, f2, fun k' y hy hk' => ?_, fun k' hk' => ?_⟩
    · have hp : r.art.heap.peekLeaf (r.art.heap.deref x) = .ok (k, hk.2.choose) := peekLeaf_ok (deref_valid _ x) hk.2.choose_spec
      rw [List.foldlM_cons]
      simp only [R64M.copyLeaf, hp, ok_bind, hA.look, g1]
      exact f1
    · rcases List.mem_cons.1 hy with rfl | hy
      · rw [← hk.key_eq hk', f4 k (fun y hy e => hother y hy k e rfl), upd_same, hA.here]
      · exact f3 k' y hy hk'
    · rw [f4 k' (fun y hy => hk' y (List.mem_cons_of_mem _ hy)), upd_ne _ _ (fun e => hk' x (List.mem_cons_self ..) (by rw [e]; exact hk))]

theorem copyWalk_ok {r : R64M} {L : ArtRef → Prop} {R : R64} (h : Sim64 r L R) : ∃ d, r.copyWalk = .ok d ∧ Sim64 d (fun _ => False) R := by
  obtain ⟨F, m, h⟩ := h
  obtain ⟨l, h1, h2, h3, h4⟩ := h.map.leaves
  obtain ⟨F', m', h0⟩ := sim64_create
  have hm' : ∀ k, IsKey k → m' k = none := by
    intro k hk
    cases e : m' k with
    | none => rfl
    | some j =>
      obtain ⟨a, c, -, -, -, hc⟩ := h0.slots.found k j hk e
      cases hc
  obtain ⟨d, F2, m2, D, g1, g2, g3, g4⟩ := copyWalk_loop h l h0 h2 (fun x hx => by
    obtain ⟨k, hk⟩ := h3 x hx
    exact ⟨k, hk, hm' k (h.map.ptr hk).key⟩)
  refine ⟨d, by unfold R64M.copyWalk; rw [h1, ok_bind]; exact g1, F2, m2, g2.congr fun k hk => ?_⟩
  cases e : m k with
  | none =>
    rw [g4 k (fun x _ hx => by obtain ⟨v, hv, _⟩ := (h.map.ptr hx).load; rw [e] at hv; cases hv), h.slots.absent k hk e]; rfl
  | some v =>
    obtain ⟨x, hx, hx'⟩ := h4 k hk (by rw [e]; simp)
    rw [g3 k x hx hx']

end CRoaring
