import Verif.Lemmas.BitmapMem7
set_option linter.unusedSimpArgs false
set_option linter.unusedVariables false

/-! Bitmaps in memory: several values at a time, conversions, `from_range`. -/

namespace CRoaring
open Spec

variable {E : RbEnv}

/-! ### Several values -/

theorem addedIndex_eq (r : Bitmap) (v : Nat) : addedIndex (raGetIndex r (v / 65536)) = rbAddIndex r v := rfl

theorem rbAddSeekBuf_spec (hE : RbEnvOK E) {b : RaBuf} {r : Bitmap} (h : RHolds b r) (hr : BInv r) {v : Nat} (hv : v < 4294967296) :
    ∃ b', rbAddSeekBuf E b v = .ok (b', some (rbAddIndex r v, v / 65536)) ∧ RHolds b' (rbAdd r v) := by
  obtain ⟨b', e, h'⟩ := rbAddBuf_spec hE h hr hv
  rw [rbAddSeekBuf, h.index, ok_bind, e, ok_bind, addedIndex_eq]
  exact ⟨b', rfl, h'⟩

theorem rbAddBulkBuf_spec (hE : RbEnvOK E) {b : RaBuf} {r : Bitmap} (h : RHolds b r) (hr : BInv r) {ctx : BulkCtx} (hc : CtxOK r ctx) {v : Nat}
    (hv : v < 4294967296) : ∃ b', rbAddBulkBuf E b ctx v = .ok (b', (rbAddBulk r ctx v).2) ∧ RHolds b' (rbAddBulk r ctx v).1 := by
  rcases ctx with _ | ⟨idx, k⟩
  · exact rbAddSeekBuf_spec hE h hr hv
  · rw [rbAddBulkBuf, rbAddBulk]
    by_cases hk : k ≠ v / 65536
    · rw [if_pos hk, if_pos hk]
      exact rbAddSeekBuf_spec hE h hr hv
    · rw [if_neg hk, if_neg hk]
      obtain ⟨h1, h2⟩ := hc idx k rfl
      have e := cell_split h1
      have hlen : (r.take idx).length = idx := by simp; omega
      generalize hA : r.take idx = A at e hlen
      generalize hB : r.drop (idx + 1) = B at e
      generalize hcc : contAt r idx = c at e ⊢
      generalize hkk : keyAt r idx = k' at e
      clear hA hB hcc hkk
      subst e
      subst hlen
      obtain ⟨⟨o, h3, h4⟩, _⟩ := cellsAt_cons.1 (cellsAt_append.1 h.cells).2
      rw [Nat.zero_add] at h3
      obtain ⟨o2, e2, h5⟩ := cAddBuf_spec hE.m h4 (bp_mid.1 hr).2.2.1.1 (v % 65536)
      obtain ⟨b', e3, h6, _⟩ := h.set h5
      rw [cellAt_eq h3, ok_bind, e2, ok_bind, e3, ok_bind, raSet_mid]
      exact ⟨b', rfl, h6⟩

theorem rbAddManyLoopBuf_spec (hE : RbEnvOK E) (vals : List Nat) : ∀ {b : RaBuf} {r : Bitmap} {ctx : BulkCtx}, RHolds b r → BInv r → CtxOK r ctx →
    (∀ v ∈ vals, v < 4294967296) → RGives (rbAddManyLoopBuf E b ctx vals) (rbAddManyLoop r ctx vals) := by
  induction vals with
  | nil => intro b r ctx h _ _ _; exact ⟨b, rfl, h⟩
  | cons v vs ih =>
    intro b r ctx h hr hc hv
    obtain ⟨b', e, h'⟩ := rbAddBulkBuf_spec hE h hr hc (hv v (by simp))
    have h1 := rbAddBulk_spec hr hc v
    rw [rbAddManyLoopBuf, e, ok_bind, rbAddManyLoop]
    refine ih h' ?_ ?_ fun w hw => hv w (by simp [hw])
    · rw [h1.1]; exact (rbAdd_spec hr (hv v (by simp))).1
    · rw [h1.1]; exact h1.2

theorem rbAddManyBuf_spec (hE : RbEnvOK E) {b : RaBuf} {r : Bitmap} (h : RHolds b r) (hr : BInv r) {vals : List Nat} (hv : ∀ v ∈ vals, v < 4294967296) :
    RGives (rbAddManyBuf E b vals) (rbAddMany r vals) := by
  cases vals with
  | nil => exact ⟨b, rfl, h⟩
  | cons v vs =>
    obtain ⟨b', e, h'⟩ := rbAddSeekBuf_spec hE h hr (hv v (by simp))
    rw [rbAddManyBuf, e, ok_bind, rbAddMany]
    exact rbAddManyLoopBuf_spec hE _ h' (rbAdd_spec hr (hv v (by simp))).1 (rbAdd_ctx hr v) hv

theorem RQ.replace {Q : Nat → CBuf → Container → Prop} {b : RaBuf} {A B : Bitmap} {p : Nat × Container} (h : RQ Q b (A ++ p :: B)) {k : Nat} {o : CBuf}
    {c : Container} (hc : Q k o c) : ∃ b', raReplaceBuf b A.length k o = .ok b' ∧ RQ Q b' (A ++ (k, c) :: B) := by
  have hl := h.lt
  obtain ⟨hA, hB⟩ := cellsAt_append.1 h.cells
  obtain ⟨_, h3⟩ := cellsAt_cons.1 hB
  rw [raReplaceBuf, setCell_eq hl, ok_bind]
  refine ⟨_, rfl, ⟨by simpa using h.size, by simpa using h.le, cellsAt_append.2 ⟨hA.set_ne (by omega) _, ?_⟩⟩⟩
  simp only [Nat.zero_add] at *
  exact CellsAt.set_here hl h3 hc rfl

theorem rbRemoveSeekBuf_spec {b : RaBuf} {r : Bitmap} (h : RHolds b r) (hr : BInv r) {pos : Int} (hp : pos < r.length) (key : Nat) :
    rbRemoveSeekBuf b pos key = .ok (raGetIndex r key) := by
  rw [rbRemoveSeekBuf]
  by_cases h1 : pos < 0
  · rw [if_pos h1, h.index]
  · rw [if_neg h1]
    have hl : pos.toNat < r.length := by omega
    have e := cell_split hl
    have hk := raGetIndex_keyAt hr hl
    have hlen : (r.take pos.toNat).length = pos.toNat := by simp; omega
    have hc := h.cells
    rw [e] at hc
    obtain ⟨⟨o, h3, h4⟩, _⟩ := cellsAt_cons.1 (cellsAt_append.1 hc).2
    rw [hlen, Nat.zero_add] at h3
    rw [cellAt_eq h3, ok_bind]
    split
    · rw [h.index]
    · rename_i hh
      have hh : key = keyAt r pos.toNat := by simpa using hh
      rw [hh, hk, Int.toNat_of_nonneg (by omega)]

theorem rbRemoveManyLoopBuf_spec (hE : RbEnvOK E) (vals : List Nat) : ∀ {b : RaBuf} {r : Bitmap} {pos : Int}, RHolds b r → BInv r → pos < r.length →
    (∀ v ∈ vals, v < 4294967296) → RGives (rbRemoveManyLoopBuf E b pos vals) (vals.foldl rbRemoveManyStep (r, pos)).1 := by
  induction vals with
  | nil => intro b r ctx h _ _ _; exact ⟨b, rfl, h⟩
  | cons v vs ih =>
    intro b r pos h hr hp hv
    have hs := rbRemoveManyStep_spec hr hp v
    have hb := (rbRemove_spec hr (hv v (by simp))).1
    have hvs : ∀ w ∈ vs, w < 4294967296 := fun w hw => hv w (by simp [hw])
    rw [← hs.1] at hb
    rw [rbRemoveManyLoopBuf, rbRemoveSeekBuf_spec h hr hp, ok_bind, List.foldl_cons]
    have hpos : (if pos < 0 ∨ v / 65536 ≠ keyAt r pos.toNat then raGetIndex r (v / 65536) else pos) = raGetIndex r (v / 65536) := by
      split
      · rfl
      · rename_i hh
        have h1 : ¬ pos < 0 := fun hq => hh (Or.inl hq)
        have h2 : v / 65536 = keyAt r pos.toNat := Classical.byContradiction fun hq => hh (Or.inr hq)
        rw [h2, raGetIndex_keyAt hr (by omega)]
        omega
    have est : rbRemoveManyStep (r, pos) v = (if raGetIndex r (v / 65536) ≥ 0 then
        if containerNonzero (containerRemove (v % 65536) (contAt r (raGetIndex r (v / 65536)).toNat)) then
          (raSet r (raGetIndex r (v / 65536)).toNat (containerRemove (v % 65536) (contAt r (raGetIndex r (v / 65536)).toNat)), raGetIndex r (v / 65536))
        else (raRemoveAt r (raGetIndex r (v / 65536)).toNat, -1)
      else (r, raGetIndex r (v / 65536))) := by
      simp only [rbRemoveManyStep]
      rw [hpos]
    rw [est] at hs hb ⊢
    rcases ra_split hr (v / 65536) with ⟨A, c, B, e, hA, hB, hi⟩ | ⟨A, B, e, hA, hB, hi⟩
    · simp only [hi] at hs hb ⊢
      rw [if_pos (by omega), Int.toNat_natCast] at hs hb
      rw [if_pos (by omega), if_pos (by omega), Int.toNat_natCast]
      subst e
      obtain ⟨⟨o, h3, h4⟩, _⟩ := cellsAt_cons.1 (cellsAt_append.1 h.cells).2
      rw [Nat.zero_add] at h3
      obtain ⟨o2, e2, h2⟩ := cRemoveBuf_spec hE.m h4 (bp_mid.1 hr).2.2.1.1 (v := v % 65536) (by omega)
      obtain ⟨b', e3, h5⟩ := h.replace (k := v / 65536) h2
      rw [contAt_mid] at hs hb ⊢
      rw [cellAt_eq h3, ok_bind, e2, ok_bind, e3, ok_bind, CHolds.nonzero h2]
      by_cases hn : containerNonzero (containerRemove (v % 65536) c) = true
      · rw [if_pos hn, raSet_mid] at hs hb
        rw [if_pos hn, if_pos hn, raSet_mid]
        exact ih h5 hb hs.2 hvs
      · rw [if_neg hn, raRemoveAt_mid] at hs hb
        obtain ⟨b2, e4, h6, _⟩ := h5.remove
        rw [if_neg hn, if_neg hn, raRemoveAt_mid, e4, ok_bind]
        exact ih h6 hb hs.2 hvs
    · simp only [hi] at hs hb ⊢
      rw [if_neg (by omega)] at hs hb
      rw [if_neg (by omega), if_neg (by omega)]
      exact ih h hb hs.2 hvs

theorem rbRemoveManyBuf_spec (hE : RbEnvOK E) {b : RaBuf} {r : Bitmap} (h : RHolds b r) (hr : BInv r) {vals : List Nat} (hv : ∀ v ∈ vals, v < 4294967296) :
    RGives (rbRemoveManyBuf E b vals) (rbRemoveMany r vals) := by
  rw [rbRemoveManyBuf, rbRemoveMany, h.size]
  split
  · exact ⟨b, rfl, h⟩
  · exact rbRemoveManyLoopBuf_spec hE vals h hr (by omega) hv

/-! ### Conversions -/

theorem mapCellsBuf_spec {f : CBuf → Out CBuf} {g : Container → Container} (hf : ∀ o c, CHolds o c → CInv c → Gives (f o) (g c)) (B : Bitmap) :
    ∀ {A : Bitmap} {b : RaBuf}, RHolds b (A ++ B) → (A ++ B).length ≤ 65536 → (∀ p ∈ B, CInv p.2) →
    RGives (mapCellsBuf f B.length A.length b) (A ++ B.map fun p => (p.1, g p.2)) := by
  induction B with
  | nil => intro A b h _ _; exact ⟨b, rfl, h⟩
  | cons p t ih =>
    intro A b h hl hi
    obtain ⟨k, c⟩ := p
    obtain ⟨o, e1, h1⟩ := h.cont (by simp at hl; omega)
    obtain ⟨o2, e2, h2⟩ := hf o c h1 (hi (k, c) (by simp))
    obtain ⟨b', e3, h3, _⟩ := h.set h2
    rw [List.length_cons, mapCellsBuf, e1, ok_bind, e2, ok_bind, e3, ok_bind]
    have := ih (A := A ++ [(k, g c)]) (b := b') (by simpa using h3) (by simpa using hl) fun p hp => hi p (by simp [hp])
    simpa using this

theorem mapCellsBuf_all {f : CBuf → Out CBuf} {g : Container → Container} (hf : ∀ o c, CHolds o c → CInv c → Gives (f o) (g c)) {b : RaBuf} {r : Bitmap}
    (h : RHolds b r) (hr : BInv r) : RGives (mapCellsBuf f b.size 0 b) (r.map fun p => (p.1, g p.2)) := by
  rw [h.size]
  exact mapCellsBuf_spec hf r (A := []) (by simpa using h) (by simpa using hr.length_le) fun p hp => (hr.all p hp).1

theorem rbRunOptimizeBuf_spec (hE : RbEnvOK E) {b : RaBuf} {r : Bitmap} (h : RHolds b r) (hr : BInv r) :
    RGives (rbRunOptimizeBuf E b) (rbRunOptimize r).1 :=
  mapCellsBuf_all (fun o c h1 h2 => cRunOptimizeBuf_spec hE.m h1 h2) h hr

theorem cRemoveRunBuf_spec (hE : RbEnvOK E) {o : CBuf} {c : Container} (h : CHolds o c) (i : CInv c) : Gives (cRemoveRunBuf E o) (removeRun c) := by
  cases o <;> cases c <;> try exact h.elim
  · exact ⟨_, rfl, h⟩
  · exact ⟨_, rfl, h⟩
  · rename_i r v
    rw [cRemoveRunBuf, Holds.load h, ok_bind, removeRun, convertToBitsetOrArray]
    split
    · obtain ⟨a, e, ha⟩ := convertToArrayBuf_spec hE.m.vals h ⟨i.1, i.2⟩
      rw [e, ok_bind]
      exact ⟨_, rfl, ha⟩
    · exact gives_ok rfl

theorem rbRemoveRunCompressionBuf_spec (hE : RbEnvOK E) {b : RaBuf} {r : Bitmap} (h : RHolds b r) (hr : BInv r) :
    RGives (rbRemoveRunCompressionBuf E b) (rbRemoveRunCompression r).1 :=
  mapCellsBuf_all (fun o c h1 h2 => cRemoveRunBuf_spec hE h1 h2) h hr

theorem rbShrinkBuf_spec (hE : RbEnvOK E) {b : RaBuf} {r : Bitmap} (h : RHolds b r) (hr : BInv r) :
    ∃ b', rbShrinkBuf E b = .ok b' ∧ RHolds b' r ∧ b'.mem.length = r.length := by
  obtain ⟨b1, e1, h1⟩ := mapCellsBuf_all (f := fun c => .ok (cShrinkBuf c).1) (g := fun c => c)
    (fun o c h1 h2 => ⟨_, rfl, cShrinkBuf_spec h1⟩) h hr
  rw [show (r.map fun p => (p.1, p.2)) = r by simp] at h1
  rw [rbShrinkBuf, e1, ok_bind]
  exact raShrinkBuf_spec hE h1

/-! ### from_range -/

theorem fromRangeBigBuf_spec (hE : RbEnvOK E) {max step : Nat} (hmax : max ≤ 4294967296) : ∀ (fuel value : Nat) {b : RaBuf} {ans r : Bitmap}, RHolds b ans →
    BInv ans → fromRangeBig max step fuel value ans = some r → RGives (fromRangeBigBuf E max step fuel value b) r := by
  intro fuel
  induction fuel with
  | zero => intro v b ans r _ _ h; cases h
  | succ fuel ih =>
    intro v b ans r h hi he
    rw [fromRangeBig] at he
    rw [fromRangeBigBuf]
    split at he
    · rename_i hv
      obtain ⟨b', e, h'⟩ := rbAddBuf_spec hE h hi (v := v) (by omega)
      rw [if_pos hv, e, ok_bind]
      exact ih _ h' (rbAdd_spec hi (by omega)).1 he
    · rename_i hv
      cases he
      rw [if_neg hv]
      exact ⟨b, rfl, h⟩

theorem fromRangeLoopBuf_spec (hE : RbEnvOK E) {max step : Nat} (hs : 0 < step) (hmax : max ≤ 4294967296) : ∀ (fuel m : Nat) {b : RaBuf} {ans r : Bitmap},
    RHolds b ans → m < max → BInv ans → (∀ p ∈ ans, p.1 < m / 65536) → fromRangeLoop max step fuel m ans = some r →
    RGives (fromRangeLoopBuf E max step fuel m b) r := by
  intro fuel
  induction fuel with
  | zero => intro m b ans r _ _ _ _ h; cases h
  | succ fuel ih =>
    intro m b ans r h hm hi hk he
    rw [fromRangeLoop] at he
    rw [fromRangeLoopBuf]
    have ek : m % 4294967296 / 65536 = m / 65536 := by omega
    simp only [ek] at he ⊢
    have ec : Nat.min (max - m / 65536 * 65536) 65536 = if max - m / 65536 * 65536 ≤ 65536 then max - m / 65536 * 65536 else 65536 := by
      split
      · exact Nat.min_eq_left (by omega)
      · exact Nat.min_eq_right (by omega)
    have hcm : m % 65536 < Nat.min (max - m / 65536 * 65536) 65536 := by rw [ec]; split <;> omega
    have hcm2 : Nat.min (max - m / 65536 * 65536) 65536 ≤ 65536 := Nat.min_le_right _ _
    generalize hcx : Nat.min (max - m / 65536 * 65536) 65536 = cmax at *
    obtain ⟨c, hc1, hc2⟩ := containerFromRange_spec (step := step) hs hcm hcm2
    have hcne : CNe c := hc2.cne (x := m % 65536) (by simp [hcm])
    have hB : BInv (ans ++ [(m / 65536, c)]) := by
      refine bp_append.2 ⟨hi, ⟨by omega, hcne, by simp, trivial⟩, ?_⟩
      intro p hp q hq
      simp only [List.mem_singleton] at hq
      subst hq
      exact hk p hp
    have hg := cFromRangeBuf_spec hE.m (m % 65536) cmax step hcm2
    rw [hc1] at hg he
    obtain ⟨o, e1, h1⟩ := hg
    obtain ⟨b', e2, h2⟩ := h.append hE (by have := hB.length_le; simp at this; omega) (k := m / 65536) h1
    rw [e1, ok_bind]
    simp only [e2, ok_bind]
    simp only [Option.getD_some] at he
    have hq2 : cmax - m % 65536 ≤ cmax - m % 65536 + step - 1 - (cmax - m % 65536 + step - 1) % step := by
      have h5 := Nat.mod_lt (cmax - m % 65536 + step - 1) hs
      omega
    split at he
    · rename_i hlt
      rw [if_pos hlt]
      refine ih _ h2 hlt hB ?_ he
      intro p hp
      have hke : m / 65536 < (m + (cmax - m % 65536 + step - 1 - (cmax - m % 65536 + step - 1) % step)) / 65536 := by
        split at ec <;> omega
      rcases List.mem_append.1 hp with hp | hp
      · have := hk p hp; omega
      · simp at hp; subst hp; exact hke
    · rename_i hlt
      rw [if_neg hlt]
      cases he
      exact ⟨b', rfl, h2⟩

theorem rbFromRangeBuf_spec (hE : RbEnvOK E) {min max step : Nat} {r : Bitmap} (he : rbFromRange 65537 min max step = some (some r)) :
    ∃ b, rbFromRangeBuf E min max step = .ok (some b) ∧ RHolds b r := by
  rw [rbFromRange] at he
  rw [rbFromRangeBuf]
  have hmx : (if max ≥ 4294967296 then 4294967296 else max) ≤ 4294967296 := by split <;> omega
  generalize (if max ≥ 4294967296 then 4294967296 else max) = mx at *
  have h0 : RHolds (rbCreateBuf E 0) [] := (raInitBuf_spec hE 0).1
  split at he
  · cases he
  · rename_i h1
    rw [if_neg h1]
    split at he
    · cases he
    · rename_i h2
      rw [if_neg h2]
      split at he
      · rename_i h3
        rw [if_pos h3]
        cases hg : fromRangeBig mx step 65537 min [] with
        | none => rw [hg] at he; cases he
        | some r' =>
          rw [hg] at he
          cases he
          obtain ⟨b, e, h⟩ := fromRangeBigBuf_spec hE hmx 65537 min h0 trivial hg
          rw [e, ok_bind]
          exact ⟨b, rfl, h⟩
      · rename_i h3
        rw [if_neg h3]
        cases hg : fromRangeLoop mx step 65537 min [] with
        | none => rw [hg] at he; cases he
        | some r' =>
          rw [hg] at he
          cases he
          obtain ⟨b, e, h⟩ := fromRangeLoopBuf_spec hE (by omega) hmx 65537 min h0 (by omega) trivial (by simp) hg
          rw [e, ok_bind]
          exact ⟨b, rfl, h⟩

end CRoaring
