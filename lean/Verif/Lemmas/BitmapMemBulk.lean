import Verif.Model.BitmapMemBulk
import Verif.Lemmas.BitmapMem8
import Verif.Lemmas.BitmapMem12
import Verif.Lemmas.Stats
set_option linter.unusedSimpArgs false
set_option linter.unusedVariables false

/-! Bulk contexts and statistics of bitmaps in memory (C133). -/

namespace CRoaring
open Spec

/-- What `rbContainsBulk` answers after a search from `start`. -/
def seekVal (r : Bitmap) (ctx : BulkCtx) (val start : Nat) : Bool × BulkCtx :=
  let idx := raAdvanceFrom r (val / 65536) start
  if idx = r.length then (false, ctx)
  else
    let ctx' : BulkCtx := some (idx, keyAt r idx)
    if keyAt r idx ≠ val / 65536 then (false, ctx') else (containerContains (val % 65536) (contAt r idx), ctx')

theorem rbContainsSeekBuf_spec {b : RaBuf} {r : Bitmap} (h : RHolds b r) (hr : BInv r) (ctx : BulkCtx) (v start : Nat) (hs : start ≤ r.length) :
    rbContainsSeekBuf b ctx v start = .ok (seekVal r ctx v start) := by
  rw [rbContainsSeekBuf, seekVal, h.keys, ok_bind, h.size]
  have hle : raAdvanceFrom r (v / 65536) start ≤ r.length := by
    rw [raAdvanceFrom_all hr.sorted]
    have : lb (keysOf r) (v / 65536) ≤ r.length := by have := lb_le (keysOf r) (v / 65536); simpa [keysOf] using this
    omega
  rw [raAdvanceFrom] at hle ⊢
  generalize advanceFrom (rdL (keysOf r)) start r.length (v / 65536) = idx at hle
  by_cases hi : idx = r.length
  · simp only [if_pos hi]
  · simp only [if_neg hi]
    have hlt : idx < r.length := by omega
    have hlen := hr.length_le
    have e := cell_split hlt
    have h' : RHolds b (r.take idx ++ (keyAt r idx, contAt r idx) :: r.drop (idx + 1)) := e ▸ h
    have hl : (r.take idx).length = idx := by rw [List.length_take]; omega
    obtain ⟨o, e1, g⟩ := h'.cont (by omega)
    have e2 := h'.key (by omega)
    rw [hl] at e1 e2
    rw [e1, ok_bind, e2, ok_bind]
    simp only []
    by_cases hk : keyAt r idx ≠ v / 65536
    · simp only [if_pos hk]
    · simp only [if_neg hk]
      rw [g.load, ok_bind]

theorem rbContainsBulkBuf_spec {b : RaBuf} {r : Bitmap} (h : RHolds b r) (hr : BInv r) {ctx : BulkCtx} (hc : CtxOK r ctx) (v : Nat) :
    rbContainsBulkBuf b ctx v = .ok (rbContainsBulk r ctx v) := by
  rcases ctx with _ | ⟨idx, k⟩
  · rw [rbContainsBulkBuf]
    exact rbContainsSeekBuf_spec h hr _ v 0 (Nat.zero_le _)
  · obtain ⟨h1, h2⟩ := hc idx k rfl
    simp only [rbContainsBulkBuf, rbContainsBulk]
    by_cases hk : k ≠ v / 65536
    · rw [if_pos hk, if_pos hk]
      refine rbContainsSeekBuf_spec h hr _ v _ ?_
      split <;> omega
    · rw [if_neg hk, if_neg hk]
      have e := cell_split h1
      have h' : RHolds b (r.take idx ++ (keyAt r idx, contAt r idx) :: r.drop (idx + 1)) := e ▸ h
      have hl : (r.take idx).length = idx := by rw [List.length_take]; omega
      have := h'.loadCell
      rw [hl] at this
      rw [this, ok_bind]

theorem rbStatLoopBuf_spec (B : Bitmap) : ∀ {A : Bitmap} {b : RaBuf} (st : Stats), RHolds b (A ++ B) →
    rbStatLoopBuf b.mem B.length A.length st = .ok (B.foldl statStep st) := by
  induction B with
  | nil => intro A b st h; rfl
  | cons p t ih =>
    intro A b st h
    have := ih (statStep st p) h.next
    rw [List.length_append, List.length_singleton] at this
    rw [List.length_cons, rbStatLoopBuf, h.loadCell, ok_bind, this, List.foldl_cons]

theorem rbStatisticsBuf_spec {b : RaBuf} {r : Bitmap} (h : RHolds b r) : rbStatisticsBuf b = .ok (rbStatistics r) := by
  rw [rbStatisticsBuf, rbMinimumBuf_spec h, ok_bind, rbMaximumBuf_spec h, ok_bind, h.size]
  exact rbStatLoopBuf_spec r (A := []) _ (by simpa using h)

end CRoaring
