import Verif.Model.BitsetFromMem
import Verif.Lemmas.BitmapMem12
set_option linter.unusedSimpArgs false
set_option linter.unusedVariables false

/-! Bitmaps in memory written into standalone bitsets (C131). -/

namespace CRoaring
open Spec

theorem bmFromLoopBuf_spec (a : Option Nat) (n : Nat) (B : Bitmap) : ∀ {A : Bitmap} {b : RaBuf} (h : BHeap), RHolds b (A ++ B) →
    bmFromLoopBuf b.mem a n B.length A.length h = bmFromLoop h a n B := by
  induction B with
  | nil => intro A b h hb; rfl
  | cons p t ih =>
    intro A b h hb
    obtain ⟨k, c⟩ := p
    have hi := fun h => ih h hb.next
    simp only [List.length_append, List.length_singleton] at hi
    rw [List.length_cons, bmFromLoopBuf, hb.loadCell, bmFromLoop]
    simp only [hi]
    rfl

theorem toBitsetBuf_spec (al : BAlloc) (w : BWorld) (i : Nat) {b : RaBuf} {r : Bitmap} (h : RHolds b r) :
    w.toBitsetBuf al i b = w.toBitset al i r := by
  have h0 : RHolds b ([] ++ r) := by simpa using h
  have e := fun a n hp => bmFromLoopBuf_spec a n r hp h0
  simp only [List.length_nil] at e
  unfold BWorld.toBitsetBuf BWorld.toBitset
  congr 1
  funext p
  unfold bmToBitsetBuf bmToBitset
  rw [rbMaximumBuf_spec h]
  simp only [h.size, e]
  rfl

end CRoaring
