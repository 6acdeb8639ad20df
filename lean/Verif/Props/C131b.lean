import Verif.Lemmas.BitsetFromMem
import Verif.Props.C115
import Verif.Props.C131
/-!
C131, continued: the bitmap is in memory too.
-/
namespace CRoaring.Props
open CRoaring BitsetHist
open CRoaring.Spec (IsBitmapSet)

/-- C131, for a bitmap `c` in memory that has the values `s`: the call reads only cells and elements of it that are in use, too. -/
theorem C131_to_bitset_from_memory (al : BAlloc) (ops : List BitsetHist.Op) (hfit : ∀ op ∈ ops, fits op) {c : RaBuf} {s : NSet} (hc : IsBitmapSet c s) :
    ∃ w rs, bmRun al BWorld.start ops = some (w, rs) ∧
      ∃ lucks : List Luck, lucks.length = ops.length ∧ lucks.map Luck.memory = rs.map (·.2) ∧
        ∀ i b, BitsetHist.get (BitsetHist.run [] (lucks.zip ops)).1 i = some b →
          ∃ w' b', w.toBitsetBuf al i c = some (w', al.granted w.heap w'.heap) ∧ BitsTidy w' ∧
            ShowsBits w' ((BitsetHist.run [] (lucks.zip ops)).1.set i (some b')) ∧
            (al.granted w.heap w'.heap = false → b' = b) ∧
            (al.granted w.heap w'.heap = true → (∀ m, s m = true → (∀ v, s v = true → v ≤ m) → b'.words = m / 64 + 1) ∧
              ((∀ v, s v = false) → b'.words = 1) ∧
              ((∀ x, b.has x = false) → ∀ x, b'.has x = s x)) ∧
            GoesOn al w' ((BitsetHist.run [] (lucks.zip ops)).1.set i (some b')) := by
  obtain ⟨r, hb, hr, e⟩ := isBitmapSet_iff.1 hc
  obtain ⟨w, rs, e1, lucks, e2, e3, hall⟩ := C131_to_bitset al ops hfit hr.valid
  refine ⟨w, rs, e1, lucks, e2, e3, fun i b hi => ?_⟩
  obtain ⟨w', b', g1, g2, g3, g4, g5, g6⟩ := hall i b hi
  refine ⟨w', b', by rw [toBitsetBuf_spec al w i hb, g1], g2, g3, g4, fun hg => ⟨fun m hm hmax => ?_, fun h0 => ?_, fun he x => ?_⟩, g6⟩
  · have hne : r ≠ [] := fun h0 => by
      subst h0
      rw [← e] at hm
      cases hm
    have hx := (rbMaximum_spec hr).2 hne
    rw [funext e] at hx
    have : rbMaximum r = m := Nat.le_antisymm (hmax _ hx.1) (hx.2 m hm)
    rw [(g5 hg).1, this]
  · have hr0 : r = [] := by
      by_contra hne
      have hx := ((rbMaximum_spec hr).2 hne).1
      rw [e, h0] at hx
      cases hx
    rw [(g5 hg).1, (rbMaximum_spec hr).1 hr0]
  · rw [(g5 hg).2 he x, rbContains_eq hr, e]

/-! ### The hypotheses are met -/

/-- The bitmap {5, 70} in a block with a cell that is not in use. -/
def lowCell : RaBuf := ⟨1, [(0, .array ⟨2, [5, 70, 99]⟩), (77, .array ⟨4, []⟩)]⟩

example : IsBitmapSet lowCell (Spec.ofList [5, 70]) := by
  refine isBitmapSet_of (r := [(0, .array [5, 70])]) ⟨rfl, by decide, ?_⟩ ?_ ?_
  · exact cellsAt_cons.2 ⟨⟨_, rfl, ⟨[99], rfl⟩⟩, cellsAt_nil _ _⟩
  · exact ⟨by decide, ⟨⟨⟨by simp, by simp⟩, by simp⟩, 5, by decide⟩, by simp, trivial⟩
  · intro x
    simp only [bhas, List.any_cons, List.any_nil, chas, runHas, Spec.ofList, List.mem_cons, List.not_mem_nil, or_false, Bool.or_false]
    rw [Bool.eq_iff_iff]
    simp only [Bool.and_eq_true, beq_iff_eq, decide_eq_true_eq]
    omega

example : (bmRun (pick [0, 1]) BWorld.start [.create]).bind (fun w => (w.1.toBitsetBuf (pick [0, 1]) 0 lowCell).bind fun q =>
    (q.1.get 0 5).bind fun x => (q.1.get 0 70).bind fun y => (q.1.get 0 99).map fun z => (q.2, x, y, z)) =
    some (true, true, true, false) := by decide +kernel

end CRoaring.Props
