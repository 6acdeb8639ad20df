import Verif.Lemmas.BitsetFrom
import Verif.Props.C129
import Verif.Props.C18
/-!
C131: `roaring_bitmap_to_bitset` on memory that may be refused, between any two histories of calls on standalone bitsets.

The specification of the histories is Verif/BitsetHistSpec.lean.
-/
namespace CRoaring.Props
open CRoaring BitsetHist

/-- What a program may rely on after any history on standalone bitsets that started from the bitsets `s`. -/
def GoesOn (al : BAlloc) (w : BWorld) (s : Pool) : Prop :=
  ∀ ops : List Op, (∀ op ∈ ops, fits op) →
    ∃ w' rs, bmRun al w ops = some (w', rs) ∧ BitsTidy w' ∧
      ∃ lucks : List Luck, lucks.length = ops.length ∧ lucks.map Luck.memory = rs.map (·.2) ∧
        ShowsBits w' (BitsetHist.run s (lucks.zip ops)).1 ∧ (BitsetHist.run s (lucks.zip ops)).2 = rs.map (·.1)

/-- C131: after any history of calls, with any allocator, writing a bitmap into any of the bitsets makes only accesses within allocated
blocks and loses no memory.  The answer says whether the memory was granted.  If not, the bitsets are as before.  If so, the bitset has
just the words up to the maximum of the bitmap; if it had no bits before, its bits are the values of the bitmap; all other bitsets are as
before.  In both cases any further history of calls goes on from these bitsets. -/
theorem C131_to_bitset (al : BAlloc) (ops : List Op) (hfit : ∀ op ∈ ops, fits op) {r : Bitmap} (hr : Valid r) :
    ∃ w rs, bmRun al BWorld.start ops = some (w, rs) ∧
      ∃ lucks : List Luck, lucks.length = ops.length ∧ lucks.map Luck.memory = rs.map (·.2) ∧
        ∀ i b, BitsetHist.get (BitsetHist.run [] (lucks.zip ops)).1 i = some b →
          ∃ w' b', w.toBitset al i r = some (w', al.granted w.heap w'.heap) ∧ BitsTidy w' ∧
            ShowsBits w' ((BitsetHist.run [] (lucks.zip ops)).1.set i (some b')) ∧
            (al.granted w.heap w'.heap = false → b' = b) ∧
            (al.granted w.heap w'.heap = true → b'.words = rbMaximum r / 64 + 1 ∧
              ((∀ x, b.has x = false) → ∀ x, b'.has x = rbContains r x)) ∧
            GoesOn al w' ((BitsetHist.run [] (lucks.zip ops)).1.set i (some b')) := by
  obtain ⟨h, G, rs, lucks, e, hI, hl, hm, hrun⟩ := bmRun_ok al BMInv.start ops hfit
  have hrun' : BitsetHist.run [] (lucks.zip ops) = (bPool G, rs.map (·.1)) := hrun
  refine ⟨_, rs, e, lucks, hl, hm, ?_⟩
  rw [hrun']
  intro i b hi
  obtain ⟨h', G', b', q, et, hI', hq, hp, _, hn, hy⟩ := toBitset_ok al hI hi hr.inv
  subst hq
  refine ⟨_, b', et, tidy_of hI', ?_, hn, fun e2 => ⟨(hy e2).1, fun he x => ?_⟩, ?_⟩
  · have hp' : (bPool G).set i (some b') = bPool G' := hp.symm
    show ShowsBits _ ((bPool G).set i (some b'))
    rw [hp']
    exact shows_of hI'
  · rw [(hy e2).2 he x, rbContains_eq hr.inv]
  · intro ops2 hfit2
    obtain ⟨h2, G2, rs2, lucks2, e2, hI2, hl2, hm2, hr2⟩ := bmRun_ok al hI' ops2 hfit2
    show ∃ w' rs, _
    refine ⟨_, rs2, e2, tidy_of hI2, lucks2, hl2, hm2, ?_, ?_⟩
    · show ShowsBits _ (BitsetHist.run ((bPool G).set i (some b')) (lucks2.zip ops2)).1
      rw [← hp, hr2]
      exact shows_of hI2
    · show (BitsetHist.run ((bPool G).set i (some b')) (lucks2.zip ops2)).2 = _
      rw [← hp, hr2]

/-- C131, negative: the call is not meant for a bitset that has bits.  Bits that are not values of the bitmap may stay: here bit 5, and the
bitmap is {7}. -/
theorem C131_needs_no_bits :
    ∃ (al : BAlloc) (ops : List Op) (w w' : BWorld) (rs : List (Bool × Bool)) (r : Bitmap), (∀ op ∈ ops, fits op) ∧ Valid r ∧
      bmRun al BWorld.start ops = some (w, rs) ∧ w.toBitset al 0 r = some (w', true) ∧ w'.get 0 5 = some true ∧
      rbContains r 5 = false := by
  refine ⟨pick [0, 1], [.create, .set 0 5], ⟨⟨[some (.obj (some 1) 1 2), some (.words [32#64, ones])], 2⟩, [some 0]⟩,
    ⟨⟨[some (.obj (some 1) 1 2), some (.words [160#64, ones])], 2⟩, [some 0]⟩, [(true, true), (true, true)], [(0, .array [7])],
    ?_, ?_, ?_, ?_, ?_, ?_⟩
  · simp [fits]
  · decide +kernel
  all_goals decide +kernel

/-! ## Example: the hypotheses are met -/

/-- A bitmap with runs. -/
def justRuns : Bitmap := [(0, .run [(5, 130), (300, 0)])]

/-- Two bitsets; the second one has bits. -/
def twoBitsets : List Op := [.createCap 100, .create, .set 1 9]

example : ∀ op ∈ twoBitsets, fits op := by simp [fits, twoBitsets]

example : Valid justRuns ∧ Valid exS := ⟨by decide +kernel, exS_valid⟩

/-- With memory: the bits are the values of the bitmap, and the other bitset is as before. -/
example : (bmRun (pick [0, 1, 2, 3, 4]) BWorld.start twoBitsets).bind (fun r => (r.1.toBitset (pick [0, 1, 2, 3, 4]) 0 justRuns).map
    fun q => (q.2, q.1.words 0, [4, 5, 64, 135, 136, 299, 300, 301].map (q.1.get 0), q.1.get 1 9)) =
    some (true, some 5, [false, true, true, true, false, false, true, false].map some, some true) := by decide +kernel

/-- Without memory: `false`, and the bitset has its two words as before. -/
example : (bmRun (pick [0, 1, 2, 3]) BWorld.start twoBitsets).bind (fun r => (r.1.toBitset (pick [0, 1, 2, 3]) 0 justRuns).map
    fun q => (q.2, q.1.words 0, q.1.get 0 5)) = some (false, some 2, some false) := by decide +kernel

end CRoaring.Props
