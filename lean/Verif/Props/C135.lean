import Verif.Lemmas.BitmapMemFrozen
import Verif.Props.C32
import Verif.Props.C116
/-!
C135: the frozen format of bitmaps in memory.  `roaring_bitmap_frozen_serialize` reads only cells and elements in use, so the bytes do not
depend on the capacities and the unused parts of the blocks; it writes exactly `roaring_bitmap_frozen_size_in_bytes` bytes, and a view of
these has the same values.
-/
namespace CRoaring.Props
open CRoaring.Spec (IsBitmapSet SlotIs Allocates)

/-- The bytes are those that the documented layout prescribes (`specFrozen`, in Props/C32) for a valid bitmap `r` with the values `s`.
They go to any place with enough room, everything else stays, and a view of them, at an address that is a multiple of 32, is `r`. -/
theorem C135_frozen {b : RaBuf} {s : NSet} (h : IsBitmapSet b s) :
    ∃ n r, Valid r ∧ (∀ v, rbContains r v = s v) ∧ rbFrozenSizeBuf b = .ok n ∧ (specFrozen r).length = n ∧
      (∀ (mem : List UInt8) (off : Nat), off + n ≤ mem.length →
        rbFrozenSerializeBuf b mem off = .ok (mem.take off ++ specFrozen r ++ mem.drop (off + n))) ∧
      ∀ tail addr, addr % 32 = 0 → rbFrozenView addr (specFrozen r ++ tail) n = .ok r := by
  obtain ⟨r, hb, hr, e⟩ := isBitmapSet_iff.1 h
  have ht : ∀ p ∈ r, CTyped p.2 := fun p hp => ((bp_iff.1 hr).2.2 p hp).1.typed
  have hv := C32_frozen_round_trip hr.valid (mem := List.replicate (rbFrozenSize r) 0) (by simp)
  refine ⟨_, r, hr.valid, fun v => by rw [rbContains_eq hr, e], rbFrozenSizeBuf_spec hb, hv.1, fun mem off hm => ?_, hv.2.2⟩
  rw [rbFrozenSerializeBuf_spec hb, specFrozen_eq hr]
  exact rbFrozenSerialize_eq ht hm

/-- With less room than that the function writes after the end of the block. -/
theorem C135_needs_room {b : RaBuf} {s : NSet} (h : IsBitmapSet b s) {n : Nat} (hn : rbFrozenSizeBuf b = .ok n) (mem : List UInt8) (off : Nat)
    (hm : mem.length < off + n) : rbFrozenSerializeBuf b mem off = .oob := by
  obtain ⟨r, hb, hr, e⟩ := isBitmapSet_iff.1 h
  rw [rbFrozenSizeBuf_spec hb] at hn
  rw [rbFrozenSerializeBuf_spec hb]
  exact rbFrozenSerialize_oob (by rw [Out.ok.inj hn]; exact hm)

/-! ### The hypotheses are met

`twoCells`, in Props/C115, is the bitmap {5, 65536, 65537, 65538} in a block with a cell that is not in use. -/

example : rbFrozenSizeBuf twoCells = .ok 20 ∧ rbFrozenSerializeBuf twoCells (List.replicate 23 9) 2 =
    .ok [9, 9, 0, 0, 2, 0, 5, 0, 0, 0, 1, 0, 0, 0, 1, 0, 2, 3, 198, 53, 1, 0, 9] := by decide +kernel

example : rbFrozenSerializeBuf twoCells (List.replicate 19 9) 0 = .oob := by decide +kernel

end CRoaring.Props
