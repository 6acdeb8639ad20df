import Verif.Lemmas.BitmapMem13
import Verif.Props.C28
import Verif.Props.C116
/-!
C117: bitmaps in memory, to bytes and back.  The writers read only cells that exist, write only the bytes they announce, and what they
write depends on the values alone in so far as it is read back to the same set, whatever the capacities and the unused parts of the blocks
on either side.  The readers, on any bytes, allocate blocks, fill them and never leave them, and if the validation accepts the result then it
is a well-formed bitmap, to which everything else applies.

The model answers `.oob` for any access outside the caller's bytes or a block of the bitmap, and `.fail` for `NULL`.
-/
namespace CRoaring.Props
open CRoaring.Spec (IsBitmapSet SlotIs Allocates)

section
variable {b : RaBuf} {s : NSet} (h : IsBitmapSet b s)
include h

/-- `portable_size_in_bytes` and `portable_serialize`, in bytes that have room for them: exactly the announced number of bytes is written, at
the start, the others are left as they were.  Reading them, followed by anything, under any limit that covers them, gives a well-formed
bitmap with the same values; so does the function without a limit. -/
theorem C117_portable_round_trip : ∃ n, raPortableSizeBuf b = .ok n ∧ ∀ mem : List UInt8, n ≤ mem.length →
    ∃ bytes : List UInt8, bytes.length = n ∧ rbPortableSerializeBuf b mem 0 = .ok (bytes ++ mem.drop n, n) ∧
      ∀ E, Allocates E → ∀ tail,
        (∀ maxbytes, n ≤ maxbytes → ∃ c, rbPortableDeserializeSafeBuf E (bytes ++ tail) 0 maxbytes = .ok c ∧ IsBitmapSet c s) ∧
        ∃ c, rbPortableDeserializeBuf E (bytes ++ tail) 0 = .ok c ∧ IsBitmapSet c s := by
  obtain ⟨r, hb, hr, e⟩ := isBitmapSet_iff.1 h
  refine ⟨_, raPortableSizeBuf_spec hb, fun mem hm => ?_⟩
  obtain ⟨bytes, e1, e2, e3, e4, _⟩ := C28_portable_round_trip hr.valid hm
  refine ⟨bytes, e1, by rw [rbPortableSerializeBuf_spec hb, e2], fun E hE tail => ⟨fun maxbytes hl => ?_, ?_⟩⟩
  · obtain ⟨c, a1, a2⟩ := RRel.ok (rbPortableDeserializeSafeBuf_spec hE.ok (bytes ++ tail) 0 maxbytes) (e3 tail maxbytes hl)
    exact ⟨c, a1, isBitmapSet_of a2 hr e⟩
  · obtain ⟨c, a1, a2⟩ := RRel.ok (rbPortableDeserializeSafeBuf_spec hE.ok (bytes ++ tail) 0 SIZE_MAX) (e4 tail)
    exact ⟨c, a1, isBitmapSet_of a2 hr e⟩

/-- The same for `size_in_bytes`, `serialize`, `deserialize` and `deserialize_safe`. -/
theorem C117_native_round_trip (hw : Hw) : ∃ n, rbSizeInBytesBuf b = .ok n ∧ ∀ mem : List UInt8, n ≤ mem.length →
    ∃ bytes : List UInt8, bytes.length = n ∧ rbSerializeBuf hw b mem = .ok (bytes ++ mem.drop n, n) ∧
      ∀ E, Allocates E → ∀ tail,
        (∀ maxbytes, n ≤ maxbytes → ∃ c, rbDeserializeSafeBuf E (bytes ++ tail) maxbytes = .ok c ∧ IsBitmapSet c s) ∧
        ∃ c, rbDeserializeBuf E (bytes ++ tail) = .ok c ∧ IsBitmapSet c s := by
  obtain ⟨r, hb, hr, e⟩ := isBitmapSet_iff.1 h
  refine ⟨_, rbSizeInBytesBuf_spec hb, fun mem hm => ?_⟩
  obtain ⟨bytes, e1, e2, e3⟩ := C31_native_round_trip hr.valid hm
  refine ⟨bytes, e1, by rw [rbSerializeBuf_spec hw hb hr, e2], fun E hE tail => ?_⟩
  obtain ⟨r', v1, v2, _, v4, v5⟩ := e3 tail
  have e' : ∀ x, bhas r' x = s x := by
    intro x
    have := v2 x
    rw [rbContains_eq v1.inv, rbContains_eq hr] at this
    rw [this, e]
  refine ⟨fun maxbytes hl => ?_, ?_⟩
  · obtain ⟨c, a1, a2⟩ := RRel.ok (rbDeserializeSafeBuf_spec hE.ok (bytes ++ tail) maxbytes) (v5 maxbytes hl)
    exact ⟨c, a1, isBitmapSet_of a2 v1.inv e'⟩
  · obtain ⟨c, a1, a2⟩ := RRel.ok (rbDeserializeBuf_spec hE.ok (bytes ++ tail)) v4
    exact ⟨c, a1, isBitmapSet_of a2 v1.inv e'⟩

/-- `internal_validate` accepts every well-formed bitmap. -/
theorem C117_validate_accepts : rbInternalValidateBuf b = .ok true := by
  obtain ⟨r, hb, hr, e⟩ := isBitmapSet_iff.1 h
  rw [rbInternalValidateBuf_spec hb, hr.valid.2]

/-- Fewer bytes than announced are too few: cut short, or under a smaller limit, `NULL` is returned. -/
theorem C117_truncated {n : Nat} (hn : raPortableSizeBuf b = .ok n) {mem after : List UInt8} (hm : n ≤ mem.length) {k : Nat}
    (hw : rbPortableSerializeBuf b mem 0 = .ok (after, k)) {E : RbEnv} (hE : Allocates E) {maxbytes : Nat} (hl : maxbytes < n) :
    rbPortableDeserializeSafeBuf E after 0 maxbytes = .fail := by
  obtain ⟨r, hb, hr, e⟩ := isBitmapSet_iff.1 h
  rw [raPortableSizeBuf_spec hb] at hn
  cases hn
  rw [rbPortableSerializeBuf_spec hb] at hw
  have h1 := C28_truncated hr.valid hw hm hl
  have h2 := rbPortableDeserializeSafeBuf_spec hE.ok after 0 maxbytes
  rw [h1] at h2
  cases hx : rbPortableDeserializeSafeBuf E after 0 maxbytes with
  | fail => rfl
  | ok c => rw [hx] at h2; exact h2.elim
  | oob => rw [hx] at h2; exact h2.elim

end

/-- Any bytes at all, and any limit that does not exceed their number: the reader of the portable format stays inside the bytes and inside
the blocks it allocates, and reads only the bytes under the limit.  If it returns a bitmap, `internal_validate` can be asked, stays inside the
blocks, and if it says yes the bitmap is well formed. -/
theorem C117_any_bytes {E : RbEnv} (hE : Allocates E) (buf : List UInt8) {n : Nat} (hn : n ≤ buf.length) :
    rbPortableDeserializeSafeBuf E buf 0 n ≠ .oob ∧
    ∀ b, rbPortableDeserializeSafeBuf E buf 0 n = .ok b →
      b.size ≤ b.mem.length ∧ ∃ a, rbInternalValidateBuf b = .ok a ∧ (a = true ↔ ∃ s, IsBitmapSet b s) := by
  have hR := rbPortableDeserializeSafeBuf_spec hE.ok buf 0 n
  refine ⟨hR.ne_oob (C29_portable_in_bounds buf hn).2.2.1, fun b hb => ?_⟩
  obtain ⟨r, e, h⟩ := hR.ok' hb
  refine ⟨h.le, _, rbInternalValidateBuf_spec h, fun hv => ?_, fun ⟨s, hs⟩ => ?_⟩
  · have := ((C30_validated_input hn (.inl e)).1 hv).2
    exact ⟨bhas r, isBitmapSet_of h this.inv fun _ => rfl⟩
  · have := C117_validate_accepts hs
    rw [rbInternalValidateBuf_spec h] at this
    exact Out.ok.inj this

/-- The same for the library's own format. -/
theorem C117_any_bytes_native {E : RbEnv} (hE : Allocates E) (buf : List UInt8) {n : Nat} (hn : n ≤ buf.length) :
    rbDeserializeSafeBuf E buf n ≠ .oob ∧
    ∀ b, rbDeserializeSafeBuf E buf n = .ok b →
      b.size ≤ b.mem.length ∧ ∃ a, rbInternalValidateBuf b = .ok a ∧ (a = true ↔ ∃ s, IsBitmapSet b s) := by
  have hR := rbDeserializeSafeBuf_spec hE.ok buf n
  refine ⟨hR.ne_oob (C29_native_in_bounds buf hn).2, fun b hb => ?_⟩
  obtain ⟨r, e, h⟩ := hR.ok' hb
  refine ⟨h.le, _, rbInternalValidateBuf_spec h, fun hv => ?_, fun ⟨s, hs⟩ => ?_⟩
  · have := ((C30_validated_input hn (.inr e)).1 hv).2
    exact ⟨bhas r, isBitmapSet_of h this.inv fun _ => rfl⟩
  · have := C117_validate_accepts hs
    rw [rbInternalValidateBuf_spec h] at this
    exact Out.ok.inj this

/-- Whether the reader returns a bitmap does not depend on what is in the blocks that it is given. -/
theorem C117_any_memory {E F : RbEnv} (hE : Allocates E) (hF : Allocates F) (buf : List UInt8) {n : Nat} (hn : n ≤ buf.length) :
    (rbPortableDeserializeSafeBuf E buf 0 n = .fail ↔ rbPortableDeserializeSafeBuf F buf 0 n = .fail) ∧
    ∀ b c, rbPortableDeserializeSafeBuf E buf 0 n = .ok b → rbPortableDeserializeSafeBuf F buf 0 n = .ok c →
      ∀ s, IsBitmapSet b s → IsBitmapSet c s := by
  have h1 := rbPortableDeserializeSafeBuf_spec hE.ok buf 0 n
  have h2 := rbPortableDeserializeSafeBuf_spec hF.ok buf 0 n
  constructor
  · generalize rbPortableDeserializeSafe buf 0 n = y at h1 h2
    constructor
    · intro e
      rw [e] at h1
      cases y with
      | fail =>
        cases hx : rbPortableDeserializeSafeBuf F buf 0 n with
        | fail => rfl
        | ok c => rw [hx] at h2; exact h2.elim
        | oob => rw [hx] at h2; exact h2.elim
      | _ => exact h1.elim
    · intro e
      rw [e] at h2
      cases y with
      | fail =>
        cases hx : rbPortableDeserializeSafeBuf E buf 0 n with
        | fail => rfl
        | ok c => rw [hx] at h1; exact h1.elim
        | oob => rw [hx] at h1; exact h1.elim
      | _ => exact h2.elim
  · intro b c eb ec s hs
    obtain ⟨r, e, h⟩ := h1.ok' eb
    obtain ⟨r', e', h'⟩ := h2.ok' ec
    rw [e] at e'
    cases e'
    have := C117_validate_accepts hs
    rw [rbInternalValidateBuf_spec h] at this
    have hv := ((C30_validated_input hn (.inl e)).1 (Out.ok.inj this)).2
    have hb := isBitmapSet_of h hv.inv fun _ => rfl
    have hc := isBitmapSet_of h' hv.inv fun _ => rfl
    obtain ⟨r2, g1, g2, g3⟩ := isBitmapSet_iff.1 hs
    rw [h.unique g1] at hc
    rw [← funext g3]
    exact hc

/-! ### The hypotheses are met

`twoCells`, in Props/C115, is the bitmap {5, 65536, 65537, 65538} in a block with a cell that is not in use; `sevens` gives out blocks that
are full of sevens. -/

/-- 21 bytes: the cookie with one byte that marks the run container, two descriptions, one value, one run.  What is after them stays. -/
example : raPortableSizeBuf twoCells = .ok 21 ∧ rbPortableSerializeBuf twoCells (List.replicate 23 9) 0 =
    .ok ([0x3b, 0x30, 1, 0, 2, 0, 0, 0, 0, 1, 0, 2, 0, 5, 0, 1, 0, 0, 0, 2, 0, 9, 9], 21) := by decide +kernel

/-- One byte too few is outside the caller's bytes. -/
example : rbPortableSerializeBuf twoCells (List.replicate 20 9) 0 = .oob := by decide +kernel

example : rbPortableDeserializeSafeBuf sevens [0x3b, 0x30, 1, 0, 2, 0, 0, 0, 0, 1, 0, 2, 0, 5, 0, 1, 0, 0, 0, 2, 0, 9, 9] 0 21 =
    .ok ⟨2, [(0, .array ⟨1, [5]⟩), (1, .run ⟨1, [(0, 2)]⟩)]⟩ := by rfl

/-- Bytes that are read without an access outside, and that the validation refuses: the two values are not in order. -/
example : ∃ b, rbPortableDeserializeSafeBuf sevens [0x3a, 0x30, 0, 0, 1, 0, 0, 0, 0, 0, 1, 0, 0, 0, 0, 0, 8, 0, 5, 0] 0 20 = .ok b ∧
    rbInternalValidateBuf b = .ok false := ⟨⟨1, [(0, .array ⟨2, [8, 5]⟩)]⟩, rfl, by decide +kernel⟩

end CRoaring.Props
