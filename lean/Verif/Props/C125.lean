import Verif.Props.C122
/-
C125: 64-bit bitmaps in memory are written to bytes and made from bytes.  `specPortable64` and `Buckets` (Verif/Props/C75.lean) state the documented layout.
-/
namespace CRoaring.Props
open CRoaring CRoaring.Pool64

/-- The numbers of a list of buckets. -/
def InBuckets (gs : List (Nat × Bitmap)) (y : Nat) : Prop := ∃ g ∈ gs, g.1 = y / 2 ^ 32 ∧ rbContains g.2 (y % 2 ^ 32) = true

/-- No object is left. -/
def NothingLeft (m : List (Option Container)) : Prop := ∀ x ∈ m, x = none

/-- C125, writing: after any allowed history the functions that write a bitmap use only memory that is there.  The size that is announced is the length of the
documented layout of the set; the layout is written at the start of any memory that is long enough, and the rest of the memory stays as it is. -/
theorem C125_write (os : List Op) (ho : Sets.AllAllowed [] os) (i : Nat) (hi : (Sets.run [] os).1.Has i) :
    ∃ p r gs, Mem.run [] os = .ok (p, (Sets.run [] os).2) ∧ p.get i = .ok r ∧ Buckets gs ∧
      (∀ y, y < 2 ^ 64 → ((Sets.run [] os).1.get i y = true ↔ InBuckets gs y)) ∧ r.portableSize = .ok (specPortable64 gs).length ∧
      ∀ mem, (specPortable64 gs).length ≤ mem.length →
        r.portableSerialize mem = .ok (specPortable64 gs ++ mem.drop (specPortable64 gs).length, (specPortable64 gs).length) := by
  obtain ⟨p, h1, h2⟩ := pool_is ho
  obtain ⟨r, g1, L, R, g2, g3⟩ := fit_get h2 hi
  obtain ⟨hv, hc⟩ := fin64 g3
  obtain ⟨l, hb, -⟩ := g3
  obtain ⟨gs, a1, a2, a3, a4⟩ := C77_portable_layout hv (mem := List.replicate (r64PortableSize R) 0) (by simp)
  have hs := portableSize_sim hb.rl.ok g2
  refine ⟨p, r, gs, h1, g1, a1, fun y hy => by rw [← hc y hy]; exact a2 y hy, a3 ▸ hs, fun mem hm => ?_⟩
  have e := r64PortableSerialize_eq hb (mem := mem) (a3 ▸ hm)
  rw [r64PortableSerialize_eq hb (by simp)] at a4
  have e2 := (Prod.mk.inj (Out.ok.inj a4)).1
  rw [List.append_cancel_right e2] at e
  rw [portableSerialize_sim hb.rl.ok g2, e, a3]

/-- C125, reading what was written: for a set that lacks all numbers of some block of 2^32, the bytes are read back, whatever follows them, and the number of bytes
is returned; the new bitmap has the same set and owns its containers; when the limit cuts the bytes short the answer is NULL and nothing is left allocated. -/
theorem C125_round_trip (os : List Op) (ho : Sets.AllAllowed [] os) (i : Nat) (hi : (Sets.run [] os).1.Has i)
    (hl : ∃ h, h < 2 ^ 32 ∧ ∀ y, y / 2 ^ 32 = h → (Sets.run [] os).1.get i y = false) :
    ∃ p r, Mem.run [] os = .ok (p, (Sets.run [] os).2) ∧ p.get i = .ok r ∧
      ∃ bytes : List UInt8, r.portableSize = .ok bytes.length ∧
        (∀ mem, bytes.length ≤ mem.length → r.portableSerialize mem = .ok (bytes ++ mem.drop bytes.length, bytes.length)) ∧
        (∀ tail maxbytes, bytes.length ≤ maxbytes → maxbytes ≤ (bytes ++ tail).length →
          ∃ r', R64M.portableDeserialize (bytes ++ tail) maxbytes = .ok (.inr (r', bytes.length)) ∧ Owned r' ((Sets.run [] os).1.get i)) ∧
        ∀ tail maxbytes, maxbytes < bytes.length → ∃ m, R64M.portableDeserialize (bytes ++ tail) maxbytes = .ok (.inl m) ∧ NothingLeft m := by
  obtain ⟨p, h1, h2⟩ := pool_is ho
  obtain ⟨r, g1, g2⟩ := fit_get h2 hi
  obtain ⟨bytes, e1, e2, e3, e4⟩ := read_back g2 hl
  refine ⟨p, r, h1, g1, bytes, e1, e2, fun tail maxbytes k1 k2 => ?_, e4⟩
  obtain ⟨r', w1, L, R, w2, w3⟩ := e3 tail maxbytes k1 k2
  exact ⟨r', w1, owned_of_sim w2 w3⟩

/-- C125, reading what others wrote: bytes of the documented layout with fewer than 2^32 buckets, of which some may be empty, become a bitmap that has the set
they stand for and owns its containers. -/
theorem C125_read {gs : List (Nat × Bitmap)} (h : LooseBuckets gs) (hc : gs.length < 2 ^ 32) (tail : List UInt8) {maxbytes : Nat}
    (h1 : (specPortable64 gs).length ≤ maxbytes) (h2 : maxbytes ≤ (specPortable64 gs ++ tail).length) :
    ∃ r n s, R64M.portableDeserialize (specPortable64 gs ++ tail) maxbytes = .ok (.inr (r, n)) ∧ Owned r s ∧
      ∀ y, s y = true ↔ y < 2 ^ 64 ∧ InBuckets gs y := by
  obtain ⟨R, e1, e2, e3⟩ := C77_portable_read h hc tail h1 h2
  rcases portableDeserialize_ok h2 with ⟨a, -⟩ | ⟨r, L, R', m, a1, a2, a3⟩
  · rw [r64PortableDeserializeSafe, a] at e1; cases e1
  · rw [r64PortableDeserializeSafe, a1] at e1; cases e1
    refine ⟨r, m, has64 R', a2, owned_of_sim a3 e2.rep, fun y => ?_⟩
    by_cases hy : y < 2 ^ 64
    · rw [has64_of hy, e3 y hy]; exact ⟨fun h => ⟨hy, h⟩, fun h => h.2⟩
    · refine ⟨fun hh => ?_, fun hh => absurd hh.1 hy⟩
      have := e2.rep.lt hh
      unfold TOP64 at this
      omega

/-- C125, any bytes: within the limit the function reads only bytes that are there.  The answer is NULL, and nothing is left allocated; or it is a bitmap, made
from at most `maxbytes` bytes, that can be freed, which leaves nothing allocated.  When `internal_validate` accepts the bitmap, it owns its containers and has a set. -/
theorem C125_any_bytes (buf : List UInt8) {maxbytes : Nat} (hl : maxbytes ≤ buf.length) :
    (∃ m, R64M.portableDeserialize buf maxbytes = .ok (.inl m) ∧ NothingLeft m) ∨
    ∃ r n, R64M.portableDeserialize buf maxbytes = .ok (.inr (r, n)) ∧ n ≤ maxbytes ∧ (∃ m, r.free = .ok m ∧ NothingLeft m) ∧
      ∃ R, r64PortableDeserializeSafe buf maxbytes = .ok R ∧ (r64InternalValidate R = true → Owned r fun y => decide (y < 2 ^ 64) && r64Contains R y) := by
  rcases portableDeserialize_ok hl with ⟨-, a⟩ | ⟨r, L, R, n, a1, a2, a3⟩
  · exact .inl a
  right
  obtain ⟨mem, f1, -, f2⟩ := free_ok a3
  have hr : r64PortableDeserializeSafe buf maxbytes = .ok R := by rw [r64PortableDeserializeSafe, a1]; rfl
  refine ⟨r, n, a2, ?_, ⟨mem, f1, f2⟩, R, hr, fun hv => ?_⟩
  · rcases (r64PortableDeserialize_total hl).1 with t | ⟨R', m, l, t, _, h, _⟩
    · rw [a1] at t; cases t
    · rw [a1] at t; cases t; exact h
  · have := owned_of_sim a3 (C76_validated_input hl hr hv).rep
    rwa [show has64 R = fun y => decide (y < 2 ^ 64) && r64Contains R y from rfl] at this

/-- Three chunks in two blocks. -/
def c125ops : List Op := [.fromRange 65530 65546 5, .moveFrom32 [(0, .array [7]), (3, .run [(9, 2)])], .call 0 (.add 1099511627776), .roundTrip 0, .roundTrip 1,
  .equals 0 2, .equals 1 3, .equals 0 1, .call 2 (.add 1), .equals 0 2, .cardinality 2, .cardinality 3, .free 0, .free 3]

example : Valid [(0, .array [7]), (3, .run [(9, 2)])] := by
  refine ⟨?_, by decide⟩
  simp [Typed, CTyped]

example : Sets.AllAllowed [] (c125ops.take 4) := by
  simp [c125ops, Sets.AllAllowed, Sets.Allowed, Sets.step, Sets.Has, Req64.Ok, Typed, CTyped, Valid]
  refine ⟨by decide, 1, by decide, fun y hy => ?_⟩
  simp [Sets.get, setReq, Spec.insert]
  omega

example : (do let x ← Mem.run [] c125ops
              Out.ok (x.2.map Ans.code)) = .ok [100, 100, 100, 100, 100, 1, 1, 0, 100, 0, 16, 14, 100, 100] := by decide +kernel

/-- The set of the first bitmap lacks the block of the numbers from 2^32 on. -/
example : (Sets.run [] (c125ops.take 3)).1.Has 0 ∧ ∀ y, y / 2 ^ 32 = 1 → (Sets.run [] (c125ops.take 3)).1.get 0 y = false := by
  refine ⟨⟨_, rfl⟩, fun y hy => ?_⟩
  simp [c125ops, Sets.run, Sets.step, Sets.get, setReq, Spec.insert]
  omega

/-- Bytes that are not a bitmap: two buckets are announced, the second has the same high part as the first. -/
def c125bad : List UInt8 := [2, 0, 0, 0, 0, 0, 0, 0] ++ [1, 0, 0, 0, 58, 48, 0, 0, 1, 0, 0, 0, 0, 0, 0, 0, 16, 0, 0, 0, 5, 0] ++
  [1, 0, 0, 0, 58, 48, 0, 0, 1, 0, 0, 0, 0, 0, 0, 0, 16, 0, 0, 0, 6, 0]

/-- NULL, and the objects that were made are freed. -/
example : (do let x ← R64M.portableDeserialize c125bad c125bad.length
              Out.ok (match x with | .inl m => some (m.map Option.isNone) | .inr _ => none)) = .ok (some [true]) := by decide +kernel

/-- With another high part it is a bitmap of two values. -/
example : (do let x ← R64M.portableDeserialize (c125bad.set 30 2) c125bad.length
              match x with
              | .inl _ => Out.fail
              | .inr y => do
                let n ← y.1.cardinality
                .ok (n, y.2)) = .ok (2, 52) := by decide +kernel

end CRoaring.Props
