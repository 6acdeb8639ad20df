import Verif.Props.C88
import Verif.Props.C75
import Verif.Lemmas.MapSerial2
/-
C89, C92: the serialized forms of the C++ class `Roaring64Map`.
-/
namespace CRoaring.Props
open CRoaring

theorem ValidM.loose {m : Map64} (h : ValidM m) : LooseBuckets m :=
  ⟨List.pairwise_map.1 h.1, fun g hg => by have := (h.2 g hg).1; omega, fun g hg => (h.2 g hg).2⟩

theorem LooseBuckets.validM {m : Map64} (h : LooseBuckets m) : ValidM m :=
  ⟨List.pairwise_map.2 h.increasing, fun g hg => ⟨by have := h.high g hg; omega, h.valid g hg⟩⟩

theorem mapBytes_spec {m : Map64} (h : ValidM m) : mapBytes true m = specPortable64 m := by
  rw [specPortable64_eq (gwk_buckets (ValidM.loose h))]
  rfl

/-! ### C89: the portable form -/

/-- C89: `write` puts the documented layout (`specPortable64`: eight bytes for the number of parts, then for each part four bytes
for the high half and the portable form of the 32-bit bitmap) at the start of a large enough buffer, touches nothing else and
returns its length, which `getSizeInBytes` had announced; `read` and, under any limit that covers the bytes, `readSafe`
give the map back. -/
theorem C89_portable {m : Map64} (h : ValidM m) {mem : List UInt8} (hm : (specPortable64 m).length ≤ mem.length) :
    m64Write m true mem = .ok (specPortable64 m ++ mem.drop (specPortable64 m).length, (specPortable64 m).length) ∧
    m64SizeInBytes true m = (specPortable64 m).length % 2 ^ 64 ∧
    (∀ tail, m64Read true (specPortable64 m ++ tail) = .ok m) ∧
    ∀ tail maxbytes, (specPortable64 m).length ≤ maxbytes → maxbytes ≤ (specPortable64 m ++ tail).length → maxbytes < 2 ^ 64 →
      m64ReadSafe (specPortable64 m ++ tail) maxbytes = .ok m := by
  rw [← mapBytes_spec h] at hm ⊢
  refine ⟨m64Write_eq h true hm, m64Size_eq h true, fun tail => ?_, fun tail maxbytes h1 h2 h3 => ?_⟩
  · exact m64Read_at h (readsList_refl fun p hp => readsAs_portable (validM_inv h p hp)) tail
  · have := m64ReadSafe_at h (buf := mapBytes true m ++ tail) (tail := []) (by rw [List.append_nil]; exact at_append _ _) h2
      (by omega)
    rw [this, if_pos h1]

/-- C89: with fewer bytes than were written, `readSafe` throws; it does not look beyond the bytes it has been given. -/
theorem C89_truncated {m : Map64} (h : ValidM m) {n : Nat} (hn : n < (specPortable64 m).length) (hn' : n < 2 ^ 64) :
    m64ReadSafe ((specPortable64 m).take n) n = .fail := by
  rw [← mapBytes_spec h] at hn ⊢
  have := m64ReadSafe_at h (buf := (mapBytes true m).take n) (tail := (mapBytes true m).drop n) (by
    rw [List.take_append_drop]; exact ⟨[], [], by simp, rfl⟩) (maxbytes := n) (by rw [List.length_take]; omega) (by omega)
  rw [this, if_neg (by omega)]

/-- C89: what the C++ class writes, the C functions for 64-bit bitmaps read as the same set (if there are fewer than 2^32
parts). -/
theorem C89_read_by_c {m : Map64} (h : ValidM m) (hc : m.length < 2 ^ 32) (tail : List UInt8) {maxbytes : Nat}
    (h1 : (specPortable64 m).length ≤ maxbytes) (h2 : maxbytes ≤ (specPortable64 m ++ tail).length) :
    ∃ r, r64PortableDeserializeSafe (specPortable64 m ++ tail) maxbytes = .ok r ∧ Valid64 r ∧
      ∀ y, y < 2 ^ 64 → r64Contains r y = m64Contains m y := by
  obtain ⟨r, e, hv, hr⟩ := C77_portable_read (ValidM.loose h) hc tail h1 h2
  refine ⟨r, e, hv, fun y hy => ?_⟩
  rw [Bool.eq_iff_iff, hr y hy, m64Contains_eq, mhas_mem h, highBytes_eq (by omega)]
  constructor
  · rintro ⟨g, hg, e1, e2⟩
    exact ⟨g.2, by rw [show y / 4294967296 = g.1 by omega]; exact hg, e2⟩
  · rintro ⟨b, hb, e2⟩
    exact ⟨(y / 4294967296, b), hb, by simp, e2⟩

/-- C89: what the C functions for 64-bit bitmaps write, the C++ class reads as the same set. -/
theorem C89_read_of_c {r : R64} (h : Valid64 r) {mem : List UInt8} (hm : r64PortableSize r ≤ mem.length) :
    ∃ out m, r64PortableSerialize r mem = .ok (out, r64PortableSize r) ∧ m64Read true out = .ok m ∧ ValidM m ∧
      ∀ y, y < 2 ^ 64 → m64Contains m y = r64Contains r y := by
  obtain ⟨gs, hb, hr, hl, hw⟩ := C77_portable_layout h hm
  have hv : ValidM gs := LooseBuckets.validM hb.toLooseBuckets
  refine ⟨_, gs, hw, ?_, hv, fun y hy => ?_⟩
  · rw [← mapBytes_spec hv]
    exact m64Read_at hv (readsList_refl fun p hp => readsAs_portable (validM_inv hv p hp)) _
  · rw [Bool.eq_iff_iff, hr y hy, m64Contains_eq, mhas_mem hv, highBytes_eq (by omega)]
    constructor
    · rintro ⟨b, hb, e2⟩
      exact ⟨(y / 4294967296, b), hb, by simp, e2⟩
    · rintro ⟨g, hg, e1, e2⟩
      exact ⟨g.2, by rw [show y / 4294967296 = g.1 by omega]; exact hg, e2⟩

/-- C89, memory safety of `readSafe` for bytes that announce at most one part: it does not look beyond the `maxbytes` bytes.
Missing: data with more parts, for which the claim is false (`C89_read_safe_false`), unless `write` made it (`C89_portable`,
`C89_truncated`). -/
theorem C89_read_safe_partial {buf : List UInt8} {maxbytes parts : Nat} (hl : maxbytes ≤ buf.length) (hmb : maxbytes < 2 ^ 64)
    (hn : readLE buf 0 8 = .ok parts) (h1 : parts ≤ 1) : m64ReadSafe buf maxbytes ≠ .oob :=
  m64ReadSafe_le1 hl (by omega) hn h1

/-- 23 bytes that announce two parts, of which the first is the set {7} in the form with run containers, but without any. -/
def exHostile : List UInt8 :=
  [2, 0, 0, 0, 0, 0, 0, 0, 0, 0, 0, 0, 0x3b, 0x30, 0, 0, 0, 0, 0, 0, 0, 7, 0]

/-- C89 is false for `readSafe` on arbitrary data: given 23 bytes and told so, it reads beyond them.  It goes forward by the size
in which it would write the part it has read instead of the size it has read, and the count of the bytes left wraps. -/
theorem C89_read_safe_false : exHostile.length = 23 ∧ m64ReadSafe exHostile 23 = .oob := by
  refine ⟨rfl, ?_⟩
  decide +kernel

example : m64ReadSafe (1 :: exHostile.tail) 23 = .ok [(0, [(0, .array [7])])] := by decide +kernel

/-! ### C89: the native form -/

/-- C89, the form written with `portable = false`, if of each part but the last the portable form is shorter than the list of its
values or no container is a run container: `write` uses exactly the bytes that `getSizeInBytes` announces, and
`read` gives a map with the same parts and values.  Missing: other maps, for which `read` can fail (`C89_native_false`). -/
theorem C89_native_partial {m : Map64} (h : ValidM m)
    (hs : ∀ p ∈ m.dropLast, rbPortableSize p.2 < rbCardinality p.2 * 4 + 4 ∨ ∀ q ∈ p.2, isRun q.2 = false) :
    ∃ bytes m', (∀ mem : List UInt8, bytes.length ≤ mem.length →
        m64Write m false mem = .ok (bytes ++ mem.drop bytes.length, bytes.length)) ∧
      m64SizeInBytes false m = bytes.length % 2 ^ 64 ∧ (∀ tail, m64Read false (bytes ++ tail) = .ok m') ∧ ValidM m' ∧
      m'.map (·.1) = m.map (·.1) ∧ ∀ y, m64Contains m' y = m64Contains m y := by
  obtain ⟨m', h1, h2, h3, h4⟩ := readsList_native h fun p hp => (hs p hp).imp id noRun_mem.2
  exact ⟨mapBytes false m, m', fun _ hm => m64Write_eq h false hm, m64Size_eq h false, fun tail => m64Read_at h h1 tail, h2, h3,
    fun y => by rw [m64Contains_eq, m64Contains_eq, h4]⟩

/-- C89: `write` announces the size of the native form and keeps to it for every map. -/
theorem C89_native_write {m : Map64} (h : ValidM m) :
    ∃ bytes : List UInt8, (∀ mem : List UInt8, bytes.length ≤ mem.length →
        m64Write m false mem = .ok (bytes ++ mem.drop bytes.length, bytes.length)) ∧
      m64SizeInBytes false m = bytes.length % 2 ^ 64 :=
  ⟨mapBytes false m, fun _ hm => m64Write_eq h false hm, m64Size_eq h false⟩

/-- C89: once `removeRunCompression` has been called, the native form can be read back, and gives the very same map. -/
theorem C89_native_uncompressed {m : Map64} (h : ValidM m) :
    let m' := (m64RemoveRunCompression m).1
    ∃ bytes, (∀ mem : List UInt8, bytes.length ≤ mem.length →
        m64Write m' false mem = .ok (bytes ++ mem.drop bytes.length, bytes.length)) ∧
      (∀ tail, m64Read false (bytes ++ tail) = .ok m') ∧ ValidM m' ∧ ∀ y, m64Contains m' y = m64Contains m y := by
  have hv : ValidM (m64RemoveRunCompression m).1 := (C90_compression_partial h).2.1.1
  have hn : ∀ p ∈ (m64RemoveRunCompression m).1, raHasRun p.2 = false := by
    intro p hp
    obtain ⟨q, -, rfl⟩ := List.mem_map.1 hp
    rw [noRun_mem]
    intro c hc
    obtain ⟨d, -, rfl⟩ := List.mem_map.1 hc
    exact removeRun_isRun _
  exact ⟨mapBytes false _, fun _ hm => m64Write_eq hv false hm, fun tail => m64Read_at hv
    (readsList_refl fun p hp => readsAs_native (validM_inv hv p hp) (.inr (hn p hp))) tail, hv, (C90_compression_partial h).2.1.2.1⟩

/-- A map built with a few calls: the range [0, 3), without 1, then 4, 6, 8, 10, 12 and 2^32 + 5. -/
def exLoose : Map64 := [(0, [(0, .run [(0, 0), (2, 0), (4, 0), (6, 0), (8, 0), (10, 0), (12, 0)])]), (1, [(0, .array [5])])]

theorem exLoose_calls : (m64AddRange [] 0 3).map (fun m => m64AddMany (m64Remove m 1) [4, 6, 8, 10, 12, 4294967301]) = some exLoose := by
  decide +kernel

theorem exLoose_built : ∃ s, BuiltM exLoose s := by
  have h := exLoose_calls
  obtain ⟨m1, e1, e2⟩ := Option.map_eq_some_iff.1 h
  rw [← e2]
  refine ⟨_, .addMany (.remove (.addRange .create (by decide) (by decide) e1) (by decide)) ?_⟩
  intro x hx
  simp only [List.mem_cons, List.not_mem_nil, or_false] at hx
  omega

/-- The bytes of `exLoose` in the native form. -/
def exLooseBytes : List UInt8 :=
  [2, 0, 0, 0, 0, 0, 0, 0, 0, 0, 0, 0, 1, 7, 0, 0, 0, 0, 0, 0, 0, 2, 0, 0, 0, 4, 0, 0, 0, 6, 0, 0, 0, 8, 0, 0, 0, 10, 0, 0, 0, 12, 0, 0, 0,
    1, 0, 0, 0, 1, 1, 0, 0, 0, 5, 0, 0, 0]

/-- C89 is false for the native form: `exLoose` is made by a few calls of the class, `write` with `portable = false` writes 58
bytes, and `read` of these very bytes throws.  The first part was written as a list of values, 34 bytes, because its run containers
are longer; `read` makes an array container of it, whose shortest form has 31 bytes, and goes forward by 31 bytes. -/
theorem C89_native_false : (∃ s, BuiltM exLoose s) ∧
    m64Write exLoose false (List.replicate 58 0) = .ok (exLooseBytes, 58) ∧ m64Read false exLooseBytes = .fail := by
  refine ⟨exLoose_built, ?_, ?_⟩
  · decide +kernel
  · decide +kernel

/-! ### C92: frozen maps -/

/-- C92: if the buffer is large enough (`getFrozenSizeInBytes` bytes at an address that is a multiple of 32, or 19 bytes more at any
other address), `writeFrozen` stays inside of it and changes nothing behind the end it reaches; and from these bytes at the same
address, or any other that leaves the same remainder on division by 32, `frozenView` gives the map back.  At a multiple of 32
exactly `getFrozenSizeInBytes` bytes are used.  Missing: buffers of the announced size at other addresses, which
`writeFrozen` can overflow (`C92_size_false`). -/
theorem C92_frozen_partial {m : Map64} (h : ValidM m) {addr : Nat} {mem : List UInt8}
    (hm : (addr % 32 = 0 ∧ m64FrozenSize m ≤ mem.length) ∨ m64FrozenSize m + 19 ≤ mem.length) :
    ∃ out n, m64WriteFrozen addr m mem = .ok (out, n) ∧ out.length = mem.length ∧ n ≤ mem.length ∧ out.drop n = mem.drop n ∧
      (addr % 32 = 0 → n = m64FrozenSize m) ∧
      ∀ tail addr', addr' % 32 = addr % 32 → m64FrozenView addr' (out.take n ++ tail) = .ok m := by
  have he : frozenEnd addr 8 m ≤ mem.length := by
    rcases hm with ⟨h0, hm⟩ | hm
    · rw [m64FrozenSize_eq h0] at hm; exact hm
    · have := frozenEnd_le addr m; omega
  have hl := frozenMem_length (addr := addr) (mem := mem) m (d := leBytes 8 m.length) (validM_inv h) (by rw [leBytes_length]; exact he)
  rw [leBytes_length] at hl
  have hw := m64WriteFrozen_eq h he
  generalize hf : frozenMem addr mem (leBytes 8 m.length) m = f at hw hl
  rw [show wst mem 0 f = (f ++ mem.drop f.length, f.length) from Prod.ext (wst_fst _ _) (wst_snd _ _)] at hw
  refine ⟨_, _, hw, ?_, by omega, List.drop_left' rfl, fun h0 => ?_, fun tail addr' ha => ?_⟩
  · rw [List.length_append, List.length_drop]; omega
  · rw [hl, m64FrozenSize_eq h0]
  · rw [List.take_left' rfl, ← hf, ← frozenMem_mod ha]
    exact m64FrozenView_at h (by rw [frozenEnd_mod ha]; exact he) tail

/-- C92 is false for other addresses: `getFrozenSizeInBytes` bytes at an address that is a multiple of 16 but not of 32 are not
enough, and `writeFrozen` writes beyond them. -/
theorem C92_size_false : m64FrozenSize [(0, [(0, .array [7])])] = 43 ∧
    m64WriteFrozen 4112 [(0, [(0, .array [7])])] (List.replicate 43 0) = .oob := by
  decide +kernel

/-- C92: bytes written by `write` in the portable form are read by `portableDeserializeFrozen` as the same map, if each part takes
less than 4 GiB. -/
theorem C92_portable_frozen {m : Map64} (h : ValidM m) (hs : ∀ p ∈ m, rbPortableSize p.2 < 2 ^ 32) (tail : List UInt8) :
    m64PortableDeserializeFrozen (specPortable64 m ++ tail) = .ok m := by
  rw [← mapBytes_spec h]
  exact m64PortableFrozen_at h (fun p hp => by have := hs p hp; omega) tail

/-! ### The hypotheses can be met -/

example : ValidM exMap ∧ ValidM exLoose := ⟨exMap_valid, (C91_history exLoose_built.choose_spec).1⟩

/-- Data can make a map with an empty part, which the calls of the class do not (`C91_no_empty_parts`). -/
example : m64Read true [1, 0, 0, 0, 0, 0, 0, 0, 1, 0, 0, 0, 0x3a, 0x30, 0, 0, 0, 0, 0, 0] = .ok [(1, [])] := by decide +kernel

example : ∀ p ∈ exMap.dropLast, rbPortableSize p.2 < rbCardinality p.2 * 4 + 4 ∨ ∀ q ∈ p.2, isRun q.2 = false := by
  decide +kernel

end CRoaring.Props
