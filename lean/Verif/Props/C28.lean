import Verif.Props.Common
import Verif.Props.C30
import Verif.Lemmas.Serial4
/-
C28 - C31, C45: serialization.

Memory is a list of bytes.  A modelled function that would touch a byte outside of the given memory has the outcome
`.oob`; `.fail` is the error result (`NULL`, or size 0); `.ok x` is success.
-/
namespace CRoaring.Props
open CRoaring

/-- C28: `portable_serialize` writes exactly `portable_size_in_bytes` bytes at the start of the buffer, and touches
nothing else; deserializing these bytes, followed by anything, under any limit that covers them, gives back the
bitmap.  The same holds for the unchecked `portable_deserialize`, and `portable_deserialize_size` finds the size. -/
theorem C28_portable_round_trip {r : Bitmap} (h : Valid r) {mem : List UInt8} (hm : rbPortableSize r ≤ mem.length) :
    ∃ bytes : List UInt8, bytes.length = rbPortableSize r ∧
      rbPortableSerialize r mem 0 = .ok (bytes ++ mem.drop (rbPortableSize r), rbPortableSize r) ∧
      (∀ tail maxbytes, rbPortableSize r ≤ maxbytes →
        rbPortableDeserializeSafe (bytes ++ tail) 0 maxbytes = .ok r) ∧
      (∀ tail, rbPortableDeserialize (bytes ++ tail) 0 = .ok r) ∧
      (∀ tail maxbytes, rbPortableSize r ≤ maxbytes → maxbytes ≤ bytes.length + tail.length →
        rbPortableDeserializeSize (bytes ++ tail) maxbytes = .ok (rbPortableSize r)) := by
  have hb := h.inv
  have ht : ∀ p ∈ r, CTyped p.2 := fun p hp => ((bp_iff.1 hb).2.2 p hp).1.typed
  have hat : ∀ tail, At (serBytes r ++ tail) 0 (serBytes r) := fun tail => ⟨[], tail, by simp, rfl⟩
  have hs : ∀ tail maxbytes, rbPortableSize r ≤ maxbytes →
      rbPortableDeserializeSafe (serBytes r ++ tail) 0 maxbytes = .ok r := by
    intro tail maxbytes hmb
    rw [rbPortableDeserializeSafe, raPortableDeserialize_at hb (hat tail) hmb]
    rfl
  refine ⟨serBytes r, serBytes_length ht, ?_, hs, ?_, ?_⟩
  · have := rbPortableSerialize_eq ht (mem := mem) (off := 0) (by omega)
    simpa using this
  · intro tail
    exact hs tail _ (by have := rbPortableSize_le hb; rw [SIZE_MAX]; omega)
  · intro tail maxbytes hmb hle
    have h1 := raPortableDeserialize_at hb (hat tail) hmb
    rcases raPortableDeserialize_total (buf := serBytes r ++ tail) (base := 0) (maxbytes := maxbytes)
      (by simp; omega) with ⟨e, _⟩ | ⟨r', n, e1, e2, _⟩
    · rw [e] at h1; cases h1
    · rw [e1] at h1
      simp only [Out.ok.injEq, Prod.mk.injEq] at h1
      rw [rbPortableDeserializeSize, e2, h1.2]

/-- C28: a serialized bitmap that has been cut short (or is read under a limit that does not cover it) is rejected. -/
theorem C28_truncated {r : Bitmap} (h : Valid r) {mem after : List UInt8} {n : Nat}
    (hw : rbPortableSerialize r mem 0 = .ok (after, n)) (hm : rbPortableSize r ≤ mem.length) {maxbytes : Nat}
    (hlt : maxbytes < rbPortableSize r) : rbPortableDeserializeSafe after 0 maxbytes = .fail := by
  have hb := h.inv
  have ht : ∀ p ∈ r, CTyped p.2 := fun p hp => ((bp_iff.1 hb).2.2 p hp).1.typed
  have h1 := rbPortableSerialize_eq ht (mem := mem) (off := 0) (by omega)
  rw [h1] at hw
  simp only [Out.ok.injEq, Prod.mk.injEq, List.take_zero, List.nil_append, Nat.zero_add] at hw
  rw [← hw.1, rbPortableDeserializeSafe, truncated hb hlt]
  rfl

/-- C29: on every byte string, with every limit `n` that does not exceed its length, the two functions read only the
first `n` bytes (the result does not change if the other bytes are removed, and no access is out of bounds), and they
agree: both fail, or both succeed with the same number of bytes consumed, at most `n`. -/
theorem C29_portable_in_bounds (buf : List UInt8) {n : Nat} (hn : n ≤ buf.length) :
    rbPortableDeserializeSafe buf 0 n = rbPortableDeserializeSafe (buf.take n) 0 n ∧
    rbPortableDeserializeSize buf n = rbPortableDeserializeSize (buf.take n) n ∧
    rbPortableDeserializeSafe buf 0 n ≠ .oob ∧ rbPortableDeserializeSize buf n ≠ .oob ∧
    ((rbPortableDeserializeSafe buf 0 n = .fail ∧ rbPortableDeserializeSize buf n = .ok 0) ∨
      ∃ r m, rbPortableDeserializeSafe buf 0 n = .ok r ∧ raPortableDeserialize buf 0 n = .ok (r, m) ∧
        rbPortableDeserializeSize buf n = .ok m ∧ 0 < m ∧ m ≤ n) := by
  have hlen : (buf.take n).length = n := by simp; omega
  have l1 := raPortableDeserialize_le (buf := buf.take n) (tail := buf.drop n) (base := 0) (maxbytes := n)
  have l2 := raPortableDeserializeSize_le (buf := buf.take n) (tail := buf.drop n) (base := 0) (maxbytes := n)
  rw [List.take_append_drop] at l1 l2
  have t1 := raPortableDeserialize_total (buf := buf.take n) (base := 0) (maxbytes := n) (by omega)
  have t2 := raPortableDeserialize_total (buf := buf) (base := 0) (maxbytes := n) (by omega)
  have e1 : raPortableDeserialize (buf.take n) 0 n = raPortableDeserialize buf 0 n := by
    rcases l1 with l1 | l1
    · rcases t1 with ⟨e, _⟩ | ⟨_, _, e, _⟩ <;> rw [e] at l1 <;> cases l1
    · exact l1
  have e2 : raPortableDeserializeSize (buf.take n) 0 n = raPortableDeserializeSize buf 0 n := by
    rcases l2 with l2 | l2
    · rcases t1 with ⟨_, e⟩ | ⟨_, _, _, e, _⟩ <;> rw [e] at l2 <;> cases l2
    · exact l2
  simp only [rbPortableDeserializeSafe, rbPortableDeserializeSize, e1, e2, true_and]
  rcases t2 with ⟨a1, a2⟩ | ⟨r, m, a1, a2, a3, a4, _⟩
  · rw [a1, a2]
    exact ⟨(fun h => by cases h), (fun h => by cases h), .inl ⟨rfl, rfl⟩⟩
  · rw [a1, a2]
    exact ⟨(fun h => by cases h), (fun h => by cases h), .inr ⟨r, m, rfl, rfl, rfl, by omega, a4⟩⟩

/-- C29: `deserialize_safe` reads only the first `n` bytes. -/
theorem C29_native_in_bounds (buf : List UInt8) {n : Nat} (hn : n ≤ buf.length) :
    rbDeserializeSafe buf n = rbDeserializeSafe (buf.take n) n ∧ rbDeserializeSafe buf n ≠ .oob := by
  have l1 := rbDeserializeSafe_le (buf := buf.take n) (tail := buf.drop n) (maxbytes := n)
  rw [List.take_append_drop] at l1
  have t1 := rbDeserializeSafe_total (buf := buf.take n) (maxbytes := n) (by simp; omega)
  have t2 := rbDeserializeSafe_total (buf := buf) (maxbytes := n) (by omega)
  constructor
  · rcases l1 with l1 | l1
    · rcases t1 with e | ⟨_, e, _⟩ <;> rw [e] at l1 <;> cases l1
    · exact l1.symm
  · rcases t2 with e | ⟨_, e, _⟩ <;> rw [e] <;> intro h <;> cases h

/-- C30: whatever bytes a bitmap has been deserialized from, if `internal_validate` accepts it then it is well formed,
and it is `Valid`, which is what all other theorems assume.  It accepts every well-formed bitmap. -/
theorem C30_validated_input {buf : List UInt8} {n : Nat} {r : Bitmap} (hn : n ≤ buf.length)
    (hr : rbPortableDeserializeSafe buf 0 n = .ok r ∨ rbDeserializeSafe buf n = .ok r) :
    (rbInternalValidate r = true → WellFormed r ∧ Valid r) ∧ (WellFormed r → rbInternalValidate r = true) := by
  have ht : Typed r := by
    rcases hr with hr | hr
    · rw [rbPortableDeserializeSafe] at hr
      rcases raPortableDeserialize_total (buf := buf) (base := 0) (maxbytes := n) (by omega) with
        ⟨a1, _⟩ | ⟨r', m, a1, _, _, _, ht⟩
      · rw [a1] at hr; cases hr
      · rw [a1] at hr; cases hr; exact ht
    · rcases rbDeserializeSafe_total hn with e | ⟨_, e, ht⟩
      · rw [e] at hr; cases hr
      · rw [e] at hr; cases hr; exact ht
  exact ⟨fun hv => ⟨(C30_validate_exact ht).1 hv, ht, hv⟩, (C30_validate_exact ht).2⟩

/-- C31: `serialize` writes exactly `size_in_bytes` bytes, and both `deserialize` and `deserialize_safe` turn them
(followed by anything) into a valid bitmap with the same members. -/
theorem C31_native_round_trip {r : Bitmap} (h : Valid r) {mem : List UInt8} (hm : rbSizeInBytes r ≤ mem.length) :
    ∃ bytes : List UInt8, bytes.length = rbSizeInBytes r ∧
      rbSerialize r mem = .ok (bytes ++ mem.drop (rbSizeInBytes r), rbSizeInBytes r) ∧
      ∀ tail, ∃ r', Valid r' ∧ (∀ v, rbContains r' v = rbContains r v) ∧ rbEquals r' r = true ∧
        rbDeserialize (bytes ++ tail) = .ok r' ∧
        ∀ maxbytes, rbSizeInBytes r ≤ maxbytes → rbDeserializeSafe (bytes ++ tail) maxbytes = .ok r' := by
  have hb := h.inv
  refine ⟨natBytes r, natBytes_length hb, rbSerialize_eq hb hm, fun tail => ?_⟩
  obtain ⟨r', h1, h2, h3, h4⟩ := deserialize_at hb tail
  exact ⟨r', h1.valid, fun v => by rw [rbContains_eq h1, rbContains_eq hb, h2], (rbEquals_iff h1 hb).2 h2, h3, h4⟩

/-! ### The layout of the portable format

The specification of the format (https://github.com/RoaringBitmap/RoaringFormatSpec), written down independently of the
model of the writer. -/

/-- `n` as `k` bytes, least significant first. -/
def little (k n : Nat) : List UInt8 := (List.range k).map fun i => UInt8.ofNat (n / 256 ^ i)

/-- A container: the 1024 words of a bitset, the values of an array, or the number of runs and the runs. -/
def specContainer : Container → List UInt8
  | .bitset b => b.words.flatMap fun w => little 8 w.toNat
  | .array l => l.flatMap fun v => little 2 v
  | .run rs => little 2 rs.length ++ rs.flatMap fun p => little 2 p.1 ++ little 2 p.2

def isRunC : Container → Bool
  | .run _ => true
  | _ => false

/-- The number of values of a container. -/
noncomputable def countC (c : Container) : Nat :=
  Spec.card 65536 fun x => @decide (Stored c x) (Classical.propDecidable _)

/-- Byte `j` of the bitset that marks the run containers. -/
def specFlag (r : Bitmap) (j : Nat) : UInt8 :=
  let f (i : Nat) : Nat := ((r[8 * j + i]?.map fun p => isRunC p.2).getD false).toNat
  UInt8.ofNat (f 0 + 2 * f 1 + 4 * f 2 + 8 * f 3 + 16 * f 4 + 32 * f 5 + 64 * f 6 + 128 * f 7)

/-- Cookie header. -/
def specCookie (r : Bitmap) : List UInt8 :=
  if r.any fun p => isRunC p.2 then
    little 2 12347 ++ little 2 (r.length - 1) ++ (List.range ((r.length + 7) / 8)).map (specFlag r)
  else little 4 12346 ++ little 4 r.length

/-- Descriptive header: for every container its key and its number of values minus one. -/
noncomputable def specDescr (r : Bitmap) : List UInt8 := r.flatMap fun p => little 2 p.1 ++ little 2 (countC p.2 - 1)

/-- Whether there is an offset header. -/
def specHasOffsets (r : Bitmap) : Bool := !(r.any fun p => isRunC p.2) || decide (4 ≤ r.length)

/-- Offset header: where each container starts, as a 32-bit number. -/
noncomputable def specOffsets (r : Bitmap) : List UInt8 :=
  if specHasOffsets r then
    (List.range r.length).flatMap fun i =>
      little 4 ((specCookie r).length + (specDescr r).length + 4 * r.length +
        ((r.take i).flatMap fun p => specContainer p.2).length)
  else []

/-- The whole serialized bitmap. -/
noncomputable def specPortable (r : Bitmap) : List UInt8 :=
  specCookie r ++ specDescr r ++ specOffsets r ++ r.flatMap fun p => specContainer p.2

theorem little_eq (k : Nat) : ∀ n, little k n = leBytes k n := by
  induction k with
  | zero => intro n; rfl
  | succ k ih =>
    intro n
    rw [leBytes, ← ih, little, List.range_succ_eq_map, List.map_cons, List.map_map, little]
    simp only [Nat.pow_zero, Nat.div_one, List.cons.injEq, true_and]
    apply List.map_congr_left
    intro i _
    simp only [Function.comp, Nat.pow_succ]
    rw [Nat.mul_comm, Nat.div_div_eq_div_mul]

theorem leBytes_mod (k : Nat) : ∀ n, leBytes k (n % 256 ^ k) = leBytes k n := by
  induction k with
  | zero => intro n; rfl
  | succ k ih =>
    intro n
    rw [leBytes, leBytes]
    have h1 : n % 256 ^ (k + 1) / 256 = n / 256 % 256 ^ k := by
      rw [Nat.pow_succ, Nat.mul_comm, Nat.mod_mul_right_div_self]
    have h2 : n % 256 ^ (k + 1) % 256 = n % 256 := by
      rw [Nat.pow_succ]; exact Nat.mod_mul_left_mod _ _ _
    rw [h1, ih]
    congr 1
    apply UInt8.toNat_inj.1
    rw [UInt8.toNat_ofNat', UInt8.toNat_ofNat']
    exact h2

theorem leBytes_add (j k : Nat) : ∀ n, leBytes (j + k) n = leBytes j n ++ leBytes k (n / 256 ^ j) := by
  induction j with
  | zero => intro n; simp [leBytes]
  | succ j ih =>
    intro n
    rw [show j + 1 + k = j + k + 1 by omega, leBytes, leBytes, ih, List.cons_append, Nat.div_div_eq_div_mul,
      Nat.pow_succ, Nat.mul_comm]

theorem specContainer_eq {c : Container} (h : CInv c) : specContainer c = contBytes c := by
  cases c with
  | bitset b => simp only [specContainer, contBytes, wordBytes, little_eq]
  | array l => simp only [specContainer, contBytes, little_eq]
  | run rs =>
    have := RunOK.length_le h
    simp only [specContainer, contBytes, little_eq]
    rw [Nat.mod_eq_of_lt (by omega)]

theorem countC_eq (c : Container) : countC c = Spec.card 65536 (chas c) := by
  rw [countC]
  apply card_congr
  intro x _
  rw [Bool.eq_iff_iff]
  exact ⟨fun h => (stored_iff c x).2 (@of_decide_eq_true _ (Classical.propDecidable _) h),
    fun h => @decide_eq_true _ (Classical.propDecidable _) ((stored_iff c x).1 h)⟩

theorem isRunC_eq (c : Container) : isRunC c = isRun c := by cases c <;> rfl

theorem specDescr_eq {r : Bitmap} (h : BInv r) : specDescr r = kcBytes r := by
  rw [specDescr, kcBytes]
  have h3 := (bp_iff.1 h).2.2
  clear h
  induction r with
  | nil => rfl
  | cons p t ih =>
    rw [List.flatMap_cons, List.flatMap_cons, ih fun q hq => h3 q (by simp [hq])]
    have := card_field (h3 p (by simp))
    rw [little_eq, little_eq, countC_eq, ← this.1, Nat.add_sub_cancel]

theorem byte_bits : ∀ b0 b1 b2 b3 b4 b5 b6 b7 : Bool, ∀ i : Fin 8,
    (b0.toNat + 2 * b1.toNat + 4 * b2.toNat + 8 * b3.toNat + 16 * b4.toNat + 32 * b5.toNat + 64 * b6.toNat +
      128 * b7.toNat).testBit i = [b0, b1, b2, b3, b4, b5, b6, b7][i] := by
  decide +kernel

theorem specFlag_bit (r : Bitmap) (j : Nat) {i : Nat} (hi : i < 8) :
    (specFlag r j).toNat.testBit i = (r[8 * j + i]?.map fun p => isRunC p.2).getD false := by
  rw [specFlag]
  simp only
  generalize hf : (fun i => (r[8 * j + i]?.map fun p => isRunC p.2).getD false) = f
  have e : ∀ i, (r[8 * j + i]?.map fun p => isRunC p.2).getD false = f i := fun i => by rw [← hf]
  simp only [e]
  have hb : ∀ b : Bool, b.toNat ≤ 1 := by decide
  have h0 := hb (f 0); have h1 := hb (f 1); have h2 := hb (f 2); have h3 := hb (f 3)
  have h4 := hb (f 4); have h5 := hb (f 5); have h6 := hb (f 6); have h7 := hb (f 7)
  rw [UInt8.toNat_ofNat', Nat.mod_eq_of_lt (by omega), byte_bits (f 0) (f 1) (f 2) (f 3) (f 4) (f 5) (f 6) (f 7) ⟨i, hi⟩]
  rcases i with _ | _ | _ | _ | _ | _ | _ | _ | i <;> first | rfl | omega

theorem flags_eq (r : Bitmap) : runFlags r = (List.range ((r.length + 7) / 8)).map (specFlag r) := by
  apply List.ext_getElem
  · rw [runFlags_length]; simp
  · intro j h1 h2
    rw [runFlags_length] at h1
    rw [List.getElem_map, List.getElem_range]
    apply UInt8.toNat_inj.1
    apply Nat.eq_of_testBit_eq
    intro i
    by_cases hi : i < 8
    · rw [specFlag_bit r j hi]
      by_cases hr : 8 * j + i < r.length
      · have := runFlags_bit r hr
        rw [flagBit, show (8 * j + i) / 8 = j by omega, show (8 * j + i) % 8 = i by omega,
          List.getD_eq_getElem?_getD, List.getElem?_eq_getElem (by rw [runFlags_length]; exact h1)] at this
        simp only [Option.getD_some] at this
        rw [this, List.getElem?_eq_getElem hr, contAt, List.getD_eq_getElem?_getD, List.getElem?_eq_getElem hr]
        simp [isRunC_eq]
      · rw [List.getElem?_eq_none (by omega)]
        exact runFlags_high r h1 hi (by omega)
    · have hh : ∀ b : UInt8, b.toNat.testBit i = false := fun b =>
        Nat.testBit_lt_two_pow (Nat.lt_of_lt_of_le b.toNat_lt (Nat.pow_le_pow_right (n := 2) (by omega) (by omega : 8 ≤ i)))
      rw [hh, hh]

theorem offBytes_eq (r : Bitmap) (h : ∀ p ∈ r, CNe p.2) : ∀ start,
    (List.range r.length).flatMap (fun i => little 4 (start + ((r.take i).flatMap fun p => specContainer p.2).length)) =
      offBytes (start % 4294967296) r := by
  induction r with
  | nil => intro start; rfl
  | cons p t ih =>
    obtain ⟨k, c⟩ := p
    intro start
    have hc := h (k, c) (by simp)
    have hl : (specContainer c).length = containerSizeInBytes c := by
      rw [specContainer_eq hc.1, contBytes_length hc.1.typed]
    rw [offBytes, List.length_cons, List.range_succ_eq_map, List.flatMap_cons, List.flatMap_map]
    have e := ih (fun q hq => h q (by simp [hq])) (start + containerSizeInBytes c)
    rw [Nat.mod_add_mod, ← e]
    congr 1
    · rw [little_eq, List.take_zero, List.flatMap_nil, List.length_nil, Nat.add_zero]
      exact (leBytes_mod 4 start).symm
    · congr 1
      funext i
      simp only [Nat.succ_eq_add_one, List.take_succ_cons, List.flatMap_cons, List.length_append, hl, Nat.add_assoc]

theorem specPortable_eq {r : Bitmap} (h : BInv r) : specPortable r = serBytes r := by
  have hne := (bp_iff.1 h).2.2
  have hsz := h.length_le
  have hrun : (r.any fun p => isRunC p.2) = raHasRun r := by simp only [raHasRun, isRunC_eq]
  have hall : ∀ (t : Bitmap), (∀ p ∈ t, CNe p.2) → t.flatMap (fun p => specContainer p.2) = allBytes t := by
    intro t
    induction t with
    | nil => intro _; rfl
    | cons p t ih =>
      intro ht
      rw [List.flatMap_cons, ih fun q hq => ht q (by simp [hq]), specContainer_eq (ht p (by simp)).1]
      simp [allBytes]
  have hck : specCookie r = if raHasRun r then leBytes 4 (COOKIE ||| ((r.length - 1) <<< 16)) ++ runFlags r
      else leBytes 4 COOKIE_NORUN ++ leBytes 4 r.length := by
    rw [specCookie, hrun, flags_eq]
    by_cases hr : raHasRun r = true
    · rw [if_pos hr, if_pos hr]
      obtain ⟨c1, c2, _⟩ := cookie_low (r.length - 1) (by omega)
      rw [Nat.shiftRight_eq_div_pow] at c2
      have := leBytes_add 2 2 (COOKIE ||| ((r.length - 1) <<< 16))
      rw [show 2 + 2 = 4 from rfl, ← leBytes_mod 2 (COOKIE ||| _), show (256 : Nat) ^ 2 = 65536 from rfl, c1,
        show (65536 : Nat) = 2 ^ 16 from rfl, c2] at this
      rw [this, little_eq, little_eq]
      rfl
    · rw [if_neg hr, if_neg hr, little_eq, little_eq]; rfl
  have hcl : (specCookie r).length + (specDescr r).length + 4 * r.length =
      if raHasRun r then 4 + 8 * r.length + (r.length + 7) / 8 else 4 + 4 + 4 * r.length + 4 * r.length := by
    rw [hck, specDescr_eq h, kcBytes_length]
    split
    · simp only [List.length_append, leBytes_length, runFlags_length]; omega
    · simp only [List.length_append, leBytes_length]
  rw [specPortable, serBytes, hall r hne, specOffsets, specHasOffsets, hrun, hcl, specDescr_eq h, hck,
    offBytes_eq r hne]
  congr 2
  have : (if raHasRun r = true then 4 + 8 * r.length + (r.length + 7) / 8 else 4 + 4 + 4 * r.length + 4 * r.length) %
      4294967296 = if raHasRun r = true then 4 + 8 * r.length + (r.length + 7) / 8 else 4 + 4 + 4 * r.length + 4 * r.length := by
    apply Nat.mod_eq_of_lt
    split <;> omega
  rw [this]
  rfl

/-- C45: what `portable_serialize` writes is the layout of the format specification: cookie header with the bitset of
run containers, descriptive header, offset header, containers. -/
theorem C45_portable_layout {r : Bitmap} (h : Valid r) {mem : List UInt8} (hm : rbPortableSize r ≤ mem.length) :
    rbPortableSerialize r mem 0 = .ok (specPortable r ++ mem.drop (rbPortableSize r), (specPortable r).length) := by
  have hb := h.inv
  have ht : ∀ p ∈ r, CTyped p.2 := fun p hp => ((bp_iff.1 hb).2.2 p hp).1.typed
  rw [specPortable_eq hb, rbPortableSerialize_eq ht (mem := mem) (off := 0) (by omega), serBytes_length ht]
  simp

/-! ### The hypotheses can be met -/

example : Valid exB ∧ rbPortableSize exB ≤ (List.replicate (rbPortableSize exB) (0 : UInt8)).length :=
  ⟨exB_valid, by simp⟩

/-- The bytes of a concrete bitmap, computed. -/
example : rbPortableSerialize exS (List.replicate 40 7) 0 = .ok
    ([59, 48, 1, 0, 2, 0, 0, 2, 0, 2, 0, 21, 0, 1, 0, 5, 0, 255, 255, 2, 0, 10, 0, 20, 0, 100, 0, 0, 0] ++
      List.replicate 11 7, 29) := by decide +kernel

/-- These bytes are read back; cut short, they are rejected; a wrong cookie is rejected. -/
example : let m : List UInt8 := [59, 48, 1, 0, 2, 0, 0, 2, 0, 2, 0, 21, 0, 1, 0, 5, 0, 255, 255, 2, 0, 10, 0, 20, 0,
      100, 0, 0, 0, 7, 7]
    rbPortableDeserializeSafe m 0 31 = .ok exS ∧ rbPortableDeserializeSize m 31 = .ok 29 ∧
    rbPortableDeserializeSafe m 0 28 = .fail ∧ rbPortableDeserializeSafe (m.drop 1) 0 30 = .fail := by decide +kernel

/-- Bytes that are accepted by the deserializer but rejected by the validation: an array that is not sorted. -/
example : ∃ r, rbPortableDeserializeSafe
    [58, 48, 0, 0, 1, 0, 0, 0, 0, 0, 1, 0, 16, 0, 0, 0, 5, 0, 3, 0] 0 20 = .ok r ∧ rbInternalValidate r = false :=
  ⟨[(0, .array [5, 3])], by decide +kernel, by decide +kernel⟩

/-- The native format of a small bitmap is the list of its values. -/
example : rbSerialize [(0, .array [1, 5])] (List.replicate 13 0) =
    .ok ([1, 2, 0, 0, 0, 1, 0, 0, 0, 5, 0, 0, 0], 13) := by decide +kernel

end CRoaring.Props
