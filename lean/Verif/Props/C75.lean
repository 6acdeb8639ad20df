import Verif.Props.C60
import Verif.Props.C28
import Verif.Lemmas.Serial64b
/-
C75 - C77: the portable format of 64-bit bitmaps.

Memory is a list of bytes, as in C28: `.oob` is an access outside of the given memory, `.fail` the error result.
-/
namespace CRoaring.Props
open CRoaring

/-! ### Buckets -/

theorem bhas_flat {gs : List (Nat × Bitmap)} (h : ∀ g ∈ gs, BInv g.2) (x : Nat) :
    bhas (gs.flatMap fun g => liftBy g.1 g.2) x = true ↔ ∃ g ∈ gs, g.1 = x / 4294967296 ∧ bhas g.2 (x % 4294967296) = true := by
  induction gs with
  | nil => simp [bhas_nil]
  | cons g t ih =>
    rw [List.flatMap_cons, bhas_append, Bool.or_eq_true, ih fun g hg => h g (by simp [hg]), bhas_liftBy _ (h g (by simp)),
      Bool.and_eq_true, decide_eq_true_eq]
    simp only [List.mem_cons, exists_eq_or_imp]
    rw [eq_comm]

theorem bucket_has {b : Bitmap} (hb : BInv b) (hn : b ≠ []) : ∃ y, y < 4294967296 ∧ bhas b y = true := by
  cases b with
  | nil => exact absurd rfl hn
  | cons p t =>
    obtain ⟨y, hy⟩ := ((bp_iff.1 hb).2.2 p (by simp)).2
    have hlt := chas_lt ((bp_iff.1 hb).2.2 p (by simp)).1 hy
    have := bhas_mem hb (p := p) (by simp) hlt
    rw [hy] at this
    exact ⟨_, bhas_lt hb this, this⟩

/-- The keys of the buckets are the numbers `h` such that some value `x` has `x / 2^32 = h`. -/
theorem gok_keys {gs : List (Nat × Bitmap)} (h : GOk gs) (k : Nat) :
    k ∈ gs.map (·.1) ↔ ∃ x, x / 4294967296 = k ∧ bhas (gs.flatMap fun g => liftBy g.1 g.2) x = true := by
  constructor
  · intro hk
    obtain ⟨g, hg, rfl⟩ := List.mem_map.1 hk
    obtain ⟨y, hy, hb⟩ := bucket_has (h.bp g hg).1 (h.bp g hg).2
    refine ⟨g.1 * 4294967296 + y, by omega, (bhas_flat (fun g hg => (h.bp g hg).1) _).2 ⟨g, hg, by omega, ?_⟩⟩
    rw [show (g.1 * 4294967296 + y) % 4294967296 = y by omega]
    exact hb
  · rintro ⟨x, rfl, hx⟩
    obtain ⟨g, hg, e, -⟩ := (bhas_flat (fun g hg => (h.bp g hg).1) _).1 hx
    exact List.mem_map.2 ⟨g, hg, e⟩

theorem gok_length {gs : List (Nat × Bitmap)} (h : GOk gs) :
    gs.length = Spec.card 4294967296 (fun k => decide (k ∈ gs.map (·.1))) := by
  have e : ∀ n, (∀ k ∈ gs.map (·.1), k < n) → gs.map (·.1) = Spec.enum n (fun k => decide (k ∈ gs.map (·.1))) := by
    intro n hn
    refine sorted_ext (List.pairwise_map.2 h.ks) (enum_sorted _ _) fun x => ?_
    rw [mem_enum, decide_eq_true_eq]
    exact ⟨fun hx => ⟨hn x hx, hx⟩, fun hx => hx.2⟩
  have := congrArg List.length (e 4294967296 fun k hk => by
    obtain ⟨g, hg, rfl⟩ := List.mem_map.1 hk
    exact h.lt g hg)
  rw [List.length_map] at this
  exact this

theorem rep64_has {r : R64} {l : Bitmap} (h : B64 r l) (x : Nat) : bhas l x = true ↔ x < 2 ^ 64 ∧ r64Contains r x = true := by
  have hr : Rep64 r (bhas l) := ⟨l, h, fun _ => rfl⟩
  constructor
  · intro hx
    have hlt : x < 2 ^ 64 := by have := hr.lt hx; unfold TOP64 at this; omega
    exact ⟨hlt, by rw [(fin64 hr).2 x hlt]; exact hx⟩
  · rintro ⟨h1, h2⟩
    rw [← (fin64 hr).2 x h1]; exact h2

/-! ### Round trip -/

/-- Some block of 2^32 values has no value in the bitmap. -/
def LacksBlock (r : R64) : Prop := ∃ h, h < 2 ^ 32 ∧ ∀ y, y < 2 ^ 64 → y / 2 ^ 32 = h → r64Contains r y = false

theorem lacks_count {r : R64} {l : Bitmap} (h : B64 r l) (hl : LacksBlock r) : countHigh32 r < 4294967296 := by
  obtain ⟨hg, hfl⟩ := groups_none h.rl.ks (fun p hp => ⟨h.rl.lt hp, h.ne p hp⟩)
  rw [countHigh32_eq h.rl, gok_length hg]
  obtain ⟨k, hk, hh⟩ := hl
  refine card_lacks (y := k) (by omega) (decide_eq_false fun hm => ?_)
  obtain ⟨x, rfl, hx⟩ := (gok_keys hg k).1 hm
  rw [hfl] at hx
  obtain ⟨h1, h2⟩ := (rep64_has h x).1 hx
  rw [hh x h1 rfl] at h2
  cases h2

theorem at_append (b tail : List UInt8) : At (b ++ tail) 0 b := ⟨[], tail, by simp, rfl⟩

/-- C75, for bitmaps that lack all values of some block of 2^32 values: `portable_serialize` writes exactly
`portable_size_in_bytes` bytes at the start of the buffer and touches nothing else; deserializing these bytes, followed by
anything, under any limit that covers them, gives a valid bitmap with the same members; and `portable_deserialize_size`
finds the size.  Missing: bitmaps with values in all 2^32 blocks, for which the claim is false
(`C75_portable_round_trip_false`). -/
theorem C75_portable_round_trip_partial {r : R64} (h : Valid64 r) (hl : LacksBlock r) {mem : List UInt8}
    (hm : r64PortableSize r ≤ mem.length) :
    ∃ bytes : List UInt8, bytes.length = r64PortableSize r ∧
      r64PortableSerialize r mem = .ok (bytes ++ mem.drop (r64PortableSize r), r64PortableSize r) ∧
      ∀ tail maxbytes, r64PortableSize r ≤ maxbytes → maxbytes ≤ (bytes ++ tail).length →
        r64PortableDeserializeSize (bytes ++ tail) maxbytes = .ok (r64PortableSize r) ∧
        ∃ r', r64PortableDeserializeSafe (bytes ++ tail) maxbytes = .ok r' ∧ Valid64 r' ∧
          (∀ y, y < 2 ^ 64 → r64Contains r' y = r64Contains r y) ∧ r64Equals r' r = true := by
  obtain ⟨l, hb, -⟩ := h.rep
  obtain ⟨hg, hfl⟩ := groups_none hb.rl.ks (fun p hp => ⟨hb.rl.lt hp, hb.ne p hp⟩)
  refine ⟨ser64Bytes (groups none l), ?_, r64PortableSerialize_eq hb hm, fun tail maxbytes h1 h2 => ?_⟩
  · rw [r64PortableSize_eq hb.rl, ser64Bytes, List.length_append, leBytes_length, bucketBytes_length hg.weak]
  · obtain ⟨e1, r', e2, hb'⟩ := r64PortableDeserialize_at hb (lacks_count hb hl) (at_append _ tail) h1 h2
    have hv : Valid64 r' := hb'.inv.valid
    have hc : ∀ y, y < 2 ^ 64 → r64Contains r' y = r64Contains r y := by
      intro y hy
      rw [Bool.eq_iff_iff]
      have a := rep64_has hb' y
      have b := rep64_has hb y
      exact ⟨fun hh => (b.1 (a.2 ⟨hy, hh⟩)).2, fun hh => (a.1 (b.2 ⟨hy, hh⟩)).2⟩
    refine ⟨e1, r', ?_, hv, hc, (C58_equals hv h).2 hc⟩
    rw [r64PortableDeserializeSafe, e2]
    rfl

/-- C75: a serialized bitmap that has been cut short, or is read under a limit that does not cover it, is rejected. -/
theorem C75_truncated_partial {r : R64} (h : Valid64 r) (hl : LacksBlock r) {mem after : List UInt8} {n : Nat}
    (hw : r64PortableSerialize r mem = .ok (after, n)) (hm : r64PortableSize r ≤ mem.length) {maxbytes : Nat}
    (hlt : maxbytes < r64PortableSize r) :
    r64PortableDeserializeSafe after maxbytes = .fail ∧ r64PortableDeserializeSize after maxbytes = .fail := by
  obtain ⟨l, hb, -⟩ := h.rep
  obtain ⟨hg, hfl⟩ := groups_none hb.rl.ks (fun p hp => ⟨hb.rl.lt hp, hb.ne p hp⟩)
  rw [r64PortableSerialize_eq hb hm] at hw
  simp only [Out.ok.injEq, Prod.mk.injEq] at hw
  have hlen : r64PortableSize r ≤ after.length := by
    rw [← hw.1, List.length_append, ser64Bytes, List.length_append, leBytes_length, bucketBytes_length hg.weak,
      r64PortableSize_eq hb.rl]
    omega
  obtain ⟨t1, t2⟩ := truncated64 hb (lacks_count hb hl) (hw.1 ▸ at_append _ _) hlen hlt
  refine ⟨?_, t2⟩
  rw [r64PortableDeserializeSafe, t1]
  rfl

example : Valid64 exS64 ∧ LacksBlock exS64 := by
  refine ⟨exS64_valid, 1, by omega, fun y hy hh => ?_⟩
  rw [(fin64 exS64_rep).2 y hy]
  have h1 : y ≠ 5 := by omega
  have h2 : ¬ (65530 ≤ y ∧ y < 131081) := by omega
  have h3 : y ≠ 9223372036854775815 := by omega
  simp [Spec.insert, Spec.union, Spec.empty, Spec.range, h1, h3]
  omega

/-- What `portable_serialize` writes for the set of all values is rejected under every limit. -/
theorem C75_portable_round_trip_false : ∃ r, Valid64 r ∧ ∀ mem, r64PortableSize r ≤ mem.length →
    ∃ bytes n, r64PortableSerialize r mem = .ok (bytes, n) ∧ ∀ maxbytes,
      r64PortableDeserializeSafe bytes maxbytes = .fail ∧ r64PortableDeserializeSize bytes maxbytes = .fail := by
  refine ⟨exFull64, exFull64_valid, fun mem hm => ?_⟩
  obtain ⟨l, hb, -⟩ := exFull64_valid.rep
  obtain ⟨hg, hfl⟩ := groups_none hb.rl.ks (fun p hp => ⟨hb.rl.lt hp, hb.ne p hp⟩)
  have hc : countHigh32 exFull64 = 4294967296 := by
    rw [countHigh32_eq hb.rl, gok_length hg]
    refine card_all fun k hk => decide_eq_true ((gok_keys hg k).2 ⟨k * 4294967296, by omega, ?_⟩)
    rw [hfl]
    exact (rep64_has hb _).2 ⟨by omega, exFull64_has (by omega)⟩
  refine ⟨_, _, r64PortableSerialize_eq hb hm, fun maxbytes => ?_⟩
  obtain ⟨t1, t2⟩ := r64PortableDeserialize_full (maxbytes := maxbytes) hb hc (at_append _ (mem.drop (r64PortableSize exFull64)))
  exact ⟨by rw [r64PortableDeserializeSafe, t2]; rfl, t1⟩

/-! ### Any bytes -/

/-- C76: on every byte string, with every limit `n` that does not exceed its length, the two functions read only the first
`n` bytes (the result does not change if the other bytes are removed, and no access is out of bounds); when
`portable_deserialize_safe` succeeds, `portable_deserialize_size` gives the number of bytes consumed, at most `n`. -/
theorem C76_portable_in_bounds (buf : List UInt8) {n : Nat} (hn : n ≤ buf.length) :
    r64PortableDeserializeSafe buf n = r64PortableDeserializeSafe (buf.take n) n ∧
    r64PortableDeserializeSize buf n = r64PortableDeserializeSize (buf.take n) n ∧
    r64PortableDeserializeSafe buf n ≠ .oob ∧ r64PortableDeserializeSize buf n ≠ .oob ∧
    (∀ m, r64PortableDeserializeSize buf n = .ok m → 8 ≤ m ∧ m ≤ n) ∧
    (∀ r, r64PortableDeserializeSafe buf n = .ok r → ∃ m, r64PortableDeserialize buf n = .ok (r, m) ∧
      r64PortableDeserializeSize buf n = .ok m) := by
  obtain ⟨k1, k2⟩ := r64PortableDeserialize_take hn
  obtain ⟨t1, t2⟩ := r64PortableDeserialize_total hn
  refine ⟨by rw [r64PortableDeserializeSafe, r64PortableDeserializeSafe, k1], k2, ?_, ?_, ?_, ?_⟩
  · intro e
    rw [r64PortableDeserializeSafe] at e
    rcases t1 with t1 | ⟨r, m, l, t1, _⟩ <;> rw [t1] at e <;> cases e
  · intro e
    rcases t2 with t2 | ⟨m, t2, _⟩ <;> rw [t2] at e <;> cases e
  · intro m e
    rcases t2 with t2 | ⟨m', t2, h1, h2⟩ <;> rw [t2] at e <;> cases e
    exact ⟨h1, h2⟩
  · intro r e
    rw [r64PortableDeserializeSafe] at e
    rcases t1 with t1 | ⟨r', m, l, t1, t3, _⟩
    · rw [t1] at e; cases e
    · rw [t1] at e; cases e
      exact ⟨m, t1, t3⟩

/-- C76: whatever bytes a bitmap has been deserialized from, if `internal_validate` accepts it then it is `Valid64`, which is
what all other theorems assume. -/
theorem C76_validated_input {buf : List UInt8} {n : Nat} {r : R64} (hn : n ≤ buf.length)
    (hr : r64PortableDeserializeSafe buf n = .ok r) : r64InternalValidate r = true → Valid64 r := by
  intro hv
  refine ⟨?_, hv⟩
  rcases (r64PortableDeserialize_total hn).1 with t1 | ⟨r', m, l, t1, _, _, h1, h2⟩
  · rw [r64PortableDeserializeSafe, t1] at hr; cases hr
  · rw [r64PortableDeserializeSafe, t1] at hr; cases hr
    exact typed64_of h1 h2

/-! ### The layout -/

/-- A set of 64-bit values as a list of buckets: `(h, b)` stands for the values `h * 2^32 + x` with `x` in the 32-bit bitmap
`b`.  The numbers `h` are increasing. -/
structure LooseBuckets (gs : List (Nat × Bitmap)) : Prop where
  increasing : gs.Pairwise fun a b => a.1 < b.1
  high : ∀ g ∈ gs, g.1 < 2 ^ 32
  valid : ∀ g ∈ gs, Valid g.2

/-- The same where no bucket is empty. -/
structure Buckets (gs : List (Nat × Bitmap)) : Prop extends LooseBuckets gs where
  nonempty : ∀ g ∈ gs, rbIsEmpty g.2 = false

/-- The layout (https://github.com/RoaringBitmap/RoaringFormatSpec#extension-for-64-bit-implementations): the number of
buckets as eight bytes; then for each bucket the high part as four bytes and the 32-bit bitmap in its portable format. -/
noncomputable def specPortable64 (gs : List (Nat × Bitmap)) : List UInt8 :=
  little 8 gs.length ++ gs.flatMap fun g => little 4 g.1 ++ specPortable g.2

theorem gok_buckets {gs : List (Nat × Bitmap)} : GOk gs ↔ Buckets gs := by
  have hne : ∀ b : Bitmap, rbIsEmpty b = false ↔ b ≠ [] := by
    intro b; cases b <;> simp [rbIsEmpty]
  constructor
  · intro h
    exact ⟨⟨h.ks, fun g hg => by have := h.lt g hg; omega, fun g hg => (h.bp g hg).1.valid⟩, fun g hg => (hne _).2 (h.bp g hg).2⟩
  · intro h
    exact ⟨h.increasing, fun g hg => by have := h.high g hg; omega, fun g hg => ⟨(h.valid g hg).inv, (hne _).1 (h.nonempty g hg)⟩⟩

theorem gwk_buckets {gs : List (Nat × Bitmap)} (h : LooseBuckets gs) : GWk gs :=
  ⟨h.increasing, fun g hg => by have := h.high g hg; omega, fun g hg => (h.valid g hg).inv⟩

theorem specPortable64_eq {gs : List (Nat × Bitmap)} (h : GWk gs) : specPortable64 gs = ser64Bytes gs := by
  unfold specPortable64 ser64Bytes
  rw [little_eq]
  congr 1
  have : ∀ (gs : List (Nat × Bitmap)), (∀ g ∈ gs, BInv g.2) →
      (gs.flatMap fun g => little 4 g.1 ++ specPortable g.2) = gs.flatMap bucketBytes := by
    intro gs
    induction gs with
    | nil => intro _; rfl
    | cons g t ih =>
      intro hb
      rw [List.flatMap_cons, List.flatMap_cons, ih fun g hg => hb g (by simp [hg]), little_eq, specPortable_eq (hb g (by simp))]
      rfl
  exact this gs fun g hg => h.bp g hg

/-- C77: `portable_serialize` writes the documented layout of the bitmap's buckets. -/
theorem C77_portable_layout {r : R64} (h : Valid64 r) {mem : List UInt8} (hm : r64PortableSize r ≤ mem.length) :
    ∃ gs, Buckets gs ∧
      (∀ y, y < 2 ^ 64 → (r64Contains r y = true ↔ ∃ g ∈ gs, g.1 = y / 2 ^ 32 ∧ rbContains g.2 (y % 2 ^ 32) = true)) ∧
      r64PortableSize r = (specPortable64 gs).length ∧
      r64PortableSerialize r mem = .ok (specPortable64 gs ++ mem.drop (r64PortableSize r), r64PortableSize r) := by
  obtain ⟨l, hb, -⟩ := h.rep
  obtain ⟨hg, hfl⟩ := groups_none hb.rl.ks (fun p hp => ⟨hb.rl.lt hp, hb.ne p hp⟩)
  refine ⟨groups none l, gok_buckets.1 hg, fun y hy => ?_, ?_, ?_⟩
  · have e := bhas_flat (fun g hg' => (hg.bp g hg').1) y
    rw [hfl] at e
    rw [show r64Contains r y = true ↔ bhas l y = true from ⟨fun hh => (rep64_has hb y).2 ⟨hy, hh⟩, fun hh => ((rep64_has hb y).1 hh).2⟩, e]
    constructor
    · rintro ⟨g, h1, h2, h3⟩
      exact ⟨g, h1, h2, by rw [rbContains_eq (hg.bp g h1).1]; exact h3⟩
    · rintro ⟨g, h1, h2, h3⟩
      exact ⟨g, h1, h2, by rw [rbContains_eq (hg.bp g h1).1] at h3; exact h3⟩
  · rw [specPortable64_eq hg.weak, r64PortableSize_eq hb.rl, ser64Bytes, List.length_append, leBytes_length, bucketBytes_length hg.weak]
  · rw [specPortable64_eq hg.weak]
    exact r64PortableSerialize_eq hb hm

/-- C77: bytes of the documented layout, whoever wrote them, are read as the set they stand for (with fewer than 2^32
buckets, of which some may be empty, and any limit that covers them). -/
theorem C77_portable_read {gs : List (Nat × Bitmap)} (h : LooseBuckets gs) (hc : gs.length < 2 ^ 32) (tail : List UInt8) {maxbytes : Nat}
    (h1 : (specPortable64 gs).length ≤ maxbytes) (h2 : maxbytes ≤ (specPortable64 gs ++ tail).length) :
    ∃ r, r64PortableDeserializeSafe (specPortable64 gs ++ tail) maxbytes = .ok r ∧ Valid64 r ∧
      ∀ y, y < 2 ^ 64 → (r64Contains r y = true ↔ ∃ g ∈ gs, g.1 = y / 2 ^ 32 ∧ rbContains g.2 (y % 2 ^ 32) = true) := by
  have hg := gwk_buckets h
  have hlen : (specPortable64 gs).length = 8 + bucketSize gs := by
    rw [specPortable64_eq hg, ser64Bytes, List.length_append, leBytes_length, bucketBytes_length hg]
  have hat := at_append (specPortable64 gs) tail
  rw [show At (specPortable64 gs ++ tail) 0 (specPortable64 gs) ↔ At (specPortable64 gs ++ tail) 0 (ser64Bytes gs) by
    rw [specPortable64_eq hg]] at hat
  unfold ser64Bytes at hat
  have hr := readLE_at hat.left (by omega)
  have a2 := hat.right' (leBytes_length 8 _)
  obtain ⟨-, r', i2, i3⟩ := deser64_at h2 gs hg (off := 8) (prev := -1) (dst := none) (A := []) (by simpa using a2)
    (by omega) rl_none (by simp) (fun g hg => by omega)
  rw [List.nil_append] at i3
  have hb : B64 r' (gs.flatMap fun g => liftBy g.1 g.2) := by
    refine ⟨i3, fun p hp => ?_⟩
    obtain ⟨g, hg', hp⟩ := List.mem_flatMap.1 hp
    obtain ⟨q, hq, rfl⟩ := List.mem_map.1 hp
    exact (bp_iff.1 (hg.bp g hg')).2.2 q hq
  refine ⟨r', ?_, hb.inv.valid, fun y hy => ?_⟩
  · rw [r64PortableDeserializeSafe, r64PortableDeserialize, if_neg (by omega), hr, ok_bind, if_neg (by omega)]
    show (deser64Loop _ _ _ _ _ none >>= _) = _
    rw [i2]
    rfl
  · have e := bhas_flat (fun g hg' => hg.bp g hg') y
    rw [show r64Contains r' y = true ↔ bhas (gs.flatMap fun g => liftBy g.1 g.2) y = true from
      ⟨fun hh => (rep64_has hb y).2 ⟨hy, hh⟩, fun hh => ((rep64_has hb y).1 hh).2⟩, e]
    constructor
    · rintro ⟨g, h1, h2, h3⟩
      exact ⟨g, h1, h2, by rw [rbContains_eq (hg.bp g h1)]; exact h3⟩
    · rintro ⟨g, h1, h2, h3⟩
      exact ⟨g, h1, h2, by rw [rbContains_eq (hg.bp g h1)] at h3; exact h3⟩

example : Buckets [(0, exS), (7, exB)] := by
  refine ⟨⟨by simp, ?_, ?_⟩, ?_⟩ <;> intro g hg <;> simp only [List.mem_cons, List.not_mem_nil, or_false] at hg <;>
    rcases hg with rfl | rfl
  · show 0 < 2 ^ 32; omega
  · show 7 < 2 ^ 32; omega
  · exact exS_valid
  · exact exB_valid
  · rfl
  · rfl

end CRoaring.Props
