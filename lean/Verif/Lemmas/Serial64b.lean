import Verif.Lemmas.Serial64
set_option linter.unusedSimpArgs false
set_option linter.unusedVariables false
/-
Reading the portable format of 64-bit bitmaps.
-/
namespace CRoaring
open Spec

theorem keysOk_bp {P : Container → Prop} {b : Bitmap} (hp : ∀ p ∈ b, p.1 < 65536 ∧ P p.2) {last : Int} (h : keysOk last b = true) :
    BP P b ∧ ∀ p ∈ b, last < p.1 := by
  induction b generalizing last with
  | nil => exact ⟨trivial, by simp⟩
  | cons p t ih =>
    obtain ⟨k, c⟩ := p
    simp only [keysOk] at h
    split at h
    · cases h
    · rename_i hk
      obtain ⟨h1, h2⟩ := ih (fun p hp' => hp p (by simp [hp'])) h
      refine ⟨⟨(hp (k, c) (by simp)).1, (hp (k, c) (by simp)).2, fun p hp' => by have := h2 p hp'; omega, h1⟩, ?_⟩
      intro p hp'
      rcases List.mem_cons.1 hp' with rfl | hp'
      · simp only; omega
      · have := h2 p hp'; omega

theorem bp_keysOk {P : Container → Prop} {b : Bitmap} (hb : BP P b) {last : Int} (h : ∀ p ∈ b, last < p.1) : keysOk last b = true := by
  induction b generalizing last with
  | nil => rfl
  | cons p t ih =>
    obtain ⟨k, c⟩ := p
    have := h (k, c) (by simp)
    simp only at this
    simp only [keysOk]
    rw [if_neg (by omega)]
    exact ih hb.2.2.2 (fun p hp => by have := hb.2.2.1 p hp; omega)

theorem bucketSize_cons (g : Nat × Bitmap) (t : List (Nat × Bitmap)) :
    bucketSize (g :: t) = 4 + rbPortableSize g.2 + bucketSize t := by simp [bucketSize]

/-- The size function on a stored bitmap. -/
theorem rbPortableDeserializeSizeAt_at {buf : List UInt8} {r : Bitmap} {base maxbytes : Nat} (hb : BInv r)
    (h : At buf base (serBytes r)) (hm : rbPortableSize r ≤ maxbytes) (hl : base + maxbytes ≤ buf.length) :
    rbPortableDeserializeSizeAt buf base maxbytes = .ok (rbPortableSize r) ∧ 4 ≤ rbPortableSize r := by
  have h1 := raPortableDeserialize_at hb h hm
  rcases raPortableDeserialize_total (buf := buf) (base := base) (maxbytes := maxbytes) hl with ⟨e, _⟩ | ⟨r', n, e, e2, h4, hn, _⟩
  · rw [h1] at e; cases e
  · rw [h1] at e
    cases e
    unfold rbPortableDeserializeSizeAt
    rw [e2]
    exact ⟨rfl, h4⟩

theorem deser64_at {buf : List UInt8} {maxbytes : Nat} (hl : maxbytes ≤ buf.length) (gs : List (Nat × Bitmap)) :
    GWk gs → ∀ {off : Nat} {prev : Int} {dst : R64} {A : Bitmap}, At buf off (gs.flatMap bucketBytes) →
    off + bucketSize gs ≤ maxbytes → RL dst A → (∀ p ∈ A, ∀ g ∈ gs, p.1 < g.1 * 65536) → (∀ g ∈ gs, prev < g.1) →
    deserSize64Loop buf maxbytes gs.length off = .ok (off + bucketSize gs) ∧
    ∃ r', deser64Loop buf maxbytes gs.length off prev dst = .ok (r', off + bucketSize gs) ∧
      RL r' (A ++ gs.flatMap fun g => liftBy g.1 g.2) := by
  induction gs with
  | nil =>
    intro hg off prev dst A hat hm h hA hp
    exact ⟨by simp [deserSize64Loop, bucketSize], dst, by simp [deser64Loop, bucketSize], by simpa using h⟩
  | cons g t ih =>
    obtain ⟨high, b⟩ := g
    intro hg off prev dst A hat hm h hA hp
    have hks := List.pairwise_cons.1 hg.ks
    have hlt := hg.lt (high, b) (by simp)
    have hb := hg.bp (high, b) (by simp)
    simp only at hlt hb
    rw [bucketSize_cons] at hm ⊢
    simp only at hm ⊢
    simp only [List.flatMap_cons, bucketBytes, List.append_assoc] at hat
    have a1 := hat.left
    have a2 := hat.right' (leBytes_length 4 high)
    have a3 := a2.left
    have a4 := a2.right' (serBytes_length (fun p hp => ((bp_iff.1 hb).2.2 p hp).1.typed))
    have hr := readLE_at a1 (by omega)
    obtain ⟨hsz, h4⟩ := rbPortableDeserializeSizeAt_at (maxbytes := maxbytes - (off + 4)) hb a3 (by omega) (by omega)
    have hde := raPortableDeserialize_at (maxbytes := maxbytes - (off + 4)) hb a3 (by omega)
    have hko : keysOk (-1) b = true := bp_keysOk hb (fun p hp => by omega)
    have hbk : ∀ q ∈ b, q.1 < 65536 := (bp_iff.1 hb).2.1
    have hmv := moveOffset_rl hlt hb h (fun p hp q hq => Nat.lt_of_lt_of_le (hA p hp (high, b) (by simp)) (Nat.le_add_right _ _))
    have hA' : ∀ p ∈ A ++ liftBy high b, ∀ g ∈ t, p.1 < g.1 * 65536 := by
      intro p hp g hg'
      rcases List.mem_append.1 hp with hp | hp
      · exact hA p hp g (by simp [hg'])
      · simp only [liftBy, List.mem_map] at hp
        obtain ⟨q, hq, rfl⟩ := hp
        have := hks.1 g hg'
        have := hbk q hq
        simp only at *
        omega
    have hgt : GWk t := ⟨hks.2, fun g h => hg.lt g (by simp [h]), fun g h => hg.bp g (by simp [h])⟩
    obtain ⟨i1, r', i2, i3⟩ := ih hgt (off := off + 4 + rbPortableSize b) (prev := high) (dst := r64MoveOffset high b dst)
      (A := A ++ liftBy high b) a4 (by omega) hmv hA' (fun g hg' => by have := hks.1 g hg'; simp only at this; omega)
    have hpv := hp (high, b) (by simp)
    simp only at hpv
    have e : off + 4 + rbPortableSize b + bucketSize t = off + (4 + rbPortableSize b + bucketSize t) := by omega
    rw [e] at i1 i2
    refine ⟨?_, r', ?_, by simpa using i3⟩
    · simp only [List.length_cons]
      unfold deserSize64Loop
      rw [if_neg (by omega)]
      simp only
      rw [hsz, ok_bind, if_neg (by omega)]
      exact i1
    · simp only [List.length_cons]
      unfold deser64Loop
      rw [if_neg (by omega), hr, ok_bind]
      simp only
      rw [if_neg (by omega), hsz, ok_bind, if_neg (by omega)]
      unfold rbPortableDeserializeSafe
      rw [hde, ok_bind, pure_ok, ok_bind, if_pos hko]
      exact i2

/-- Reading what has been written gives a bitmap with the same containers under the same keys. -/
theorem r64PortableDeserialize_at {r : R64} {l : Bitmap} (h : B64 r l) {buf : List UInt8} {maxbytes : Nat}
    (hc : countHigh32 r < 4294967296) (hat : At buf 0 (ser64Bytes (groups none l))) (hm : r64PortableSize r ≤ maxbytes)
    (hl : maxbytes ≤ buf.length) :
    r64PortableDeserializeSize buf maxbytes = .ok (r64PortableSize r) ∧
    ∃ r', r64PortableDeserialize buf maxbytes = .ok (r', r64PortableSize r) ∧ B64 r' l := by
  obtain ⟨hg, hfl⟩ := groups_none h.rl.ks (fun p hp => ⟨h.rl.lt hp, h.ne p hp⟩)
  rw [countHigh32_eq h.rl] at hc
  rw [r64PortableSize_eq h.rl] at hm ⊢
  unfold ser64Bytes at hat
  have hr := readLE_at hat.left (by omega)
  have a2 := hat.right' (leBytes_length 8 _)
  obtain ⟨i1, r', i2, i3⟩ := deser64_at hl (groups none l) hg.weak (off := 8) (prev := -1) (dst := none) (A := []) (by simpa using a2)
    (by omega) rl_none (by simp) (fun g hg => by omega)
  rw [List.nil_append, hfl] at i3
  refine ⟨?_, r', ?_, i3, h.ne⟩
  · unfold r64PortableDeserializeSize
    rw [if_neg (by omega), hr, ok_bind, if_neg (by omega)]
    exact i1
  · unfold r64PortableDeserialize
    rw [if_neg (by omega), hr, ok_bind, if_neg (by omega)]
    exact i2

/-- A bitmap with 2^32 buckets is written in a form that the reader rejects. -/
theorem r64PortableDeserialize_full {r : R64} {l : Bitmap} (h : B64 r l) {buf : List UInt8} {maxbytes : Nat}
    (hc : countHigh32 r = 4294967296) (hat : At buf 0 (ser64Bytes (groups none l))) :
    r64PortableDeserializeSize buf maxbytes = .fail ∧ r64PortableDeserialize buf maxbytes = .fail := by
  rw [countHigh32_eq h.rl] at hc
  unfold ser64Bytes at hat
  rw [hc] at hat
  have hr := readLE_at hat.left (by omega)
  unfold r64PortableDeserializeSize r64PortableDeserialize
  by_cases h8 : 8 > maxbytes
  · rw [if_pos h8, if_pos h8]; exact ⟨rfl, rfl⟩
  · rw [if_neg h8, if_neg h8, hr, ok_bind, ok_bind, if_pos (by omega), if_pos (by omega)]
    exact ⟨rfl, rfl⟩

/-! ### Any bytes -/

theorem typed64_of {r : R64} {l : Bitmap} (h : RL r l) (hl : ∀ p ∈ l, CTyped p.2) : Typed64 r :=
  ⟨fun t e => (h.ok t e).typed, fun k c hc => hl (keyNum k, c) ((h.mem _ _).2 ⟨k, hc, rfl⟩)⟩

theorem deserSize64_total {buf : List UInt8} {maxbytes : Nat} (hl : maxbytes ≤ buf.length) (n : Nat) : ∀ {off : Nat}, off ≤ maxbytes →
    deserSize64Loop buf maxbytes n off = .fail ∨ ∃ m, deserSize64Loop buf maxbytes n off = .ok m ∧ off + 8 * n ≤ m ∧ m ≤ maxbytes := by
  induction n with
  | zero => intro off ho; exact .inr ⟨off, rfl, by omega, ho⟩
  | succ n ih =>
    intro off ho
    unfold deserSize64Loop
    by_cases h4 : off + 4 > maxbytes
    · rw [if_pos h4]; exact .inl rfl
    rw [if_neg h4]
    simp only
    unfold rbPortableDeserializeSizeAt
    rcases raPortableDeserialize_total (buf := buf) (base := off + 4) (maxbytes := maxbytes - (off + 4)) (by omega) with
      ⟨_, e⟩ | ⟨r', m, _, e2, h4', hn, _⟩
    · rw [e]; simp only [ok_bind, if_true]; exact .inl trivial
    · rw [e2]
      simp only [ok_bind]
      rw [if_neg (by omega)]
      rcases ih (off := off + 4 + m) (by omega) with h | ⟨m', h1, h2, h3⟩
      · exact .inl h
      · exact .inr ⟨m', h1, by omega, h3⟩

theorem deser64_total {buf : List UInt8} {maxbytes : Nat} (hl : maxbytes ≤ buf.length) (n : Nat) :
    ∀ {off : Nat} {prev : Int} {dst : R64} {A : Bitmap}, off ≤ maxbytes → -1 ≤ prev → RL dst A → (∀ p ∈ A, (p.1 : Int) < (prev + 1) * 65536) →
    (∀ p ∈ A, CTyped p.2) →
    deser64Loop buf maxbytes n off prev dst = .fail ∨
    ∃ r' m l, deser64Loop buf maxbytes n off prev dst = .ok (r', m) ∧ deserSize64Loop buf maxbytes n off = .ok m ∧ m ≤ maxbytes ∧
      RL r' l ∧ ∀ p ∈ l, CTyped p.2 := by
  induction n with
  | zero => intro off prev dst A ho hp h hA ht; exact .inr ⟨dst, off, A, rfl, rfl, ho, h, ht⟩
  | succ n ih =>
    intro off prev dst A ho hp h hA ht
    unfold deser64Loop deserSize64Loop
    by_cases h4 : off + 4 > maxbytes
    · rw [if_pos h4]; exact .inl rfl
    rw [if_neg h4, if_neg h4]
    obtain ⟨high, hr, hh⟩ := readLE_ok (buf := buf) (off := off) (k := 4) (by omega)
    rw [hr, ok_bind]
    simp only
    by_cases hpv : (high : Int) ≤ prev
    · rw [if_pos hpv]; exact .inl rfl
    rw [if_neg hpv]
    unfold rbPortableDeserializeSizeAt rbPortableDeserializeSafe
    rcases raPortableDeserialize_total (buf := buf) (base := off + 4) (maxbytes := maxbytes - (off + 4)) (by omega) with
      ⟨_, e⟩ | ⟨b, m, e1, e2, h4', hn, hty⟩
    · rw [e]; simp only [ok_bind, if_true]; exact .inl trivial
    rw [e2, e1]
    have hm0 : m ≠ 0 := by omega
    simp only [ok_bind, pure_ok, if_neg hm0]
    by_cases hk : keysOk (-1) b = true
    · rw [if_pos hk]
      have hbp := (keysOk_bp hty hk).1
      have hh' : high < 4294967296 := by omega
      have hmv := moveOffset_rl hh' hbp h (fun p hp' q hq => by have := hA p hp'; omega)
      refine ih (off := off + 4 + m) (prev := high) (A := A ++ liftBy high b) (by omega) (by omega) hmv ?_ ?_
      · intro p hp'
        rcases List.mem_append.1 hp' with hp' | hp'
        · have := hA p hp'; omega
        · simp only [liftBy, List.mem_map] at hp'
          obtain ⟨q, hq, rfl⟩ := hp'
          have := (hty q hq).1
          simp only
          omega
      · intro p hp'
        rcases List.mem_append.1 hp' with hp' | hp'
        · exact ht p hp'
        · simp only [liftBy, List.mem_map] at hp'
          obtain ⟨q, hq, rfl⟩ := hp'
          exact (hty q hq).2
    · rw [if_neg hk]; exact .inl rfl

/-- Whatever the bytes, reading stays within the first `maxbytes` of them; the result is well typed, and its size is the
one announced by `deserialize_size`. -/
theorem r64PortableDeserialize_total {buf : List UInt8} {maxbytes : Nat} (hl : maxbytes ≤ buf.length) :
    (r64PortableDeserialize buf maxbytes = .fail ∨
      ∃ r n l, r64PortableDeserialize buf maxbytes = .ok (r, n) ∧ r64PortableDeserializeSize buf maxbytes = .ok n ∧ n ≤ maxbytes ∧
        RL r l ∧ ∀ p ∈ l, CTyped p.2) ∧
    (r64PortableDeserializeSize buf maxbytes = .fail ∨
      ∃ n, r64PortableDeserializeSize buf maxbytes = .ok n ∧ 8 ≤ n ∧ n ≤ maxbytes) := by
  unfold r64PortableDeserialize r64PortableDeserializeSize
  by_cases h8 : 8 > maxbytes
  · rw [if_pos h8, if_pos h8]; exact ⟨.inl rfl, .inl rfl⟩
  rw [if_neg h8, if_neg h8]
  obtain ⟨v, hr, _⟩ := readLE_ok (buf := buf) (off := 0) (k := 8) (by omega)
  rw [hr, ok_bind, ok_bind]
  by_cases hv : v > 4294967295
  · rw [if_pos hv, if_pos hv]; exact ⟨.inl rfl, .inl rfl⟩
  rw [if_neg hv, if_neg hv]
  refine ⟨deser64_total hl v (A := []) (by omega) (by omega) rl_none (by simp) (by simp), ?_⟩
  rcases deserSize64_total hl v (off := 8) (by omega) with h | ⟨m, h1, h2, h3⟩
  · exact .inl h
  · exact .inr ⟨m, h1, by omega, h3⟩

/-! ### Only the first `maxbytes` bytes matter -/

theorem rbPortableDeserializeSizeAt_le {buf tail : List UInt8} {base maxbytes : Nat} :
    OLe (rbPortableDeserializeSizeAt buf base maxbytes) (rbPortableDeserializeSizeAt (buf ++ tail) base maxbytes) := by
  unfold rbPortableDeserializeSizeAt
  rcases raPortableDeserializeSize_le (buf := buf) (tail := tail) (base := base) (maxbytes := maxbytes) with h | h
  · rw [h]; exact .inl rfl
  · rw [h]; exact .rfl'

theorem deserSize64_le {buf tail : List UInt8} {maxbytes : Nat} (n : Nat) : ∀ {off : Nat},
    OLe (deserSize64Loop buf maxbytes n off) (deserSize64Loop (buf ++ tail) maxbytes n off) := by
  induction n with
  | zero => intro off; exact .rfl'
  | succ n ih =>
    intro off
    unfold deserSize64Loop
    exact OLe.ite .rfl' (rbPortableDeserializeSizeAt_le.bind fun s => OLe.ite .rfl' ih)

theorem deser64_le {buf tail : List UInt8} {maxbytes : Nat} (n : Nat) : ∀ {off : Nat} {prev : Int} {dst : R64},
    OLe (deser64Loop buf maxbytes n off prev dst) (deser64Loop (buf ++ tail) maxbytes n off prev dst) := by
  induction n with
  | zero => intro off prev dst; exact .rfl'
  | succ n ih =>
    intro off prev dst
    unfold deser64Loop
    refine OLe.ite .rfl' (readLE_le.bind fun high => OLe.ite .rfl' (rbPortableDeserializeSizeAt_le.bind fun s => OLe.ite .rfl'
      (OLe.bind ?_ fun b => OLe.ite ih .rfl')))
    unfold rbPortableDeserializeSafe
    exact raPortableDeserialize_le.bind fun _ => .rfl'

theorem r64PortableDeserialize_le {buf tail : List UInt8} {maxbytes : Nat} :
    OLe (r64PortableDeserialize buf maxbytes) (r64PortableDeserialize (buf ++ tail) maxbytes) := by
  unfold r64PortableDeserialize
  exact OLe.ite .rfl' (readLE_le.bind fun v => OLe.ite .rfl' (deser64_le _))

theorem r64PortableDeserializeSize_le {buf tail : List UInt8} {maxbytes : Nat} :
    OLe (r64PortableDeserializeSize buf maxbytes) (r64PortableDeserializeSize (buf ++ tail) maxbytes) := by
  unfold r64PortableDeserializeSize
  exact OLe.ite .rfl' (readLE_le.bind fun v => OLe.ite .rfl' (deserSize64_le _))

theorem r64PortableDeserialize_take {buf : List UInt8} {maxbytes : Nat} (hl : maxbytes ≤ buf.length) :
    r64PortableDeserialize buf maxbytes = r64PortableDeserialize (buf.take maxbytes) maxbytes ∧
    r64PortableDeserializeSize buf maxbytes = r64PortableDeserializeSize (buf.take maxbytes) maxbytes := by
  have h0 : maxbytes ≤ (buf.take maxbytes).length := by rw [List.length_take]; omega
  have ht := r64PortableDeserialize_total h0
  have h1 := r64PortableDeserialize_le (buf := buf.take maxbytes) (tail := buf.drop maxbytes) (maxbytes := maxbytes)
  have h2 := r64PortableDeserializeSize_le (buf := buf.take maxbytes) (tail := buf.drop maxbytes) (maxbytes := maxbytes)
  rw [List.take_append_drop] at h1 h2
  constructor
  · rcases h1 with h | h
    · rcases ht.1 with e | ⟨_, _, _, e, _⟩ <;> · rw [h] at e; cases e
    · exact h.symm
  · rcases h2 with h | h
    · rcases ht.2 with e | ⟨_, e, _⟩ <;> · rw [h] at e; cases e
    · exact h.symm

/-! ### Truncated input -/

theorem deserSizeLoop_mono {buf : List UInt8} {m m' kc : Nat} {runs : Option Nat} (hm : m ≤ m') (n : Nat) :
    ∀ {k off bt : Nat}, FLe (deserSizeLoop buf m runs kc n k off bt) (deserSizeLoop buf m' runs kc n k off bt) := by
  induction n with
  | zero => intro k off bt; exact .rfl'
  | succ n ih =>
    intro k off bt
    rw [deserSizeLoop, deserSizeLoop]
    exact FLe.bind .rfl' fun tmp => FLe.bind .rfl' fun b => FLe.ite (FLe.max hm ih) (FLe.ite (FLe.max hm
      (FLe.bind .rfl' fun nr => FLe.max hm ih)) (FLe.max hm ih))

theorem raPortableDeserializeSize_mono {buf : List UInt8} {base m m' : Nat} (hm : m ≤ m') :
    FLe (raPortableDeserializeSize buf base m) (raPortableDeserializeSize buf base m') := by
  rw [raPortableDeserializeSize, raPortableDeserializeSize]
  refine FLe.max hm (FLe.bind .rfl' fun cookie => FLe.ite .rfl' (FLe.bind ?_ fun h => FLe.ite .rfl'
    (FLe.max_and hm (FLe.max hm (FLe.ite (FLe.max hm (deserSizeLoop_mono hm _)) (deserSizeLoop_mono hm _))))))
  exact FLe.ite .rfl' (FLe.max hm .rfl')

theorem sizeAt_mono {α : Type} {buf : List UInt8} {base m m' : Nat} (hm : m ≤ m') {F G : Nat → Out α} (h : ∀ s, FLe (F s) (G s)) :
    FLe (rbPortableDeserializeSizeAt buf base m >>= fun s => if s = 0 then .fail else F s)
      (rbPortableDeserializeSizeAt buf base m' >>= fun s => if s = 0 then .fail else G s) := by
  unfold rbPortableDeserializeSizeAt
  rcases raPortableDeserializeSize_mono (buf := buf) (base := base) hm with e | e
  · rw [e]; exact .inl rfl
  · rw [e]
    exact FLe.bind .rfl' fun s => FLe.ite .rfl' (h s)

theorem deserSize64_mono {buf : List UInt8} {m m' : Nat} (hm : m ≤ m') (n : Nat) : ∀ {off : Nat},
    FLe (deserSize64Loop buf m n off) (deserSize64Loop buf m' n off) := by
  induction n with
  | zero => intro off; exact .rfl'
  | succ n ih =>
    intro off
    unfold deserSize64Loop
    exact FLe.max hm (sizeAt_mono (by omega) fun s => ih)

theorem deser64_mono {buf : List UInt8} {m m' : Nat} (hm : m ≤ m') (n : Nat) : ∀ {off : Nat} {prev : Int} {dst : R64},
    FLe (deser64Loop buf m n off prev dst) (deser64Loop buf m' n off prev dst) := by
  induction n with
  | zero => intro off prev dst; exact .rfl'
  | succ n ih =>
    intro off prev dst
    unfold deser64Loop
    refine FLe.max hm (FLe.bind .rfl' fun high => FLe.ite .rfl' (sizeAt_mono (by omega) fun s =>
      (FLe.bind ?_ fun b => FLe.ite ih .rfl')))
    unfold rbPortableDeserializeSafe
    exact (raPortableDeserialize_mono (by omega)).bind fun _ => .rfl'

theorem r64PortableDeserialize_mono {buf : List UInt8} {m m' : Nat} (hm : m ≤ m') :
    FLe (r64PortableDeserialize buf m) (r64PortableDeserialize buf m') ∧
    FLe (r64PortableDeserializeSize buf m) (r64PortableDeserializeSize buf m') := by
  unfold r64PortableDeserialize r64PortableDeserializeSize
  exact ⟨FLe.max hm (FLe.bind .rfl' fun v => FLe.ite .rfl' (deser64_mono hm _)),
    FLe.max hm (FLe.bind .rfl' fun v => FLe.ite .rfl' (deserSize64_mono hm _))⟩

/-- A truncated bitmap is rejected. -/
theorem truncated64 {r : R64} {l : Bitmap} (h : B64 r l) (hc : countHigh32 r < 4294967296) {buf : List UInt8} {maxbytes : Nat}
    (hat : At buf 0 (ser64Bytes (groups none l))) (hl : r64PortableSize r ≤ buf.length) (hm : maxbytes < r64PortableSize r) :
    r64PortableDeserialize buf maxbytes = .fail ∧ r64PortableDeserializeSize buf maxbytes = .fail := by
  obtain ⟨h1, r', h2, _⟩ := r64PortableDeserialize_at h hc hat (Nat.le_refl _) hl
  obtain ⟨m1, m2⟩ := r64PortableDeserialize_mono (buf := buf) (m := maxbytes) (m' := r64PortableSize r) (by omega)
  have ht := r64PortableDeserialize_total (buf := buf) (maxbytes := maxbytes) (by omega)
  rw [h2] at m1
  rw [h1] at m2
  constructor
  · rcases m1 with e | e
    · exact e
    · rcases ht.1 with e' | ⟨_, n, _, e', _, hn, _⟩
      · exact e'
      · rw [e] at e'; cases e'; omega
  · rcases m2 with e | e
    · exact e
    · rcases ht.2 with e' | ⟨n, e', _, hn⟩
      · exact e'
      · rw [e] at e'; cases e'; omega

end CRoaring
