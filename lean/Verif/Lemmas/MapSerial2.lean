import Verif.Lemmas.MapSerial
set_option linter.unusedSimpArgs false
set_option linter.unusedVariables false
/-
Lemmas about `Roaring64Map::readSafe` and about frozen maps.
-/
namespace CRoaring
open Spec

theorem u64_sub8 {a : Nat} (h : 8 ≤ a) (ha : a < 18446744073709551616) : u64 ((a : Int) - 8) = a - 8 := by
  unfold u64; omega

theorem u64_sub4 {a : Nat} (h : 4 ≤ a) (ha : a < 18446744073709551616) : u64 ((a : Int) - 4) = a - 4 := by
  unfold u64; omega

theorem u64_sub {a b : Nat} (h : b ≤ a) (ha : a < 18446744073709551616) : u64 ((a : Int) - b) = a - b := by
  unfold u64; omega

/-! ### readSafe -/

theorem readLE_prefix {buf tail : List UInt8} {off k v : Nat} (h : off + k ≤ buf.length)
    (he : readLE (buf ++ tail) off k = .ok v) : readLE buf off k = .ok v := by
  obtain ⟨w, hw, -⟩ := readLE_ok h
  rcases readLE_le (buf := buf) (tail := tail) (off := off) (k := k) with h1 | h1
  · rw [hw] at h1; cases h1
  · rw [h1, he]

theorem roaringReadSafe_prefix {buf tail : List UInt8} {off maxbytes : Nat} (h : off + maxbytes ≤ buf.length) :
    roaringReadSafe buf off maxbytes = roaringReadSafe (buf ++ tail) off maxbytes := by
  unfold roaringReadSafe rbPortableDeserializeSafe
  rcases raPortableDeserialize_le (buf := buf) (tail := tail) (base := off) (maxbytes := maxbytes) with h1 | h1
  · rcases raPortableDeserialize_total h with ⟨h2, -⟩ | ⟨r, n, h2, -⟩ <;> rw [h2] at h1 <;> cases h1
  · rw [h1]

theorem roaringReadSafe_at {buf : List UInt8} {b : Bitmap} {off maxbytes : Nat} (h : BInv b) (hat : At buf off (serBytes b))
    (hm : rbPortableSize b ≤ maxbytes) : roaringReadSafe buf off maxbytes = .ok b := by
  unfold roaringReadSafe rbPortableDeserializeSafe
  rw [raPortableDeserialize_at h hat hm]
  rfl

theorem roaringReadSafe_short {buf : List UInt8} {b : Bitmap} {off maxbytes : Nat} (h : BInv b) (hat : At buf off (serBytes b))
    (hm : maxbytes < rbPortableSize b) : roaringReadSafe buf off maxbytes = .fail := by
  have hl := serBytes_length (binv_typed h)
  have hle := hat.le
  have h1 := raPortableDeserialize_at h hat (Nat.le_refl _)
  unfold roaringReadSafe rbPortableDeserializeSafe
  rcases raPortableDeserialize_mono (buf := buf) (base := off) (m := maxbytes) (m' := rbPortableSize b) (by omega) with h2 | h2
  · rw [h2]; rfl
  · rw [h1] at h2
    rcases raPortableDeserialize_total (buf := buf) (base := off) (maxbytes := maxbytes) (by omega) with ⟨h3, -⟩ | ⟨r, n, h3, -, -, h4, -⟩
    · rw [h3]; rfl
    · rw [h2] at h3
      injection h3 with h3
      have := congrArg Prod.snd h3
      simp only at this
      omega

theorem entry_length {m : Map64} (h : ValidM m) : (m.flatMap (entryBytes true)).length = bucketSize m := by
  induction m with
  | nil => rfl
  | cons p t ih =>
    have hb := validM_inv h p (by simp)
    have hp := partBytes_length hb true
    rw [List.flatMap_cons, List.length_append, ih h.tail, bucketSize_cons, entryBytes, List.length_append, leBytes_length, hp]
    rfl

theorem m64ReadSafeLoop_at {buf tail : List UInt8} (m : Map64) : ∀ {acc : Map64} {off maxbytes : Nat}, ValidM m →
    (∀ p ∈ acc, ∀ q ∈ m, p.1 < q.1) → At (buf ++ tail) off (m.flatMap (entryBytes true)) → off + maxbytes ≤ buf.length →
    maxbytes < 18446744073709551616 →
    m64ReadSafeLoop buf m.length off maxbytes acc = if bucketSize m ≤ maxbytes then .ok (acc ++ m) else .fail := by
  induction m with
  | nil => intro acc off mb _ _ _ _ _; simp [m64ReadSafeLoop, bucketSize]
  | cons p t ih =>
    intro acc off mb hv ha hat hl hmb
    obtain ⟨k, b⟩ := p
    obtain ⟨hk, hb, hlt, hvt⟩ := (minv_cons (k := k)).1 hv
    have hat' : At (buf ++ tail) off ((leBytes 4 k ++ serBytes b) ++ t.flatMap (entryBytes true)) := by
      simpa [entryBytes, partBytes, List.flatMap_cons] using hat
    have hp := serBytes_length (binv_typed hb.inv)
    rw [bucketSize_cons, List.length_cons]
    unfold m64ReadSafeLoop
    by_cases h4 : mb < 4
    · rw [if_pos h4, if_neg (by omega)]
    · rw [if_neg h4]
      have a1 := readLE_prefix (by omega) (readLE_at hat'.left.left (by simpa using hk))
      have a2 := hat'.left.right' (leBytes_length 4 _)
      have a3 := hat'.right' (n := 4 + rbPortableSize b) (by simp [leBytes_length, hp])
      rw [a1, ok_bind]
      dsimp only
      have e4 : u64 ((mb : Int) - 4) = mb - 4 := u64_sub4 (by omega) hmb
      rw [e4]
      have hpre := roaringReadSafe_prefix (buf := buf) (tail := tail) (off := off + 4) (maxbytes := mb - 4) (by omega)
      rw [hpre]
      by_cases h5 : rbPortableSize b ≤ mb - 4
      · rw [roaringReadSafe_at hb.inv a2 h5, ok_bind, u64_sub h5 (by omega), emplace_last fun p hp => ha p hp (k, b) (by simp),
          show off + 4 + rbPortableSize b = off + (4 + rbPortableSize b) by omega,
          ih hvt (by
            intro p hp q hq
            rcases List.mem_append.1 hp with hp | hp
            · exact ha p hp q (by simp [hq])
            · rw [List.mem_singleton.1 hp]; exact hlt q hq) a3 (by omega) (by omega)]
        by_cases h6 : bucketSize t ≤ mb - 4 - rbPortableSize b
        · rw [if_pos h6, if_pos (by omega)]; simp
        · rw [if_neg h6, if_neg (by omega)]
      · rw [roaringReadSafe_short hb.inv a2 (by omega), fail_bind, if_neg (by omega)]

theorem mapBytes_true_length {m : Map64} (h : ValidM m) : (mapBytes true m).length = 8 + bucketSize m := by
  rw [mapBytes, List.length_append, leBytes_length, entry_length h]

theorem m64ReadSafe_at {m : Map64} (h : ValidM m) {buf tail : List UInt8} (hat : At (buf ++ tail) 0 (mapBytes true m))
    {maxbytes : Nat} (hl : maxbytes ≤ buf.length) (hmb : maxbytes < 18446744073709551616) :
    m64ReadSafe buf maxbytes = if (mapBytes true m).length ≤ maxbytes then .ok m else .fail := by
  have hlen := mapBytes_true_length h
  rw [mapBytes] at hat
  have hk := length_le_keys h
  unfold m64ReadSafe
  by_cases h8 : maxbytes < 8
  · rw [if_pos h8, if_neg (by omega)]
  · have a1 := readLE_prefix (k := 8) (by omega) (readLE_at hat.left (by omega))
    have a2 := hat.right' (leBytes_length 8 _)
    rw [if_neg h8, a1, ok_bind, u64_sub8 (by omega) hmb,
      m64ReadSafeLoop_at m h (by simp) (by simpa using a2) (by omega) (by omega), List.nil_append]
    by_cases h6 : bucketSize m ≤ maxbytes - 8
    · rw [if_pos h6, if_pos (by omega)]
    · rw [if_neg h6, if_neg (by omega)]

theorem m64ReadSafe_le1 {buf : List UInt8} {maxbytes n : Nat} (hl : maxbytes ≤ buf.length)
    (hmb : maxbytes < 18446744073709551616) (hn : readLE buf 0 8 = .ok n) (h1 : n ≤ 1) :
    m64ReadSafe buf maxbytes ≠ .oob := by
  unfold m64ReadSafe
  by_cases h8 : maxbytes < 8
  · rw [if_pos h8]; intro h; cases h
  · rw [if_neg h8, hn, ok_bind, u64_sub8 (by omega) hmb]
    match n, h1 with
    | 0, _ => intro h; cases h
    | 1, _ =>
      unfold m64ReadSafeLoop
      by_cases h4 : maxbytes - 8 < 4
      · rw [if_pos h4]; intro h; cases h
      · rw [if_neg h4]
        obtain ⟨key, hkey, -⟩ := readLE_ok (buf := buf) (off := 8) (k := 4) (by omega)
        rw [hkey, ok_bind]
        dsimp only
        rw [u64_sub4 (by omega) (by omega)]
        unfold roaringReadSafe rbPortableDeserializeSafe
        rcases raPortableDeserialize_total (buf := buf) (base := 8 + 4) (maxbytes := maxbytes - 8 - 4) (by omega) with
          ⟨h2, -⟩ | ⟨r, n, h2, -⟩
        · rw [h2]; intro h; cases h
        · rw [h2]; intro h; cases h

/-! ### Frozen maps -/

theorem padTo_spec (fuel : Nat) : ∀ (addr off : Nat), off ≤ padTo fuel addr off ∧ padTo fuel addr off ≤ off + fuel ∧
    (∀ j, j < fuel → (addr + off + j + 12) % 32 = 0 → (addr + padTo fuel addr off + 12) % 32 = 0) := by
  induction fuel with
  | zero => intro addr off; exact ⟨Nat.le_refl _, Nat.le_refl _, fun j h => by omega⟩
  | succ n ih =>
    intro addr off
    unfold padTo
    by_cases h : (addr + off + 12) % 32 ≠ 0
    · rw [if_pos h]
      obtain ⟨h1, h2, h3⟩ := ih addr (off + 1)
      refine ⟨by omega, by omega, fun j hj hh => ?_⟩
      match j with
      | 0 => exact absurd hh h
      | j + 1 => exact h3 j (by omega) (by rw [show addr + (off + 1) + j + 12 = addr + off + (j + 1) + 12 by omega]; exact hh)
    · rw [if_neg h]
      exact ⟨Nat.le_refl _, by omega, fun _ _ _ => by omega⟩

theorem padTo_aligned (addr off : Nat) : (addr + padTo 32 addr off + 12) % 32 = 0 :=
  (padTo_spec 32 addr off).2.2 ((20 + 31 * ((addr + off) % 32)) % 32) (Nat.mod_lt _ (by omega)) (by omega)

theorem padTo_ge (addr off : Nat) : off ≤ padTo 32 addr off := (padTo_spec 32 addr off).1

/-- Where the bytes of a frozen map end. -/
def frozenEnd (addr : Nat) : Nat → Map64 → Nat
  | off, [] => off
  | off, (_, b) :: t => frozenEnd addr (padTo 32 addr off + 12 + rbFrozenSize b) t

theorem frozenEnd_ge (addr : Nat) (m : Map64) : ∀ off, off ≤ frozenEnd addr off m := by
  induction m with
  | nil => intro off; exact Nat.le_refl _
  | cons p t ih =>
    intro off
    have := ih (padTo 32 addr off + 12 + rbFrozenSize p.2)
    have := padTo_ge addr off
    unfold frozenEnd
    omega

theorem padTo_mod {addr addr' : Nat} (h : addr % 32 = addr' % 32) (fuel : Nat) : ∀ off, padTo fuel addr off = padTo fuel addr' off := by
  induction fuel with
  | zero => intro off; rfl
  | succ n ih =>
    intro off
    unfold padTo
    rw [ih (off + 1)]
    by_cases h0 : (addr' + off + 12) % 32 ≠ 0
    · rw [if_pos h0, if_pos (by omega)]
    · rw [if_neg h0, if_neg (by omega)]

theorem m64FrozenSize_eq {addr : Nat} (h : addr % 32 = 0) (m : Map64) : m64FrozenSize m = frozenEnd addr 8 m := by
  have : ∀ (m : Map64) (off : Nat), m.foldl (fun ret p => padTo 32 0 ret + 12 + rbFrozenSize p.2) off = frozenEnd addr off m := by
    intro m
    induction m with
    | nil => intro off; rfl
    | cons p t ih => intro off; rw [List.foldl_cons, ih, frozenEnd, padTo_mod (addr := addr) (addr' := 0) (by omega)]
  exact this m 8

theorem padTo_low (fuel : Nat) : ∀ (addr off j : Nat), (addr + off + j + 12) % 32 = 0 → padTo fuel addr off ≤ off + j := by
  induction fuel with
  | zero => intro addr off j _; exact Nat.le_add_right _ _
  | succ n ih =>
    intro addr off j h
    unfold padTo
    by_cases h0 : (addr + off + 12) % 32 ≠ 0
    · rw [if_pos h0]
      match j with
      | 0 => exact absurd h h0
      | j + 1 =>
        have := ih addr (off + 1) j (by rw [show addr + (off + 1) + j + 12 = addr + off + (j + 1) + 12 by omega]; exact h)
        omega
    · rw [if_neg h0]; exact Nat.le_add_right _ _

/-- The offset after the padding, in closed form. -/
theorem padTo_eq (addr off : Nat) : padTo 32 addr off = off + (20 + 31 * ((addr + off) % 32)) % 32 := by
  have h1 := padTo_aligned addr off
  have h2 := padTo_low 32 addr off ((20 + 31 * ((addr + off) % 32)) % 32) (by omega)
  have h3 := padTo_ge addr off
  omega

theorem frozenEnd_shift {addr : Nat} (m : Map64) : ∀ {off off0 : Nat}, (addr + off) % 32 = off0 % 32 →
    frozenEnd addr off m + off0 = frozenEnd 0 off0 m + off := by
  induction m with
  | nil => intro off off0 _; simp only [frozenEnd]; omega
  | cons p t ih =>
    intro off off0 h
    have e1 := padTo_eq addr off
    have e2 := padTo_eq 0 off0
    unfold frozenEnd
    have := ih (off := padTo 32 addr off + 12 + rbFrozenSize p.2) (off0 := padTo 32 0 off0 + 12 + rbFrozenSize p.2) (by omega)
    rw [Nat.zero_add] at e2
    rw [h] at e1
    omega

theorem frozenEnd_le (addr : Nat) (m : Map64) : frozenEnd addr 8 m ≤ m64FrozenSize m + 19 := by
  rw [m64FrozenSize_eq (addr := 0) rfl]
  cases m with
  | nil => simp only [frozenEnd]; omega
  | cons p t =>
    have e1 := padTo_eq addr 8
    have e2 := padTo_eq 0 8
    have h1 := padTo_aligned addr 8
    have h2 := padTo_aligned 0 8
    unfold frozenEnd
    have := frozenEnd_shift (addr := addr) t (off := padTo 32 addr 8 + 12 + rbFrozenSize p.2)
      (off0 := padTo 32 0 8 + 12 + rbFrozenSize p.2) (by omega)
    omega

theorem frozenEnd_mod {addr addr' : Nat} (h : addr % 32 = addr' % 32) (m : Map64) :
    ∀ off, frozenEnd addr off m = frozenEnd addr' off m := by
  induction m with
  | nil => intro d; rfl
  | cons p t ih => intro d; unfold frozenEnd; rw [padTo_mod h, ih]

/-- What is in memory after the entries of `m` have been written behind `d`. -/
def frozenMem (addr : Nat) (mem : List UInt8) : List UInt8 → Map64 → List UInt8
  | d, [] => d
  | d, (k, b) :: t => frozenMem addr mem
      (d ++ (mem.drop d.length).take (padTo 32 addr d.length - d.length) ++ leBytes 8 (rbFrozenSize b) ++ leBytes 4 k ++ frozenBytes b) t

theorem frozenMem_mod {addr addr' : Nat} (h : addr % 32 = addr' % 32) (mem : List UInt8) (m : Map64) :
    ∀ d, frozenMem addr mem d m = frozenMem addr' mem d m := by
  induction m with
  | nil => intro d; rfl
  | cons p t ih => intro d; unfold frozenMem; rw [padTo_mod h, ih]

theorem frozenMem_split (addr : Nat) (mem : List UInt8) (m : Map64) : ∀ d, ∃ x, frozenMem addr mem d m = d ++ x := by
  induction m with
  | nil => intro d; exact ⟨[], by simp [frozenMem]⟩
  | cons p t ih =>
    intro d
    obtain ⟨x, hx⟩ := ih (d ++ (mem.drop d.length).take (padTo 32 addr d.length - d.length) ++ leBytes 8 (rbFrozenSize p.2) ++
      leBytes 4 p.1 ++ frozenBytes p.2)
    unfold frozenMem
    rw [hx]
    exact ⟨_, by simp only [List.append_assoc]; rfl⟩

/-- The length of the padding. -/
theorem pad_length {addr : Nat} {mem d : List UInt8} (h : padTo 32 addr d.length ≤ mem.length) :
    (d ++ (mem.drop d.length).take (padTo 32 addr d.length - d.length)).length = padTo 32 addr d.length := by
  have := padTo_ge addr d.length
  rw [List.length_append, List.length_take, List.length_drop]
  omega

theorem frozenMem_length {addr : Nat} {mem : List UInt8} (m : Map64) : ∀ {d}, (∀ p ∈ m, BInv p.2) →
    frozenEnd addr d.length m ≤ mem.length → (frozenMem addr mem d m).length = frozenEnd addr d.length m := by
  induction m with
  | nil => intro d _ _; rfl
  | cons p t ih =>
    intro d hb h
    unfold frozenEnd at h ⊢
    unfold frozenMem
    have h1 := frozenEnd_ge addr t (padTo 32 addr d.length + 12 + rbFrozenSize p.2)
    have hfb := frozenBytes_length (binv_typed (hb p (by simp)))
    have hpad := pad_length (addr := addr) (mem := mem) (d := d) (by omega)
    have e : (d ++ (mem.drop d.length).take (padTo 32 addr d.length - d.length) ++ leBytes 8 (rbFrozenSize p.2) ++ leBytes 4 p.1 ++
      frozenBytes p.2).length = padTo 32 addr d.length + 12 + rbFrozenSize p.2 := by
      rw [List.length_append, List.length_append, List.length_append, hpad, leBytes_length, leBytes_length, hfb]
    rw [ih (fun p hp => hb p (by simp [hp])) (by rw [e]; exact h), e]

theorem m64WriteFrozenLoop_wst {addr : Nat} {mem : List UInt8} (m : Map64) : ∀ {d}, (∀ p ∈ m, BInv p.2) →
    frozenEnd addr d.length m ≤ mem.length →
    m64WriteFrozenLoop addr (wst mem 0 d) m = .ok (wst mem 0 (frozenMem addr mem d m)) := by
  induction m with
  | nil => intro d _ _; rfl
  | cons p t ih =>
    intro d hb h
    obtain ⟨k, b⟩ := p
    have hbb : BInv b := hb (k, b) (by simp)
    unfold frozenEnd at h
    have h1 := frozenEnd_ge addr t (padTo 32 addr d.length + 12 + rbFrozenSize b)
    have hfb := frozenBytes_length (binv_typed hbb)
    have hpad := pad_length (addr := addr) (mem := mem) (d := d) (by omega)
    have hge := padTo_ge addr d.length
    unfold m64WriteFrozenLoop frozenMem
    dsimp only
    rw [wst_snd]
    generalize hd : d ++ (mem.drop d.length).take (padTo 32 addr d.length - d.length) = d' at *
    have e1 : ((wst mem 0 d).1, padTo 32 addr d.length) = wst mem 0 d' := by
      refine Prod.ext ?_ ?_
      · rw [wst_fst, wst_fst, hpad, ← hd, List.append_assoc]
        congr 1
        conv => lhs; rw [← List.take_append_drop (padTo 32 addr d.length - d.length) (mem.drop d.length)]
        rw [drop_more, show d.length + (padTo 32 addr d.length - d.length) = padTo 32 addr d.length by omega]
      · rw [wst_snd, hpad]
    rw [e1, put_wst (by rw [leBytes_length]; omega), ok_bind, put_wst (by
      rw [leBytes_length, List.length_append, leBytes_length]; omega), ok_bind]
    generalize hd2 : d' ++ leBytes 8 (rbFrozenSize b) ++ leBytes 4 k = d2
    have hl2 : d2.length = padTo 32 addr d.length + 12 := by
      rw [← hd2, List.length_append, List.length_append, leBytes_length, leBytes_length, hpad]
    have hlm : (wst mem 0 d2).1.length = mem.length := by rw [wst_fst, List.length_append, List.length_drop]; omega
    rw [rbFrozenSerialize_eq (binv_typed hbb) (by rw [wst_snd, hlm]; omega), ok_bind]
    have e2 : ((wst mem 0 d2).1.take (wst mem 0 d2).2 ++ frozenBytes b ++
        (wst mem 0 d2).1.drop ((wst mem 0 d2).2 + rbFrozenSize b), (wst mem 0 d2).2 + rbFrozenSize b) = wst mem 0 (d2 ++ frozenBytes b) := by
      refine Prod.ext ?_ ?_
      · rw [wst_snd, wst_fst, wst_fst, List.take_left' rfl, ← drop_more, List.drop_left' rfl, drop_more, List.length_append, hfb]
      · rw [wst_snd, wst_snd, List.length_append, hfb]
    rw [e2]
    exact ih (fun p hp => hb p (by simp [hp])) (by rw [List.length_append, hl2, hfb]; exact h)

theorem m64WriteFrozen_eq {addr : Nat} {m : Map64} (h : ValidM m) {mem : List UInt8} (hm : frozenEnd addr 8 m ≤ mem.length) :
    m64WriteFrozen addr m mem = .ok (wst mem 0 (frozenMem addr mem (leBytes 8 m.length) m)) := by
  have e : (mem, 0) = wst mem 0 [] := by simp [wst]
  have := frozenEnd_ge addr m 8
  unfold m64WriteFrozen
  rw [e, put_wst (by rw [leBytes_length]; simp; omega), ok_bind, List.nil_append,
    m64WriteFrozenLoop_wst m (validM_inv h) (by rw [leBytes_length]; exact hm)]

theorem frozenDataSize_le {c : Container} (h : CInv c) : frozenDataSize c ≤ 131072 := by
  cases c with
  | bitset b => simp [frozenDataSize, NWORDS]
  | array l => have := h.2; simp [frozenDataSize]; omega
  | run rs => have := RunOK.length_le h; simp [frozenDataSize]; omega

theorem rbFrozenSize_lt {b : Bitmap} (h : BInv b) : rbFrozenSize b < 18446744073709551616 := by
  have hl := h.length_le
  have : ∀ (r : Bitmap), (∀ p ∈ r, CInv p.2) → ∀ n, r.foldl (fun n p => n + frozenDataSize p.2) n ≤ n + r.length * 131072 := by
    intro r
    induction r with
    | nil => intro _ n; simp
    | cons p t ih =>
      intro hc n
      have h1 := frozenDataSize_le (hc p (by simp))
      have h2 := ih (fun p hp => hc p (by simp [hp])) (n + frozenDataSize p.2)
      rw [List.foldl_cons, List.length_cons]
      omega
  have := this b (fun p hp => ((bp_iff.1 h).2.2 p hp).1) 0
  unfold rbFrozenSize
  omega

theorem m64FrozenViewLoop_at {addr : Nat} {mem tail : List UInt8} (m : Map64) : ∀ {d : List UInt8} {acc : Map64}, ValidM m →
    (∀ p ∈ acc, ∀ q ∈ m, p.1 < q.1) → frozenEnd addr d.length m ≤ mem.length →
    m64FrozenViewLoop addr (frozenMem addr mem d m ++ tail) m.length d.length acc = .ok (acc ++ m) := by
  induction m with
  | nil => intro d acc _ _ _; simp [m64FrozenViewLoop]
  | cons p t ih =>
    intro d acc hv ha h
    obtain ⟨k, b⟩ := p
    obtain ⟨hk, hb, hlt, hvt⟩ := (minv_cons (k := k)).1 hv
    unfold frozenEnd at h
    have h1 := frozenEnd_ge addr t (padTo 32 addr d.length + 12 + rbFrozenSize b)
    have hfb := frozenBytes_length (binv_typed hb.inv)
    have hpad := pad_length (addr := addr) (mem := mem) (d := d) (by omega)
    rw [List.length_cons]
    unfold m64FrozenViewLoop frozenMem
    generalize hd : d ++ (mem.drop d.length).take (padTo 32 addr d.length - d.length) = d' at *
    have hd2 : (d' ++ leBytes 8 (rbFrozenSize b) ++ leBytes 4 k ++ frozenBytes b).length = padTo 32 addr d.length + 12 + rbFrozenSize b := by
      rw [List.length_append, List.length_append, List.length_append, leBytes_length, leBytes_length, hpad, hfb]
    have hat : At (frozenMem addr mem (d' ++ leBytes 8 (rbFrozenSize b) ++ leBytes 4 k ++ frozenBytes b) t ++ tail)
        (padTo 32 addr d.length) (leBytes 8 (rbFrozenSize b) ++ (leBytes 4 k ++ frozenBytes b)) := by
      obtain ⟨x, hx⟩ := frozenMem_split addr mem t (d' ++ leBytes 8 (rbFrozenSize b) ++ leBytes 4 k ++ frozenBytes b)
      rw [hx]
      exact ⟨d', x ++ tail, by simp only [List.append_assoc], hpad⟩
    have a1 := readLE_at hat.left (by have := rbFrozenSize_lt hb.inv; omega)
    have a2 := hat.right' (leBytes_length 8 _)
    have a3 := readLE_at a2.left (by simpa using hk)
    have a4 := a2.right' (leBytes_length 4 _)
    obtain ⟨tl, htl⟩ := drop_at a4
    dsimp only
    rw [a1, ok_bind, a3, ok_bind, htl, rbFrozenView_at hb.inv tl (by
      have := padTo_aligned addr d.length
      rw [show addr + (padTo 32 addr d.length + 8 + 4) = addr + padTo 32 addr d.length + 12 by omega]; exact this), ok_bind,
      emplace_last fun p hp => ha p hp (k, b) (by simp)]
    have := ih (d := d' ++ leBytes 8 (rbFrozenSize b) ++ leBytes 4 k ++ frozenBytes b) (acc := acc ++ [(k, b)]) hvt (by
      intro p hp q hq
      rcases List.mem_append.1 hp with hp | hp
      · exact ha p hp q (by simp [hq])
      · rw [List.mem_singleton.1 hp]; exact hlt q hq) (by rw [hd2]; exact h)
    rw [hd2] at this
    rw [show padTo 32 addr d.length + 8 + 4 + rbFrozenSize b = padTo 32 addr d.length + 12 + rbFrozenSize b by omega, this]
    simp

theorem m64FrozenView_at {addr : Nat} {mem : List UInt8} {m : Map64} (h : ValidM m) (hm : frozenEnd addr 8 m ≤ mem.length)
    (tail : List UInt8) : m64FrozenView addr (frozenMem addr mem (leBytes 8 m.length) m ++ tail) = .ok m := by
  have hl := length_le_keys h
  have hat : At (frozenMem addr mem (leBytes 8 m.length) m ++ tail) 0 (leBytes 8 m.length) := by
    obtain ⟨x, hx⟩ := frozenMem_split addr mem m (leBytes 8 m.length)
    rw [hx]
    exact ⟨[], x ++ tail, by simp, rfl⟩
  have := m64FrozenViewLoop_at (addr := addr) (mem := mem) (tail := tail) m (d := leBytes 8 m.length) (acc := []) h (by simp)
    (by rw [leBytes_length]; exact hm)
  rw [leBytes_length] at this
  unfold m64FrozenView
  rw [readLE_at hat (by omega), ok_bind, this]
  simp

/-! ### Portable bytes read without a copy -/

theorem m64PortableFrozenLoop_at {buf : List UInt8} (m : Map64) : ∀ {acc : Map64} {off : Nat}, ValidM m →
    (∀ p ∈ m, rbPortableSize p.2 < 4294967296) → (∀ p ∈ acc, ∀ q ∈ m, p.1 < q.1) → At buf off (m.flatMap (entryBytes true)) →
    m64PortableFrozenLoop buf m.length off acc = .ok (acc ++ m) := by
  induction m with
  | nil => intro acc off _ _ _ _; simp [m64PortableFrozenLoop]
  | cons p t ih =>
    intro acc off hv hs ha hat
    obtain ⟨k, b⟩ := p
    obtain ⟨hk, hb, hlt, hvt⟩ := (minv_cons (k := k)).1 hv
    have hat' : At buf off ((leBytes 4 k ++ serBytes b) ++ t.flatMap (entryBytes true)) := by
      simpa [entryBytes, partBytes, List.flatMap_cons] using hat
    have hp := serBytes_length (binv_typed hb.inv)
    have a1 := readLE_at hat'.left.left (by simpa using hk)
    have a2 := hat'.left.right' (leBytes_length 4 _)
    have a3 := hat'.right' (n := 4 + rbPortableSize b) (by simp [leBytes_length, hp])
    rw [List.length_cons]
    unfold m64PortableFrozenLoop
    rw [a1, ok_bind]
    dsimp only
    rw [rbPortableDeserializeFrozen_at hb.inv a2 (hs (k, b) (by simp)), ok_bind, emplace_last fun p hp => ha p hp (k, b) (by simp),
      show off + 4 + rbPortableSize b = off + (4 + rbPortableSize b) by omega,
      ih hvt (fun p hp => hs p (by simp [hp])) (by
        intro p hp q hq
        rcases List.mem_append.1 hp with hp | hp
        · exact ha p hp q (by simp [hq])
        · rw [List.mem_singleton.1 hp]; exact hlt q hq) a3]
    simp

theorem m64PortableFrozen_at {m : Map64} (h : ValidM m) (hs : ∀ p ∈ m, rbPortableSize p.2 < 4294967296) (tail : List UInt8) :
    m64PortableDeserializeFrozen (mapBytes true m ++ tail) = .ok m := by
  have hat : At (mapBytes true m ++ tail) 0 (mapBytes true m) := ⟨[], tail, by simp, rfl⟩
  generalize mapBytes true m ++ tail = buf at hat ⊢
  rw [mapBytes] at hat
  have hl := length_le_keys h
  have a1 := readLE_at hat.left (by omega)
  have a2 := hat.right' (leBytes_length 8 _)
  unfold m64PortableDeserializeFrozen
  rw [a1, ok_bind, m64PortableFrozenLoop_at m h hs (by simp) (by simpa using a2)]
  simp

end CRoaring
