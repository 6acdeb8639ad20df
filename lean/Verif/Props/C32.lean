import Verif.Props.C28
import Verif.Lemmas.Frozen2
/-
C32, C46, C47: the frozen format, and zero-copy views of the portable format.

As for C28, `.oob` is an access outside of the given memory, `.fail` the result `NULL`.  The model of a view is the
bitmap that its pointers into the buffer denote.
-/
namespace CRoaring.Props
open CRoaring

/-! ### The layout of the frozen format, after the comment at `src/roaring.c:2916-2942` -/

/-- The entry of a container in the table of counts: the number of runs, or the number of values minus one. -/
noncomputable def specCount : Container → Nat
  | .run rs => rs.length
  | c => countC c - 1

def specType : Container → Nat
  | .bitset _ => 1
  | .array _ => 2
  | .run _ => 3

/-- Bitset data, run data, array data, keys, counts, typecodes, header. -/
noncomputable def specFrozen (r : Bitmap) : List UInt8 :=
  (r.flatMap fun p => match p.2 with
    | .bitset b => b.words.flatMap fun w => little 8 w.toNat
    | _ => []) ++
  (r.flatMap fun p => match p.2 with
    | .run rs => rs.flatMap fun q => little 2 q.1 ++ little 2 q.2
    | _ => []) ++
  (r.flatMap fun p => match p.2 with
    | .array l => l.flatMap fun v => little 2 v
    | _ => []) ++
  (r.flatMap fun p => little 2 p.1) ++
  (r.flatMap fun p => little 2 (specCount p.2)) ++
  (r.flatMap fun p => little 1 (specType p.2)) ++
  little 4 (13766 + 32768 * r.length)

theorem flatMap_eq {α β : Type} {f g : α → List β} {l : List α} (h : ∀ x ∈ l, f x = g x) :
    l.flatMap f = l.flatMap g := by
  induction l with
  | nil => rfl
  | cons a t ih =>
    rw [List.flatMap_cons, List.flatMap_cons, h a (by simp), ih fun x hx => h x (by simp [hx])]

theorem specFrozen_eq {r : Bitmap} (h : BInv r) : specFrozen r = frozenBytes r := by
  have hne := (bp_iff.1 h).2.2
  have hsz := h.length_le
  rw [specFrozen, frozenBytes, bzBytes, rzBytes, azBytes, fkBytes, czBytes, tzBytes]
  simp only [List.append_assoc]
  congr 1
  · refine flatMap_eq fun p _ => ?_
    cases p.2 <;> simp only [bzC, wordBytes, little_eq]
  congr 1
  · refine flatMap_eq fun p _ => ?_
    cases p.2 <;> simp only [rzC, little_eq]
  congr 1
  · refine flatMap_eq fun p _ => ?_
    cases p.2 <;> simp only [azC, little_eq]
  congr 1
  · simp only [little_eq]
  congr 1
  · refine flatMap_eq fun p hp => ?_
    rw [little_eq]
    have h1 := countOf_spec (hne p hp)
    have h2 := containerCard_eq (hne p hp).1.rep
    have h3 : specCount p.2 = countOf p.2 := by
      obtain ⟨k, c⟩ := p
      cases c with
      | bitset b =>
        show countC (.bitset b) - 1 = _
        rw [countC_eq]
        simp only [containerCard] at h1 h2
        generalize Spec.card 65536 (chas (.bitset b)) = n at h2 ⊢
        generalize countOf (.bitset b) = m at h1
        omega
      | array l =>
        show countC (.array l) - 1 = _
        rw [countC_eq]
        simp only [containerCard] at h1 h2
        generalize Spec.card 65536 (chas (.array l)) = n at h2 ⊢
        generalize countOf (.array l) = m at h1
        omega
      | run rs => exact h1.symm
    rw [h3]
  congr 1
  · refine flatMap_eq fun p _ => ?_
    rw [little_eq]
    cases p.2 <;> rfl
  · have e : r.length <<< 15 % 4294967296 = r.length * 32768 := by
      rw [Nat.shiftLeft_eq, Nat.mod_eq_of_lt (by omega)]
    have e2 : (r.length * 32768 ||| FROZEN_COOKIE) = r.length * 32768 + FROZEN_COOKIE := by
      have := Nat.shiftLeft_add_eq_or_of_lt (b := FROZEN_COOKIE) (i := 15) (by decide) r.length
      rw [Nat.shiftLeft_eq] at this
      exact this.symm
    rw [little_eq, e, e2, FROZEN_COOKIE]
    congr 1
    omega

/-- C32: `frozen_serialize` writes exactly `frozen_size_in_bytes` bytes and touches nothing else; what it writes is the
documented layout; and `frozen_view` of these bytes at an address that is a multiple of 32 is the same bitmap. -/
theorem C32_frozen_round_trip {r : Bitmap} (h : Valid r) {mem : List UInt8} (hm : rbFrozenSize r ≤ mem.length) :
    (specFrozen r).length = rbFrozenSize r ∧
    rbFrozenSerialize r mem 0 = .ok (specFrozen r ++ mem.drop (rbFrozenSize r)) ∧
    ∀ tail addr, addr % 32 = 0 → rbFrozenView addr (specFrozen r ++ tail) (rbFrozenSize r) = .ok r := by
  have hb := h.inv
  have ht : ∀ p ∈ r, CTyped p.2 := fun p hp => ((bp_iff.1 hb).2.2 p hp).1.typed
  rw [specFrozen_eq hb]
  refine ⟨frozenBytes_length ht, ?_, fun tail addr ha => rbFrozenView_at hb tail ha⟩
  have := rbFrozenSerialize_eq ht (mem := mem) (off := 0) (by omega)
  simpa using this

/-- C46: `frozen_view` of arbitrary bytes with the given length never denotes or reads anything outside of these bytes,
and rejects misaligned buffers.  If `internal_validate` accepts the view, it is a valid bitmap. -/
theorem C46_frozen_view_in_bounds (buf : List UInt8) {n : Nat} (hn : n ≤ buf.length) (addr : Nat) :
    rbFrozenView addr buf n = rbFrozenView addr (buf.take n) n ∧ rbFrozenView addr buf n ≠ .oob ∧
    (addr % 32 ≠ 0 → rbFrozenView addr buf n = .fail) ∧
    ∀ r, rbFrozenView addr buf n = .ok r → rbInternalValidate r = true → Valid r ∧ WellFormed r := by
  have l1 := rbFrozenView_le (addr := addr) (buf := buf.take n) (tail := buf.drop n) (length := n)
  rw [List.take_append_drop] at l1
  have t1 := rbFrozenView_total (addr := addr) (buf := buf.take n) (length := n) (by simp; omega)
  have t2 := rbFrozenView_total (addr := addr) (buf := buf) (length := n) (by omega)
  refine ⟨?_, ?_, fun ha => by rw [rbFrozenView, if_pos ha], fun r hr hv => ?_⟩
  · rcases l1 with l1 | l1
    · rcases t1 with e | ⟨_, e, _⟩ <;> rw [e] at l1 <;> cases l1
    · exact l1.symm
  · rcases t2 with e | ⟨_, e, _⟩ <;> rw [e] <;> intro h <;> cases h
  · rcases t2 with e | ⟨r', e, ht⟩
    · rw [e] at hr; cases hr
    · rw [e] at hr
      cases hr
      exact ⟨⟨ht, hv⟩, (C30_validate_exact ht).1 hv⟩

/-- C47, the part that holds: `portable_deserialize_frozen` of a serialized bitmap is the same bitmap, provided that
the serialized size is less than 4 GiB. -/
theorem C47_portable_view_partial {r : Bitmap} (h : Valid r) {mem : List UInt8} (hm : rbPortableSize r ≤ mem.length)
    (hs : rbPortableSize r < 2 ^ 32) {after : List UInt8} {n : Nat}
    (hw : rbPortableSerialize r mem 0 = .ok (after, n)) : rbPortableDeserializeFrozen after 0 = .ok r := by
  have hb := h.inv
  have ht : ∀ p ∈ r, CTyped p.2 := fun p hp => ((bp_iff.1 hb).2.2 p hp).1.typed
  have h1 := rbPortableSerialize_eq ht (mem := mem) (off := 0) (by omega)
  rw [h1] at hw
  simp only [Out.ok.injEq, Prod.mk.injEq, List.take_zero, List.nil_append, Nat.zero_add] at hw
  rw [← hw.1]
  exact rbPortableDeserializeFrozen_at hb ⟨[], _, rfl, rfl⟩ hs

/-! ### A bitmap whose serialized form is larger than 4 GiB -/

/-- All even 16-bit numbers, as 32768 runs of length one. -/
def evens : List Rle := (List.range 32768).map fun i => (2 * i, 0)

/-- All even 32-bit numbers, in run containers. -/
def exEven : Bitmap := cellsFrom 0 65536 fun _ => .run evens

theorem evens_length : evens.length = 32768 := by simp [evens]

theorem evens_ok : RunOK evens := by
  constructor
  · rw [evens, List.pairwise_map]
    exact (List.pairwise_lt_range (n := 32768)).imp fun {a b} h => by simp only; omega
  · intro q hq
    rw [evens, List.mem_map] at hq
    obtain ⟨i, hi, rfl⟩ := hq
    rw [List.mem_range] at hi
    simp only
    omega

theorem evens_cne : CNe (.run evens) := by
  refine ⟨evens_ok, 0, ?_⟩
  show runHas evens 0 = true
  rw [runHas_iff]
  exact ⟨(0, 0), by rw [evens, List.mem_map]; exact ⟨0, by simp, rfl⟩, by omega, by omega⟩

theorem exEven_inv : BInv exEven := bp_cellsFrom (by omega) fun _ _ _ => evens_cne

theorem cellsFrom_length (k n : Nat) (f : Nat → Container) : (cellsFrom k n f).length = n := by simp [cellsFrom]

theorem cellsFrom_split (k m n : Nat) (f : Nat → Container) :
    cellsFrom k (m + (n + 1)) f = cellsFrom k m f ++ (k + m, f (k + m)) :: cellsFrom (k + m + 1) n f := by
  rw [cellsFrom, ← List.range'_append_1, List.map_append, List.range'_succ, List.map_cons]
  rfl

theorem sizes_const {r : Bitmap} {sz : Nat} (h : ∀ p ∈ r, containerSizeInBytes p.2 = sz) :
    (r.map fun p => containerSizeInBytes p.2).sum = r.length * sz := by
  induction r with
  | nil => simp
  | cons p t ih =>
    rw [List.map_cons, List.sum_cons, ih fun q hq => h q (by simp [hq]), h p (by simp), List.length_cons, Nat.succ_mul,
      Nat.add_comm]

theorem at_zero (x y : List UInt8) : At (x ++ y) 0 x := ⟨[], y, rfl, rfl⟩

theorem bind_eq_ok {α β : Type} {x : Out α} {f : α → Out β} {b : β} (h : (x >>= f) = .ok b) :
    ∃ a, x = .ok a ∧ f a = .ok b := by
  cases x with
  | oob => rw [oob_bind] at h; cases h
  | fail => rw [fail_bind] at h; cases h
  | ok a => exact ⟨a, rfl, h⟩

theorem pfLoop_get {buf : List UInt8} {base hdr o : Nat} {runs : Option Nat} (n : Nat) : ∀ {i off j : Nat} {res : Bitmap},
    pfLoop buf base hdr runs (some o) n i off = .ok res → j < n → isRunAt buf runs (i + j) = .ok true →
    ∃ k p c, res[j]? = some (k, c) ∧ readLE buf (o + 4 * (i + j)) 4 = .ok p ∧ runRead buf (base + p) = .ok c := by
  induction n with
  | zero => intro i off j res _ h; omega
  | succ n ih =>
    intro i off j res h hj hrun
    rw [pfLoop] at h
    obtain ⟨tmp, _, h⟩ := bind_eq_ok h
    obtain ⟨isrun, h2, h⟩ := bind_eq_ok h
    obtain ⟨key, _, h⟩ := bind_eq_ok h
    obtain ⟨c, h4, h⟩ := bind_eq_ok h
    obtain ⟨rest, h5, h⟩ := bind_eq_ok h
    cases h
    cases j with
    | zero =>
      rw [Nat.add_zero] at hrun ⊢
      rw [hrun] at h2
      cases h2
      rw [pfContainer] at h4
      obtain ⟨p, h6, h4⟩ := bind_eq_ok h4
      simp only [Bool.not_true, Bool.false_and, Bool.false_eq_true, if_false, if_true] at h4
      obtain ⟨c', h7, h4⟩ := bind_eq_ok h4
      cases h4
      exact ⟨key, p, c', by simp, h6, h7⟩
    | succ j =>
      have := ih h5 (j := j) (by omega) (by rw [show i + 1 + j = i + (j + 1) by omega]; exact hrun)
      rw [show i + 1 + j = i + (j + 1) by omega] at this
      simpa using this

theorem offBytes_get {buf : List UInt8} {sz : Nat} (r : Bitmap) : ∀ {o s j : Nat},
    (∀ p ∈ r, containerSizeInBytes p.2 = sz) → s < 4294967296 → At buf o (offBytes s r) → j < r.length →
    readLE buf (o + 4 * j) 4 = .ok ((s + j * sz) % 4294967296) := by
  induction r with
  | nil => intro o s j _ _ _ h; simp at h
  | cons p t ih =>
    intro o s j hs hlt hat hj
    obtain ⟨k, c⟩ := p
    rw [offBytes] at hat
    cases j with
    | zero => 
      have e : (s + 0 * sz) % 4294967296 = s := by rw [Nat.zero_mul, Nat.add_zero, Nat.mod_eq_of_lt hlt]
      rw [e]
      exact readLE_at hat.left hlt
    | succ j =>
      have h1 := ih (j := j) (fun q hq => hs q (by simp [hq])) (Nat.mod_lt _ (by omega)) (hat.right' (leBytes_length 4 _))
        (by simp at hj; omega)
      rw [show o + 4 * (j + 1) = o + 4 + 4 * j by omega, h1]
      have := hs (k, c) (by simp)
      simp only at this
      rw [this, Nat.mod_add_mod, Nat.succ_mul]
      congr 2
      omega

/-- The first offset that does not fit into 32 bits leads into the middle of the first container. -/
theorem view_wraps {r : Bitmap} {E : List Rle} (hb : BInv r) (hl : r.length = 65536) (hE : E.length = 32768)
    (hall : ∀ q ∈ r, q.2 = .run E) {P Q : List Rle} {a : Nat} (hP : P.length = 16383) (hEP : E = P ++ (a, 0) :: Q)
    {mem after : List UInt8} {n : Nat} (hm : rbPortableSize r ≤ mem.length)
    (hw : rbPortableSerialize r mem 0 = .ok (after, n)) : rbPortableDeserializeFrozen after 0 ≠ .ok r := by
  intro hf
  have ht : ∀ p ∈ r, CTyped p.2 := fun p hp => ((bp_iff.1 hb).2.2 p hp).1.typed
  have hat : At after 0 (serBytes r) := by
    have h1 := rbPortableSerialize_eq ht (mem := mem) (off := 0) (by omega)
    rw [h1] at hw
    simp only [Out.ok.injEq, Prod.mk.injEq, List.take_zero, List.nil_append, Nat.zero_add] at hw
    rw [← hw.1]
    exact at_zero _ _
  have hr : raHasRun r = true := by
    rcases r with _ | ⟨q, t⟩
    · simp at hl
    · rw [raHasRun, List.any_cons, hall q (by simp)]; rfl
  have hthr : NO_OFFSET_THRESHOLD ≤ 65536 := by decide
  have es : serBytes r = leBytes 4 (COOKIE ||| (65535 <<< 16)) ++ (runFlags r ++ (kcBytes r ++
      (offBytes 532484 r ++ allBytes r))) := by
    rw [serBytes, hr, hl]
    simp only [if_true, Bool.not_true, Bool.false_or, decide_eq_true_eq]
    rw [if_pos hthr]
    simp only [List.append_assoc]
  rw [es] at hat
  have a1 := hat.left
  have a2 := hat.right' (leBytes_length 4 _)
  have a3 := a2.left
  have a4 := a2.right' (runFlags_length r)
  have a6 := a4.right' (kcBytes_length r)
  have a7 := a6.left
  have a8 := a6.right' (offBytes_length r _)
  obtain ⟨hc1, hc2, hc3⟩ := cookie_low 65535 (by omega)
  have hc4 : ¬ (COOKIE ||| (65535 <<< 16)) = COOKIE_NORUN := by decide
  rw [rbPortableDeserializeFrozen, readLE_at a1 hc3, ok_bind, if_neg hc4, if_pos hc1] at hf
  simp only [hc2] at hf
  rw [if_pos (by decide)] at hf
  obtain ⟨pre, suf, e1, e2, e3⟩ := cut (x := r) (m := 32768) (n := 32768) (by omega)
  rcases suf with _ | ⟨q, suf⟩
  · simp at e3
  have hflag : isRunAt after (some (0 + 4)) (0 + 32768) = .ok true := by
    have := runFlag_at (buf := after) (runs := some (0 + 4)) (fun o ho => by cases ho; exact a3) (fun h => by cases h) e1
    rw [e2, hall q (by rw [e1]; simp)] at this
    rw [Nat.zero_add, this]
    rfl
  obtain ⟨k, p, c, g1, g2, g3⟩ := pfLoop_get _ hf (j := 32768) (by omega) hflag
  have hsz : ∀ q ∈ r, containerSizeInBytes q.2 = 131074 := by
    intro q hq
    rw [hall q hq]
    simp only [containerSizeInBytes, hE, runSerializedSize]
  have ho := offBytes_get r hsz (by omega) a7 (j := 32768) (by rw [hl]; omega)
  rw [hl] at ho a8
  simp only [Nat.zero_add, Nat.reduceAdd, Nat.reduceMul, Nat.reduceDiv, Nat.reduceMod] at ho g2 a8
  rw [ho] at g2
  cases g2
  -- the first container
  rcases r with _ | ⟨q0, t⟩
  · simp at hl
  have ea : allBytes (q0 :: t) = contBytes (.run E) ++ allBytes t := by
    rw [allBytes, List.flatMap_cons, hall q0 (by simp)]; rfl
  rw [ea] at a8
  have b1 := a8.left
  rw [contBytes] at b1
  have b2 := b1.right' (leBytes_length 2 _)
  rw [hEP] at b2
  have b3 := (b2.entry (k := 4) (fun a => by simp [leBytes_length])).right' (leBytes_length 2 _)
  rw [hP] at b3
  have b4 := readLE_at b3 (by show 0 < 256 ^ 2; decide)
  simp only [Nat.reduceAdd, Nat.reduceMul] at b4
  rw [runRead, Nat.zero_add, b4, ok_bind, readRles, ok_bind] at g3
  cases g3
  have : (k, Container.run []) ∈ q0 :: t := List.mem_of_getElem? g1
  have := hall _ this
  simp only [Container.run.injEq] at this
  rw [← this] at hE
  simp at hE

theorem exEven_length : exEven.length = 65536 := cellsFrom_length _ _ _

theorem exEven_all : ∀ q ∈ exEven, q.2 = .run evens := by
  intro q hq
  rw [exEven] at hq
  exact (mem_cellsFrom.1 hq).2.2

theorem exEven_size : 2 ^ 32 ≤ rbPortableSize exEven := by
  have hsz : ∀ q ∈ exEven, containerSizeInBytes q.2 = 131074 := by
    intro q hq
    rw [exEven_all q hq]
    simp only [containerSizeInBytes, evens_length, runSerializedSize]
  rw [rbPortableSize_eq, sizes_const hsz, exEven_length]
  omega

theorem evens_mid : ∃ (P Q : List Rle) (a : Nat), P.length = 16383 ∧ evens = P ++ (a, 0) :: Q := by
  obtain ⟨P, Q, e1, e2, e3⟩ := cut (x := evens) (m := 16383) (n := 16385) evens_length
  rcases Q with _ | ⟨⟨a, b⟩, Q⟩
  · simp at e3
  have hq : b = 0 := by
    have : (a, b) ∈ evens := by rw [e1]; simp
    rw [evens, List.mem_map] at this
    obtain ⟨i, _, h⟩ := this
    cases h
    rfl
  subst hq
  exact ⟨P, Q, a, e2, e1⟩

/-- C47 does not hold in general: the serialized form of the set of all even 32-bit numbers, kept in run containers,
is larger than 4 GiB; the offsets in it are 32-bit numbers that have wrapped around, and
`portable_deserialize_frozen`, which trusts them, does not give the bitmap back. -/
theorem C47_false : Valid exEven ∧ 2 ^ 32 ≤ rbPortableSize exEven ∧
    ∀ mem after n, rbPortableSize exEven ≤ mem.length → rbPortableSerialize exEven mem 0 = .ok (after, n) →
      rbPortableDeserializeFrozen after 0 ≠ .ok exEven := by
  obtain ⟨P, Q, a, e2, e1⟩ := evens_mid
  exact ⟨exEven_inv.valid, exEven_size, fun mem after n hm hw =>
    view_wraps exEven_inv exEven_length evens_length exEven_all e2 e1 hm hw⟩

/-! ### The hypotheses can be met -/

example : Valid exB ∧ rbFrozenSize exB ≤ (List.replicate (rbFrozenSize exB) (0 : UInt8)).length :=
  ⟨exB_valid, by simp⟩

/-- The frozen form of a concrete bitmap, computed, and its view; the same bytes at another address are rejected. -/
example : ∃ m, rbFrozenSerialize exS (List.replicate 30 7) 0 = .ok m ∧ rbFrozenView 64 m (rbFrozenSize exS) = .ok exS ∧
    rbFrozenView 65 m (rbFrozenSize exS) = .fail ∧ rbFrozenView 64 m (rbFrozenSize exS - 1) = .fail ∧
    rbFrozenSize exS = 28 ∧ m.drop 28 = [7, 7] :=
  ⟨[10, 0, 20, 0, 100, 0, 0, 0, 1, 0, 5, 0, 255, 255, 0, 0, 2, 0, 2, 0, 2, 0, 2, 3, 198, 53, 1, 0, 7, 7],
    by decide +kernel⟩

/-- The portable view of a concrete bitmap. -/
example : rbPortableDeserializeFrozen [59, 48, 1, 0, 2, 0, 0, 2, 0, 2, 0, 21, 0, 1, 0, 5, 0, 255, 255, 2, 0, 10, 0, 20, 0,
      100, 0, 0, 0, 7, 7] 0 = .ok exS ∧ rbPortableSize exS < 2 ^ 32 := by decide +kernel

end CRoaring.Props
