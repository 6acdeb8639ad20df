import Verif.Model.Serial
import Verif.Lemmas.Bitmap3
import Verif.Lemmas.Bulk
import Verif.Lemmas.Query

set_option linter.unusedSimpArgs false
set_option linter.unusedVariables false

/-! Writing into buffers and reading back. -/

namespace CRoaring
open Spec

theorem ok_bind {α β : Type} (a : α) (f : α → Out β) : (Out.ok a >>= f) = f a := rfl
theorem fail_bind {α β : Type} (f : α → Out β) : ((Out.fail : Out α) >>= f) = .fail := rfl
theorem oob_bind {α β : Type} (f : α → Out β) : ((Out.oob : Out α) >>= f) = .oob := rfl
theorem pure_ok {α : Type} (a : α) : (pure a : Out α) = .ok a := rfl

theorem leBytes_length (k n : Nat) : (leBytes k n).length = k := by
  induction k generalizing n with
  | zero => rfl
  | succ k ih => simp [leBytes, ih]

theorem leVal_leBytes (k : Nat) : ∀ {n : Nat}, n < 256 ^ k → leVal (leBytes k n) = n := by
  induction k with
  | zero => intro n h; simp [leBytes, leVal] at *; omega
  | succ k ih =>
    intro n h
    have h1 : n / 256 < 256 ^ k := by
      rw [Nat.div_lt_iff_lt_mul (by omega)]
      rw [Nat.pow_succ] at h
      exact h
    rw [leBytes, leVal, ih h1, UInt8.toNat_ofNat']
    omega

theorem leVal_lt (bs : List UInt8) : leVal bs < 256 ^ bs.length := by
  induction bs with
  | nil => simp [leVal]
  | cons b t ih =>
    rw [leVal, List.length_cons, Nat.pow_succ]
    have := b.toNat_lt
    omega

/-- The bytes `bs` are in `buf` at offset `off`. -/
def At (buf : List UInt8) (off : Nat) (bs : List UInt8) : Prop := ∃ a b, buf = a ++ (bs ++ b) ∧ a.length = off

theorem At.left {buf : List UInt8} {off : Nat} {x y : List UInt8} (h : At buf off (x ++ y)) : At buf off x := by
  obtain ⟨a, b, h1, h2⟩ := h
  exact ⟨a, y ++ b, by simp [h1], h2⟩

theorem At.right {buf : List UInt8} {off : Nat} {x y : List UInt8} (h : At buf off (x ++ y)) :
    At buf (off + x.length) y := by
  obtain ⟨a, b, h1, h2⟩ := h
  exact ⟨a ++ x, b, by simp [h1], by simp [h2]⟩

theorem At.right' {buf : List UInt8} {off n : Nat} {x y : List UInt8} (h : At buf off (x ++ y)) (hn : x.length = n) :
    At buf (off + n) y := hn ▸ h.right

theorem At.le {buf : List UInt8} {off : Nat} {x : List UInt8} (h : At buf off x) : off + x.length ≤ buf.length := by
  obtain ⟨a, b, h1, h2⟩ := h
  rw [h1]; simp; omega

theorem At.self (a x b : List UInt8) : At (a ++ (x ++ b)) a.length x := ⟨a, b, rfl, rfl⟩

theorem memRead_at {buf : List UInt8} {off : Nat} {x : List UInt8} (h : At buf off x) :
    memRead buf off x.length = .ok x := by
  have hl := h.le
  obtain ⟨a, b, h1, h2⟩ := h
  rw [memRead, if_pos hl]
  subst h2
  rw [h1]
  simp

theorem readLE_at {buf : List UInt8} {off k n : Nat} (h : At buf off (leBytes k n)) (hn : n < 256 ^ k) :
    readLE buf off k = .ok n := by
  have h1 := memRead_at h
  rw [leBytes_length] at h1
  rw [readLE, h1, ok_bind, leVal_leBytes k hn]
  rfl

/-! ### Writing -/

/-- The state of a writer that started at offset `off` of `mem` and has written the bytes `d`. -/
def wst (mem : List UInt8) (off : Nat) (d : List UInt8) : WSt :=
  (mem.take off ++ d ++ mem.drop (off + d.length), off + d.length)

theorem memWrite_wst {mem : List UInt8} {off : Nat} {d bs : List UInt8}
    (h : off + d.length + bs.length ≤ mem.length) :
    memWrite (wst mem off d).1 (wst mem off d).2 bs = .ok (wst mem off (d ++ bs)).1 := by
  have h1 : (mem.take off ++ d).length = off + d.length := by simp; omega
  show memWrite (mem.take off ++ d ++ mem.drop (off + d.length)) (off + d.length) bs =
    .ok (mem.take off ++ (d ++ bs) ++ mem.drop (off + (d ++ bs).length))
  rw [memWrite, if_pos (by simp; omega)]
  congr 1
  rw [List.take_append_of_le_length (by omega), List.take_of_length_le (by omega), List.drop_append, h1,
    List.drop_of_length_le (by omega)]
  simp [List.drop_drop]
  congr 1; omega

theorem put_wst {mem : List UInt8} {off : Nat} {d bs : List UInt8}
    (h : off + d.length + bs.length ≤ mem.length) :
    put (wst mem off d) bs = .ok (wst mem off (d ++ bs)) := by
  rw [put, memWrite_wst h, ok_bind, pure_ok]
  simp [wst, Nat.add_assoc]

/-- The bytes of a container. -/
def contBytes : Container → List UInt8
  | .bitset b => wordBytes b.words
  | .array l => l.flatMap (leBytes 2)
  | .run rs => leBytes 2 (rs.length % 65536) ++ rs.flatMap fun p => leBytes 2 p.1 ++ leBytes 2 p.2

theorem flatMap_length_const {α β : Type} {f : α → List β} {k : Nat} (hf : ∀ a, (f a).length = k) (l : List α) :
    (l.flatMap f).length = l.length * k := by
  induction l with
  | nil => simp
  | cons a t ih => simp [ih, hf, Nat.succ_mul]; omega

theorem contBytes_length {c : Container} (h : CTyped c) : (contBytes c).length = containerSizeInBytes c := by
  cases c with
  | bitset b =>
    simp only [contBytes, containerSizeInBytes, wordBytes]
    rw [flatMap_length_const (fun w => leBytes_length 8 _), show b.words.length = 1024 from h]
    rfl
  | array l => simp only [contBytes, containerSizeInBytes]; rw [flatMap_length_const (leBytes_length 2)]
  | run rs =>
    simp only [contBytes, containerSizeInBytes, runSerializedSize, List.length_append, leBytes_length]
    rw [flatMap_length_const (k := 4) (fun p => by simp [leBytes_length])]; omega

theorem containerWrite_wst {mem : List UInt8} {off : Nat} {d : List UInt8} {c : Container} (hc : CTyped c)
    (h : off + d.length + (contBytes c).length ≤ mem.length) :
    containerWrite (wst mem off d) c = .ok (wst mem off (d ++ contBytes c)) := by
  have hl := contBytes_length hc
  have h2 : (wst mem off (d ++ contBytes c)) =
      ((wst mem off (d ++ contBytes c)).1, (wst mem off d).2 + containerSizeInBytes c) := by
    rw [← hl]; simp [wst, Nat.add_assoc]
  rw [h2]
  cases c with
  | bitset b => simp only [containerWrite, contBytes] at h ⊢; rw [memWrite_wst h]; rfl
  | array l => simp only [containerWrite, contBytes] at h ⊢; rw [memWrite_wst h]; rfl
  | run rs =>
    simp only [containerWrite]
    simp only [contBytes, List.length_append, leBytes_length] at h ⊢
    rw [memWrite_wst (by rw [leBytes_length]; omega), ok_bind]
    have := @memWrite_wst mem off (d ++ leBytes 2 (rs.length % 65536))
      (rs.flatMap fun p => leBytes 2 p.1 ++ leBytes 2 p.2) (by simp [leBytes_length] at *; omega)
    have e : (wst mem off (d ++ leBytes 2 (rs.length % 65536))).2 = (wst mem off d).2 + 2 := by
      simp [wst, leBytes_length, Nat.add_assoc]
    rw [e] at this
    rw [this, List.append_assoc]
    rfl

/-- Keys and cardinalities. -/
def kcBytes (r : Bitmap) : List UInt8 :=
  r.flatMap fun p => leBytes 2 p.1 ++ leBytes 2 ((containerCard p.2 - 1) % 65536).toNat

theorem kcBytes_length (r : Bitmap) : (kcBytes r).length = 4 * r.length := by
  rw [kcBytes, flatMap_length_const (k := 4) (fun p => by simp [leBytes_length])]; omega

theorem writeKeyCards_wst {mem : List UInt8} {off : Nat} (r : Bitmap) : ∀ {d : List UInt8},
    off + d.length + (kcBytes r).length ≤ mem.length →
    writeKeyCards (wst mem off d) r = .ok (wst mem off (d ++ kcBytes r)) := by
  induction r with
  | nil => intro d h; simp [writeKeyCards, kcBytes]
  | cons p t ih =>
    obtain ⟨k, c⟩ := p
    intro d h
    have e : kcBytes ((k, c) :: t) =
        leBytes 2 k ++ (leBytes 2 ((containerCard c - 1) % 65536).toNat ++ kcBytes t) := by
      simp [kcBytes]
    rw [e] at h ⊢
    simp only [List.length_append, leBytes_length] at h
    rw [writeKeyCards, put_wst (by simp [leBytes_length]; omega), ok_bind,
      put_wst (by simp [leBytes_length]; omega), ok_bind, ih (by simp [leBytes_length]; omega)]
    simp

/-- Offsets. -/
def offBytes (start : Nat) : Bitmap → List UInt8
  | [] => []
  | (_, c) :: t => leBytes 4 start ++ offBytes ((start + containerSizeInBytes c) % 4294967296) t

theorem offBytes_length (r : Bitmap) : ∀ start, (offBytes start r).length = 4 * r.length := by
  induction r with
  | nil => simp [offBytes]
  | cons p t ih => intro start; simp [offBytes, ih, leBytes_length]; omega

theorem writeOffsets_wst {mem : List UInt8} {off : Nat} (r : Bitmap) : ∀ {d : List UInt8} {start : Nat},
    off + d.length + (offBytes start r).length ≤ mem.length →
    writeOffsets (wst mem off d) start r = .ok (wst mem off (d ++ offBytes start r)) := by
  induction r with
  | nil => intro d start h; simp [writeOffsets, offBytes]
  | cons p t ih =>
    obtain ⟨k, c⟩ := p
    intro d start h
    simp only [offBytes, List.length_append, leBytes_length] at h ⊢
    rw [writeOffsets, put_wst (by simp [leBytes_length]; omega), ok_bind, ih (by simp [leBytes_length]; omega)]
    simp

/-- All containers. -/
def allBytes (r : Bitmap) : List UInt8 := r.flatMap fun p => contBytes p.2

theorem writeContainers_wst {mem : List UInt8} {off : Nat} (r : Bitmap) : ∀ {d : List UInt8},
    (∀ p ∈ r, CTyped p.2) → off + d.length + (allBytes r).length ≤ mem.length →
    writeContainers (wst mem off d) r = .ok (wst mem off (d ++ allBytes r)) := by
  induction r with
  | nil => intro d ht h; simp [writeContainers, allBytes]
  | cons p t ih =>
    obtain ⟨k, c⟩ := p
    intro d ht h
    have e : allBytes ((k, c) :: t) = contBytes c ++ allBytes t := by simp [allBytes]
    rw [e] at h ⊢
    simp only [List.length_append] at h
    rw [writeContainers, containerWrite_wst (c := c) (ht (k, c) (by simp)) (by omega), ok_bind,
      ih (fun p hp => ht p (by simp [hp])) (by simp; omega)]
    simp

theorem runFlags_length (r : Bitmap) : (runFlags r).length = (r.length + 7) / 8 := by
  have key : ∀ (l : List Nat) (bm : List UInt8),
      (l.foldl (fun bm i => if isRun (contAt r i) then bm.modify (i / 8) (· ||| UInt8.ofNat (1 <<< (i % 8))) else bm)
        bm).length = bm.length := by
    intro l
    induction l with
    | nil => intro bm; rfl
    | cons a t ih =>
      intro bm
      rw [List.foldl_cons, ih]
      split <;> simp
  rw [runFlags, key]; simp

/-- The whole serialized bitmap. -/
def serBytes (r : Bitmap) : List UInt8 :=
  (if raHasRun r then leBytes 4 (COOKIE ||| ((r.length - 1) <<< 16)) ++ runFlags r
    else leBytes 4 COOKIE_NORUN ++ leBytes 4 r.length) ++ kcBytes r ++
  (if (!raHasRun r) || decide (r.length ≥ NO_OFFSET_THRESHOLD) then
      offBytes (if raHasRun r then 4 + 8 * r.length + (r.length + 7) / 8 else 4 + 4 + 4 * r.length + 4 * r.length) r
    else []) ++ allBytes r

theorem allBytes_length {r : Bitmap} (ht : ∀ p ∈ r, CTyped p.2) :
    (allBytes r).length = (r.map fun p => containerSizeInBytes p.2).sum := by
  induction r with
  | nil => rfl
  | cons p t ih =>
    have := ih (fun p hp => ht p (by simp [hp]))
    simp only [allBytes, List.flatMap_cons, List.length_append, List.map_cons, List.sum_cons] at *
    rw [this, contBytes_length (ht _ (by simp))]

theorem rbPortableSize_eq (r : Bitmap) :
    rbPortableSize r = raPortableHeaderSize r + (r.map fun p => containerSizeInBytes p.2).sum := by
  rw [rbPortableSize]
  generalize raPortableHeaderSize r = n
  induction r generalizing n with
  | nil => simp
  | cons p t ih => rw [List.foldl_cons, ih]; simp [Nat.add_assoc]

theorem serBytes_length {r : Bitmap} (ht : ∀ p ∈ r, CTyped p.2) : (serBytes r).length = rbPortableSize r := by
  rw [rbPortableSize_eq, ← allBytes_length ht, serBytes, raPortableHeaderSize]
  by_cases h : raHasRun r = true
  · by_cases h2 : r.length < NO_OFFSET_THRESHOLD
    · simp [h, h2, leBytes_length, kcBytes_length, runFlags_length, Nat.not_le.2 h2]
      omega
    · simp [h, h2, leBytes_length, kcBytes_length, runFlags_length, offBytes_length, Nat.not_lt.1 h2]
      omega
  · simp only [Bool.not_eq_true] at h
    simp [h, leBytes_length, kcBytes_length, offBytes_length]
    omega

/-- `portable_serialize` writes `serBytes r`, if there is room for it. -/
theorem rbPortableSerialize_eq {r : Bitmap} (ht : ∀ p ∈ r, CTyped p.2) {mem : List UInt8} {off : Nat}
    (h : off + rbPortableSize r ≤ mem.length) :
    rbPortableSerialize r mem off =
      .ok (mem.take off ++ serBytes r ++ mem.drop (off + rbPortableSize r), rbPortableSize r) := by
  have hl := serBytes_length ht
  rw [← hl] at h ⊢
  have h0 : (mem, off) = wst mem off [] := by simp [wst]
  have hres : ∀ d, d = serBytes r → Out.ok ((wst mem off d).1, (wst mem off d).2 - off) =
      .ok (mem.take off ++ serBytes r ++ mem.drop (off + (serBytes r).length), (serBytes r).length) := by
    intro d hd
    subst hd
    simp [wst]
  rw [rbPortableSerialize]
  simp only [h0]
  by_cases hr : raHasRun r = true
  · by_cases h2 : r.length < NO_OFFSET_THRESHOLD
    · have h2' : ¬ NO_OFFSET_THRESHOLD ≤ r.length := by omega
      have es : serBytes r = leBytes 4 (COOKIE ||| ((r.length - 1) <<< 16)) ++ runFlags r ++ kcBytes r ++
          allBytes r := by simp [serBytes, hr, h2']
      have hlen := congrArg List.length es
      simp only [List.length_append] at hlen
      simp only [hr, if_true, Bool.not_true, Bool.false_or, ge_iff_le, h2', decide_false, if_false, h2,
        Bool.false_eq_true]
      rw [put_wst (by simp; omega), ok_bind, put_wst (by simp; omega), ok_bind, pure_ok, ok_bind,
        writeKeyCards_wst _ (by simp; omega), ok_bind, pure_ok, ok_bind,
        writeContainers_wst _ ht (by simp; omega), ok_bind, pure_ok]
      exact hres _ (by rw [es]; simp)
    · have h2' : NO_OFFSET_THRESHOLD ≤ r.length := by omega
      have es : serBytes r = leBytes 4 (COOKIE ||| ((r.length - 1) <<< 16)) ++ runFlags r ++ kcBytes r ++
          offBytes (4 + 8 * r.length + (r.length + 7) / 8) r ++ allBytes r := by simp [serBytes, hr, h2']
      have hlen := congrArg List.length es
      simp only [List.length_append] at hlen
      simp only [hr, if_true, Bool.not_true, Bool.false_or, ge_iff_le, h2', decide_true, if_false, h2]
      rw [put_wst (by simp; omega), ok_bind, put_wst (by simp; omega), ok_bind, pure_ok, ok_bind,
        writeKeyCards_wst _ (by simp; omega), ok_bind, writeOffsets_wst _ (by simp; omega), ok_bind,
        writeContainers_wst _ ht (by simp; omega), ok_bind, pure_ok]
      exact hres _ (by rw [es]; simp)
  · simp only [Bool.not_eq_true] at hr
    have es : serBytes r = leBytes 4 COOKIE_NORUN ++ leBytes 4 r.length ++ kcBytes r ++
          offBytes (4 + 4 + 4 * r.length + 4 * r.length) r ++ allBytes r := by simp [serBytes, hr]
    have hlen := congrArg List.length es
    simp only [List.length_append, offBytes_length] at hlen
    simp only [hr, Bool.false_eq_true, if_false, Bool.not_false, Bool.true_or, if_true]
    rw [put_wst (by simp [offBytes_length]; omega), ok_bind, put_wst (by simp [offBytes_length]; omega), ok_bind, pure_ok, ok_bind,
        writeKeyCards_wst _ (by simp [offBytes_length]; omega), ok_bind, writeOffsets_wst _ (by simp [offBytes_length]; omega), ok_bind,
        writeContainers_wst _ ht (by simp [offBytes_length]; omega), ok_bind, pure_ok]
    exact hres _ (by rw [es]; simp)

end CRoaring
