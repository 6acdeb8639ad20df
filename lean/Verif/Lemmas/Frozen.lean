import Verif.Model.Frozen
import Verif.Lemmas.Serial4

set_option linter.unusedSimpArgs false
set_option linter.unusedVariables false

/-! The frozen format: writing, and reading back. -/

namespace CRoaring
open Spec

/-- The part of the zone of the bitsets. -/
def bzC : Container → List UInt8
  | .bitset b => wordBytes b.words
  | _ => []
/-- The part of the zone of the runs. -/
def rzC : Container → List UInt8
  | .run rs => rs.flatMap fun p => leBytes 2 p.1 ++ leBytes 2 p.2
  | _ => []
/-- The part of the zone of the arrays. -/
def azC : Container → List UInt8
  | .array l => l.flatMap (leBytes 2)
  | _ => []
/-- The count of a container. -/
def countOf : Container → Nat
  | .bitset b => ((frozenBitsetCard b - 1) % 65536).toNat
  | .run rs => rs.length % 65536
  | .array l => (((l.length : Int) - 1) % 65536).toNat

def bzBytes (r : Bitmap) : List UInt8 := r.flatMap fun p => bzC p.2
def rzBytes (r : Bitmap) : List UInt8 := r.flatMap fun p => rzC p.2
def azBytes (r : Bitmap) : List UInt8 := r.flatMap fun p => azC p.2
def fkBytes (r : Bitmap) : List UInt8 := r.flatMap fun p => leBytes 2 p.1
def czBytes (r : Bitmap) : List UInt8 := r.flatMap fun p => leBytes 2 (countOf p.2)
def tzBytes (r : Bitmap) : List UInt8 := r.flatMap fun p => leBytes 1 (typecode p.2)

/-- All bytes of the frozen format. -/
def frozenBytes (r : Bitmap) : List UInt8 :=
  bzBytes r ++ (rzBytes r ++ (azBytes r ++ (fkBytes r ++ (czBytes r ++ (tzBytes r ++
    leBytes 4 ((r.length <<< 15 % 4294967296) ||| FROZEN_COOKIE))))))

theorem wordBytes_length (ws : List Word) : (wordBytes ws).length = ws.length * 8 :=
  flatMap_length_const (f := fun w : Word => leBytes 8 w.toNat) (fun a => leBytes_length 8 a.toNat) ws

theorem rles_length (rs : List Rle) :
    (rs.flatMap fun p => leBytes 2 p.1 ++ leBytes 2 p.2).length = rs.length * 4 :=
  flatMap_length_const (fun a => by simp [leBytes_length]) rs

theorem u16s_length (l : List Nat) : (l.flatMap (leBytes 2)).length = l.length * 2 :=
  flatMap_length_const (fun a => by simp [leBytes_length]) l

theorem fkBytes_length (r : Bitmap) : (fkBytes r).length = 2 * r.length := by
  rw [fkBytes, flatMap_length_const (k := 2) (fun a => by simp [leBytes_length]), Nat.mul_comm]
theorem czBytes_length (r : Bitmap) : (czBytes r).length = 2 * r.length := by
  rw [czBytes, flatMap_length_const (k := 2) (fun a => by simp [leBytes_length]), Nat.mul_comm]
theorem tzBytes_length (r : Bitmap) : (tzBytes r).length = r.length := by
  rw [tzBytes, flatMap_length_const (k := 1) (fun a => by simp [leBytes_length]), Nat.mul_one]

theorem fkBytes_eq (r : Bitmap) : (keysOf r).flatMap (leBytes 2) = fkBytes r := by
  rw [fkBytes, keysOf, List.flatMap_map]
theorem tzBytes_eq (r : Bitmap) : (r.map fun p => UInt8.ofNat (typecode p.2)) = tzBytes r := by
  rw [tzBytes]
  induction r with
  | nil => rfl
  | cons p t ih => rw [List.map_cons, List.flatMap_cons, ih]; rfl

/-- The zone sizes, starting from `z`. -/
theorem zoneSizes_go (r : Bitmap) (ht : ∀ p ∈ r, CTyped p.2) : ∀ z : Nat × Nat × Nat,
    r.foldl (fun z p => zoneStep z p.2) z =
      (z.1 + (bzBytes r).length, z.2.1 + (rzBytes r).length, z.2.2 + (azBytes r).length) := by
  induction r with
  | nil => intro z; rfl
  | cons p t ih =>
    intro z
    have hp := ht p (by simp)
    rw [List.foldl_cons, ih fun q hq => ht q (by simp [hq])]
    obtain ⟨k, c⟩ := p
    cases c with
    | bitset b =>
      have : b.words.length = NWORDS := hp
      simp [zoneStep, bzBytes, rzBytes, azBytes, bzC, rzC, azC, wordBytes_length, this]; omega
    | run rs => simp only [zoneStep, bzBytes, rzBytes, azBytes, bzC, rzC, azC, List.flatMap_cons, List.length_append, List.length_nil,
        rles_length, Prod.mk.injEq]; omega
    | array l => simp only [zoneStep, bzBytes, rzBytes, azBytes, bzC, rzC, azC, List.flatMap_cons, List.length_append, List.length_nil,
        u16s_length, Prod.mk.injEq]; omega

theorem zoneSizes_eq {r : Bitmap} (ht : ∀ p ∈ r, CTyped p.2) :
    zoneSizes r = ((bzBytes r).length, (rzBytes r).length, (azBytes r).length) := by
  rw [zoneSizes, zoneSizes_go r ht]; simp

theorem frozenSize_go (r : Bitmap) (ht : ∀ p ∈ r, CTyped p.2) : ∀ n : Nat,
    r.foldl (fun n p => n + frozenDataSize p.2) n =
      n + ((bzBytes r).length + (rzBytes r).length + (azBytes r).length) := by
  induction r with
  | nil => intro n; rfl
  | cons p t ih =>
    intro n
    have hp := ht p (by simp)
    rw [List.foldl_cons, ih fun q hq => ht q (by simp [hq])]
    obtain ⟨k, c⟩ := p
    cases c with
    | bitset b =>
      have : b.words.length = NWORDS := hp
      simp only [frozenDataSize, bzBytes, rzBytes, azBytes, bzC, rzC, azC, List.flatMap_cons, List.length_append, List.length_nil,
        wordBytes_length, this]; omega
    | run rs => simp only [frozenDataSize, bzBytes, rzBytes, azBytes, bzC, rzC, azC, List.flatMap_cons, List.length_append, List.length_nil,
        rles_length, Prod.mk.injEq]; omega
    | array l => simp only [frozenDataSize, bzBytes, rzBytes, azBytes, bzC, rzC, azC, List.flatMap_cons, List.length_append, List.length_nil,
        u16s_length, Prod.mk.injEq]; omega

theorem frozenBytes_length {r : Bitmap} (ht : ∀ p ∈ r, CTyped p.2) : (frozenBytes r).length = rbFrozenSize r := by
  rw [rbFrozenSize, frozenSize_go r ht, frozenBytes]
  simp only [List.length_append, fkBytes_length, czBytes_length, tzBytes_length, leBytes_length]
  omega

/-! ### Writing -/

theorem memWrite_mid {a x b bs : List UInt8} {off : Nat} (ho : off = a.length) (h : x.length = bs.length) :
    memWrite (a ++ (x ++ b)) off bs = .ok (a ++ (bs ++ b)) := by
  subst ho
  rw [memWrite, if_pos (by simp; omega), ← h]
  simp

/-- A list can be cut anywhere. -/
theorem cut {α : Type} {x : List α} {m n : Nat} (h : x.length = m + n) :
    ∃ x1 x2, x = x1 ++ x2 ∧ x1.length = m ∧ x2.length = n :=
  ⟨x.take m, x.drop m, (List.take_append_drop m x).symm, by simp; omega, by simp; omega⟩

theorem frozenWriteLoop_eq {cz : Nat} (suf : Bitmap) : ∀ {i : Nat} {A X B Y C Z D W E : List UInt8} {bz rz az : Nat},
    (∀ p ∈ suf, CTyped p.2) →
    X.length = (bzBytes suf).length → Y.length = (rzBytes suf).length → Z.length = (azBytes suf).length →
    W.length = 2 * suf.length →
    bz = A.length → rz = A.length + X.length + B.length →
    az = A.length + X.length + B.length + Y.length + C.length →
    cz + 2 * i = A.length + X.length + B.length + Y.length + C.length + Z.length + D.length →
    frozenWriteLoop cz suf i bz rz az (A ++ (X ++ (B ++ (Y ++ (C ++ (Z ++ (D ++ (W ++ E)))))))) =
      .ok (A ++ (bzBytes suf ++ (B ++ (rzBytes suf ++ (C ++ (azBytes suf ++ (D ++ (czBytes suf ++ E)))))))) := by
  induction suf with
  | nil =>
    intro i A X B Y C Z D W E bz rz az _ hX hY hZ hW _ _ _ _
    have e1 : X = [] := List.eq_nil_of_length_eq_zero (by rw [hX]; rfl)
    have e2 : Y = [] := List.eq_nil_of_length_eq_zero (by rw [hY]; rfl)
    have e3 : Z = [] := List.eq_nil_of_length_eq_zero (by rw [hZ]; rfl)
    have e4 : W = [] := List.eq_nil_of_length_eq_zero (by rw [hW]; rfl)
    subst e1 e2 e3 e4
    rfl
  | cons p t ih =>
    intro i A X B Y C Z D W E bz rz az ht hX hY hZ hW h1 h2 h3 h4
    have hp := ht p (by simp)
    have ht' : ∀ q ∈ t, CTyped q.2 := fun q hq => ht q (by simp [hq])
    obtain ⟨w1, w2, rfl, hw1, hw2⟩ := cut (x := W) (m := 2) (n := 2 * t.length) (by rw [hW]; simp; omega)
    obtain ⟨k, c⟩ := p
    cases c with
    | bitset b =>
      have hb : b.words.length = NWORDS := hp
      have ez : bzBytes ((k, .bitset b) :: t) = wordBytes b.words ++ bzBytes t := rfl
      have er : rzBytes ((k, .bitset b) :: t) = rzBytes t := rfl
      have ea : azBytes ((k, .bitset b) :: t) = azBytes t := rfl
      have ec : czBytes ((k, .bitset b) :: t) =
        leBytes 2 ((frozenBitsetCard b - 1) % 65536).toNat ++ czBytes t := rfl
      rw [ez, List.length_append] at hX
      rw [er] at hY
      rw [ea] at hZ
      obtain ⟨x1, x2, rfl, hx1, hx2⟩ := cut hX
      have hl := wordBytes_length b.words
      rw [hb] at hl
      simp only [List.length_append] at h1 h2 h3 h4
      rw [frozenWriteLoop, ez, er, ea, ec]
      rw [show A ++ (x1 ++ x2 ++ (B ++ (Y ++ (C ++ (Z ++ (D ++ (w1 ++ w2 ++ E))))))) =
        A ++ (x1 ++ (x2 ++ (B ++ (Y ++ (C ++ (Z ++ (D ++ (w1 ++ (w2 ++ E)))))))) ) by simp]
      rw [memWrite_mid h1 hx1, ok_bind]
      rw [show A ++ (wordBytes b.words ++ (x2 ++ (B ++ (Y ++ (C ++ (Z ++ (D ++ (w1 ++ (w2 ++ E)))))))) ) =
        (A ++ wordBytes b.words ++ x2 ++ B ++ Y ++ C ++ Z ++ D) ++ (w1 ++ (w2 ++ E)) by simp]
      rw [memWrite_mid (by first | omega | (simp only [List.length_append]; omega)) (by rw [hw1, leBytes_length]), ok_bind]
      have := ih (i := i + 1) (A := A ++ wordBytes b.words) (X := x2) (B := B) (Y := Y) (C := C) (Z := Z)
        (D := D ++ leBytes 2 ((frozenBitsetCard b - 1) % 65536).toNat) (W := w2) (E := E)
        (bz := bz + NWORDS * 8) (rz := rz) (az := az) ht' hx2 hY hZ hw2
        (by first | omega | (simp only [List.length_append]; omega)) (by first | omega | (simp only [List.length_append]; omega))
        (by first | omega | (simp only [List.length_append]; omega)) (by simp only [List.length_append, leBytes_length]; omega)
      simp only [List.append_assoc] at this ⊢
      exact this
    | run rs =>
      have ez : bzBytes ((k, .run rs) :: t) = bzBytes t := rfl
      have er : rzBytes ((k, .run rs) :: t) =
        (rs.flatMap fun p => leBytes 2 p.1 ++ leBytes 2 p.2) ++ rzBytes t := rfl
      have ea : azBytes ((k, .run rs) :: t) = azBytes t := rfl
      have ec : czBytes ((k, .run rs) :: t) = leBytes 2 (rs.length % 65536) ++ czBytes t := rfl
      rw [ez] at hX
      rw [er, List.length_append] at hY
      rw [ea] at hZ
      obtain ⟨x1, x2, rfl, hx1, hx2⟩ := cut hY
      have hl := rles_length rs
      simp only [List.length_append] at h1 h2 h3 h4
      rw [frozenWriteLoop, ez, er, ea, ec]
      generalize (rs.flatMap fun p => leBytes 2 p.1 ++ leBytes 2 p.2) = q at *
      rw [show A ++ (X ++ (B ++ (x1 ++ x2 ++ (C ++ (Z ++ (D ++ (w1 ++ w2 ++ E))))))) =
        (A ++ X ++ B) ++ (x1 ++ (x2 ++ (C ++ (Z ++ (D ++ (w1 ++ (w2 ++ E))))))) by simp]
      rw [memWrite_mid (by first | omega | (simp only [List.length_append]; omega)) hx1, ok_bind]
      rw [show (A ++ X ++ B) ++ (q ++ (x2 ++ (C ++ (Z ++ (D ++ (w1 ++ (w2 ++ E))))))) =
        (A ++ X ++ B ++ q ++ x2 ++ C ++ Z ++ D) ++ (w1 ++ (w2 ++ E)) by simp]
      rw [memWrite_mid (by first | omega | (simp only [List.length_append]; omega)) (by rw [hw1, leBytes_length]), ok_bind]
      have := ih (i := i + 1) (A := A) (X := X) (B := B ++ q) (Y := x2) (C := C) (Z := Z)
        (D := D ++ leBytes 2 (rs.length % 65536)) (W := w2) (E := E)
        (bz := bz) (rz := rz + rs.length * 4) (az := az) ht' hX hx2 hZ hw2
        (by first | omega | (simp only [List.length_append]; omega)) (by first | omega | (simp only [List.length_append]; omega))
        (by first | omega | (simp only [List.length_append]; omega)) (by simp only [List.length_append, leBytes_length]; omega)
      simp only [List.append_assoc] at this ⊢
      exact this
    | array l =>
      have ez : bzBytes ((k, .array l) :: t) = bzBytes t := rfl
      have er : rzBytes ((k, .array l) :: t) = rzBytes t := rfl
      have ea : azBytes ((k, .array l) :: t) = l.flatMap (leBytes 2) ++ azBytes t := rfl
      have ec : czBytes ((k, .array l) :: t) = leBytes 2 (((l.length : Int) - 1) % 65536).toNat ++ czBytes t := rfl
      rw [ez] at hX
      rw [er] at hY
      rw [ea, List.length_append] at hZ
      obtain ⟨x1, x2, rfl, hx1, hx2⟩ := cut hZ
      have hl := u16s_length l
      simp only [List.length_append] at h1 h2 h3 h4
      rw [frozenWriteLoop, ez, er, ea, ec]
      generalize l.flatMap (leBytes 2) = q at *
      rw [show A ++ (X ++ (B ++ (Y ++ (C ++ (x1 ++ x2 ++ (D ++ (w1 ++ w2 ++ E))))))) =
        (A ++ X ++ B ++ Y ++ C) ++ (x1 ++ (x2 ++ (D ++ (w1 ++ (w2 ++ E))))) by simp]
      rw [memWrite_mid (by first | omega | (simp only [List.length_append]; omega)) hx1, ok_bind]
      rw [show (A ++ X ++ B ++ Y ++ C) ++ (q ++ (x2 ++ (D ++ (w1 ++ (w2 ++ E))))) =
        (A ++ X ++ B ++ Y ++ C ++ q ++ x2 ++ D) ++ (w1 ++ (w2 ++ E)) by simp]
      rw [memWrite_mid (by first | omega | (simp only [List.length_append]; omega)) (by rw [hw1, leBytes_length]), ok_bind]
      have := ih (i := i + 1) (A := A) (X := X) (B := B) (Y := Y) (C := C ++ q) (Z := x2)
        (D := D ++ leBytes 2 (((l.length : Int) - 1) % 65536).toNat) (W := w2) (E := E)
        (bz := bz) (rz := rz) (az := az + l.length * 2) ht' hX hY hx2 hw2
        (by first | omega | (simp only [List.length_append]; omega)) (by first | omega | (simp only [List.length_append]; omega))
        (by first | omega | (simp only [List.length_append]; omega)) (by simp only [List.length_append, leBytes_length]; omega)
      simp only [List.append_assoc] at this ⊢
      exact this

/-- What `frozen_serialize` does to the memory. -/
theorem rbFrozenSerialize_eq {r : Bitmap} (ht : ∀ p ∈ r, CTyped p.2) {mem : List UInt8} {off : Nat}
    (h : off + rbFrozenSize r ≤ mem.length) :
    rbFrozenSerialize r mem off = .ok (mem.take off ++ frozenBytes r ++ mem.drop (off + rbFrozenSize r)) := by
  have hsz := frozenBytes_length ht
  simp only [frozenBytes, List.length_append, fkBytes_length, czBytes_length, tzBytes_length, leBytes_length] at hsz
  obtain ⟨A, m1, e1, hA, h1⟩ := cut (x := mem) (m := off) (n := mem.length - off) (by omega)
  obtain ⟨X, m2, e2, hX, h2⟩ := cut (x := m1) (m := (bzBytes r).length) (n := m1.length - (bzBytes r).length) (by omega)
  obtain ⟨Y, m3, e3, hY, h3⟩ := cut (x := m2) (m := (rzBytes r).length) (n := m2.length - (rzBytes r).length) (by omega)
  obtain ⟨Z, m4, e4, hZ, h4⟩ := cut (x := m3) (m := (azBytes r).length) (n := m3.length - (azBytes r).length) (by omega)
  obtain ⟨D, m5, e5, hD, h5⟩ := cut (x := m4) (m := 2 * r.length) (n := m4.length - 2 * r.length) (by omega)
  obtain ⟨W, m6, e6, hW, h6⟩ := cut (x := m5) (m := 2 * r.length) (n := m5.length - 2 * r.length) (by omega)
  obtain ⟨T, m7, e7, hT, h7⟩ := cut (x := m6) (m := r.length) (n := m6.length - r.length) (by omega)
  obtain ⟨H, m8, e8, hH, h8⟩ := cut (x := m7) (m := 4) (n := m7.length - 4) (by omega)
  have et : mem.take off = A := by rw [e1, ← hA]; simp
  have em : mem = (A ++ X ++ Y ++ Z ++ D ++ W ++ T ++ H) ++ m8 := by
    rw [e1, e2, e3, e4, e5, e6, e7, e8]; simp
  have ed : mem.drop (off + rbFrozenSize r) = m8 := by
    have hl : off + rbFrozenSize r = (A ++ X ++ Y ++ Z ++ D ++ W ++ T ++ H).length := by
      simp only [List.length_append]; omega
    rw [hl, em, List.drop_left]
  rw [et, ed, rbFrozenSerialize, zoneSizes_eq ht]
  simp only
  have hw := frozenWriteLoop_eq (cz := off + (bzBytes r).length + (rzBytes r).length + (azBytes r).length + 2 * r.length)
    r (i := 0) (A := A) (X := X) (B := []) (Y := Y) (C := []) (Z := Z) (D := D) (W := W) (E := T ++ (H ++ m8))
    (bz := off) (rz := off + (bzBytes r).length) (az := off + (bzBytes r).length + (rzBytes r).length)
    ht hX hY hZ hW hA.symm (by simp only [List.length_nil]; omega) (by simp only [List.length_nil]; omega)
    (by simp only [List.length_nil]; omega)
  simp only [List.nil_append] at hw
  have em2 : mem = A ++ (X ++ (Y ++ (Z ++ (D ++ (W ++ (T ++ (H ++ m8))))))) := by rw [em]; simp
  rw [em2, hw, ok_bind, fkBytes_eq, tzBytes_eq]
  rw [show A ++ (bzBytes r ++ (rzBytes r ++ (azBytes r ++ (D ++ (czBytes r ++ (T ++ (H ++ m8))))))) =
    (A ++ bzBytes r ++ rzBytes r ++ azBytes r) ++ (D ++ (czBytes r ++ (T ++ (H ++ m8)))) by simp]
  rw [memWrite_mid (by first | omega | (simp only [List.length_append]; omega)) (by rw [hD, fkBytes_length]), ok_bind]
  rw [show (A ++ bzBytes r ++ rzBytes r ++ azBytes r) ++ (fkBytes r ++ (czBytes r ++ (T ++ (H ++ m8)))) =
    (A ++ bzBytes r ++ rzBytes r ++ azBytes r ++ fkBytes r ++ czBytes r) ++ (T ++ (H ++ m8)) by simp]
  rw [memWrite_mid (by simp only [List.length_append, fkBytes_length, czBytes_length]; omega)
    (by rw [hT, tzBytes_length]), ok_bind]
  rw [show (A ++ bzBytes r ++ rzBytes r ++ azBytes r ++ fkBytes r ++ czBytes r) ++ (tzBytes r ++ (H ++ m8)) =
    (A ++ bzBytes r ++ rzBytes r ++ azBytes r ++ fkBytes r ++ czBytes r ++ tzBytes r) ++ (H ++ m8) by simp]
  rw [memWrite_mid (by simp only [List.length_append, fkBytes_length, czBytes_length, tzBytes_length]; omega)
    (by rw [hH, leBytes_length]), frozenBytes]
  simp only [List.append_assoc]

/-! ### Reading back -/

/-- Element `pre.length` of a table with entries of `k` bytes. -/
theorem At.entry {α : Type} {buf : List UInt8} {o k : Nat} {f : α → List UInt8} (hf : ∀ a, (f a).length = k)
    {pre suf : List α} {p : α} (h : At buf o ((pre ++ p :: suf).flatMap f)) : At buf (o + k * pre.length) (f p) := by
  rw [List.flatMap_append, List.flatMap_cons] at h
  have := (h.right' (n := k * pre.length) (by rw [flatMap_length_const hf, Nat.mul_comm])).left
  exact this

theorem countOf_lt (c : Container) : countOf c < 65536 := by
  cases c <;> simp only [countOf] <;> omega

theorem typecode_lt (c : Container) : typecode c < 256 := by
  cases c <;> simp [typecode, BITSET_TYPE, ARRAY_TYPE, RUN_TYPE]

theorem readCount_at {buf : List UInt8} {o : Nat} {pre suf : Bitmap} {p : Nat × Container}
    (h : At buf o (czBytes (pre ++ p :: suf))) : readLE buf (o + 2 * pre.length) 2 = .ok (countOf p.2) :=
  readLE_at (h.entry fun a => leBytes_length 2 _) (countOf_lt _)

theorem readType_at {buf : List UInt8} {o : Nat} {pre suf : Bitmap} {p : Nat × Container}
    (h : At buf o (tzBytes (pre ++ p :: suf))) : readLE buf (o + pre.length) 1 = .ok (typecode p.2) := by
  have := h.entry (k := 1) fun a => leBytes_length 1 _
  rw [Nat.one_mul] at this
  exact readLE_at this (typecode_lt _)

theorem readKey_at {buf : List UInt8} {o : Nat} {pre suf : Bitmap} {p : Nat × Container} (hk : p.1 < 65536)
    (h : At buf o (fkBytes (pre ++ p :: suf))) : readLE buf (o + 2 * pre.length) 2 = .ok p.1 :=
  readLE_at (h.entry fun a => leBytes_length 2 _) hk

/-- The counts of non-empty containers are exact. -/
theorem countOf_spec {c : Container} (h : CNe c) :
    match c with
    | .bitset b => ((countOf c : Nat) : Int) + 1 = b.card
    | .run rs => countOf c = rs.length
    | .array l => countOf c + 1 = l.length := by
  have hf := card_field h
  have hcd := containerCard_eq h.1.rep
  cases c with
  | bitset b =>
    simp only [containerCard] at hf hcd
    have h0 : b.card ≠ UNKNOWN_CARD := by rw [UNKNOWN_CARD]; have := h.1.2; omega
    simp only [countOf, frozenBitsetCard, if_pos h0]
    omega
  | run rs =>
    have := RunOK.length_le h.1
    simp only [countOf]
    omega
  | array l =>
    simp only [containerCard] at hf hcd
    simp only [countOf]
    omega

theorem frozenSizesLoop_at {buf : List UInt8} {r : Bitmap} {cz tz : Nat} (hcz : At buf cz (czBytes r))
    (htz : At buf tz (tzBytes r)) (suf : Bitmap) : ∀ (pre : Bitmap) (z : Nat × Nat × Nat), r = pre ++ suf →
    (∀ p ∈ suf, CNe p.2) → frozenSizesLoop buf cz tz suf.length pre.length z =
      .ok (z.1 + (bzBytes suf).length, z.2.1 + (rzBytes suf).length, z.2.2 + (azBytes suf).length) := by
  induction suf with
  | nil => intro pre z _ _; rfl
  | cons p t ih =>
    intro pre z hpre hne
    have hp := hne p (by simp)
    have hct := hp.1.typed
    have hrec := fun z => ih (pre ++ [p]) z (by simp [hpre]) (fun q hq => hne q (by simp [hq]))
    rw [List.length_append, List.length_singleton] at hrec
    rw [hpre] at hcz htz
    have hc := readCount_at hcz
    have hty := readType_at htz
    have hco := countOf_spec hp
    rw [List.length_cons, frozenSizesLoop, hty, ok_bind]
    obtain ⟨k, c⟩ := p
    cases c with
    | bitset b =>
      have hb : b.words.length = NWORDS := hct
      simp only [typecode, if_pos, hrec, bzBytes, rzBytes, azBytes, bzC, rzC, azC, List.flatMap_cons, List.length_append,
        List.length_nil, wordBytes_length, hb, Out.ok.injEq, Prod.mk.injEq]
      omega
    | run rs =>
      simp only at hco hc
      simp only [typecode, RUN_TYPE, BITSET_TYPE, if_pos, hc, ok_bind, hrec, bzBytes, rzBytes, azBytes, bzC, rzC, azC, List.flatMap_cons, List.length_append,
        List.length_nil, rles_length, hco, Out.ok.injEq, Prod.mk.injEq]
      rw [if_neg (by decide)]
      simp only [Out.ok.injEq, Prod.mk.injEq]
      omega
    | array l =>
      simp only at hco hc
      simp only [typecode, RUN_TYPE, ARRAY_TYPE, BITSET_TYPE, if_pos, hc, ok_bind, hrec, bzBytes, rzBytes, azBytes, bzC, rzC, azC, List.flatMap_cons, List.length_append,
        List.length_nil, u16s_length, hco, Out.ok.injEq, Prod.mk.injEq]
      rw [if_neg (by decide), if_neg (by decide)]
      simp only [Out.ok.injEq, Prod.mk.injEq]
      omega

theorem frozenViewLoop_at {buf : List UInt8} {r : Bitmap} {kz cz tz : Nat} (hkz : At buf kz (fkBytes r))
    (hcz : At buf cz (czBytes r)) (htz : At buf tz (tzBytes r)) (suf : Bitmap) :
    ∀ (pre : Bitmap) (bz rz az : Nat), r = pre ++ suf → (∀ p ∈ suf, CNe p.2) → (∀ p ∈ suf, p.1 < 65536) →
      At buf bz (bzBytes suf) → At buf rz (rzBytes suf) → At buf az (azBytes suf) →
      frozenViewLoop buf kz cz tz suf.length pre.length bz rz az = .ok suf := by
  induction suf with
  | nil => intro pre bz rz az _ _ _ _ _ _; rfl
  | cons p t ih =>
    intro pre bz rz az hpre hne hk hb hr ha
    have hp := hne p (by simp)
    have hkp := hk p (by simp)
    have hct := hp.1.typed
    have hrec := fun bz rz az => ih (pre ++ [p]) bz rz az (by simp [hpre]) (fun q hq => hne q (by simp [hq]))
      (fun q hq => hk q (by simp [hq]))
    rw [List.length_append, List.length_singleton] at hrec
    rw [hpre] at hcz htz hkz
    have hco := countOf_spec hp
    rw [List.length_cons, frozenViewLoop, readKey_at hkp hkz, ok_bind, readType_at htz, ok_bind, readCount_at hcz, ok_bind]
    obtain ⟨k, c⟩ := p
    cases c with
    | bitset b =>
      have hbw : b.words.length = NWORDS := hct
      have hb' : At buf bz (wordBytes b.words ++ bzBytes t) := hb
      have hw := readWords_at b.words hb'.left
      rw [hbw] at hw
      have hl := wordBytes_length b.words
      rw [hbw] at hl
      simp only at hco
      simp only [typecode, if_pos, hw, ok_bind, pure_ok]
      rw [hrec _ _ _ (hb'.right' hl) hr ha, ok_bind, hco]
    | run rs =>
      have hr' : At buf rz ((rs.flatMap fun p => leBytes 2 p.1 ++ leBytes 2 p.2) ++ rzBytes t) := hr
      simp only at hco
      simp only [typecode, hco]
      rw [if_neg (by decide), if_pos trivial, readRles_at rs hct hr'.left, ok_bind,
        hrec _ _ _ hb (hr'.right' (rles_length rs)) ha, ok_bind, pure_ok]
    | array l =>
      have ha' : At buf az (l.flatMap (leBytes 2) ++ azBytes t) := ha
      simp only at hco
      simp only [typecode, hco]
      rw [if_neg (by decide), if_neg (by decide), if_pos trivial, readU16s_at l hct ha'.left, ok_bind,
        hrec _ _ _ hb hr (ha'.right' (u16s_length l)), ok_bind, pure_ok]

theorem header_low {n : Nat} (hn : n ≤ 65536) :
    ((n <<< 15 % 4294967296) ||| FROZEN_COOKIE) % 32768 = FROZEN_COOKIE ∧
    ((n <<< 15 % 4294967296) ||| FROZEN_COOKIE) >>> 15 = n ∧
    ((n <<< 15 % 4294967296) ||| FROZEN_COOKIE) < 256 ^ 4 := by
  have e : n <<< 15 % 4294967296 = n * 32768 := by
    rw [Nat.shiftLeft_eq, Nat.mod_eq_of_lt (by omega)]
  have e2 : (n * 32768 ||| FROZEN_COOKIE) = n * 32768 + FROZEN_COOKIE := by
    have := Nat.shiftLeft_add_eq_or_of_lt (b := FROZEN_COOKIE) (i := 15) (by decide) n
    rw [Nat.shiftLeft_eq] at this
    exact this.symm
  rw [e, e2, FROZEN_COOKIE, Nat.shiftRight_eq_div_pow]
  refine ⟨by omega, by omega, by omega⟩

/-- A frozen view of the bytes written by `frozen_serialize`. -/
theorem rbFrozenView_at {r : Bitmap} (hb : BInv r) (tail : List UInt8) {addr : Nat} (ha : addr % 32 = 0) :
    rbFrozenView addr (frozenBytes r ++ tail) (rbFrozenSize r) = .ok r := by
  obtain ⟨_, hk, hne⟩ := bp_iff.1 hb
  have ht : ∀ p ∈ r, CTyped p.2 := fun p hp => (hne p hp).1.typed
  have hsz := frozenBytes_length ht
  have hn := hb.length_le
  obtain ⟨h1, h2, h3⟩ := header_low hn
  have hat : At (frozenBytes r ++ tail) 0 (frozenBytes r) := ⟨[], tail, by simp, rfl⟩
  simp only [frozenBytes, List.length_append, fkBytes_length, czBytes_length, tzBytes_length, leBytes_length] at hsz
  have hat2 := hat
  conv at hat2 => arg 3; rw [frozenBytes]
  have p1 := hat2.left
  have q1 := hat2.right
  have p2 := q1.left
  have q2 := q1.right
  have p3 := q2.left
  have q3 := q2.right
  have p4 := q3.left
  have q4 := q3.right' (fkBytes_length r)
  have p5 := q4.left
  have q5 := q4.right' (czBytes_length r)
  have p6 := q5.left
  have p7 := q5.right' (tzBytes_length r)
  have hh := readLE_at p7 h3
  rw [rbFrozenView, if_neg (by omega), if_neg (by omega)]
  have ehdr : rbFrozenSize r - 4 = 0 + (bzBytes r).length + (rzBytes r).length + (azBytes r).length + 2 * r.length +
    2 * r.length + r.length := by omega
  rw [ehdr, hh, ok_bind, if_neg (fun h => h h1)]
  simp only [h2]
  rw [if_neg (by omega)]
  have ek : 0 + (bzBytes r).length + (rzBytes r).length + (azBytes r).length + 2 * r.length +
    2 * r.length + r.length - r.length * 5 = 0 + (bzBytes r).length + (rzBytes r).length + (azBytes r).length := by omega
  have ec : 0 + (bzBytes r).length + (rzBytes r).length + (azBytes r).length + 2 * r.length +
    2 * r.length + r.length - r.length * 3 =
      0 + (bzBytes r).length + (rzBytes r).length + (azBytes r).length + 2 * r.length := by omega
  have et : 0 + (bzBytes r).length + (rzBytes r).length + (azBytes r).length + 2 * r.length +
    2 * r.length + r.length - r.length * 1 =
      0 + (bzBytes r).length + (rzBytes r).length + (azBytes r).length + 2 * r.length + 2 * r.length := by omega
  rw [ek, ec, et]
  have hs := frozenSizesLoop_at p5 p6 r [] (0, 0, 0) rfl hne
  rw [List.length_nil] at hs
  rw [hs, ok_bind]
  simp only
  rw [if_neg (by omega)]
  have hv := frozenViewLoop_at p4 p5 p6 r [] 0 (0 + (bzBytes r).length) (0 + (bzBytes r).length + (rzBytes r).length)
    rfl hne hk p1 p2 p3
  rw [List.length_nil] at hv
  rw [show 0 + (bzBytes r).length + (0 + (rzBytes r).length) = 0 + (bzBytes r).length + (rzBytes r).length by omega]
  exact hv

end CRoaring
