import Verif.Lemmas.Serial2

set_option linter.unusedSimpArgs false
set_option linter.unusedVariables false

/-! Deserialization of arbitrary bytes stays inside the buffer. -/

namespace CRoaring
open Spec

theorem readLE_ok {buf : List UInt8} {off k : Nat} (h : off + k ≤ buf.length) :
    ∃ v, readLE buf off k = .ok v ∧ v < 256 ^ k := by
  rw [readLE, memRead, if_pos h, ok_bind, pure_ok]
  refine ⟨_, rfl, ?_⟩
  have := leVal_lt ((buf.drop off).take k)
  rwa [List.length_take, List.length_drop, Nat.min_eq_left (by omega)] at this

theorem readU16s_ok {buf : List UInt8} (n : Nat) : ∀ {off : Nat}, off + 2 * n ≤ buf.length →
    ∃ l, readU16s buf off n = .ok l ∧ l.length = n ∧ ∀ x ∈ l, x < 65536 := by
  induction n with
  | zero => intro off _; exact ⟨[], rfl, rfl, by simp⟩
  | succ n ih =>
    intro off h
    obtain ⟨v, hv, hv2⟩ := readLE_ok (buf := buf) (off := off) (k := 2) (by omega)
    obtain ⟨l, hl, h1, h2⟩ := ih (off := off + 2) (by omega)
    refine ⟨v :: l, by rw [readU16s, hv, ok_bind, hl]; rfl, by simp [h1], ?_⟩
    intro x hx
    rcases List.mem_cons.1 hx with rfl | hx
    · exact hv2
    · exact h2 x hx

theorem readRles_ok {buf : List UInt8} (n : Nat) : ∀ {off : Nat}, off + 4 * n ≤ buf.length →
    ∃ l, readRles buf off n = .ok l ∧ l.length = n ∧ ∀ x ∈ l, x.1 < 65536 ∧ x.2 < 65536 := by
  induction n with
  | zero => intro off _; exact ⟨[], rfl, rfl, by simp⟩
  | succ n ih =>
    intro off h
    obtain ⟨v, hv, hv2⟩ := readLE_ok (buf := buf) (off := off) (k := 2) (by omega)
    obtain ⟨w, hw, hw2⟩ := readLE_ok (buf := buf) (off := off + 2) (k := 2) (by omega)
    obtain ⟨l, hl, h1, h2⟩ := ih (off := off + 4) (by omega)
    refine ⟨(v, w) :: l, by rw [readRles, hv, ok_bind, hw, ok_bind, hl]; rfl, by simp [h1], ?_⟩
    intro x hx
    rcases List.mem_cons.1 hx with rfl | hx
    · exact ⟨hv2, hw2⟩
    · exact h2 x hx

theorem readWords_ok {buf : List UInt8} (n : Nat) : ∀ {off : Nat}, off + 8 * n ≤ buf.length →
    ∃ l, readWords buf off n = .ok l ∧ l.length = n := by
  induction n with
  | zero => intro off _; exact ⟨[], rfl, rfl⟩
  | succ n ih =>
    intro off h
    obtain ⟨v, hv, hv2⟩ := readLE_ok (buf := buf) (off := off) (k := 8) (by omega)
    obtain ⟨l, hl, h1⟩ := ih (off := off + 8) (by omega)
    exact ⟨BitVec.ofNat 64 v :: l, by rw [readWords, hv, ok_bind, hl]; rfl, by simp [h1]⟩

theorem readKeys_ok {buf : List UInt8} {kc : Nat} (n : Nat) : ∀ {k : Nat}, kc + 4 * (k + n) ≤ buf.length →
    ∃ l, readKeys buf kc n k = .ok l ∧ l.length = n ∧ ∀ x ∈ l, x < 65536 := by
  induction n with
  | zero => intro off _; exact ⟨[], rfl, rfl, by simp⟩
  | succ n ih =>
    intro k h
    obtain ⟨v, hv, hv2⟩ := readLE_ok (buf := buf) (off := kc + 2 * (2 * k)) (k := 2) (by omega)
    obtain ⟨l, hl, h1, h2⟩ := ih (k := k + 1) (by omega)
    refine ⟨v :: l, by rw [readKeys, hv, ok_bind, hl]; rfl, by simp [h1], ?_⟩
    intro x hx
    rcases List.mem_cons.1 hx with rfl | hx
    · exact hv2
    · exact h2 x hx

theorem isRunAt_ok {buf : List UInt8} {runs : Option Nat} {k size : Nat}
    (h : ∀ o, runs = some o → o + (size + 7) / 8 ≤ buf.length) (hk : k < size) : ∃ b, isRunAt buf runs k = .ok b := by
  cases runs with
  | none => exact ⟨false, rfl⟩
  | some o =>
    have := h o rfl
    obtain ⟨v, hv, _⟩ := readLE_ok (buf := buf) (off := o + k / 8) (k := 1) (by omega)
    exact ⟨_, by rw [isRunAt, readRunFlag, hv, ok_bind]; rfl⟩

/-- The two loops behave alike on every buffer, and stay inside it. -/
theorem deserLoop_total {buf : List UInt8} {runs : Option Nat} {base maxbytes kc size : Nat}
    (hm : base + maxbytes ≤ buf.length) (hkc : kc + 4 * size ≤ buf.length)
    (hr : ∀ o, runs = some o → o + (size + 7) / 8 ≤ buf.length) (n : Nat) :
    ∀ {k off rb : Nat}, k + n = size → off = base + rb → rb ≤ maxbytes →
      (deserLoop buf maxbytes runs kc n k off rb = .fail ∧ deserSizeLoop buf maxbytes runs kc n k off rb = .fail) ∨
      ∃ cs m, deserLoop buf maxbytes runs kc n k off rb = .ok (cs, m) ∧
        deserSizeLoop buf maxbytes runs kc n k off rb = .ok m ∧ rb ≤ m ∧ m ≤ maxbytes ∧ cs.length = n ∧
        ∀ c ∈ cs, CTyped c := by
  induction n with
  | zero => intro k off rb hk ho hle; exact .inr ⟨[], rb, rfl, rfl, Nat.le_refl _, hle, rfl, by simp⟩
  | succ n ih =>
    intro k off rb hk ho hle
    obtain ⟨tmp, ht, ht2⟩ := readLE_ok (buf := buf) (off := kc + 2 * (2 * k + 1)) (k := 2) (by omega)
    obtain ⟨b, hb⟩ := isRunAt_ok (k := k) hr (by omega)
    rw [deserLoop, deserSizeLoop, ht, ok_bind, ok_bind, hb, ok_bind, ok_bind]
    simp only
    by_cases h1 : (!b && decide (tmp + 1 > DEFAULT_MAX_SIZE)) = true
    · rw [if_pos h1, if_pos h1]
      by_cases h2 : rb + NWORDS * 8 > maxbytes
      · rw [if_pos h2, if_pos h2]; exact .inl ⟨rfl, rfl⟩
      · rw [if_neg h2, if_neg h2]
        obtain ⟨ws, hw, hw2⟩ := readWords_ok (buf := buf) NWORDS (off := off) (by omega)
        rw [bitsetRead, hw, ok_bind, pure_ok, ok_bind]
        simp only [containerSizeInBytes]
        rcases ih (k := k + 1) (off := off + NWORDS * 8) (rb := rb + NWORDS * 8) (by omega) (by omega) (by omega) with
          ⟨e1, e2⟩ | ⟨cs, m, e1, e2, e3, e4, e5, e6⟩
        · rw [e1, e2]; exact .inl ⟨rfl, rfl⟩
        · rw [e1, e2]
          refine .inr ⟨_, _, rfl, rfl, by simp only; omega, e4, by simp [e5], ?_⟩
          intro c hc
          rcases List.mem_cons.1 hc with rfl | hc
          · exact hw2
          · exact e6 c hc
    · rw [if_neg h1, if_neg h1]
      by_cases h3 : b = true
      · rw [if_pos h3, if_pos h3]
        by_cases h2 : rb + 2 > maxbytes
        · rw [if_pos h2, if_pos h2]; exact .inl ⟨rfl, rfl⟩
        · rw [if_neg h2, if_neg h2]
          obtain ⟨nr, hnr, hnr2⟩ := readLE_ok (buf := buf) (off := off) (k := 2) (by omega)
          rw [hnr, ok_bind, ok_bind]
          by_cases h4 : rb + 2 + nr * 4 > maxbytes
          · rw [if_pos h4, if_pos h4]; exact .inl ⟨rfl, rfl⟩
          · rw [if_neg h4, if_neg h4]
            obtain ⟨rs, hw, hw2, hw3⟩ := readRles_ok (buf := buf) nr (off := off + 2) (by omega)
            rw [runRead, hnr, ok_bind, hw, ok_bind, pure_ok, ok_bind]
            simp only [containerSizeInBytes, runSerializedSize, hw2]
            rw [show off + (2 + 4 * nr) = off + 2 + nr * 4 by omega]
            rcases ih (k := k + 1) (off := off + 2 + nr * 4) (rb := rb + 2 + nr * 4) (by omega) (by omega)
              (by omega) with ⟨e1, e2⟩ | ⟨cs, m, e1, e2, e3, e4, e5, e6⟩
            · rw [e1, e2]; exact .inl ⟨rfl, rfl⟩
            · rw [e1, e2]
              refine .inr ⟨_, _, rfl, rfl, by simp only; omega, e4, by simp [e5], ?_⟩
              intro c hc
              rcases List.mem_cons.1 hc with rfl | hc
              · exact hw3
              · exact e6 c hc
      · rw [if_neg h3, if_neg h3]
        by_cases h2 : rb + (tmp + 1) * 2 > maxbytes
        · rw [if_pos h2, if_pos h2]; exact .inl ⟨rfl, rfl⟩
        · rw [if_neg h2, if_neg h2]
          obtain ⟨l, hw, hw2, hw3⟩ := readU16s_ok (buf := buf) (tmp + 1) (off := off) (by omega)
          rw [arrayRead, hw, ok_bind, pure_ok, ok_bind]
          simp only [containerSizeInBytes, hw2]
          rcases ih (k := k + 1) (off := off + (tmp + 1) * 2) (rb := rb + (tmp + 1) * 2) (by omega) (by omega)
            (by omega) with ⟨e1, e2⟩ | ⟨cs, m, e1, e2, e3, e4, e5, e6⟩
          · rw [e1, e2]; exact .inl ⟨rfl, rfl⟩
          · rw [e1, e2]
            refine .inr ⟨_, _, rfl, rfl, by simp only; omega, e4, by simp [e5], ?_⟩
            intro c hc
            rcases List.mem_cons.1 hc with rfl | hc
            · exact hw3
            · exact e6 c hc

theorem deserSize_total {buf : List UInt8} {cookie base maxbytes : Nat} (hm : base + maxbytes ≤ buf.length)
    (h4 : 4 ≤ maxbytes) (hc : cookie % 65536 = COOKIE ∨ cookie = COOKIE_NORUN) (hcl : cookie < 256 ^ 4) :
    deserSizeSize buf cookie (base + 4) maxbytes 4 = deserSize buf cookie (base + 4) maxbytes 4 ∧
    (deserSize buf cookie (base + 4) maxbytes 4 = .fail ∨
      ∃ (size : Int) (rb : Nat), deserSize buf cookie (base + 4) maxbytes 4 = .ok (size, base + rb, rb) ∧
        rb ≤ maxbytes ∧ 4 ≤ rb) := by
  refine ⟨rfl, ?_⟩
  rw [deserSize]
  by_cases h1 : cookie % 65536 = COOKIE
  · rw [if_pos h1]; exact .inr ⟨_, 4, rfl, h4, by omega⟩
  · rw [if_neg h1]
    by_cases h2 : 4 + 4 > maxbytes
    · rw [if_pos h2]; exact .inl rfl
    · rw [if_neg h2]
      obtain ⟨v, hv, _⟩ := readLE_ok (buf := buf) (off := base + 4) (k := 4) (by omega)
      rw [hv, ok_bind]
      exact .inr ⟨_, 8, rfl, by omega, by omega⟩

/-- Both deserialization functions, on every buffer. -/
theorem raPortableDeserialize_total {buf : List UInt8} {base maxbytes : Nat} (hm : base + maxbytes ≤ buf.length) :
    (raPortableDeserialize buf base maxbytes = .fail ∧ raPortableDeserializeSize buf base maxbytes = .fail) ∨
    ∃ r n, raPortableDeserialize buf base maxbytes = .ok (r, n) ∧ raPortableDeserializeSize buf base maxbytes = .ok n ∧
      4 ≤ n ∧ n ≤ maxbytes ∧ Typed r := by
  rw [raPortableDeserialize, raPortableDeserializeSize]
  by_cases h4 : 4 > maxbytes
  · rw [if_pos h4, if_pos h4]; exact .inl ⟨rfl, rfl⟩
  rw [if_neg h4, if_neg h4]
  obtain ⟨cookie, hc, hcl⟩ := readLE_ok (buf := buf) (off := base) (k := 4) (by omega)
  rw [hc, ok_bind, ok_bind]
  by_cases h1 : cookie % 65536 ≠ COOKIE ∧ cookie ≠ COOKIE_NORUN
  · rw [if_pos h1, if_pos h1]; exact .inl ⟨rfl, rfl⟩
  rw [if_neg h1, if_neg h1]
  obtain ⟨e0, hs⟩ := deserSize_total (cookie := cookie) hm (by omega) (by by_cases h : cookie % 65536 = COOKIE; exact .inl h; exact .inr (by simpa [h] using h1)) hcl
  rw [e0]
  rcases hs with hs | ⟨size, rb, hs, hrb, hrb4⟩
  · rw [hs]; exact .inl ⟨rfl, rfl⟩
  rw [hs, ok_bind, ok_bind]
  by_cases h2 : size < 0
  · rw [if_pos h2, if_pos (.inr h2)]; exact .inl ⟨rfl, rfl⟩
  by_cases h3 : size > 65536
  · rw [if_neg h2, if_pos h3, if_pos (.inl h3)]; exact .inl ⟨rfl, rfl⟩
  have h23 : ¬ (size > 65536 ∨ size < 0) := by omega
  rw [if_neg h2, if_neg h3, if_neg h23]
  obtain ⟨sz, rfl⟩ : ∃ sz : Nat, size = sz := ⟨size.toNat, by omega⟩
  simp only [Int.toNat_natCast]
  by_cases hr : cookie % 65536 = COOKIE
  · simp only [hr, if_true, true_and, not_true_eq_false, false_or]
    by_cases h5 : rb + (sz + 7) / 8 > maxbytes
    · rw [if_pos h5, if_pos h5]; exact .inl ⟨rfl, rfl⟩
    rw [if_neg h5, if_neg h5]
    by_cases h6 : rb + (sz + 7) / 8 + sz * 2 * 2 > maxbytes
    · rw [if_pos h6, if_pos h6]; exact .inl ⟨rfl, rfl⟩
    rw [if_neg h6, if_neg h6]
    obtain ⟨keys, hk, hk2, hk3⟩ := readKeys_ok (buf := buf) (kc := base + rb + (sz + 7) / 8) sz (k := 0) (by omega)
    rw [hk, ok_bind, deserSkipOffsets]
    simp only [not_true_eq_false, false_or]
    have fin : ∀ off rb', off = base + rb' → rb' ≤ maxbytes → rb ≤ rb' →
        ((do let p ← deserLoop buf maxbytes (some (base + rb)) (base + rb + (sz + 7) / 8) sz 0 off rb'
             pure (keys.zip p.1, p.2)) = (.fail : Out (Bitmap × Nat)) ∧
          deserSizeLoop buf maxbytes (some (base + rb)) (base + rb + (sz + 7) / 8) sz 0 off rb' = .fail) ∨
        ∃ r n, (do let p ← deserLoop buf maxbytes (some (base + rb)) (base + rb + (sz + 7) / 8) sz 0 off rb'
                   pure (keys.zip p.1, p.2)) = .ok (r, n) ∧
          deserSizeLoop buf maxbytes (some (base + rb)) (base + rb + (sz + 7) / 8) sz 0 off rb' = .ok n ∧
          4 ≤ n ∧ n ≤ maxbytes ∧ Typed r := by
      intro off rb' ho hle hrb'
      rcases deserLoop_total (runs := some (base + rb)) (kc := base + rb + (sz + 7) / 8) (size := sz) hm (by omega)
        (fun o ho => by cases ho; omega) sz (k := 0) (off := off) (rb := rb') (by omega) ho hle with
        ⟨e1, e2⟩ | ⟨cs, m, e1, e2, e3, e4, e5, e6⟩
      · rw [e1, e2]; exact .inl ⟨rfl, rfl⟩
      · rw [e1, e2]
        refine .inr ⟨_, _, rfl, rfl, by simp only; omega, e4, ?_⟩
        intro p hp
        obtain ⟨q1, q2⟩ := List.of_mem_zip (a := p.1) (b := p.2) hp
        exact ⟨hk3 _ q1, e6 _ q2⟩
    by_cases h7 : sz ≥ NO_OFFSET_THRESHOLD
    · rw [if_pos h7, if_pos h7]
      by_cases h8 : rb + (sz + 7) / 8 + sz * 2 * 2 + sz * 4 > maxbytes
      · rw [if_pos h8, if_pos h8]; exact .inl ⟨rfl, rfl⟩
      rw [if_neg h8, if_neg h8, ok_bind]
      exact fin _ _ (by omega) (by omega) (by omega)
    · rw [if_neg h7, if_neg h7, ok_bind]
      exact fin _ _ (by omega) (by omega) (by omega)
  · simp only [hr, if_false, false_and, not_false_eq_true, true_or, if_true, deserSkipOffsets]
    by_cases h6 : rb + sz * 2 * 2 > maxbytes
    · rw [if_pos h6, if_pos h6]; exact .inl ⟨rfl, rfl⟩
    rw [if_neg h6, if_neg h6]
    obtain ⟨keys, hk, hk2, hk3⟩ := readKeys_ok (buf := buf) (kc := base + rb) sz (k := 0) (by omega)
    rw [hk, ok_bind]
    by_cases h8 : rb + sz * 2 * 2 + sz * 4 > maxbytes
    · rw [if_pos h8, if_pos h8]; exact .inl ⟨rfl, rfl⟩
    rw [if_neg h8, if_neg h8, ok_bind]
    rcases deserLoop_total (runs := none) (kc := base + rb) (size := sz) hm (by omega)
        (fun o ho => by cases ho) sz (k := 0) (off := base + rb + sz * 2 * 2 + sz * 4)
        (rb := rb + sz * 2 * 2 + sz * 4) (by omega) (by omega) (by omega) with
        ⟨e1, e2⟩ | ⟨cs, m, e1, e2, e3, e4, e5, e6⟩
    · simp only; rw [e1, e2]; exact .inl ⟨rfl, rfl⟩
    · simp only
      rw [e1, e2]
      refine .inr ⟨_, _, rfl, rfl, by simp only; omega, e4, ?_⟩
      intro p hp
      obtain ⟨q1, q2⟩ := List.of_mem_zip (a := p.1) (b := p.2) hp
      exact ⟨hk3 _ q1, e6 _ q2⟩

/-! ### Bytes after the end are not read -/

/-- `x` is out of bounds, or agrees with `y`. -/
def OLe {α : Type} (x y : Out α) : Prop := x = .oob ∨ x = y

theorem OLe.rfl' {α : Type} {x : Out α} : OLe x x := .inr rfl

theorem OLe.bind {α β : Type} {x y : Out α} {f g : α → Out β} (h : OLe x y) (hf : ∀ a, OLe (f a) (g a)) :
    OLe (x >>= f) (y >>= g) := by
  rcases h with rfl | rfl
  · exact .inl rfl
  · cases x with
    | oob => exact .inl rfl
    | fail => exact .inr rfl
    | ok a => exact hf a

theorem OLe.ite {α : Type} {c : Prop} [Decidable c] {x y x' y' : Out α} (h1 : OLe x x') (h2 : OLe y y') :
    OLe (if c then x else y) (if c then x' else y') := by
  by_cases h : c
  · simpa [h] using h1
  · simpa [h] using h2

theorem readLE_le {buf tail : List UInt8} {off k : Nat} : OLe (readLE buf off k) (readLE (buf ++ tail) off k) := by
  rw [readLE, readLE, memRead, memRead]
  by_cases h : off + k ≤ buf.length
  · rw [if_pos h, if_pos (by simp; omega)]
    rw [List.drop_append_of_le_length (by omega), List.take_append_of_le_length (by simp; omega)]
    exact .inr rfl
  · rw [if_neg h]; exact .inl rfl

theorem readU16s_le {buf tail : List UInt8} (n : Nat) : ∀ {off : Nat},
    OLe (readU16s buf off n) (readU16s (buf ++ tail) off n) := by
  induction n with
  | zero => intro off; exact .rfl'
  | succ n ih => intro off; exact readLE_le.bind fun _ => ih.bind fun _ => .rfl'

theorem readRles_le {buf tail : List UInt8} (n : Nat) : ∀ {off : Nat},
    OLe (readRles buf off n) (readRles (buf ++ tail) off n) := by
  induction n with
  | zero => intro off; exact .rfl'
  | succ n ih => intro off; exact readLE_le.bind fun _ => readLE_le.bind fun _ => ih.bind fun _ => .rfl'

theorem readWords_le {buf tail : List UInt8} (n : Nat) : ∀ {off : Nat},
    OLe (readWords buf off n) (readWords (buf ++ tail) off n) := by
  induction n with
  | zero => intro off; exact .rfl'
  | succ n ih => intro off; exact readLE_le.bind fun _ => ih.bind fun _ => .rfl'

theorem readKeys_le {buf tail : List UInt8} {kc : Nat} (n : Nat) : ∀ {k : Nat},
    OLe (readKeys buf kc n k) (readKeys (buf ++ tail) kc n k) := by
  induction n with
  | zero => intro off; exact .rfl'
  | succ n ih => intro off; exact readLE_le.bind fun _ => ih.bind fun _ => .rfl'

theorem isRunAt_le {buf tail : List UInt8} {runs : Option Nat} {k : Nat} :
    OLe (isRunAt buf runs k) (isRunAt (buf ++ tail) runs k) := by
  cases runs with
  | none => exact .rfl'
  | some o => exact readLE_le.bind fun _ => .rfl'

theorem deserLoop_le {buf tail : List UInt8} {maxbytes kc : Nat} {runs : Option Nat} (n : Nat) : ∀ {k off rb : Nat},
    OLe (deserLoop buf maxbytes runs kc n k off rb) (deserLoop (buf ++ tail) maxbytes runs kc n k off rb) := by
  induction n with
  | zero => intro k off rb; exact .rfl'
  | succ n ih =>
    intro k off rb
    rw [deserLoop, deserLoop]
    refine readLE_le.bind fun tmp => isRunAt_le.bind fun b => OLe.ite (OLe.ite .rfl' ?_) (OLe.ite (OLe.ite .rfl' ?_)
      (OLe.ite .rfl' ?_))
    · exact OLe.bind ((readWords_le _).bind fun _ => .rfl') fun c => ih.bind fun _ => .rfl'
    · exact readLE_le.bind fun nr => OLe.ite .rfl' (OLe.bind (readLE_le.bind fun _ => (readRles_le _).bind fun _ => .rfl')
        fun c => ih.bind fun _ => .rfl')
    · exact OLe.bind ((readU16s_le _).bind fun _ => .rfl') fun c => ih.bind fun _ => .rfl'

theorem deserSizeLoop_le {buf tail : List UInt8} {maxbytes kc : Nat} {runs : Option Nat} (n : Nat) :
    ∀ {k off rb : Nat},
    OLe (deserSizeLoop buf maxbytes runs kc n k off rb) (deserSizeLoop (buf ++ tail) maxbytes runs kc n k off rb) := by
  induction n with
  | zero => intro k off rb; exact .rfl'
  | succ n ih =>
    intro k off rb
    rw [deserSizeLoop, deserSizeLoop]
    refine readLE_le.bind fun tmp => isRunAt_le.bind fun b => OLe.ite (OLe.ite .rfl' ih) (OLe.ite (OLe.ite .rfl' ?_)
      (OLe.ite .rfl' ih))
    exact readLE_le.bind fun nr => OLe.ite .rfl' ih

theorem raPortableDeserialize_le {buf tail : List UInt8} {base maxbytes : Nat} :
    OLe (raPortableDeserialize buf base maxbytes) (raPortableDeserialize (buf ++ tail) base maxbytes) := by
  rw [raPortableDeserialize, raPortableDeserialize]
  refine OLe.ite .rfl' (readLE_le.bind fun cookie => OLe.ite .rfl' (OLe.bind ?_ fun h => OLe.ite .rfl' (OLe.ite .rfl'
    (OLe.ite .rfl' (OLe.ite .rfl' ((readKeys_le _).bind fun keys => OLe.bind .rfl' fun o =>
      (deserLoop_le _).bind fun _ => .rfl'))))))
  exact OLe.ite .rfl' (OLe.ite .rfl' (readLE_le.bind fun _ => .rfl'))

theorem raPortableDeserializeSize_le {buf tail : List UInt8} {base maxbytes : Nat} :
    OLe (raPortableDeserializeSize buf base maxbytes) (raPortableDeserializeSize (buf ++ tail) base maxbytes) := by
  rw [raPortableDeserializeSize, raPortableDeserializeSize]
  refine OLe.ite .rfl' (readLE_le.bind fun cookie => OLe.ite .rfl' (OLe.bind ?_ fun h => OLe.ite .rfl'
    (OLe.ite .rfl' (OLe.ite .rfl' (OLe.ite (OLe.ite .rfl' (deserSizeLoop_le _)) (deserSizeLoop_le _))))))
  exact OLe.ite .rfl' (OLe.ite .rfl' (readLE_le.bind fun _ => .rfl'))

/-! ### The native format -/

theorem deserAddLoop_le {buf tail : List UInt8} (n : Nat) : ∀ {off : Nat} {r : Bitmap} {ctx : BulkCtx},
    OLe (deserAddLoop buf n off r ctx) (deserAddLoop (buf ++ tail) n off r ctx) := by
  induction n with
  | zero => intro off r ctx; exact .rfl'
  | succ n ih => intro off r ctx; exact readLE_le.bind fun _ => ih

theorem rbDeserializeSafe_le {buf tail : List UInt8} {maxbytes : Nat} :
    OLe (rbDeserializeSafe buf maxbytes) (rbDeserializeSafe (buf ++ tail) maxbytes) := by
  rw [rbDeserializeSafe, rbDeserializeSafe]
  exact OLe.ite .rfl' (readLE_le.bind fun b => OLe.ite (OLe.ite .rfl' (readLE_le.bind fun card => OLe.ite .rfl'
    (deserAddLoop_le _))) (OLe.ite (raPortableDeserialize_le.bind fun _ => .rfl') .rfl'))

/-- The loop over the listed values reads `n` of them and adds them. -/
theorem deserAddLoop_ok {buf : List UInt8} (n : Nat) : ∀ {off : Nat} {r : Bitmap} {ctx : BulkCtx},
    off + 4 * n ≤ buf.length → ∃ l : List Nat, l.length = n ∧ (∀ x ∈ l, x < 4294967296) ∧
      deserAddLoop buf n off r ctx = .ok (rbAddManyLoop r ctx l) := by
  induction n with
  | zero => intro off r ctx _; exact ⟨[], rfl, by simp, rfl⟩
  | succ n ih =>
    intro off r ctx h
    obtain ⟨v, hv, hv2⟩ := readLE_ok (buf := buf) (off := off) (k := 4) (by omega)
    obtain ⟨l, h1, h2, h3⟩ := ih (off := off + 4) (r := (rbAddBulk r ctx v).1) (ctx := (rbAddBulk r ctx v).2) (by omega)
    refine ⟨v :: l, by simp [h1], ?_, ?_⟩
    · intro x hx
      rcases List.mem_cons.1 hx with rfl | hx
      · exact hv2
      · exact h2 x hx
    · rw [deserAddLoop, hv, ok_bind]
      simp only
      rw [h3, rbAddManyLoop]

theorem deserAddLoop_at {buf : List UInt8} (l : List Nat) : ∀ {off : Nat} {r : Bitmap} {ctx : BulkCtx},
    (∀ x ∈ l, x < 4294967296) → At buf off (l.flatMap (leBytes 4)) →
    deserAddLoop buf l.length off r ctx = .ok (rbAddManyLoop r ctx l) := by
  induction l with
  | nil => intro off r ctx _ _; rfl
  | cons a t ih =>
    intro off r ctx hl h
    rw [List.flatMap_cons] at h
    rw [List.length_cons, deserAddLoop, readLE_at h.left (by have := hl a (by simp); omega), ok_bind]
    simp only
    rw [ih (fun x hx => hl x (by simp [hx])) (h.right' (leBytes_length 4 a)), rbAddManyLoop]

theorem rbDeserializeSafe_total {buf : List UInt8} {maxbytes : Nat} (hm : maxbytes ≤ buf.length) :
    rbDeserializeSafe buf maxbytes = .fail ∨ ∃ r, rbDeserializeSafe buf maxbytes = .ok r ∧ Typed r := by
  rw [rbDeserializeSafe]
  by_cases h1 : maxbytes < 1
  · rw [if_pos h1]; exact .inl rfl
  rw [if_neg h1]
  obtain ⟨b, hb, _⟩ := readLE_ok (buf := buf) (off := 0) (k := 1) (by omega)
  rw [hb, ok_bind]
  by_cases h2 : b = SER_ARRAY
  · rw [if_pos h2]
    by_cases h3 : maxbytes < 1 + 4
    · rw [if_pos h3]; exact .inl rfl
    rw [if_neg h3]
    obtain ⟨card, hc, _⟩ := readLE_ok (buf := buf) (off := 1) (k := 4) (by omega)
    rw [hc, ok_bind]
    by_cases h4 : maxbytes < 1 + 4 + card * 4
    · rw [if_pos h4]; exact .inl rfl
    rw [if_neg h4]
    obtain ⟨l, h5, h6, h7⟩ := deserAddLoop_ok (buf := buf) card (off := 5) (r := rbCreate) (ctx := none) (by omega)
    rw [h7]
    exact .inr ⟨_, rfl, (rbAddManyLoop_spec l (r := rbCreate) trivial (CtxOK.none _) h6).1.valid.1⟩
  · rw [if_neg h2]
    by_cases h3 : b = SER_CONTAINER
    · rw [if_pos h3, rbPortableDeserializeSafe]
      rcases raPortableDeserialize_total (buf := buf) (base := 1) (maxbytes := maxbytes - 1) (by omega) with
        ⟨e, _⟩ | ⟨r, n, e, _, _, _, ht⟩
      · rw [e]; exact .inl rfl
      · rw [e]; exact .inr ⟨r, rfl, ht⟩
    · rw [if_neg h3]; exact .inl rfl

end CRoaring
