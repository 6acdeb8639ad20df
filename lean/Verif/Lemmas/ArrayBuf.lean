import Verif.Lemmas.ArrayMem
import Verif.Lemmas.Array
set_option linter.unusedSimpArgs false
set_option linter.unusedVariables false
/-
The array containers' operations on buffers, with and without AVX2.
-/
namespace CRoaring
open Spec

/-- A buffer with a strictly increasing list of at most 4096 16-bit values. -/
structure BufOK (b : ArrBuf) : Prop where
  small : b.card ≤ 4096
  fits : b.card ≤ b.mem.length
  sorted : SSorted b.vals
  range : ∀ x ∈ b.vals, x < 65536

theorem BufOK.vlen {b : ArrBuf} (h : BufOK b) : b.vals.length = b.card := by
  rw [ArrBuf.vals, List.length_take, Nat.min_eq_left h.fits]

theorem win_refl (L : List Nat) (k : Nat) : Win L L k := fun _ _ _ => rfl

theorem win_take (m : List Nat) (k : Nat) : Win (m.take k) (m.take k) 0 := win_refl _ _

/-- `malloc(n)` gives memory for `n` values. -/
def Mallocs (fresh : Nat → List Nat) : Prop := ∀ n, (fresh n).length = n

theorem arrayReserve_len {fresh : Nat → List Nat} (hf : Mallocs fresh) (out : ArrBuf) (n m : Nat) (h : n ≤ m) (hm : m ≤ 65536) :
    n ≤ (arrayReserve fresh out n m).mem.length ∧ (out.mem.length < n → m ≤ (arrayReserve fresh out n m).mem.length) := by
  rw [arrayReserve]
  by_cases c : out.mem.length < n
  · rw [if_pos c, arrayGrow]
    have hk : m ≤ clampNat (growCapacity out.mem.length) m (if m ≤ DEFAULT_MAX_SIZE then DEFAULT_MAX_SIZE else 65536) := by
      rw [clampNat]
      by_cases c1 : m ≤ DEFAULT_MAX_SIZE
      · rw [if_pos c1]
        split
        · omega
        · split <;> omega
      · rw [if_neg c1]
        split
        · omega
        · split <;> omega
    simp only
    rw [hf]
    omega
  · rw [if_neg c]
    exact ⟨by omega, fun h => absurd h c⟩

theorem setCard_ok {r : Out (List Nat × Nat)} {m U : List Nat} {n : Nat} (h : r = .ok (m, U.length)) (hl : m.length = n)
    (ht : m.take U.length = U) : ∃ b, setCard r = .ok b ∧ b.vals = U ∧ b.card = U.length ∧ b.mem.length = n ∧ b.card ≤ b.mem.length := by
  refine ⟨⟨U.length, m⟩, by rw [setCard, h, ok_bind], ht, rfl, hl, ?_⟩
  have := congrArg List.length ht
  rw [List.length_take] at this
  simp only
  omega

variable {fresh : Nat → List Nat} {a b out : ArrBuf}

theorem fastUnionHw_spec (avx2 : Bool) {gA gB : List Nat → List Nat} {A B mem : List Nat} (hA : SSorted A) (hB : SSorted B)
    (rA : ∀ x ∈ A, x < 65536) (rB : ∀ x ∈ B, x < 65536) (vA : View gA B.length) (vB : View gB A.length) (eA : gA mem = A) (eB : gB mem = B)
    (hcap : A.length + B.length ≤ mem.length) :
    ∃ mem', fastUnionHw avx2 gA gB A.length B.length mem = .ok (mem', (unionU16 A B).length) ∧ mem'.length = mem.length ∧
      mem'.take (unionU16 A B).length = unionU16 A B := by
  rw [fastUnionHw]
  cases avx2 with
  | true => rw [if_pos rfl]; exact fastUnionVector16_spec hA hB rA rB vA vB eA eB hcap
  | false => rw [if_neg (by simp)]; exact fastUnionMem_spec hA hB vA vB eA eB hcap

theorem fastUnionU16_eq {A B : List Nat} (hA : SSorted A) (hB : SSorted B) : fastUnionU16 A B = unionU16 A B := by
  rw [fastUnionU16]
  split
  · rfl
  · exact unionU16_comm hB hA

theorem arrayUnionBuf_spec (avx2 : Bool) (hf : Mallocs fresh) (ha : BufOK a) (hb : BufOK b) (out : ArrBuf) :
    ∃ r, arrayUnionBuf avx2 fresh a b out = .ok r ∧ r.vals = arrayUnion a.vals b.vals ∧ r.card ≤ r.mem.length := by
  obtain ⟨hl, _⟩ := arrayReserve_len hf out (a.card + b.card) (a.card + b.card) (Nat.le_refl _) (by have := ha.small; have := hb.small; omega)
  rw [arrayUnion, fastUnionU16_eq ha.sorted hb.sorted, arrayUnionBuf]
  generalize (arrayReserve fresh out (a.card + b.card) (a.card + b.card)).mem = mem at hl
  have := fastUnionHw_spec avx2 (mem := mem) ha.sorted hb.sorted ha.range hb.range (view_const a.vals _) (view_const b.vals _) rfl rfl
    (by rw [ha.vlen, hb.vlen]; exact hl)
  rw [ha.vlen, hb.vlen] at this
  obtain ⟨m, e1, e2, e3⟩ := this
  obtain ⟨r, h1, h2, _, _, h5⟩ := setCard_ok e1 e2 e3
  exact ⟨r, h1, h2, h5⟩

theorem arrayAndnotBuf_spec (avx2 : Bool) (hf : Mallocs fresh) (ha : BufOK a) (hb : BufOK b) (out : ArrBuf) :
    ∃ r, arrayAndnotBuf avx2 fresh a b out = .ok r ∧ r.vals = arrayAndnot a.vals b.vals ∧ r.card ≤ r.mem.length := by
  obtain ⟨hl, _⟩ := arrayReserve_len hf out a.card a.card (Nat.le_refl _) (by have := ha.small; omega)
  rw [arrayAndnot, arrayAndnotBuf]
  generalize (arrayReserve fresh out a.card a.card).mem = mem at hl
  have hl' : a.vals.length ≤ mem.length := by rw [ha.vlen]; exact hl
  cases avx2 with
  | true =>
    rw [if_pos rfl]
    obtain ⟨m, e1, e2, e3⟩ := differenceVector16_spec (C := mem) ha.sorted hb.sorted hl'
    obtain ⟨r, h1, h2, _, _, h5⟩ := setCard_ok e1 e2 e3
    exact ⟨r, h1, h2, h5⟩
  | false =>
    rw [if_neg (by simp)]
    have := differenceMem_spec (gA := fun _ => a.vals) (A := a.vals) (B := b.vals) (mem := mem) false (view_const _ _) (win_refl _ _) (by simp) hl'
    rw [ha.vlen] at this
    obtain ⟨m, e1, e2, e3⟩ := this
    obtain ⟨r, h1, h2, _, _, h5⟩ := setCard_ok e1 e2 e3
    exact ⟨r, h1, h2, h5⟩

theorem view_take (k : Nat) : View (fun m => m.take k) 0 := view_window 0 k

theorem arrayAndnotInplaceBuf_spec (ha : BufOK a) (hb : BufOK b) :
    ∃ r, arrayAndnotInplaceBuf a b = .ok r ∧ r.vals = arrayAndnot a.vals b.vals ∧ r.card ≤ r.mem.length ∧ r.mem.length = a.mem.length := by
  rw [arrayAndnot, arrayAndnotInplaceBuf]
  have := differenceMem_spec (gA := fun m => m.take a.card) (A := a.vals) (B := b.vals) (mem := a.mem) true (view_take _) (win_take _ _)
    (by intro _; rw [ha.vlen]; rfl) (by rw [ha.vlen]; exact ha.fits)
  rw [ha.vlen] at this
  obtain ⟨m, e1, e2, e3⟩ := this
  obtain ⟨r, h1, h2, _, h4, h5⟩ := setCard_ok e1 e2 e3
  exact ⟨r, h1, h2, h5, h4⟩

theorem arrayXorBuf_spec (avx2 : Bool) (hf : Mallocs fresh) (ha : BufOK a) (hb : BufOK b) (out : ArrBuf) :
    ∃ r, arrayXorBuf avx2 fresh a b out = .ok r ∧ r.vals = arrayXor a.vals b.vals ∧ r.card ≤ r.mem.length := by
  obtain ⟨hl, _⟩ := arrayReserve_len hf out (a.card + b.card) (a.card + b.card) (Nat.le_refl _) (by have := ha.small; have := hb.small; omega)
  rw [arrayXor, arrayXorBuf]
  generalize (arrayReserve fresh out (a.card + b.card) (a.card + b.card)).mem = mem at hl
  have hl' : a.vals.length + b.vals.length ≤ mem.length := by rw [ha.vlen, hb.vlen]; exact hl
  cases avx2 with
  | true =>
    rw [if_pos rfl]
    obtain ⟨m, e1, e2, e3⟩ := xorVector16_spec (mem := mem) ha.sorted hb.sorted ha.range hl'
    obtain ⟨r, h1, h2, _, _, h5⟩ := setCard_ok e1 e2 e3
    exact ⟨r, h1, h2, h5⟩
  | false =>
    rw [if_neg (by simp)]
    have hx := xorU16_length a.vals b.vals
    obtain ⟨m', t1, t2, t3, _⟩ := storeu_take (C := mem) (n := 0) (F := xorU16 a.vals b.vals) (Z := []) (by simp; omega)
    rw [List.append_nil] at t1
    refine ⟨⟨_, m'⟩, by rw [t1, ok_bind], ?_, ?_⟩
    · rw [ArrBuf.vals]
      simpa using t3
    · simp only; omega

theorem intersectVector16_nil (C : List Nat) : intersectVector16 [] [] C = .ok (C, 0) := by
  rfl

theorem arrayIntersectionBuf_spec (avx2 : Bool) (hf : Mallocs fresh) (ha : BufOK a) (hb : BufOK b)
    (hout : out.mem.length = 0 ∨ Nat.min a.card b.card + 8 ≤ out.mem.length ∨ out.mem.length < Nat.min a.card b.card) :
    ∃ r, arrayIntersectionBuf avx2 fresh a b out = .ok r ∧ r.vals = arrayIntersection a.vals b.vals ∧ r.card ≤ r.mem.length := by
  obtain ⟨hl, hg⟩ := arrayReserve_len hf out (Nat.min a.card b.card) (Nat.min a.card b.card + 8) (by omega)
    (by have := ha.small; have : Nat.min a.card b.card ≤ a.card := Nat.min_le_left _ _; omega)
  have hm : (arrayReserve fresh out (Nat.min a.card b.card) (Nat.min a.card b.card + 8)).mem.length = 0 ∧ Nat.min a.card b.card = 0 ∨
      Nat.min a.card b.card + 8 ≤ (arrayReserve fresh out (Nat.min a.card b.card) (Nat.min a.card b.card + 8)).mem.length := by
    by_cases c : out.mem.length < Nat.min a.card b.card
    · exact Or.inr (hg c)
    · have e : arrayReserve fresh out (Nat.min a.card b.card) (Nat.min a.card b.card + 8) = out := by rw [arrayReserve, if_neg c]
      rw [e]
      omega
  rw [arrayIntersectionBuf, arrayIntersection]
  generalize (arrayReserve fresh out (Nat.min a.card b.card) (Nat.min a.card b.card + 8)).mem = mem at hl hm
  have hmin : Nat.min a.card b.card ≤ a.card ∧ Nat.min a.card b.card ≤ b.card ∧
    (a.card ≤ b.card → Nat.min a.card b.card = a.card) ∧ (b.card ≤ a.card → Nat.min a.card b.card = b.card) :=
    ⟨Nat.min_le_left _ _, Nat.min_le_right _ _, Nat.min_eq_left, Nat.min_eq_right⟩
  rw [ha.vlen, hb.vlen]
  by_cases c1 : a.card * 64 < b.card
  · rw [if_pos c1, if_pos c1]
    have := skewMem_spec (gS := fun _ => a.vals) (gL := fun _ => b.vals) (mem := mem) ha.sorted hb.sorted (view_const _ _) (keeps_const _)
      (win_refl _ _) (win_refl _ _) (by rw [ha.vlen]; omega)
    rw [ha.vlen, hb.vlen] at this
    obtain ⟨m, e1, e2, e3⟩ := this
    obtain ⟨r, h1, h2, _, _, h5⟩ := setCard_ok e1 e2 e3
    exact ⟨r, h1, h2, h5⟩
  · rw [if_neg c1, if_neg c1]
    by_cases c2 : b.card * 64 < a.card
    · rw [if_pos c2, if_pos c2]
      have := skewMem_spec (gS := fun _ => b.vals) (gL := fun _ => a.vals) (mem := mem) hb.sorted ha.sorted (view_const _ _) (keeps_const _)
        (win_refl _ _) (win_refl _ _) (by rw [hb.vlen]; omega)
      rw [ha.vlen, hb.vlen] at this
      obtain ⟨m, e1, e2, e3⟩ := this
      obtain ⟨r, h1, h2, _, _, h5⟩ := setCard_ok e1 e2 e3
      exact ⟨r, h1, h2, h5⟩
    · rw [if_neg c2, if_neg c2]
      cases avx2 with
      | true =>
        rw [if_pos rfl]
        rcases hm with ⟨hm, hz⟩ | hm
        · have hz1 : a.card = 0 := by omega
          have hz2 : b.card = 0 := by omega
          have ea : a.vals = [] := List.length_eq_zero_iff.1 (by rw [ha.vlen, hz1])
          have eb : b.vals = [] := List.length_eq_zero_iff.1 (by rw [hb.vlen, hz2])
          rw [ea, eb, intersectVector16_nil]
          exact ⟨⟨0, mem⟩, rfl, by simp [ArrBuf.vals, intersectU16], by simp⟩
        · have := intersectVector16_spec (C := mem) ha.sorted hb.sorted (by rw [ha.vlen, hb.vlen]; exact hm)
          obtain ⟨m, e1, e2, e3⟩ := this
          obtain ⟨r, h1, h2, _, _, h5⟩ := setCard_ok e1 e2 e3
          exact ⟨r, h1, h2, h5⟩
      | false =>
        rw [if_neg (by simp)]
        have := intersectMem_spec (gA := fun _ => a.vals) (gB := fun _ => b.vals) (A := a.vals) (B := b.vals) (mem := mem) (view_const _ _)
          (view_const _ _) (win_refl _ _) (win_refl _ _) (by rw [ha.vlen, hb.vlen]; omega)
        rw [ha.vlen, hb.vlen] at this
        obtain ⟨m, e1, e2, e3⟩ := this
        obtain ⟨r, h1, h2, _, _, h5⟩ := setCard_ok e1 e2 e3
        exact ⟨r, h1, h2, h5⟩

theorem arrayIntersectionCardBuf_spec (avx2 : Bool) (ha : BufOK a) (hb : BufOK b) :
    arrayIntersectionCardBuf avx2 a b = .ok (arrayIntersectionCard a.vals b.vals) := by
  rw [arrayIntersectionCardBuf, arrayIntersectionCard, ha.vlen, hb.vlen]
  by_cases c1 : a.card * 64 < b.card
  · rw [if_pos c1, if_pos c1]
  · rw [if_neg c1, if_neg c1]
    by_cases c2 : b.card * 64 < a.card
    · rw [if_pos c2, if_pos c2]
    · rw [if_neg c2, if_neg c2]
      cases avx2 with
      | true => rw [if_pos rfl, intersectVector16Card_spec ha.sorted hb.sorted, intersectU16Card_eq]
      | false => rw [if_neg (by simp)]

theorem arrayIntersectionInplaceBuf_spec (avx2 : Bool) (ha : BufOK a) (hb : BufOK b) :
    ∃ r, arrayIntersectionInplaceBuf avx2 a b = .ok r ∧ r.vals = arrayIntersection a.vals b.vals ∧ r.card ≤ r.mem.length ∧
      r.mem.length = a.mem.length := by
  rw [arrayIntersectionInplaceBuf, arrayIntersection, ha.vlen, hb.vlen]
  have hfa := ha.fits
  by_cases c1 : a.card * 64 < b.card
  · rw [if_pos c1, if_pos c1]
    have := skewMem_spec (gS := fun m => m.take a.card) (gL := fun _ => b.vals) (S := a.vals) (mem := a.mem) ha.sorted hb.sorted (view_take _)
      (keeps_const _) (win_take _ _) (win_refl _ _) (by rw [ha.vlen]; omega)
    rw [ha.vlen, hb.vlen] at this
    obtain ⟨m, e1, e2, e3⟩ := this
    obtain ⟨r, h1, h2, _, h4, h5⟩ := setCard_ok e1 e2 e3
    exact ⟨r, h1, h2, h5, h4⟩
  · rw [if_neg c1, if_neg c1]
    by_cases c2 : b.card * 64 < a.card
    · rw [if_pos c2, if_pos c2]
      have := skewMem_spec (gS := fun _ => b.vals) (gL := fun m => m.take a.vals.length) (L := a.vals) (mem := a.mem) hb.sorted ha.sorted
        (view_const _ _) (keeps_take _) (win_refl _ _) (by rw [ha.vlen]; exact win_take _ _) (by rw [hb.vlen]; omega)
      rw [ha.vlen, hb.vlen] at this
      obtain ⟨m, e1, e2, e3⟩ := this
      obtain ⟨r, h1, h2, _, h4, h5⟩ := setCard_ok e1 e2 e3
      exact ⟨r, h1, h2, h5, h4⟩
    · rw [if_neg c2, if_neg c2]
      cases avx2 with
      | true =>
        rw [if_pos rfl]
        obtain ⟨m, e1, e2, e3⟩ := intersectVector16Inplace_spec ha.sorted hb.sorted
        have hle : (intersectU16 a.vals b.vals).length ≤ m.length := by
          have := congrArg List.length e3
          rw [List.length_take] at this
          omega
        refine ⟨⟨_, m ++ a.mem.drop a.card⟩, by rw [setPrefix, e1, ok_bind], ?_, ?_, ?_⟩
        · rw [ArrBuf.vals]
          simp only
          rw [List.take_append_of_le_length hle, e3]
        · simp only [List.length_append]; omega
        · simp only [List.length_append, List.length_drop, e2, ha.vlen]; omega
      | false =>
        rw [if_neg (by simp)]
        have := intersectMem_spec (gA := fun m => m.take a.card) (gB := fun _ => b.vals) (A := a.vals) (B := b.vals) (mem := a.mem) (view_take _)
          (view_const _ _) (win_take _ _) (win_refl _ _) (by rw [ha.vlen]; omega)
        rw [ha.vlen, hb.vlen] at this
        obtain ⟨m, e1, e2, e3⟩ := this
        obtain ⟨r, h1, h2, _, h4, h5⟩ := setCard_ok e1 e2 e3
        exact ⟨r, h1, h2, h5, h4⟩

/-- After the first array has been moved to the right. -/
theorem moved_spec (ha : BufOK a) {n : Nat} (h : a.card + n ≤ a.mem.length) :
    ∃ m, readN a.mem 0 a.card = .ok a.vals ∧ storeu a.mem n a.vals = .ok m ∧ m.length = a.mem.length ∧ (m.drop n).take a.card = a.vals := by
  have hl := ha.vlen
  obtain ⟨m, s1, s2, s3, _⟩ := storeu_take (C := a.mem) (n := n) (F := a.vals) (Z := []) (by simp; omega)
  rw [List.append_nil] at s1
  refine ⟨m, by rw [readN, if_pos (by have := ha.fits; omega), List.drop_zero]; rfl, s1, s2, ?_⟩
  rw [hl] at s3
  have : (m.take (n + a.card)).drop n = a.vals := by
    rw [s3, List.drop_append_of_le_length (by simp; omega), List.drop_of_length_le (by simp; omega), List.nil_append]
  rw [← this, List.drop_take]
  congr 1
  omega

theorem arrayUnionInplaceBuf_spec (ha : BufOK a) (hb : BufOK b) (h : a.card + b.card ≤ a.mem.length) :
    ∃ r, arrayUnionInplaceBuf a b = .ok r ∧ r.vals = arrayUnion a.vals b.vals ∧ r.card ≤ r.mem.length ∧ r.mem.length = a.mem.length := by
  obtain ⟨m, e1, e2, e3, e4⟩ := moved_spec ha h
  rw [arrayUnion, fastUnionU16_eq ha.sorted hb.sorted, arrayUnionInplaceBuf, e1, ok_bind, e2, ok_bind]
  have := unionMem_spec (g1 := fun m => (m.drop b.card).take a.card) (g2 := fun _ => b.vals) (S1 := a.vals) (S2 := b.vals) (mem := m) (base := 0)
    (o2 := a.card) (view_window b.card a.card) (view_const _ _) (by rw [hb.vlen]; omega) (by rw [ha.vlen]; omega)
    (by rw [ha.vlen, hb.vlen]; omega) (by rw [e4]; exact win_refl _ _) (win_refl _ _)
  rw [ha.vlen, hb.vlen] at this
  obtain ⟨m', f1, f2, f3⟩ := this
  obtain ⟨r, h1, h2, _, h4, h5⟩ := setCard_ok f1 f2 (by simpa using f3)
  exact ⟨r, h1, h2, h5, by omega⟩

theorem arrayLazyUnionInplaceBuf_spec (avx2 : Bool) (ha : BufOK a) (hb : BufOK b) (h : a.card + b.card ≤ a.mem.length) :
    ∃ r, arrayLazyUnionInplaceBuf avx2 a b = .ok r ∧ r.vals = arrayUnion a.vals b.vals ∧ r.card ≤ r.mem.length ∧
      r.mem.length = a.mem.length := by
  obtain ⟨m, e1, e2, e3, e4⟩ := moved_spec ha h
  rw [arrayUnion, fastUnionU16_eq ha.sorted hb.sorted, arrayLazyUnionInplaceBuf, e1, ok_bind, e2, ok_bind]
  have := fastUnionHw_spec avx2 (gA := fun m => (m.drop b.card).take a.card) (gB := fun _ => b.vals) (mem := m) ha.sorted hb.sorted ha.range
    hb.range (by rw [hb.vlen]; exact view_window _ _) (view_const _ _) e4 rfl (by rw [ha.vlen, hb.vlen]; omega)
  rw [ha.vlen, hb.vlen] at this
  obtain ⟨m', f1, f2, f3⟩ := this
  obtain ⟨r, h1, h2, _, h4, h5⟩ := setCard_ok f1 f2 f3
  exact ⟨r, h1, h2, h5, by omega⟩

end CRoaring
