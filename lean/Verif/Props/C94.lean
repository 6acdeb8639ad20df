import Verif.Lemmas.ArrayBuf
/-
C94–C98: the array containers' operations as the x64 build runs them, on buffers, with the vector instructions of AVX2 or without.
-/
namespace CRoaring.Props
open CRoaring

/-- An array container: at most 4096 strictly increasing 16-bit values, in a buffer that has room for them. -/
structure GoodArray (b : ArrBuf) : Prop where
  small : b.card ≤ 4096
  fits : b.card ≤ b.mem.length
  increasing : b.vals.Pairwise (· < ·)
  range : ∀ x ∈ b.vals, x < 65536

theorem GoodArray.ok {b : ArrBuf} (h : GoodArray b) : BufOK b := ⟨h.small, h.fits, h.increasing, h.range⟩

/-- The routine stays inside its buffers and leaves an array container with exactly the values that satisfy `P`. -/
def Computes (r : Out ArrBuf) (P : Nat → Prop) : Prop :=
  ∃ c, r = .ok c ∧ c.card ≤ c.mem.length ∧ c.vals.Pairwise (· < ·) ∧ ∀ x, x ∈ c.vals ↔ P x

variable {fresh : Nat → List Nat} {a b : ArrBuf}

theorem mem_arrayUnion (ha : GoodArray a) (hb : GoodArray b) :
    (arrayUnion a.vals b.vals).Pairwise (· < ·) ∧ ∀ x, x ∈ arrayUnion a.vals b.vals ↔ x ∈ a.vals ∨ x ∈ b.vals := by
  rw [arrayUnion, fastUnionU16_eq ha.increasing hb.increasing]
  exact ⟨unionU16_sorted ha.increasing hb.increasing, mem_unionU16 _ _⟩

theorem mem_arrayAndnot (ha : GoodArray a) (hb : GoodArray b) :
    (arrayAndnot a.vals b.vals).Pairwise (· < ·) ∧ ∀ x, x ∈ arrayAndnot a.vals b.vals ↔ x ∈ a.vals ∧ x ∉ b.vals := by
  rw [arrayAndnot, differenceU16_eq ha.increasing hb.increasing]
  exact ⟨ha.increasing.filter _, fun x => by simp [List.mem_filter]⟩

theorem arr_isect (ha : GoodArray a) (hb : GoodArray b) :
    arrayIntersection a.vals b.vals = a.vals.filter (fun x => decide (x ∈ b.vals)) := by
  unfold arrayIntersection
  split
  · exact intersectSkewed_eq ha.increasing hb.increasing
  · split
    · rw [intersectSkewed_eq hb.increasing ha.increasing, filter_comm_sorted ha.increasing hb.increasing]
    · exact intersectU16_eq ha.increasing hb.increasing

theorem mem_arrayIntersection (ha : GoodArray a) (hb : GoodArray b) :
    (arrayIntersection a.vals b.vals).Pairwise (· < ·) ∧ ∀ x, x ∈ arrayIntersection a.vals b.vals ↔ x ∈ a.vals ∧ x ∈ b.vals := by
  rw [arr_isect ha hb]
  exact ⟨ha.increasing.filter _, fun x => by simp [List.mem_filter]⟩

/-! ### C94: intersection -/

/-- C94: the intersection of two array containers, written to a container that is new (as everywhere in the library) or has eight
places more than it needs, is what it should be, whether the processor has AVX2 or not; no access is out of bounds. -/
theorem C94_intersection (avx2 : Bool) (hf : ∀ n, (fresh n).length = n) (ha : GoodArray a) (hb : GoodArray b) {out : ArrBuf}
    (hout : out.mem.length = 0 ∨ Nat.min a.card b.card + 8 ≤ out.mem.length ∨ out.mem.length < Nat.min a.card b.card) :
    Computes (arrayIntersectionBuf avx2 fresh a b out) (fun x => x ∈ a.vals ∧ x ∈ b.vals) := by
  obtain ⟨r, h1, h2, h3⟩ := arrayIntersectionBuf_spec avx2 hf ha.ok hb.ok hout
  exact ⟨r, h1, h3, h2 ▸ (mem_arrayIntersection ha hb).1, fun x => by rw [h2]; exact (mem_arrayIntersection ha hb).2 x⟩

/-- C94: the number of common values, with AVX2 and without. -/
theorem C94_cardinality (avx2 : Bool) (ha : GoodArray a) (hb : GoodArray b) :
    arrayIntersectionCardBuf avx2 a b = .ok (a.vals.filter (fun x => decide (x ∈ b.vals))).length := by
  rw [arrayIntersectionCardBuf_spec avx2 ha.ok hb.ok]
  congr 1
  unfold arrayIntersectionCard
  split
  · exact intersectSkewedCard_eq ha.increasing hb.increasing (by omega)
  · split
    · rw [intersectSkewedCard_eq hb.increasing ha.increasing (by omega), filter_comm_sorted ha.increasing hb.increasing]
    · rw [intersectU16Card_eq, intersectU16_eq ha.increasing hb.increasing]

/-- C94: the values are those of the portable build (`arrayIntersection`, on which the model of the whole library is built). -/
theorem C94_same_as_portable (avx2 : Bool) (hf : ∀ n, (fresh n).length = n) (ha : GoodArray a) (hb : GoodArray b) :
    ∃ c, arrayIntersectionBuf avx2 fresh a b ⟨0, []⟩ = .ok c ∧ c.vals = arrayIntersection a.vals b.vals := by
  obtain ⟨r, h1, h2, _⟩ := arrayIntersectionBuf_spec (out := ⟨0, []⟩) avx2 hf ha.ok hb.ok (Or.inl rfl)
  exact ⟨r, h1, h2⟩

/-- C94, the limit of the claim: the function reserves the eight extra places only when `out` is too small anyway.  With an `out` whose
capacity is just the number of values, the vector routine writes behind its end.  (No caller in the library passes such an `out`.) -/
theorem C94_room_needed : ∃ a b : ArrBuf, GoodArray a ∧ GoodArray b ∧
    ∃ out : ArrBuf, out.mem.length = Nat.min a.card b.card ∧ ∀ fresh, arrayIntersectionBuf true fresh a b out = .oob := by
  refine ⟨⟨8, [0, 2, 4, 6, 8, 10, 12, 14]⟩, ⟨16, [0, 2, 4, 5, 6, 7, 8, 9, 10, 11, 12, 14, 20, 21, 22, 23]⟩,
    ⟨by decide, by decide, by decide, by decide⟩, ⟨by decide, by decide, by decide, by decide⟩, ⟨0, List.replicate 8 0⟩, by decide, fun fresh => ?_⟩
  have h : intersectVector16 [0, 2, 4, 6, 8, 10, 12, 14] [0, 2, 4, 5, 6, 7, 8, 9, 10, 11, 12, 14, 20, 21, 22, 23] (List.replicate 8 0) = .oob := by
    decide +kernel
  show setCard (intersectVector16 [0, 2, 4, 6, 8, 10, 12, 14] [0, 2, 4, 5, 6, 7, 8, 9, 10, 11, 12, 14, 20, 21, 22, 23] (List.replicate 8 0)) = .oob
  rw [h]
  rfl

/-! ### C95: difference -/

/-- C95: the difference of two array containers into a third, with AVX2 and without. -/
theorem C95_difference (avx2 : Bool) (hf : ∀ n, (fresh n).length = n) (ha : GoodArray a) (hb : GoodArray b) (out : ArrBuf) :
    Computes (arrayAndnotBuf avx2 fresh a b out) (fun x => x ∈ a.vals ∧ x ∉ b.vals) := by
  obtain ⟨r, h1, h2, h3⟩ := arrayAndnotBuf_spec avx2 hf ha.ok hb.ok out
  exact ⟨r, h1, h3, h2 ▸ (mem_arrayAndnot ha hb).1, fun x => by rw [h2]; exact (mem_arrayAndnot ha hb).2 x⟩

/-- C95: the values are those of the portable build. -/
theorem C95_same_as_portable (avx2 : Bool) (hf : ∀ n, (fresh n).length = n) (ha : GoodArray a) (hb : GoodArray b) (out : ArrBuf) :
    ∃ c, arrayAndnotBuf avx2 fresh a b out = .ok c ∧ c.vals = arrayAndnot a.vals b.vals := by
  obtain ⟨r, h1, h2, _⟩ := arrayAndnotBuf_spec avx2 hf ha.ok hb.ok out
  exact ⟨r, h1, h2⟩

/-! ### C96: union -/

/-- C96: the union of two array containers into a third, with AVX2 and without. -/
theorem C96_union (avx2 : Bool) (hf : ∀ n, (fresh n).length = n) (ha : GoodArray a) (hb : GoodArray b) (out : ArrBuf) :
    Computes (arrayUnionBuf avx2 fresh a b out) (fun x => x ∈ a.vals ∨ x ∈ b.vals) := by
  obtain ⟨r, h1, h2, h3⟩ := arrayUnionBuf_spec avx2 hf ha.ok hb.ok out
  exact ⟨r, h1, h3, h2 ▸ (mem_arrayUnion ha hb).1, fun x => by rw [h2]; exact (mem_arrayUnion ha hb).2 x⟩

/-- C96: the values are those of the portable build. -/
theorem C96_same_as_portable (avx2 : Bool) (hf : ∀ n, (fresh n).length = n) (ha : GoodArray a) (hb : GoodArray b) (out : ArrBuf) :
    ∃ c, arrayUnionBuf avx2 fresh a b out = .ok c ∧ c.vals = arrayUnion a.vals b.vals := by
  obtain ⟨r, h1, h2, _⟩ := arrayUnionBuf_spec avx2 hf ha.ok hb.ok out
  exact ⟨r, h1, h2⟩

/-! ### C97: symmetric difference -/

/-- C97: the symmetric difference of two array containers into a third, with AVX2 and without. -/
theorem C97_symmetric_difference (avx2 : Bool) (hf : ∀ n, (fresh n).length = n) (ha : GoodArray a) (hb : GoodArray b) (out : ArrBuf) :
    Computes (arrayXorBuf avx2 fresh a b out) (fun x => ¬ (x ∈ a.vals ↔ x ∈ b.vals)) := by
  obtain ⟨r, h1, h2, h3⟩ := arrayXorBuf_spec avx2 hf ha.ok hb.ok out
  rw [arrayXor] at h2
  exact ⟨r, h1, h3, h2 ▸ xorU16_sorted ha.increasing hb.increasing, fun x => by rw [h2]; exact mem_xorU16 ha.increasing hb.increasing x⟩

/-- C97: the values are those of the portable build. -/
theorem C97_same_as_portable (avx2 : Bool) (hf : ∀ n, (fresh n).length = n) (ha : GoodArray a) (hb : GoodArray b) (out : ArrBuf) :
    ∃ c, arrayXorBuf avx2 fresh a b out = .ok c ∧ c.vals = arrayXor a.vals b.vals := by
  obtain ⟨r, h1, h2, _⟩ := arrayXorBuf_spec avx2 hf ha.ok hb.ok out
  exact ⟨r, h1, h2⟩

/-! ### C98: in place -/

/-- C98: the intersection written over the first operand, whichever of the routines is chosen (the result may overwrite the small or the
large array of a search, or either array of a merge, while it is being read). -/
theorem C98_intersection (avx2 : Bool) (ha : GoodArray a) (hb : GoodArray b) :
    Computes (arrayIntersectionInplaceBuf avx2 a b) (fun x => x ∈ a.vals ∧ x ∈ b.vals) := by
  obtain ⟨r, h1, h2, h3, _⟩ := arrayIntersectionInplaceBuf_spec avx2 ha.ok hb.ok
  exact ⟨r, h1, h3, h2 ▸ (mem_arrayIntersection ha hb).1, fun x => by rw [h2]; exact (mem_arrayIntersection ha hb).2 x⟩

/-- C98: the difference written over the first operand. -/
theorem C98_difference (ha : GoodArray a) (hb : GoodArray b) :
    Computes (arrayAndnotInplaceBuf a b) (fun x => x ∈ a.vals ∧ x ∉ b.vals) := by
  obtain ⟨r, h1, h2, h3, _⟩ := arrayAndnotInplaceBuf_spec ha.ok hb.ok
  exact ⟨r, h1, h3, h2 ▸ (mem_arrayAndnot ha hb).1, fun x => by rw [h2]; exact (mem_arrayAndnot ha hb).2 x⟩

/-- C98: the union in the first operand's own buffer: its values are moved to the right, and the result is written in front of them and
over those that have been read.  This holds of the scalar routine, which the in-place union uses, and of the vector routine, which the
lazy in-place union uses. -/
theorem C98_union (avx2 : Bool) (ha : GoodArray a) (hb : GoodArray b) (hcap : a.card + b.card ≤ a.mem.length) :
    Computes (arrayUnionInplaceBuf a b) (fun x => x ∈ a.vals ∨ x ∈ b.vals) ∧
    Computes (arrayLazyUnionInplaceBuf avx2 a b) (fun x => x ∈ a.vals ∨ x ∈ b.vals) := by
  obtain ⟨r, h1, h2, h3, _⟩ := arrayUnionInplaceBuf_spec ha.ok hb.ok hcap
  obtain ⟨r', h1', h2', h3', _⟩ := arrayLazyUnionInplaceBuf_spec avx2 ha.ok hb.ok hcap
  exact ⟨⟨r, h1, h3, h2 ▸ (mem_arrayUnion ha hb).1, fun x => by rw [h2]; exact (mem_arrayUnion ha hb).2 x⟩,
    ⟨r', h1', h3', h2' ▸ (mem_arrayUnion ha hb).1, fun x => by rw [h2']; exact (mem_arrayUnion ha hb).2 x⟩⟩

/-! ### The hypotheses are met -/

def simdExA : ArrBuf := ⟨10, [0, 2, 4, 6, 8, 10, 12, 14, 300, 65535] ++ List.replicate 20 7⟩
def simdExB : ArrBuf := ⟨17, [0, 2, 4, 5, 6, 7, 8, 9, 10, 11, 12, 14, 20, 21, 22, 300, 65534]⟩

theorem exA_good : GoodArray simdExA := ⟨by decide, by decide, by decide, by decide⟩
theorem exB_good : GoodArray simdExB := ⟨by decide, by decide, by decide, by decide⟩

def mallocZero (n : Nat) : List Nat := List.replicate n 0

example : Computes (arrayIntersectionBuf true mallocZero simdExA simdExB ⟨0, []⟩) (fun x => x ∈ simdExA.vals ∧ x ∈ simdExB.vals) :=
  C94_intersection true (fun n => by simp [mallocZero]) exA_good exB_good (Or.inl rfl)
example : Computes (arrayXorBuf true mallocZero simdExA simdExB ⟨0, []⟩) (fun x => ¬ (x ∈ simdExA.vals ↔ x ∈ simdExB.vals)) :=
  C97_symmetric_difference true (fun n => by simp [mallocZero]) exA_good exB_good _
example : Computes (arrayLazyUnionInplaceBuf true simdExA simdExB) (fun x => x ∈ simdExA.vals ∨ x ∈ simdExB.vals) :=
  (C98_union true exA_good exB_good (by decide)).2
/-- A small array against a large one, in place: the large one is overwritten while it is searched. -/
example : GoodArray ⟨70, List.range 70⟩ ∧ GoodArray ⟨1, [33]⟩ ∧ 1 * 64 < 70 := ⟨⟨by decide, by decide, by decide, by decide⟩, ⟨by decide, by decide, by decide, by decide⟩, by decide⟩
/-- What the vector routines do with these arrays. -/
example : arrayIntersectionCardBuf true simdExA simdExB = .ok 9 := by decide +kernel
example : (match arrayAndnotBuf true mallocZero simdExB simdExA ⟨0, []⟩ with | .ok c => c.vals | _ => []) = [5, 7, 9, 11, 20, 21, 22, 65534] := by
  decide +kernel

end CRoaring.Props
