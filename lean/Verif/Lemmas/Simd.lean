import Verif.Model.Simd
import Verif.Lemmas.ArrayUtil
set_option linter.unusedSimpArgs false
set_option linter.unusedVariables false
/-
Instructions of the vector code.
-/
namespace CRoaring
open Spec

/-- What row `r` of a shuffle table should be: the bytes of the lanes whose bit is set. -/
def keepRow (r : Nat) : List Nat :=
  let l := ((List.range 8).filter (fun i => r.testBit i)).flatMap (fun i => [2 * i, 2 * i + 1])
  l ++ List.replicate (16 - l.length) 255

set_option maxRecDepth 10000 in
theorem shuffleMask16_row : ∀ r < 256, shuffleMask16.getD r [] = keepRow r := by decide +kernel

set_option maxRecDepth 10000 in
theorem uniqShuf_row : ∀ r < 256, uniqShuf.getD r [] = keepRow (255 - r) := by decide +kernel

theorem testBit_bitMask (l : List Bool) (i : Nat) : (bitMask l).testBit i = l.getD i false := by
  induction l generalizing i with
  | nil => simp [bitMask]
  | cons b t ih =>
    cases i with
    | zero =>
      cases b <;> simp [bitMask, Nat.testBit_zero]
    | succ i =>
      rw [bitMask, Nat.testBit_succ]
      have : (b.toNat + 2 * bitMask t) / 2 = bitMask t := by cases b <;> simp; omega
      rw [this, ih]; simp

theorem bitMask_lt (l : List Bool) : bitMask l < 2 ^ l.length := by
  induction l with
  | nil => simp [bitMask]
  | cons b t ih =>
    rw [bitMask, List.length_cons, Nat.pow_succ]
    cases b <;> simp <;> omega

theorem range_filter_map {v : List Nat} (p : Nat → Bool) (d : Nat) :
    ((List.range v.length).filter (fun i => (v.map p).getD i false)).map (fun i => v.getD i d) = v.filter p := by
  induction v with
  | nil => simp
  | cons a t ih =>
    rw [List.length_cons, List.range_succ_eq_map, List.filter_cons]
    simp only [List.map_cons, List.getD_cons_zero, List.filter_map, Function.comp_def, List.getD_cons_succ]
    by_cases h : p a
    · simp only [h, if_true, List.map_cons, List.getD_cons_zero, List.map_map, Function.comp_def, List.getD_cons_succ,
        List.filter_cons]
      rw [ih]
    · rw [if_neg h, List.map_map, List.filter_cons, if_neg h, ← ih]
      rfl

theorem bytesOf_getD (v : V8) (i : Nat) :
    (bytesOf v).getD (2 * i) 0 = v.getD i 0 % 256 ∧ (bytesOf v).getD (2 * i + 1) 0 = v.getD i 0 / 256 := by
  induction v generalizing i with
  | nil => simp [bytesOf]
  | cons a t ih =>
    cases i with
    | zero => simp [bytesOf]
    | succ i =>
      have := ih i
      simp only [bytesOf, List.flatMap_cons, List.cons_append, List.nil_append] at this ⊢
      rw [show 2 * (i + 1) = 2 * i + 1 + 1 by omega]
      simpa using this

/-- The shuffle with a row of `keepRow` form. -/
theorem shuffle_keep (v : V8) (idx : List Nat) (h : ∀ i ∈ idx, i < 8) (k : Nat) :
    shuffleEpi8 v (idx.flatMap (fun i => [2 * i, 2 * i + 1]) ++ List.replicate (2 * k) 255)
      = idx.map (fun i => v.getD i 0) ++ List.replicate k 0 := by
  induction idx with
  | nil =>
    simp only [List.flatMap_nil, List.nil_append, List.map_nil]
    induction k with
    | zero => simp [shuffleEpi8, ofBytes]
    | succ k ih =>
      rw [show 2 * (k + 1) = 2 * k + 1 + 1 by omega, List.replicate_succ, List.replicate_succ]
      rw [shuffleEpi8, List.map_cons, List.map_cons, ofBytes]
      rw [shuffleEpi8] at ih
      rw [ih]
      simp [List.replicate_succ]
  | cons i t ih =>
    have hi := h i (by simp)
    have ih := ih (fun j hj => h j (by simp [hj]))
    rw [List.flatMap_cons, List.append_assoc, List.cons_append, List.cons_append, List.nil_append, shuffleEpi8, List.map_cons,
      List.map_cons, ofBytes]
    rw [shuffleEpi8] at ih
    rw [ih, if_neg (by omega), if_neg (by omega), Nat.mod_eq_of_lt (by omega : 2 * i < 16),
      Nat.mod_eq_of_lt (by omega : 2 * i + 1 < 16), (bytesOf_getD v i).1, (bytesOf_getD v i).2]
    simp only [List.map_cons, List.cons_append]
    congr 1
    omega

theorem shuffle_keepRow (v : V8) (r : Nat) :
    shuffleEpi8 v (keepRow r) = ((List.range 8).filter (fun i => r.testBit i)).map (fun i => v.getD i 0) ++
      List.replicate (8 - ((List.range 8).filter (fun i => r.testBit i)).length) 0 := by
  rw [keepRow]
  have e : (((List.range 8).filter (fun i => r.testBit i)).flatMap (fun i => [2 * i, 2 * i + 1])).length
      = 2 * ((List.range 8).filter (fun i => r.testBit i)).length := by
    generalize (List.range 8).filter (fun i => r.testBit i) = l
    induction l with
    | nil => simp
    | cons a t ih => simp only [List.flatMap_cons, List.length_append, ih, List.length_cons, List.length_nil]; omega
  simp only [e]
  rw [show 16 - 2 * ((List.range 8).filter (fun i => r.testBit i)).length
    = 2 * (8 - ((List.range 8).filter (fun i => r.testBit i)).length) by omega]
  exact shuffle_keep v _ (fun i hi => by simpa using (List.mem_filter.1 hi).1) _

theorem compress_mask {v : V8} (hv : v.length = 8) (p : Nat → Bool) :
    compress v (bitMask (v.map p)) = v.filter p ++ List.replicate (8 - (v.filter p).length) 0 := by
  have hlt : bitMask (v.map p) < 256 := by
    have := bitMask_lt (v.map p); rw [List.length_map, hv] at this; exact this
  rw [compress, shuffleMask16_row _ hlt, shuffle_keepRow]
  have e := range_filter_map (v := v) p 0
  rw [hv] at e
  simp only [testBit_bitMask]
  rw [e, ← e, List.length_map]

theorem popcnt32_mask {v : V8} (hv : v.length ≤ 32) (p : Nat → Bool) : popcnt32 (bitMask (v.map p)) = (v.filter p).length := by
  rw [popcnt32, ← range_filter_map (v := v) p 0, List.length_map]
  simp only [testBit_bitMask]
  have : List.range 32 = List.range v.length ++ (List.range (32 - v.length)).map (v.length + ·) := by
    rw [← List.range_add]; congr 1; omega
  rw [this, List.filter_append, List.length_append]
  suffices h : ((List.range (32 - v.length)).map (v.length + ·)).filter (fun i => (v.map p).getD i false) = [] by simp [h]
  rw [List.filter_eq_nil_iff]
  intro i hi
  simp only [List.mem_map] at hi
  obtain ⟨j, _, rfl⟩ := hi
  simp [List.getD_eq_getElem?_getD]

theorem cmpestrm_eq {a b : V8} (ha : a.length = 8) (hb : b.length = 8) :
    cmpestrm a 8 b 8 = bitMask (b.map (fun x => a.contains x)) := by
  rw [cmpestrm, List.take_of_length_le (by omega), List.take_of_length_le (by omega)]

theorem takeWhile_nz {a : List Nat} (h : ∀ x ∈ a, x ≠ 0) : a.takeWhile (· != 0) = a := by
  
  induction a with
  | nil => rfl
  | cons x t ih =>
    rw [List.takeWhile_cons, if_pos (by simpa using h x (by simp)), ih (fun y hy => h y (by simp [hy]))]

theorem cmpistrm_eq {a b : V8} (ha : ∀ x ∈ a, x ≠ 0) (hb : ∀ x ∈ b, x ≠ 0) :
    cmpistrm a b = bitMask (b.map (fun x => a.contains x)) := by
  rw [cmpistrm, takeWhile_nz ha, takeWhile_nz hb, cmpestrm, List.take_length, List.take_length]

/-- The comparison with a buffer that is filled up with zeros. -/
theorem cmpistrm_pad {a b : V8} {k : Nat} (ha : ∀ x ∈ a, x ≠ 0) (hb : ∀ x ∈ b, x ≠ 0) :
    cmpistrm (a ++ List.replicate k 0) b = bitMask (b.map (fun x => a.contains x)) := by
  have e : (a ++ List.replicate k 0).takeWhile (· != 0) = a := by
    rw [List.takeWhile_append_of_pos (fun x hx => by simpa using ha x hx)]
    cases k <;> simp [List.replicate_succ]
  rw [cmpistrm, e, takeWhile_nz hb, cmpestrm, List.take_length, List.take_left]

theorem read16_eq {a : List Nat} {i : Nat} (h : i < a.length) : read16 a i = .ok (a[i]) := by
  rw [read16, List.getElem?_eq_getElem h]

theorem loadu_eq {a : List Nat} {i : Nat} (h : i + 8 ≤ a.length) : loadu a i = .ok ((a.drop i).take 8) := by
  rw [loadu, if_pos h]

theorem loadu_length {a : List Nat} {i : Nat} (h : i + 8 ≤ a.length) : ((a.drop i).take 8).length = 8 := by
  simp; omega

end CRoaring
