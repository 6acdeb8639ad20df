import Verif.Model.Print
import Verif.Lemmas.Container3
import Verif.Lemmas.BitsetT2
import Verif.Lemmas.MapIter
/-
Lemmas about the printing functions.
-/
set_option linter.unusedSimpArgs false
set_option linter.unusedVariables false
namespace CRoaring
open Spec

namespace Text

theorem digits_spec : ∀ (k n : Nat) (t : List Char), n < k → ∃ D, digits k n t = D ++ t ∧ D ≠ [] ∧ (∀ c ∈ D, isDigit c = true) ∧
    D.foldl (fun a c => a * 10 + (c.toNat - 48)) 0 = n
  | 0, n, t, h => by omega
  | k + 1, n, t, h => by
    have hc : ∀ d, d < 10 → (Char.ofNat (48 + d)).toNat = 48 + d := by
      intro d hd
      have : d = 0 ∨ d = 1 ∨ d = 2 ∨ d = 3 ∨ d = 4 ∨ d = 5 ∨ d = 6 ∨ d = 7 ∨ d = 8 ∨ d = 9 := by omega
      rcases this with h | h | h | h | h | h | h | h | h | h <;> subst h <;> rfl
    have hd : ∀ d, d < 10 → isDigit (Char.ofNat (48 + d)) = true := by
      intro d hd
      unfold isDigit
      rw [hc d hd]
      simp; omega
    unfold digits
    by_cases h10 : n < 10
    · rw [if_pos h10]
      refine ⟨[Char.ofNat (48 + n)], rfl, by simp, by simpa using hd n h10, ?_⟩
      simp only [List.foldl_cons, List.foldl_nil, hc n h10]
      omega
    · rw [if_neg h10]
      obtain ⟨D, e1, e2, e3, e4⟩ := digits_spec k (n / 10) (Char.ofNat (48 + n % 10) :: t) (by omega)
      refine ⟨D ++ [Char.ofNat (48 + n % 10)], by rw [e1]; simp, by simp, ?_, ?_⟩
      · intro c hc'
        rcases List.mem_append.1 hc' with h | h
        · exact e3 c h
        · rw [List.mem_singleton.1 h]; exact hd _ (by omega)
      · rw [List.foldl_append, e4]
        simp only [List.foldl_cons, List.foldl_nil, hc (n % 10) (by omega)]
        omega

theorem readLoop_digits : ∀ (D : List Char) (t : List Char) (cur : Option Nat), D ≠ [] → (∀ c ∈ D, isDigit c = true) →
    readLoop (D ++ t) cur = readLoop t (some (D.foldl (fun a c => a * 10 + (c.toNat - 48)) (cur.getD 0)))
  | [], _, _, h, _ => absurd rfl h
  | [c], t, cur, _, h => by
    simp only [List.cons_append, List.nil_append, readLoop]
    rw [if_pos (h c (by simp))]
    rfl
  | c :: d :: D, t, cur, _, h => by
    rw [List.cons_append, readLoop.eq_def]
    simp only [h c (by simp), ite_true]
    rw [readLoop_digits (d :: D) t _ (by simp) (fun x hx => h x (by simp [hx]))]
    rfl

theorem readLoop_number (n : Nat) (c : Char) (hc : isDigit c = false) (t : List Char) : readLoop (number n ++ c :: t) none = n :: readLoop t none := by
  obtain ⟨D, e1, e2, e3, e4⟩ := digits_spec (n + 1) n [] (by omega)
  unfold number
  rw [e1, List.append_nil, readLoop_digits D _ _ e2 e3]
  simp only [Option.getD_none, e4, readLoop]
  rw [if_neg (by simp [hc])]

theorem join_cons {sep a : List Char} {l : List (List Char)} (h : l ≠ []) : join sep (a :: l) = a ++ sep ++ join sep l := by
  cases l with
  | nil => exact absurd rfl h
  | cons b l => rfl

theorem read_join : ∀ (l : List Nat), readLoop (join [','] (l.map number) ++ ['}']) none = l
  | [] => by
    show readLoop ['}'] none = []
    rfl
  | [n] => by
    show readLoop (number n ++ '}' :: []) none = _
    rw [readLoop_number n '}' rfl]; rfl
  | n :: m :: l => by
    have := read_join (m :: l)
    rw [List.map_cons, join_cons (by simp), List.append_assoc, List.append_assoc, List.singleton_append, readLoop_number n ',' rfl, this]

theorem read_ofNumbers (l : List Nat) : read (ofNumbers l) = l := by
  unfold read ofNumbers braces
  rw [List.cons_append, readLoop, if_neg (by decide)]
  exact read_join l

theorem join_append {sep : List Char} : ∀ {a b : List (List Char)}, a ≠ [] → b ≠ [] → join sep (a ++ b) = join sep a ++ sep ++ join sep b
  | [], _, h, _ => absurd rfl h
  | [x], b, _, hb => join_cons hb
  | x :: y :: a, b, _, hb => by
    rw [List.cons_append, join_cons (by simp), join_append (a := y :: a) (by simp) hb, join_cons (l := y :: a) (by simp)]
    simp

/-- Numbers, each with a comma in front, or all but the first. -/
def sepd (first : Bool) (l : List Nat) : List Char := if first then join [','] (l.map number) else l.flatMap fun n => ',' :: number n

theorem sepd_cons (n : Nat) (l : List Nat) (first : Bool) : sepd first (n :: l) = (if first then [] else [',']) ++ number n ++ sepd false l := by
  cases first with
  | false => simp [sepd]
  | true =>
    simp only [sepd, ite_true, List.nil_append, Bool.false_eq_true, ite_false]
    induction l generalizing n with
    | nil => simp [join]
    | cons m l ih =>
      rw [List.map_cons, join_cons (by simp), ih]
      simp

theorem sepd_append (a b : List Nat) (first : Bool) : sepd first (a ++ b) = sepd first a ++ sepd (first && a.isEmpty) b := by
  cases a with
  | nil => cases first <;> simp [sepd, join]
  | cons x a =>
    rw [List.cons_append, sepd_cons, sepd_cons]
    simp [sepd, List.flatMap_append]

end Text

open Text

theorem u32_small {n : Nat} (h : n < 4294967296) : u32 (n : Int) = n := by
  unfold u32; omega

theorem arrayPrintf_eq (l : List Nat) (base : Nat) : arrayPrintf l base = sepd true (arrayToUint32 l base) := by
  cases l with
  | nil => simp [arrayPrintf, arrayToUint32, sepd, join]
  | cons v t =>
    have e : ∀ v : Nat, u32 ((v : Int) + base) = u32 (((base + v : Nat)) : Int) := fun v => by congr 1; omega
    simp only [arrayPrintf, arrayToUint32, List.map_cons, sepd_cons, e]
    simp [sepd, List.flatMap_map]

theorem runPrintf_eq (rs : List Rle) (base : Nat) : runPrintf rs base = sepd true (runToUint32 rs base) := by
  cases rs with
  | nil => simp [runPrintf, runToUint32, sepd, join]
  | cons r t =>
    have e1 : runToUint32 (r :: t) base = ((List.range (r.2 + 1)).map fun (j : Nat) => u32 ((u32 (base + r.1) : Int) + j)) ++ runToUint32 t base := by
      simp [runToUint32]
    rw [e1, List.range_succ_eq_map, List.map_cons, List.cons_append, sepd_cons]
    have e2 : u32 ((u32 ((base : Int) + r.1) : Int) + (0 : Nat)) = u32 ((base : Int) + r.1) := by unfold u32; omega
    simp only [runPrintf, ite_true, List.nil_append, e2]
    rw [List.append_assoc]
    congr 1
    simp only [sepd, Bool.false_eq_true, ite_false, List.flatMap_append, List.flatMap_map, List.map_map, runToUint32, List.flatMap_assoc, Function.comp_def, Nat.succ_eq_add_one]

theorem bitsetPrintfWord_eq (w : Word) (base : Nat) (first : Bool) (hb : base + 64 ≤ 4294967296) :
    bitsetPrintfWord w base first = (sepd first (extractWord w base), first && (extractWord w base).isEmpty) := by
  induction w using extractWord.induct generalizing first with
  | case1 =>
    unfold bitsetPrintfWord extractWord
    cases first <;> simp [sepd, join]
  | case2 w h ih =>
    unfold bitsetPrintfWord extractWord
    rw [dif_neg h, dif_neg h]
    simp only [xor_isolate_eq h, ih]
    have hz : ctz w < 64 := (ctz_spec h).1
    rw [sepd_cons, show ((ctz w : Int) + base) = ((ctz w + base : Nat) : Int) by omega, u32_small (by omega)]
    simp

theorem bitsetPrintfLoop_eq : ∀ (ws : List Word) (base : Nat) (first : Bool), base + 64 * ws.length ≤ 4294967296 →
    bitsetPrintfLoop ws base first = sepd first (extractSetbits ws base)
  | [], base, first, _ => by cases first <;> simp [bitsetPrintfLoop, extractSetbits, sepd, join]
  | w :: ws, base, first, h => by
    simp only [List.length_cons] at h
    rw [bitsetPrintfLoop, extractSetbits, bitsetPrintfWord_eq w base first (by omega), sepd_append]
    congr 1
    cases ws with
    | nil => simp only [bitsetPrintfLoop, extractSetbits]; generalize (first && _) = f; cases f <;> simp [sepd, join]
    | cons w' ws =>
      simp only [List.length_cons] at h
      rw [show ((base : Int) + 64) = ((base + 64 : Nat) : Int) by omega, u32_small (by omega), bitsetPrintfLoop_eq (w' :: ws) _ _ (by simp only [List.length_cons]; omega)]

theorem containerPrintf_eq {c : Container} (h : CInv c) {base : Nat} (hb : base + 65536 ≤ 4294967296) :
    containerPrintf base c = join [','] ((containerToUint32 base c).map number) := by
  cases c with
  | bitset b => exact bitsetPrintfLoop_eq b.words base true (by rw [h.1.1]; omega)
  | array l => exact arrayPrintf_eq l base
  | run rs => exact runPrintf_eq rs base

theorem rbPrintf_eq {r : Bitmap} (h : BInv r) : rbPrintf r = ofNumbers (rbToUint32 r) := by
  unfold rbPrintf ofNumbers braces
  rw [List.singleton_append]
  congr 2
  induction r with
  | nil => rfl
  | cons p t ih =>
    obtain ⟨h1, h2, h3, h4⟩ := h
    have hne : ∀ q ∈ p :: t, containerToUint32 (q.1 <<< 16) q.2 ≠ [] := by
      intro q hq e
      have hq' := (bp_iff.1 (show BInv (p :: t) from ⟨h1, h2, h3, h4⟩)).2.2 q hq
      have hk := (bp_iff.1 (show BInv (p :: t) from ⟨h1, h2, h3, h4⟩)).2.1 q hq
      obtain ⟨x, hx⟩ := hq'.2
      rw [containerToUint32_eq (s := chas q.2) ⟨hq'.1, fun _ => rfl⟩ (by rw [Nat.shiftLeft_eq]; omega)] at e
      have hm := (mem_enum (n := 65536) (s := chas q.2) (x := x)).2 ⟨chas_lt hq'.1 hx, hx⟩
      rw [List.map_eq_nil_iff.1 e] at hm
      cases hm
    have e : rbToUint32 (p :: t) = containerToUint32 (p.1 <<< 16) p.2 ++ rbToUint32 t := by simp [rbToUint32]
    rw [rbPrintfLoop, e, List.map_append, containerPrintf_eq h2.1 (by rw [Nat.shiftLeft_eq]; omega), ih h4]
    cases t with
    | nil => simp [rbToUint32, join]
    | cons q t =>
      rw [join_append (by simpa using hne p (by simp))]
      · simp
      · have := hne q (by simp)
        simp [rbToUint32, this]

theorem rbDescribe_eq (r : Bitmap) : rbDescribe r = braces (join ", ".toList (r.map fun p =>
    number p.1 ++ ": ".toList ++ fullContainerName p.2 ++ " (".toList ++ number (containerCard p.2).toNat ++ ")".toList)) := by
  unfold rbDescribe braces
  rw [List.singleton_append]
  congr 2
  induction r with
  | nil => rfl
  | cons p t ih =>
    rw [rbDescribeLoop, ih]
    cases t with
    | nil => simp [join]
    | cons q t => rw [List.map_cons (a := p), join_cons (by simp)]; simp only [List.length_cons, Nat.zero_lt_succ, ite_true, List.append_assoc]

theorem bitsAbove_next {b : BSet} {i v : Nat} {l : List Nat} (h : bitsAbove b i = v :: l) : bitsAbove b (v + 1) = l := by
  have hs : (bitsAbove b i).Pairwise (· < ·) := enum_sorted _ _
  have hm : ∀ j x, x ∈ bitsAbove b j ↔ x < 64 * b.size ∧ j ≤ x ∧ bsGet b x = true := fun j x => by
    rw [bitsAbove, mem_enum]
    simp only [Bool.and_eq_true, decide_eq_true_eq]
  rw [h, List.pairwise_cons] at hs
  refine sorted_ext (enum_sorted _ _) hs.2 fun x => ?_
  have h1 := hm i x
  rw [h, List.mem_cons] at h1
  have hv := (hm i v).1 (by rw [h]; simp)
  have h2 := hm (v + 1) x
  rw [h2]
  constructor
  · rintro ⟨a1, a2, a3⟩
    rcases h1.2 ⟨a1, by omega, a3⟩ with e | e
    · omega
    · exact e
  · intro hx
    have := hs.1 x hx
    have := h1.1 (.inr hx)
    exact ⟨this.1, by omega, this.2.2⟩

theorem bsPrintLoop_eq (b : BSet) : ∀ (n i : Nat), (bitsAbove b i).length < n → bsPrintLoop b n i = (bitsAbove b i).flatMap fun i => number i ++ ", ".toList
  | 0, _, h => by omega
  | n + 1, i, h => by
    rw [bsPrintLoop, bsNextSetBit_eq]
    cases hl : bitsAbove b i with
    | nil => rfl
    | cons v l =>
      rw [hl] at h
      simp only [List.head?_cons, List.flatMap_cons]
      rw [bsPrintLoop_eq b n (v + 1) (by rw [bitsAbove_next hl]; simp only [List.length_cons] at h; omega), bitsAbove_next hl]

theorem bsPrint_eq (b : BSet) : bsPrint b = braces ((enum (64 * b.size) (bsGet b)).flatMap fun i => number i ++ ", ".toList) := by
  have e : bitsAbove b 0 = enum (64 * b.size) (bsGet b) := by
    unfold bitsAbove
    simp
  have hl : (bitsAbove b 0).length ≤ 64 * b.size := by
    unfold bitsAbove enum
    exact Nat.le_trans (List.length_filter_le _ _) (by simp)
  unfold bsPrint braces
  rw [bsPrintLoop_eq b _ 0 (by omega), e]
  rfl

end CRoaring
