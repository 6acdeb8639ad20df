import Verif.Lemmas.Print
import Verif.Props.C39
/-
C126: what the printing functions print.
-/
namespace CRoaring.Props
open CRoaring

/-- C126: `roaring_bitmap_printf` prints the members in increasing order, with commas between them, in braces. -/
theorem C126_printf {r : Bitmap} (h : Valid r) :
    ∃ l : List Nat, l.Pairwise (· < ·) ∧ (∀ v, v ∈ l ↔ rbContains r v = true) ∧ rbPrintf r = Text.ofNumbers l :=
  ⟨rbToUint32 r, (C22_to_uint32_array h).1, (C22_to_uint32_array h).2.1, rbPrintf_eq h.inv⟩

/-- C126: whoever reads the numbers of the text finds the members, each once and in order. -/
theorem C126_read {r : Bitmap} (h : Valid r) :
    (Text.read (rbPrintf r)).Pairwise (· < ·) ∧ ∀ v, v ∈ Text.read (rbPrintf r) ↔ rbContains r v = true := by
  rw [rbPrintf_eq h.inv, Text.read_ofNumbers]
  exact ⟨(C22_to_uint32_array h).1, (C22_to_uint32_array h).2.1⟩

/-- C126: two bitmaps print the same text exactly when they have the same members, whatever their containers. -/
theorem C126_same_text {a b : Bitmap} (ha : Valid a) (hb : Valid b) : rbPrintf a = rbPrintf b ↔ ∀ v, rbContains a v = rbContains b v := by
  constructor
  · intro e v
    have h1 := (C126_read ha).2 v
    rw [e, (C126_read hb).2 v] at h1
    exact (Bool.eq_iff_iff.2 h1).symm
  · intro e
    rw [rbPrintf_eq ha.inv, rbPrintf_eq hb.inv]
    congr 1
    refine sorted_ext (C22_to_uint32_array ha).1 (C22_to_uint32_array hb).1 fun x => ?_
    rw [(C22_to_uint32_array ha).2.1, (C22_to_uint32_array hb).2.1, e]

theorem key_unique {r : Bitmap} (h : BInv r) {p q : Nat × Container} (hp : p ∈ r) (hq : q ∈ r) (e : p.1 = q.1) : p = q := by
  have hs : r.Pairwise fun a b => a.1 < b.1 := List.pairwise_map.1 (bp_iff.1 h).1
  clear h
  induction r with
  | nil => cases hp
  | cons x t ih =>
    rw [List.pairwise_cons] at hs
    rcases List.mem_cons.1 hp with h1 | h1 <;> rcases List.mem_cons.1 hq with h2 | h2
    · rw [h1, h2]
    · have := hs.1 q h2; subst h1; omega
    · have := hs.1 p h1; subst h2; omega
    · exact ih h1 h2 hs.2

/-- The name of the kind of a container. -/
def kindOf : Container → String
  | .bitset _ => "bitset"
  | .array _ => "array"
  | .run _ => "run"

/-- C126: `roaring_bitmap_printf_describe` prints, for each chunk of 2^16 values with a member, in order, its number, the name of the kind of its container and the
number of members of the chunk. -/
theorem C126_describe {r : Bitmap} (h : Valid r) :
    ∃ (ks : List Nat) (kind : Nat → String), ks.Pairwise (· < ·) ∧ (∀ k, k ∈ ks ↔ ∃ v, v / 65536 = k ∧ rbContains r v = true) ∧
      (∀ p ∈ r, kind p.1 = kindOf p.2) ∧
      rbDescribe r = Text.braces (Text.join ", ".toList (ks.map fun k => Text.number k ++ ": ".toList ++ (kind k).toList ++ " (".toList ++
        Text.number (Spec.card 65536 fun v => rbContains r (k * 65536 + v)) ++ ")".toList)) := by
  have hb := bp_iff.1 h.inv
  have hf : ∀ p ∈ r, r.find? (fun q => q.1 == p.1) = some p := by
    intro p hp
    cases e : r.find? (fun q => q.1 == p.1) with
    | none => exact absurd (List.find?_eq_none.1 e p hp) (by simp)
    | some q =>
      have h1 := List.find?_some e
      simp only [beq_iff_eq] at h1
      rw [key_unique h.inv (List.mem_of_find?_eq_some e) hp h1]
  refine ⟨r.map (·.1), fun k => match r.find? (fun q => q.1 == k) with
    | some p => kindOf p.2
    | none => "", ?_, fun k => ?_, fun p hp => by simp only [hf p hp], ?_⟩
  · exact hb.1
  · constructor
    · intro hk
      obtain ⟨p, hp, rfl⟩ := List.mem_map.1 hk
      obtain ⟨x, hx⟩ := (hb.2.2 p hp).2
      have hlt := chas_lt (hb.2.2 p hp).1 hx
      refine ⟨p.1 * 65536 + x, by omega, ?_⟩
      rw [rbContains_eq h.inv, bhas_mem h.inv hp hlt, hx]
    · rintro ⟨v, rfl, hv⟩
      rw [rbContains_eq h.inv] at hv
      obtain ⟨p, hp, e, -⟩ := bhas_key hv
      exact List.mem_map.2 ⟨p, hp, e⟩
  · rw [rbDescribe_eq, List.map_map]
    congr 2
    refine List.map_congr_left fun p hp => ?_
    simp only [Function.comp, hf p hp]
    have hc : containerCard p.2 = (Spec.card 65536 fun v => rbContains r (p.1 * 65536 + v) : Nat) := by
      rw [containerCard_eq (s := chas p.2) ⟨(hb.2.2 p hp).1, fun _ => rfl⟩]
      exact congrArg Nat.cast <| card_congr fun x hx => by rw [rbContains_eq h.inv, bhas_mem h.inv hp hx]
    rw [hc, Int.toNat_natCast]
    obtain ⟨k, c⟩ := p
    cases c <;> rfl

/-- C126: `bitset_print` prints the bits that are set in increasing order, each followed by a comma and a blank, in braces. -/
theorem C126_bitset_print (b : BSet) :
    ∃ l : List Nat, l.Pairwise (· < ·) ∧ (∀ v, v ∈ l ↔ bsGet b v = true) ∧ bsPrint b = Text.braces (l.flatMap fun i => Text.number i ++ ", ".toList) :=
  ⟨_, enum_sorted _ _, fun v => by rw [mem_enum]; exact ⟨fun h => h.2, fun h => ⟨bsGet_lt h, h⟩⟩, bsPrint_eq b⟩

/-- Three containers of the three kinds, the last with the greatest key. -/
def exPrint : Bitmap := [(0, .array [7, 4000]), (3, .run [(9, 2), (30, 0)]), (65535, .array [65535])]

example : Valid exPrint := by
  refine ⟨?_, by decide⟩
  simp [exPrint, Typed, CTyped]
  rintro a b (⟨rfl, rfl⟩ | ⟨rfl, rfl⟩) <;> decide

example : rbPrintf exPrint = "{7,4000,196617,196618,196619,196638,4294967295}".toList := by decide +kernel
example : rbDescribe exPrint = "{0: array (2), 3: run (4), 65535: array (1)}".toList := by decide +kernel
example : Text.read "{7,4000,196617,196618,196619,196638,4294967295}".toList = [7, 4000, 196617, 196618, 196619, 196638, 4294967295] := by decide +kernel
example : bsPrint ⟨[0x8000000000000005#64, 0#64, 2#64], 3⟩ = "{0, 2, 63, 129, }".toList := by decide +kernel
example : bitsetPrintfLoop [5#64, 0#64, 2#64] 4294901760 true = "4294901760,4294901762,4294901889".toList := by decide +kernel

end CRoaring.Props
