import Verif.Lemmas.BitmapMemAsk
import Verif.Props.C67
import Verif.Props.C116
/-!
C132: ranks of many values, iteration with a callback and the index of Jaccard stay inside the memory of the bitmaps and of the caller's
array, terminate, and are answered from the values alone, whatever the capacities and the unused parts of the blocks.
-/
namespace CRoaring.Props
open CRoaring.Spec (IsBitmapSet SlotIs Allocates)

section
variable {b : RaBuf} {s : NSet} (h : IsBitmapSet b s)
include h

/-- `roaring_bitmap_rank_many` for increasing queries `xs` and an array `ans` with a place for each.  The queries split into a front `l`
and the rest.  The ranks of those in `l` are written to the front of the array, and nothing else in it changes.  A query is in the front
exactly if the bitmap has a value with the same or greater upper 16 bits; for the rest no rank is written (`C20_false`). -/
theorem C132_rank_many {xs ans : List Nat} (hs : xs.Pairwise (· ≤ ·)) (hx : ∀ x ∈ xs, x < 4294967296) (ha : xs.length ≤ ans.length) :
    ∃ l rest, xs = l ++ rest ∧ rbRankManyBuf b xs ans = .ok (l.map (fun x => Spec.card (x + 1) s) ++ ans.drop l.length) ∧
      (∀ x ∈ l, ∃ v, s v = true ∧ x / 65536 ≤ v / 65536) ∧ ∀ x ∈ rest, ∀ v, s v = true → v / 65536 < x / 65536 := by
  obtain ⟨r, hb, hr, e⟩ := isBitmapSet_iff.1 h
  have := rbRankManyBuf_spec hb hr hs hx ha
  rwa [bhas_ext e] at this

/-- If the greatest query is not above the greatest value, every rank is written. -/
theorem C132_rank_many_all {xs ans : List Nat} (hs : xs.Pairwise (· ≤ ·)) (hx : ∀ x ∈ xs, x < 4294967296) (ha : xs.length ≤ ans.length)
    (hm : ∀ x ∈ xs, ∃ v, s v = true ∧ x ≤ v) :
    rbRankManyBuf b xs ans = .ok (xs.map (fun x => Spec.card (x + 1) s) ++ ans.drop xs.length) := by
  obtain ⟨l, rest, e, hl, _, hn⟩ := C132_rank_many h hs hx ha
  cases rest with
  | nil => rw [List.append_nil] at e; rw [hl, e]
  | cons x rest =>
    obtain ⟨v, hv, hxv⟩ := hm x (by rw [e]; simp)
    have h1 := hn x (by simp) v hv
    have := Nat.div_le_div_right (c := 65536) hxv
    omega

/-- `roaring_iterate`: the callback `f`, with its own state, is called on the values in increasing order until it answers `false`
(`calls`, in Props/C18, says just that); the answer tells whether it never did. -/
theorem C132_iterate {σ : Type} (f : σ → Nat → σ × Bool) (st : σ) :
    ∃ st' a, rbIterateBuf f st b = .ok (st', a) ∧ calls f st (Spec.enum 4294967296 s) st' a := by
  obtain ⟨r, hb, hr, e⟩ := isBitmapSet_iff.1 h
  refine ⟨_, _, rbIterateBuf_spec f st hb, ?_⟩
  rw [rbIterate_eq f st hr, vals_eq hr, bhas_ext e]
  exact calls_callUntil f st _

/-- `roaring_iterate64`: the same, with the given bits put into each value. -/
theorem C132_iterate64 {σ : Type} (f : σ → Nat → σ × Bool) (high : Nat) (st : σ) :
    ∃ st' a, rbIterate64Buf f high st b = .ok (st', a) ∧ calls f st ((Spec.enum 4294967296 s).map (high ||| ·)) st' a := by
  obtain ⟨r, hb, hr, e⟩ := isBitmapSet_iff.1 h
  refine ⟨_, _, rbIterate64Buf_spec f high st hb, ?_⟩
  rw [rbIterate64_eq f high st hr, vals_eq hr, bhas_ext e]
  exact calls_callUntil f st _

end

/-- `roaring_bitmap_jaccard_index` divides the size of the intersection by that of the union. -/
theorem C132_jaccard_index {b c : RaBuf} {s t : NSet} (h : IsBitmapSet b s) (h' : IsBitmapSet c t) :
    rbJaccardBuf b c = .ok (Spec.card 4294967296 (Spec.inter s t), Spec.card 4294967296 (Spec.union s t)) := by
  obtain ⟨r, hb, hr, e⟩ := isBitmapSet_iff.1 h
  obtain ⟨r', hb', hr', e'⟩ := isBitmapSet_iff.1 h'
  rw [rbJaccardBuf_spec hb hr hb' hr', ← bhas_ext e, ← bhas_ext e', ← rbAndCardinality_eq hr hr', ← rbOrCardinality_eq hr hr']
  rfl

/-! ### The hypotheses are met

`twoCells`, in Props/C115, is the bitmap {5, 65536, 65537, 65538} in a block with a cell that is not in use. -/

/-- Repeated queries, queries between the values, and a longer array. -/
example : rbRankManyBuf twoCells [4, 5, 5, 70, 65535, 65537, 100000] [9, 9, 9, 9, 9, 9, 9, 9] = .ok [0, 1, 1, 1, 1, 3, 4, 9] := by decide +kernel

/-- The last two queries are beyond the last container: their ranks (4) are not written. -/
example : rbRankManyBuf twoCells [65538, 131072, 200000] [9, 9, 9] = .ok [4, 9, 9] := by decide +kernel

/-- With fewer places than queries the function writes after the end of the array. -/
example : rbRankManyBuf twoCells [4, 5, 6] [9, 9] = .oob := by decide +kernel

/-- A callback that collects the values and stops at 65537. -/
example : rbIterateBuf (fun (l : List Nat) v => (l ++ [v], v != 65537)) [] twoCells = .ok ([5, 65536, 65537], false) ∧
    rbIterateBuf (fun (l : List Nat) v => (l ++ [v], true)) [] twoCells = .ok ([5, 65536, 65537, 65538], true) ∧
    rbIterate64Buf (fun (l : List Nat) v => (l ++ [v], v != 4294967301)) 4294967296 [] twoCells = .ok ([4294967301], false) := by decide +kernel

example : rbJaccardBuf twoCells twoCells = .ok (4, 4) ∧ rbJaccardBuf twoCells ⟨0, []⟩ = .ok (0, 4) := by decide +kernel

end CRoaring.Props
