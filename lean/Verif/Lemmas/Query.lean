import Verif.Model.Query
import Verif.Lemmas.Range2
import Verif.Lemmas.Convert3

set_option linter.unusedSimpArgs false
set_option linter.unusedVariables false

/-! Ranks, selection, extrema, exports, iteration. -/

namespace CRoaring
open Spec

/-! ### The enumeration of a bitmap, container by container -/

/-- The values of one container. -/
def cvals (k : Nat) (c : Container) : List Nat := (enum 65536 (chas c)).map (k * 65536 + ·)

/-- The values of a bitmap, container by container. -/
def vals (r : Bitmap) : List Nat := r.flatMap (fun p => cvals p.1 p.2)

theorem vals_nil : vals [] = [] := rfl
theorem vals_cons (k : Nat) (c : Container) (t : Bitmap) : vals ((k, c) :: t) = cvals k c ++ vals t := rfl
theorem vals_append (a b : Bitmap) : vals (a ++ b) = vals a ++ vals b := by simp [vals]

theorem mem_cvals {k : Nat} {c : Container} {x : Nat} : x ∈ cvals k c ↔ x / 65536 = k ∧ chas c (x % 65536) = true := by
  simp only [cvals, List.mem_map, mem_enum]
  constructor
  · rintro ⟨y, ⟨h1, h2⟩, rfl⟩
    obtain ⟨e1, e2⟩ := split_kx (k := k) h1
    rw [e1, e2]; exact ⟨rfl, h2⟩
  · rintro ⟨h1, h2⟩
    exact ⟨x % 65536, ⟨Nat.mod_lt _ (by omega), h2⟩, by omega⟩

theorem mem_vals {r : Bitmap} {x : Nat} : x ∈ vals r ↔ bhas r x = true := by
  simp only [vals, List.mem_flatMap, mem_cvals, bhas, List.any_eq_true, Bool.and_eq_true, beq_iff_eq]
  constructor
  · rintro ⟨p, hp, e, h⟩; exact ⟨p, hp, e.symm, h⟩
  · rintro ⟨p, hp, e, h⟩; exact ⟨p, hp, e.symm, h⟩

theorem cvals_sorted (k : Nat) (c : Container) : SSorted (cvals k c) := by
  refine List.Pairwise.map _ ?_ (enum_sorted 65536 (chas c))
  intro a b h; omega

theorem vals_sorted {P : Container → Prop} {r : Bitmap} (h : BP P r) : SSorted (vals r) := by
  induction r with
  | nil => exact List.Pairwise.nil
  | cons p t ih =>
    obtain ⟨k, c⟩ := p
    rw [vals_cons]
    refine List.pairwise_append.2 ⟨cvals_sorted k c, ih h.2.2.2, ?_⟩
    intro a ha b hb
    have h1 := (mem_cvals.1 ha).1
    obtain ⟨q, hq, e, _⟩ := bhas_key (mem_vals.1 hb)
    have := h.2.2.1 q hq
    omega

theorem vals_eq {P : Container → Prop} {r : Bitmap} (h : BP P r) : vals r = enum 4294967296 (bhas r) :=
  sorted_eq_enum (vals_sorted h) fun x => by
    rw [mem_vals]
    exact ⟨fun hx => ⟨bhas_lt h hx, hx⟩, fun hx => hx.2⟩

theorem cvals_length (k : Nat) (c : Container) : (cvals k c).length = card 65536 (chas c) := by
  simp [cvals, card]

theorem shl16 (k : Nat) : k <<< 16 = k * 65536 := Nat.shiftLeft_eq k 16

theorem lor_shl {y k : Nat} (h : y < 65536) : y ||| (k <<< 16) = k * 65536 + y := by
  rw [Nat.or_comm, ← Nat.shiftLeft_add_eq_or_of_lt (i := 16) (show y < 2 ^ 16 from h) k, shl16]

/-! ### Export -/

theorem rbToUint32_eq {r : Bitmap} (h : BInv r) : rbToUint32 r = vals r := by
  induction r with
  | nil => simp [rbToUint32, vals]
  | cons p t ih =>
    obtain ⟨k, c⟩ := p
    have hk := h.1
    have h1 := ih h.2.2.2
    simp only [rbToUint32, List.flatMap_cons] at h1 ⊢
    rw [h1, shl16, containerToUint32_eq h.2.1.1.rep (by omega)]
    rfl

/-! ### Rank -/

theorem rbRankLoop_eq {r : Bitmap} (h : BInv r) (x acc : Nat)
    (hacc : acc + bcardIn (fun v => decide (v ≤ x)) r < 18446744073709551616) :
    rbRankLoop x acc r = acc + bcardIn (fun v => decide (v ≤ x)) r := by
  have := rangeCardLoop_eq (re := x) h acc hacc
  rw [← this]
  clear this hacc
  induction r generalizing acc with
  | nil => rfl
  | cons p t ih =>
    obtain ⟨k, c⟩ := p
    simp only [rbRankLoop, rangeCardLoop, gt_iff_lt]
    split
    · exact ih h.2.2.2 _
    · by_cases e : k = x / 65536
      · rw [if_pos e.symm, if_pos e]
      · rw [if_neg (fun h => e h.symm), if_neg e]

theorem rank_card {r : Bitmap} (h : BInv r) (x : Nat) (hx : x < 4294967296) :
    bcardIn (fun v => decide (v ≤ x)) r = card (x + 1) (bhas r) := by
  rw [← card_bhas_in _ h, ← card_below (n := 4294967296) (a := x + 1) (by omega)]
  refine card_congr fun v _ => ?_
  rw [decide_eq_decide.2 (show v ≤ x ↔ v < x + 1 by omega)]

theorem rbRank_eq {r : Bitmap} (h : BInv r) {x : Nat} (hx : x < 4294967296) : rbRank r x = card (x + 1) (bhas r) := by
  have := bcardIn_le (fun v => decide (v ≤ x)) h
  rw [rbRank, rbRankLoop_eq h x 0 (by omega), rank_card h x hx, Nat.zero_add]

/-! ### Index -/

theorem rbGetIndexLoop_skip {A B : Bitmap} (h : BInv A) {x : Nat} {ch : Container} (hA : ∀ p ∈ A, p.1 < x / 65536) (acc : Int) :
    rbGetIndexLoop x ch acc (A ++ B) = rbGetIndexLoop x ch (acc + bcard A) B := by
  induction A generalizing acc with
  | nil => simp [bcard]
  | cons p t ih =>
    obtain ⟨k, c⟩ := p
    have := hA (k, c) (by simp)
    simp only [List.cons_append, rbGetIndexLoop]
    rw [if_pos this, ih h.2.2.2 fun p hp => hA p (by simp [hp]), containerCard_eq h.2.1.1.rep]
    simp only [bcard]
    congr 1
    omega

theorem card_prefix {A B : Bitmap} {k : Nat} {c : Container} (h : BInv (A ++ (k, c) :: B)) {y : Nat} (hy : y ≤ 65536) :
    card (k * 65536 + y) (bhas (A ++ (k, c) :: B)) = bcard A + card y (chas c) := by
  have hb := bp_mid.1 h
  have hA := (bp_append.1 hb.1).1
  rw [card_add]
  congr 1
  · rw [← card_bhas hA]
    have hk := hb.2.1
    obtain ⟨m, e⟩ := Nat.exists_eq_add_of_le (show k * 65536 ≤ 4294967296 by omega)
    rw [e, card_add, card_eq_zero (n := m) |>.2]
    · rw [Nat.add_zero]
      refine card_congr fun x hx => ?_
      rw [bhas_mid hb.2.2.2.1 hb.2.2.2.2, if_neg (by omega), bhas_append,
        bhas_ne (r := B) fun p hp => by have := hb.2.2.2.2 p hp; omega, Bool.or_false]
    · intro x hx
      exact bhas_ne fun p hp => by have := hb.2.2.2.1 p hp; omega
  · exact card_congr fun z hz => bhas_at h (by omega)

theorem rbGetIndex_eq {r : Bitmap} (h : BInv r) {x : Nat} (hx : x < 4294967296) :
    rbGetIndex r x = if bhas r x then (card x (bhas r) : Int) else -1 := by
  unfold rbGetIndex
  rcases ra_split h (x / 65536) with ⟨A, c, B, e, hA, hB, hi⟩ | ⟨A, B, e, hA, hB, hi⟩
  · have hbm := bp_mid.1 (e ▸ h)
    have hbA := (bp_append.1 hbm.1).1
    have hc : contAt r A.length = c := by rw [e, contAt_mid]
    simp only [hi]
    rw [if_neg (by omega), Int.toNat_natCast, hc]
    have hh : bhas r x = chas c (x % 65536) := by rw [e, bhas_mid hA hB, if_pos rfl]
    have hcard : card x (bhas r) = bcard A + card (x % 65536) (chas c) := by
      have := card_prefix (e ▸ h) (y := x % 65536) (by omega)
      rw [← e, show x / 65536 * 65536 + x % 65536 = x by omega] at this
      exact this
    rw [hh, hcard, e, rbGetIndexLoop_skip hbA hA, rbGetIndexLoop, if_neg (by omega), if_pos rfl,
      containerGetIndex_eq hbm.2.2.1.1.rep]
    cases chas c (x % 65536)
    · simp
    · simp only [if_true]
      rw [if_neg (by omega)]
      omega
  · simp only [hi]
    rw [if_pos (by omega), e, bhas_gap hA hB rfl]
    rfl

/-! ### Extrema -/

theorem rbMinimum_spec {r : Bitmap} (h : BInv r) :
    (r = [] → rbMinimum r = 4294967295) ∧
      (r ≠ [] → bhas r (rbMinimum r) = true ∧ ∀ v, bhas r v = true → rbMinimum r ≤ v) := by
  refine ⟨fun e => by subst e; rfl, fun hne => ?_⟩
  obtain ⟨⟨k, c⟩, t, e⟩ := List.exists_cons_of_ne_nil hne
  subst e
  have hs := containerMin_spec h.2.1.1.rep h.2.1.2
  have hlt := h.2.1.1.rep.lt hs.1
  have e : rbMinimum ((k, c) :: t) = k * 65536 + containerMin c := by
    simp only [rbMinimum, contAt, keyAt, List.length_cons]
    rw [if_pos (by omega)]
    exact lor_shl hlt
  rw [e]
  refine ⟨by rw [bhas_head h hlt]; exact hs.1, fun v hv => ?_⟩
  obtain ⟨p, hp, e1, e2⟩ := bhas_key hv
  rcases List.mem_cons.1 hp with rfl | hp
  · have := hs.2 _ e2
    simp only at e1
    omega
  · have := h.2.2.1 p hp
    omega

theorem rbMaximum_spec {r : Bitmap} (h : BInv r) :
    (r = [] → rbMaximum r = 0) ∧
      (r ≠ [] → bhas r (rbMaximum r) = true ∧ ∀ v, bhas r v = true → v ≤ rbMaximum r) := by
  refine ⟨fun e => by subst e; rfl, fun hne => ?_⟩
  obtain ⟨A, ⟨k, c⟩, e⟩ : ∃ A p, r = A ++ [p] := by
    rcases List.eq_nil_or_concat r with e | ⟨A, p, e⟩
    · exact absurd e hne
    · exact ⟨A, p, by simpa using e⟩
  subst e
  have hb := bp_mid.1 h
  have hs := containerMax_spec hb.2.2.1.1.rep hb.2.2.1.2
  have hlt := hb.2.2.1.1.rep.lt hs.1
  have e : rbMaximum (A ++ [(k, c)]) = k * 65536 + containerMax c := by
    have hl : (A ++ [(k, c)]).length - 1 = A.length := by simp
    simp only [rbMaximum]
    rw [if_pos (by simp), hl, contAt_mid, keyAt_mid]
    exact lor_shl hlt
  rw [e]
  refine ⟨by rw [bhas_at h hlt]; exact hs.1, fun v hv => ?_⟩
  obtain ⟨p, hp, e1, e2⟩ := bhas_key hv
  rcases List.mem_append.1 hp with hp | hp
  · have := hb.2.2.2.1 p hp
    omega
  · simp only [List.mem_singleton] at hp
    subst hp
    have := hs.2 _ e2
    simp only at e1
    omega

/-! ### Select -/

theorem rbSelectLoop_eq {r : Bitmap} (h : BInv r) {rank sr : Nat} (hr : sr ≤ rank) (hrk : rank < 4294967296)
    (hb : sr + bcard r < 4294967296) : rbSelectLoop rank sr r = some ((vals r)[rank - sr]?) := by
  induction r generalizing sr with
  | nil => simp [rbSelectLoop, vals_nil]
  | cons p t ih =>
    obtain ⟨k, c⟩ := p
    simp only [bcard] at hb
    have hcl := cvals_length k c
    rw [rbSelectLoop, containerSelect_spec h.2.1.1.rep hr (by omega) hrk, vals_cons]
    by_cases hk : rank - sr < card 65536 (chas c)
    · obtain ⟨x, hx1, hx2, hx3, hx4⟩ := enum_getElem_lt hk
      rw [hx1, List.getElem?_append_left (by omega)]
      simp only [cvals, List.getElem?_map, hx1, Option.map_some]
      rw [lor_shl hx2]
    · rw [List.getElem?_eq_none (by have : (enum 65536 (chas c)).length = card 65536 (chas c) := rfl; omega)]
      simp only
      rw [ih h.2.2.2 (by omega) (by omega), List.getElem?_append_right (by omega), hcl,
        show rank - sr - card 65536 (chas c) = rank - (sr + card 65536 (chas c)) by omega]

theorem rbSelect_eq {r : Bitmap} (h : BInv r) {k : Nat} (hk : k < 4294967296) (hb : bcard r < 4294967296) :
    rbSelect r k = some ((enum 4294967296 (bhas r))[k]?) := by
  rw [rbSelect, rbSelectLoop_eq h (by omega) hk (by omega), vals_eq h]; rfl

/-! ### Iteration by callback -/

/-- Calls `f` on the values of a list in order, until it asks to stop. -/
def callUntil {σ : Type} (f : σ → Nat → σ × Bool) : σ → List Nat → σ × Bool
  | s, [] => (s, true)
  | s, v :: l => if (f s v).2 then callUntil f (f s v).1 l else ((f s v).1, false)

theorem callUntil_append {σ : Type} (f : σ → Nat → σ × Bool) (s : σ) (a b : List Nat) :
    callUntil f s (a ++ b) =
      if (callUntil f s a).2 then callUntil f (callUntil f s a).1 b else callUntil f s a := by
  induction a generalizing s with
  | nil => rfl
  | cons x t ih =>
    simp only [List.cons_append, callUntil]
    split
    · exact ih _
    · rfl

theorem arrayIterate_call {σ : Type} (f : σ → Nat → σ × Bool) (s : σ) (base : Nat) (l : List Nat)
    (h : ∀ v ∈ l, base + v < 4294967296) : arrayIterate f s base l = callUntil f s (l.map (base + ·)) := by
  induction l generalizing s with
  | nil => rfl
  | cons x t ih =>
    have hx := h x (by simp)
    have e : u32 (x + base) = base + x := by simp only [u32]; omega
    simp only [arrayIterate, List.map_cons, callUntil, e]
    split
    · exact ih _ fun v hv => h v (by simp [hv])
    · rfl

theorem rbIterate_eq {σ : Type} (f : σ → Nat → σ × Bool) (s : σ) {r : Bitmap} (h : BInv r) :
    rbIterate f s r = callUntil f s (vals r) := by
  induction r generalizing s with
  | nil => rfl
  | cons p t ih =>
    obtain ⟨k, c⟩ := p
    have hk := h.1
    rw [rbIterate, vals_cons, callUntil_append, shl16, containerIterate_eq f s h.2.1.1.rep (by omega),
      arrayIterate_call]
    · rw [show List.map (k * 65536 + ·) (enum 65536 (chas c)) = cvals k c from rfl]
      cases hh : (callUntil f s (cvals k c)).2
      · simp [Prod.ext_iff, hh]
      · simp only [Bool.not_true, if_true]
        rw [ih _ h.2.2.2]
        rfl
    · intro v hv
      have := (mem_enum.1 hv).1
      omega

end CRoaring
