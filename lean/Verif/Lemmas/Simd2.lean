import Verif.Lemmas.Simd
import Verif.Lemmas.Serial
import Mathlib.Data.List.Perm.Subperm
set_option linter.unusedSimpArgs false
set_option linter.unusedVariables false
/-
The loop over blocks, and what one comparison of two blocks finds.
-/
namespace CRoaring
open Spec

/-- The block of eight values from index `i` on. -/
def blk (A : List Nat) (i : Nat) : V8 := (A.drop i).take 8

theorem blk_length {A : List Nat} {i : Nat} (h : i + 8 ≤ A.length) : (blk A i).length = 8 := loadu_length h

theorem drop_congr {A A' : List Nat} {i : Nat} (hl : A'.length = A.length) (h : A'.drop i = A.drop i) {j : Nat} (hj : i ≤ j)
    (hj2 : j < A.length) : A'[j]'(by omega) = A[j] := by
  have e : (A'.drop i)[j - i]? = (A.drop i)[j - i]? := by rw [h]
  rw [List.getElem?_drop, List.getElem?_drop, show i + (j - i) = j by omega, List.getElem?_eq_getElem (by omega),
    List.getElem?_eq_getElem (by omega)] at e
  exact Option.some.inj e

theorem drop_mono {A A' : List Nat} {i j : Nat} (h : A'.drop i = A.drop i) (hj : i ≤ j) : A'.drop j = A.drop j := by
  have := congrArg (List.drop (j - i)) h
  rwa [List.drop_drop, List.drop_drop, show i + (j - i) = j by omega] at this

theorem vecLoop_spec {σ : Type} {getA : σ → List Nat} {A B : List Nat} {cmp : V8 → V8 → Nat}
    {go : List Nat → Nat → Nat → Out Bool} {emit : σ → V8 → Nat → Out σ} {flush : σ → V8 → Out σ} {sta stb : Nat}
    (hsa : sta ≤ A.length) (hsb : stb ≤ B.length) (h8a : sta % 8 = 0) (h8b : stb % 8 = 0)
    (Inv : Nat → Nat → σ → Prop) (G : Nat → Nat → Prop)
    (hget : ∀ ia ib x, Inv ia ib x → (getA x).length = A.length ∧ (getA x).drop ia = A.drop ia)
    (hgo : ∀ ia ib x, ia < sta → ib < stb → Inv ia ib x → ∃ b, go (getA x) ia ib = .ok b ∧ (b = true → G ia ib))
    (hstep : ∀ ia ib x, ia + 8 ≤ sta → ib + 8 ≤ stb → Inv ia ib x → G ia ib →
      ∃ x', emit x (blk A ia) (cmp (blk B ib) (blk A ia)) = .ok x' ∧ (getA x').length = A.length ∧
        (getA x').drop ia = A.drop ia ∧
        (rdL A (ia + 7) ≤ rdL B (ib + 7) → ∃ x'', flush x' (blk A ia) = .ok x'' ∧ Inv (ia + 8) ib x'' ∧
          (rdL B (ib + 7) ≤ rdL A (ia + 7) → Inv (ia + 8) (ib + 8) x'')) ∧
        (rdL B (ib + 7) < rdL A (ia + 7) → Inv ia (ib + 8) x'))
    (fuel : Nat) (s : VecSt σ) (hia : s.ia < sta) (hib : s.ib < stb) (h8i : s.ia % 8 = 0) (h8j : s.ib % 8 = 0)
    (hI : Inv s.ia s.ib s.x) (hva : s.va = blk A s.ia) (hvb : s.vb = blk B s.ib)
    (hf : (sta - s.ia) + (stb - s.ib) < fuel) :
    ∃ s', vecLoop getA B cmp go emit flush sta stb fuel s = .ok s' ∧ Inv s'.ia s'.ib s'.x ∧ s'.ia ≤ sta ∧ s'.ib ≤ stb ∧
      s'.ia % 8 = 0 ∧ s'.ib % 8 = 0 ∧ (s'.ia < sta → s'.va = blk A s'.ia) ∧
      (s'.ia < sta → s'.ib < stb → s'.vb = blk B s'.ib) ∧
      (s'.ia = sta ∨ s'.ib = stb ∨ go (getA s'.x) s'.ia s'.ib = .ok false) := by
  induction fuel generalizing s with
  | zero => omega
  | succ fuel ih =>
    obtain ⟨b, hb, hG⟩ := hgo s.ia s.ib s.x hia hib hI
    rw [vecLoop, hb, ok_bind]
    cases b with
    | false =>
      refine ⟨s, by simp, hI, by omega, by omega, h8i, h8j, fun _ => hva, fun _ _ => hvb, Or.inr (Or.inr hb)⟩
    | true =>
      obtain ⟨x', he, hl, hd, h1, h2⟩ := hstep s.ia s.ib s.x (by omega) (by omega) hI (hG rfl)
      have ra : read16 (getA x') (s.ia + 8 - 1) = .ok (rdL A (s.ia + 7)) := by
        rw [read16_eq (by omega), drop_congr hl hd (by omega) (by omega), rdL_eq (by omega)]; rfl
      have rb : read16 B (s.ib + 8 - 1) = .ok (rdL B (s.ib + 7)) := by
        rw [read16_eq (by omega), rdL_eq (by omega)]; rfl
      rw [if_neg (by simp), hva, hvb, he, ok_bind, ra, ok_bind, rb, ok_bind]
      by_cases hab : rdL A (s.ia + 7) ≤ rdL B (s.ib + 7)
      · obtain ⟨x'', hfl, hI1, hI2⟩ := h1 hab
        rw [if_pos hab, hfl, ok_bind]
        by_cases hend : s.ia + 8 = sta
        · rw [if_pos hend]
          exact ⟨_, rfl, hI1, by simp; omega, by simp; omega, by simp; omega, h8j, fun h => absurd h (by simp; omega),
            fun h => absurd h (by simp; omega), Or.inl hend⟩
        · have hg := hget _ _ _ hI1
          have lv : loadu (getA x'') (s.ia + 8) = .ok (blk A (s.ia + 8)) := by
            rw [loadu_eq (by omega), hg.2]; rfl
          rw [if_neg hend, lv, ok_bind]
          by_cases hba : rdL B (s.ib + 7) ≤ rdL A (s.ia + 7)
          · rw [if_pos hba]
            by_cases hend2 : s.ib + 8 = stb
            · rw [if_pos hend2]
              exact ⟨_, rfl, hI2 hba, by simp; omega, by simp; omega, by simp; omega, by simp; omega, fun _ => rfl,
                fun _ h => absurd h (by simp; omega), Or.inr (Or.inl hend2)⟩
            · rw [if_neg hend2, loadu_eq (by omega), ok_bind]
              exact ih _ (by simp; omega) (by simp; omega) (by simp; omega) (by simp; omega) (hI2 hba) rfl rfl
                (by simp; omega)
          · rw [if_neg hba]
            exact ih _ (by simp; omega) (by simp; omega) (by simp; omega) (by simp; omega) hI1 rfl rfl (by simp; omega)
      · have hI1 := h2 (by omega)
        rw [if_neg hab]
        by_cases hend2 : s.ib + 8 = stb
        · rw [if_pos hend2]
          exact ⟨_, rfl, hI1, by simp; omega, by simp; omega, by simp; omega, by simp; omega, fun _ => by simp [hva],
            fun _ h => absurd h (by simp; omega), Or.inr (Or.inl hend2)⟩
        · rw [if_neg hend2, loadu_eq (by omega), ok_bind]
          exact ih _ (by simp; omega) (by simp; omega) (by simp; omega) (by simp; omega) hI1 (by simp [hva]) rfl (by simp; omega)

/-! ### Blocks of sorted arrays -/

theorem mem_take_blk (A : List Nat) (i x : Nat) : x ∈ A.take (i + 8) ↔ x ∈ A.take i ∨ x ∈ blk A i := by
  rw [List.take_add, List.mem_append, blk]

theorem mem_blk_drop {A : List Nat} {i x : Nat} (h : x ∈ blk A i) : x ∈ A.drop i := List.mem_of_mem_take h

theorem mem_blk {A : List Nat} {i x : Nat} (h : x ∈ blk A i) : x ∈ A := List.mem_of_mem_drop (mem_blk_drop h)

theorem take_lt_drop {A : List Nat} (hs : SSorted A) {i x y : Nat} (hx : x ∈ A.take i) (hy : y ∈ A.drop i) : x < y := by
  have : SSorted (A.take i ++ A.drop i) := by rw [List.take_append_drop]; exact hs
  exact (List.pairwise_append.1 this).2.2 x hx y hy

theorem mem_take_or_drop {A : List Nat} (i : Nat) {x : Nat} (hx : x ∈ A) : x ∈ A.take i ∨ x ∈ A.drop i := by
  rw [← List.take_append_drop i A] at hx
  exact List.mem_append.1 hx

theorem mem_take_of_le {A : List Nat} (hs : SSorted A) {i x : Nat} (hi : i + 8 ≤ A.length) (hx : x ∈ A) (h : x ≤ rdL A (i + 7)) :
    x ∈ A.take (i + 8) := by
  rcases mem_take_or_drop (i + 8) hx with h1 | h1
  · exact h1
  · have : rdL A (i + 7) ∈ A.take (i + 8) := by
      rw [rdL_eq (by omega), List.mem_iff_getElem]
      exact ⟨i + 7, by simp; omega, by simp⟩
    have := take_lt_drop hs this h1
    omega

theorem le_of_mem_take {A : List Nat} (hs : SSorted A) {i x : Nat} (hi : i + 8 ≤ A.length) (h : x ∈ A.take (i + 8)) :
    x ≤ rdL A (i + 7) := by
  obtain ⟨j, hj, rfl⟩ := List.mem_iff_getElem.1 h
  rw [List.length_take] at hj
  rw [List.getElem_take, ← rdL_eq]
  rcases Nat.lt_or_ge j (i + 7) with h1 | h1
  · exact Nat.le_of_lt (rdL_strict hs h1 (by omega))
  · rw [show j = i + 7 by omega]; exact Nat.le_refl _

theorem blk_sorted {A : List Nat} (hs : SSorted A) (i : Nat) : SSorted (blk A i) :=
  hs.sublist ((List.take_sublist _ _).trans (List.drop_sublist _ _))

theorem sorted_append {E F : List Nat} (hE : SSorted E) (hF : SSorted F) (h : ∀ x ∈ E, ∀ y ∈ F, x < y) : SSorted (E ++ F) :=
  List.pairwise_append.2 ⟨hE, hF, h⟩

theorem sorted_nodup {A : List Nat} (hs : SSorted A) : A.Nodup := hs.imp (fun h => Nat.ne_of_lt h)

theorem sorted_sub_length {E A : List Nat} (hE : SSorted E) (h : ∀ x ∈ E, x ∈ A) : E.length ≤ A.length :=
  (List.subperm_of_subset (sorted_nodup hE) (fun x hx => h x hx)).length_le

/-- Two strictly increasing lists with the same elements are equal. -/
theorem sorted_unique {E F : List Nat} (hE : SSorted E) (hF : SSorted F) (h : ∀ x, x ∈ E ↔ x ∈ F) : E = F :=
  ((List.perm_ext_iff_of_nodup (sorted_nodup hE) (sorted_nodup hF)).2 h).eq_of_pairwise
    (fun a b _ _ h1 h2 => absurd (Nat.lt_trans h1 h2) (Nat.lt_irrefl _)) hE hF

/-- The values found so far: those in both arrays that are in the part of `A` or in the part of `B` that is done. -/
def Found (A B : List Nat) (ia ib : Nat) (E : List Nat) : Prop :=
  SSorted E ∧ ∀ x, x ∈ E ↔ x ∈ A ∧ x ∈ B ∧ (x ∈ A.take ia ∨ x ∈ B.take ib)

theorem found_step {A B : List Nat} (hA : SSorted A) (hB : SSorted B) {ia ib : Nat} {E : List Nat} (ha : ia + 8 ≤ A.length)
    (hb : ib + 8 ≤ B.length) (h : Found A B ia ib E) :
    let E' := E ++ (blk A ia).filter (fun x => (blk B ib).contains x)
    (rdL A (ia + 7) ≤ rdL B (ib + 7) → Found A B (ia + 8) ib E') ∧
    (rdL B (ib + 7) ≤ rdL A (ia + 7) → Found A B ia (ib + 8) E') ∧
    (rdL A (ia + 7) = rdL B (ib + 7) → Found A B (ia + 8) (ib + 8) E') := by
  intro E'
  have hs' : SSorted E' := by
    refine sorted_append h.1 ((blk_sorted hA ia).sublist List.filter_sublist) ?_
    intro x hx y hy
    rw [List.mem_filter] at hy
    have hyb : y ∈ blk B ib := by simpa using hy.2
    rcases ((h.2 x).1 hx).2.2 with h1 | h1
    · exact take_lt_drop hA h1 (mem_blk_drop hy.1)
    · exact take_lt_drop hB h1 (mem_blk_drop hyb)
  have hm : ∀ x, x ∈ E' ↔ (x ∈ A ∧ x ∈ B ∧ (x ∈ A.take ia ∨ x ∈ B.take ib)) ∨ (x ∈ blk A ia ∧ x ∈ blk B ib) := by
    intro x
    rw [List.mem_append, h.2, List.mem_filter]
    simp
  refine ⟨fun hab => ⟨hs', fun x => ?_⟩, fun hba => ⟨hs', fun x => ?_⟩, fun heq => ⟨hs', fun x => ?_⟩⟩
  · rw [hm, mem_take_blk]
    constructor
    · rintro (⟨h1, h2, h3 | h3⟩ | ⟨h1, h2⟩)
      · exact ⟨h1, h2, Or.inl (Or.inl h3)⟩
      · exact ⟨h1, h2, Or.inr h3⟩
      · exact ⟨mem_blk h1, mem_blk h2, Or.inl (Or.inr h1)⟩
    · rintro ⟨h1, h2, (h3 | h3) | h3⟩
      · exact Or.inl ⟨h1, h2, Or.inl h3⟩
      · have h4 := le_of_mem_take hA ha ((mem_take_blk A ia x).2 (Or.inr h3))
        have h5 := mem_take_of_le hB hb h2 (by omega)
        rcases (mem_take_blk B ib x).1 h5 with h6 | h6
        · exact Or.inl ⟨h1, h2, Or.inr h6⟩
        · exact Or.inr ⟨h3, h6⟩
      · exact Or.inl ⟨h1, h2, Or.inr h3⟩
  · rw [hm, mem_take_blk B]
    constructor
    · rintro (⟨h1, h2, h3 | h3⟩ | ⟨h1, h2⟩)
      · exact ⟨h1, h2, Or.inl h3⟩
      · exact ⟨h1, h2, Or.inr (Or.inl h3)⟩
      · exact ⟨mem_blk h1, mem_blk h2, Or.inr (Or.inr h2)⟩
    · rintro ⟨h1, h2, h3 | h3 | h3⟩
      · exact Or.inl ⟨h1, h2, Or.inl h3⟩
      · exact Or.inl ⟨h1, h2, Or.inr h3⟩
      · have h4 := le_of_mem_take hB hb ((mem_take_blk B ib x).2 (Or.inr h3))
        have h5 := mem_take_of_le hA ha h1 (by omega)
        rcases (mem_take_blk A ia x).1 h5 with h6 | h6
        · exact Or.inl ⟨h1, h2, Or.inl h6⟩
        · exact Or.inr ⟨h6, h3⟩
  · rw [hm, mem_take_blk A, mem_take_blk B]
    constructor
    · rintro (⟨h1, h2, h3 | h3⟩ | ⟨h1, h2⟩)
      · exact ⟨h1, h2, Or.inl (Or.inl h3)⟩
      · exact ⟨h1, h2, Or.inr (Or.inl h3)⟩
      · exact ⟨mem_blk h1, mem_blk h2, Or.inl (Or.inr h1)⟩
    · rintro ⟨h1, h2, (h3 | h3) | h3 | h3⟩
      · exact Or.inl ⟨h1, h2, Or.inl h3⟩
      · have h4 := le_of_mem_take hA ha ((mem_take_blk A ia x).2 (Or.inr h3))
        have h5 := mem_take_of_le hB hb h2 (by omega)
        rcases (mem_take_blk B ib x).1 h5 with h6 | h6
        · exact Or.inl ⟨h1, h2, Or.inr h6⟩
        · exact Or.inr ⟨h3, h6⟩
      · exact Or.inl ⟨h1, h2, Or.inr h3⟩
      · have h4 := le_of_mem_take hB hb ((mem_take_blk B ib x).2 (Or.inr h3))
        have h5 := mem_take_of_le hA ha h1 (by omega)
        rcases (mem_take_blk A ia x).1 h5 with h6 | h6
        · exact Or.inl ⟨h1, h2, Or.inl h6⟩
        · exact Or.inr ⟨h6, h3⟩

/-- What has been found when the vector part ends, together with what the scalar loop finds. -/
theorem found_end {A B : List Nat} (hA : SSorted A) (hB : SSorted B) {ia ib : Nat} {E : List Nat} (h : Found A B ia ib E) :
    E ++ intersectU16 (A.drop ia) (B.drop ib) = intersectU16 A B := by
  have hda : SSorted (A.drop ia) := hA.sublist (List.drop_sublist _ _)
  have hdb : SSorted (B.drop ib) := hB.sublist (List.drop_sublist _ _)
  rw [intersectU16_eq hda hdb, intersectU16_eq hA hB]
  apply sorted_unique
  · refine sorted_append h.1 (hda.sublist List.filter_sublist) ?_
    intro x hx y hy
    rw [List.mem_filter] at hy
    rcases ((h.2 x).1 hx).2.2 with h1 | h1
    · exact take_lt_drop hA h1 hy.1
    · exact take_lt_drop hB h1 (by simpa using hy.2)
  · exact hA.sublist List.filter_sublist
  · intro x
    rw [List.mem_append, h.2, List.mem_filter, List.mem_filter]
    simp only [decide_eq_true_eq, List.contains_iff_mem]
    constructor
    · rintro (⟨h1, h2, _⟩ | ⟨h1, h2⟩)
      · exact ⟨h1, h2⟩
      · exact ⟨List.mem_of_mem_drop h1, List.mem_of_mem_drop h2⟩
    · rintro ⟨h1, h2⟩
      rcases mem_take_or_drop ia h1 with h3 | h3
      · exact Or.inl ⟨h1, h2, Or.inl h3⟩
      · rcases mem_take_or_drop ib h2 with h4 | h4
        · exact Or.inl ⟨h1, h2, Or.inr h4⟩
        · exact Or.inr ⟨h3, h4⟩

end CRoaring
