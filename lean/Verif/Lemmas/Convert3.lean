import Verif.Lemmas.Convert2
set_option linter.unusedSimpArgs false
set_option linter.unusedVariables false
/- Minimal run counts, run optimisation, adding a range to a run container. -/
namespace CRoaring
open Spec

theorem runLength_eq {rs : List Rle} (h : RunOK rs) : rs.length = runEnds 65536 (runHas rs) := by
  induction rs with
  | nil => unfold runEnds; rw [card_congr (t := fun _ => false) (by simp [runHas]), card_false]; rfl
  | cons r rs ih =>
    obtain ⟨h1, h2, h3⟩ := runOK_cons.1 h
    have hg : ∀ x, runHas rs x = true → r.1 + r.2 + 1 < x := fun x hx => has_gt h2 hx
    have hi := ih h3
    unfold runEnds at hi ⊢
    rw [card_insert (p := r.1 + r.2) (s := fun x => runHas rs x && !runHas rs (x + 1)) h1, ← hi, if_neg, List.length_cons]
    · simp only [Bool.and_eq_true, not_and]
      intro hx; have := hg _ hx; omega
    · intro x _
      simp only [runHas_cons]
      have a1 := hg x
      have a2 := hg (x + 1)
      cases hx : runHas rs x
      · cases hx1 : runHas rs (x + 1)
        · simp only [Bool.or_false, Bool.false_and]
          by_cases e : x = r.1 + r.2
          · subst e; simp
          · simp [e]; intros; omega
        · have := a2 hx1; simp; omega
      · have := a1 hx
        have e1 : ¬ (r.1 ≤ x + 1 ∧ x + 1 ≤ r.1 + r.2) := by omega
        have e2 : ¬ x = r.1 + r.2 := by omega
        simp [e1, e2]

theorem runFromArrayLoop_length (l : List Nat) (prev rs : Nat) :
    (runFromArrayLoop prev rs l).length = 1 + arrayNumberOfRuns prev l := by
  induction l generalizing prev rs with
  | nil => rfl
  | cons v l ih =>
    unfold runFromArrayLoop arrayNumberOfRuns
    by_cases h : (v : Int) ≠ prev + 1
    · rw [if_pos h, if_pos h, if_pos (by omega), List.length_cons, ih]; omega
    · rw [if_neg h, if_neg h, ih]; omega

theorem runFromArrayLoop_length_top {l : List Nat} (h : l ≠ []) :
    (runFromArrayLoop (-2) (-1) l).length = arrayNumberOfRuns (-2) l := by
  cases l with
  | nil => exact absurd rfl h
  | cons v l =>
    unfold runFromArrayLoop arrayNumberOfRuns
    have hv : (v : Int) ≠ -2 + 1 := by omega
    rw [if_pos hv, if_pos hv, if_neg (by simp), runFromArrayLoop_length]

theorem arrayNumberOfRuns_eq {l : List Nat} (h : ArrOK l) : arrayNumberOfRuns (-2) l = runEnds 65536 (ofList l) := by
  by_cases hl : l = []
  · subst hl; unfold runEnds; rw [card_congr (t := fun _ => false) (by simp [ofList]), card_false]; rfl
  · rw [← runFromArrayLoop_length_top hl, runLength_eq (runFromArrayLoop_top h hl).1]
    unfold runEnds
    apply card_congr; intro x _
    rw [(runFromArrayLoop_top h hl).2, (runFromArrayLoop_top h hl).2]; rfl

theorem convertRunOptimize_spec {c : Container} {s : NSet} (h : Rep c s) : Rep (convertRunOptimize c) s := by
  cases c with
  | run rs => exact convertRunToEfficient_spec h.inv h.has
  | array l =>
    simp only [convertRunOptimize]
    split
    · exact h
    · rename_i hc
      have hne : l ≠ [] := by
        intro e; subst e; apply hc; unfold arrayNumberOfRuns runSerializedSize arraySerializedSize; simp
      obtain ⟨h1, h2⟩ := runFromArrayLoop_top h.inv.1 hne
      exact rep_run h1 fun x => by rw [h2]; exact h.has x
  | bitset b =>
    simp only [convertRunOptimize]
    split
    · exact h
    · obtain ⟨h1, h2⟩ := bitsetToRun_spec h.inv.1.len
      exact rep_run h1 fun x => by rw [h2]; exact h.has x

/-! ### Cardinality after adding or removing a range -/

theorem card_inter_range {s : NSet} {a b : Nat} (hab : a ≤ b) (hb : b < 65536) :
    card 65536 (fun x => s x && decide (a ≤ x ∧ x ≤ b)) = card (b - a + 1) (fun x => s (a + x)) := by
  refine card_window (a := a) (by omega) (fun x hx => ?_) (fun x hx _ => ?_) (fun x hx => ?_)
  · have : ¬ (a ≤ x ∧ x ≤ b) := by omega
    simp [this]
  · have : ¬ (a ≤ x ∧ x ≤ b) := by omega
    simp [this]
  · have : (a ≤ a + x ∧ a + x ≤ b) := by omega
    simp [this]

theorem card_closed_range {a b : Nat} (hab : a ≤ b) (hb : b < 65536) :
    card 65536 (fun x => decide (a ≤ x ∧ x ≤ b)) = b - a + 1 := by
  have := card_inter_range (s := fun _ => true) hab hb
  simp only [Bool.true_and] at this
  rw [this, card_true]

theorem card_union_range {s : NSet} {a b : Nat} (hab : a ≤ b) (hb : b < 65536) :
    card 65536 (fun x => decide (a ≤ x ∧ x ≤ b) || s x) + card (b - a + 1) (fun x => s (a + x)) =
      card 65536 s + (b - a + 1) := by
  have h := card_incl_excl 65536 s (fun x => decide (a ≤ x ∧ x ≤ b))
  rw [card_closed_range hab hb] at h
  rw [← card_inter_range hab hb]
  have e1 : card 65536 (union s fun x => decide (a ≤ x ∧ x ≤ b)) =
      card 65536 (fun x => decide (a ≤ x ∧ x ≤ b) || s x) := card_congr fun x _ => by
    unfold union; rw [Bool.or_comm]
  rw [e1] at h
  exact h

theorem card_diff_range {s : NSet} {a b : Nat} (hab : a ≤ b) (hb : b < 65536) :
    card 65536 (fun x => s x && !decide (a ≤ x ∧ x ≤ b)) + card (b - a + 1) (fun x => s (a + x)) =
      card 65536 s := by
  have h := card_diff 65536 s (fun x => decide (a ≤ x ∧ x ≤ b))
  rw [← card_inter_range hab hb]
  exact h

theorem sum_runCard (rs : List Rle) : (rs.map fun (r : Rle) => r.2 + 1).sum = runCard rs := by
  induction rs with
  | nil => rfl
  | cons r rs ih => rw [List.map_cons, List.sum_cons, ih, runCard_cons]

theorem containerFromRunRange_spec {rs : List Rle} {s : NSet} (h : RunOK rs) (hs : ∀ x, runHas rs x = s x)
    {a b : Nat} (hab : a ≤ b) (hb : b < 65536) :
    Rep (containerFromRunRange rs a b) (fun x => s x || decide (a ≤ x ∧ x ≤ b)) := by
  unfold containerFromRunRange DEFAULT_MAX_SIZE
  simp only
  have hw : ∀ x, bitAt (setRuns zeros rs) x = s x := fun x => by
    rw [bitAt_setRuns _ _ _ (runOK_lt_zeros h), bitAt_zeros, hs]; simp
  have hlen : (setRuns zeros rs).length = 1024 := by rw [setRuns_length, zeros_length]
  rw [lenrangeCardinality_eq, sum_runCard, ← card_of_run h hs]
  have e : card (b - a + 1) (fun x => bitAt (setRuns zeros rs) (a + x)) = card (b - a + 1) (fun x => s (a + x)) :=
    card_congr fun x _ => hw _
  have hu := card_union_range (s := s) hab hb
  rw [e]
  have e2 : card 65536 (fun x => s x || decide (a ≤ x ∧ x ≤ b)) =
      card 65536 (fun x => decide (a ≤ x ∧ x ≤ b) || s x) := card_congr fun x _ => Bool.or_comm _ _
  refine rep_shrink ?_ ?_ ?_
  · simp [hlen]
  · intro x
    rw [bitAt_setLenrange _ _ _ _ (by omega), hw, Bool.or_comm, show a + (b - a) = b by omega]
  · rw [e2]; omega

end CRoaring
