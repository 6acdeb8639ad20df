import Verif.Lemmas.Run4
set_option linter.unusedSimpArgs false
set_option linter.unusedVariables false

namespace CRoaring
open Spec

theorem runIndexEqualOrLarger_spec {rs : List Rle} (h : RunOK rs) (x : Nat) :
    ∃ A B, rs = A ++ B ∧ (∀ a ∈ A, a.1 + a.2 < x) ∧ (∀ b ∈ B, x ≤ b.1 + b.2) ∧
      runIndexEqualOrLarger rs x = if B = [] then -1 else (A.length : Int) := by
  unfold runIndexEqualOrLarger
  simp only
  rcases run_split h x with ⟨pre, l, post, rfl, hi⟩ | ⟨hlt, hi⟩ | ⟨pre, r, post, rfl, hlt, hpost, hi⟩
  · have hk := runOK_mid.1 h
    refine ⟨pre, (x, l) :: post, rfl, fun a ha => by have := hk.2.2.2.1 a ha; simp at this; omega, fun b hb => ?_, ?_⟩
    · rcases List.mem_cons.1 hb with rfl | hb
      · simp
      · have := hk.2.2.2.2 b hb; simp at this; omega
    · rw [hi, if_pos (by omega), if_neg (by simp)]
  · refine ⟨[], rs, rfl, by simp, fun b hb => by have := hlt b hb; omega, ?_⟩
    rw [hi, if_neg (by omega)]
    simp only [show (-(-1) - 2 : Int) = -1 by omega, ne_eq, not_true_eq_false, false_and, if_false]
    cases rs with
    | nil => simp
    | cons r rs => simp
  · have hk := runOK_mid.1 h
    rw [hi, if_neg (by omega)]
    simp only [show (-(-((pre.length : Int) + 2)) - 2 : Int) = pre.length by omega, Int.toNat_natCast, rdR_mid]
    by_cases hc : x ≤ r.1 + r.2
    · refine ⟨pre, r :: post, rfl, fun a ha => by have := hk.2.2.2.1 a ha; omega, fun b hb => ?_, ?_⟩
      · rcases List.mem_cons.1 hb with rfl | hb
        · exact hc
        · have := hk.2.2.2.2 b hb; omega
      · rw [if_pos ⟨by omega, by omega⟩, if_neg (by simp)]
    · refine ⟨pre ++ [r], post, by simp, fun a ha => ?_, fun b hb => by have := hpost b hb; omega, ?_⟩
      · rcases List.mem_append.1 ha with ha | ha
        · have := hk.2.2.2.1 a ha; omega
        · simp at ha; subst ha; omega
      · rw [if_neg (by omega)]
        cases post with
        | nil => simp
        | cons p post => simp; omega

theorem runHas_map_shift {rs : List Rle} (off : Nat) (h : ∀ r ∈ rs, r.1 + off < 65536) (y : Nat) :
    runHas (rs.map (fun r => ((r.1 + off) % 65536, r.2))) y = (decide (off ≤ y) && runHas rs (y - off)) := by
  induction rs with
  | nil => simp
  | cons r rs ih =>
    have h1 := h r (by simp)
    rw [List.map_cons, runHas_cons, ih (fun q hq => h q (by simp [hq])), runHas_cons, Nat.mod_eq_of_lt h1]
    simp only
    generalize runHas rs (y - off) = m
    cases m <;> bgrind

theorem runHas_map_shift2 {rs : List Rle} (off : Nat) (ho : off < 65536) (h : ∀ r ∈ rs, 65536 ≤ r.1 + off ∧ r.1 < 65536) (y : Nat) :
    runHas (rs.map (fun r => ((r.1 + off) % 65536, r.2))) y = runHas rs (y + 65536 - off) := by
  induction rs with
  | nil => simp
  | cons r rs ih =>
    have h1 := h r (by simp)
    rw [List.map_cons, runHas_cons, ih (fun q hq => h q (by simp [hq])), runHas_cons]
    have : (r.1 + off) % 65536 = r.1 + off - 65536 := by omega
    simp only [this]
    generalize runHas rs _ = m
    cases m
    · bgrind
    · simp

theorem runOK_map_shift {rs : List Rle} (h : RunOK rs) (off : Nat) (hb : ∀ r ∈ rs, r.1 + r.2 + off < 65536) :
    RunOK (rs.map (fun r => ((r.1 + off) % 65536, r.2))) := by
  constructor
  · refine List.pairwise_map.2 (h.gap.imp_of_mem (fun {a b} ha hb' hab => ?_))
    have := hb a ha; have := hb b hb'
    simp only
    rw [Nat.mod_eq_of_lt (by omega), Nat.mod_eq_of_lt (by omega)]; omega
  · intro r hr
    obtain ⟨q, hq, rfl⟩ := List.mem_map.1 hr
    have := hb q hq
    simp only
    rw [Nat.mod_eq_of_lt (by omega)]; omega

theorem runOK_map_shift2 {rs : List Rle} (h : RunOK rs) (off : Nat) (ho : off < 65536) (hb : ∀ r ∈ rs, 65536 ≤ r.1 + off) :
    RunOK (rs.map (fun r => ((r.1 + off) % 65536, r.2))) := by
  have hm : ∀ r ∈ rs, (r.1 + off) % 65536 = r.1 + off - 65536 := fun r hr => by
    have := hb r hr; have := h.lt r hr; omega
  constructor
  · refine List.pairwise_map.2 (h.gap.imp_of_mem (fun {a b} ha hb' hab => ?_))
    have := hb a ha; have := hb b hb'
    simp only
    rw [hm a ha, hm b hb']; omega
  · intro r hr
    obtain ⟨q, hq, rfl⟩ := List.mem_map.1 hr
    have := hb q hq; have := h.lt q hq
    simp only
    rw [hm q hq]; omega

theorem runOffset_spec {rs : List Rle} (h : RunOK rs) (off : Nat) (ho : 0 < off) (hoff : off < 65536) :
    (∀ c, (runOffset rs off).1 = some c →
        RunOK c ∧ c ≠ [] ∧ ∀ x, runHas c x = (decide (x < 65536 ∧ off ≤ x) && runHas rs (x - off))) ∧
    (∀ c, (runOffset rs off).2 = some c →
        RunOK c ∧ c ≠ [] ∧ ∀ x, runHas c x = (decide (x < 65536) && runHas rs (x + 65536 - off))) ∧
    ((runOffset rs off).1 = none → ∀ x, runHas rs x = true → 65536 ≤ x + off) ∧
    ((runOffset rs off).2 = none → ∀ x, runHas rs x = true → x + off < 65536) := by
  obtain ⟨A, B, rfl, hA, hB, hi⟩ := runIndexEqualOrLarger_spec h (65536 - off)
  have hAB := runOK_append.1 h
  have hAb : ∀ r ∈ A, r.1 + r.2 + off < 65536 := fun r hr => by have := hA r hr; omega
  unfold runOffset
  simp only
  rw [Nat.mod_eq_of_lt (by omega : 65536 - off < 65536), hi]
  cases B with
  | nil =>
    simp only [List.append_nil, if_true, ne_eq, not_true_eq_false, decide_false, Bool.false_and, Bool.false_eq_true, if_false,
      List.take_length, reduceCtorEq, false_implies, implies_true, and_true, true_and]
    refine ⟨fun c hc => ?_, fun hn x hx => ?_, fun _ x hx => ?_⟩
    · split at hc
      · rename_i hne
        cases hc
        refine ⟨runOK_map_shift hAB.1 off hAb, by simpa using hne, fun x => ?_⟩
        rw [runHas_map_shift off (fun r hr => by have := hAb r hr; omega)]
        have : runHas A (x - off) = true → x - off < 65536 - off := fun hx => by
          obtain ⟨r, hr, h1⟩ := runHas_iff.1 hx; have := hA r hr; omega
        generalize runHas A (x - off) = m at *
        cases m <;> bgrind
      · cases hc
    · split at hn
      · cases hn
      · rename_i h0
        have : A = [] := by simpa using h0
        subst this; simp at hx
    · obtain ⟨r, hr, h1⟩ := runHas_iff.1 hx; have := hA r hr; omega
  | cons b B =>
    have hk := runOK_cons.1 hAB.2.1
    have hb := hB b (by simp)
    have hBk : ∀ q ∈ B, 65536 ≤ q.1 + off := fun q hq => by have := hk.2.1 q hq; omega
    have hne : ¬ ((A.length : Int) = -1) := by omega
    have hAx : ∀ x, runHas A x = true → x + off < 65536 := fun x hx => by
      obtain ⟨r, hr, h1⟩ := runHas_iff.1 hx; have := hA r hr; omega
    have hBx : ∀ x, runHas B x = true → 65536 ≤ x + off ∧ b.1 + b.2 + 1 < x := fun x hx => by
      have := has_gt hk.2.1 hx; omega
    simp only [reduceCtorEq, if_false, ne_eq, hne, not_false_eq_true, decide_true, Bool.true_and, Int.toNat_natCast, rdR_mid, List.drop_left]
    by_cases hs : b.1 < 65536 - off
    · simp only [hs, decide_true, if_true, Nat.add_sub_cancel]
      rw [show (A ++ b :: B).take (A.length + 1) = A ++ [b] by
        have := List.take_left (l₁ := A ++ [b]) (l₂ := B); simpa using this]
      have hlo : ((A ++ [b]).map (fun r : Rle => ((r.1 + off) % 65536, r.2))).set A.length
            ((rdR ((A ++ [b]).map (fun r : Rle => ((r.1 + off) % 65536, r.2))) A.length).1,
              u16 (65536 - ((rdR ((A ++ [b]).map (fun r : Rle => ((r.1 + off) % 65536, r.2))) A.length).1 : Int) - 1)) =
          (A ++ [(b.1, 65535 - (b.1 + off))]).map (fun r : Rle => ((r.1 + off) % 65536, r.2)) := by
        have hrd : rdR ((A ++ [b]).map (fun r : Rle => ((r.1 + off) % 65536, r.2))) A.length = (b.1 + off, b.2) := by
          have := rdR_mid (A.map (fun r : Rle => ((r.1 + off) % 65536, r.2))) (b.1 + off, b.2) []
          rw [List.length_map] at this
          simp only [List.map_append, List.map_cons, List.map_nil]
          rw [Nat.mod_eq_of_lt (by omega : b.1 + off < 65536), this]
        rw [hrd]
        simp only
        rw [u16_eq (n := 65535 - (b.1 + off)) (by omega) (by omega)]
        have := set_mid (A.map (fun r : Rle => ((r.1 + off) % 65536, r.2))) ((b.1 + off) % 65536, b.2) (b.1 + off, 65535 - (b.1 + off)) []
        rw [List.length_map] at this
        simp only [List.map_append, List.map_cons, List.map_nil]
        rw [this, Nat.mod_eq_of_lt (by omega : b.1 + off < 65536)]
      have hhi : ((b :: B).map (fun r : Rle => ((r.1 + off) % 65536, r.2))).set 0
            (0, u16 (((rdR ((b :: B).map (fun r : Rle => ((r.1 + off) % 65536, r.2))) 0).2 : Int) -
              (65535 - (rdR ((b :: B).map (fun r : Rle => ((r.1 + off) % 65536, r.2))) 0).1 + 1))) =
          (0, b.1 + b.2 - (65536 - off)) :: B.map (fun r : Rle => ((r.1 + off) % 65536, r.2)) := by
        simp only [List.map_cons, rdR, List.getD_cons_zero, List.set_cons_zero]
        rw [Nat.mod_eq_of_lt (by omega : b.1 + off < 65536), u16_eq (n := b.1 + b.2 - (65536 - off)) (by omega) (by omega)]
      rw [hlo, hhi]
      simp only [Nat.add_eq_zero_iff, Nat.succ_ne_self, and_false, not_false_eq_true, if_true, Option.some.injEq, reduceCtorEq,
        false_implies, and_true, List.length_append, List.length_cons, show ¬ (A.length + (B.length + 1) - A.length = 0) by omega]
      refine ⟨?_, ?_⟩
      · rintro c rfl
        have hA' : RunOK (A ++ [(b.1, 65535 - (b.1 + off))]) :=
          runOK_mid.2 ⟨hAB.1, RunOK.nil, by simp; omega, fun a ha => hAB.2.2 a ha b (by simp), by simp⟩
        have hA'b : ∀ r ∈ A ++ [(b.1, 65535 - (b.1 + off))], r.1 + r.2 + off < 65536 := by
          intro r hr
          rcases List.mem_append.1 hr with hr | hr
          · exact hAb r hr
          · simp at hr; subst hr; simp; omega
        refine ⟨runOK_map_shift hA' off hA'b, by simp, fun x => ?_⟩
        rw [runHas_map_shift off (fun r hr => by have := hA'b r hr; omega)]
        have h1 := hAx (x - off)
        have h2 := hBx (x - off)
        simp only [runHas_append, runHas_cons, runHas_nil]
        generalize runHas A (x - off) = m at *
        generalize runHas B (x - off) = m2 at *
        clear hlo hhi hA' hA'b h hi hA hB hAB hk hBk hAb hAx hBx
        obtain ⟨bs, bl⟩ := b
        simp only at *
        cases m <;> cases m2 <;> bgrind
      · rintro c rfl
        refine ⟨runOK_cons.2 ⟨by simp; omega, fun q hq => ?_, runOK_map_shift2 hk.2.2 off hoff hBk⟩, by simp, fun x => ?_⟩
        · obtain ⟨r, hr, rfl⟩ := List.mem_map.1 hq
          have := hk.2.1 r hr
          have := hBk r hr
          have := hk.2.2.lt r hr
          simp only; omega
        · rw [runHas_cons, runHas_map_shift2 off hoff (fun r hr => ⟨hBk r hr, by have := hk.2.2.lt r hr; omega⟩)]
          have h1 := hAx (x + 65536 - off)
          have h3 := @RunOK.has_lt _ hk.2.2 (x + 65536 - off)
          have hbl := hk.1
          simp only [runHas_append, runHas_cons, runHas_nil]
          generalize runHas A (x + 65536 - off) = m at *
          generalize runHas B (x + 65536 - off) = m2 at *
          clear hlo hhi h hi hA hB hAB hk hBk hAb hAx hBx
          obtain ⟨bs, bl⟩ := b
          simp only at *
          cases m <;> cases m2 <;> bgrind
    · simp only [hs, decide_false, if_false, Bool.false_eq_true, Nat.add_zero, List.take_left]
      have hbB : ∀ q ∈ b :: B, 65536 ≤ q.1 + off := fun q hq => by
        rcases List.mem_cons.1 hq with rfl | hq
        · omega
        · exact hBk q hq
      simp only [List.length_append, List.length_cons, show ¬ (A.length + (B.length + 1) - A.length = 0) by omega, not_false_eq_true, if_true,
        Option.some.injEq, reduceCtorEq, false_implies, and_true]
      have hbx : ∀ x, runHas (b :: B) x = true → 65536 ≤ x + off ∧ x < 65536 := fun x hx => by
        refine ⟨?_, hAB.2.1.has_lt hx⟩
        obtain ⟨r, hr, h1⟩ := runHas_iff.1 hx; have := hbB r hr; omega
      refine ⟨fun c hc => ?_, ?_, fun hn x hx => ?_⟩
      · split at hc
        · cases hc
          rename_i hne2
          refine ⟨runOK_map_shift hAB.1 off hAb, by simpa using hne2, fun x => ?_⟩
          rw [runHas_map_shift off (fun r hr => by have := hAb r hr; omega), runHas_append]
          have h1 := hAx (x - off)
          have h2 := hbx (x - off)
          generalize runHas A (x - off) = m at *
          generalize runHas (b :: B) (x - off) = m2 at *
          clear h hi hA hB hAB hk hBk hAb hAx hBx hbB hbx
          cases m <;> cases m2 <;> bgrind
        · cases hc
      · rintro c rfl
        refine ⟨runOK_map_shift2 hAB.2.1 off hoff hbB, by simp, fun x => ?_⟩
        rw [runHas_map_shift2 off hoff (fun r hr => ⟨hbB r hr, by have := hAB.2.1.lt r hr; omega⟩), runHas_append]
        have h1 := hAx (x + 65536 - off)
        have h2 := hbx (x + 65536 - off)
        generalize runHas A (x + 65536 - off) = m at *
        generalize runHas (b :: B) (x + 65536 - off) = m2 at *
        clear h hi hA hB hAB hk hBk hAb hAx hBx hbB hbx
        cases m <;> cases m2 <;> bgrind
      · split at hn
        · cases hn
        · rename_i h0
          have : A = [] := by simpa using h0
          subst this
          exact (hbx x hx).1

end CRoaring
