import Verif.Lemmas.Run2
set_option linter.unusedSimpArgs false
set_option linter.unusedVariables false

namespace CRoaring
open Spec

/-- Boolean identities over linear arithmetic: pass to propositions, then `grind`. -/
macro "bgrind" : tactic => `(tactic| (rw [Bool.eq_iff_iff]; simp only [Bool.or_eq_true, Bool.and_eq_true, Bool.not_eq_true',
  Bool.or_eq_false_iff, Bool.and_eq_false_imp, decide_eq_true_eq, decide_eq_false_iff_not, Bool.false_eq_true, or_false, false_or,
  Bool.not_eq_eq_eq_not, Bool.not_true, Bool.not_false]; grind))

/-! ### Intersection -/

theorem runIntersectionLoop_spec (rs xs : List Rle) (h1 : RunOK rs) (h2 : RunOK xs) :
    RunOK (runIntersectionLoop rs xs) ∧
      (∀ y, runHas (runIntersectionLoop rs xs) y = (runHas rs y && runHas xs y)) ∧
      (∀ q ∈ runIntersectionLoop rs xs, (∃ r ∈ rs, r.1 ≤ q.1) ∧ ∃ x ∈ xs, x.1 ≤ q.1) := by
  fun_induction runIntersectionLoop rs xs with
  | case1 r rs x xs start end_ xstart hc ih =>
    have hk := runOK_cons.1 h1
    have hk2 := runOK_cons.1 h2
    have := ih h1.tail h2
    refine ⟨this.1, fun y => ?_, fun q hq => ?_⟩
    · rw [this.2.1]
      have : runHas xs y = true → _ := has_gt hk2.2.1
      simp only [runHas_cons]; grind
    · have := this.2.2 q hq; grind
  | case2 r rs x xs start end_ xstart xend hc hc2 ih =>
    have hk := runOK_cons.1 h1
    have hk2 := runOK_cons.1 h2
    have := ih h1 h2.tail
    refine ⟨this.1, fun y => ?_, fun q hq => ?_⟩
    · rw [this.2.1]
      have : runHas rs y = true → _ := has_gt hk.2.1
      simp only [runHas_cons]; grind
    · have := this.2.2 q hq; grind
  | case3 r rs x xs start end_ xstart xend hc hc2 lat he ih =>
    have hk := runOK_cons.1 h1
    have hk2 := runOK_cons.1 h2
    have hi := ih h1.tail h2.tail
    have hlat : lat = max r.1 x.1 := by simp only [lat, start, xstart]; split <;> omega
    clear_value lat
    rw [u16_eq (n := end_ - lat - 1) (by simp only [end_, start, xend, xstart] at *; omega) (by simp only [end_, start, xend, xstart] at *; omega)]
    refine ⟨runOK_cons.2 ⟨by simp only [end_, start, xend, xstart] at *; omega, fun q hq => ?_, hi.1⟩, fun y => ?_, fun q hq => ?_⟩
    · obtain ⟨⟨r', hr', h5⟩, _⟩ := hi.2.2 q hq
      have := hk.2.1 r' hr'
      simp only [end_, start, xend, xstart] at *; omega
    · rw [runHas_cons, hi.2.1]
      have : runHas rs y = true → _ := has_gt hk.2.1
      have : runHas xs y = true → _ := has_gt hk2.2.1
      simp only [runHas_cons]; grind
    · rcases List.mem_cons.1 hq with rfl | hq
      · exact ⟨⟨r, by simp, by simp; omega⟩, ⟨x, by simp, by simp; omega⟩⟩
      · have := hi.2.2 q hq; grind
  | case4 r rs x xs start end_ xstart xend hc hc2 lat hne he ih =>
    have hk := runOK_cons.1 h1
    have hk2 := runOK_cons.1 h2
    have hi := ih h1.tail h2
    have hlat : lat = max r.1 x.1 := by simp only [lat, start, xstart]; split <;> omega
    clear_value lat
    rw [u16_eq (n := end_ - lat - 1) (by simp only [end_, start, xend, xstart] at *; omega) (by simp only [end_, start, xend, xstart] at *; omega)]
    refine ⟨runOK_cons.2 ⟨by simp only [end_, start, xend, xstart] at *; omega, fun q hq => ?_, hi.1⟩, fun y => ?_, fun q hq => ?_⟩
    · obtain ⟨⟨r', hr', h5⟩, _⟩ := hi.2.2 q hq
      have := hk.2.1 r' hr'
      simp only [end_, start, xend, xstart] at *; omega
    · rw [runHas_cons, hi.2.1]
      have : runHas rs y = true → _ := has_gt hk.2.1
      have : runHas xs y = true → _ := has_gt hk2.2.1
      simp only [runHas_cons]; grind
    · rcases List.mem_cons.1 hq with rfl | hq
      · exact ⟨⟨r, by simp, by simp; omega⟩, ⟨x, by simp, by simp; omega⟩⟩
      · have := hi.2.2 q hq; grind
  | case5 r rs x xs start end_ xstart xend hc hc2 lat hne he ih =>
    have hk := runOK_cons.1 h1
    have hk2 := runOK_cons.1 h2
    have hi := ih h1 h2.tail
    have hlat : lat = max r.1 x.1 := by simp only [lat, start, xstart]; split <;> omega
    clear_value lat
    rw [u16_eq (n := xend - lat - 1) (by simp only [end_, start, xend, xstart] at *; omega) (by simp only [end_, start, xend, xstart] at *; omega)]
    refine ⟨runOK_cons.2 ⟨by simp only [end_, start, xend, xstart] at *; omega, fun q hq => ?_, hi.1⟩, fun y => ?_, fun q hq => ?_⟩
    · obtain ⟨_, ⟨r', hr', h5⟩⟩ := hi.2.2 q hq
      have := hk2.2.1 r' hr'
      simp only [end_, start, xend, xstart] at *; omega
    · rw [runHas_cons, hi.2.1]
      have : runHas rs y = true → _ := has_gt hk.2.1
      have : runHas xs y = true → _ := has_gt hk2.2.1
      simp only [runHas_cons]; grind
    · rcases List.mem_cons.1 hq with rfl | hq
      · exact ⟨⟨r, by simp, by simp; omega⟩, ⟨x, by simp, by simp; omega⟩⟩
      · have := hi.2.2 q hq; grind
  | case6 rs xs hne =>
    refine ⟨RunOK.nil, fun y => ?_, by simp⟩
    cases rs with
    | nil => simp
    | cons r rs =>
      cases xs with
      | nil => simp
      | cons x xs => exact absurd rfl (hne _ _ _ _ rfl)

theorem runIntersection_spec {rs xs : List Rle} (h1 : RunOK rs) (h2 : RunOK xs) :
    RunOK (runIntersection rs xs) ∧ ∀ y, runHas (runIntersection rs xs) y = (runHas rs y && runHas xs y) := by
  unfold runIntersection
  split
  · rename_i hf
    refine ⟨h2, fun y => ?_⟩
    rw [runIsFull_iff.1 hf, runHas_full]
    have := @RunOK.has_lt _ h2 y
    grind
  · split
    · rename_i hf
      refine ⟨h1, fun y => ?_⟩
      rw [runIsFull_iff.1 hf, runHas_full]
      have := @RunOK.has_lt _ h1 y
      grind
    · have := runIntersectionLoop_spec rs xs h1 h2
      exact ⟨this.1, this.2.1⟩

theorem runIntersectionCardLoop_eq (rs xs : List Rle) (h1 : RunOK rs) (h2 : RunOK xs) :
    runIntersectionCardLoop rs xs = runCard (runIntersectionLoop rs xs) := by
  fun_induction runIntersectionCardLoop rs xs with
  | case1 r rs x xs start end_ xstart hc ih =>
    rw [runIntersectionLoop, if_pos hc, ih h1.tail h2]
  | case2 r rs x xs start end_ xstart xend hc hc2 ih =>
    rw [runIntersectionLoop, if_neg hc, if_pos hc2, ih h1 h2.tail]
  | case3 r rs x xs start end_ xstart xend hc hc2 lat he ih =>
    have hk := runOK_cons.1 h1
    have hk2 := runOK_cons.1 h2
    rw [runIntersectionLoop, if_neg hc, if_neg hc2, if_pos he, ih h1.tail h2.tail, runCard_cons]
    simp only [lat, end_, start, xend, xstart] at *
    rw [u16_eq (n := r.1 + r.2 + 1 - lat - 1) (by split <;> simp only [lat] <;> split <;> omega) (by omega)]
    simp only [lat]; split <;> omega
  | case4 r rs x xs start end_ xstart xend hc hc2 lat hne he ih =>
    have hk := runOK_cons.1 h1
    have hk2 := runOK_cons.1 h2
    rw [runIntersectionLoop, if_neg hc, if_neg hc2, if_neg hne, if_pos he, ih h1.tail h2, runCard_cons]
    simp only [lat, end_, start, xend, xstart] at *
    rw [u16_eq (n := r.1 + r.2 + 1 - lat - 1) (by split <;> simp only [lat] <;> split <;> omega) (by omega)]
    simp only [lat]; split <;> omega
  | case5 r rs x xs start end_ xstart xend hc hc2 lat hne he ih =>
    have hk := runOK_cons.1 h1
    have hk2 := runOK_cons.1 h2
    rw [runIntersectionLoop, if_neg hc, if_neg hc2, if_neg hne, if_neg he, ih h1 h2.tail, runCard_cons]
    simp only [lat, end_, start, xend, xstart] at *
    rw [u16_eq (n := x.1 + x.2 + 1 - lat - 1) (by split <;> simp only [lat] <;> split <;> omega) (by omega)]
    simp only [lat]; split <;> omega
  | case6 rs xs hne =>
    cases rs with
    | nil => simp [runIntersectionLoop, runCard]
    | cons r rs =>
      cases xs with
      | nil => simp [runIntersectionLoop, runCard]
      | cons x xs => exact absurd rfl (hne _ _ _ _ rfl)

theorem runIntersectionCard_eq {rs xs : List Rle} (h1 : RunOK rs) (h2 : RunOK xs) :
    runIntersectionCard rs xs = card 65536 (inter (runHas rs) (runHas xs)) := by
  have h := runIntersection_spec h1 h2
  have he : card 65536 (inter (runHas rs) (runHas xs)) = runCard (runIntersection rs xs) := by
    rw [← card_runHas' h.1]
    exact card_congr (fun x _ => (h.2 x).symm)
  rw [he]
  unfold runIntersectionCard runIntersection
  split
  · rfl
  · split
    · rfl
    · exact runIntersectionCardLoop_eq rs xs h1 h2

theorem runIntersectLoop_eq (rs xs : List Rle) :
    runIntersectLoop rs xs = !(runIntersectionLoop rs xs).isEmpty := by
  fun_induction runIntersectLoop rs xs with
  | case1 r rs x xs hc ih => rw [runIntersectionLoop, if_pos hc, ih]
  | case2 r rs x xs hc hc2 ih => rw [runIntersectionLoop, if_neg hc, if_pos hc2, ih]
  | case3 r rs x xs hc hc2 =>
    rw [runIntersectionLoop, if_neg hc, if_neg hc2]
    simp only
    split
    · split <;> simp
    · split <;> simp
  | case4 rs xs hne =>
    cases rs with
    | nil => simp [runIntersectionLoop]
    | cons r rs =>
      cases xs with
      | nil => simp [runIntersectionLoop]
      | cons x xs => exact absurd rfl (hne _ _ _ _ rfl)

theorem runHas_exists {rs : List Rle} : (∃ x, runHas rs x = true) ↔ rs ≠ [] := by
  constructor
  · rintro ⟨x, hx⟩ rfl; simp at hx
  · intro h
    cases rs with
    | nil => exact absurd rfl h
    | cons r rs => exact ⟨r.1, runHas_head⟩

theorem runIntersect_iff {rs xs : List Rle} (h1 : RunOK rs) (h2 : RunOK xs) :
    runIntersect rs xs = true ↔ ∃ y, runHas rs y = true ∧ runHas xs y = true := by
  have h := runIntersection_spec h1 h2
  have he : runIntersect rs xs = !(runIntersection rs xs).isEmpty := by
    unfold runIntersect runIntersection
    split
    · rfl
    · split
      · rfl
      · exact runIntersectLoop_eq rs xs
  rw [he]
  have := @runHas_exists (runIntersection rs xs)
  simp only [h.2, Bool.and_eq_true] at this
  rw [this]
  simp

/-! ### Difference -/

theorem runAndnotLoop_spec (start end_ : Nat) (rs xs : List Rle) (h1 : RunOK rs) (h2 : WRun xs)
    (hse : start < end_) (he : end_ ≤ 65536) (hrs : ∀ r ∈ rs, end_ < r.1) :
    RunOK (runAndnotLoop start end_ rs xs) ∧
      (∀ y, runHas (runAndnotLoop start end_ rs xs) y =
        ((decide (start ≤ y ∧ y < end_) || runHas rs y) && !runHas xs y)) ∧
      (∀ q ∈ runAndnotLoop start end_ rs xs, start ≤ q.1) := by
  fun_induction runAndnotLoop start end_ rs xs with
  | case1 start end_ rs =>
    rw [u16_eq (n := end_ - start - 1) (by omega) (by omega)]
    refine ⟨runOK_cons.2 ⟨by simp; omega, fun q hq => by have := hrs q hq; simp; omega, h1⟩, fun y => ?_, fun q hq => ?_⟩
    · simp only [runHas_cons, runHas_nil]; grind
    · rcases List.mem_cons.1 hq with rfl | hq
      · simp
      · have := hrs q hq; omega
  | case2 start end_ rs x xs start2 hc ih =>
    have hk2 := wrun_cons.1 h2
    rw [u16_eq (n := end_ - start - 1) (by omega) (by omega)]
    cases rs with
    | nil =>
      clear ih
      simp only
      refine ⟨runOK_cons.2 ⟨by simp; omega, by simp, RunOK.nil⟩, fun y => ?_, by simp⟩
      have : runHas xs y = true → _ := has_gt hk2.2.1
      simp only [runHas_cons, runHas_nil]; bgrind
    | cons r rs =>
      have hk := runOK_cons.1 h1
      have hi := ih hk.2.2 h2 (by omega) (by omega) (fun q hq => by have := hk.2.1 q hq; omega)
      have hr := hrs r (by simp)
      refine ⟨runOK_cons.2 ⟨by simp; omega, fun q hq => by have := hi.2.2 q hq; simp; omega, hi.1⟩, fun y => ?_, fun q hq => ?_⟩
      · simp only
        rw [runHas_cons, hi.2.1]
        have : runHas xs y = true → _ := has_gt hk2.2.1
        simp only [runHas_cons, runHas_nil]; bgrind
      · rcases List.mem_cons.1 hq with rfl | hq
        · simp
        · have := hi.2.2 q hq; omega
  | case3 start end_ rs x xs start2 end2 hc hc2 ih =>
    have hk2 := wrun_cons.1 h2
    have hi := ih h1 hk2.2.2 hse he hrs
    refine ⟨hi.1, fun y => ?_, hi.2.2⟩
    rw [hi.2.1]
    have : runHas rs y = true → _ := has_gt hrs
    simp only [runHas_cons, runHas_nil]; grind
  | case4 start end_ rs x xs start2 end2 hc hc2 pre hc3 ih =>
    have hk2 := wrun_cons.1 h2
    have hi := ih h1 hk2.2.2 hc3 he hrs
    have hst : end2 = x.1 + x.2 + 1 := rfl
    by_cases hp : start < start2
    · have hpre : pre = [(start, start2 - start - 1)] := by
        simp only [pre, dif_pos hp]
        rw [u16_eq (n := start2 - start - 1) (by omega) (by omega)]
      rw [hpre]
      refine ⟨runOK_append.2 ⟨runOK_cons.2 ⟨by simp; omega, by simp, RunOK.nil⟩, hi.1, fun a ha b hb => ?_⟩, fun y => ?_, fun q hq => ?_⟩
      · simp at ha; subst ha
        have := hi.2.2 b hb
        simp; omega
      · rw [runHas_append, hi.2.1]
        have : runHas rs y = true → _ := has_gt hrs
        have : runHas xs y = true → _ := has_gt hk2.2.1
        simp only [runHas_cons, runHas_nil]; grind
      · rcases List.mem_append.1 hq with hq | hq
        · simp at hq; subst hq; simp
        · have := hi.2.2 q hq; omega
    · have hpre : pre = [] := by simp only [pre, dif_neg hp]
      rw [hpre, List.nil_append]
      refine ⟨hi.1, fun y => ?_, fun q hq => by have := hi.2.2 q hq; omega⟩
      rw [hi.2.1]
      have : runHas rs y = true → _ := has_gt hrs
      simp only [runHas_cons, runHas_nil]; grind
  | case5 start end_ rs x xs start2 end2 hc hc2 pre hc3 ih =>
    cases rs with
    | nil =>
      have hk2 := wrun_cons.1 h2
      have hst : end2 = x.1 + x.2 + 1 := rfl
      rw [List.append_nil]
      by_cases hp : start < start2
      · have hpre : pre = [(start, start2 - start - 1)] := by
          simp only [pre, dif_pos hp]
          rw [u16_eq (n := start2 - start - 1) (by omega) (by omega)]
        rw [hpre]
        refine ⟨runOK_cons.2 ⟨by simp; omega, by simp, RunOK.nil⟩, fun y => ?_, by simp⟩
        have : runHas xs y = true → _ := has_gt hk2.2.1
        simp only [runHas_cons, runHas_nil]; bgrind
      · have hpre : pre = [] := by simp only [pre, dif_neg hp]
        rw [hpre]
        refine ⟨RunOK.nil, fun y => ?_, by simp⟩
        simp only [runHas_cons, runHas_nil]; grind
    | cons r rs =>
      simp only
      have hk := runOK_cons.1 h1
      have hk2 := wrun_cons.1 h2
      have hi := ih hk.2.2 h2 (by omega) (by omega) (fun q hq => by have := hk.2.1 q hq; omega)
      have hr := hrs r (by simp)
      have hst : end2 = x.1 + x.2 + 1 := rfl
      by_cases hp : start < start2
      · have hpre : pre = [(start, start2 - start - 1)] := by
          simp only [pre, dif_pos hp]
          rw [u16_eq (n := start2 - start - 1) (by omega) (by omega)]
        rw [hpre]
        refine ⟨runOK_append.2 ⟨runOK_cons.2 ⟨by simp; omega, by simp, RunOK.nil⟩, hi.1, fun a ha b hb => ?_⟩, fun y => ?_, fun q hq => ?_⟩
        · simp at ha; subst ha
          have := hi.2.2 b hb
          simp; omega
        · rw [runHas_append, hi.2.1]
          have : runHas xs y = true → _ := has_gt hk2.2.1
          simp only [runHas_cons, runHas_nil]; bgrind
        · rcases List.mem_append.1 hq with hq | hq
          · simp at hq; subst hq; simp
          · have := hi.2.2 q hq; omega
      · have hpre : pre = [] := by simp only [pre, dif_neg hp]
        rw [hpre, List.nil_append]
        refine ⟨hi.1, fun y => ?_, fun q hq => by have := hi.2.2 q hq; omega⟩
        rw [hi.2.1]
        simp only [runHas_cons, runHas_nil]; grind

theorem runAndnot_spec {rs xs : List Rle} (h1 : RunOK rs) (h2 : RunOK xs) :
    RunOK (runAndnot rs xs) ∧ ∀ y, runHas (runAndnot rs xs) y = (runHas rs y && !runHas xs y) := by
  cases rs with
  | nil => exact ⟨RunOK.nil, by simp [runAndnot]⟩
  | cons r rs =>
    have hk := runOK_cons.1 h1
    have := runAndnotLoop_spec r.1 (r.1 + r.2 + 1) rs xs hk.2.2 h2.wrun (by omega) (by omega) (fun q hq => by have := hk.2.1 q hq; omega)
    refine ⟨this.1, fun y => ?_⟩
    rw [runAndnot, this.2.1, runHas_cons]; grind

/-! ### Subset, validation, ends -/

theorem runIsSubset_iff (rs xs : List Rle) (h1 : RunOK rs) (h2 : RunOK xs) :
    runIsSubset rs xs = true ↔ ∀ y, runHas rs y = true → runHas xs y = true := by
  fun_induction runIsSubset rs xs with
  | case1 => simp
  | case2 r rs =>
    simp only [Bool.false_eq_true, false_iff]
    intro h; have := h r.1 runHas_head; simp at this
  | case3 r rs x xs hc =>
    have hk2 := runOK_cons.1 h2
    simp only [Bool.false_eq_true, false_iff]
    intro h
    have := h r.1 runHas_head
    rw [runHas_cons] at this
    have : runHas xs r.1 = true → _ := has_gt hk2.2.1
    grind
  | case4 r rs x xs hc hc2 ih =>
    have hk := runOK_cons.1 h1
    rw [ih h1.tail h2]
    constructor
    · intro h y hy
      have := h y
      simp only [runHas_cons] at *; grind
    · intro h y hy
      exact h y (by rw [runHas_cons]; simp [hy])
  | case5 r rs x xs hc hc2 he ih =>
    have hk := runOK_cons.1 h1
    have hk2 := runOK_cons.1 h2
    rw [ih h1.tail h2.tail]
    constructor
    · intro h y hy
      have := h y
      simp only [runHas_cons] at *; grind
    · intro h y hy
      have := h y (by rw [runHas_cons]; simp [hy])
      have : runHas rs y = true → _ := has_gt hk.2.1
      simp only [runHas_cons] at *; grind
  | case6 r rs x xs hc hc2 he ih =>
    have hk := runOK_cons.1 h1
    have hk2 := runOK_cons.1 h2
    rw [ih h1 h2.tail]
    constructor
    · intro h y hy
      have := h y hy
      rw [runHas_cons]; simp [this]
    · intro h y hy
      rcases Nat.lt_or_ge (x.1 + x.2) r.1 with h5 | h5
      · have h6 := h y hy
        have : runHas rs y = true → _ := has_gt hk.2.1
        simp only [runHas_cons] at *; grind
      · exfalso
        have h6 := h (x.1 + x.2 + 1) (by rw [runHas_cons]; grind)
        rw [runHas_cons] at h6
        have : runHas xs (x.1 + x.2 + 1) = true → _ := has_gt hk2.2.1
        grind

theorem runValidateLoop_iff (last : Nat) (rs : List Rle) (ht : ∀ r ∈ rs, r.1 < 65536 ∧ r.2 < 65536) :
    runValidateLoop last rs = true ↔ RunOK rs ∧ ∀ r ∈ rs, last < r.1 ∨ (last = 0 ∧ r.1 = 0) := by
  induction rs generalizing last with
  | nil => simp [runValidateLoop, RunOK.nil]
  | cons r rs ih =>
    have hr := ht r (by simp)
    rw [runValidateLoop]
    rw [u32_eq (n := r.1 + r.2 + 1) (by omega) (by omega), runOK_cons]
    have ih' := ih (r.1 + r.2 + 1) (fun q hq => ht q (by simp [hq]))
    split
    · omega
    split
    · simp; omega
    split
    · rename_i h1 h2 h3
      simp only [Bool.false_eq_true, false_iff]
      rintro ⟨_, h⟩
      have := h r (by simp); omega
    split
    · rename_i h1 h2 h3 h4
      simp only [Bool.false_eq_true, false_iff]
      rintro ⟨_, h⟩
      have := h r (by simp); omega
    · rename_i h1 h2 h3 h4
      rw [ih']
      constructor
      · rintro ⟨h5, h6⟩
        refine ⟨⟨by omega, fun q hq => by have := h6 q hq; omega, h5⟩, fun q hq => ?_⟩
        rcases List.mem_cons.1 hq with rfl | hq
        · omega
        · have := h6 q hq; omega
      · rintro ⟨⟨h5, h6, h7⟩, h8⟩
        exact ⟨h7, fun q hq => by have := h6 q hq; omega⟩

theorem runValidate_iff {rs : List Rle} (ht : ∀ r ∈ rs, r.1 < 65536 ∧ r.2 < 65536) :
    runValidate rs = true ↔ RunOK rs ∧ rs ≠ [] := by
  unfold runValidate
  split
  · rename_i h
    have : rs = [] := List.length_eq_zero_iff.1 h
    simp [this]
  · rename_i h
    rw [runValidateLoop_iff 0 rs ht]
    have : rs ≠ [] := fun e => h (by rw [e]; rfl)
    constructor
    · exact fun h => ⟨h.1, this⟩
    · exact fun h => ⟨h.1, fun r hr => by omega⟩

theorem runMin_spec {rs : List Rle} (h : RunOK rs) (hne : rs ≠ []) :
    runHas rs (runMin rs) = true ∧ ∀ y, runHas rs y = true → runMin rs ≤ y := by
  cases rs with
  | nil => exact absurd rfl hne
  | cons r rs =>
    have hk := runOK_cons.1 h
    have : runMin (r :: rs) = r.1 := by simp [runMin, rdR]
    rw [this]
    refine ⟨runHas_head, fun y hy => ?_⟩
    rw [runHas_cons] at hy
    have : runHas rs y = true → _ := has_gt hk.2.1
    grind

theorem runMax_spec {rs : List Rle} (h : RunOK rs) (hne : rs ≠ []) :
    runHas rs (runMax rs) = true ∧ ∀ y, runHas rs y = true → y ≤ runMax rs := by
  rcases List.eq_nil_or_concat rs with rfl | ⟨pre, r, rfl⟩
  · exact absurd rfl hne
  · rw [List.concat_eq_append] at *
    have hk := runOK_mid.1 h
    have : runMax (pre ++ [r]) = r.1 + r.2 := by
      have h1 := rdR_mid pre r []
      simp only [runMax, List.length_append, List.length_singleton]
      rw [if_neg (by omega), show pre.length + 1 - 1 = pre.length by omega, h1]
      omega
    rw [this]
    constructor
    · simp only [runHas_append, runHas_cons]; grind
    · intro y hy
      have : runHas pre y = true → _ := has_lt hk.2.2.2.1
      simp only [runHas_append, runHas_cons, runHas_nil] at hy; grind

/-! ### Listing -/

/-- The values of a list of runs, in order. -/
def runValues (rs : List Rle) : List Nat := rs.flatMap (fun r => List.range' r.1 (r.2 + 1))

theorem mem_runValues {rs : List Rle} {x : Nat} : x ∈ runValues rs ↔ runHas rs x = true := by
  rw [runHas_iff, runValues, List.mem_flatMap]
  constructor
  · rintro ⟨r, hr, h⟩
    have := List.mem_range'_1.1 h
    exact ⟨r, hr, by omega⟩
  · rintro ⟨r, hr, h⟩
    exact ⟨r, hr, List.mem_range'_1.2 (by omega)⟩

theorem runValues_cons (r : Rle) (rs : List Rle) : runValues (r :: rs) = List.range' r.1 (r.2 + 1) ++ runValues rs := by
  simp [runValues]

theorem runValues_sorted {rs : List Rle} (h : RunOK rs) : SSorted (runValues rs) := by
  induction rs with
  | nil => exact List.Pairwise.nil
  | cons r rs ih =>
    have hk := runOK_cons.1 h
    rw [runValues_cons]
    refine List.pairwise_append.2 ⟨range'_sorted _ _, ih h.tail, fun a ha b hb => ?_⟩
    have h1 := List.mem_range'_1.1 ha
    have h2 := has_gt hk.2.1 (mem_runValues.1 hb)
    omega

theorem runValues_eq {rs : List Rle} (h : RunOK rs) : runValues rs = enum 65536 (runHas rs) :=
  sorted_eq_enum (runValues_sorted h) (fun x => by
    rw [mem_runValues]
    exact ⟨fun hx => ⟨h.has_lt hx, hx⟩, fun hx => hx.2⟩)

theorem runValues_length (rs : List Rle) : (runValues rs).length = runCard rs := by
  induction rs with
  | nil => rfl
  | cons r rs ih => rw [runValues_cons, runCard_cons, List.length_append, ih]; simp

theorem runToUint32_eq {rs : List Rle} (h : RunOK rs) {base : Nat} (hb : base + 65536 ≤ 4294967296) :
    runToUint32 rs base = (enum 65536 (runHas rs)).map (base + ·) := by
  rw [← runValues_eq h]
  unfold runToUint32 runValues
  rw [List.map_flatMap]
  have : ∀ r ∈ rs, (List.range (r.2 + 1)).map (fun (j : Nat) => u32 ((u32 (base + r.1) : Int) + j)) =
      (List.range' r.1 (r.2 + 1)).map (base + ·) := by
    intro r hr
    have := h.lt r hr
    rw [List.range'_eq_map_range, List.map_map]
    apply List.map_congr_left
    intro j hj
    have hj := List.mem_range.1 hj
    rw [u32_eq (z := (base : Int) + r.1) (n := base + r.1) (by omega) (by omega),
      u32_eq (n := base + r.1 + j) (by omega) (by omega)]
    simp; omega
  rw [List.flatMap_def, List.flatMap_def, List.map_congr_left this]

theorem iterRange_eq {σ : Type} (f : σ → Nat → σ × Bool) (s : σ) (base v n : Nat) :
    iterRange f s (base + v) n = arrayIterate f s base (List.range' v n) := by
  induction n generalizing s v with
  | zero => simp [iterRange, arrayIterate]
  | succ n ih =>
    rw [iterRange, List.range'_succ, arrayIterate]
    rw [show ((v : Int) + (base : Int)) = ((base + v : Nat) : Int) by omega, show base + v + 1 = base + (v + 1) by omega]
    split
    · rw [ih]
    · rfl

theorem arrayIterate_append {σ : Type} (f : σ → Nat → σ × Bool) (s : σ) (base : Nat) (a b : List Nat) :
    arrayIterate f s base (a ++ b) =
      if (arrayIterate f s base a).2 then arrayIterate f (arrayIterate f s base a).1 base b else arrayIterate f s base a := by
  induction a generalizing s with
  | nil => simp [arrayIterate]
  | cons x a ih =>
    rw [List.cons_append, arrayIterate, arrayIterate]
    split
    · rw [ih]
    · simp

theorem runIterate_eq {σ : Type} (f : σ → Nat → σ × Bool) (s : σ) (base : Nat) {rs : List Rle} (h : RunOK rs)
    (hb : base + 65536 ≤ 4294967296) :
    runIterate f s base rs = arrayIterate f s base (enum 65536 (runHas rs)) := by
  rw [← runValues_eq h]
  induction rs generalizing s with
  | nil => rfl
  | cons r rs ih =>
    have hk := runOK_cons.1 h
    rw [runIterate, runValues_cons, arrayIterate_append]
    rw [u32_eq (n := base + r.1) (by omega) (by omega), iterRange_eq]
    split
    · rw [ih _ h.tail]
    · rename_i hh
      generalize arrayIterate f s base (List.range' r.1 (r.2 + 1)) = q at *
      obtain ⟨a, b⟩ := q
      simp at hh ⊢; exact hh

theorem runSelect_spec {rs : List Rle} (h : RunOK rs) (sr rank : Nat) (hr : rank < 4294967296)
    (hsr : sr ≤ rank) (hc : sr + runCard rs ≤ 4294967296) :
    (∀ v, runSelect sr rank rs = .inl v → runHas rs v = true ∧ sr + card v (runHas rs) = rank) ∧
    (∀ n, runSelect sr rank rs = .inr n → sr + runCard rs ≤ rank ∧ n = sr + runCard rs) := by
  induction rs generalizing sr with
  | nil =>
    simp only [runSelect, reduceCtorEq, false_implies, implies_true, true_and]
    intro n hn
    cases hn
    simp [runCard]; omega
  | cons r rs ih =>
    have hk := runOK_cons.1 h
    rw [runCard_cons] at hc ⊢
    rw [runSelect]
    split
    · rename_i h1
      rw [u32_eq (n := sr + r.2) (by omega) (by omega)] at h1
      rw [u32_eq (n := r.1 + rank - sr) (by omega) (by omega)]
      simp only [Sum.inl.injEq, reduceCtorEq, false_implies, implies_true, and_true]
      rintro v rfl
      refine ⟨by rw [runHas_cons]; grind, ?_⟩
      rw [card_runHas_cons h, card_runHas_zero (fun q hq => by have := hk.2.1 q hq; omega)]
      omega
    · rename_i h1
      rw [u32_eq (n := sr + r.2) (by omega) (by omega)] at h1
      rw [u32_eq (n := sr + r.2 + 1) (by omega) (by omega)]
      have := ih h.tail (sr + r.2 + 1) (by omega) (by omega)
      refine ⟨fun v hv => ?_, fun n hn => ?_⟩
      · have := this.1 v hv
        refine ⟨by rw [runHas_cons]; simp [this.1], ?_⟩
        have := has_gt hk.2.1 this.1
        rw [card_runHas_cons h]; omega
      · have := this.2 n hn; omega

theorem runCreateRange_spec {a b : Nat} (h : a < b) (hb : b ≤ 65536) :
    RunOK (runCreateRange a b) ∧ ∀ y, runHas (runCreateRange a b) y = decide (a ≤ y ∧ y < b) := by
  unfold runCreateRange
  rw [Nat.mod_eq_of_lt (by omega), u16_eq (n := b - a - 1) (by omega) (by omega)]
  refine ⟨runOK_cons.2 ⟨by simp; omega, by simp, RunOK.nil⟩, fun y => ?_⟩
  simp only [runHas_cons, runHas_nil]; grind

/-! ### Range membership -/

theorem containsRangeLoop_le (s e L c : Nat) (rs : List Rle) (h : RunOK rs) (hL : ∀ r ∈ rs, L ≤ r.1) (hLe : L ≤ e) :
    runContainsRangeLoop s e c rs ≤ c + (e - L) := by
  induction rs generalizing c L with
  | nil => rw [runContainsRangeLoop]; omega
  | cons r rs ih =>
    have hk := runOK_cons.1 h
    have := hL r (by simp)
    rw [runContainsRangeLoop]
    simp only
    split
    · omega
    · split
      · omega
      · have := ih (r.1 + r.2) (c + if u32 (((r.1 + r.2 : Nat) : Int) - s) < r.2 then u32 (((r.1 + r.2 : Nat) : Int) - s) else r.2)
          h.tail (fun q hq => by have := hk.2.1 q hq; omega) (by omega)
        split at this <;> split <;> omega

theorem containsRangeLoop_ge (s e c : Nat) (rs : List Rle) : c ≤ runContainsRangeLoop s e c rs := by
  induction rs generalizing c with
  | nil => rw [runContainsRangeLoop]; omega
  | cons r rs ih =>
    rw [runContainsRangeLoop]
    simp only
    split
    · omega
    · split
      · omega
      · exact Nat.le_trans (by omega) (ih _)

theorem containsRangeLoop_iff {s e : Nat} {r : Rle} {rs : List Rle} (h : RunOK (r :: rs)) (h1 : r.1 ≤ s)
    (h2 : s ≤ r.1 + r.2) (h3 : s < e) :
    runContainsRangeLoop s e 0 (r :: rs) ≥ e - s - 1 ↔ e ≤ r.1 + r.2 + 1 := by
  have hk := runOK_cons.1 h
  rw [runContainsRangeLoop]
  simp only
  rw [if_neg (by omega)]
  split
  · omega
  · rename_i hst
    rw [u32_eq (n := r.1 + r.2 - s) (by omega) (by omega)]
    have hm : (0 + if r.1 + r.2 - s < r.2 then r.1 + r.2 - s else r.2) = r.1 + r.2 - s := by split <;> omega
    rw [hm]
    constructor
    · intro hge
      rcases Nat.lt_or_ge (r.1 + r.2 + 1) e with h5 | h5
      · have := containsRangeLoop_le s e (r.1 + r.2 + 2) (r.1 + r.2 - s) rs h.tail (fun q hq => by have := hk.2.1 q hq; omega) (by omega)
        omega
      · exact h5
    · intro he
      have := containsRangeLoop_ge s e (r.1 + r.2 - s) rs
      omega

theorem runHas_range_iff {pre post : List Rle} {r : Rle} (h : RunOK (pre ++ r :: post)) {s e : Nat} (h1 : r.1 ≤ s)
    (h2 : s ≤ r.1 + r.2) (h3 : s < e) :
    (∀ y, s ≤ y → y < e → runHas (pre ++ r :: post) y = true) ↔ e ≤ r.1 + r.2 + 1 := by
  have hk := runOK_mid.1 h
  constructor
  · intro hall
    rcases Nat.lt_or_ge (r.1 + r.2 + 1) e with h5 | h5
    · exfalso
      have h6 := hall (r.1 + r.2 + 1) (by omega) h5
      simp only [runHas_append, runHas_cons] at h6
      have : runHas pre (r.1 + r.2 + 1) = true → _ := has_lt hk.2.2.2.1
      have : runHas post (r.1 + r.2 + 1) = true → _ := has_gt hk.2.2.2.2
      grind
    · exact h5
  · intro he y hy1 hy2
    simp only [runHas_append, runHas_cons]; grind

theorem runContainsRange_iff {rs : List Rle} (h : RunOK rs) {s e : Nat} (hs : s < e) (he : e ≤ 65536) :
    runContainsRange rs s e = true ↔ ∀ y, s ≤ y → y < e → runHas rs y = true := by
  unfold runContainsRange
  simp only
  rw [Nat.mod_eq_of_lt (by omega : s < 65536), show u32 ((e : Int) - s - 1) = e - s - 1 from u32_eq (by omega) (by omega)]
  rcases run_split h s with ⟨pre, l, post, rfl, hi⟩ | ⟨hlt, hi⟩ | ⟨pre, r, post, rfl, hlt, hpost, hi⟩
  · rw [hi]
    have hk := runOK_mid.1 h
    have hneg : ¬ ((pre.length : Int) < 0) := by omega
    simp only [hneg, false_and, if_false, Int.toNat_natCast]
    rw [List.drop_left, runHas_range_iff h (by simp) (by simp) hs, decide_eq_true_iff]
    exact containsRangeLoop_iff (runOK_append.1 h).2.1 (by simp) (by simp) hs
  · rw [hi]
    simp only [show ((-1 : Int) < 0) by omega, if_true, show (-(-1) - 2 : Int) = -1 by omega, true_and, true_or]
    simp only [Bool.false_eq_true, false_iff]
    intro hall
    have h1 := hall s (by omega) hs
    obtain ⟨r, hr, h2⟩ := runHas_iff.1 h1
    have := hlt r hr; omega
  · rw [hi]
    have hk := runOK_mid.1 h
    have hneg : (-((pre.length : Int) + 2) < 0) := by omega
    simp only [hneg, if_true, true_and, show (-(-((pre.length : Int) + 2)) - 2 : Int) = pre.length by omega,
      Int.toNat_natCast, rdR_mid]
    rw [show u32 ((s : Int) - r.1) = s - r.1 from u32_eq (by omega) (by omega)]
    have hne : ¬ ((pre.length : Int) = -1) := by omega
    simp only [hne, false_or]
    split
    · rename_i h1
      simp only [Bool.false_eq_true, false_iff]
      intro hall
      have h2 := hall s (by omega) hs
      simp only [runHas_append, runHas_cons] at h2
      have : runHas pre s = true → _ := has_lt hk.2.2.2.1
      have : runHas post s = true → _ := has_gt hpost
      grind
    · rename_i h1
      rw [List.drop_left, runHas_range_iff h (by omega) (by omega) hs, decide_eq_true_iff]
      exact containsRangeLoop_iff (runOK_append.1 h).2.1 (by omega) (by omega) hs

end CRoaring
