import Verif.Lemmas.Run
set_option linter.unusedSimpArgs false
set_option linter.unusedVariables false

namespace CRoaring
open Spec

/-! ### Cardinality, rank -/

theorem card_runHas_cons {r : Rle} {rs : List Rle} (h : RunOK (r :: rs)) (n : Nat) :
    card n (runHas (r :: rs)) = (min (r.1 + r.2 + 1) n - r.1) + card n (runHas rs) := by
  have h1 := card_incl_excl n (range r.1 (r.1 + r.2 + 1)) (runHas rs)
  have hk := runOK_cons.1 h
  rw [card_range] at h1
  have h2 : card n (inter (range r.1 (r.1 + r.2 + 1)) (runHas rs)) = 0 := by
    rw [card_eq_zero]
    intro x hx
    simp only [inter, range]
    cases hh : runHas rs x with
    | false => simp
    | true =>
      have := has_gt hk.2.1 hh
      simp; omega
  have h3 : card n (runHas (r :: rs)) = card n (union (range r.1 (r.1 + r.2 + 1)) (runHas rs)) := by
    apply card_congr
    intro x hx
    simp only [union, range, runHas_cons]
    grind
  omega

theorem card_runHas_zero {rs : List Rle} {n : Nat} (h : ∀ r ∈ rs, n ≤ r.1) : card n (runHas rs) = 0 := by
  rw [card_eq_zero]
  intro x hx
  rw [Bool.eq_false_iff]
  intro hh
  obtain ⟨r, hr, h1⟩ := runHas_iff.1 hh
  have := h r hr; omega

theorem runCard_cons (r : Rle) (rs : List Rle) : runCard (r :: rs) = r.2 + 1 + runCard rs := by
  simp [runCard]; omega

theorem card_runHas {rs : List Rle} (h : RunOK rs) {n : Nat} (hn : ∀ r ∈ rs, r.1 + r.2 < n) :
    card n (runHas rs) = runCard rs := by
  induction rs with
  | nil => rw [card_runHas_zero (by simp)]; rfl
  | cons r rs ih =>
    rw [card_runHas_cons h, ih h.tail (fun q hq => hn q (by simp [hq])), runCard_cons]
    have := hn r (by simp)
    omega

theorem card_runHas' {rs : List Rle} (h : RunOK rs) : card 65536 (runHas rs) = runCard rs :=
  card_runHas h h.lt

theorem runRankLoop_eq {rs : List Rle} (h : RunOK rs) (x sum : Nat) :
    runRankLoop x sum rs = sum + card (x + 1) (runHas rs) := by
  induction rs generalizing sum with
  | nil => rw [card_runHas_zero (by simp)]; rfl
  | cons r rs ih =>
    have hk := runOK_cons.1 h
    rw [runRankLoop]
    split
    · rename_i h1
      have h0 : card (x + 1) (runHas rs) = 0 :=
        card_runHas_zero (fun q hq => by have := hk.2.1 q hq; omega)
      rw [card_runHas_cons h, h0]
      split <;> omega
    · rename_i h1
      rw [ih h.tail, card_runHas_cons h]; omega

theorem runRank_eq {rs : List Rle} (h : RunOK rs) (x : Nat) : runRank rs x = card (x + 1) (runHas rs) := by
  rw [runRank, runRankLoop_eq h]; omega

theorem runGetIndexLoop_eq {rs : List Rle} (h : RunOK rs) (x sum : Nat) (hx : runHas rs x = true) :
    runGetIndexLoop x sum rs = sum + card x (runHas rs) := by
  induction rs generalizing sum with
  | nil => simp at hx
  | cons r rs ih =>
    have hk := runOK_cons.1 h
    rw [runGetIndexLoop]
    split
    · rename_i h1
      have h0 : card x (runHas rs) = 0 :=
        card_runHas_zero (fun q hq => by have := hk.2.1 q hq; omega)
      rw [card_runHas_cons h, h0]
      have h2 : ¬ x < r.1 := by
        intro h3
        rw [runHas_cons] at hx
        have : runHas rs x = true := by grind
        have := has_gt hk.2.1 this
        omega
      rw [if_neg h2]; omega
    · rename_i h1
      rw [ih h.tail _ (by rw [runHas_cons] at hx; grind), card_runHas_cons h]; omega

theorem runGetIndex_eq {rs : List Rle} (h : RunOK rs) (x : Nat) :
    runGetIndex rs x = if runHas rs x then (card x (runHas rs) : Int) else -1 := by
  unfold runGetIndex
  rw [runContains_eq h]
  split
  · rename_i hx; rw [runGetIndexLoop_eq h x 0 hx]; omega
  · rfl

theorem runRankStep_eq {rs : List Rle} (h : RunOK rs) (sr x sum : Nat) :
    (runRankStep sr x sum rs).1 = sr + sum + card (x + 1) (runHas rs) ∧
      RunOK (runRankStep sr x sum rs).2.2 ∧
      ∀ y, x ≤ y → (runRankStep sr x sum rs).2.1 + card (y + 1) (runHas (runRankStep sr x sum rs).2.2) =
        sum + card (y + 1) (runHas rs) := by
  induction rs generalizing sum with
  | nil =>
    refine ⟨?_, RunOK.nil, fun y _ => rfl⟩
    rw [runRankStep, card_runHas_zero (by simp)]; simp
  | cons r rs ih =>
    have hk := runOK_cons.1 h
    rw [runRankStep]
    split
    · rename_i h1
      refine ⟨?_, h, fun y _ => rfl⟩
      have h0 : card (x + 1) (runHas rs) = 0 :=
        card_runHas_zero (fun q hq => by have := hk.2.1 q hq; omega)
      rw [card_runHas_cons h, h0]
      split <;> simp only <;> omega
    · rename_i h1
      have := ih h.tail (sum + (r.2 + 1))
      refine ⟨?_, this.2.1, fun y hy => ?_⟩
      · rw [this.1, card_runHas_cons h]; omega
      · rw [this.2.2 y hy, card_runHas_cons h]; omega

theorem runRankManyLoop_eq {rs0 : List Rle} (sr hi : Nat) (sum : Nat) (rs : List Rle) (xs : List Nat)
    (h : RunOK rs)
    (hinv : ∀ x ∈ xs, x / 65536 = hi →
      sum + card (x % 65536 + 1) (runHas rs) = card (x % 65536 + 1) (runHas rs0))
    (hx : xs.Pairwise (· ≤ ·)) (hb : ∀ x ∈ xs, x < 4294967296) :
    runRankManyLoop sr hi sum rs xs =
      ((xs.takeWhile (fun x => x / 65536 == hi)).map (fun x => sr + card (x % 65536 + 1) (runHas rs0)),
        xs.dropWhile (fun x => x / 65536 == hi)) := by
  induction xs generalizing sum rs with
  | nil => simp [runRankManyLoop]
  | cons x xs ih =>
    have hxb := hb x (by simp)
    have hx' := List.pairwise_cons.1 hx
    rw [runRankManyLoop, show x / 65536 % 65536 = x / 65536 by omega]
    by_cases he : x / 65536 = hi
    · simp only [he, ne_eq, not_true_eq_false, if_false, List.takeWhile_cons, List.dropWhile_cons, beq_self_eq_true, if_true,
        List.map_cons]
      have hst := runRankStep_eq h sr (x % 65536) sum
      rw [ih _ _ hst.2.1 (fun y hy hyh => by
        have h1 := hx'.1 y hy
        rw [hst.2.2 _ (by omega)]
        exact hinv y (by simp [hy]) hyh) hx'.2 (fun y hy => hb y (by simp [hy]))]
      have := hinv x (by simp) he
      simp only [Prod.mk.injEq, List.cons.injEq, and_true]
      omega
    · have hne : (x / 65536 == hi) = false := by simpa using he
      simp only [he, ne_eq, not_false_eq_true, if_true, List.takeWhile_cons, List.dropWhile_cons, hne, Bool.false_eq_true, if_false,
        List.map_nil]

/-! ### Appending at the end -/

theorem runOKr_cons {p : Rle} {acc : List Rle} :
    RunOK (p :: acc).reverse ↔ RunOK acc.reverse ∧ p.1 + p.2 < 65536 ∧ ∀ a ∈ acc, a.1 + a.2 + 1 < p.1 := by
  rw [List.reverse_cons, runOK_mid]
  simp [RunOK.nil]

theorem runOKr_nil : RunOK ([] : List Rle).reverse := RunOK.nil

theorem runAppend_spec {acc : List Rle} {vl : Rle} (h : RunOK acc.reverse) (hv : vl.1 + vl.2 < 65536)
    (hle : ∀ p ∈ acc.head?, p.1 ≤ vl.1) :
    RunOK (runAppend acc vl).reverse ∧
      (∀ x, runHas (runAppend acc vl) x = (runHas acc x || decide (vl.1 ≤ x ∧ x ≤ vl.1 + vl.2))) ∧
      (∀ p ∈ (runAppend acc vl).head?, p.1 ≤ vl.1) := by
  unfold runAppend
  cases acc with
  | nil =>
    refine ⟨runOKr_cons.2 ⟨runOKr_nil, hv, by simp⟩, fun x => by simp [runHas_cons], by simp⟩
  | cons p acc =>
    have hk := runOKr_cons.1 h
    have hp := hle p (by simp)
    simp only
    split
    · rename_i h1
      refine ⟨runOKr_cons.2 ⟨h, hv, fun a ha => ?_⟩, fun x => ?_, by simp⟩
      · rcases List.mem_cons.1 ha with rfl | ha
        · omega
        · have := hk.2.2 a ha; omega
      · simp only [runHas_cons]; grind
    · rename_i h1
      split
      · rename_i h2
        rw [u16_eq (n := vl.1 + vl.2 - p.1) (by omega) (by omega)]
        refine ⟨runOKr_cons.2 ⟨hk.1, by simp; omega, by simpa using hk.2.2⟩, fun x => ?_, by simpa using hp⟩
        simp only [runHas_cons]; grind
      · rename_i h2
        refine ⟨h, fun x => ?_, by simpa using hp⟩
        simp only [runHas_cons]; grind

theorem runAppendValue_spec {acc : List Rle} {v : Nat} (h : RunOK acc.reverse) (hv : v < 65536)
    (hle : ∀ p ∈ acc.head?, p.1 ≤ v) :
    RunOK (runAppendValue acc v).reverse ∧
      (∀ x, runHas (runAppendValue acc v) x = (runHas acc x || decide (x = v))) ∧
      (∀ p ∈ (runAppendValue acc v).head?, p.1 ≤ v) := by
  unfold runAppendValue
  cases acc with
  | nil =>
    refine ⟨runOKr_cons.2 ⟨runOKr_nil, by simpa using hv, by simp⟩, fun x => ?_, by simp⟩
    simp only [runHas_cons, runHas_nil]; grind
  | cons p acc =>
    have hk := runOKr_cons.1 h
    have hp := hle p (by simp)
    simp only
    split
    · rename_i h1
      refine ⟨runOKr_cons.2 ⟨h, by simpa using hv, fun a ha => ?_⟩, fun x => ?_, by simp⟩
      · rcases List.mem_cons.1 ha with rfl | ha
        · simp; omega
        · have := hk.2.2 a ha; simp; omega
      · simp only [runHas_cons]; grind
    · rename_i h1
      split
      · rename_i h2
        rw [Nat.mod_eq_of_lt (by omega)]
        refine ⟨runOKr_cons.2 ⟨hk.1, by simp; omega, by simpa using hk.2.2⟩, fun x => ?_, by simpa using hp⟩
        simp only [runHas_cons]; grind
      · rename_i h2
        refine ⟨h, fun x => ?_, by simpa using hp⟩
        simp only [runHas_cons]; grind

theorem runUnionLoop_spec (rs xs acc : List Rle) (h1 : RunOK rs) (h2 : RunOK xs) (h : RunOK acc.reverse)
    (hle : ∀ p ∈ acc.head?, (∀ q ∈ rs, p.1 ≤ q.1) ∧ ∀ q ∈ xs, p.1 ≤ q.1) :
    RunOK (runUnionLoop rs xs acc).reverse ∧
      ∀ y, runHas (runUnionLoop rs xs acc) y = (runHas acc y || runHas rs y || runHas xs y) := by
  fun_induction runUnionLoop rs xs acc with
  | case1 acc => exact ⟨h, by simp⟩
  | case2 x xs acc ih =>
    have hk := runOK_cons.1 h2
    have ha := runAppend_spec h hk.1 (fun p hp => (hle p hp).2 x (by simp))
    have := ih RunOK.nil hk.2.2 ha.1 (fun p hp => ⟨by simp, fun q hq => by
      have := ha.2.2 p hp; have := hk.2.1 q hq; omega⟩)
    refine ⟨this.1, fun y => ?_⟩
    rw [this.2, ha.2.1]; simp only [runHas_cons, runHas_nil]; grind
  | case3 r rs acc ih =>
    have hk := runOK_cons.1 h1
    have ha := runAppend_spec h hk.1 (fun p hp => (hle p hp).1 r (by simp))
    have := ih hk.2.2 RunOK.nil ha.1 (fun p hp => ⟨fun q hq => by
      have := ha.2.2 p hp; have := hk.2.1 q hq; omega, by simp⟩)
    refine ⟨this.1, fun y => ?_⟩
    rw [this.2, ha.2.1]; simp only [runHas_cons, runHas_nil]; grind
  | case4 r rs x xs acc hc ih =>
    have hk := runOK_cons.1 h1
    have hk2 := runOK_cons.1 h2
    have ha := runAppend_spec h hk.1 (fun p hp => (hle p hp).1 r (by simp))
    have := ih hk.2.2 h2 ha.1 (fun p hp => ⟨fun q hq => by
      have := ha.2.2 p hp; have := hk.2.1 q hq; omega, fun q hq => by
      have := ha.2.2 p hp
      rcases List.mem_cons.1 hq with rfl | hq
      · omega
      · have := hk2.2.1 q hq; omega⟩)
    refine ⟨this.1, fun y => ?_⟩
    rw [this.2, ha.2.1]; simp only [runHas_cons, runHas_nil]; grind
  | case5 r rs x xs acc hc ih =>
    have hk := runOK_cons.1 h1
    have hk2 := runOK_cons.1 h2
    have ha := runAppend_spec h hk2.1 (fun p hp => (hle p hp).2 x (by simp))
    have := ih h1 hk2.2.2 ha.1 (fun p hp => ⟨fun q hq => by
      have := ha.2.2 p hp
      rcases List.mem_cons.1 hq with rfl | hq
      · omega
      · have := hk.2.1 q hq; omega, fun q hq => by
      have := ha.2.2 p hp; have := hk2.2.1 q hq; omega⟩)
    refine ⟨this.1, fun y => ?_⟩
    rw [this.2, ha.2.1]; simp only [runHas_cons, runHas_nil]; grind

theorem runIsFull_iff {rs : List Rle} : runIsFull rs = true ↔ rs = [(0, 65535)] := by
  unfold runIsFull
  cases rs with
  | nil => simp
  | cons r rs =>
    cases rs with
    | nil =>
      obtain ⟨a, b⟩ := r
      simp [rdR]
    | cons _ _ => simp

theorem runHas_full (x : Nat) : runHas [(0, 65535)] x = decide (x < 65536) := by
  simp only [runHas_cons, runHas_nil]; grind

theorem runUnion_spec {rs xs : List Rle} (h1 : RunOK rs) (h2 : RunOK xs) :
    RunOK (runUnion rs xs) ∧ ∀ y, runHas (runUnion rs xs) y = (runHas rs y || runHas xs y) := by
  unfold runUnion
  split
  · rename_i hf
    refine ⟨h1, fun y => ?_⟩
    rw [runIsFull_iff.1 hf, runHas_full]
    have := @RunOK.has_lt _ h2 y
    grind
  · split
    · rename_i hf
      refine ⟨h2, fun y => ?_⟩
      rw [runIsFull_iff.1 hf, runHas_full]
      have := @RunOK.has_lt _ h1 y
      grind
    · have := runUnionLoop_spec rs xs [] h1 h2 runOKr_nil (by simp)
      refine ⟨this.1, fun y => ?_⟩
      rw [runHas_reverse, this.2]; simp

/-! ### Exclusive or -/

theorem smartAppend_spec {acc : List Rle} {s l : Nat} (h : RunOK acc.reverse) (hv : s + l < 65536)
    (hle : ∀ p ∈ acc.head?, p.1 ≤ s) :
    RunOK (smartAppend acc s l).reverse ∧
      (∀ x, runHas (smartAppend acc s l) x = (runHas acc x != decide (s ≤ x ∧ x ≤ s + l))) ∧
      (∀ p ∈ (smartAppend acc s l).head?, p.1 ≤ s ∨
        (p.1 ≤ s + l + 1 ∧ ∃ q ∈ acc.head?, s < q.1 + q.2 + 1 ∧ p.1 ≤ q.1 + q.2 + 1)) ∧
      (∀ E, (∀ p ∈ acc, p.1 + p.2 + 1 ≤ E) → ∀ p ∈ smartAppend acc s l, p.1 + p.2 + 1 ≤ max E (s + l + 1)) := by
  unfold smartAppend
  cases acc with
  | nil =>
    refine ⟨runOKr_cons.2 ⟨runOKr_nil, hv, by simp⟩, fun x => by simp [runHas_cons], by simp, ?_⟩
    intro E hE p hp; simp at hp; subst hp; simp; omega
  | cons q acc =>
    have hk := runOKr_cons.1 h
    have hq := hle q (by simp)
    have hacc : ∀ x, runHas acc x = true → x + 1 < q.1 := fun x => has_lt hk.2.2
    simp only
    split
    · rename_i h1
      refine ⟨runOKr_cons.2 ⟨h, hv, fun a ha => ?_⟩, fun x => ?_, by simp, ?_⟩
      · rcases List.mem_cons.1 ha with rfl | ha
        · simp; omega
        · have := hk.2.2 a ha; simp; omega
      · have := hacc x
        simp only [runHas_cons]; grind
      · intro E hE p hp
        rcases List.mem_cons.1 hp with rfl | hp
        · simp; omega
        · have := hE p hp; omega
    · rename_i h1
      split
      · rename_i h2
        rw [Nat.mod_eq_of_lt (by omega)]
        refine ⟨runOKr_cons.2 ⟨hk.1, by simp; omega, by simpa using hk.2.2⟩, fun x => ?_, by simpa using Or.inl hq, ?_⟩
        · have := hacc x
          simp only [runHas_cons]; grind
        · intro E hE p hp
          rcases List.mem_cons.1 hp with rfl | hp
          · simp; omega
          · have := hE p (by simp [hp]); omega
      · rename_i h2
        split
        · rename_i h3
          split
          · rename_i h4
            rw [u16_nat (by omega), u16_eq (n := q.1 + q.2 - (s + l + 1)) (by omega) (by omega)]
            refine ⟨runOKr_cons.2 ⟨hk.1, by simp; omega, fun a ha => by have := hk.2.2 a ha; simp; omega⟩, fun x => ?_, ?_, ?_⟩
            · have := hacc x
              simp only [runHas_cons]; grind
            · simp; omega
            · intro E hE p hp
              have := hE q (by simp)
              rcases List.mem_cons.1 hp with rfl | hp
              · simp; omega
              · have := hE p (by simp [hp]); omega
          · split
            · rename_i h4 h5
              rw [u16_nat (by omega), u16_eq (n := s + l - (q.1 + q.2 + 1)) (by omega) (by omega)]
              refine ⟨runOKr_cons.2 ⟨hk.1, by simp; omega, fun a ha => by have := hk.2.2 a ha; simp; omega⟩, fun x => ?_, ?_, ?_⟩
              · have := hacc x
                simp only [runHas_cons]; grind
              · simp; omega
              · intro E hE p hp
                have := hE q (by simp)
                rcases List.mem_cons.1 hp with rfl | hp
                · simp; omega
                · have := hE p (by simp [hp]); omega
            · rename_i h4 h5
              refine ⟨hk.1, fun x => ?_, ?_, ?_⟩
              · have := hacc x
                simp only [runHas_cons]; grind
              · intro p hp
                left
                have hp' : p ∈ acc := List.mem_of_mem_head? hp
                have := hk.2.2 p hp'; omega
              · intro E hE p hp
                have := hE p (by simp [hp]); omega
        · rename_i h3
          rw [u16_eq (z := (s : Int) - q.1 - 1) (n := s - q.1 - 1) (by omega) (by omega)]
          have hp' : RunOK ((q.1, s - q.1 - 1) :: acc).reverse :=
            runOKr_cons.2 ⟨hk.1, by simp; omega, by simpa using hk.2.2⟩
          split
          · rename_i h4
            rw [u16_nat (by omega), u16_eq (n := q.1 + q.2 - (s + l + 1)) (by omega) (by omega)]
            refine ⟨runOKr_cons.2 ⟨hp', by simp; omega, fun a ha => ?_⟩, fun x => ?_, ?_, ?_⟩
            · rcases List.mem_cons.1 ha with rfl | ha
              · simp; omega
              · have := hk.2.2 a ha; simp; omega
            · have := hacc x
              simp only [runHas_cons]; grind
            · simp; omega
            · intro E hE p hp
              have := hE q (by simp)
              rcases List.mem_cons.1 hp with rfl | hp
              · simp; omega
              · rcases List.mem_cons.1 hp with rfl | hp
                · simp; omega
                · have := hE p (by simp [hp]); omega
          · split
            · rename_i h4 h5
              rw [u16_nat (by omega), u16_eq (n := s + l - (q.1 + q.2 + 1)) (by omega) (by omega)]
              refine ⟨runOKr_cons.2 ⟨hp', by simp; omega, fun a ha => ?_⟩, fun x => ?_, ?_, ?_⟩
              · rcases List.mem_cons.1 ha with rfl | ha
                · simp; omega
                · have := hk.2.2 a ha; simp; omega
              · have := hacc x
                simp only [runHas_cons]; grind
              · simp; omega
              · intro E hE p hp
                have := hE q (by simp)
                rcases List.mem_cons.1 hp with rfl | hp
                · simp; omega
                · rcases List.mem_cons.1 hp with rfl | hp
                  · simp; omega
                  · have := hE p (by simp [hp]); omega
            · rename_i h4 h5
              refine ⟨hp', fun x => ?_, by simp; omega, ?_⟩
              · have := hacc x
                simp only [runHas_cons]; grind
              · intro E hE p hp
                have := hE q (by simp)
                rcases List.mem_cons.1 hp with rfl | hp
                · simp; omega
                · have := hE p (by simp [hp]); omega

theorem smartAppend_head {acc : List Rle} {s l E1 E2 t : Nat} (h : RunOK acc.reverse) (hv : s + l < 65536)
    (hle : ∀ p ∈ acc.head?, p.1 ≤ s) (hE : ∀ p ∈ acc, p.1 + p.2 + 1 ≤ max E1 E2) (h1 : E1 ≤ s)
    (ht : s ≤ t) (h2 : s + l + 1 ≤ t ∨ E2 ≤ t) : ∀ p ∈ (smartAppend acc s l).head?, p.1 ≤ t := by
  intro p hp
  rcases (smartAppend_spec h hv hle).2.2.1 p hp with h3 | ⟨h3, q, hq, h4, h5⟩
  · omega
  · have := hE q (List.mem_of_mem_head? hq)
    omega

/-- Runs that are sorted and disjoint but may touch, such as the values of an array as one-value runs. -/
structure WRun (rs : List Rle) : Prop where
  gap : rs.Pairwise (fun a b => a.1 + a.2 < b.1)
  lt : ∀ r ∈ rs, r.1 + r.2 < 65536

theorem RunOK.wrun {rs : List Rle} (h : RunOK rs) : WRun rs :=
  ⟨h.gap.imp (fun hab => by omega), h.lt⟩

theorem WRun.nil : WRun [] := RunOK.nil.wrun

theorem wrun_cons {r : Rle} {rs : List Rle} :
    WRun (r :: rs) ↔ r.1 + r.2 < 65536 ∧ (∀ b ∈ rs, r.1 + r.2 < b.1) ∧ WRun rs := by
  constructor
  · rintro ⟨h1, h2⟩
    have := List.pairwise_cons.1 h1
    exact ⟨h2 r (by simp), this.1, this.2, fun q hq => h2 q (by simp [hq])⟩
  · rintro ⟨h1, h2, h3, h4⟩
    exact ⟨List.pairwise_cons.2 ⟨h2, h3⟩, fun q hq => by
      rcases List.mem_cons.1 hq with rfl | hq
      · exact h1
      · exact h4 q hq⟩

theorem runXorLoop_spec (rs xs acc : List Rle) (E1 E2 : Nat) (h1 : RunOK rs) (h2 : WRun xs) (h : RunOK acc.reverse)
    (hE : ∀ p ∈ acc, p.1 + p.2 + 1 ≤ max E1 E2) (hE1 : ∀ q ∈ rs, E1 ≤ q.1) (hE2 : ∀ q ∈ xs, E2 ≤ q.1)
    (hle : ∀ p ∈ acc.head?, (∀ q ∈ rs, p.1 ≤ q.1) ∧ ∀ q ∈ xs, p.1 ≤ q.1) :
    RunOK (runXorLoop rs xs acc).reverse ∧
      ∀ y, runHas (runXorLoop rs xs acc) y = (runHas acc y != (runHas rs y != runHas xs y)) := by
  fun_induction runXorLoop rs xs acc generalizing E1 E2 with
  | case1 acc => exact ⟨h, by simp⟩
  | case2 r rs acc ih =>
    have hk := runOK_cons.1 h1
    have hl := fun p hp => (hle p hp).1 r (by simp)
    have ha := smartAppend_spec h hk.1 hl
    have hr := hE1 r (by simp)
    have := ih (r.1 + r.2 + 1) E2 hk.2.2 WRun.nil ha.1 (fun p hp => by have := ha.2.2.2 _ hE p hp; omega)
      (fun q hq => by have := hk.2.1 q hq; omega) (by simp)
      (fun p hp => ⟨fun q hq => by
        have := hk.2.1 q hq
        exact smartAppend_head h hk.1 hl hE hr (by omega) (Or.inl (by omega)) p hp, by simp⟩)
    refine ⟨this.1, fun y => ?_⟩
    rw [this.2, ha.2.1, runHas_cons]
    have : runHas rs y = true → r.1 + r.2 + 1 < y := has_gt hk.2.1
    grind [runHas_nil]
  | case3 x xs acc ih =>
    have hk := wrun_cons.1 h2
    have hl := fun p hp => (hle p hp).2 x (by simp)
    have ha := smartAppend_spec h hk.1 hl
    have hr := hE2 x (by simp)
    have := ih E1 (x.1 + x.2 + 1) RunOK.nil hk.2.2 ha.1 (fun p hp => by have := ha.2.2.2 _ hE p hp; omega)
      (by simp) (fun q hq => by have := hk.2.1 q hq; omega)
      (fun p hp => ⟨by simp, fun q hq => by
        have := hk.2.1 q hq
        exact smartAppend_head (E1 := E2) (E2 := E1) h hk.1 hl (fun p hp => by have := hE p hp; omega) hr (by omega) (Or.inl (by omega)) p hp⟩)
    refine ⟨this.1, fun y => ?_⟩
    rw [this.2, ha.2.1, runHas_cons]
    have : runHas xs y = true → x.1 + x.2 < y := has_gt hk.2.1
    grind [runHas_nil]
  | case4 r rs x xs acc hc ih =>
    have hk := runOK_cons.1 h1
    have hk2 := wrun_cons.1 h2
    have hl := fun p hp => (hle p hp).1 r (by simp)
    have ha := smartAppend_spec h hk.1 hl
    have hr := hE1 r (by simp)
    have := ih (r.1 + r.2 + 1) E2 hk.2.2 h2 ha.1 (fun p hp => by have := ha.2.2.2 _ hE p hp; omega)
      (fun q hq => by have := hk.2.1 q hq; omega) hE2
      (fun p hp => ⟨fun q hq => by
        have := hk.2.1 q hq
        exact smartAppend_head h hk.1 hl hE hr (by omega) (Or.inl (by omega)) p hp, fun q hq => by
        refine smartAppend_head h hk.1 hl hE hr ?_ (Or.inr (hE2 q hq)) p hp
        rcases List.mem_cons.1 hq with rfl | hq
        · omega
        · have := hk2.2.1 q hq; omega⟩)
    refine ⟨this.1, fun y => ?_⟩
    rw [this.2, ha.2.1, runHas_cons r]
    have : runHas rs y = true → r.1 + r.2 + 1 < y := has_gt hk.2.1
    grind [runHas_nil]
  | case5 r rs x xs acc hc ih =>
    have hk := runOK_cons.1 h1
    have hk2 := wrun_cons.1 h2
    have hl := fun p hp => (hle p hp).2 x (by simp)
    have ha := smartAppend_spec h hk2.1 hl
    have hr := hE2 x (by simp)
    have hE' : ∀ p ∈ acc, p.1 + p.2 + 1 ≤ max E2 E1 := fun p hp => by have := hE p hp; omega
    have := ih E1 (x.1 + x.2 + 1) h1 hk2.2.2 ha.1 (fun p hp => by have := ha.2.2.2 _ hE p hp; omega)
      hE1 (fun q hq => by have := hk2.2.1 q hq; omega)
      (fun p hp => ⟨fun q hq => by
        refine smartAppend_head h hk2.1 hl hE' hr ?_ (Or.inr (hE1 q hq)) p hp
        rcases List.mem_cons.1 hq with rfl | hq
        · omega
        · have := hk.2.1 q hq; omega, fun q hq => by
        have := hk2.2.1 q hq
        exact smartAppend_head h hk2.1 hl hE' hr (by omega) (Or.inl (by omega)) p hp⟩)
    refine ⟨this.1, fun y => ?_⟩
    rw [this.2, ha.2.1, runHas_cons x]
    have : runHas xs y = true → x.1 + x.2 < y := has_gt hk2.2.1
    grind [runHas_nil]

theorem runXor_spec {rs xs : List Rle} (h1 : RunOK rs) (h2 : RunOK xs) :
    RunOK (runXor rs xs) ∧ ∀ y, runHas (runXor rs xs) y = (runHas rs y != runHas xs y) := by
  have := runXorLoop_spec rs xs [] 0 0 h1 h2.wrun runOKr_nil (by simp) (by simp) (by simp) (by simp)
  refine ⟨this.1, fun y => ?_⟩
  rw [runXor, runHas_reverse, this.2]; simp

end CRoaring
