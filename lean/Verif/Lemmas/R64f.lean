import Verif.Lemmas.R64e
import Verif.Lemmas.Bitmap3
/-
The 64-bit bitmap: `contains_range`, checked updates.
-/
set_option linter.unusedSimpArgs false
set_option linter.unusedVariables false
namespace CRoaring
open Spec

/-- The values of the range `[.., max)` with a key above `P` are in the bitmap. -/
def GapOk (max P : Nat) (l : Bitmap) : Prop := ∀ x, x < max → P < x / 65536 → bhas l x = true

/-- The container of the last value of the range was visited, is still to come, or no container past the range follows. -/
def LastSeen (M P : Nat) (l : Bitmap) : Prop := P = M ∨ (∃ p ∈ l, p.1 = M) ∨ ∀ p ∈ l, p.1 ≤ M

theorem gapOk_lastSeen {max P : Nat} {l : Bitmap} (hP : P ≤ (max - 1) / 65536) (hm : 0 < max) (h : GapOk max P l) :
    LastSeen ((max - 1) / 65536) P l := by
  rcases Nat.eq_or_lt_of_le hP with e | hlt
  · exact .inl e
  · obtain ⟨p, hp, e, -⟩ := bhas_key (h (max - 1) (by omega) hlt)
    exact .inr (.inl ⟨p, hp, e⟩)

/-- The test of one container. -/
theorem containsRange64_cell {c : Container} (hc : Rep c (chas c)) {min max n : Nat} (hlt : min < max)
    (h1 : min / 65536 ≤ n) (h2 : n ≤ (max - 1) / 65536) :
    (if (if n = min / 65536 then min % 65536 else 0) = 0 ∧ (if n = max / 65536 then max % 65536 else 65536) = 65536 then
      containerIsFull c
    else containerContainsRange (if n = min / 65536 then min % 65536 else 0) (if n = max / 65536 then max % 65536 else 65536) c) = true ↔
    ∀ x, min ≤ x → x < max → x / 65536 = n → chas c (x % 65536) = true := by
  generalize hA : (if n = min / 65536 then min % 65536 else 0) = a
  generalize hB : (if n = max / 65536 then max % 65536 else 65536) = b
  have hb : b ≤ 65536 := by rw [← hB]; split <;> omega
  have ha : a < b := by
    rw [← hA, ← hB]
    split <;> split <;> omega
  have key : (∀ x, min ≤ x → x < max → x / 65536 = n → chas c (x % 65536) = true) ↔ ∀ y, a ≤ y → y < b → chas c y = true := by
    constructor
    · intro h y hy1 hy2
      have := h (n * 65536 + y) (by rw [← hA] at hy1; split at hy1 <;> omega) (by rw [← hB] at hy2; split at hy2 <;> omega) (by omega)
      rwa [show (n * 65536 + y) % 65536 = y by omega] at this
    · intro h x hx1 hx2 hx3
      refine h _ ?_ ?_
      · rw [← hA]; split <;> omega
      · rw [← hB]; split <;> omega
  rw [key]
  by_cases hf : a = 0 ∧ b = 65536
  · rw [if_pos hf, containerIsFull_iff hc, hf.1, hf.2]
    exact ⟨fun h y _ hy => h y hy, fun h y hy => h y (Nat.zero_le _) hy⟩
  · rw [if_neg hf, containerContainsRange_iff hc ha hb]

theorem ICons.high {r : R64} {it : AIt} {n : Nat} {c : Container} {t : Bitmap} (g : ICons r it n c t) :
    combineKey it.key 0 = n * 65536 := by
  rw [combineKey_eq g.key (by omega), g.num, Nat.add_zero]

theorem ite_and_right {P : Prop} [Decidable P] {a b X : Bool} : (if P then (a && X) else (b && X)) = ((if P then a else b) && X) := by
  split <;> rfl

theorem ite_not_false {b X : Bool} : (if (!b) = true then false else X) = (b && X) := by cases b <;> rfl

/-- One step of the loop on a container with a key in the range. -/
theorem containsRange64_step {r : R64} {min max : Nat} (hmax : max < TOP64) (hlt : min < max) {fuel : Nat} {it : AIt} {n : Nat}
    {c : Container} {t : Bitmap} (g : ICons r it n c t) (hc : Rep c (chas c)) {P : Nat} (hP : P ≤ n) (h1 : min / 65536 ≤ n)
    (h2 : n ≤ (max - 1) / 65536) (h3 : n ≤ P + 1) :
    containsRange64Loop r (splitKey min) (splitKey max) (clearLow (max - 1)) (fuel + 1) it (P * 65536) = true ↔
    (∀ x, min ≤ x → x < max → x / 65536 = n → chas c (x % 65536) = true) ∧
      containsRange64Loop r (splitKey min) (splitKey max) (clearLow (max - 1)) fuel (itNext r it) (n * 65536) = true := by
  rw [← containsRange64_cell hc hlt h1 h2, containsRange64Loop, g.value]
  simp only
  have hn1 := keyNum_split (show min < TOP64 by omega)
  have hn2 := keyNum_split hmax
  have ek : combineKey it.key 0 = n * 65536 := g.high
  have hd : u64 (((n * 65536 : Nat) : Int) - ((P * 65536 : Nat) : Int)) = (n - P) * 65536 := by
    unfold u64; unfold TOP64 at hmax; omega
  rw [ek, if_neg (by unfold clearLow; omega), hd, if_neg (by omega)]
  have ec1 : (artCompareKeys it.key (splitKey min).1 = 0) = (n = min / 65536) := by
    rw [← hn1]; exact propext (cmp_key g (splitKey_isKey min)).1
  have ec2 : (artCompareKeys it.key (splitKey max).1 = 0) = (n = max / 65536) := by
    rw [← hn2]; exact propext (cmp_key g (splitKey_isKey max)).1
  simp only [ec1, ec2, splitKey_low, ite_not_false]
  rw [ite_and_right, Bool.and_eq_true]

theorem bq_cons_key {n : Nat} {c : Container} {t : Bitmap} (hl : BQ CNe ((n, c) :: t)) {x : Nat} (hx : x / 65536 = n) :
    bhas ((n, c) :: t) x = chas c (x % 65536) := by
  have := bq_head (y := x % 65536) hl (by omega)
  rwa [show n * 65536 + x % 65536 = x by omega] at this

theorem containsRange64_loop {r : R64} {min max : Nat} (hmax : max < TOP64) (hlt : min < max) (fuel : Nat) {it : AIt} {l : Bitmap}
    (hi : IL r it l) (hl : BQ CNe l) {P : Nat} (hP1 : min / 65536 ≤ P) (hP2 : P ≤ (max - 1) / 65536) (hgt : ∀ p ∈ l, P < p.1)
    (hs : LastSeen ((max - 1) / 65536) P l) (hf : l.length < fuel) :
    containsRange64Loop r (splitKey min) (splitKey max) (clearLow (max - 1)) fuel it (P * 65536) = true ↔ GapOk max P l := by
  induction fuel generalizing it l P with
  | zero => omega
  | succ fuel ih =>
    cases l with
    | nil =>
      rw [containsRange64Loop, hi.nil]
      simp only [clearLow, beq_iff_eq]
      constructor
      · intro e x hx hxP; omega
      · intro hG
        apply Classical.byContradiction
        intro hne
        have := hG (max - 1) (by omega) (by omega)
        rw [bhas_nil] at this; cases this
    | cons p t =>
      obtain ⟨n, c⟩ := p
      have g := hi.cons
      have hn := hgt (n, c) (by simp)
      simp only at hn
      by_cases hM : n ≤ (max - 1) / 65536
      · by_cases hstep : n ≤ P + 1
        · have en : n = P + 1 := by omega
          rw [containsRange64_step hmax hlt g hl.2.1.1.rep (by omega) (by omega) hM hstep,
            ih g.next hl.2.2.2 (by omega) hM hl.2.2.1 ?_ (by simp at hf; omega)]
          · constructor
            · rintro ⟨h1, h2⟩ x hx hxP
              by_cases hxn : x / 65536 = n
              · rw [bq_cons_key hl hxn]
                exact h1 x (by omega) hx hxn
              · rw [bhas_cons, h2 x hx (by omega), Bool.or_true]
            · intro hG
              refine ⟨fun x _ hx hxn => ?_, fun x hx hxP => ?_⟩
              · rw [← bq_cons_key hl hxn]; exact hG x hx (by omega)
              · have := hG x hx (by omega)
                rwa [bhas_cons, beq_eq_false_iff_ne.2 (by omega), Bool.false_and, Bool.false_or] at this
          · rcases hs with e | ⟨p, hp, e⟩ | ha
            · omega
            · rcases List.mem_cons.1 hp with rfl | hp
              · exact .inl e
              · exact .inr (.inl ⟨p, hp, e⟩)
            · exact .inr (.inr fun p hp => ha p (by simp [hp]))
        · rw [containsRange64Loop, g.value]
          simp only
          have ek : combineKey it.key 0 = n * 65536 := g.high
          have hd : u64 (((n * 65536 : Nat) : Int) - ((P * 65536 : Nat) : Int)) = (n - P) * 65536 := by
            unfold u64; unfold TOP64 at hmax; omega
          rw [ek, if_neg (by unfold clearLow; omega), hd, if_pos (by omega)]
          refine iff_of_false (by simp) fun hG => ?_
          have hb := hG ((P + 1) * 65536) (by omega) (by omega)
          have := bq_ge hl hb
          omega
      · rw [containsRange64Loop, g.value]
        simp only
        have ek : combineKey it.key 0 = n * 65536 := g.high
        rw [ek, if_pos (by unfold clearLow; omega)]
        refine iff_of_true rfl fun x hx hxP => ?_
        have hge : ∀ p ∈ (n, c) :: t, n ≤ p.1 := by
          intro p hp
          rcases List.mem_cons.1 hp with rfl | hp
          · exact Nat.le_refl _
          · exact Nat.le_of_lt (hl.2.2.1 p hp)
        rcases hs with e | ⟨p, hp, e⟩ | ha
        · omega
        · have := hge p hp; omega
        · have := ha (n, c) (by simp); simp only at this; omega

/-- `contains_range` is exact when the bitmap has a value in the 2^16 block of the last value of the range, or no value
past that block. -/
theorem r64ContainsRange_iff {r : R64} {s : NSet} (h : Rep64 r s) {min max : Nat} (hmax : max < TOP64)
    (hs : (∃ y, y / 65536 = (max - 1) / 65536 ∧ s y = true) ∨ (∀ y, s y = true → y / 65536 ≤ (max - 1) / 65536)) :
    r64ContainsRange r min max = true ↔ ∀ x, min ≤ x → x < max → s x = true := by
  rep64 h l
  unfold r64ContainsRange
  by_cases hlt : max ≤ min
  · rw [if_pos hlt]
    exact iff_of_true rfl fun x h1 h2 => by omega
  · have hlt : min < max := by omega
    rw [if_neg (by omega)]
    simp only
    have hk := splitKey_isKey min
    have hn := keyNum_split (show min < TOP64 by omega)
    have hi := h.rl.lower hk
    have hfl := h.rl.fuel
    have hq := h.bq
    obtain ⟨A, B, rfl, hA, hB⟩ := h.rl.ks.split (keyNum (splitKey min).1)
    rw [filter_ge_split hA hB] at hi
    have hqB := (bq_append.1 hq).2.1
    simp only [List.length_append] at hfl
    generalize artLowerBound r (splitKey min).1 = it at hi ⊢
    have hbB : ∀ x, min ≤ x → bhas (A ++ B) x = bhas B x := by
      intro x hx
      rw [bhas_append, bhas_ne (r := A) fun p hp => by have := hA p hp; omega]
      rfl
    have absurd1 : (∀ p ∈ B, min / 65536 < p.1) → ¬ ∀ x, min ≤ x → x < max → bhas (A ++ B) x = true := by
      intro h1 h2
      have := h2 min (Nat.le_refl _) hlt
      rw [hbB min (Nat.le_refl _), bhas_ne fun p hp => by have := h1 p hp; omega] at this
      cases this
    cases B with
    | nil =>
      rw [if_pos (.inl (by rw [hi.nil]; rfl))]
      exact iff_of_false (by simp) (absurd1 (by simp))
    | cons p t =>
      obtain ⟨n, c⟩ := p
      have g := hi.cons
      have hge := hB (n, c) (by simp)
      simp only at hge
      have ek : combineKey it.key 0 = n * 65536 := g.high
      rw [ek, g.value]
      simp only [Option.isNone_some, Bool.false_eq_true, false_or]
      by_cases hgt : n * 65536 > min
      · rw [if_pos hgt]
        refine iff_of_false (by simp) (absurd1 fun p hp => ?_)
        rcases List.mem_cons.1 hp with rfl | hp
        · simp only; omega
        · have := hqB.2.2.1 p hp; omega
      · rw [if_neg hgt]
        have en : n = min / 65536 := by omega
        have hfu : FUEL = (FUEL - 1) + 1 := by omega
        simp only [List.length_cons] at hfl
        have hM : n ≤ (max - 1) / 65536 := by omega
        rw [hfu, show clearLow min = n * 65536 by unfold clearLow; omega,
          containsRange64_step hmax hlt g hqB.2.1.1.rep (Nat.le_refl _) (by omega) hM (by omega),
          containsRange64_loop hmax hlt _ g.next hqB.2.2.2 (by omega) hM hqB.2.2.1 ?_ (by omega)]
        · constructor
          · rintro ⟨h1, h2⟩ x hx1 hx2
            rw [hbB x hx1]
            by_cases hxn : x / 65536 = n
            · rw [bq_cons_key hqB hxn]
              exact h1 x hx1 hx2 hxn
            · rw [bhas_cons, h2 x hx2 (by omega), Bool.or_true]
          · intro hG
            refine ⟨fun x hx1 hx2 hxn => ?_, fun x hx hxP => ?_⟩
            · rw [← bq_cons_key hqB hxn, ← hbB x hx1]; exact hG x hx1 hx2
            · have := hG x (by omega) hx
              rwa [hbB x (by omega), bhas_cons, beq_eq_false_iff_ne.2 (by omega), Bool.false_and, Bool.false_or] at this
        · rcases hs with ⟨y, hy1, hy2⟩ | ha
          · obtain ⟨p, hp, e, -⟩ := bhas_key hy2
            rcases List.mem_append.1 hp with hp | hp
            · have := hA p hp; omega
            · rcases List.mem_cons.1 hp with rfl | hp
              · simp only at e; exact .inl (by omega)
              · exact .inr (.inl ⟨p, hp, by omega⟩)
          · refine .inr (.inr fun p hp => ?_)
            obtain ⟨A', B', e⟩ := List.append_of_mem hp
            have hq2 := hqB.2.2.2
            rw [e] at hq2
            obtain ⟨y, hy1, hy2⟩ := bq_head_ex (bq_append.1 hq2).2.1
            have := ha (p.1 * 65536 + y) (by
              generalize p.1 * 65536 + y = y at hy2
              have hb : bhas (A ++ (n, c) :: t) y = (bhas A y || (bhas [(n, c)] y || (bhas A' y || bhas (p :: B') y))) := by
                rw [e, show A ++ (n, c) :: (A' ++ p :: B') = A ++ ([(n, c)] ++ (A' ++ p :: B')) by simp,
                  bhas_append, bhas_append, bhas_append]
              rw [hb, hy2]; simp)
            omega

/-- A range whose values are all present is always recognised. -/
theorem r64ContainsRange_complete {r : R64} {s : NSet} (h : Rep64 r s) {min max : Nat} (hmax : max < TOP64)
    (hs : ∀ x, min ≤ x → x < max → s x = true) : r64ContainsRange r min max = true := by
  by_cases hlt : max ≤ min
  · unfold r64ContainsRange
    rw [if_pos hlt]
  · exact (r64ContainsRange_iff h hmax (.inl ⟨max - 1, rfl, hs _ (by omega) (by omega)⟩)).2 hs

/-! ### Checked updates -/

theorem r64AddChecked_spec {r : R64} {s : NSet} (h : Rep64 r s) {v : Nat} (hv : v < TOP64) :
    (r64AddChecked r v).1 = r64Add r v ∧ (r64AddChecked r v).2 = !s v := by
  rep64 h l
  refine ⟨rfl, ?_⟩
  unfold r64AddChecked
  simp only [splitKey_low]
  have hk := splitKey_isKey v
  have hn := keyNum_split hv
  rcases h.rl.split hk with ⟨A, c, B, rfl, hA, hB, hf⟩ | ⟨A, B, rfl, hA, hB, hf⟩
  · rw [hf]
    simp only [r64AddAt, leafAt]
    have hc := (h.ne (keyNum (splitKey v).1, c) (by simp)).1.rep
    have hr := containerAdd_spec hc (v := v % 65536) split_low
    have hst := h.store hk (hr.cne (x := v % 65536) (by simp [Spec.insert]))
    rw [(hst.rl.find hk _).2 (by simp : (keyNum (splitKey v).1, containerAdd (v % 65536) c) ∈ A ++ (keyNum (splitKey v).1,
      containerAdd (v % 65536) c) :: B), Option.getD_some, bhas_mid hA hB, if_pos hn.symm]
    have h1 := containerCard_eq hc
    have h2 := containerCard_eq hr
    cases hx : chas c (v % 65536) with
    | true =>
      rw [h1, h2, card_int_congr fun x _ => insert_old hx x]
      simp
    | false =>
      have h3 := card_insert_new (n := 65536) (v := v % 65536) (s := chas c) (by omega) hx
      rw [h1, h2, h3]
      simp only [Bool.not_false, bne_iff_ne, ne_eq]
      omega
  · rw [hf]
    simp only [r64AddAt, leafAt]
    have hr := containerAdd_spec rep_empty (v := v % 65536) split_low
    have hin := h.insert hk hA hB (hr.cne (x := v % 65536) (by simp [Spec.insert]))
    rw [(hin.rl.find hk _).2 (by simp : (keyNum (splitKey v).1, containerAdd (v % 65536) (.array [])) ∈ A ++ (keyNum (splitKey v).1,
      containerAdd (v % 65536) (.array [])) :: B), Option.getD_some, bhas_gap hA hB hn.symm]
    rw [containerCard_eq hr, card_insert_new (n := 65536) (by omega) rfl]
    simp only [Bool.not_false, bne_iff_ne, ne_eq]
    omega

theorem r64RemoveChecked_spec {r : R64} {s : NSet} (h : Rep64 r s) {v : Nat} (hv : v < TOP64) :
    (r64RemoveChecked r v).1 = r64Remove r v ∧ (r64RemoveChecked r v).2 = s v := by
  rep64 h l
  unfold r64RemoveChecked r64Remove
  simp only
  have hk := splitKey_isKey v
  have hn := keyNum_split hv
  rcases h.rl.split hk with ⟨A, c, B, rfl, hA, hB, hf⟩ | ⟨A, B, rfl, hA, hB, hf⟩
  · rw [hf]
    simp only [leafAt]
    have hc := (h.ne (keyNum (splitKey v).1, c) (by simp)).1.rep
    have hr := containerRemove_spec hc (v := v % 65536) split_low
    rw [bhas_mid hA hB, if_pos hn.symm]
    by_cases hz : containerNonzero (containerRemove (v % 65536) c) = true
    · have hp : r64RemoveAt r (splitKey v).1 (splitKey v).2 (some c) =
          (artStore r (splitKey v).1 (containerRemove (v % 65536) c), false) := by
        simp only [r64RemoveAt, splitKey_low, hz, Bool.not_true, Bool.false_eq_true, if_false]
      rw [hp]
      simp only [Bool.false_eq_true, if_false, true_and]
      obtain ⟨y, hy⟩ := (containerNonzero_iff hr.lrep).1 hz
      have hst := h.store hk (hr.cne hy)
      rw [(hst.rl.find hk _).2 (by simp : (keyNum (splitKey v).1, containerRemove (v % 65536) c) ∈ A ++ (keyNum (splitKey v).1,
        containerRemove (v % 65536) c) :: B), Option.getD_some]
      have h1 := containerCard_eq hc
      have h2 := containerCard_eq hr
      cases hx : chas c (v % 65536) with
      | true =>
        have h3 := card_erase_old (n := 65536) (v := v % 65536) (s := chas c) (by omega) hx
        rw [h1, h2]
        simp only [bne_iff_ne, ne_eq]
        omega
      | false =>
        rw [h1, h2, card_int_congr fun x _ => erase_absent hx x]
        simp
    · rw [Bool.not_eq_true] at hz
      have hp : r64RemoveAt r (splitKey v).1 (splitKey v).2 (some c) =
          ((artErase (artStore r (splitKey v).1 (containerRemove (v % 65536) c)) (splitKey v).1).2, true) := by
        simp only [r64RemoveAt, splitKey_low, hz, Bool.not_false, if_true]
      rw [hp]
      simp only [if_true, true_and]
      -- the container became empty, so its only value was removed
      obtain ⟨y, hy⟩ := (h.ne (keyNum (splitKey v).1, c) (by simp)).2
      have hy2 : Spec.erase (chas c) (v % 65536) y = false := by
        cases hh : Spec.erase (chas c) (v % 65536) y with
        | false => rfl
        | true =>
          have := (containerNonzero_iff hr.lrep).2 ⟨y, hh⟩
          rw [hz] at this; cases this
      have ey : y = v % 65536 := by
        apply Classical.byContradiction
        intro hne
        simp only [Spec.erase] at hy2
        simp [hne] at hy2
        simp only at hy
        rw [hy] at hy2; cases hy2
      rw [← ey]; exact hy.symm
  · rw [hf]
    simp only [r64RemoveAt, bhas_gap hA hB hn.symm, true_and]

end CRoaring
