import Verif.Lemmas.R64g
import Verif.Lemmas.Bulk
/-
The 64-bit bitmap: bulk operations, construction from a range, from a 32-bit bitmap, run optimisation, statistics.
-/
set_option linter.unusedSimpArgs false
set_option linter.unusedVariables false
namespace CRoaring
open Spec

/-! ### Bulk operations -/

/-- The leaf pointer of the context, if there is one, points to a leaf of the bitmap. -/
def CtxOk64 (r : R64) (ctx : BulkCtx64) : Prop := ∀ k, ctx = some k → IsKey k ∧ artFind r k ≠ none

theorem ctx64_none (r : R64) : CtxOk64 r none := fun k e => by cases e

/-- The entry of a value is present exactly when its block has a value. -/
theorem Rep64.find_iff {r : R64} {s : NSet} (h : Rep64 r s) {k : List Nat} (hk : IsKey k) :
    artFind r k ≠ none ↔ ∃ y, y / 65536 = keyNum k ∧ s y = true := by
  rcases h.at_key hk with ⟨c, hf, hc, hs, -⟩ | ⟨hf, hs, -⟩
  · rw [hf]
    refine iff_of_true (by simp) ?_
    obtain ⟨y, hy⟩ := hc.2
    have hlt := chas_lt hc.1 hy
    refine ⟨keyNum k * 65536 + y, by omega, ?_⟩
    rw [hs _ (by omega), show (keyNum k * 65536 + y) % 65536 = y by omega, hy]
  · rw [hf]
    refine iff_of_false (by simp) ?_
    rintro ⟨y, h1, h2⟩
    rw [hs y h1] at h2; cases h2

theorem add64_ctx {r : R64} {s : NSet} (h : Rep64 r s) {v : Nat} (hv : v < TOP64) :
    CtxOk64 (r64Add r v) (some (splitKey v).1) := by
  intro k e
  cases e
  refine ⟨splitKey_isKey v, ((r64Add_spec h hv).find_iff (splitKey_isKey v)).2 ⟨v, (keyNum_split hv).symm, by simp [Spec.insert]⟩⟩

theorem same_key64 {k : List Nat} (hk : IsKey k) {v : Nat} (h : artCompareKeys k (splitKey v).1 = 0) : k = (splitKey v).1 :=
  (artCompareKeys_spec hk (splitKey_isKey v)).1.1 h

theorem r64AddBulk_spec {r : R64} {s : NSet} (h : Rep64 r s) {ctx : BulkCtx64} (hc : CtxOk64 r ctx) {v : Nat} (hv : v < TOP64) :
    r64AddBulk r ctx v = some (r64Add r v, some (splitKey v).1) := by
  unfold r64AddBulk
  simp only
  cases ctx with
  | none => rfl
  | some k =>
    obtain ⟨hk, hf⟩ := hc k rfl
    simp only
    split
    · next e =>
      have := same_key64 hk e
      subst this
      cases hf' : artFind r (splitKey v).1 with
      | none => exact absurd hf' hf
      | some c =>
        simp only
        unfold r64Add
        simp only
        rw [hf']
        rfl
    · rfl

theorem addMany64_loop {r : R64} {s : NSet} (h : Rep64 r s) {ctx : BulkCtx64} (hc : CtxOk64 r ctx) {vals : List Nat}
    (hv : ∀ v ∈ vals, v < TOP64) : r64AddManyLoop r ctx vals = some (vals.foldl r64Add r) := by
  induction vals generalizing r s ctx with
  | nil => rfl
  | cons v t ih =>
    have hv' := hv v (by simp)
    rw [r64AddManyLoop, r64AddBulk_spec h hc hv']
    simp only
    rw [ih (r64Add_spec h hv') (add64_ctx h hv') (fun w hw => hv w (by simp [hw])), List.foldl_cons]

theorem foldl_add64 {r : R64} {s : NSet} (h : Rep64 r s) {vals : List Nat} (hv : ∀ v ∈ vals, v < TOP64) :
    Rep64 (vals.foldl r64Add r) (Spec.union s (ofList vals)) := by
  induction vals generalizing r s with
  | nil => exact h.congr fun x => by simp [Spec.union, ofList]
  | cons v t ih =>
    rw [List.foldl_cons]
    refine (ih (r64Add_spec h (hv v (by simp))) fun w hw => hv w (by simp [hw])).congr fun x => ?_
    simp only [Spec.union, ofList, Spec.insert, List.mem_cons]
    by_cases e : x = v
    · subst e; simp
    · simp [beq_eq_false_iff_ne.2 e, e]

theorem r64AddMany_spec {r : R64} {s : NSet} (h : Rep64 r s) {vals : List Nat} (hv : ∀ v ∈ vals, v < TOP64) :
    ∃ r', r64AddMany r vals = some r' ∧ Rep64 r' (Spec.union s (ofList vals)) := by
  refine ⟨_, ?_, foldl_add64 h hv⟩
  unfold r64AddMany
  split
  · next e =>
    rw [List.length_eq_zero_iff.1 e]; rfl
  · exact addMany64_loop h (ctx64_none r) hv

theorem r64ContainsBulk_spec {r : R64} {ctx : BulkCtx64} (hc : CtxOk64 r ctx) (v : Nat) :
    ∃ ctx', r64ContainsBulk r ctx v = some (r64Contains r v, ctx') ∧ CtxOk64 r ctx' := by
  have fresh : ∃ ctx', (match artFind r (splitKey v).1 with
      | none => some (false, ctx)
      | some c => some (containerContains (splitKey v).2 c, some (splitKey v).1)) = some (r64Contains r v, ctx') ∧ CtxOk64 r ctx' := by
    unfold r64Contains
    simp only
    cases hf : artFind r (splitKey v).1 with
    | none => exact ⟨ctx, rfl, hc⟩
    | some c =>
      refine ⟨_, rfl, fun k e => ?_⟩
      cases e
      exact ⟨splitKey_isKey v, by rw [hf]; simp⟩
  unfold r64ContainsBulk
  simp only
  cases ctx with
  | none => exact fresh
  | some k =>
    obtain ⟨hk, hf⟩ := hc k rfl
    simp only
    split
    · exact fresh
    · next e =>
      have := same_key64 hk (Classical.not_not.1 e)
      subst this
      cases hf' : artFind r (splitKey v).1 with
      | none => exact absurd hf' hf
      | some c =>
        refine ⟨_, ?_, hc⟩
        unfold r64Contains
        simp only
        rw [hf']

/-- `remove_bulk` with a usable context removes the value; the context afterwards is none or has the key of the value. -/
theorem r64RemoveBulk_spec {r : R64} {ctx : BulkCtx64} (hc : CtxOk64 r ctx) (v : Nat) :
    r64RemoveBulk r ctx v = some (r64Remove r v, (artFind r (splitKey v).1).map fun _ => (splitKey v).1) := by
  have fresh : (some ((r64RemoveAt r (splitKey v).1 (splitKey v).2 (artFind r (splitKey v).1)).1,
      (artFind r (splitKey v).1).map (fun _ => (splitKey v).1)) : Option (R64 × BulkCtx64)) =
      some (r64Remove r v, (artFind r (splitKey v).1).map fun _ => (splitKey v).1) := rfl
  unfold r64RemoveBulk
  simp only
  cases ctx with
  | none => exact fresh
  | some k =>
    obtain ⟨hk, hf⟩ := hc k rfl
    simp only
    split
    · next e =>
      have := same_key64 hk e
      subst this
      cases hf' : artFind r (splitKey v).1 with
      | none => exact absurd hf' hf
      | some c =>
        simp only [Option.map_some]
        unfold r64Remove
        simp only
        rw [hf']
        unfold r64RemoveAt
        simp only
        split <;> rfl
    · exact fresh

/-- The values of a list are removed from the set. -/
def without (s : NSet) (vals : List Nat) : NSet := fun x => s x && !decide (x ∈ vals)

theorem without_cons (s : NSet) (v : Nat) (vs : List Nat) (x : Nat) : without (Spec.erase s v) vs x = without s (v :: vs) x := by
  simp only [without, Spec.erase, List.mem_cons]
  by_cases e : x = v
  · subst e; simp
  · simp [bne_iff_ne.2 e, e]

/-- The value `v` is in the set, and no other value of its 2^16 block is. -/
def OnlyOne (s : NSet) (v : Nat) : Prop := s v = true ∧ ∀ y, y / 65536 = v / 65536 → s y = true → y = v

/-- Some value of the list is the last of its block, and the next value of the list has the same block. -/
def BadRemove (s : NSet) : List Nat → Prop
  | [] => False
  | v :: vs => (OnlyOne s v ∧ ∃ w B, vs = w :: B ∧ w / 65536 = v / 65536) ∨ BadRemove (Spec.erase s v) vs

theorem removeMany64_loop {r : R64} {s : NSet} (h : Rep64 r s) {ctx : BulkCtx64} (hc : CtxOk64 r ctx) {vals : List Nat}
    (hv : ∀ v ∈ vals, v < TOP64) :
    (∀ r', r64RemoveManyLoop r ctx vals = some r' → Rep64 r' (without s vals)) ∧
    (r64RemoveManyLoop r ctx vals = none ↔ BadRemove s vals) := by
  induction vals generalizing r s ctx with
  | nil =>
    refine ⟨fun r' e => ?_, ?_⟩
    · simp only [r64RemoveManyLoop, Option.some.injEq] at e
      rw [← e]
      exact h.congr fun x => by simp [without]
    · simp [r64RemoveManyLoop, BadRemove]
  | cons v vs ih =>
    have hv' := hv v (by simp)
    have hvs : ∀ w ∈ vs, w < TOP64 := fun w hw => hv w (by simp [hw])
    have hk := splitKey_isKey v
    have hn := keyNum_split hv'
    have h' := r64Remove_spec h hv'
    rw [r64RemoveManyLoop, r64RemoveBulk_spec hc]
    simp only
    have hwc : ∀ r', Rep64 r' (without (Spec.erase s v) vs) → Rep64 r' (without s (v :: vs)) :=
      fun r' hr => hr.congr fun x => without_cons s v vs x
    by_cases halive : CtxOk64 (r64Remove r v) ((artFind r (splitKey v).1).map fun _ => (splitKey v).1)
    · obtain ⟨i1, i2⟩ := ih h' halive hvs
      refine ⟨fun r' e => hwc r' (i1 r' e), ?_⟩
      rw [i2]
      simp only [BadRemove]
      constructor
      · exact .inr
      · rintro (⟨⟨h1, h2⟩, -⟩ | hb)
        · exfalso
          have hf : artFind r (splitKey v).1 ≠ none := (h.find_iff hk).2 ⟨v, hn.symm, h1⟩
          cases hf' : artFind r (splitKey v).1 with
          | none => exact hf hf'
          | some c =>
            rw [hf'] at halive
            obtain ⟨y, hy1, hy2⟩ := (h'.find_iff hk).1 (halive _ rfl).2
            simp only [Spec.erase, Bool.and_eq_true, bne_iff_ne, ne_eq] at hy2
            have := h2 y (by omega)
            grind
        · exact hb
    · -- the container of the value became empty
      cases hf : artFind r (splitKey v).1 with
      | none => rw [hf] at halive; exact absurd (ctx64_none _) halive
      | some c =>
        rw [hf] at halive
        simp only [Option.map_some] at halive ⊢
        have hdead : artFind (r64Remove r v) (splitKey v).1 = none := by
          apply Classical.byContradiction
          intro hne
          exact halive fun k e => by cases e; exact ⟨hk, hne⟩
        have hemp : ∀ y, y / 65536 = v / 65536 → Spec.erase s v y = false := by
          intro y hy
          cases hh : Spec.erase s v y with
          | false => rfl
          | true => exact absurd hdead ((h'.find_iff hk).2 ⟨y, by omega, hh⟩)
        have honly : OnlyOne s v := by
          obtain ⟨y, hy1, hy2⟩ := (h.find_iff hk).1 (by rw [hf]; simp)
          have h3 : ∀ y, y / 65536 = v / 65536 → s y = true → y = v := by
            intro y h1 h2
            have := hemp y h1
            simp only [Spec.erase] at this
            grind
          have := h3 y (by omega) hy2
          subst this
          exact ⟨hy2, h3⟩
        cases vs with
        | nil =>
          refine ⟨fun r' e => ?_, ?_⟩
          · simp only [r64RemoveManyLoop, Option.some.injEq] at e
            rw [← e]
            exact hwc _ (h'.congr fun x => by simp [without])
          · simp [r64RemoveManyLoop, BadRemove]
        | cons w B =>
          have hw := hvs w (by simp)
          by_cases hkw : w / 65536 = v / 65536
          · have e1 : artCompareKeys (splitKey v).1 (splitKey w).1 = 0 := by
              rw [key_cmp hv' hw]; exact hkw.symm
            have e2 : r64RemoveManyLoop (r64Remove r v) (some (splitKey v).1) (w :: B) = none := by
              rw [r64RemoveManyLoop]
              unfold r64RemoveBulk
              simp only
              rw [if_pos e1, hdead]
            rw [e2]
            refine ⟨fun r' e => (by cases e), iff_of_true rfl (.inl ⟨honly, w, B, rfl, hkw⟩)⟩
          · have e1 : artCompareKeys (splitKey v).1 (splitKey w).1 ≠ 0 := by
              rw [ne_eq, key_cmp hv' hw]; omega
            have e2 : r64RemoveManyLoop (r64Remove r v) (some (splitKey v).1) (w :: B) =
                r64RemoveManyLoop (r64Remove r v) none (w :: B) := by
              rw [r64RemoveManyLoop, r64RemoveManyLoop]
              unfold r64RemoveBulk
              simp only
              rw [if_neg e1]
            rw [e2]
            obtain ⟨i1, i2⟩ := ih h' (ctx64_none _) hvs
            refine ⟨fun r' e => hwc r' (i1 r' e), ?_⟩
            rw [i2]
            simp only [BadRemove]
            constructor
            · exact .inr
            · rintro (⟨-, w', B', e, hh⟩ | hb)
              · cases e; exact absurd hh hkw
              · exact hb

theorem badRemove_iff (s : NSet) (vals : List Nat) :
    BadRemove s vals ↔ ∃ A v w B, vals = A ++ v :: w :: B ∧ w / 65536 = v / 65536 ∧ OnlyOne (without s A) v := by
  induction vals generalizing s with
  | nil =>
    simp only [BadRemove, false_iff]
    rintro ⟨A, v, w, B, e, -⟩
    cases A <;> cases e
  | cons x xs ih =>
    simp only [BadRemove]
    rw [ih]
    have e0 : without s [] = s := by funext y; simp [without]
    constructor
    · rintro (⟨ho, w, B, e, hw⟩ | ⟨A, v, w, B, e, hw, ho⟩)
      · exact ⟨[], x, w, B, by rw [e]; rfl, hw, by rwa [e0]⟩
      · refine ⟨x :: A, v, w, B, by rw [e]; rfl, hw, ?_⟩
        rwa [show without s (x :: A) = without (Spec.erase s x) A from funext fun y => (without_cons s x A y).symm]
    · rintro ⟨A, v, w, B, e, hw, ho⟩
      cases A with
      | nil =>
        simp only [List.nil_append, List.cons.injEq] at e
        left
        rw [e.1]
        exact ⟨by rwa [e0] at ho, w, B, e.2, hw⟩
      | cons y A =>
        simp only [List.cons_append, List.cons.injEq] at e
        right
        refine ⟨A, v, w, B, e.2, hw, ?_⟩
        rw [e.1]
        rwa [show without s (y :: A) = without (Spec.erase s y) A from funext fun z => (without_cons s y A z).symm] at ho

theorem r64RemoveMany_spec {r : R64} {s : NSet} (h : Rep64 r s) {vals : List Nat} (hv : ∀ v ∈ vals, v < TOP64) :
    (∀ r', r64RemoveMany r vals = some r' → Rep64 r' (without s vals)) ∧
    (r64RemoveMany r vals = none ↔ ∃ A v w B, vals = A ++ v :: w :: B ∧ w / 65536 = v / 65536 ∧ OnlyOne (without s A) v) := by
  rw [← badRemove_iff]
  unfold r64RemoveMany
  split
  · next e =>
    rw [List.length_eq_zero_iff.1 e]
    exact removeMany64_loop h (ctx64_none r) (vals := []) (by simp)
  · exact removeMany64_loop h (ctx64_none r) hv

/-! ### From a range -/

theorem fromRange64Values_spec {min max step : Nat} (hs : 65536 ≤ step) (hst : step < TOP64) (hmax : max < TOP64) (fuel : Nat) {m : Nat} {r : R64} (h1 : min ≤ m)
    (h3 : (m - min) % step = 0) (hmt : m < TOP64) (hf : TOP64 - m ≤ fuel)
    (hr : Rep64 r (fun x => decide (min ≤ x ∧ x < m ∧ x < max ∧ (x - min) % step = 0))) :
    Rep64 (fromRange64Values max step fuel m r) (fun x => decide (min ≤ x ∧ x < max ∧ (x - min) % step = 0)) := by
  induction fuel generalizing m r with
  | zero => omega
  | succ fuel ih =>
    unfold fromRange64Values
    by_cases hm : m < max
    · rw [if_pos hm]
      simp only
      have hadd := r64Add_spec hr (v := m) hmt
      have key : ∀ x, x < m + step → (Spec.insert (fun x => decide (min ≤ x ∧ x < m ∧ x < max ∧ (x - min) % step = 0)) m x =
          decide (min ≤ x ∧ x < max ∧ (x - min) % step = 0)) := by
        intro x hx
        simp only [Spec.insert]
        by_cases e : x = m
        · subst e; simp [h1, h3, hm]
        · rw [beq_eq_false_iff_ne.2 e, Bool.false_or]
          apply decide_eq_decide.2
          constructor
          · rintro ⟨a1, a2, a3, a4⟩; exact ⟨a1, a3, a4⟩
          · rintro ⟨a1, a2, a3⟩
            refine ⟨a1, ?_, a2, a3⟩
            apply Classical.byContradiction
            intro hge
            have e2 : x - min = (m - min) + (x - m) := by omega
            rw [e2, Nat.add_mod, h3, Nat.zero_add, Nat.mod_mod, Nat.mod_eq_of_lt (by omega)] at a3
            omega
      by_cases ho : m > TOP64 - 1 - step
      · rw [if_pos ho]
        refine hadd.congr fun x => ?_
        by_cases hx : x < m + step
        · exact key x hx
        · simp only [Spec.insert]
          rw [beq_eq_false_iff_ne.2 (by omega), Bool.false_or]
          apply decide_eq_decide.2
          constructor
          · rintro ⟨a1, a2, -⟩; omega
          · rintro ⟨a1, a2, -⟩; omega
      · rw [if_neg ho]
        refine ih (by omega) ?_ (by omega) (by omega) (hadd.congr fun x => ?_)
        · rw [show m + step - min = (m - min) + step by omega, Nat.add_mod_right, h3]
        · by_cases hx : x < m + step
          · rw [key x hx]
            exact decide_eq_decide.2 ⟨fun ⟨a1, a2, a3⟩ => ⟨a1, hx, a2, a3⟩, fun ⟨a1, a2, a3, a4⟩ => ⟨a1, a3, a4⟩⟩
          · simp only [Spec.insert]
            rw [beq_eq_false_iff_ne.2 (by omega), Bool.false_or]
            apply decide_eq_decide.2
            constructor
            · rintro ⟨a1, a2, -⟩; omega
            · rintro ⟨a1, a2, -⟩; omega
    · rw [if_neg hm]
      refine hr.congr fun x => decide_eq_decide.2 ?_
      constructor
      · rintro ⟨a1, a2, a3, a4⟩; exact ⟨a1, a3, a4⟩
      · rintro ⟨a1, a2, a3⟩; exact ⟨a1, by omega, a2, a3⟩

theorem fromRange64Containers_spec {min max step : Nat} (hs : 0 < step) (hs2 : step < 65536) (hmax : max < TOP64) (fuel : Nat) {m : Nat} {r : R64}
    (h1 : min ≤ m) (h2 : m < max) (h3 : (m - min) % step = 0) (hf : TOP64 - m ≤ fuel)
    (hr : Rep64 r (fun x => decide (min ≤ x ∧ x < m ∧ (x - min) % step = 0)))
    (hk : ∀ x, x / 65536 = m / 65536 → x < m → ¬ (min ≤ x ∧ x < m ∧ (x - min) % step = 0)) :
    ∃ r', fromRange64Containers max step fuel m r = some r' ∧
      Rep64 r' (fun x => decide (min ≤ x ∧ x < max ∧ (x - min) % step = 0)) := by
  induction fuel generalizing m r with
  | zero => omega
  | succ fuel ih =>
    have ec : minimum64 (max - clearLow m) 65536 % 4294967296 = if max - m / 65536 * 65536 < 65536 then max - m / 65536 * 65536 else 65536 := by
      unfold minimum64 clearLow
      split <;> omega
    have hcm : m % 65536 < minimum64 (max - clearLow m) 65536 % 4294967296 := by rw [ec]; split <;> omega
    have hcm2 : minimum64 (max - clearLow m) 65536 % 4294967296 ≤ 65536 := by rw [ec]; split <;> omega
    unfold fromRange64Containers
    simp only
    generalize hcx : minimum64 (max - clearLow m) 65536 % 4294967296 = cmax at *
    obtain ⟨c, hc1, hc2⟩ := containerFromRange_spec (step := step) hs hcm hcm2
    have hcne : CNe c := hc2.cne (x := m % 65536) (by simp [hcm])
    rw [Nat.mod_eq_of_lt hs2, hc1]
    simp only
    have hg : ∃ q, cmax - m % 65536 + step - 1 - (cmax - m % 65536 + step - 1) % step = q * step ∧
        cmax - m % 65536 ≤ q * step ∧ q * step < cmax - m % 65536 + step := by
      refine ⟨(cmax - m % 65536 + step - 1) / step, ?_, ?_, ?_⟩
      · have := Nat.div_add_mod (cmax - m % 65536 + step - 1) step
        rw [Nat.mul_comm] at this
        omega
      · have := Nat.div_add_mod (cmax - m % 65536 + step - 1) step
        have h5 := Nat.mod_lt (cmax - m % 65536 + step - 1) hs
        rw [Nat.mul_comm] at this
        omega
      · have := Nat.div_mul_le_self (cmax - m % 65536 + step - 1) step
        omega
    obtain ⟨q, hq1, hq2, hq3⟩ := hg
    have egap : u64 ((u32 ((cmax : Int) - ((m % 65536 : Nat) : Int)) : Int) + (step : Int) - 1) = cmax - m % 65536 + step - 1 := by
      unfold u64 u32; omega
    rw [egap, hq1]
    -- the bitmap with the new container
    have hn := keyNum_split (show m < TOP64 by omega)
    have hins : Rep64 (artInsert r (splitKey m).1 c) (fun x => decide (min ≤ x ∧ x < m / 65536 * 65536 + cmax ∧ (x - min) % step = 0)) := by
      rcases hr.at_key (splitKey_isKey m) with ⟨c0, hf0, hc0, hs0, -⟩ | ⟨hf0, hs0, hin⟩
      · exfalso
        obtain ⟨y, hy1, hy2⟩ := (hr.find_iff (splitKey_isKey m)).1 (by rw [hf0]; simp)
        have hy3 := of_decide_eq_true hy2
        exact hk y (by omega) hy3.2.1 hy3
      · refine (hin c hcne).congr fun x => ?_
        rw [← progress_split (m := m) (m' := m / 65536 * 65536 + cmax) hs h1 h3 (by omega)]
        unfold modKey
        split
        · next hx =>
          rw [hc2.has, hs0 x hx, Bool.false_or]
          apply decide_eq_decide.2
          constructor
          · intro h
            exact ⟨by omega, by omega, by rw [show x - m = x % 65536 - m % 65536 by omega]; exact h.2.2⟩
          · intro h
            exact ⟨by omega, by omega, by rw [show x % 65536 - m % 65536 = x - m by omega]; exact h.2.2⟩
        · next hx =>
          rw [decide_eq_false (by omega : ¬ (m ≤ x ∧ x < m / 65536 * 65536 + cmax ∧ _)), Bool.or_false]
    have hnext : (m + q * step - min) % step = 0 := by
      rw [show m + q * step - min = (m - min) + q * step by omega, Nat.add_mul_mod_self_right, h3]
    -- no value of the progression between the end of the container and the next start
    have hno : ∀ x, min ≤ x → (x - min) % step = 0 → x < m + q * step → x < m / 65536 * 65536 + cmax := by
      intro x hx1 hx2 hx3
      apply Classical.byContradiction
      intro hge
      have h6 : (m + q * step - x) % step = 0 := by
        have h8 : m + q * step - min = (m + q * step - x) + (x - min) := by omega
        have h7 := hnext
        rw [h8, Nat.add_mod, hx2, Nat.add_zero, Nat.mod_mod] at h7
        exact h7
      rw [Nat.mod_eq_of_lt (by omega)] at h6
      omega
    have hfin : ¬ m + q * step < max → Rep64 (artInsert r (splitKey m).1 c)
        (fun x => decide (min ≤ x ∧ x < max ∧ (x - min) % step = 0)) := by
      intro hlast
      refine hins.congr fun x => decide_eq_decide.2 ?_
      have hle : m / 65536 * 65536 + cmax ≤ max := by rw [ec]; split <;> omega
      constructor
      · intro h; exact ⟨h.1, by omega, h.2.2⟩
      · intro h; exact ⟨h.1, hno x h.1 h.2.2 (by omega), h.2.2⟩
    by_cases ho : m > TOP64 - 1 - q * step
    · rw [if_pos ho]
      exact ⟨_, rfl, hfin (by omega)⟩
    · rw [if_neg ho]
      by_cases hlast : m + q * step < max
      · rw [if_pos hlast]
        have hcm5 : cmax = 65536 := by split at ec <;> omega
        refine ih (by omega) hlast hnext (by omega) (hins.congr fun x => decide_eq_decide.2 ?_) ?_
        · constructor
          · intro h; exact ⟨h.1, by omega, h.2.2⟩
          · intro h; exact ⟨h.1, hno x h.1 h.2.2 h.2.1, h.2.2⟩
        · rintro x hx1 hx2 ⟨a1, a2, a3⟩
          have := hno x a1 a3 a2
          omega
      · rw [if_neg hlast]
        exact ⟨_, rfl, hfin hlast⟩

theorem r64FromRange_spec {min max step : Nat} (hmax : max < TOP64) (hs : 0 < step) (hsm : step < TOP64) (hlt : min < max) :
    ∃ r, r64FromRange min max step = some r ∧ Rep64 r (fun x => decide (min ≤ x ∧ x < max ∧ (x - min) % step = 0)) := by
  unfold r64FromRange
  rw [if_neg (by omega)]
  have hfu : TOP64 - min ≤ FUEL := by unfold TOP64 FUEL; omega
  split
  · next hst =>
    refine ⟨_, rfl, fromRange64Values_spec hst hsm hmax FUEL (Nat.le_refl _) (by simp) (by omega) hfu (rep64_empty.congr fun x => ?_)⟩
    rw [decide_eq_false (by omega)]; rfl
  · next hst =>
    refine fromRange64Containers_spec hs (by omega) hmax FUEL (Nat.le_refl _) hlt (by simp) hfu (rep64_empty.congr fun x => ?_) ?_
    · rw [decide_eq_false (by omega)]; rfl
    · intro x _ _ h; omega

/-! ### From a 32-bit bitmap -/

/-- The entries of a 32-bit bitmap, moved up. -/
def liftBy (high : Nat) (b : Bitmap) : Bitmap := b.map fun p => (high * 65536 + p.1, p.2)

theorem bhas_liftBy (high : Nat) {b : Bitmap} (hb : BInv b) (x : Nat) :
    bhas (liftBy high b) x = (decide (x / 4294967296 = high) && bhas b (x % 4294967296)) := by
  induction b with
  | nil => simp [liftBy, bhas_nil]
  | cons p t ih =>
    obtain ⟨k, c⟩ := p
    have hk := hb.1
    simp only [liftBy, List.map_cons]
    rw [bhas_cons, bhas_cons]
    have := ih hb.2.2.2
    unfold liftBy at this
    rw [this]
    by_cases e : high * 65536 + k = x / 65536
    · rw [beq_iff_eq.2 e, beq_iff_eq.2 (by omega : k = x % 4294967296 / 65536), decide_eq_true (by omega),
        show x % 4294967296 % 65536 = x % 65536 by omega]
      simp
    · rw [beq_eq_false_iff_ne.2 e]
      by_cases e2 : x / 4294967296 = high
      · rw [decide_eq_true e2, beq_eq_false_iff_ne.2 (by omega : ¬ k = x % 4294967296 / 65536)]
        simp
      · rw [decide_eq_false e2]; simp

theorem high48_bits {high key : Nat} (hk : key < 65536) : (high <<< 32) ||| (key <<< 16) = high * 4294967296 + key * 65536 := by
  rw [← Nat.shiftLeft_add_eq_or_of_lt (by rw [Nat.shiftLeft_eq]; omega), Nat.shiftLeft_eq, Nat.shiftLeft_eq]

theorem moveOffset_rl {P : Container → Prop} {high : Nat} (hh : high < 4294967296) {b : Bitmap} (hb : BP P b) {dst : R64} {A : Bitmap} (h : RL dst A)
    (hA : ∀ p ∈ A, ∀ q ∈ b, p.1 < high * 65536 + q.1) : RL (r64MoveOffset high b dst) (A ++ liftBy high b) := by
  induction b generalizing dst A with
  | nil => simpa [r64MoveOffset, liftBy] using h
  | cons p t ih =>
    obtain ⟨k, c⟩ := p
    have hk := hb.1
    unfold r64MoveOffset
    simp only
    rw [high48_bits hk]
    have hn := keyNum_split (x := high * 4294967296 + k * 65536) (by unfold TOP64; omega)
    have e : (high * 4294967296 + k * 65536) / 65536 = high * 65536 + k := by omega
    rw [e] at hn
    have h1 := h.snoc (splitKey_isKey _) (by rw [hn]; exact fun p hp => hA p hp (k, c) (by simp)) c
    rw [hn] at h1
    have := ih hb.2.2.2 h1 ?_
    · simpa [liftBy] using this
    · intro p hp q hq
      rcases List.mem_append.1 hp with hp | hp
      · exact hA p hp q (by simp [hq])
      · simp only [List.mem_singleton] at hp
        subst hp
        have := hb.2.2.1 q hq
        simp only
        omega

theorem binv_ne {b : Bitmap} (hb : BInv b) : ∀ p ∈ b, CNe p.2 := by
  induction b with
  | nil => simp
  | cons p t ih =>
    intro q hq
    rcases List.mem_cons.1 hq with rfl | hq
    · exact hb.2.1
    · exact ih hb.2.2.2 q hq

theorem r64MoveFrom32_spec {b : Bitmap} (hb : BInv b) : Rep64 (r64MoveFrom32 b).1 (bhas b) := by
  unfold r64MoveFrom32
  have := moveOffset_rl (P := CNe) (A := []) (high := 0) (by omega) hb rl_none (by simp)
  refine ⟨_, ⟨this, fun p hp => ?_⟩, fun x => ?_⟩
  · simp only [List.nil_append, liftBy, List.mem_map] at hp
    obtain ⟨q, hq, rfl⟩ := hp
    exact binv_ne hb q hq
  · rw [List.nil_append, bhas_liftBy 0 hb]
    by_cases hx : x < 4294967296
    · rw [decide_eq_true (by omega), Nat.mod_eq_of_lt hx, Bool.true_and]
    · rw [decide_eq_false (by omega), Bool.false_and]
      cases hh : bhas b x with
      | false => rfl
      | true => exact absurd (bhas_lt hb hh) hx

/-! ### Run optimisation -/

theorem runOptimize64_loop (fuel : Nat) {r : R64} {it : AIt} {A l : Bitmap} (h : RL r (A ++ l)) (hi : IL r it l) (hf : l.length < fuel)
    (b : Bool) :
    RL (runOptimize64Loop fuel r it b).1 (A ++ l.map fun p => (p.1, convertRunOptimize p.2)) ∧
    (runOptimize64Loop fuel r it b).2 = (b || l.any fun p => isRun (convertRunOptimize p.2)) := by
  induction fuel generalizing r it A l b with
  | zero => omega
  | succ fuel ih =>
    unfold runOptimize64Loop
    cases l with
    | nil => rw [hi.nil]; simpa using h
    | cons p t =>
      obtain ⟨n, c⟩ := p
      have g := hi.cons
      rw [g.value]
      simp only
      obtain ⟨h1, h2⟩ := h.store_at hi (convertRunOptimize c)
      have := ih (A := A ++ [(n, convertRunOptimize c)]) (by simpa using h1) h2 (by simp at hf; omega) (b || isRun (convertRunOptimize c))
      simp only [List.append_assoc, List.singleton_append, List.map_cons, List.any_cons, ← Bool.or_assoc] at this ⊢
      exact this

theorem bhas_map_conv {l : Bitmap} (h : ∀ p ∈ l, CNe p.2) (x : Nat) :
    bhas (l.map fun p => (p.1, convertRunOptimize p.2)) x = bhas l x := by
  induction l with
  | nil => rfl
  | cons p t ih =>
    obtain ⟨n, c⟩ := p
    rw [List.map_cons, bhas_cons, bhas_cons, ih (fun q hq => h q (by simp [hq])),
      (convertRunOptimize_spec (h (n, c) (by simp)).1.rep).has]

theorem r64RunOptimize_spec {r : R64} {s : NSet} (h : Rep64 r s) :
    Rep64 (r64RunOptimize r).1 s ∧
    ((r64RunOptimize r).2 = true ↔ ∃ k rs, RHas (r64RunOptimize r).1 k (.run rs)) := by
  rep64 h l
  obtain ⟨h1, h2⟩ := runOptimize64_loop (A := []) FUEL h.rl h.rl.init h.rl.fuel false
  rw [List.nil_append] at h1
  refine ⟨⟨_, ⟨h1, fun p hp => ?_⟩, fun x => bhas_map_conv h.ne x⟩, ?_⟩
  · obtain ⟨q, hq, rfl⟩ := List.mem_map.1 hp
    obtain ⟨y, hy⟩ := (h.ne q hq).2
    exact (convertRunOptimize_spec (h.ne q hq).1.rep).cne hy
  · unfold r64RunOptimize
    rw [h2, Bool.false_or, List.any_eq_true]
    constructor
    · rintro ⟨p, hp, hr⟩
      have hm : (p.1, convertRunOptimize p.2) ∈ l.map fun p => (p.1, convertRunOptimize p.2) := List.mem_map.2 ⟨p, hp, rfl⟩
      obtain ⟨k, hk, -⟩ := (h1.mem _ _).1 hm
      cases hc : convertRunOptimize p.2 with
      | run rs => rw [hc] at hk; exact ⟨k, rs, hk⟩
      | array l => rw [hc] at hr; cases hr
      | bitset b => rw [hc] at hr; cases hr
    · rintro ⟨k, rs, hk⟩
      have := (h1.mem (keyNum k) (.run rs)).2 ⟨k, hk, rfl⟩
      obtain ⟨q, hq, e⟩ := List.mem_map.1 this
      refine ⟨q, hq, ?_⟩
      rw [(Prod.mk.injEq _ _ _ _ ▸ e : q.1 = _ ∧ convertRunOptimize q.2 = .run rs).2]
      rfl

end CRoaring
