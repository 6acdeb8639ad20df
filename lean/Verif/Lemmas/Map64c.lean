import Verif.Lemmas.Map64b
/-
Lemmas about the model of `Roaring64Map`: bulk insertion, set operators, the union of many maps.
-/
set_option linter.unusedSimpArgs false
set_option linter.unusedVariables false
namespace CRoaring
open Spec

/-! ### Bulk insertion -/

theorem addManyM_loop (vals : List Nat) : ∀ {m : Map64} (hm : ValidM m) {last : Option Nat} {ctx : BulkCtx}
    (hl : ∀ h, last = some h → HasKey m h ∧ CtxOK (mapAt m h) ctx),
    let m' := addMany64Loop m last ctx vals
    ValidM m' ∧ ∀ j v, mhas m' j v = true ↔ (∃ x ∈ vals, j = highBytes x ∧ v = lowBytes x) ∨ mhas m j v = true := by
  induction vals with
  | nil => intro m hm last ctx hl m'; exact ⟨hm, fun j v => by simp [m', addMany64Loop]⟩
  | cons value t ih =>
    intro m hm last ctx hl m'
    have hhi := highBytes_lt value
    have hlo := lowBytes_lt value
    have fin : ∀ {M : Map64} {ctx' : BulkCtx}, ValidM M →
        (∀ j, mapAt M j = if j = highBytes value then rbAdd (mapAt m j) (lowBytes value) else mapAt m j) →
        HasKey M (highBytes value) → CtxOK (mapAt M (highBytes value)) ctx' →
        m' = addMany64Loop M (some (highBytes value)) ctx' t →
        ValidM m' ∧ ∀ j v, mhas m' j v = true ↔
          (∃ x ∈ value :: t, j = highBytes x ∧ v = lowBytes x) ∨ mhas m j v = true := by
      intro M ctx' hM hAt hK hC e
      obtain ⟨h1, h2⟩ := ih hM (last := some (highBytes value)) (ctx := ctx') (fun h e => by cases e; exact ⟨hK, hC⟩)
      rw [e]
      refine ⟨h1, fun j v => ?_⟩
      rw [h2 j v]
      have hv : mhas M j v = true ↔ (j = highBytes value ∧ v = lowBytes value) ∨ mhas m j v = true := by
        show rbContains (mapAt M j) v = true ↔ _
        rw [hAt j]
        by_cases hj : j = highBytes value
        · rw [if_pos hj, (Props.C01_add (mapAt_valid hm j) (x := lowBytes value) (by omega)).2 v]
          simp [hj, mhas]
        · rw [if_neg hj]; simp [hj, mhas]
      rw [hv]
      simp only [List.mem_cons, exists_eq_or_imp]
      grind
    by_cases h : last = some (highBytes value)
    · obtain ⟨hk, hc⟩ := hl _ h
      have hb := rbAddBulk_spec (mapAt_valid hm (highBytes value)).inv hc (lowBytes value)
      have hval := (Props.C01_add (mapAt_valid hm (highBytes value)) (x := lowBytes value) (by omega)).1
      have e : m' = addMany64Loop (mapStore m (highBytes value) (rbAddBulk (mapAt m (highBytes value)) ctx (lowBytes value)).1)
          (some (highBytes value)) (rbAddBulk (mapAt m (highBytes value)) ctx (lowBytes value)).2 t := by
        show addMany64Loop m last ctx (value :: t) = _
        rw [addMany64Loop, if_neg (by simp [h]), h]
      rw [hb.1] at e
      refine fin (mapStore_inv hm hval) (fun j => ?_) (mapStore_hasKey.2 hk) ?_ e
      · rw [mapAt_store hk]
        by_cases hj : j = highBytes value
        · rw [if_pos hj, if_pos hj, hj]
        · rw [if_neg hj, if_neg hj]
      · rw [mapAt_store hk, if_pos rfl]; exact hb.2
    · obtain ⟨l1, l2, l3⟩ := lookupOrCreate_spec hm hhi
      have hb := rbAddBulk_spec (mapAt_valid hm (highBytes value)).inv (CtxOK.none _) (lowBytes value)
      have hval := (Props.C01_add (mapAt_valid hm (highBytes value)) (x := lowBytes value) (by omega)).1
      have hu := update_spec hm hhi hval
      have e : m' = addMany64Loop (mapStore (lookupOrCreate m (highBytes value)) (highBytes value)
          (rbAddBulk (mapAt m (highBytes value)) none (lowBytes value)).1)
          (some (highBytes value)) (rbAddBulk (mapAt m (highBytes value)) none (lowBytes value)).2 t := by
        show addMany64Loop m last ctx (value :: t) = _
        rw [addMany64Loop, if_pos h]
        simp only
        rw [l2]
      rw [hb.1] at e
      refine fin hu.1 (fun j => ?_) (mapStore_hasKey.2 l3) ?_ e
      · rw [hu.2 j]
        by_cases hj : j = highBytes value
        · rw [if_pos hj, if_pos hj, hj]
        · rw [if_neg hj, if_neg hj]
      · rw [hu.2, if_pos rfl]; exact hb.2

theorem addMany_spec {m : Map64} (hm : ValidM m) (vals : List Nat) :
    ValidM (m64AddMany m vals) ∧ ∀ j v, mhas (m64AddMany m vals) j v = true ↔
      (∃ x ∈ vals, j = highBytes x ∧ v = lowBytes x) ∨ mhas m j v = true :=
  addManyM_loop vals hm (fun h e => by cases e)

/-! ### Operators -/

theorem mhas_cons (k : Nat) (b : Bitmap) (t : Map64) (j v : Nat) :
    mhas ((k, b) :: t) j v = if k = j then rbContains b v else mhas t j v := by
  unfold mhas; rw [mapAt_cons]; split <;> rfl

theorem mhas_small {k : Nat} {t : Map64} (h : ∀ p ∈ t, k < p.1) {j : Nat} (hj : j ≤ k) (v : Nat) : mhas t j v = false :=
  mhas_noKey (fun hk => by
    obtain ⟨q, hq, e⟩ := List.mem_map.1 hk
    have := h q hq; omega) v

theorem empty_contains {b : Bitmap} (h : rbIsEmpty b = true) (v : Nat) : rbContains b v = false := by
  rw [isEmpty_iff.1 h]; exact contains_nil v

/-- Keeping the entries of a map under a new content, without the empty ones. -/
theorem and_loop (shared : Nat → Nat → Bool) {other : Map64} (ho : ValidM other) : ∀ {m : Map64} (hm : ValidM m),
    ValidM (m64AndLoop shared other m) ∧ (∀ p ∈ m64AndLoop shared other m, ∃ q ∈ m, p.1 = q.1) ∧
      ∀ j v, mhas (m64AndLoop shared other m) j v = (mhas m j v && mhas other j v) := by
  intro m
  induction m with
  | nil => intro _; exact ⟨ValidM.nil, by simp [m64AndLoop], fun j v => by simp [m64AndLoop, mhas_noKey (hasKey_nil j)]⟩
  | cons p t ih =>
    obtain ⟨k, b⟩ := p
    intro hm
    obtain ⟨c1, c2, c3, c4⟩ := minv_cons.1 hm
    obtain ⟨i1, i2, i3⟩ := ih c4
    have skip : (∀ v, (rbContains b v && mhas other k v) = false) →
        ValidM (m64AndLoop shared other t) ∧ (∀ p ∈ m64AndLoop shared other t, ∃ q ∈ (k, b) :: t, p.1 = q.1) ∧
        ∀ j v, mhas (m64AndLoop shared other t) j v = (mhas ((k, b) :: t) j v && mhas other j v) := by
      intro h
      refine ⟨i1, fun p hp => ?_, fun j v => ?_⟩
      · obtain ⟨q, hq, e⟩ := i2 p hp
        exact ⟨q, List.mem_cons_of_mem _ hq, e⟩
      · rw [i3, mhas_cons]
        by_cases hj : k = j
        · rw [if_pos hj, ← hj, h v, mhas_small c3 (Nat.le_refl _)]; rfl
        · rw [if_neg hj]
    rw [m64AndLoop]
    cases hf : mapFind other k with
    | none => exact skip fun v => by rw [mhas_noKey (mapFind_none.1 hf), Bool.and_false]
    | some b' =>
      simp only
      have hb' : Valid b' := (ho.2 _ (mapFind_mem hf)).2
      have hA := Props.C08_and_inplace c2 hb' false (by simp) (shared k)
      have hm' : ∀ v, mhas other k v = rbContains b' v := fun v => by unfold mhas; rw [mapAt_some hf]
      by_cases he : rbIsEmpty (rbAndInplace false (shared k) b b') = true
      · rw [if_pos he]
        exact skip fun v => by rw [hm' v, ← hA.2 v]; exact empty_contains he v
      · rw [if_neg he]
        refine ⟨minv_cons.2 ⟨c1, hA.1, fun p hp => ?_, i1⟩, fun p hp => ?_, fun j v => ?_⟩
        · obtain ⟨q, hq, e⟩ := i2 p hp
          rw [e]; exact c3 q hq
        · rcases List.mem_cons.1 hp with h | h
          · exact ⟨(k, b), List.mem_cons_self, by rw [h]⟩
          · obtain ⟨q, hq, e⟩ := i2 p h
            exact ⟨q, List.mem_cons_of_mem _ hq, e⟩
        · rw [mhas_cons, mhas_cons]
          by_cases hj : k = j
          · rw [if_pos hj, if_pos hj, hA.2 v, ← hj, hm' v]
          · rw [if_neg hj, if_neg hj, i3]

theorem and_spec {m other : Map64} (hm : ValidM m) (ho : ValidM other) (same : Bool) (hs : same = true → m = other)
    (shared : Nat → Nat → Bool) :
    ValidM (m64And same shared m other) ∧
      ∀ j v, mhas (m64And same shared m other) j v = (mhas m j v && mhas other j v) := by
  unfold m64And
  cases same with
  | true => rw [if_pos rfl, hs rfl]; exact ⟨ho, fun j v => (Bool.and_self _).symm⟩
  | false => exact ⟨(and_loop shared ho hm).1, (and_loop shared ho hm).2.2⟩

theorem validM_append {a b : Map64} (ha : ValidM a) (hb : ValidM b) (h : ∀ p ∈ a, ∀ q ∈ b, p.1 < q.1) : ValidM (a ++ b) := by
  constructor
  · rw [List.map_append, List.pairwise_append]
    refine ⟨ha.1, hb.1, fun x hx y hy => ?_⟩
    obtain ⟨p, hp, rfl⟩ := List.mem_map.1 hx
    obtain ⟨q, hq, rfl⟩ := List.mem_map.1 hy
    exact h p hp q hq
  · intro p hp
    rcases List.mem_append.1 hp with h | h
    · exact ha.2 p h
    · exact hb.2 p h

theorem validM_of_append {a b : Map64} (h : ValidM (a ++ b)) :
    ValidM a ∧ ValidM b ∧ ∀ p ∈ a, ∀ q ∈ b, p.1 < q.1 := by
  have h1 := h.1
  rw [List.map_append, List.pairwise_append] at h1
  refine ⟨⟨h1.1, fun p hp => h.2 p (List.mem_append_left _ hp)⟩, ⟨h1.2.1, fun p hp => h.2 p (List.mem_append_right _ hp)⟩,
    fun p hp q hq => h1.2.2 _ (List.mem_map_of_mem hp) _ (List.mem_map_of_mem hq)⟩

theorem hasKey_append {a b : Map64} {k : Nat} : HasKey (a ++ b) k ↔ HasKey a k ∨ HasKey b k := by
  simp [HasKey, List.map_append]

theorem mapFind_append (a b : Map64) (k : Nat) : mapFind (a ++ b) k = (mapFind a k).or (mapFind b k) := by
  unfold mapFind
  rw [List.find?_append]
  cases List.find? (fun p : Nat × Bitmap => p.1 == k) a <;> rfl

theorem mhas_append (a b : Map64) (k v : Nat) (h : HasKey a k → ¬ HasKey b k) :
    mhas (a ++ b) k v = (mhas a k v || mhas b k v) := by
  by_cases ha : HasKey a k
  · obtain ⟨x, hx⟩ := mapFind_isSome ha
    rw [mhas_noKey (h ha), Bool.or_false]
    unfold mhas mapAt; rw [mapFind_append, hx]; rfl
  · rw [mhas_noKey ha, Bool.false_or]
    unfold mhas mapAt; rw [mapFind_append, mapFind_none.2 ha]; rfl

theorem mhas_append_valid {a b : Map64} (h : ValidM (a ++ b)) (k v : Nat) :
    mhas (a ++ b) k v = (mhas a k v || mhas b k v) := by
  refine mhas_append a b k v fun ha hb => ?_
  obtain ⟨p, hp, e1⟩ := List.mem_map.1 ha
  obtain ⟨q, hq, e2⟩ := List.mem_map.1 hb
  have := (validM_of_append h).2.2 p hp q hq
  omega

theorem dropWhile_hd {k : Nat} (l : Map64) :
    match l.dropWhile (fun p => decide (p.1 < k)) with
    | [] => True
    | p :: _ => k ≤ p.1 := by
  induction l with
  | nil => trivial
  | cons p t ih =>
    rw [List.dropWhile_cons]
    by_cases h : p.1 < k
    · rw [if_pos (by simpa using h)]; exact ih
    · rw [if_neg (by simpa using h)]; simpa using h

theorem takeWhile_lt {k : Nat} {l : Map64} {p : Nat × Bitmap} (h : p ∈ l.takeWhile (fun p => decide (p.1 < k))) : p.1 < k := by
  induction l with
  | nil => cases h
  | cons q t ih =>
    rw [List.takeWhile_cons] at h
    by_cases hq : q.1 < k
    · rw [if_pos (by simpa using hq)] at h
      rcases List.mem_cons.1 h with h | h
      · rw [h]; exact hq
      · exact ih h
    · rw [if_neg (by simpa using hq)] at h; cases h

theorem mhas_dropWhile {k : Nat} {l : Map64} (hl : ValidM l) {j : Nat} (hj : k ≤ j) (v : Nat) :
    mhas (l.dropWhile (fun p => decide (p.1 < k))) j v = mhas l j v := by
  have e := List.takeWhile_append_dropWhile (p := fun p : Nat × Bitmap => decide (p.1 < k)) (l := l)
  have hl' := hl
  rw [← e] at hl'
  conv => rhs; rw [← e, mhas_append_valid hl']
  rw [mhas_noKey (m := l.takeWhile (fun p => decide (p.1 < k))) (k := j), Bool.false_or]
  intro hk
  obtain ⟨q, hq, e⟩ := List.mem_map.1 hk
  have := takeWhile_lt hq; omega

theorem dropWhile_inv {k : Nat} {l : Map64} (hl : ValidM l) : ValidM (l.dropWhile (fun p => decide (p.1 < k))) := by
  have e := List.takeWhile_append_dropWhile (p := fun p : Nat × Bitmap => decide (p.1 < k)) (l := l)
  rw [← e] at hl
  exact (validM_of_append hl).2.1

theorem bound_of_mhas {m : Map64} {P : Nat → Prop} (h : ∀ p ∈ m, P p.1) {j v : Nat} (hv : mhas m j v = true) : P j := by
  obtain ⟨q, hq, e⟩ := List.mem_map.1 (hasKey_of_mhas hv)
  rw [← e]; exact h q hq

theorem andnot_loop (shared : Nat → Nat → Bool) : ∀ (n : Nat) {m other : Map64}, m.length + other.length ≤ n →
    ValidM m → ValidM other →
    ValidM (m64AndnotLoop shared m other) ∧ (∀ p ∈ m64AndnotLoop shared m other, ∃ q ∈ m, p.1 = q.1) ∧
      ∀ j v, mhas (m64AndnotLoop shared m other) j v = (mhas m j v && !mhas other j v) := by
  intro n
  induction n with
  | zero =>
    intro m other hn hm ho
    have : m = [] := List.length_eq_zero_iff.1 (by omega)
    subst this
    rw [m64AndnotLoop]
    exact ⟨ValidM.nil, by simp, fun j v => by simp [mhas_noKey (hasKey_nil j)]⟩
  | succ n ih =>
    intro m other hn hm ho
    cases m with
    | nil =>
      rw [m64AndnotLoop]
      exact ⟨ValidM.nil, by simp, fun j v => by simp [mhas_noKey (hasKey_nil j)]⟩
    | cons p1 t1 =>
      cases other with
      | nil =>
        rw [m64AndnotLoop]
        · exact ⟨hm, fun p hp => ⟨p, hp, rfl⟩, fun j v => by simp [mhas_noKey (hasKey_nil j)]⟩
        · simp
      | cons p2 t2 =>
        obtain ⟨k1, b1⟩ := p1
        obtain ⟨k2, b2⟩ := p2
        obtain ⟨c1, c2, c3, c4⟩ := minv_cons.1 hm
        obtain ⟨d1, d2, d3, d4⟩ := minv_cons.1 ho
        simp only [List.length_cons] at hn
        rw [m64AndnotLoop]
        by_cases h1 : k1 < k2
        · rw [if_pos h1]
          have hlen := (List.dropWhile_suffix (fun p : Nat × Bitmap => decide (p.1 < k2)) (l := t1)).length_le
          have e := List.takeWhile_append_dropWhile (p := fun p : Nat × Bitmap => decide (p.1 < k2)) (l := t1)
          generalize hA : t1.takeWhile (fun p => decide (p.1 < k2)) = A at *
          generalize hB : t1.dropWhile (fun p => decide (p.1 < k2)) = B at *
          have hAk : ∀ p ∈ A, p.1 < k2 := fun p hp => takeWhile_lt (hA ▸ hp)
          have hv := hm
          rw [← e, show ((k1, b1) :: (A ++ B) : Map64) = ((k1, b1) :: A) ++ B from rfl] at hv
          obtain ⟨v1, v2, v3⟩ := validM_of_append hv
          obtain ⟨i1, i2, i3⟩ := ih (m := B) (other := (k2, b2) :: t2) (by simp only [List.length_cons]; omega) v2 ho
          rw [show ((k1, b1) :: A ++ m64AndnotLoop shared B ((k2, b2) :: t2) : Map64) =
            ((k1, b1) :: A) ++ m64AndnotLoop shared B ((k2, b2) :: t2) from rfl]
          have hval : ValidM (((k1, b1) :: A) ++ m64AndnotLoop shared B ((k2, b2) :: t2)) := by
            refine validM_append v1 i1 fun p hp q hq => ?_
            obtain ⟨q', hq', e⟩ := i2 q hq
            rw [e]; exact v3 p hp q' hq'
          refine ⟨hval, fun p hp => ?_, fun j v => ?_⟩
          · rw [← e]
            rcases List.mem_append.1 hp with h | h
            · exact ⟨p, by rw [show ((k1, b1) :: (A ++ B) : Map64) = ((k1, b1) :: A) ++ B from rfl]; exact List.mem_append_left _ h, rfl⟩
            · obtain ⟨q, hq, e⟩ := i2 p h
              exact ⟨q, by rw [show ((k1, b1) :: (A ++ B) : Map64) = ((k1, b1) :: A) ++ B from rfl]; exact List.mem_append_right _ hq, e⟩
          · have hsm : mhas ((k1, b1) :: A) j v = true → mhas ((k2, b2) :: t2) j v = false := by
              intro hx
              have : j < k2 := bound_of_mhas (P := fun j => j < k2) (fun p hp => by
                rcases List.mem_cons.1 hp with h | h
                · rw [h]; exact h1
                · exact hAk p h) hx
              rw [mhas_cons, if_neg (by omega)]
              exact mhas_small d3 (by omega) v
            rw [mhas_append_valid hval, i3, ← e, show ((k1, b1) :: (A ++ B) : Map64) = ((k1, b1) :: A) ++ B from rfl,
              mhas_append_valid hv]
            cases hx : mhas ((k1, b1) :: A) j v with
            | true => rw [hsm hx]; simp
            | false => simp
        · rw [if_neg h1]
          by_cases h2 : k1 > k2
          · rw [if_pos h2]
            have hlen := (List.dropWhile_suffix (fun p : Nat × Bitmap => decide (p.1 < k1)) (l := t2)).length_le
            obtain ⟨i1, i2, i3⟩ := ih (m := (k1, b1) :: t1) (other := t2.dropWhile (fun p => decide (p.1 < k1)))
              (by simp only [List.length_cons]; omega) hm (dropWhile_inv d4)
            refine ⟨i1, i2, fun j v => ?_⟩
            rw [i3]
            cases hx : mhas ((k1, b1) :: t1) j v with
            | false => rfl
            | true =>
              have hj : k1 ≤ j := bound_of_mhas (P := fun j => k1 ≤ j) (fun p hp => by
                rcases List.mem_cons.1 hp with h | h
                · rw [h]; exact Nat.le_refl _
                · exact Nat.le_of_lt (c3 p h)) hx
              rw [mhas_dropWhile d4 hj, mhas_cons, if_neg (by omega)]
          · rw [if_neg h2]
            have hk : k1 = k2 := by omega
            subst hk
            have hA := Props.C08_andnot_inplace c2 d2 (shared k1)
            obtain ⟨i1, i2, i3⟩ := ih (m := t1) (other := t2) (by omega) c4 d4
            simp only
            by_cases he : rbIsEmpty (rbAndnotInplace (shared k1) b1 b2) = true
            · rw [if_pos he]
              refine ⟨i1, fun p hp => ?_, fun j v => ?_⟩
              · obtain ⟨q, hq, e⟩ := i2 p hp
                exact ⟨q, List.mem_cons_of_mem _ hq, e⟩
              · rw [i3, mhas_cons, mhas_cons]
                by_cases hj : k1 = j
                · rw [if_pos hj, if_pos hj, mhas_small c3 (by omega), ← hA.2 v, empty_contains he]; rfl
                · rw [if_neg hj, if_neg hj]
            · rw [if_neg he]
              refine ⟨minv_cons.2 ⟨c1, hA.1, fun p hp => ?_, i1⟩, fun p hp => ?_, fun j v => ?_⟩
              · obtain ⟨q, hq, e⟩ := i2 p hp
                rw [e]; exact c3 q hq
              · rcases List.mem_cons.1 hp with h | h
                · exact ⟨(k1, b1), List.mem_cons_self, by rw [h]⟩
                · obtain ⟨q, hq, e⟩ := i2 p h
                  exact ⟨q, List.mem_cons_of_mem _ hq, e⟩
              · rw [mhas_cons, mhas_cons, mhas_cons]
                by_cases hj : k1 = j
                · rw [if_pos hj, if_pos hj, if_pos hj, hA.2 v]
                · rw [if_neg hj, if_neg hj, if_neg hj, i3]

theorem andnot_spec {m other : Map64} (hm : ValidM m) (ho : ValidM other) (same : Bool) (hs : same = true → m = other)
    (shared : Nat → Nat → Bool) :
    ValidM (m64Andnot same shared m other) ∧
      ∀ j v, mhas (m64Andnot same shared m other) j v = (mhas m j v && !mhas other j v) := by
  unfold m64Andnot
  cases same with
  | true =>
    rw [if_pos rfl, hs rfl]
    exact ⟨ValidM.nil, fun j v => by rw [mhas_noKey (hasKey_nil j), Bool.and_not_self]⟩
  | false =>
    have := andnot_loop shared (m.length + other.length) (Nat.le_refl _) hm ho
    exact ⟨this.1, this.2.2⟩

theorem orStep_spec {m : Map64} (hm : ValidM m) (shared : Nat → Nat → Bool) (caps : Nat → Nat → Nat) {k : Nat} {b : Bitmap}
    (hk : k < 4294967296) (hb : Valid b) :
    ValidM (m64OrStep shared caps m (k, b)) ∧
      ∀ j v, mhas (m64OrStep shared caps m (k, b)) j v = (mhas m j v || (decide (j = k) && rbContains b v)) := by
  obtain ⟨h1, h2, h3⟩ := mapInsert_spec hm hk hb
  have hat : ∀ j, mapAt (mapInsert k b m).1 j = if j = k then (mapFind m k).getD b else mapAt m j := fun j => by
    unfold mapAt; rw [h3 j]; split <;> rfl
  unfold m64OrStep
  simp only
  cases hf : mapFind m k with
  | none =>
    rw [if_pos (by rw [h2, hf]; rfl)]
    refine ⟨h1, fun j v => ?_⟩
    unfold mhas
    rw [hat j]
    by_cases hj : j = k
    · rw [if_pos hj, hf, hj, mapAt_none hf, contains_nil]; simp
    · rw [if_neg hj]; simp [hj]
  | some b0 =>
    rw [if_neg (by rw [h2, hf]; simp)]
    have hat' : mapAt (mapInsert k b m).1 k = b0 := by rw [hat, if_pos rfl, hf]; rfl
    have hb0 : Valid b0 := (hm.2 _ (mapFind_mem hf)).2
    rw [hat']
    have hO := Props.C08_or_inplace hb0 hb (shared k) (caps k)
    refine ⟨mapStore_inv h1 hO.1, fun j v => ?_⟩
    unfold mhas
    rw [mapAt_store (mapInsert_hasKey.2 (Or.inl rfl))]
    by_cases hj : j = k
    · rw [if_pos hj, hO.2 v, hj, mapAt_some hf]; simp
    · rw [if_neg hj, hat j, if_neg hj]; simp [hj]

theorem or_fold (shared : Nat → Nat → Bool) (caps : Nat → Nat → Nat) : ∀ {other : Map64} (ho : ValidM other) {m : Map64}
    (hm : ValidM m),
    ValidM (other.foldl (m64OrStep shared caps) m) ∧
      ∀ j v, mhas (other.foldl (m64OrStep shared caps) m) j v = (mhas m j v || mhas other j v) := by
  intro other
  induction other with
  | nil => intro _ m hm; exact ⟨hm, fun j v => by rw [mhas_noKey (hasKey_nil j), Bool.or_false]; rfl⟩
  | cons p t ih =>
    obtain ⟨k, b⟩ := p
    intro ho m hm
    obtain ⟨c1, c2, c3, c4⟩ := minv_cons.1 ho
    have hS := orStep_spec hm shared caps c1 c2
    obtain ⟨i1, i2⟩ := ih c4 hS.1
    rw [List.foldl_cons]
    refine ⟨i1, fun j v => ?_⟩
    rw [i2, hS.2, mhas_cons]
    by_cases hj : k = j
    · rw [if_pos hj, mhas_small c3 (by omega)]; simp [hj]
    · rw [if_neg hj]; simp [Ne.symm hj]

theorem or_spec {m other : Map64} (hm : ValidM m) (ho : ValidM other) (same : Bool) (hs : same = true → m = other)
    (shared : Nat → Nat → Bool) (caps : Nat → Nat → Nat) :
    ValidM (m64Or same shared caps m other) ∧
      ∀ j v, mhas (m64Or same shared caps m other) j v = (mhas m j v || mhas other j v) := by
  unfold m64Or
  cases same with
  | true => rw [if_pos rfl, hs rfl]; exact ⟨ho, fun j v => (Bool.or_self _).symm⟩
  | false => exact or_fold shared caps ho hm

theorem xorStep_spec {m : Map64} (hm : ValidM m) (shared : Nat → Nat → Bool) {k : Nat} {b : Bitmap}
    (hk : k < 4294967296) (hb : Valid b) :
    ValidM (m64XorStep shared m (k, b)) ∧
      ∀ j v, mhas (m64XorStep shared m (k, b)) j v = (mhas m j v != (decide (j = k) && rbContains b v)) := by
  obtain ⟨h1, h2, h3⟩ := mapInsert_spec hm hk hb
  have hat : ∀ j, mapAt (mapInsert k b m).1 j = if j = k then (mapFind m k).getD b else mapAt m j := fun j => by
    unfold mapAt; rw [h3 j]; split <;> rfl
  unfold m64XorStep
  simp only
  cases hf : mapFind m k with
  | none =>
    rw [if_pos (by rw [h2, hf]; rfl)]
    refine ⟨h1, fun j v => ?_⟩
    unfold mhas
    rw [hat j]
    by_cases hj : j = k
    · rw [if_pos hj, hf, hj, mapAt_none hf, contains_nil]; simp
    · rw [if_neg hj]; simp [hj]
  | some b0 =>
    rw [if_neg (by rw [h2, hf]; simp)]
    have hat' : mapAt (mapInsert k b m).1 k = b0 := by rw [hat, if_pos rfl, hf]; rfl
    have hb0 : Valid b0 := (hm.2 _ (mapFind_mem hf)).2
    rw [hat']
    have hO := Props.C08_xor_inplace hb0 hb (shared k)
    have hK : HasKey (mapInsert k b m).1 k := mapInsert_hasKey.2 (Or.inl rfl)
    have hS := shrink_spec h1 hK hO.1
    have e : (if rbIsEmpty (rbXorInplace (shared k) b0 b) = true then
        mapErase (mapStore (mapInsert k b m).1 k (rbXorInplace (shared k) b0 b)) k
        else mapStore (mapInsert k b m).1 k (rbXorInplace (shared k) b0 b)) =
        eraseIfEmpty (mapStore (mapInsert k b m).1 k (rbXorInplace (shared k) b0 b)) k := by
      unfold eraseIfEmpty
      rw [mapAt_store hK, if_pos rfl]
    rw [e]
    refine ⟨hS.1, fun j v => ?_⟩
    unfold mhas
    rw [hS.2.1 j]
    by_cases hj : j = k
    · rw [if_pos hj, hO.2 v, hj, mapAt_some hf]; simp
    · rw [if_neg hj, hat j, if_neg hj]; simp [hj]

theorem xor_fold (shared : Nat → Nat → Bool) : ∀ {other : Map64} (ho : ValidM other) {m : Map64} (hm : ValidM m),
    ValidM (other.foldl (m64XorStep shared) m) ∧
      ∀ j v, mhas (other.foldl (m64XorStep shared) m) j v = (mhas m j v != mhas other j v) := by
  intro other
  induction other with
  | nil => intro _ m hm; exact ⟨hm, fun j v => by rw [mhas_noKey (hasKey_nil j), Bool.bne_false]; rfl⟩
  | cons p t ih =>
    obtain ⟨k, b⟩ := p
    intro ho m hm
    obtain ⟨c1, c2, c3, c4⟩ := minv_cons.1 ho
    have hS := xorStep_spec hm shared c1 c2
    obtain ⟨i1, i2⟩ := ih c4 hS.1
    rw [List.foldl_cons]
    refine ⟨i1, fun j v => ?_⟩
    rw [i2, hS.2, mhas_cons]
    by_cases hj : k = j
    · rw [if_pos hj, mhas_small c3 (by omega)]; simp [hj]
    · rw [if_neg hj]; simp [Ne.symm hj]

theorem xor_spec {m other : Map64} (hm : ValidM m) (ho : ValidM other) (same : Bool) (hs : same = true → m = other)
    (shared : Nat → Nat → Bool) :
    ValidM (m64Xor same shared m other) ∧
      ∀ j v, mhas (m64Xor same shared m other) j v = (mhas m j v != mhas other j v) := by
  unfold m64Xor
  cases same with
  | true =>
    rw [if_pos rfl, hs rfl]
    exact ⟨ValidM.nil, fun j v => by rw [mhas_noKey (hasKey_nil j), bne_self_eq_false]⟩
  | false => exact xor_fold shared ho hm

/-! ### Union of many maps -/

/-- What `std::priority_queue` with the comparator of `fastunion` promises of its top: some entry whose key is smallest. -/
def PicksMin (pick : List Map64 → Nat) : Prop :=
  ∀ pq, pq ≠ [] → (∀ q ∈ pq, q ≠ []) → ∃ h : pick pq < pq.length,
    ∀ q ∈ pq, ∀ x ∈ pq[pick pq].head?, ∀ y ∈ q.head?, x.1 ≤ y.1

/-- Something in the queue contains the value. -/
def qhas (pq : List Map64) (k v : Nat) : Prop := ∃ q ∈ pq, mhas q k v = true

theorem qhas_split {pq : List Map64} {i : Nat} (hi : i < pq.length) {k v : Nat} :
    qhas pq k v ↔ mhas pq[i] k v = true ∨ qhas (pq.eraseIdx i) k v := by
  unfold qhas
  constructor
  · rintro ⟨q, hq, hv⟩
    rw [List.mem_iff_getElem] at hq
    obtain ⟨j, hj, rfl⟩ := hq
    by_cases e : j = i
    · subst e; exact Or.inl hv
    · exact Or.inr ⟨pq[j], List.mem_eraseIdx_iff_getElem.2 ⟨j, hj, e, rfl⟩, hv⟩
  · rintro (h | ⟨q, hq, hv⟩)
    · exact ⟨pq[i], List.getElem_mem hi, h⟩
    · exact ⟨q, List.mem_of_mem_eraseIdx hq, hv⟩

theorem sum_eraseIdx : ∀ (l : List Nat) (i : Nat) (h : i < l.length), l.sum = l[i] + (l.eraseIdx i).sum
  | a :: t, 0, _ => by simp
  | a :: t, i + 1, h => by
    have := sum_eraseIdx t i (by simpa using h)
    simp only [List.sum_cons, List.getElem_cons_succ, List.eraseIdx_cons_succ]
    omega

theorem map_eraseIdx' {α β : Type} (f : α → β) : ∀ (l : List α) (i : Nat), (l.map f).eraseIdx i = (l.eraseIdx i).map f
  | [], _ => rfl
  | _ :: _, 0 => rfl
  | a :: t, i + 1 => by simp [map_eraseIdx' f t i]

theorem qsum_erase (pq : List Map64) (i : Nat) (h : i < pq.length) :
    (pq.map List.length).sum = pq[i].length + ((pq.eraseIdx i).map List.length).sum := by
  have := sum_eraseIdx (pq.map List.length) i (by simpa using h)
  rw [this, List.getElem_map, map_eraseIdx']

/-- The invariant of the queue: maps with at least one entry. -/
def QInv (pq : List Map64) : Prop := ∀ q ∈ pq, ValidM q ∧ q ≠ []

theorem group_spec {pick : List Map64 → Nat} (hp : PicksMin pick) (key : Nat) : ∀ (fuel : Nat) {pq : List Map64}
    (acc : List Bitmap), QInv pq → (pq.map List.length).sum < fuel → (∀ q ∈ pq, ∀ x ∈ q, key ≤ x.1) →
    let g := unionGroup pick key fuel pq acc
    QInv g.1 ∧ (∀ q ∈ g.1, ∀ x ∈ q, key < x.1) ∧ (g.1.map List.length).sum ≤ (pq.map List.length).sum ∧
      ∃ new, g.2 = acc ++ new ∧ (∀ b ∈ new, Valid b) ∧
        ((g.1.map List.length).sum + new.length = (pq.map List.length).sum) ∧
        ∀ k v, qhas pq k v ↔ qhas g.1 k v ∨ (k = key ∧ ∃ b ∈ new, rbContains b v = true) := by
  intro fuel
  induction fuel with
  | zero => intro pq acc _ h; omega
  | succ fuel ih =>
    intro pq acc hq hf hge
    by_cases hpq : pq = []
    · subst hpq
      have e : unionGroup pick key (fuel + 1) [] acc = ([], acc) := by rw [unionGroup]; simp
      rw [e]
      exact ⟨hq, by simp, Nat.le_refl _, [], by simp, by simp, by simp, fun k v => by simp [qhas]⟩
    · obtain ⟨hi, hmin⟩ := hp pq hpq (fun q h => (hq q h).2)
      have hgd : pq.getD (pick pq) [] = pq[pick pq] := by
        rw [List.getD_eq_getElem?_getD, List.getElem?_eq_getElem hi]; rfl
      have hmem := List.getElem_mem hi
      obtain ⟨hv0, hne0⟩ := hq _ hmem
      rw [unionGroup, hgd]
      cases ht : pq[pick pq] with
      | nil => exact absurd ht hne0
      | cons x rest =>
        obtain ⟨k0, b0⟩ := x
        simp only
        rw [ht] at hv0 hmem hmin
        have hmin' : ∀ q ∈ pq, ∀ x ∈ q, k0 ≤ x.1 := by
          intro q hqm x hx
          obtain ⟨hvq, hnq⟩ := hq q hqm
          cases q with
          | nil => cases hx
          | cons y qt =>
            have h1 : k0 ≤ y.1 := hmin _ hqm _ rfl _ rfl
            have hc := (minv_cons (k := y.1) (b := y.2)).1 hvq
            rcases List.mem_cons.1 hx with h | h
            · rw [h]; exact h1
            · have := hc.2.2.1 x h; omega
        by_cases hk : k0 ≠ key
        · rw [if_pos hk]
          have hge0 := hge _ hmem (k0, b0) List.mem_cons_self
          simp only at hge0
          refine ⟨hq, fun q hqm x hx => ?_, Nat.le_refl _, [], by simp, by simp, by simp, fun k v => by simp⟩
          have := hmin' q hqm x hx
          omega
        · rw [if_neg hk]
          have hk' : k0 = key := by omega
          subst hk'
          obtain ⟨c1, c2, c3, c4⟩ := minv_cons.1 hv0
          have hsum := qsum_erase pq (pick pq) hi
          rw [ht] at hsum
          simp only [List.length_cons] at hsum
          -- the queue after the step
          have hstep : ∀ pq' : List Map64, pq' = (if rest = [] then pq.eraseIdx (pick pq) else rest :: pq.eraseIdx (pick pq)) →
              QInv pq' ∧ (pq'.map List.length).sum + 1 = (pq.map List.length).sum ∧
              (∀ q ∈ pq', ∀ x ∈ q, k0 ≤ x.1) ∧
              ∀ k v, qhas pq k v ↔ qhas pq' k v ∨ (k = k0 ∧ rbContains b0 v = true) := by
            intro pq' e
            have hE : ∀ q ∈ pq', q = rest ∨ q ∈ pq.eraseIdx (pick pq) := by
              intro q hqm
              rw [e] at hqm
              by_cases hr : rest = []
              · rw [if_pos hr] at hqm; exact Or.inr hqm
              · rw [if_neg hr] at hqm; exact List.mem_cons.1 hqm
            refine ⟨fun q hqm => ?_, ?_, fun q hqm x hx => ?_, fun k v => ?_⟩
            · by_cases hr : rest = []
              · rw [e, if_pos hr] at hqm; exact hq q (List.mem_of_mem_eraseIdx hqm)
              · rw [e, if_neg hr] at hqm
                rcases List.mem_cons.1 hqm with h | h
                · rw [h]; exact ⟨c4, hr⟩
                · exact hq q (List.mem_of_mem_eraseIdx h)
            · by_cases hr : rest = []
              · rw [e, if_pos hr]; rw [hr] at hsum; simp at hsum; omega
              · rw [e, if_neg hr]; simp only [List.map_cons, List.sum_cons]; omega
            · rcases hE q hqm with h | h
              · rw [h] at hx; have := c3 x hx; omega
              · exact hge q (List.mem_of_mem_eraseIdx h) x hx
            · have hrest : qhas pq' k v ↔ mhas rest k v = true ∨ qhas (pq.eraseIdx (pick pq)) k v := by
                by_cases hr : rest = []
                · rw [e, if_pos hr, hr, mhas_noKey (hasKey_nil k)]; simp
                · rw [e, if_neg hr]; unfold qhas; simp
              rw [qhas_split hi, ht, hrest, mhas_cons]
              by_cases hkk : k0 = k
              · rw [if_pos hkk, mhas_small c3 (by omega)]
                subst hkk
                simp
                constructor
                · rintro (h | h)
                  · exact Or.inr h
                  · exact Or.inl h
                · rintro (h | h)
                  · exact Or.inr h
                  · exact Or.inl h
              · rw [if_neg hkk]
                have : ¬ k = k0 := fun h => hkk h.symm
                simp [this]
          obtain ⟨s1, s2, s3, s4⟩ := hstep _ rfl
          generalize (if rest = [] then pq.eraseIdx (pick pq) else rest :: pq.eraseIdx (pick pq)) = pq' at s1 s2 s3 s4
          obtain ⟨g1, g2, g3, new, g4, g5, g6, g7⟩ := ih (pq := pq') (acc ++ [b0]) s1 (by omega) s3
          refine ⟨g1, g2, by omega, b0 :: new, ?_, ?_, ?_, fun k v => ?_⟩
          · rw [g4]; simp
          · intro b hb
            rcases List.mem_cons.1 hb with h | h
            · rw [h]; exact c2
            · exact g5 b h
          · simp only [List.length_cons]; omega
          · rw [s4, g7]
            simp only [List.mem_cons, exists_eq_or_imp]
            grind

theorem union_loop {pick : List Map64 → Nat} (hp : PicksMin pick) (caps : Nat → Nat → Nat → Nat) : ∀ (fuel : Nat)
    {pq : List Map64} {result : Map64}, QInv pq → (pq.map List.length).sum < fuel → ValidM result →
    (∀ q ∈ pq, ∀ x ∈ q, ∀ y ∈ result, y.1 < x.1) →
    ValidM (unionLoop pick caps fuel pq result) ∧
      ∀ k v, mhas (unionLoop pick caps fuel pq result) k v = true ↔ qhas pq k v ∨ mhas result k v = true := by
  intro fuel
  induction fuel with
  | zero => intro pq result _ h; omega
  | succ fuel ih =>
    intro pq result hq hf hr hlt
    by_cases hpq : pq = []
    · subst hpq
      have e : unionLoop pick caps (fuel + 1) [] result = result := by rw [unionLoop]; simp
      rw [e]
      exact ⟨hr, fun k v => by simp [qhas]⟩
    · obtain ⟨hi, hmin⟩ := hp pq hpq (fun q h => (hq q h).2)
      have hgd : pq.getD (pick pq) [] = pq[pick pq] := by
        rw [List.getD_eq_getElem?_getD, List.getElem?_eq_getElem hi]; rfl
      have hmem := List.getElem_mem hi
      obtain ⟨hv0, hne0⟩ := hq _ hmem
      rw [unionLoop, hgd]
      cases ht : pq[pick pq] with
      | nil => exact absurd ht hne0
      | cons x rest =>
        obtain ⟨k0, b0⟩ := x
        simp only
        rw [ht] at hv0 hmem hmin
        have hmin' : ∀ q ∈ pq, ∀ x ∈ q, k0 ≤ x.1 := by
          intro q hqm x hx
          obtain ⟨hvq, hnq⟩ := hq q hqm
          cases q with
          | nil => cases hx
          | cons y qt =>
            have h1 : k0 ≤ y.1 := hmin _ hqm _ rfl _ rfl
            have hc := (minv_cons (k := y.1) (b := y.2)).1 hvq
            rcases List.mem_cons.1 hx with h | h
            · rw [h]; exact h1
            · have := hc.2.2.1 x h; omega
        obtain ⟨c1, c2, c3, c4⟩ := minv_cons.1 hv0
        obtain ⟨g1, g2, g3, new, g4, g5, g6, g7⟩ := group_spec hp k0 ((pq.map List.length).sum + 1) [] hq (by omega) hmin'
        rw [List.nil_append] at g4
        -- at least the top of the queue has been taken
        have hnew : new ≠ [] := by
          intro e
          rw [e, List.length_nil, Nat.add_zero] at g6
          have hb : unionGroup pick k0 ((pq.map List.length).sum + 1) pq [] =
              unionGroup pick k0 (pq.map List.length).sum
                (if rest = [] then pq.eraseIdx (pick pq) else rest :: pq.eraseIdx (pick pq)) ([] ++ [b0]) := by
            rw [unionGroup, hgd, ht]; simp
          rw [hb] at g4
          have hmono : ∀ (f : Nat) (pq : List Map64) (acc : List Bitmap), ∃ n, (unionGroup pick k0 f pq acc).2 = acc ++ n := by
            intro f
            induction f with
            | zero => intro pq acc; exact ⟨[], by simp [unionGroup]⟩
            | succ f ihf =>
              intro pq acc
              rw [unionGroup]
              split
              · exact ⟨[], by simp⟩
              · split
                · exact ⟨[], by simp⟩
                · obtain ⟨n, hn⟩ := ihf _ (acc ++ [_])
                  exact ⟨_ :: n, by rw [hn, List.append_assoc]; rfl⟩
          obtain ⟨n, hn⟩ := hmono (pq.map List.length).sum
            (if rest = [] then pq.eraseIdx (pick pq) else rest :: pq.eraseIdx (pick pq)) ([] ++ [b0])
          rw [hn, e] at g4
          simp at g4
        have hlen : 0 < new.length := List.length_pos_iff.2 hnew
        rw [g4]
        have hO := Props.C34_or_many (caps k0) g5
        obtain ⟨m1, m2, m3⟩ := mapInsert_spec hr c1 hO.1
        have hfresh : mapFind result k0 = none := mapFind_none.2 fun hk => by
          obtain ⟨y, hy, e⟩ := List.mem_map.1 hk
          have := hlt _ hmem (k0, b0) List.mem_cons_self y hy
          simp only at this; omega
        have hkeys : ∀ y ∈ (mapInsert k0 (rbOrMany (caps k0) new) result).1, y.1 ≤ k0 := by
          intro y hy
          have : HasKey (mapInsert k0 (rbOrMany (caps k0) new) result).1 y.1 := List.mem_map_of_mem hy
          rcases mapInsert_hasKey.1 this with h | h
          · omega
          · obtain ⟨z, hz, e⟩ := List.mem_map.1 h
            have := hlt _ hmem (k0, b0) List.mem_cons_self z hz
            simp only at this; omega
        obtain ⟨r1, r2⟩ := ih (pq := (unionGroup pick k0 ((pq.map List.length).sum + 1) pq []).1) g1 (by omega) m1
          (fun q hqm x hx y hy => by have a := hkeys y hy; have b := g2 q hqm x hx; omega)
        refine ⟨r1, fun k v => ?_⟩
        rw [r2, g7]
        have hm : mhas (mapInsert k0 (rbOrMany (caps k0) new) result).1 k v = true ↔
            (k = k0 ∧ ∃ b ∈ new, rbContains b v = true) ∨ mhas result k v = true := by
          unfold mhas mapAt
          rw [m3 k]
          by_cases hk : k = k0
          · rw [if_pos hk, hfresh, hk, hfresh]
            simp only [Option.getD_none, Option.getD_some]
            rw [hO.2 v, contains_nil]; simp
          · rw [if_neg hk]; simp [hk]
        rw [hm]
        grind

theorem fastUnion_spec {pick : List Map64 → Nat} (hp : PicksMin pick) (caps : Nat → Nat → Nat → Nat) {inputs : List Map64}
    (h : ∀ m ∈ inputs, ValidM m) :
    ValidM (m64FastUnion pick caps inputs) ∧
      ∀ k v, mhas (m64FastUnion pick caps inputs) k v = true ↔ ∃ m ∈ inputs, mhas m k v = true := by
  unfold m64FastUnion
  simp only
  have hq : QInv (inputs.filter (fun m => !m.isEmpty)) := by
    intro q hq
    obtain ⟨a, b⟩ := List.mem_filter.1 hq
    exact ⟨h q a, by rintro rfl; cases b⟩
  obtain ⟨r1, r2⟩ := union_loop hp caps (((inputs.filter (fun m => !m.isEmpty)).map List.length).sum + 1) (result := [])
    hq (by omega) ValidM.nil (by simp)
  refine ⟨r1, fun k v => ?_⟩
  rw [r2, mhas_noKey (hasKey_nil k)]
  unfold qhas
  constructor
  · rintro (⟨q, hq, hv⟩ | h)
    · exact ⟨q, (List.mem_filter.1 hq).1, hv⟩
    · cases h
  · rintro ⟨q, hq, hv⟩
    refine Or.inl ⟨q, List.mem_filter.2 ⟨hq, ?_⟩, hv⟩
    cases q with
    | nil => rw [mhas_noKey (hasKey_nil k)] at hv; cases hv
    | cons _ _ => rfl

end CRoaring
