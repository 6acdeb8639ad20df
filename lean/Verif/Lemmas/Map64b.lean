import Verif.Lemmas.Map64
/-
Lemmas about the model of `Roaring64Map`: updates of one value and of ranges.
-/
set_option linter.unusedSimpArgs false
set_option linter.unusedVariables false
namespace CRoaring
open Spec

/-! ### More point updates -/

theorem addChecked_spec {m : Map64} (hm : ValidM m) {k l : Nat} (hk : k < 4294967296) (hl : l < 4294967296) :
    let p := rbAddChecked (mapAt (lookupOrCreate m k) k) l
    let m' := mapStore (lookupOrCreate m k) k p.1
    (p.2 = true ↔ mhas m k l = false) ∧ ValidM m' ∧ ∀ j v, mhas m' j v = true ↔ (j = k ∧ v = l) ∨ mhas m j v = true := by
  intro p m'
  have hL := lookupOrCreate_spec hm hk
  have hb := Props.C02_add_checked (mapAt_valid hL.1 k) (x := l) (by omega)
  have hu := update_spec hm hk (b := p.1) hb.2.1
  refine ⟨?_, hu.1, fun j v => ?_⟩
  · rw [hb.1, hL.2.1]; rfl
  · show rbContains (mapAt m' j) v = true ↔ _
    rw [hu.2 j]
    by_cases h : j = k
    · subst h; rw [if_pos rfl, hb.2.2 v, hL.2.1]; simp [mhas]
    · rw [if_neg h]; simp [h, mhas]

theorem remove_spec {m : Map64} (hm : ValidM m) {k l : Nat} (hk : HasKey m k) (hl : l < 4294967296) :
    let m' := eraseIfEmpty (mapStore m k (rbRemove (mapAt m k) l)) k
    ValidM m' ∧ ∀ j v, mhas m' j v = true ↔ ¬ (j = k ∧ v = l) ∧ mhas m j v = true := by
  intro m'
  have hb := Props.C01_remove (mapAt_valid hm k) (x := l) (by omega)
  have hu := shrink_spec hm hk hb.1
  refine ⟨hu.1, fun j v => ?_⟩
  show rbContains (mapAt m' j) v = true ↔ _
  rw [hu.2.1 j]
  by_cases h : j = k
  · subst h; rw [if_pos rfl, hb.2 v]; simp [mhas]
  · rw [if_neg h]; simp [h, mhas]

theorem removeChecked_spec {m : Map64} (hm : ValidM m) {k l : Nat} (hk : HasKey m k) (hl : l < 4294967296) :
    let p := rbRemoveChecked (mapAt m k) l
    let q := if !p.2 then (mapStore m k p.1, false) else (eraseIfEmpty (mapStore m k p.1) k, true)
    (q.2 = true ↔ mhas m k l = true) ∧ ValidM q.1 ∧ ∀ j v, mhas q.1 j v = true ↔ ¬ (j = k ∧ v = l) ∧ mhas m j v = true := by
  intro p q
  have hb := Props.C02_remove_checked (mapAt_valid hm k) (x := l) (by omega)
  have hu := shrink_spec hm hk hb.2.1
  have h2 : q.2 = p.2 := by show (if !p.2 then _ else _ : Map64 × Bool).2 = _; cases p.2 <;> rfl
  have hAt : ∀ j, mapAt q.1 j = if j = k then p.1 else mapAt m j := by
    intro j
    show mapAt (if !p.2 then _ else _ : Map64 × Bool).1 j = _
    cases p.2
    · exact mapAt_store hk _ j
    · exact hu.2.1 j
  refine ⟨?_, ?_, fun j v => ?_⟩
  · rw [h2]; exact hb.1
  · show ValidM (if !p.2 then _ else _ : Map64 × Bool).1
    cases p.2
    · exact mapStore_inv hm hb.2.1
    · exact hu.1
  · show rbContains (mapAt q.1 j) v = true ↔ _
    rw [hAt j]
    by_cases h : j = k
    · subst h; rw [if_pos rfl, hb.2.2 v]; simp [mhas]
    · rw [if_neg h]; simp [h, mhas]

theorem mhas_noKey {m : Map64} {k : Nat} (h : ¬ HasKey m k) (v : Nat) : mhas m k v = false := by
  unfold mhas; rw [mapAt_none (mapFind_none.2 h)]; exact contains_nil v

theorem hasKey_of_mhas {m : Map64} {k v : Nat} (h : mhas m k v = true) : HasKey m k := by
  by_cases hk : HasKey m k
  · exact hk
  · rw [mhas_noKey hk] at h; cases h

theorem mhas_lt {m : Map64} (hm : ValidM m) {k v : Nat} (h : mhas m k v = true) : k < 4294967296 ∧ v < 4294967296 :=
  ⟨hasKey_lt hm (hasKey_of_mhas h), contains_lt32 (mapAt_valid hm k) h⟩

theorem mapBegin_zero {m : Map64} (hm : ValidM m) : mapBegin m = some 0 ↔ HasKey m 0 := by
  cases m with
  | nil => simp [mapBegin, hasKey_nil]
  | cons p t =>
    obtain ⟨k, b⟩ := p
    have hc := minv_cons.1 hm
    simp only [mapBegin, List.head?_cons, Option.map_some, Option.some.injEq]
    rw [hasKey_cons]
    constructor
    · intro h; exact Or.inl h.symm
    · rintro (h | h)
      · exact h.symm
      · obtain ⟨q, hq, e⟩ := List.mem_map.1 h
        have := hc.2.2.1 q hq
        omega

/-! ### Iterators of the map -/

theorem mapLowerBound_cons (p : Nat × Bitmap) (t : Map64) (k : Nat) :
    mapLowerBound (p :: t) k = if k ≤ p.1 then some p.1 else mapLowerBound t k := by
  unfold mapLowerBound
  rw [List.find?_cons]
  by_cases h : k ≤ p.1 <;> simp [h]

theorem lowerBound_none {m : Map64} {k : Nat} : mapLowerBound m k = none ↔ ∀ i, HasKey m i → i < k := by
  induction m with
  | nil => simp [mapLowerBound, hasKey_nil]
  | cons p t ih =>
    rw [mapLowerBound_cons]
    by_cases h : k ≤ p.1
    · rw [if_pos h]
      constructor
      · intro e; cases e
      · intro e; have := e p.1 (hasKey_cons.2 (Or.inl rfl)); omega
    · rw [if_neg h, ih]
      constructor
      · intro e i hi
        rcases hasKey_cons.1 hi with hi | hi
        · omega
        · exact e i hi
      · intro e i hi; exact e i (hasKey_cons.2 (Or.inr hi))

theorem lowerBound_some {m : Map64} (hm : ValidM m) {k j : Nat} :
    mapLowerBound m k = some j ↔ HasKey m j ∧ k ≤ j ∧ ∀ i, HasKey m i → k ≤ i → j ≤ i := by
  induction m with
  | nil => simp [mapLowerBound, hasKey_nil]
  | cons p t ih =>
    have hc := (minv_cons (k := p.1) (b := p.2)).1 hm
    rw [mapLowerBound_cons]
    by_cases h : k ≤ p.1
    · rw [if_pos h]
      constructor
      · intro e; cases e
        refine ⟨hasKey_cons.2 (Or.inl rfl), h, fun i hi _ => ?_⟩
        rcases hasKey_cons.1 hi with hi | hi
        · omega
        · obtain ⟨q, hq, rfl⟩ := List.mem_map.1 hi
          have := hc.2.2.1 q hq; omega
      · rintro ⟨h1, h2, h3⟩
        have h4 := h3 p.1 (hasKey_cons.2 (Or.inl rfl)) h
        rcases hasKey_cons.1 h1 with hi | hi
        · rw [hi]
        · obtain ⟨q, hq, rfl⟩ := List.mem_map.1 hi
          have := hc.2.2.1 q hq; omega
    · rw [if_neg h, ih hc.2.2.2]
      constructor
      · rintro ⟨h1, h2, h3⟩
        refine ⟨hasKey_cons.2 (Or.inr h1), h2, fun i hi hk => ?_⟩
        rcases hasKey_cons.1 hi with hi | hi
        · omega
        · exact h3 i hi hk
      · rintro ⟨h1, h2, h3⟩
        refine ⟨?_, h2, fun i hi hk => h3 i (hasKey_cons.2 (Or.inr hi)) hk⟩
        rcases hasKey_cons.1 h1 with hi | hi
        · omega
        · exact hi

theorem mapNext_eq (m : Map64) (k : Nat) : mapNext m k = mapLowerBound m (k + 1) := rfl

theorem lowerBound_ext {m m' : Map64} (hm : ValidM m) (hm' : ValidM m') {k k' : Nat}
    (h : ∀ i, (HasKey m i ∧ k ≤ i) ↔ (HasKey m' i ∧ k' ≤ i)) : mapLowerBound m k = mapLowerBound m' k' := by
  cases e : mapLowerBound m' k' with
  | none =>
    rw [lowerBound_none] at e ⊢
    intro i hi
    by_cases hk : k ≤ i
    · have := (h i).1 ⟨hi, hk⟩
      have := e i this.1
      omega
    · omega
  | some j =>
    rw [lowerBound_some hm'] at e
    rw [lowerBound_some hm]
    have := (h j).2 ⟨e.1, e.2.1⟩
    refine ⟨this.1, this.2, fun i hi hk => ?_⟩
    have := (h i).1 ⟨hi, hk⟩
    exact e.2.2 i this.1 this.2

theorem lowerBound_key {m : Map64} (hm : ValidM m) {k : Nat} : mapLowerBound m k = some k ↔ HasKey m k := by
  rw [lowerBound_some hm]
  exact ⟨fun h => h.1, fun h => ⟨h, Nat.le_refl _, fun _ _ h => h⟩⟩

theorem next_succ {m : Map64} (hm : ValidM m) {k : Nat} (h : HasKey m (k + 1)) : mapNext m k = some (k + 1) := by
  rw [mapNext_eq]; exact (lowerBound_key hm).2 h

theorem ensure_loop (n : Nat) : ∀ {m : Map64} (hm : ValidM m) {s : Nat} (hs : s + n ≤ 4294967296),
    let st := (List.range' s n).foldl ensureStep (m, mapLowerBound m s)
    ValidM st.1 ∧ (∀ j, mapAt st.1 j = mapAt m j) ∧ ∀ j, HasKey st.1 j ↔ HasKey m j ∨ (s ≤ j ∧ j < s + n) := by
  induction n with
  | zero => intro m hm s hs st; exact ⟨hm, fun _ => rfl, fun j => by simp only [st, List.range'_zero, List.foldl_nil]; grind⟩
  | succ n ih =>
    intro m hm s hs st
    have e : st = (List.range' (s + 1) n).foldl ensureStep (ensureStep (m, mapLowerBound m s) s) := rfl
    by_cases h : mapLowerBound m s = some s
    · rw [show ensureStep (m, mapLowerBound m s) s = (m, mapLowerBound m (s + 1)) by
        unfold ensureStep; rw [if_pos h]; rfl] at e
      obtain ⟨h1, h2, h3⟩ := ih hm (s := s + 1) (by omega)
      rw [e]
      refine ⟨h1, h2, fun j => ?_⟩
      rw [h3 j]
      have := (lowerBound_key hm).1 h
      constructor
      · rintro (h | h)
        · exact Or.inl h
        · exact Or.inr (by omega)
      · rintro (h | h)
        · exact Or.inl h
        · by_cases hj : j = s
          · exact Or.inl (hj ▸ this)
          · exact Or.inr (by omega)
    · rw [show ensureStep (m, mapLowerBound m s) s = ((mapInsert s [] m).1, mapLowerBound m s) by
        unfold ensureStep; rw [if_neg h]] at e
      have hi := mapInsert_spec hm (k := s) (by omega) valid_nil
      have hn : ¬ HasKey m s := fun hk => h ((lowerBound_key hm).2 hk)
      have hl : mapLowerBound m s = mapLowerBound (mapInsert s [] m).1 (s + 1) := by
        refine lowerBound_ext hm hi.1 fun i => ?_
        rw [mapInsert_hasKey]
        constructor
        · rintro ⟨h1, h2⟩
          have : i ≠ s := fun e => hn (e ▸ h1)
          exact ⟨Or.inr h1, by omega⟩
        · rintro ⟨h1 | h1, h2⟩
          · omega
          · exact ⟨h1, by omega⟩
      obtain ⟨h1, h2, h3⟩ := ih hi.1 (s := s + 1) (by omega)
      rw [e, hl]
      refine ⟨h1, fun j => ?_, fun j => ?_⟩
      · rw [h2 j, mapAt_insert_nil hm (by omega)]
      · rw [h3 j, mapInsert_hasKey]
        constructor
        · rintro ((h | h) | h)
          · exact Or.inr (by omega)
          · exact Or.inl h
          · exact Or.inr (by omega)
        · rintro (h | h)
          · exact Or.inl (Or.inr h)
          · by_cases hj : j = s
            · exact Or.inl (Or.inl hj)
            · exact Or.inr (by omega)

theorem ensure_spec {m : Map64} (hm : ValidM m) {s e : Nat} (hse : s ≤ e) (he : e < 4294967296) :
    ValidM (ensureRangePopulated m s e) ∧ (∀ j, mapAt (ensureRangePopulated m s e) j = mapAt m j) ∧
      ∀ j, s ≤ j → j ≤ e → HasKey (ensureRangePopulated m s e) j := by
  obtain ⟨h1, h2, h3⟩ := ensure_loop (e + 1 - s) hm (s := s) (by omega)
  exact ⟨h1, h2, fun j a b => (h3 j).2 (Or.inr (by omega))⟩

/-! ### Ranges -/

theorem copy_spec {first : Bitmap} (hf : Valid first) (n : Nat) : ∀ {m : Map64} (hm : ValidM m) {k : Nat}
    (hk : ∀ i, k ≤ i → i ≤ k + n → HasKey m i),
    ∃ m', copyLoop first n m (some k) = some (m', some (k + n)) ∧ ValidM m' ∧
      (∀ j, mapAt m' j = if k ≤ j ∧ j < k + n then first else mapAt m j) ∧ ∀ j, HasKey m' j ↔ HasKey m j := by
  induction n with
  | zero =>
    intro m hm k hk
    refine ⟨m, rfl, hm, fun j => ?_, fun _ => Iff.rfl⟩
    rw [if_neg (by omega)]
  | succ n ih =>
    intro m hm k hk
    unfold copyLoop
    rw [next_succ hm (hk (k + 1) (by omega) (by omega))]
    obtain ⟨m', e, h1, h2, h3⟩ := ih (mapStore_inv hm (k := k) hf) (k := k + 1)
      (fun i a b => mapStore_hasKey.2 (hk i (by omega) (by omega)))
    refine ⟨m', ?_, h1, fun j => ?_, fun j => ?_⟩
    · rw [e, show k + 1 + n = k + (n + 1) by omega]
    · rw [h2 j, mapAt_store (hk k (by omega) (by omega))]
      by_cases hj : j = k
      · subst hj; rw [if_neg (by omega), if_pos rfl, if_pos (by omega)]
      · rw [if_neg hj]
        by_cases hr : k + 1 ≤ j ∧ j < k + 1 + n
        · rw [if_pos hr, if_pos (by omega)]
        · rw [if_neg hr, if_neg (by omega)]
    · rw [h3 j, mapStore_hasKey]

theorem addIntermediate_spec {n : Nat} {m : Map64} (hm : ValidM m) {k : Nat} (hk : ∀ i, k ≤ i → i ≤ k + n → HasKey m i) :
    ∃ m', addIntermediate n m (some k) = some (m', some (k + n)) ∧ ValidM m' ∧
      (∀ j v, mhas m' j v = true ↔ (k ≤ j ∧ j < k + n ∧ v < 4294967296) ∨ mhas m j v = true) ∧
      ∀ j, HasKey m' j ↔ HasKey m j := by
  unfold addIntermediate
  by_cases hn : n = 0
  · subst hn
    refine ⟨m, rfl, hm, fun j v => ?_, fun _ => Iff.rfl⟩
    constructor
    · exact Or.inr
    · rintro (h | h)
      · omega
      · exact h
  · rw [if_pos hn]
    have hf := Props.C13_add_range_closed (mapAt_valid hm k) 0 (hi := 4294967295) (by omega)
    have hk0 := hk k (by omega) (by omega)
    obtain ⟨m', e, h1, h2, h3⟩ := copy_spec hf.1 (n - 1) (mapStore_inv hm (k := k) hf.1) (k := k + 1)
      (fun i a b => mapStore_hasKey.2 (hk i (by omega) (by omega)))
    refine ⟨m', ?_, h1, fun j v => ?_, fun j => ?_⟩
    · show copyLoop _ _ _ (mapNext m k) = _
      rw [next_succ hm (hk (k + 1) (by omega) (by omega)), e, show k + 1 + (n - 1) = k + n by omega]
    · have hAt : mapAt m' j = if k ≤ j ∧ j < k + n then rbAddRangeClosed (mapAt m k) 0 4294967295 else mapAt m j := by
        rw [h2 j, mapAt_store hk0]
        by_cases hj : j = k
        · subst hj; rw [if_neg (by omega), if_pos rfl, if_pos (by omega)]
        · rw [if_neg hj]
          by_cases hr : k + 1 ≤ j ∧ j < k + 1 + (n - 1)
          · rw [if_pos hr, if_pos (by omega)]
          · rw [if_neg hr, if_neg (by omega)]
      show rbContains (mapAt m' j) v = true ↔ _
      rw [hAt]
      by_cases hr : k ≤ j ∧ j < k + n
      · rw [if_pos hr, hf.2 v]
        constructor
        · rintro (h | h)
          · exact Or.inl ⟨hr.1, hr.2, by omega⟩
          · exact Or.inl ⟨hr.1, hr.2, contains_lt32 (mapAt_valid hm k) h⟩
        · rintro (h | h)
          · exact Or.inl (by omega)
          · have := mhas_lt hm h
            exact Or.inl (by omega)
      · rw [if_neg hr]
        constructor
        · exact Or.inr
        · rintro (h | h)
          · exact absurd ⟨h.1, h.2.1⟩ hr
          · exact h
    · rw [h3 j, mapStore_hasKey]

/-- The values between `lo` and `hi`, in terms of halves. -/
theorem addRange_spec {m : Map64} (hm : ValidM m) {lo hi : Nat} (hlo : lo < 18446744073709551616)
    (hhi : hi < 18446744073709551616) :
    ∃ m', m64AddRangeClosed m lo hi = some m' ∧ ValidM m' ∧
      ∀ j v, mhas m' j v = true ↔
        (v < 4294967296 ∧ lo ≤ j * 4294967296 + v ∧ j * 4294967296 + v ≤ hi) ∨ mhas m j v = true := by
  unfold m64AddRangeClosed
  by_cases h : lo > hi
  · rw [if_pos h]
    refine ⟨m, rfl, hm, fun j v => ?_⟩
    constructor
    · exact Or.inr
    · rintro (h | h)
      · omega
      · exact h
  · rw [if_neg h]
    have eh := highBytes_lt hi
    have sl := lowBytes_lt lo
    have el := lowBytes_lt hi
    have hl1 : lo = highBytes lo * 4294967296 + lowBytes lo := by unfold highBytes lowBytes; omega
    have hh1 : hi = highBytes hi * 4294967296 + lowBytes hi := by unfold highBytes lowBytes; omega
    revert hl1 hh1 eh sl el
    generalize highBytes lo = sh
    generalize highBytes hi = eh
    generalize lowBytes lo = sl
    generalize lowBytes hi = el
    intro heh hsl hel hl1 hh1
    have hse : sh ≤ eh := by omega
    obtain ⟨e1, e2, e3⟩ := ensure_spec hm hse heh
    simp only
    generalize ensureRangePopulated m sh eh = M at e1 e2 e3
    have hmh : ∀ j v, mhas M j v = mhas m j v := fun j v => by unfold mhas; rw [e2]
    by_cases hs : sh = eh
    · rw [if_pos hs]
      have hb := Props.C13_add_range_closed (mapAt_valid e1 sh) sl (hi := el) (by omega)
      refine ⟨_, rfl, mapStore_inv e1 hb.1, fun j v => ?_⟩
      show rbContains (mapAt _ j) v = true ↔ _
      rw [mapAt_store (e3 sh (Nat.le_refl _) hse)]
      by_cases hj : j = sh
      · rw [if_pos hj, hb.2 v, hj]
        have : rbContains (mapAt M sh) v = mhas m sh v := hmh sh v
        rw [this]
        constructor
        · rintro (h | h)
          · exact Or.inl (by omega)
          · exact Or.inr h
        · rintro (h | h)
          · exact Or.inl (by omega)
          · exact Or.inr h
      · rw [if_neg hj]
        have : rbContains (mapAt M j) v = mhas m j v := hmh j v
        rw [this]
        constructor
        · exact Or.inr
        · rintro (h | h)
          · omega
          · exact h
    · rw [if_neg hs]
      have hb := Props.C13_add_range_closed (mapAt_valid e1 sh) sl (hi := 4294967295) (by omega)
      have hM1 := mapStore_inv e1 (k := sh) hb.1
      have hks := e3 sh (Nat.le_refl _) hse
      obtain ⟨m2, i1, i2, i3, i4⟩ := addIntermediate_spec (n := eh - sh - 1) hM1 (k := sh + 1)
        (fun i a b => mapStore_hasKey.2 (e3 i (by omega) (by omega)))
      rw [next_succ e1 (e3 (sh + 1) (by omega) (by omega)), i1, show sh + 1 + (eh - sh - 1) = eh by omega]
      have hb2 := Props.C13_add_range_closed (mapAt_valid i2 eh) 0 (hi := el) (by omega)
      refine ⟨_, rfl, mapStore_inv i2 hb2.1, fun j v => ?_⟩
      have hk2 : HasKey m2 eh := (i4 eh).2 (mapStore_hasKey.2 (e3 eh hse (Nat.le_refl _)))
      have h1 : mhas (mapStore M sh (rbAddRangeClosed (mapAt M sh) sl 4294967295)) j v = true ↔
          (j = sh ∧ sl ≤ v ∧ v ≤ 4294967295) ∨ mhas m j v = true := by
        show rbContains (mapAt _ j) v = true ↔ _
        rw [mapAt_store hks]
        by_cases hj : j = sh
        · rw [if_pos hj, hb.2 v, ← hmh j v, hj]; simp [mhas]
        · rw [if_neg hj, ← hmh j v]; simp [mhas, hj]
      have h2 := i3 j v
      rw [h1] at h2
      have h3 : mhas (mapStore m2 eh (rbAddRangeClosed (mapAt m2 eh) 0 el)) j v = true ↔
          (j = eh ∧ v ≤ el) ∨ mhas m2 j v = true := by
        show rbContains (mapAt _ j) v = true ↔ _
        rw [mapAt_store hk2]
        by_cases hj : j = eh
        · rw [if_pos hj, hb2.2 v, hj]; simp [mhas]
        · rw [if_neg hj]; simp [mhas, hj]
      rw [h3, h2]
      constructor
      · rintro (h | h | h | h)
        · exact Or.inl (by omega)
        · exact Or.inl (by omega)
        · exact Or.inl (by omega)
        · exact Or.inr h
      · rintro (h | h)
        · by_cases c1 : j = eh
          · exact Or.inl (by omega)
          · by_cases c2 : j = sh
            · exact Or.inr (Or.inr (Or.inl (by omega)))
            · exact Or.inr (Or.inl (by omega))
        · exact Or.inr (Or.inr (Or.inr h))

theorem flipLoop_spec (n : Nat) : ∀ {m : Map64} (hm : ValidM m) {k : Nat}
    (hk : ∀ i, k ≤ i → i ≤ k + n → HasKey m i),
    ∃ m', flipLoop n m (some k) = some (m', some (k + n)) ∧ ValidM m' ∧
      (∀ j, mapAt m' j = if k ≤ j ∧ j < k + n then rbFlipInplaceClosed (mapAt m j) 0 4294967295 else mapAt m j) ∧
      ∀ j, k + n ≤ j → (HasKey m' j ↔ HasKey m j) := by
  induction n with
  | zero =>
    intro m hm k hk
    refine ⟨m, rfl, hm, fun j => ?_, fun _ _ => Iff.rfl⟩
    rw [if_neg (by omega)]
  | succ n ih =>
    intro m hm k hk
    unfold flipLoop
    have hb := Props.C17_flip_inplace_closed (mapAt_valid hm k) 0 (hi := 4294967295) (by omega)
    have hk0 := hk k (by omega) (by omega)
    have hS := shrink_spec hm hk0 hb.1
    simp only
    rw [next_succ (mapStore_inv hm hb.1) (mapStore_hasKey.2 (hk (k + 1) (by omega) (by omega)))]
    obtain ⟨m', e, h1, h2, h3⟩ := ih hS.1 (k := k + 1)
      (fun i a b => (hS.2.2 i (by omega)).2 (hk i (by omega) (by omega)))
    refine ⟨m', ?_, h1, fun j => ?_, fun j hj => ?_⟩
    · rw [e, show k + 1 + n = k + (n + 1) by omega]
    · rw [h2 j, hS.2.1 j]
      by_cases hj : j = k
      · subst hj; rw [if_neg (by omega), if_pos rfl, if_pos (by omega)]
      · rw [if_neg hj]
        by_cases hr : k + 1 ≤ j ∧ j < k + 1 + n
        · rw [if_pos hr, if_pos (by omega)]
        · rw [if_neg hr, if_neg (by omega)]
    · rw [h3 j (by omega), hS.2.2 j (by omega)]

theorem flip_spec {m : Map64} (hm : ValidM m) {lo hi : Nat} (hlo : lo < 18446744073709551616)
    (hhi : hi < 18446744073709551616) :
    ∃ m', m64FlipClosed m lo hi = some m' ∧ ValidM m' ∧
      ∀ j v, v < 4294967296 → mhas m' j v =
        if lo ≤ j * 4294967296 + v ∧ j * 4294967296 + v ≤ hi then !mhas m j v else mhas m j v := by
  unfold m64FlipClosed
  by_cases h : lo > hi
  · rw [if_pos h]
    refine ⟨m, rfl, hm, fun j v hv => ?_⟩
    rw [if_neg (by omega)]
  · rw [if_neg h]
    have eh := highBytes_lt hi
    have sl := lowBytes_lt lo
    have el := lowBytes_lt hi
    have hl1 : lo = highBytes lo * 4294967296 + lowBytes lo := by unfold highBytes lowBytes; omega
    have hh1 : hi = highBytes hi * 4294967296 + lowBytes hi := by unfold highBytes lowBytes; omega
    revert hl1 hh1 eh sl el
    generalize highBytes lo = sh
    generalize highBytes hi = eh
    generalize lowBytes lo = sl
    generalize lowBytes hi = el
    intro heh hsl hel hl1 hh1
    have hse : sh ≤ eh := by omega
    obtain ⟨e1, e2, e3⟩ := ensure_spec hm hse heh
    simp only
    generalize ensureRangePopulated m sh eh = M at e1 e2 e3
    have hks := e3 sh (Nat.le_refl _) hse
    by_cases hs : sh = eh
    · rw [if_pos hs]
      have hb := Props.C17_flip_inplace_closed (mapAt_valid e1 sh) sl (hi := el) (by omega)
      have hS := shrink_spec e1 hks hb.1
      refine ⟨_, rfl, hS.1, fun j v hv => ?_⟩
      show rbContains (mapAt _ j) v = _
      rw [hS.2.1 j]
      by_cases hj : j = sh
      · rw [if_pos hj, hb.2 v, e2, hj]
        by_cases hr : sl ≤ v ∧ v ≤ el
        · rw [if_pos hr, if_pos (by omega)]; rfl
        · rw [if_neg hr, if_neg (by omega)]; rfl
      · rw [if_neg hj, if_neg (by omega), e2]; rfl
    · rw [if_neg hs]
      have hb := Props.C17_flip_inplace_closed (mapAt_valid e1 sh) sl (hi := 4294967295) (by omega)
      have hS := shrink_spec e1 hks hb.1
      obtain ⟨m2, i1, i2, i3, i4⟩ := flipLoop_spec (eh - sh - 1) hS.1 (k := sh + 1)
        (fun i a b => (hS.2.2 i (by omega)).2 (e3 i (by omega) (by omega)))
      rw [next_succ (mapStore_inv e1 hb.1) (mapStore_hasKey.2 (e3 (sh + 1) (by omega) (by omega))), i1,
        show sh + 1 + (eh - sh - 1) = eh by omega]
      have hb2 := Props.C17_flip_inplace_closed (mapAt_valid i2 eh) 0 (hi := el) (by omega)
      have hk2 : HasKey m2 eh := (i4 eh (by omega)).2 ((hS.2.2 eh (by omega)).2 (e3 eh hse (Nat.le_refl _)))
      have hS2 := shrink_spec i2 hk2 hb2.1
      refine ⟨_, rfl, hS2.1, fun j v hv => ?_⟩
      show rbContains (mapAt _ j) v = _
      rw [hS2.2.1 j]
      have hat : ∀ j, mapAt m2 j = if sh + 1 ≤ j ∧ j < eh then rbFlipInplaceClosed (mapAt m j) 0 4294967295
          else if j = sh then rbFlipInplaceClosed (mapAt m sh) sl 4294967295 else mapAt m j := by
        intro j
        rw [i3 j, hS.2.1 j, show sh + 1 + (eh - sh - 1) = eh by omega]
        by_cases c : sh + 1 ≤ j ∧ j < eh
        · rw [if_pos c, if_pos c, if_neg (by omega), e2]
        · rw [if_neg c, if_neg c, e2, e2]
      by_cases hj : j = eh
      · have he : mapAt m2 eh = mapAt m eh := by rw [hat eh, if_neg (by omega), if_neg (by omega)]
        rw [if_pos hj, hb2.2 v, he, hj]
        by_cases hr : 0 ≤ v ∧ v ≤ el
        · rw [if_pos hr, if_pos (by omega)]; rfl
        · rw [if_neg hr, if_neg (by omega)]; rfl
      · rw [if_neg hj, hat j]
        by_cases c : sh + 1 ≤ j ∧ j < eh
        · rw [if_pos c, (Props.C17_flip_inplace_closed (mapAt_valid hm j) 0 (hi := 4294967295) (by omega)).2 v,
            if_pos (by omega), if_pos (by omega)]; rfl
        · rw [if_neg c]
          by_cases c2 : j = sh
          · rw [if_pos c2, (Props.C17_flip_inplace_closed (mapAt_valid hm sh) sl (hi := 4294967295) (by omega)).2 v, c2]
            by_cases hr : sl ≤ v ∧ v ≤ 4294967295
            · rw [if_pos hr, if_pos (by omega)]; rfl
            · rw [if_neg hr, if_neg (by omega)]; rfl
          · rw [if_neg c2, if_neg (by omega)]; rfl

/-! ### Removal of a range -/

theorem head_le {m : Map64} (hm : ValidM m) {f : Nat × Bitmap} (hf : m.head? = some f) {i : Nat} (hi : HasKey m i) :
    f.1 ≤ i := by
  cases m with
  | nil => cases hf
  | cons p t =>
    cases hf
    have hc := (minv_cons (k := f.1) (b := f.2)).1 hm
    rcases hasKey_cons.1 hi with h | h
    · omega
    · obtain ⟨q, hq, rfl⟩ := List.mem_map.1 h
      have := hc.2.2.1 q hq; omega

theorem le_last {m : Map64} (hm : ValidM m) {l : Nat × Bitmap} (hl : m.getLast? = some l) {i : Nat} (hi : HasKey m i) :
    i ≤ l.1 ∧ HasKey m l.1 := by
  obtain ⟨ys, rfl⟩ := List.getLast?_eq_some_iff.1 hl
  refine ⟨?_, by simp [HasKey]⟩
  have h1 := hm.1
  rw [List.map_append, List.pairwise_append] at h1
  unfold HasKey at hi
  rw [List.map_append, List.mem_append] at hi
  rcases hi with h | h
  · have := h1.2.2 i h l.1 (by simp); omega
  · simp at h; omega

theorem tail_spec {m : Map64} (hm : ValidM m) {s eh el : Nat} (hs : s ≤ eh) (hel : el < 4294967296) :
    let m' := removeRangeTail m (mapLowerBound m s) (mapLowerBound m eh) eh el
    ValidM m' ∧ ∀ j v, mhas m' j v = true ↔ ¬ ((s ≤ j ∧ j < eh) ∨ (j = eh ∧ v ≤ el)) ∧ mhas m j v = true := by
  intro m'
  -- the erased range
  have hE : ValidM (mapEraseRange m (mapLowerBound m s) (mapLowerBound m eh)) ∧
      (∀ j, mapAt (mapEraseRange m (mapLowerBound m s) (mapLowerBound m eh)) j = if s ≤ j ∧ j < eh then [] else mapAt m j) ∧
      (HasKey (mapEraseRange m (mapLowerBound m s) (mapLowerBound m eh)) eh ↔ HasKey m eh) := by
    cases es : mapLowerBound m s with
    | none =>
      rw [lowerBound_none] at es
      refine ⟨hm, fun j => ?_, Iff.rfl⟩
      show mapAt m j = _
      by_cases h : s ≤ j ∧ j < eh
      · rw [if_pos h]
        exact mapAt_none (mapFind_none.2 fun hk => by have := es j hk; omega)
      · rw [if_neg h]
    | some a =>
      rw [lowerBound_some hm] at es
      let P : Nat → Bool := fun q => !(decide (a ≤ q) && (match mapLowerBound m eh with | none => true | some z => decide (q < z)))
      have e : mapEraseRange m (some a) (mapLowerBound m eh) = m.filter (fun q => P q.1) := rfl
      have hP : ∀ j, HasKey m j → P j = !decide (s ≤ j ∧ j < eh) := by
        intro j hj
        have h1 : decide (a ≤ j) = decide (s ≤ j) := by
          by_cases c : s ≤ j
          · have := es.2.2 j hj c; simp [c, this]
          · have : ¬ a ≤ j := by omega
            simp [c, this]
        have h2 : (match mapLowerBound m eh with | none => true | some z => decide (j < z)) = decide (j < eh) := by
          cases ez : mapLowerBound m eh with
          | none => have := lowerBound_none.1 ez j hj; simp [this]
          | some z =>
            have hz := (lowerBound_some hm).1 ez
            by_cases c : j < eh
            · have : j < z := by omega
              simp [c, this]
            · have := hz.2.2 j hj (by omega)
              have : ¬ j < z := by omega
              simp [c, this]
        show (!(decide (a ≤ j) && _)) = _
        rw [h1, h2, Bool.decide_and]
      rw [e]
      refine ⟨filter_inv hm _, fun j => ?_, ?_⟩
      · by_cases hj : HasKey m j
        · unfold mapAt
          rw [mapFind_filter, hP j hj]
          by_cases c : s ≤ j ∧ j < eh
          · simp [c]
          · simp [c]
        · have h1 : mapAt m j = [] := mapAt_none (mapFind_none.2 hj)
          rw [h1, ite_self]
          exact mapAt_none (mapFind_none.2 fun hk => hj ((hasKey_filter P).1 hk).1)
      · rw [hasKey_filter]
        constructor
        · exact fun h => h.1
        · intro h; exact ⟨h, by rw [hP eh h]; simp⟩
  obtain ⟨h1, h2, h3⟩ := hE
  show ValidM (removeRangeTail m _ _ eh el) ∧ ∀ j v, mhas (removeRangeTail m _ _ eh el) j v = true ↔ _
  unfold removeRangeTail
  simp only
  generalize mapEraseRange m (mapLowerBound m s) (mapLowerBound m eh) = M at h1 h2 h3
  by_cases hk : mapLowerBound m eh = some eh
  · rw [if_pos hk]
    have hk' := h3.2 ((lowerBound_key hm).1 hk)
    have hb := Props.C13_remove_range_closed (mapAt_valid h1 eh) 0 el
    have hS := shrink_spec h1 hk' hb.1
    refine ⟨hS.1, fun j v => ?_⟩
    show rbContains (mapAt _ j) v = true ↔ _
    rw [hS.2.1 j]
    by_cases hj : j = eh
    · rw [if_pos hj, hb.2 v, h2 eh, if_neg (by omega), hj]
      show _ ∧ mhas m eh v = true ↔ _
      constructor
      · rintro ⟨a, b⟩; exact ⟨by omega, b⟩
      · rintro ⟨a, b⟩; exact ⟨by omega, b⟩
    · rw [if_neg hj, h2 j]
      by_cases c : s ≤ j ∧ j < eh
      · rw [if_pos c, contains_nil]; simp [c]
      · rw [if_neg c]
        show mhas m j v = true ↔ _
        constructor
        · intro a; exact ⟨by omega, a⟩
        · exact fun a => a.2
  · rw [if_neg hk]
    have hk' : ¬ HasKey m eh := fun h => hk ((lowerBound_key hm).2 h)
    refine ⟨h1, fun j v => ?_⟩
    show rbContains (mapAt _ j) v = true ↔ _
    rw [h2 j]
    by_cases c : s ≤ j ∧ j < eh
    · rw [if_pos c, contains_nil]; simp [c]
    · rw [if_neg c]
      show mhas m j v = true ↔ _
      constructor
      · intro a
        refine ⟨?_, a⟩
        rintro (h | h)
        · exact c h
        · exact hk' (h.1 ▸ hasKey_of_mhas a)
      · exact fun a => a.2

theorem removeRange_spec {m : Map64} (hm : ValidM m) {lo hi : Nat} (hlo : lo < 18446744073709551616)
    (hhi : hi < 18446744073709551616) :
    ∃ m', m64RemoveRangeClosed m lo hi = some m' ∧ ValidM m' ∧
      ∀ j v, mhas m' j v = true ↔
        ¬ (lo ≤ j * 4294967296 + v ∧ j * 4294967296 + v ≤ hi) ∧ mhas m j v = true := by
  have triv : (∀ j v, mhas m j v = true → ¬ (lo ≤ j * 4294967296 + v ∧ j * 4294967296 + v ≤ hi)) →
      ∃ m', some m = some m' ∧ ValidM m' ∧ ∀ j v, mhas m' j v = true ↔
        ¬ (lo ≤ j * 4294967296 + v ∧ j * 4294967296 + v ≤ hi) ∧ mhas m j v = true :=
    fun h => ⟨m, rfl, hm, fun j v => ⟨fun a => ⟨h j v a, a⟩, fun a => a.2⟩⟩
  unfold m64RemoveRangeClosed
  by_cases h : lo > hi
  · rw [if_pos h]
    exact triv fun j v _ => by omega
  · rw [if_neg h]
    have eh := highBytes_lt hi
    have sl := lowBytes_lt lo
    have el := lowBytes_lt hi
    have hl1 : lo = highBytes lo * 4294967296 + lowBytes lo := by unfold highBytes lowBytes; omega
    have hh1 : hi = highBytes hi * 4294967296 + lowBytes hi := by unfold highBytes lowBytes; omega
    revert hl1 hh1 eh sl el
    generalize highBytes lo = sh
    generalize highBytes hi = eh
    generalize lowBytes lo = sl
    generalize lowBytes hi = el
    intro heh hsl hel hl1 hh1
    have hse : sh ≤ eh := by omega
    simp only
    cases ef : m.head? with
    | none =>
      cases m with
      | nil => exact triv fun j v hv => by rw [mhas_noKey (hasKey_nil j)] at hv; cases hv
      | cons p t => cases ef
    | some f =>
      cases elast : m.getLast? with
      | none =>
        rw [List.getLast?_eq_none_iff] at elast
        subst elast; cases ef
      | some l =>
        simp only
        by_cases hc : eh < f.1 ∨ sh > l.1
        · rw [if_pos hc]
          refine triv fun j v hv => ?_
          have a := head_le hm ef (hasKey_of_mhas hv)
          have b := (le_last hm elast (hasKey_of_mhas hv)).1
          have c := mhas_lt hm hv
          omega
        · rw [if_neg hc]
          have hlk : HasKey m l.1 := by
            obtain ⟨ys, rfl⟩ := List.getLast?_eq_some_iff.1 elast
            simp [HasKey]
          cases es : mapLowerBound m sh with
          | none => have := lowerBound_none.1 es _ hlk; omega
          | some k =>
            simp only
            have hk := (lowerBound_some hm).1 es
            by_cases hks : k = sh
            · rw [if_pos hks]
              subst hks
              by_cases hlast : some k = mapLowerBound m eh
              · rw [if_pos hlast]
                have := (lowerBound_some hm).1 hlast.symm
                have hke : k = eh := by omega
                have hb := Props.C13_remove_range_closed (mapAt_valid hm k) sl el
                have hS := shrink_spec hm hk.1 hb.1
                refine ⟨_, rfl, hS.1, fun j v => ?_⟩
                show rbContains (mapAt _ j) v = true ↔ _
                rw [hS.2.1 j]
                by_cases hj : j = k
                · rw [if_pos hj, hb.2 v, hj]
                  show _ ∧ mhas m k v = true ↔ _
                  constructor
                  · rintro ⟨a, b⟩; exact ⟨by omega, b⟩
                  · rintro ⟨a, b⟩; exact ⟨by omega, b⟩
                · rw [if_neg hj]
                  show mhas m j v = true ↔ _
                  constructor
                  · intro a
                    have := mhas_lt hm a
                    exact ⟨by omega, a⟩
                  · exact fun a => a.2
              · rw [if_neg hlast]
                have hlt : k < eh := by
                  by_cases c : k = eh
                  · subst c; exact absurd es.symm hlast
                  · omega
                have hb := Props.C13_remove_range_closed (mapAt_valid hm k) sl 4294967295
                have hS := shrink_spec hm hk.1 hb.1
                have hM1 := mapStore_inv hm (k := k) hb.1
                have en : mapNext (mapStore m k (rbRemoveRangeClosed (mapAt m k) sl 4294967295)) k =
                    mapLowerBound (eraseIfEmpty (mapStore m k (rbRemoveRangeClosed (mapAt m k) sl 4294967295)) k) (k + 1) := by
                  rw [mapNext_eq]
                  refine lowerBound_ext hM1 hS.1 fun i => ?_
                  constructor
                  · rintro ⟨a, b⟩; exact ⟨(hS.2.2 i (by omega)).2 (mapStore_hasKey.1 a), b⟩
                  · rintro ⟨a, b⟩; exact ⟨mapStore_hasKey.2 ((hS.2.2 i (by omega)).1 a), b⟩
                have el' : mapLowerBound m eh =
                    mapLowerBound (eraseIfEmpty (mapStore m k (rbRemoveRangeClosed (mapAt m k) sl 4294967295)) k) eh := by
                  refine lowerBound_ext hm hS.1 fun i => ?_
                  constructor
                  · rintro ⟨a, b⟩; exact ⟨(hS.2.2 i (by omega)).2 a, b⟩
                  · rintro ⟨a, b⟩; exact ⟨(hS.2.2 i (by omega)).1 a, b⟩
                have hT := tail_spec hS.1 (s := k + 1) (eh := eh) (el := el) (by omega) hel
                rw [en, el']
                refine ⟨_, rfl, hT.1, fun j v => ?_⟩
                rw [hT.2 j v]
                have h1 : mhas (eraseIfEmpty (mapStore m k (rbRemoveRangeClosed (mapAt m k) sl 4294967295)) k) j v = true ↔
                    ¬ (j = k ∧ sl ≤ v ∧ v ≤ 4294967295) ∧ mhas m j v = true := by
                  show rbContains (mapAt _ j) v = true ↔ _
                  rw [hS.2.1 j]
                  by_cases hj : j = k
                  · rw [if_pos hj, hb.2 v, hj]; simp [mhas]
                  · rw [if_neg hj]; simp [mhas, hj]
                rw [h1]
                constructor
                · rintro ⟨a, b, c⟩
                  have := mhas_lt hm c
                  exact ⟨by omega, c⟩
                · rintro ⟨a, c⟩
                  have := mhas_lt hm c
                  exact ⟨by omega, by omega, c⟩
            · rw [if_neg hks]
              have hT := tail_spec hm (s := sh) (eh := eh) (el := el) hse hel
              rw [es] at hT
              refine ⟨_, rfl, hT.1, fun j v => ?_⟩
              rw [hT.2 j v]
              constructor
              · rintro ⟨a, c⟩
                have := mhas_lt hm c
                exact ⟨by omega, c⟩
              · rintro ⟨a, c⟩
                have h1 := mhas_lt hm c
                have h2 : j ≠ sh := by
                  rintro rfl
                  have := hk.2.2 j (hasKey_of_mhas c) (Nat.le_refl _)
                  omega
                exact ⟨by omega, c⟩

end CRoaring
