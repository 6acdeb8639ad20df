import Verif.Model.Map64
import Verif.Props.C01
import Verif.Props.C04
import Verif.Props.C09
import Verif.Props.C13
import Verif.Props.C18
import Verif.Props.C33
import Verif.Props.C35
/-
Lemmas about the model of `Roaring64Map`.
-/
set_option linter.unusedSimpArgs false
set_option linter.unusedVariables false
namespace CRoaring
open Spec

/-- The invariant of a map: increasing 32-bit keys and valid inner bitmaps, which may be empty. -/
def ValidM (m : Map64) : Prop := (m.map (·.1)).Pairwise (· < ·) ∧ ∀ p ∈ m, p.1 < 4294967296 ∧ Valid p.2

theorem valid_nil : Valid [] := Props.C01_create.1
theorem contains_nil (v : Nat) : rbContains [] v = false := Props.C01_create.2 v

theorem ValidM.nil : ValidM [] := ⟨List.Pairwise.nil, by simp⟩

theorem minv_cons {k : Nat} {b : Bitmap} {t : Map64} :
    ValidM ((k, b) :: t) ↔ k < 4294967296 ∧ Valid b ∧ (∀ p ∈ t, k < p.1) ∧ ValidM t := by
  unfold ValidM
  rw [List.map_cons, List.pairwise_cons]
  constructor
  · rintro ⟨⟨h1, h2⟩, h3⟩
    have := h3 (k, b) (List.mem_cons_self ..)
    exact ⟨this.1, this.2, fun p hp => h1 _ (List.mem_map_of_mem hp), h2, fun p hp => h3 p (List.mem_cons_of_mem _ hp)⟩
  · rintro ⟨h1, h2, h3, h4, h5⟩
    refine ⟨⟨fun a ha => ?_, h4⟩, fun p hp => ?_⟩
    · obtain ⟨p, hp, rfl⟩ := List.mem_map.1 ha
      exact h3 p hp
    · rcases List.mem_cons.1 hp with rfl | hp
      · exact ⟨h1, h2⟩
      · exact h5 p hp

theorem ValidM.tail {p : Nat × Bitmap} {t : Map64} (h : ValidM (p :: t)) : ValidM t := (minv_cons.1 h).2.2.2

/-- The keys of a map. -/
def HasKey (m : Map64) (k : Nat) : Prop := k ∈ m.map (·.1)

theorem hasKey_nil (k : Nat) : ¬ HasKey [] k := by simp [HasKey]

theorem hasKey_cons {p : Nat × Bitmap} {t : Map64} {k : Nat} : HasKey (p :: t) k ↔ k = p.1 ∨ HasKey t k := by
  simp [HasKey]

theorem mapFind_nil (k : Nat) : mapFind [] k = none := rfl

theorem mapFind_cons (k' : Nat) (b : Bitmap) (t : Map64) (k : Nat) :
    mapFind ((k', b) :: t) k = if k' = k then some b else mapFind t k := by
  unfold mapFind
  rw [List.find?_cons]
  by_cases h : k' = k
  · rw [if_pos h]; simp [h]
  · rw [if_neg h, beq_false_of_ne h]

theorem mapFind_none {m : Map64} {k : Nat} : mapFind m k = none ↔ ¬ HasKey m k := by
  induction m with
  | nil => simp [mapFind_nil, hasKey_nil]
  | cons p t ih =>
    obtain ⟨k', b⟩ := p
    rw [mapFind_cons, hasKey_cons]
    by_cases h : k' = k
    · simp [h]
    · rw [if_neg h, ih]
      have : ¬ k = k' := fun e => h e.symm
      simp [this]

theorem mapFind_mem {m : Map64} {k : Nat} {b : Bitmap} (h : mapFind m k = some b) : (k, b) ∈ m := by
  induction m with
  | nil => simp [mapFind_nil] at h
  | cons p t ih =>
    obtain ⟨k', b'⟩ := p
    rw [mapFind_cons] at h
    split at h
    · rename_i e; cases h; subst e; exact List.mem_cons_self ..
    · exact List.mem_cons_of_mem _ (ih h)

theorem mapFind_iff {m : Map64} (hm : ValidM m) {k : Nat} {b : Bitmap} : mapFind m k = some b ↔ (k, b) ∈ m := by
  refine ⟨mapFind_mem, ?_⟩
  induction m with
  | nil => simp
  | cons p t ih =>
    obtain ⟨k', b'⟩ := p
    have hc := minv_cons.1 hm
    intro h
    rw [mapFind_cons]
    rcases List.mem_cons.1 h with h | h
    · cases h; rw [if_pos rfl]
    · have := hc.2.2.1 _ h
      rw [if_neg (by omega)]
      exact ih hc.2.2.2 h

theorem mapAt_some {m : Map64} {k : Nat} {b : Bitmap} (h : mapFind m k = some b) : mapAt m k = b := by
  unfold mapAt; rw [h]; rfl

theorem mapAt_none {m : Map64} {k : Nat} (h : mapFind m k = none) : mapAt m k = [] := by
  unfold mapAt; rw [h]; rfl

theorem mapAt_valid {m : Map64} (hm : ValidM m) (k : Nat) : Valid (mapAt m k) := by
  cases h : mapFind m k with
  | none => rw [mapAt_none h]; exact valid_nil
  | some b => rw [mapAt_some h]; exact (hm.2 _ (mapFind_mem h)).2

theorem mapAt_cons (k' : Nat) (b : Bitmap) (t : Map64) (k : Nat) :
    mapAt ((k', b) :: t) k = if k' = k then b else mapAt t k := by
  unfold mapAt; rw [mapFind_cons]; split <;> rfl

theorem hasKey_lt {m : Map64} (hm : ValidM m) {k : Nat} (h : HasKey m k) : k < 4294967296 := by
  obtain ⟨p, hp, rfl⟩ := List.mem_map.1 h
  exact (hm.2 p hp).1

theorem mapAt_big {m : Map64} (hm : ValidM m) {k : Nat} (h : ¬ k < 4294967296) : mapAt m k = [] :=
  mapAt_none (mapFind_none.2 fun hk => h (hasKey_lt hm hk))

/-- The pairs (high half, low half) of the values of a map. -/
def mhas (m : Map64) (k v : Nat) : Bool := rbContains (mapAt m k) v

theorem m64Contains_eq (m : Map64) (x : Nat) : m64Contains m x = mhas m (highBytes x) (lowBytes x) := by
  unfold m64Contains mhas mapAt
  cases mapFind m (highBytes x) with
  | none => simp [contains_nil]
  | some b => simp

theorem m64Contains32_eq (m : Map64) (x : Nat) : m64Contains32 m x = mhas m 0 x := by
  unfold m64Contains32 mhas mapAt
  cases mapFind m 0 with
  | none => simp [contains_nil]
  | some b => simp

theorem mhas_mem {m : Map64} (hm : ValidM m) {k v : Nat} : mhas m k v = true ↔ ∃ b, (k, b) ∈ m ∧ rbContains b v = true := by
  unfold mhas
  cases h : mapFind m k with
  | none =>
    rw [mapAt_none h, contains_nil]
    constructor
    · intro e; cases e
    · rintro ⟨b, hb, _⟩; rw [(mapFind_iff hm).2 hb] at h; cases h
  | some b =>
    rw [mapAt_some h]
    constructor
    · intro e; exact ⟨b, mapFind_mem h, e⟩
    · rintro ⟨b', hb, e⟩; rw [(mapFind_iff hm).2 hb] at h; cases h; exact e

/-! ### `std::map` operations -/

theorem mapInsert_hasKey {k : Nat} {b : Bitmap} {m : Map64} {j : Nat} :
    HasKey (mapInsert k b m).1 j ↔ j = k ∨ HasKey m j := by
  fun_induction mapInsert k b m with
  | case1 => simp [hasKey_cons, hasKey_nil]
  | case2 k' b' t h => simp [hasKey_cons]
  | case3 b' t h => simp [hasKey_cons]
  | case4 k' b' t h h2 p ih => simp only [hasKey_cons]; rw [ih]; grind

theorem mapInsert_spec {m : Map64} (hm : ValidM m) {k : Nat} (hk : k < 4294967296) {b : Bitmap} (hb : Valid b) :
    ValidM (mapInsert k b m).1 ∧ (mapInsert k b m).2 = (mapFind m k).isNone ∧
      ∀ j, mapFind (mapInsert k b m).1 j = if j = k then some ((mapFind m k).getD b) else mapFind m j := by
  induction m with
  | nil =>
    refine ⟨minv_cons.2 ⟨hk, hb, by simp, ValidM.nil⟩, rfl, fun j => ?_⟩
    show mapFind [(k, b)] j = _
    rw [mapFind_cons, mapFind_nil, mapFind_nil]
    by_cases h : j = k
    · simp [h]
    · rw [if_neg h, if_neg (fun e => h e.symm)]
  | cons p t ih =>
    obtain ⟨k', b'⟩ := p
    have hc := minv_cons.1 hm
    unfold mapInsert
    by_cases h1 : k < k'
    · rw [if_pos h1]
      have hn : mapFind ((k', b') :: t) k = none := by
        rw [mapFind_none, hasKey_cons]
        rintro (h | h)
        · simp at h; omega
        · obtain ⟨q, hq, rfl⟩ := List.mem_map.1 h
          have := hc.2.2.1 q hq; omega
      refine ⟨minv_cons.2 ⟨hk, hb, ?_, hm⟩, by rw [hn]; rfl, fun j => ?_⟩
      · intro q hq
        rcases List.mem_cons.1 hq with rfl | hq
        · exact h1
        · exact Nat.lt_trans h1 (hc.2.2.1 q hq)
      · rw [hn, mapFind_cons]
        by_cases h : j = k
        · simp [h]
        · rw [if_neg h, if_neg (fun e => h e.symm)]
    · rw [if_neg h1]
      by_cases h2 : k = k'
      · rw [if_pos h2]
        subst h2
        refine ⟨hm, by rw [mapFind_cons, if_pos rfl]; rfl, fun j => ?_⟩
        rw [mapFind_cons, mapFind_cons, if_pos rfl]
        by_cases h : j = k
        · simp [h]
        · rw [if_neg h, if_neg (fun e => h e.symm)]
      · rw [if_neg h2]
        obtain ⟨i1, i2, i3⟩ := ih hc.2.2.2
        have hf : mapFind ((k', b') :: t) k = mapFind t k := by rw [mapFind_cons, if_neg (fun e => h2 e.symm)]
        refine ⟨minv_cons.2 ⟨hc.1, hc.2.1, ?_, i1⟩, by rw [hf]; exact i2, fun j => ?_⟩
        · intro q hq
          have : HasKey (mapInsert k b t).1 q.1 := List.mem_map_of_mem hq
          rcases mapInsert_hasKey.1 this with h | h
          · omega
          · obtain ⟨q', hq', e⟩ := List.mem_map.1 h
            have := hc.2.2.1 q' hq'
            omega
        · show mapFind ((k', b') :: (mapInsert k b t).1) j = _
          rw [mapFind_cons, i3 j, hf, mapFind_cons]
          by_cases hj : j = k
          · subst hj; rw [if_neg (fun e => h2 e.symm), if_pos rfl, if_pos rfl]
          · simp [hj]

theorem mapStore_hasKey {m : Map64} {k : Nat} {b : Bitmap} {j : Nat} : HasKey (mapStore m k b) j ↔ HasKey m j := by
  unfold HasKey mapStore
  rw [List.map_map]
  have : ((fun p : Nat × Bitmap => p.1) ∘ fun p : Nat × Bitmap => if p.1 = k then (k, b) else p) = fun p => p.1 := by
    funext p
    by_cases h : p.1 = k <;> simp [h]
  rw [this]

theorem mapFind_store {m : Map64} {k : Nat} {b : Bitmap} (j : Nat) :
    mapFind (mapStore m k b) j = if j = k then (mapFind m k).map (fun _ => b) else mapFind m j := by
  induction m with
  | nil => simp [mapStore, mapFind_nil]
  | cons p t ih =>
    obtain ⟨k', b'⟩ := p
    have e : mapStore ((k', b') :: t) k b = (if k' = k then (k, b) else (k', b')) :: mapStore t k b := rfl
    rw [e]
    by_cases h : k' = k
    · rw [if_pos h, mapFind_cons, ih, mapFind_cons, if_pos h]
      by_cases hj : j = k
      · simp [hj]
      · rw [if_neg (fun e => hj e.symm), if_neg hj, if_neg hj, mapFind_cons, if_neg (by omega)]
    · rw [if_neg h, mapFind_cons, ih, mapFind_cons, if_neg h]
      by_cases hj : j = k
      · subst hj; rw [if_neg h, if_pos rfl, if_pos rfl]
      · rw [if_neg hj, if_neg hj, mapFind_cons]

theorem mapStore_inv {m : Map64} (hm : ValidM m) {k : Nat} {b : Bitmap} (hb : Valid b) : ValidM (mapStore m k b) := by
  constructor
  · have : (mapStore m k b).map (·.1) = m.map (·.1) := by
      unfold mapStore
      rw [List.map_map]
      congr 1
      funext p
      by_cases h : p.1 = k <;> simp [h]
    rw [this]; exact hm.1
  · intro p hp
    obtain ⟨q, hq, e⟩ := List.mem_map.1 hp
    have := hm.2 q hq
    by_cases h : q.1 = k
    · rw [if_pos h] at e; subst e; exact ⟨h ▸ this.1, hb⟩
    · rw [if_neg h] at e; subst e; exact this

theorem mapFind_isSome {m : Map64} {k : Nat} (h : HasKey m k) : ∃ b, mapFind m k = some b := by
  cases e : mapFind m k with
  | none => exact absurd h (mapFind_none.1 e)
  | some b => exact ⟨b, rfl⟩

theorem mapAt_store {m : Map64} {k : Nat} (hk : HasKey m k) (b : Bitmap) (j : Nat) :
    mapAt (mapStore m k b) j = if j = k then b else mapAt m j := by
  obtain ⟨b', e⟩ := mapFind_isSome hk
  unfold mapAt
  rw [mapFind_store, e]
  split <;> rfl

theorem mapFind_filter {m : Map64} (p : Nat → Bool) (k : Nat) :
    mapFind (m.filter (fun q => p q.1)) k = if p k then mapFind m k else none := by
  induction m with
  | nil => simp [mapFind_nil]
  | cons q t ih =>
    obtain ⟨k', b'⟩ := q
    rw [List.filter_cons]
    by_cases h : p k' = true
    · rw [if_pos h, mapFind_cons, mapFind_cons, ih]
      by_cases hk : k' = k
      · subst hk; simp [h]
      · simp [hk]
    · rw [if_neg h, mapFind_cons, ih]
      by_cases hk : k' = k
      · subst hk; simp [h]
      · simp [hk]

theorem filter_inv {m : Map64} (hm : ValidM m) (p : Nat × Bitmap → Bool) : ValidM (m.filter p) :=
  ⟨hm.1.sublist (List.filter_sublist.map _), fun q hq => hm.2 q (List.mem_filter.1 hq).1⟩

theorem hasKey_filter {m : Map64} (p : Nat → Bool) {k : Nat} :
    HasKey (m.filter (fun q => p q.1)) k ↔ HasKey m k ∧ p k = true := by
  constructor
  · intro h
    obtain ⟨q, hq, rfl⟩ := List.mem_map.1 h
    have := List.mem_filter.1 hq
    exact ⟨List.mem_map_of_mem this.1, this.2⟩
  · rintro ⟨h, hp⟩
    obtain ⟨q, hq, rfl⟩ := List.mem_map.1 h
    exact List.mem_map_of_mem (List.mem_filter.2 ⟨hq, hp⟩)

theorem mapErase_inv {m : Map64} (hm : ValidM m) (k : Nat) : ValidM (mapErase m k) := filter_inv hm _

theorem mapFind_erase {m : Map64} (k j : Nat) : mapFind (mapErase m k) j = if j = k then none else mapFind m j := by
  have := mapFind_filter (m := m) (fun q => q != k) j
  rw [show mapErase m k = m.filter (fun q => (fun q => q != k) q.1) from rfl, this]
  by_cases h : j = k <;> simp [h]

theorem mapErase_hasKey {m : Map64} {k j : Nat} : HasKey (mapErase m k) j ↔ HasKey m j ∧ j ≠ k := by
  have := hasKey_filter (m := m) (fun q => q != k) (k := j)
  rw [show mapErase m k = m.filter (fun q => (fun q => q != k) q.1) from rfl, this]
  simp

theorem isEmpty_iff {b : Bitmap} : rbIsEmpty b = true ↔ b = [] := by
  unfold rbIsEmpty; cases b <;> simp

theorem eraseIfEmpty_spec {m : Map64} (hm : ValidM m) (k : Nat) :
    ValidM (eraseIfEmpty m k) ∧ (∀ j, mapAt (eraseIfEmpty m k) j = mapAt m j) ∧
      ∀ j, j ≠ k → (HasKey (eraseIfEmpty m k) j ↔ HasKey m j) := by
  unfold eraseIfEmpty
  by_cases h : rbIsEmpty (mapAt m k) = true
  · rw [if_pos h]
    refine ⟨mapErase_inv hm k, fun j => ?_, fun j hj => ?_⟩
    · by_cases hj : j = k
      · subst hj
        rw [isEmpty_iff.1 h]
        exact mapAt_none (by rw [mapFind_erase, if_pos rfl])
      · unfold mapAt; rw [mapFind_erase, if_neg hj]
    · rw [mapErase_hasKey]; simp [hj]
  · rw [if_neg h]; exact ⟨hm, fun _ => rfl, fun _ _ => Iff.rfl⟩

theorem mapAt_insert_nil {m : Map64} (hm : ValidM m) {k : Nat} (hk : k < 4294967296) (j : Nat) :
    mapAt (mapInsert k [] m).1 j = mapAt m j := by
  unfold mapAt
  rw [(mapInsert_spec hm hk valid_nil).2.2 j]
  by_cases h : j = k
  · subst h; rw [if_pos rfl]; simp
  · rw [if_neg h]

theorem lookupOrCreate_spec {m : Map64} (hm : ValidM m) {k : Nat} (hk : k < 4294967296) :
    ValidM (lookupOrCreate m k) ∧ (∀ j, mapAt (lookupOrCreate m k) j = mapAt m j) ∧ HasKey (lookupOrCreate m k) k :=
  ⟨(mapInsert_spec hm hk valid_nil).1, mapAt_insert_nil hm hk, mapInsert_hasKey.2 (Or.inl rfl)⟩

/-- `lookupOrCreateInner(k)` followed by an update of the bitmap. -/
theorem update_spec {m : Map64} (hm : ValidM m) {k : Nat} (hk : k < 4294967296) {b : Bitmap} (hb : Valid b) :
    ValidM (mapStore (lookupOrCreate m k) k b) ∧
      ∀ j, mapAt (mapStore (lookupOrCreate m k) k b) j = if j = k then b else mapAt m j := by
  obtain ⟨h1, h2, h3⟩ := lookupOrCreate_spec hm hk
  refine ⟨mapStore_inv h1 hb, fun j => ?_⟩
  rw [mapAt_store h3]
  split
  · rfl
  · exact h2 j

/-- An update of the bitmap of an existing entry, which is then erased if it is empty. -/
theorem shrink_spec {m : Map64} (hm : ValidM m) {k : Nat} (hk : HasKey m k) {b : Bitmap} (hb : Valid b) :
    ValidM (eraseIfEmpty (mapStore m k b) k) ∧
      (∀ j, mapAt (eraseIfEmpty (mapStore m k b) k) j = if j = k then b else mapAt m j) ∧
      ∀ j, j ≠ k → (HasKey (eraseIfEmpty (mapStore m k b) k) j ↔ HasKey m j) := by
  obtain ⟨h1, h2, h3⟩ := eraseIfEmpty_spec (mapStore_inv hm (k := k) hb) k
  refine ⟨h1, fun j => ?_, fun j hj => ?_⟩
  · rw [h2, mapAt_store hk]
  · rw [h3 j hj, mapStore_hasKey]

/-! ### Halves of 64-bit values -/

theorem highBytes_lt (x : Nat) : highBytes x < 4294967296 := Nat.mod_lt _ (by omega)
theorem lowBytes_lt (x : Nat) : lowBytes x < 4294967296 := Nat.mod_lt _ (by omega)

theorem halves_inj {x y : Nat} (hx : x < 18446744073709551616) (hy : y < 18446744073709551616) :
    x = y ↔ highBytes x = highBytes y ∧ lowBytes x = lowBytes y := by
  unfold highBytes lowBytes
  omega

theorem highBytes_eq {x : Nat} (hx : x < 18446744073709551616) : highBytes x = x / 4294967296 := by
  unfold highBytes; omega

theorem unite_eq {k v : Nat} (hv : v < 4294967296) : uniteBytes k v = k * 4294967296 + v := by
  unfold uniteBytes
  rw [← Nat.shiftLeft_add_eq_or_of_lt (by simpa using hv), Nat.shiftLeft_eq]

theorem unite_halves {x : Nat} (hx : x < 18446744073709551616) : uniteBytes (highBytes x) (lowBytes x) = x := by
  rw [unite_eq (lowBytes_lt x), highBytes_eq hx]
  unfold lowBytes
  omega

theorem high_unite {k v : Nat} (hk : k < 4294967296) (hv : v < 4294967296) : highBytes (uniteBytes k v) = k := by
  rw [unite_eq hv]; unfold highBytes; omega

theorem low_unite {k v : Nat} (hv : v < 4294967296) : lowBytes (uniteBytes k v) = v := by
  rw [unite_eq hv]; unfold lowBytes; omega

theorem unite_lt {k v : Nat} (hk : k < 4294967296) (hv : v < 4294967296) : uniteBytes k v < 18446744073709551616 := by
  rw [unite_eq hv]; omega

theorem contains_lt32 {b : Bitmap} (h : Valid b) {v : Nat} (hv : rbContains b v = true) : v < 4294967296 := by
  have := h.inv
  rw [rbContains_eq this] at hv
  exact bhas_lt this hv

/-! ### Point updates -/

theorem add_spec {m : Map64} (hm : ValidM m) {k l : Nat} (hk : k < 4294967296) (hl : l < 4294967296) :
    let m' := mapStore (lookupOrCreate m k) k (rbAdd (mapAt (lookupOrCreate m k) k) l)
    ValidM m' ∧ ∀ j v, mhas m' j v = true ↔ (j = k ∧ v = l) ∨ mhas m j v = true := by
  intro m'
  have hL := lookupOrCreate_spec hm hk
  have hb := Props.C01_add (mapAt_valid hm k) (x := l) (by omega)
  have hu := update_spec hm hk (b := rbAdd (mapAt (lookupOrCreate m k) k) l) (by rw [hL.2.1]; exact hb.1)
  refine ⟨hu.1, fun j v => ?_⟩
  show rbContains (mapAt m' j) v = true ↔ _
  rw [hu.2 j, hL.2.1]
  by_cases h : j = k
  · subst h; rw [if_pos rfl, hb.2 v]; simp [mhas]
  · rw [if_neg h]; simp [h, mhas]

end CRoaring
