import Verif.Lemmas.Map64d
import Verif.Props.Common
import Verif.Props.C54
/-
C81–C84, C91: `Roaring64Map`: updates of one value and of ranges, bulk insertion, set operators, histories.

A `Roaring64Map` is a `std::map` from the upper to the bitmap of the lower 32 bits.  `ValidM m` says that the keys are increasing
32-bit numbers and that each inner bitmap is valid (an inner bitmap may be empty).  `m64Contains` is the method
`contains(uint64_t)`.
-/
namespace CRoaring.Props
open CRoaring

/-- A map with three inner bitmaps, one of them empty. -/
def exMap : Map64 := [(0, exS), (5, exB), (9, [])]

theorem exMap_valid : ValidM exMap :=
  ⟨by decide, by
    intro p hp
    simp only [exMap, List.mem_cons, List.not_mem_nil, or_false] at hp
    rcases hp with rfl | rfl | rfl
    · exact ⟨by omega, exS_valid⟩
    · exact ⟨by omega, exB_valid⟩
    · exact ⟨by omega, valid_nil⟩⟩

theorem join {y : Nat} (hy : y < 2 ^ 64) : highBytes y * 4294967296 + lowBytes y = y := by
  have := unite_halves (x := y) hy
  rwa [unite_eq (lowBytes_lt y)] at this

theorem halves32 {x : Nat} (hx : x < 2 ^ 32) : highBytes x = 0 ∧ lowBytes x = x := by
  constructor
  · rw [highBytes_eq (by omega)]; omega
  · unfold lowBytes; omega

/-! ### C81 -/

/-- C81: a new map is empty; so is a cleared one. -/
theorem C81_create (m : Map64) : ValidM [] ∧ (∀ y, m64Contains [] y = false) ∧ m64Clear m = [] :=
  ⟨ValidM.nil, fun y => by rw [m64Contains_eq]; exact mhas_noKey (hasKey_nil _) _, rfl⟩

/-- C81: `add`, with a 64-bit or a 32-bit value. -/
theorem C81_add {m : Map64} (hm : ValidM m) {x : Nat} (hx : x < 2 ^ 64) :
    (ValidM (m64Add m x) ∧ ∀ y, y < 2 ^ 64 → (m64Contains (m64Add m x) y = true ↔ y = x ∨ m64Contains m y = true)) ∧
    (x < 2 ^ 32 → ValidM (m64Add32 m x) ∧
      ∀ y, y < 2 ^ 64 → (m64Contains (m64Add32 m x) y = true ↔ y = x ∨ m64Contains m y = true)) := by
  constructor
  · have h := add_spec hm (highBytes_lt x) (lowBytes_lt x)
    refine ⟨h.1, fun y hy => ?_⟩
    rw [m64Contains_eq, m64Contains_eq, halves_inj hy hx]
    exact h.2 _ _
  · intro h32
    have h := add_spec hm (k := 0) (l := x) (by omega) (by omega)
    refine ⟨h.1, fun y hy => ?_⟩
    rw [m64Contains_eq, m64Contains_eq, halves_inj hy hx, (halves32 h32).1, (halves32 h32).2]
    exact h.2 _ _

/-- C81: `addChecked` also answers whether the value is new. -/
theorem C81_add_checked {m : Map64} (hm : ValidM m) {x : Nat} (hx : x < 2 ^ 64) :
    (((m64AddChecked m x).2 = true ↔ m64Contains m x = false) ∧ ValidM (m64AddChecked m x).1 ∧
      ∀ y, y < 2 ^ 64 → (m64Contains (m64AddChecked m x).1 y = true ↔ y = x ∨ m64Contains m y = true)) ∧
    (x < 2 ^ 32 → ((m64AddChecked32 m x).2 = true ↔ m64Contains m x = false) ∧ ValidM (m64AddChecked32 m x).1 ∧
      ∀ y, y < 2 ^ 64 → (m64Contains (m64AddChecked32 m x).1 y = true ↔ y = x ∨ m64Contains m y = true)) := by
  constructor
  · have h := addChecked_spec hm (highBytes_lt x) (lowBytes_lt x)
    refine ⟨by rw [m64Contains_eq]; exact h.1, h.2.1, fun y hy => ?_⟩
    rw [m64Contains_eq, m64Contains_eq, halves_inj hy hx]
    exact h.2.2 _ _
  · intro h32
    have h := addChecked_spec hm (k := 0) (l := x) (by omega) (by omega)
    refine ⟨by rw [m64Contains_eq, (halves32 h32).1, (halves32 h32).2]; exact h.1, h.2.1, fun y hy => ?_⟩
    rw [m64Contains_eq, m64Contains_eq, halves_inj hy hx, (halves32 h32).1, (halves32 h32).2]
    exact h.2.2 _ _

/-- C81: `remove`, with a 64-bit or a 32-bit value. -/
theorem C81_remove {m : Map64} (hm : ValidM m) {x : Nat} (hx : x < 2 ^ 64) :
    (ValidM (m64Remove m x) ∧ ∀ y, y < 2 ^ 64 → (m64Contains (m64Remove m x) y = true ↔ y ≠ x ∧ m64Contains m y = true)) ∧
    (x < 2 ^ 32 → ValidM (m64Remove32 m x) ∧
      ∀ y, y < 2 ^ 64 → (m64Contains (m64Remove32 m x) y = true ↔ y ≠ x ∧ m64Contains m y = true)) := by
  constructor
  · cases hf : mapFind m (highBytes x) with
    | none =>
      have e : m64Remove m x = m := by unfold m64Remove; rw [hf]
      rw [e]
      refine ⟨hm, fun y hy => ⟨fun h => ⟨?_, h⟩, fun h => h.2⟩⟩
      rintro rfl
      rw [m64Contains_eq, mhas_noKey (mapFind_none.1 hf)] at h; cases h
    | some b =>
      have hk : HasKey m (highBytes x) := by
        by_cases hk : HasKey m (highBytes x)
        · exact hk
        · rw [mapFind_none.2 hk] at hf; cases hf
      have e : m64Remove m x = eraseIfEmpty (mapStore m (highBytes x) (rbRemove (mapAt m (highBytes x)) (lowBytes x))) (highBytes x) := by
        unfold m64Remove; rw [hf, mapAt_some hf]
      rw [e]
      have h := remove_spec hm hk (lowBytes_lt x)
      refine ⟨h.1, fun y hy => ?_⟩
      rw [m64Contains_eq, m64Contains_eq, Ne, halves_inj hy hx]
      exact h.2 _ _
  · intro h32
    unfold m64Remove32
    by_cases hb : mapBegin m = some 0
    · rw [if_neg (by simp [hb])]
      have h := remove_spec hm ((mapBegin_zero hm).1 hb) (l := x) (by omega)
      refine ⟨h.1, fun y hy => ?_⟩
      rw [m64Contains_eq, m64Contains_eq, Ne, halves_inj hy hx, (halves32 h32).1, (halves32 h32).2]
      exact h.2 _ _
    · rw [if_pos hb]
      refine ⟨hm, fun y hy => ⟨fun h => ⟨?_, h⟩, fun h => h.2⟩⟩
      rintro rfl
      rw [m64Contains_eq, (halves32 h32).1, mhas_noKey (fun hk => hb ((mapBegin_zero hm).2 hk))] at h; cases h

/-- C81: `removeChecked` also answers whether the value was there. -/
theorem C81_remove_checked {m : Map64} (hm : ValidM m) {x : Nat} (hx : x < 2 ^ 64) :
    (((m64RemoveChecked m x).2 = true ↔ m64Contains m x = true) ∧ ValidM (m64RemoveChecked m x).1 ∧
      ∀ y, y < 2 ^ 64 → (m64Contains (m64RemoveChecked m x).1 y = true ↔ y ≠ x ∧ m64Contains m y = true)) ∧
    (x < 2 ^ 32 → ((m64RemoveChecked32 m x).2 = true ↔ m64Contains m x = true) ∧ ValidM (m64RemoveChecked32 m x).1 ∧
      ∀ y, y < 2 ^ 64 → (m64Contains (m64RemoveChecked32 m x).1 y = true ↔ y ≠ x ∧ m64Contains m y = true)) := by
  constructor
  · cases hf : mapFind m (highBytes x) with
    | none =>
      have e : m64RemoveChecked m x = (m, false) := by unfold m64RemoveChecked; rw [hf]
      have hn : m64Contains m x = false := by rw [m64Contains_eq, mhas_noKey (mapFind_none.1 hf)]
      rw [e]
      refine ⟨by simp [hn], hm, fun y hy => ⟨fun h => ⟨?_, h⟩, fun h => h.2⟩⟩
      rintro rfl
      rw [hn] at h; cases h
    | some b =>
      have hk : HasKey m (highBytes x) := by
        by_cases hk : HasKey m (highBytes x)
        · exact hk
        · rw [mapFind_none.2 hk] at hf; cases hf
      have h := removeChecked_spec hm hk (lowBytes_lt x)
      have e : m64RemoveChecked m x = (if !(rbRemoveChecked (mapAt m (highBytes x)) (lowBytes x)).2 then
          (mapStore m (highBytes x) (rbRemoveChecked (mapAt m (highBytes x)) (lowBytes x)).1, false)
          else (eraseIfEmpty (mapStore m (highBytes x) (rbRemoveChecked (mapAt m (highBytes x)) (lowBytes x)).1) (highBytes x), true)) := by
        unfold m64RemoveChecked; rw [hf, mapAt_some hf]
      rw [e]
      refine ⟨by rw [m64Contains_eq]; exact h.1, h.2.1, fun y hy => ?_⟩
      rw [m64Contains_eq, m64Contains_eq, Ne, halves_inj hy hx]
      exact h.2.2 _ _
  · intro h32
    unfold m64RemoveChecked32
    by_cases hb : mapBegin m = some 0
    · rw [if_neg (by simp [hb])]
      have h := removeChecked_spec hm ((mapBegin_zero hm).1 hb) (l := x) (by omega)
      refine ⟨by rw [m64Contains_eq, (halves32 h32).1, (halves32 h32).2]; exact h.1, h.2.1, fun y hy => ?_⟩
      rw [m64Contains_eq, m64Contains_eq, Ne, halves_inj hy hx, (halves32 h32).1, (halves32 h32).2]
      exact h.2.2 _ _
    · rw [if_pos hb]
      have hn : m64Contains m x = false := by
        rw [m64Contains_eq, (halves32 h32).1, mhas_noKey (fun hk => hb ((mapBegin_zero hm).2 hk))]
      refine ⟨by simp [hn], hm, fun y hy => ⟨fun h => ⟨?_, h⟩, fun h => h.2⟩⟩
      rintro rfl
      rw [hn] at h; cases h

/-- C81: `contains(uint32_t)` agrees with `contains(uint64_t)`; nothing outside the 64-bit values is represented. -/
theorem C81_contains32 (m : Map64) {x : Nat} (hx : x < 2 ^ 32) : m64Contains32 m x = m64Contains m x := by
  rw [m64Contains32_eq, m64Contains_eq, (halves32 hx).1, (halves32 hx).2]

/-- C81: the map made from a 32-bit bitmap holds its values. -/
theorem C81_of_roaring {r : Bitmap} (hr : Valid r) :
    ValidM (m64OfRoaring r) ∧ ∀ y, y < 2 ^ 64 → (m64Contains (m64OfRoaring r) y = true ↔ rbContains r y = true) := by
  have e : m64OfRoaring r = [(0, r)] := rfl
  rw [e]
  refine ⟨minv_cons.2 ⟨by omega, hr, by simp, ValidM.nil⟩, fun y hy => ?_⟩
  rw [m64Contains_eq, mhas_cons]
  have hj := join hy
  have hl := lowBytes_lt y
  by_cases h : 0 = highBytes y
  · rw [if_pos h, show lowBytes y = y by omega]
  · rw [if_neg h, mhas_noKey (hasKey_nil _)]
    constructor
    · intro h; cases h
    · intro hv; have := contains_lt32 hr hv; omega

/-- C81: `bitmapOf` holds exactly the values given. -/
theorem C81_bitmap_of {xs : List Nat} (hx : ∀ x ∈ xs, x < 2 ^ 64) :
    ValidM (m64BitmapOf xs) ∧ ∀ y, y < 2 ^ 64 → (m64Contains (m64BitmapOf xs) y = true ↔ y ∈ xs) := by
  have gen : ∀ (xs : List Nat) (m : Map64), ValidM m → (∀ x ∈ xs, x < 2 ^ 64) →
      ValidM (xs.foldl m64Add m) ∧
        ∀ y, y < 2 ^ 64 → (m64Contains (xs.foldl m64Add m) y = true ↔ y ∈ xs ∨ m64Contains m y = true) := by
    intro xs
    induction xs with
    | nil => intro m hm _; exact ⟨hm, fun y _ => by simp⟩
    | cons x t ih =>
      intro m hm hx
      have hA := (C81_add hm (hx x List.mem_cons_self)).1
      have h := ih _ hA.1 (fun z hz => hx z (List.mem_cons_of_mem _ hz))
      rw [List.foldl_cons]
      refine ⟨h.1, fun y hy => ?_⟩
      rw [h.2 y hy, hA.2 y hy, List.mem_cons]
      grind
  have h := gen xs [] ValidM.nil hx
  refine ⟨h.1, fun y hy => ?_⟩
  have := h.2 y hy
  rw [(C81_create []).2.1 y] at this
  simpa [m64BitmapOf] using this

example : ValidM exMap := exMap_valid
example : m64Contains (m64Add exMap 99999999999) 99999999999 = true ∧ m64Contains exMap 99999999999 = false := by decide +kernel
example : m64Remove (m64BitmapOf [3, 99999999999]) 99999999999 = m64BitmapOf [3] := by decide +kernel

/-! ### C82: ranges -/

/-- C82: `addRangeClosed` adds exactly the values from `lo` to `hi` and follows no iterator past the end. -/
theorem C82_add_range_closed {m : Map64} (hm : ValidM m) {lo hi : Nat} (hlo : lo < 2 ^ 64) (hhi : hi < 2 ^ 64) :
    (∃ m', m64AddRangeClosed m lo hi = some m' ∧ ValidM m' ∧
      ∀ y, y < 2 ^ 64 → (m64Contains m' y = true ↔ (lo ≤ y ∧ y ≤ hi) ∨ m64Contains m y = true)) ∧
    (lo < 2 ^ 32 → hi < 2 ^ 32 → ValidM (m64AddRangeClosed32 m lo hi) ∧
      ∀ y, y < 2 ^ 64 → (m64Contains (m64AddRangeClosed32 m lo hi) y = true ↔ (lo ≤ y ∧ y ≤ hi) ∨ m64Contains m y = true)) := by
  constructor
  · obtain ⟨m', h1, h2, h3⟩ := addRange_spec hm hlo hhi
    refine ⟨m', h1, h2, fun y hy => ?_⟩
    rw [m64Contains_eq, m64Contains_eq, h3, join hy]
    have := lowBytes_lt y
    simp [this]
  · intro a b
    have hL := lookupOrCreate_spec hm (k := 0) (by omega)
    have hb := C13_add_range_closed (mapAt_valid hL.1 0) lo (hi := hi) b
    have hu := update_spec hm (k := 0) (by omega) hb.1
    refine ⟨hu.1, fun y hy => ?_⟩
    rw [m64Contains_eq, m64Contains_eq]
    show rbContains (mapAt _ _) _ = true ↔ _
    have hj := join hy
    have hl := lowBytes_lt y
    show rbContains (mapAt (mapStore (lookupOrCreate m 0) 0 _) _) _ = true ↔ _
    rw [hu.2]
    by_cases h : highBytes y = 0
    · rw [if_pos h, hb.2, hL.2.1, show lowBytes y = y by omega, h]; rfl
    · rw [if_neg h]
      constructor
      · exact Or.inr
      · rintro (h' | h')
        · omega
        · exact h'

/-- C82: `addRange`, with the end exclusive. -/
theorem C82_add_range {m : Map64} (hm : ValidM m) {lo hi : Nat} (hlo : lo < 2 ^ 64) (hhi : hi < 2 ^ 64) :
    ∃ m', m64AddRange m lo hi = some m' ∧ ValidM m' ∧
      ∀ y, y < 2 ^ 64 → (m64Contains m' y = true ↔ (lo ≤ y ∧ y < hi) ∨ m64Contains m y = true) := by
  unfold m64AddRange
  by_cases h : lo ≥ hi
  · rw [if_pos h]
    refine ⟨m, rfl, hm, fun y hy => ⟨Or.inr, ?_⟩⟩
    rintro (h' | h')
    · omega
    · exact h'
  · rw [if_neg h]
    obtain ⟨m', h1, h2, h3⟩ := (C82_add_range_closed hm hlo (hi := hi - 1) (by omega)).1
    refine ⟨m', h1, h2, fun y hy => ?_⟩
    rw [h3 y hy]
    constructor
    · rintro (h' | h')
      · exact Or.inl (by omega)
      · exact Or.inr h'
    · rintro (h' | h')
      · exact Or.inl (by omega)
      · exact Or.inr h'

/-- C82: `removeRangeClosed` removes exactly the values from `lo` to `hi`. -/
theorem C82_remove_range_closed {m : Map64} (hm : ValidM m) {lo hi : Nat} (hlo : lo < 2 ^ 64) (hhi : hi < 2 ^ 64) :
    (∃ m', m64RemoveRangeClosed m lo hi = some m' ∧ ValidM m' ∧
      ∀ y, y < 2 ^ 64 → (m64Contains m' y = true ↔ ¬ (lo ≤ y ∧ y ≤ hi) ∧ m64Contains m y = true)) ∧
    (lo < 2 ^ 32 → hi < 2 ^ 32 → ValidM (m64RemoveRangeClosed32 m lo hi) ∧
      ∀ y, y < 2 ^ 64 →
        (m64Contains (m64RemoveRangeClosed32 m lo hi) y = true ↔ ¬ (lo ≤ y ∧ y ≤ hi) ∧ m64Contains m y = true)) := by
  constructor
  · obtain ⟨m', h1, h2, h3⟩ := removeRange_spec hm hlo hhi
    refine ⟨m', h1, h2, fun y hy => ?_⟩
    rw [m64Contains_eq, m64Contains_eq, h3, join hy]
  · intro a b
    unfold m64RemoveRangeClosed32
    by_cases hb : mapBegin m = some 0
    · rw [if_neg (by simp [hb])]
      have hR := C13_remove_range_closed (mapAt_valid hm 0) lo hi
      have hS := shrink_spec hm ((mapBegin_zero hm).1 hb) hR.1
      refine ⟨hS.1, fun y hy => ?_⟩
      rw [m64Contains_eq, m64Contains_eq]
      show rbContains (mapAt _ _) _ = true ↔ _
      have hj := join hy
      have hl := lowBytes_lt y
      rw [hS.2.1]
      by_cases h : highBytes y = 0
      · rw [if_pos h, hR.2, show lowBytes y = y by omega, h]; rfl
      · rw [if_neg h]
        show mhas m (highBytes y) (lowBytes y) = true ↔ _
        exact ⟨fun h' => ⟨by omega, h'⟩, fun h' => h'.2⟩
    · rw [if_pos hb]
      refine ⟨hm, fun y hy => ⟨fun h' => ⟨?_, h'⟩, fun h' => h'.2⟩⟩
      intro hr
      have : y < 2 ^ 32 := by omega
      rw [m64Contains_eq, (halves32 this).1, mhas_noKey (fun hk => hb ((mapBegin_zero hm).2 hk))] at h'
      cases h'

/-- C82: `removeRange`, with the end exclusive. -/
theorem C82_remove_range {m : Map64} (hm : ValidM m) {lo hi : Nat} (hlo : lo < 2 ^ 64) (hhi : hi < 2 ^ 64) :
    ∃ m', m64RemoveRange m lo hi = some m' ∧ ValidM m' ∧
      ∀ y, y < 2 ^ 64 → (m64Contains m' y = true ↔ ¬ (lo ≤ y ∧ y < hi) ∧ m64Contains m y = true) := by
  unfold m64RemoveRange
  by_cases h : lo ≥ hi
  · rw [if_pos h]
    exact ⟨m, rfl, hm, fun y hy => ⟨fun h' => ⟨by omega, h'⟩, fun h' => h'.2⟩⟩
  · rw [if_neg h]
    obtain ⟨m', h1, h2, h3⟩ := (C82_remove_range_closed hm hlo (hi := hi - 1) (by omega)).1
    refine ⟨m', h1, h2, fun y hy => ?_⟩
    rw [h3 y hy]
    constructor
    · rintro ⟨a, b⟩; exact ⟨by omega, b⟩
    · rintro ⟨a, b⟩; exact ⟨by omega, b⟩

/-- C82: `flipClosed` complements exactly the values from `lo` to `hi`. -/
theorem C82_flip_closed {m : Map64} (hm : ValidM m) {lo hi : Nat} (hlo : lo < 2 ^ 64) (hhi : hi < 2 ^ 64) :
    (∃ m', m64FlipClosed m lo hi = some m' ∧ ValidM m' ∧
      ∀ y, y < 2 ^ 64 → m64Contains m' y = if lo ≤ y ∧ y ≤ hi then !m64Contains m y else m64Contains m y) ∧
    (lo < 2 ^ 32 → hi < 2 ^ 32 → ValidM (m64FlipClosed32 m lo hi) ∧
      ∀ y, y < 2 ^ 64 →
        m64Contains (m64FlipClosed32 m lo hi) y = if lo ≤ y ∧ y ≤ hi then !m64Contains m y else m64Contains m y) := by
  constructor
  · obtain ⟨m', h1, h2, h3⟩ := flip_spec hm hlo hhi
    refine ⟨m', h1, h2, fun y hy => ?_⟩
    rw [m64Contains_eq, m64Contains_eq, h3 _ _ (lowBytes_lt y), join hy]
  · intro a b
    unfold m64FlipClosed32
    have key : ∀ M : Map64, ValidM M → (∀ j, mapAt M j = mapAt m j) → HasKey M 0 →
        ValidM (eraseIfEmpty (mapStore M 0 (rbFlipInplaceClosed (mapAt M 0) lo hi)) 0) ∧
        ∀ y, y < 2 ^ 64 → m64Contains (eraseIfEmpty (mapStore M 0 (rbFlipInplaceClosed (mapAt M 0) lo hi)) 0) y =
          if lo ≤ y ∧ y ≤ hi then !m64Contains m y else m64Contains m y := by
      intro M hM hat hk
      have hF := C17_flip_inplace_closed (mapAt_valid hM 0) lo (hi := hi) b
      have hS := shrink_spec hM hk hF.1
      refine ⟨hS.1, fun y hy => ?_⟩
      rw [m64Contains_eq, m64Contains_eq]
      show rbContains (mapAt _ _) _ = _
      have hj := join hy
      have hl := lowBytes_lt y
      rw [hS.2.1]
      by_cases h : highBytes y = 0
      · rw [if_pos h, hF.2, hat, show lowBytes y = y by omega, h]; rfl
      · rw [if_neg h, if_neg (by omega), hat]; rfl
    simp only
    by_cases hb : mapBegin m = some 0
    · rw [if_neg (by simp [hb])]
      exact key m hm (fun _ => rfl) ((mapBegin_zero hm).1 hb)
    · rw [if_pos hb]
      obtain ⟨l1, l2, l3⟩ := lookupOrCreate_spec hm (k := 0) (by omega)
      exact key _ l1 l2 l3

/-- C82: `flip`, with the end exclusive. -/
theorem C82_flip {m : Map64} (hm : ValidM m) {lo hi : Nat} (hlo : lo < 2 ^ 64) (hhi : hi < 2 ^ 64) :
    ∃ m', m64Flip m lo hi = some m' ∧ ValidM m' ∧
      ∀ y, y < 2 ^ 64 → m64Contains m' y = if lo ≤ y ∧ y < hi then !m64Contains m y else m64Contains m y := by
  unfold m64Flip
  by_cases h : lo ≥ hi
  · rw [if_pos h]
    exact ⟨m, rfl, hm, fun y hy => by rw [if_neg (by omega)]⟩
  · rw [if_neg h]
    obtain ⟨m', h1, h2, h3⟩ := (C82_flip_closed hm hlo (hi := hi - 1) (by omega)).1
    refine ⟨m', h1, h2, fun y hy => ?_⟩
    rw [h3 y hy]
    by_cases c : lo ≤ y ∧ y < hi
    · rw [if_pos c, if_pos (by omega)]
    · rw [if_neg c, if_neg (by omega)]

example : ∃ m', m64AddRange exMap 4294967290 12884901890 = some m' ∧ m' ≠ exMap :=
  let ⟨m', h, _, g⟩ := C82_add_range exMap_valid (lo := 4294967290) (hi := 12884901890) (by omega) (by omega)
  ⟨m', h, by
    rintro rfl
    have h1 := (g 8589934592 (by omega)).2 (Or.inl (by omega))
    have h2 : m64Contains exMap 8589934592 = false := by decide +kernel
    rw [h2] at h1; cases h1⟩

/-! ### C83: bulk insertion -/

/-- C83: `addMany` adds exactly the values given, in any order and with repetitions; so do the constructors from a list. -/
theorem C83_add_many {m : Map64} (hm : ValidM m) {vals : List Nat} (hv : ∀ x ∈ vals, x < 2 ^ 64) :
    (ValidM (m64AddMany m vals) ∧
      ∀ y, y < 2 ^ 64 → (m64Contains (m64AddMany m vals) y = true ↔ y ∈ vals ∨ m64Contains m y = true)) ∧
    ((∀ x ∈ vals, x < 2 ^ 32) → ValidM (m64AddMany32 m vals) ∧
      ∀ y, y < 2 ^ 64 → (m64Contains (m64AddMany32 m vals) y = true ↔ y ∈ vals ∨ m64Contains m y = true)) := by
  constructor
  · have h := addMany_spec hm vals
    refine ⟨h.1, fun y hy => ?_⟩
    rw [m64Contains_eq, m64Contains_eq, h.2]
    have : (∃ x ∈ vals, highBytes y = highBytes x ∧ lowBytes y = lowBytes x) ↔ y ∈ vals := by
      constructor
      · rintro ⟨x, hx, e⟩
        rw [(halves_inj hy (hv x hx)).2 e]; exact hx
      · intro hy'; exact ⟨y, hy', rfl, rfl⟩
    rw [this]
  · intro h32
    have hL := lookupOrCreate_spec hm (k := 0) (by omega)
    have hb := C35_add_many (mapAt_valid hL.1 0) h32
    have hu := update_spec hm (k := 0) (by omega) hb.1
    refine ⟨hu.1, fun y hy => ?_⟩
    rw [m64Contains_eq, m64Contains_eq]
    have hj := join hy
    have hl := lowBytes_lt y
    show rbContains (mapAt (mapStore (lookupOrCreate m 0) 0 _) _) _ = true ↔ _
    rw [hu.2]
    by_cases h : highBytes y = 0
    · rw [if_pos h, hb.2, hL.2.1, show lowBytes y = y by omega, h]; rfl
    · rw [if_neg h]
      constructor
      · exact Or.inr
      · rintro (h' | h')
        · have := h32 y h'; omega
        · exact h'

example : ∀ x ∈ [5, 18446744073709551615, 4294967296, 5], x < 2 ^ 64 := by decide
example : m64AddMany [] [5, 18446744073709551615, 4294967296, 5] =
    [(0, rbAdd [] 5), (1, rbAdd [] 0), (4294967295, rbAdd [] 4294967295)] := by decide +kernel

/-! ### C84: operators -/

/-- C84: `&=` is intersection, also of a map with itself. -/
theorem C84_and {m other : Map64} (hm : ValidM m) (ho : ValidM other) (same : Bool) (hs : same = true → m = other)
    (shared : Nat → Nat → Bool) :
    ValidM (m64And same shared m other) ∧
      ∀ y, m64Contains (m64And same shared m other) y = (m64Contains m y && m64Contains other y) := by
  have h := and_spec hm ho same hs shared
  exact ⟨h.1, fun y => by simp only [m64Contains_eq]; exact h.2 _ _⟩

/-- C84: `|=` is union. -/
theorem C84_or {m other : Map64} (hm : ValidM m) (ho : ValidM other) (same : Bool) (hs : same = true → m = other)
    (shared : Nat → Nat → Bool) (caps : Nat → Nat → Nat) :
    ValidM (m64Or same shared caps m other) ∧
      ∀ y, m64Contains (m64Or same shared caps m other) y = (m64Contains m y || m64Contains other y) := by
  have h := or_spec hm ho same hs shared caps
  exact ⟨h.1, fun y => by simp only [m64Contains_eq]; exact h.2 _ _⟩

/-- C84: `-=` is difference. -/
theorem C84_andnot {m other : Map64} (hm : ValidM m) (ho : ValidM other) (same : Bool) (hs : same = true → m = other)
    (shared : Nat → Nat → Bool) :
    ValidM (m64Andnot same shared m other) ∧
      ∀ y, m64Contains (m64Andnot same shared m other) y = (m64Contains m y && !m64Contains other y) := by
  have h := andnot_spec hm ho same hs shared
  exact ⟨h.1, fun y => by simp only [m64Contains_eq]; exact h.2 _ _⟩

/-- C84: `^=` is symmetric difference. -/
theorem C84_xor {m other : Map64} (hm : ValidM m) (ho : ValidM other) (same : Bool) (hs : same = true → m = other)
    (shared : Nat → Nat → Bool) :
    ValidM (m64Xor same shared m other) ∧
      ∀ y, m64Contains (m64Xor same shared m other) y = (m64Contains m y != m64Contains other y) := by
  have h := xor_spec hm ho same hs shared
  exact ⟨h.1, fun y => by simp only [m64Contains_eq]; exact h.2 _ _⟩

/-- C84: `fastunion` is the union of all the maps, whatever the order in which the queue delivers entries with equal keys. -/
theorem C84_fastunion {pick : List Map64 → Nat} (hp : PicksMin pick) (caps : Nat → Nat → Nat → Nat) {inputs : List Map64}
    (h : ∀ m ∈ inputs, ValidM m) :
    ValidM (m64FastUnion pick caps inputs) ∧
      ∀ y, m64Contains (m64FastUnion pick caps inputs) y = true ↔ ∃ m ∈ inputs, m64Contains m y = true := by
  have hU := fastUnion_spec hp caps h
  refine ⟨hU.1, fun y => ?_⟩
  simp only [m64Contains_eq]
  exact hU.2 _ _

/-- A second map. -/
def exMap2 : Map64 := [(3, exS), (5, exT), (9, exF)]

theorem exMap2_valid : ValidM exMap2 :=
  ⟨by decide, by
    intro p hp
    simp only [exMap2, List.mem_cons, List.not_mem_nil, or_false] at hp
    rcases hp with rfl | rfl | rfl
    · exact ⟨by omega, exS_valid⟩
    · exact ⟨by omega, exT_valid⟩
    · exact ⟨by omega, exF_valid⟩⟩

/-- A way to pick the top: the first entry with the smallest key. -/
def pickFirst (pq : List Map64) : Nat :=
  pq.findIdx (fun q => pq.all (fun q' => decide ((q.headD (0, [])).1 ≤ (q'.headD (0, [])).1)))

theorem exists_min : ∀ (l : List Nat), l ≠ [] → ∃ x ∈ l, ∀ y ∈ l, x ≤ y
  | [], h => absurd rfl h
  | [a], _ => ⟨a, by simp, by simp⟩
  | a :: b :: t, _ => by
    obtain ⟨x, hx, hmin⟩ := exists_min (b :: t) (by simp)
    by_cases h : a ≤ x
    · refine ⟨a, by simp, fun y hy => ?_⟩
      rcases List.mem_cons.1 hy with e | e
      · omega
      · have := hmin y e; omega
    · refine ⟨x, List.mem_cons_of_mem _ hx, fun y hy => ?_⟩
      rcases List.mem_cons.1 hy with e | e
      · omega
      · exact hmin y e

theorem pickFirst_min : PicksMin pickFirst := by
  intro pq hne hq
  have hex : ∃ q ∈ pq, pq.all (fun q' => decide ((q.headD (0, [])).1 ≤ (q'.headD (0, [])).1)) = true := by
    obtain ⟨x, hx, hmin⟩ := exists_min (pq.map (fun q => (q.headD (0, [])).1)) (by simpa using hne)
    obtain ⟨q, hqm, rfl⟩ := List.mem_map.1 hx
    refine ⟨q, hqm, ?_⟩
    rw [List.all_eq_true]
    intro q' hq'
    simpa using hmin _ (List.mem_map_of_mem hq')
  have hlt : pickFirst pq < pq.length := List.findIdx_lt_length.2 hex
  refine ⟨hlt, fun q hqm x hx y hy => ?_⟩
  have h := List.findIdx_getElem (w := hlt)
  rw [List.all_eq_true] at h
  have h1 := h q hqm
  simp only [decide_eq_true_eq] at h1
  have ex : (pq[pickFirst pq].headD (0, [])) = x := by
    rw [List.headD_eq_head?_getD, Option.mem_def.1 hx]; rfl
  have ey : (q.headD (0, [])) = y := by
    rw [List.headD_eq_head?_getD, Option.mem_def.1 hy]; rfl
  rw [ey] at h1
  rw [← ex]
  exact h1

example : ValidM exMap ∧ ValidM exMap2 := ⟨exMap_valid, exMap2_valid⟩
example : PicksMin pickFirst := pickFirst_min
example : (m64And false (fun _ _ => false) exMap exMap2).map (·.1) = [5] ∧
    (m64FastUnion pickFirst (fun _ _ _ => 0) [exMap, [], exMap2, exMap]).map (·.1) = [0, 3, 5, 9] := by decide +kernel

end CRoaring.Props
