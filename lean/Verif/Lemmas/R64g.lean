import Verif.Lemmas.R64f
/-
The 64-bit bitmap: updates of one container, ranges, flips.
-/
set_option linter.unusedSimpArgs false
set_option linter.unusedVariables false
namespace CRoaring
open Spec

/-- The set `s` with the block of values with key `K` replaced by the container contents `f`. -/
def modKey (s : NSet) (K : Nat) (f : NSet) : NSet := fun x => if x / 65536 = K then f (x % 65536) else s x

theorem range_dec (a b x : Nat) : range a b x = decide (a ≤ x ∧ x < b) := by
  unfold range; rw [Bool.decide_and]

theorem shift16 (n : Nat) : n <<< 16 = n * 65536 := by rw [Nat.shiftLeft_eq]

theorem keyAt_num {n : Nat} (h : n < P48) : keyNum (splitKey (n <<< 16)).1 = n := by
  rw [shift16, keyNum_split (by unfold P48 at h; unfold TOP64; omega)]
  omega

/-- The leaf with a given key, and the bitmap after an update of that leaf. -/
theorem Rep64.at_key {r : R64} {s : NSet} (h : Rep64 r s) {k : List Nat} (hk : IsKey k) :
    (∃ c, artFind r k = some c ∧ CNe c ∧ (∀ x, x / 65536 = keyNum k → s x = chas c (x % 65536)) ∧
      (∀ c', CNe c' → Rep64 (artStore r k c') (modKey s (keyNum k) (chas c'))) ∧
      Rep64 (artErase r k).2 (modKey s (keyNum k) Spec.empty) ∧
      ∀ c', Rep64 (artErase (artStore r k c') k).2 (modKey s (keyNum k) Spec.empty)) ∨
    (artFind r k = none ∧ (∀ x, x / 65536 = keyNum k → s x = false) ∧
      ∀ c', CNe c' → Rep64 (artInsert r k c') (modKey s (keyNum k) (chas c'))) := by
  rep64 h l
  rcases h.rl.split hk with ⟨A, c, B, rfl, hA, hB, hf⟩ | ⟨A, B, rfl, hA, hB, hf⟩
  · left
    have hab : ∀ x, bhas (A ++ B) x = modKey (bhas (A ++ (keyNum k, c) :: B)) (keyNum k) Spec.empty x := by
      intro x
      unfold modKey
      split
      · next hx => rw [bhas_gap hA hB hx]; rfl
      · next hx => rw [bhas_mid hA hB, if_neg hx]
    refine ⟨c, hf, h.ne (keyNum k, c) (by simp), fun x hx => by rw [bhas_mid hA hB, if_pos hx], fun c' hc' => ?_, ?_, fun c' => ?_⟩
    · refine ⟨_, h.store hk hc', fun x => ?_⟩
      rw [bhas_mid hA hB]
      unfold modKey
      split
      · rfl
      · next hx => rw [bhas_mid hA hB, if_neg hx]
    · exact ⟨_, h.erase hk, hab⟩
    · refine ⟨A ++ B, ⟨(h.rl.store hk c').erase hk, (h.erase hk).ne⟩, hab⟩
  · right
    refine ⟨hf, fun x hx => bhas_gap hA hB hx, fun c' hc' => ⟨_, h.insert hk hA hB hc', fun x => ?_⟩⟩
    rw [bhas_mid hA hB]
    unfold modKey
    split
    · rfl
    · rfl

/-! ### Ranges -/

theorem addRangeClosedAt_spec {r : R64} {s : NSet} (h : Rep64 r s) {k : List Nat} (hk : IsKey k) {a b : Nat} (hab : a ≤ b) (hb : b < 65536) :
    Rep64 (addRangeClosedAt r k a b) (fun x => s x || decide (keyNum k * 65536 + a ≤ x ∧ x ≤ keyNum k * 65536 + b)) := by
  unfold addRangeClosedAt
  rcases h.at_key hk with ⟨c, hf, hc, hs, hst, -, -⟩ | ⟨hf, hs, hin⟩
  · rw [hf]
    simp only
    have hr := containerAddRange_spec hc.1.rep hab hb
    refine (hst _ (hr.cne (x := a) (by simp; omega))).congr fun x => ?_
    unfold modKey
    split
    · next hx =>
      rw [hr.has, hs x hx, Bool.or_comm]
      congr 1
      exact decide_eq_decide.2 (by omega)
    · next hx =>
      rw [decide_eq_false (by omega), Bool.or_false]
  · rw [hf]
    simp only
    have hr := containerRangeOfOnes_spec (a := a) (b := b + 1) (by omega) (by omega)
    refine (hin _ (hr.cne (x := a) (by simp [range]; omega))).congr fun x => ?_
    unfold modKey
    split
    · next hx =>
      rw [hr.has, hs x hx, Bool.false_or]
      simp only [range_dec]
      exact decide_eq_decide.2 (by omega)
    · next hx =>
      rw [decide_eq_false (by omega), Bool.or_false]

theorem addRange64_fold {r : R64} {s : NSet} (h : Rep64 r s) (K n : Nat) (hK : K + n ≤ P48) :
    Rep64 ((List.range' K n).foldl (fun r current => addRangeClosedAt r (splitKey (current <<< 16)).1 0 65535) r)
      (fun x => s x || decide (K ≤ x / 65536 ∧ x / 65536 < K + n)) := by
  induction n generalizing K r s with
  | zero => exact h.congr fun x => by rw [decide_eq_false (by omega), Bool.or_false]
  | succ n ih =>
    rw [List.range'_succ, List.foldl_cons]
    have h1 := addRangeClosedAt_spec h (splitKey_isKey (K <<< 16)) (a := 0) (b := 65535) (by omega) (by omega)
    rw [keyAt_num (by omega)] at h1
    refine (ih h1 (K + 1) (by omega)).congr fun x => ?_
    rw [Bool.or_assoc]
    congr 1
    rw [← Bool.decide_or]
    exact decide_eq_decide.2 (by omega)

theorem key_cmp {a b : Nat} (ha : a < TOP64) (hb : b < TOP64) :
    (artCompareKeys (splitKey a).1 (splitKey b).1 = 0) = (a / 65536 = b / 65536) := by
  rw [(artCompareKeys_spec (splitKey_isKey a) (splitKey_isKey b)).1, ← keyNum_split ha, ← keyNum_split hb]
  exact propext ⟨fun e => by rw [e], fun e => key_inj (splitKey_isKey a) (splitKey_isKey b) e⟩

theorem r64AddRangeClosed_spec {r : R64} {s : NSet} (h : Rep64 r s) {min max : Nat} (hmax : max < TOP64) :
    Rep64 (r64AddRangeClosed r min max) (Spec.union s (range min (max + 1))) := by
  unfold r64AddRangeClosed
  by_cases hlt : min > max
  · rw [if_pos hlt]
    exact h.congr fun x => by simp only [Spec.union, range_dec]; rw [decide_eq_false (by omega), Bool.or_false]
  rw [if_neg hlt]
  have hn1 := keyNum_split (show min < TOP64 by omega)
  have hn2 := keyNum_split hmax
  simp only [key_cmp (show min < TOP64 by omega) hmax, splitKey_low]
  split
  · next he =>
    refine (addRangeClosedAt_spec h (splitKey_isKey min) (a := min % 65536) (b := max % 65536) (by omega) (by omega)).congr fun x => ?_
    simp only [Spec.union, range_dec]
    congr 1
    exact decide_eq_decide.2 (by omega)
  · next he =>
    have h1 := addRangeClosedAt_spec h (splitKey_isKey min) (a := min % 65536) (b := 65535) (by omega) (by omega)
    have h2 := addRange64_fold h1 (min / 65536 + 1) (max / 65536 - (min / 65536 + 1)) (by unfold TOP64 at hmax; unfold P48; omega)
    refine (addRangeClosedAt_spec h2 (splitKey_isKey max) (a := 0) (b := max % 65536) (by omega) (by omega)).congr fun x => ?_
    simp only [Spec.union, range_dec, Bool.or_assoc]
    congr 1
    rw [← Bool.decide_or, ← Bool.decide_or]
    exact decide_eq_decide.2 (by omega)

theorem r64AddRange_spec {r : R64} {s : NSet} (h : Rep64 r s) {min max : Nat} (hmax : max < TOP64) :
    Rep64 (r64AddRange r min max) (Spec.union s (range min max)) := by
  unfold r64AddRange
  split
  · next hh => exact h.congr fun x => by simp only [Spec.union, range_dec]; rw [decide_eq_false (by omega), Bool.or_false]
  · next hh =>
    have := r64AddRangeClosed_spec h (min := min) (max := max - 1) (by omega)
    rwa [Nat.sub_add_cancel (by omega)] at this

theorem removeRangeClosedAt_spec {r : R64} {s : NSet} (h : Rep64 r s) {k : List Nat} (hk : IsKey k) {a b : Nat} (hab : a ≤ b) (hb : b < 65536) :
    Rep64 (removeRangeClosedAt r k a b) (fun x => s x && !decide (keyNum k * 65536 + a ≤ x ∧ x ≤ keyNum k * 65536 + b)) := by
  unfold removeRangeClosedAt
  rcases h.at_key hk with ⟨c, hf, hc, hs, hst, her, -⟩ | ⟨hf, hs, hin⟩
  · rw [hf]
    simp only
    have key : ∀ x, x / 65536 = keyNum k → (s x && !decide (keyNum k * 65536 + a ≤ x ∧ x ≤ keyNum k * 65536 + b)) =
        (chas c (x % 65536) && !decide (a ≤ x % 65536 ∧ x % 65536 ≤ b)) := by
      intro x hx
      rw [hs x hx]
      congr 2
      exact decide_eq_decide.2 (by omega)
    rcases containerRemoveRange_spec hc.1.rep hab hb with ⟨e, hz⟩ | ⟨c', e, hr, y, hy⟩
    · rw [e]
      refine her.congr fun x => ?_
      unfold modKey
      split
      · next hx => rw [key x hx, hz]; rfl
      · next hx => rw [decide_eq_false (by omega), Bool.not_false, Bool.and_true]
    · rw [e]
      refine (hst _ (hr.cne hy)).congr fun x => ?_
      unfold modKey
      split
      · next hx => rw [key x hx, hr.has]
      · next hx => rw [decide_eq_false (by omega), Bool.not_false, Bool.and_true]
  · rw [hf]
    refine h.congr fun x => ?_
    by_cases hx : x / 65536 = keyNum k
    · rw [hs x hx]; rfl
    · rw [decide_eq_false (by omega), Bool.not_false, Bool.and_true]

theorem removeRange64_loop {k : List Nat} (hk : IsKey k) (fuel : Nat) {r : R64} {it : AIt} {A l : Bitmap} (h : RL r (A ++ l))
    (hi : IL r it l) (hf : l.length < fuel) :
    RL (removeRange64Loop k fuel r it) (A ++ l.filter fun p => decide (keyNum k ≤ p.1)) := by
  induction fuel generalizing r it l with
  | zero => omega
  | succ fuel ih =>
    unfold removeRange64Loop
    cases l with
    | nil =>
      rw [hi.nil, if_neg (by simp)]
      exact h
    | cons p t =>
      obtain ⟨n, c⟩ := p
      have g := hi.cons
      rw [g.value]
      have hc := (cmp_key g hk).2.1
      by_cases hn : n < keyNum k
      · rw [if_pos ⟨rfl, hc.2 hn⟩]
        obtain ⟨h1, h2⟩ := h.erase_at hi
        rw [List.filter_cons_of_neg (by simp; omega)]
        exact ih h1 h2 (by simp at hf; omega)
      · rw [if_neg (fun hh => hn (hc.1 hh.2))]
        have hks := (ks_append.1 h.ks).2.1
        rw [List.filter_eq_self.2]
        · exact h
        · intro p hp
          rcases List.mem_cons.1 hp with rfl | hp
          · simp; omega
          · have := (ks_cons.1 hks).1 p hp
            simp; omega

theorem bhas_filter_ge {l : Bitmap} {X : Nat} (x : Nat) :
    bhas (l.filter fun p => decide (X ≤ p.1)) x = (bhas l x && decide (X ≤ x / 65536)) := by
  induction l with
  | nil => rfl
  | cons p t ih =>
    obtain ⟨n, c⟩ := p
    by_cases hn : X ≤ n
    · rw [List.filter_cons_of_pos (by simpa using hn), bhas_cons, bhas_cons, ih]
      by_cases e : n = x / 65536
      · subst e; simp [hn]
      · rw [beq_eq_false_iff_ne.2 e, Bool.false_and, Bool.false_or, Bool.false_or]
    · rw [List.filter_cons_of_neg (by simpa using hn), bhas_cons, ih]
      by_cases e : n = x / 65536
      · subst e; simp [hn]
      · rw [beq_eq_false_iff_ne.2 e, Bool.false_and, Bool.false_or]

theorem bhas_filter_lt {l : Bitmap} {X : Nat} (x : Nat) :
    bhas (l.filter fun p => decide (p.1 < X)) x = (bhas l x && decide (x / 65536 < X)) := by
  induction l with
  | nil => rfl
  | cons p t ih =>
    obtain ⟨n, c⟩ := p
    by_cases hn : n < X
    · rw [List.filter_cons_of_pos (by simpa using hn), bhas_cons, bhas_cons, ih]
      by_cases e : n = x / 65536
      · subst e; simp [hn]
      · rw [beq_eq_false_iff_ne.2 e, Bool.false_and, Bool.false_or, Bool.false_or]
    · rw [List.filter_cons_of_neg (by simpa using hn), bhas_cons, ih]
      by_cases e : n = x / 65536
      · subst e; simp [hn]
      · rw [beq_eq_false_iff_ne.2 e, Bool.false_and, Bool.false_or]

/-- The middle part of the removal of a range. -/
theorem removeRange64_mid {r : R64} {s : NSet} (h : Rep64 r s) {k1 k2 : List Nat} (hk1 : IsKey k1) (hk2 : IsKey k2) :
    Rep64 (removeRange64Loop k2 FUEL r (artUpperBound r k1))
      (fun x => s x && !decide (keyNum k1 < x / 65536 ∧ x / 65536 < keyNum k2)) := by
  rep64 h l
  have hi := h.rl.upper hk1
  have hfl := h.rl.fuel
  obtain ⟨A, B, rfl, hA, hB⟩ := h.rl.ks.split (keyNum k1 + 1)
  rw [filter_ge_split hA hB] at hi
  simp only [List.length_append] at hfl
  have hR := removeRange64_loop hk2 FUEL h.rl hi (by omega)
  refine ⟨_, ⟨hR, fun p hp => ?_⟩, fun x => ?_⟩
  · rcases List.mem_append.1 hp with hp | hp
    · exact h.ne p (by simp [hp])
    · exact h.ne p (by simp [(List.mem_filter.1 hp).1])
  · simp only
    rw [bhas_append, bhas_filter_ge, bhas_append]
    by_cases hx : x / 65536 < keyNum k1 + 1
    · rw [bhas_ne (r := B) fun p hp => by have := hB p hp; omega, decide_eq_false (by omega : ¬ (_ ∧ _))]
      simp
    · rw [bhas_ne (r := A) fun p hp => by have := hA p hp; omega, Bool.false_or, Bool.false_or, ← decide_not]
      congr 1
      exact decide_eq_decide.2 (by omega)

theorem r64RemoveRangeClosed_spec {r : R64} {s : NSet} (h : Rep64 r s) {min max : Nat} (hmax : max < TOP64) :
    Rep64 (r64RemoveRangeClosed r min max) (Spec.diff s (range min (max + 1))) := by
  unfold r64RemoveRangeClosed
  by_cases hlt : min > max
  · rw [if_pos hlt]
    exact h.congr fun x => by simp only [Spec.diff, range_dec]; rw [decide_eq_false (by omega), Bool.not_false, Bool.and_true]
  rw [if_neg hlt]
  have hn1 := keyNum_split (show min < TOP64 by omega)
  have hn2 := keyNum_split hmax
  simp only [key_cmp (show min < TOP64 by omega) hmax, splitKey_low]
  split
  · next he =>
    refine (removeRangeClosedAt_spec h (splitKey_isKey min) (a := min % 65536) (b := max % 65536) (by omega) (by omega)).congr fun x => ?_
    simp only [Spec.diff, range_dec]
    congr 2
    exact decide_eq_decide.2 (by omega)
  · next he =>
    have h1 := removeRangeClosedAt_spec h (splitKey_isKey min) (a := min % 65536) (b := 65535) (by omega) (by omega)
    have h2 := removeRange64_mid h1 (splitKey_isKey min) (splitKey_isKey max)
    refine (removeRangeClosedAt_spec h2 (splitKey_isKey max) (a := 0) (b := max % 65536) (by omega) (by omega)).congr fun x => ?_
    simp only [Spec.diff, range_dec, Bool.and_assoc]
    congr 1
    rw [← Bool.not_or, ← Bool.not_or, ← Bool.decide_or, ← Bool.decide_or]
    congr 1
    exact decide_eq_decide.2 (by omega)

theorem r64RemoveRange_spec {r : R64} {s : NSet} (h : Rep64 r s) {min max : Nat} (hmax : max < TOP64) :
    Rep64 (r64RemoveRange r min max) (Spec.diff s (range min max)) := by
  unfold r64RemoveRange
  split
  · next hh =>
    exact h.congr fun x => by simp only [Spec.diff, range_dec]; rw [decide_eq_false (by omega), Bool.not_false, Bool.and_true]
  · next hh =>
    have := r64RemoveRangeClosed_spec h (min := min) (max := max - 1) (by omega)
    rwa [Nat.sub_add_cancel (by omega)] at this

/-! ### Flips -/

theorem flipContainer_spec {c : Container} {s : NSet} (h : Rep c s) {a b : Nat} (hab : a ≤ b) (hb : b ≤ 65536) :
    Rep (flipContainer a b c) (flipR s a b) := by
  unfold flipContainer
  split
  · next hh =>
    rw [hh.1, show b = 65536 by omega]
    exact containerNot_spec h
  · exact containerNotRange_spec h hab hb

theorem flip_bounds {min max K : Nat} (h1 : min ≤ max) (h2 : min / 65536 ≤ K) (h3 : K ≤ max / 65536) :
    (flipBounds min max K).1 < (flipBounds min max K).2 ∧ (flipBounds min max K).2 ≤ 65536 ∧
    ∀ x, x / 65536 = K → ((min ≤ x ∧ x < max + 1) ↔ ((flipBounds min max K).1 ≤ x % 65536 ∧ x % 65536 < (flipBounds min max K).2)) := by
  unfold flipBounds
  simp only
  refine ⟨?_, ?_, fun x hx => ?_⟩
  · split <;> split <;> omega
  · split <;> omega
  · split <;> split <;> omega

theorem flipLeafInplace64_spec {r : R64} {s : NSet} (h : Rep64 r s) {k : List Nat} (hk : IsKey k) {a b : Nat} (hab : a < b) (hb : b ≤ 65536) :
    Rep64 (flipLeafInplace64 r k a b)
      (fun x => decide (x / 65536 = keyNum k ∧ a ≤ x % 65536 ∧ x % 65536 < b) != s x) := by
  unfold flipLeafInplace64
  rcases h.at_key hk with ⟨c, hf, hc, hs, hst, her, -⟩ | ⟨hf, hs, hin⟩
  · rw [hf]
    simp only
    have hr := flipContainer_spec hc.1.rep (Nat.le_of_lt hab) hb
    have key : ∀ x, x / 65536 = keyNum k → (decide (x / 65536 = keyNum k ∧ a ≤ x % 65536 ∧ x % 65536 < b) != s x) =
        flipR (chas c) a b (x % 65536) := by
      intro x hx
      rw [hs x hx]
      simp only [hx, true_and]
      rfl
    by_cases hz : containerNonzero (flipContainer a b c) = true
    · rw [if_pos hz]
      obtain ⟨y, hy⟩ := (containerNonzero_iff hr.lrep).1 hz
      refine (hst _ (hr.cne hy)).congr fun x => ?_
      unfold modKey
      split
      · next hx => rw [key x hx, hr.has]
      · next hx => rw [decide_eq_false (fun hh => hx hh.1)]; simp
    · rw [if_neg hz]
      refine her.congr fun x => ?_
      unfold modKey
      split
      · next hx =>
        rw [key x hx]
        cases hh : flipR (chas c) a b (x % 65536) with
        | false => rfl
        | true => exact absurd ((containerNonzero_iff hr.lrep).2 ⟨_, hh⟩) hz
      · next hx => rw [decide_eq_false (fun hh => hx hh.1)]; simp
  · rw [hf]
    simp only
    have hr := containerRangeOfOnes_spec hab hb
    refine (hin _ (hr.cne (x := a) (by simp [range]; omega))).congr fun x => ?_
    unfold modKey
    split
    · next hx =>
      rw [hr.has, hs x hx]
      simp only [range_dec, hx, true_and, Bool.bne_false]
    · next hx => rw [decide_eq_false (fun hh => hx hh.1)]; simp

theorem flipInplace64_fold {min max : Nat} (hmm : min ≤ max) (hmax : max < TOP64) (n : Nat) {r : R64} {s : NSet} {K : Nat} (h : Rep64 r s)
    (hK1 : min / 65536 ≤ K) (hK2 : K + n = max / 65536 + 1) :
    Rep64 ((List.range' K n).foldl (fun r high48_bits =>
        let b := flipBounds min max high48_bits
        flipLeafInplace64 r (splitKey (high48_bits <<< 16)).1 b.1 b.2) r)
      (fun x => decide (K ≤ x / 65536 ∧ min ≤ x ∧ x ≤ max) != s x) := by
  induction n generalizing K r s with
  | zero => exact h.congr fun x => by rw [decide_eq_false (by omega)]; simp
  | succ n ih =>
    rw [List.range'_succ, List.foldl_cons]
    simp only
    obtain ⟨hb1, hb2, hb3⟩ := flip_bounds hmm hK1 (by omega)
    have h1 := flipLeafInplace64_spec h (splitKey_isKey (K <<< 16)) hb1 hb2
    rw [keyAt_num (by unfold TOP64 at hmax; unfold P48; omega)] at h1
    refine (ih h1 (by omega) (by omega)).congr fun x => ?_
    by_cases hx : x / 65536 = K
    · rw [decide_eq_false (by omega : ¬ (K + 1 ≤ _ ∧ _))]
      simp only [Bool.false_bne]
      congr 1
      have := hb3 x hx
      exact decide_eq_decide.2 (by omega)
    · rw [decide_eq_false (fun hh => hx hh.1 : ¬ (x / 65536 = K ∧ _)), Bool.false_bne]
      congr 1
      exact decide_eq_decide.2 (by omega)

theorem r64FlipClosedInplace_spec {r : R64} {s : NSet} (h : Rep64 r s) {min max : Nat} (hmax : max < TOP64) :
    Rep64 (r64FlipClosedInplace r min max) (flipR s min (max + 1)) := by
  unfold r64FlipClosedInplace
  split
  · next hh => exact h.congr fun x => by simp only [flipR]; rw [decide_eq_false (by omega)]; simp
  · next hh =>
    refine (flipInplace64_fold (by omega) hmax _ h (Nat.le_refl _) (by omega)).congr fun x => ?_
    simp only [flipR]
    congr 1
    exact decide_eq_decide.2 (by omega)

theorem r64FlipInplace_spec {r : R64} {s : NSet} (h : Rep64 r s) {min max : Nat} (hmax : max < TOP64) :
    Rep64 (r64FlipInplace r min max) (flipR s min max) := by
  unfold r64FlipInplace
  split
  · next hh => exact h.congr fun x => by simp only [flipR]; rw [decide_eq_false (by omega)]; simp
  · next hh =>
    have := r64FlipClosedInplace_spec h (min := min) (max := max - 1) (by omega)
    rwa [Nat.sub_add_cancel (by omega)] at this

/-! ### Flips into a new bitmap -/

theorem flipLeaf64_spec {r1 r2 : R64} {s t : NSet} (h1 : Rep64 r1 s) (h2 : Rep64 r2 t) {k : List Nat} (hk : IsKey k) {a b : Nat}
    (hab : a < b) (hb : b ≤ 65536) (ht : ∀ x, x / 65536 = keyNum k → t x = false) :
    Rep64 (flipLeaf64 r1 r2 k a b)
      (fun x => if x / 65536 = keyNum k then (decide (a ≤ x % 65536 ∧ x % 65536 < b) != s x) else t x) := by
  unfold flipLeaf64
  have h2k : (artFind r2 k = none ∧ ∀ c', CNe c' → Rep64 (artInsert r2 k c') (modKey t (keyNum k) (chas c'))) := by
    rcases h2.at_key hk with ⟨c, hf, hc, hs, -⟩ | ⟨hf, -, hin⟩
    · obtain ⟨y, hy⟩ := hc.2
      have hlt := chas_lt hc.1 hy
      have := hs (keyNum k * 65536 + y) (by omega)
      rw [ht _ (by omega), show (keyNum k * 65536 + y) % 65536 = y by omega, hy] at this
      cases this
    · exact ⟨hf, hin⟩
  have main : ∀ (c2 : Container) (f : NSet), Rep c2 f → (∀ x, x / 65536 = keyNum k →
      f (x % 65536) = (decide (a ≤ x % 65536 ∧ x % 65536 < b) != s x)) →
      Rep64 (if containerNonzero c2 = true then artInsert r2 k c2 else r2)
        (fun x => if x / 65536 = keyNum k then (decide (a ≤ x % 65536 ∧ x % 65536 < b) != s x) else t x) := by
    intro c2 f hr hfx
    by_cases hz : containerNonzero c2 = true
    · rw [if_pos hz]
      obtain ⟨y, hy⟩ := (containerNonzero_iff hr.lrep).1 hz
      refine (h2k.2 _ (hr.cne hy)).congr fun x => ?_
      unfold modKey
      split
      · next hx => rw [hr.has, hfx x hx]
      · rfl
    · rw [if_neg hz]
      refine h2.congr fun x => ?_
      split
      · next hx =>
        rw [ht x hx, ← hfx x hx]
        cases hh : f (x % 65536) with
        | false => rfl
        | true => exact absurd ((containerNonzero_iff hr.lrep).2 ⟨_, hh⟩) hz
      · rfl
  rcases h1.at_key hk with ⟨c, hf, hc, hs, -⟩ | ⟨hf, hs, -⟩
  · rw [hf]
    exact main _ _ (flipContainer_spec hc.1.rep (Nat.le_of_lt hab) hb) fun x hx => by rw [hs x hx]; rfl
  · rw [hf]
    refine main _ _ (containerRangeOfOnes_spec hab hb) fun x hx => ?_
    rw [hs x hx, Bool.bne_false, range_dec]

theorem flipCopyBefore_loop {r1 : R64} {k : List Nat} (hk : IsKey k) (fuel : Nat) {it : AIt} {A l : Bitmap} {r2 : R64} (hi : IL r1 it l)
    (hr : RL r2 A) (hb : Below A l) (hf : l.length < fuel) :
    RL (flipCopyBefore r1 k fuel it r2) (A ++ l.filter fun p => decide (p.1 < keyNum k)) := by
  induction fuel generalizing it l A r2 with
  | zero => omega
  | succ fuel ih =>
    unfold flipCopyBefore
    cases l with
    | nil => rw [hi.nil]; simpa using hr
    | cons p t =>
      obtain ⟨n, c⟩ := p
      have g := hi.cons
      rw [g.value]
      simp only
      have hc := (cmp_key g hk).2.1
      by_cases hn : n < keyNum k
      · rw [if_pos (hc.2 hn), List.filter_cons_of_pos (by simpa using hn)]
        have := ih g.next (hr.push g (fun p hp => hb.head p hp) c) (hb.snoc hi.ks c) (by simp at hf; omega)
        simpa using this
      · rw [if_neg (fun hh => hn (hc.1 hh)), List.filter_eq_nil_iff.2]
        · simpa using hr
        · intro p hp
          rcases List.mem_cons.1 hp with rfl | hp
          · simpa using hn
          · have := (ks_cons.1 hi.ks).1 p hp
            simp; omega

theorem flip64_fold {min max : Nat} (hmm : min ≤ max) (hmax : max < TOP64) (n : Nat) {r1 r2 : R64} {s : NSet} {K : Nat} (h1 : Rep64 r1 s)
    (h2 : Rep64 r2 (fun x => decide (x / 65536 < K) && flipR s min (max + 1) x)) (hK1 : min / 65536 ≤ K) (hK2 : K + n = max / 65536 + 1) :
    Rep64 ((List.range' K n).foldl (fun r2 high48_bits =>
        let b := flipBounds min max high48_bits
        flipLeaf64 r1 r2 (splitKey (high48_bits <<< 16)).1 b.1 b.2) r2)
      (fun x => decide (x / 65536 < max / 65536 + 1) && flipR s min (max + 1) x) := by
  induction n generalizing K r2 with
  | zero =>
    rw [← hK2]; exact h2
  | succ n ih =>
    rw [List.range'_succ, List.foldl_cons]
    simp only
    obtain ⟨hb1, hb2, hb3⟩ := flip_bounds hmm hK1 (by omega)
    have ek := keyAt_num (n := K) (by unfold TOP64 at hmax; unfold P48; omega)
    have h3 := flipLeaf64_spec h1 h2 (splitKey_isKey (K <<< 16)) hb1 hb2
      (fun x hx => by rw [ek] at hx; rw [decide_eq_false (by omega)]; rfl)
    rw [ek] at h3
    refine ih (h3.congr fun x => ?_) (by omega) (by omega)
    by_cases hx : x / 65536 = K
    · rw [if_pos hx, decide_eq_true (by omega : x / 65536 < K + 1), Bool.true_and]
      simp only [flipR]
      congr 1
      exact decide_eq_decide.2 (hb3 x hx).symm
    · rw [if_neg hx]
      congr 1
      exact decide_eq_decide.2 (by omega)

theorem r64FlipClosed_spec {r : R64} {s : NSet} (h : Rep64 r s) {min max : Nat} (hmax : max < TOP64) :
    Rep64 (r64FlipClosed r min max) (flipR s min (max + 1)) := by
  unfold r64FlipClosed
  split
  · next hh => exact (r64Copy_spec h).congr fun x => by simp only [flipR]; rw [decide_eq_false (by omega)]; simp
  · next hh =>
    simp only
    have hn1 := keyNum_split (show min < TOP64 by omega)
    have hn2 := keyNum_split hmax
    have h0 : Rep64 (flipCopyBefore r (splitKey min).1 FUEL (artInitIterator r true) r64Create)
        (fun x => decide (x / 65536 < min / 65536) && flipR s min (max + 1) x) := by
      obtain ⟨l, hB, hs⟩ := h
      have hR := flipCopyBefore_loop (A := []) (splitKey_isKey min) FUEL hB.rl.init rl_none (fun p hp => by simp at hp) hB.rl.fuel
      refine ⟨_, ⟨hR, fun p hp => hB.ne p (List.mem_filter.1 (List.nil_append _ ▸ hp)).1⟩, fun x => ?_⟩
      simp only
      rw [List.nil_append, hn1, bhas_filter_lt, hs x, Bool.and_comm]
      by_cases hx : x / 65536 < min / 65536
      · simp only [flipR]
        rw [decide_eq_false (by omega : ¬ (min ≤ x ∧ _)), Bool.false_bne]
      · rw [decide_eq_false hx, Bool.false_and, Bool.false_and]
    have h1 := flip64_fold (by omega) hmax (max / 65536 + 1 - min / 65536) h h0 (Nat.le_refl _) (by omega)
    generalize (List.range' (min / 65536) (max / 65536 + 1 - min / 65536)).foldl _ _ = r2 at h1 ⊢
    obtain ⟨l2, hB2, hs2⟩ := h1
    obtain ⟨l, hB, hs⟩ := h
    have hi := hB.rl.upper (splitKey_isKey max)
    have hbelow : Below l2 (l.filter fun p => decide (keyNum (splitKey max).1 + 1 ≤ p.1)) := by
      intro p hp q hq
      have h3 := (List.mem_filter.1 hq).2
      rw [decide_eq_true_eq] at h3
      obtain ⟨A, B, e⟩ := List.append_of_mem hp
      have hq2 := hB2.bq
      rw [e] at hq2
      obtain ⟨y, hy1, hy2⟩ := bq_head_ex (bq_append.1 hq2).2.1
      have h4 := hs2 (p.1 * 65536 + y)
      rw [e, bhas_append, hy2, Bool.or_true] at h4
      have h5 := of_decide_eq_true (Bool.and_eq_true _ _ ▸ h4.symm : _ ∧ _).1
      omega
    have hR := copy64_loop FUEL hi hB2.rl hbelow (Nat.lt_of_le_of_lt (List.length_filter_le _ _) hB.rl.fuel)
    refine ⟨_, ⟨hR, fun p hp => ?_⟩, fun x => ?_⟩
    · rcases List.mem_append.1 hp with hp | hp
      · exact hB2.ne p hp
      · exact hB.ne p (List.mem_filter.1 hp).1
    · rw [bhas_append, hs2, bhas_filter_ge, hs x, hn2]
      simp only
      by_cases hx : x / 65536 < max / 65536 + 1
      · rw [decide_eq_true hx, decide_eq_false (by omega : ¬ max / 65536 + 1 ≤ x / 65536), Bool.and_false, Bool.or_false, Bool.true_and]
      · rw [decide_eq_false hx, decide_eq_true (by omega : max / 65536 + 1 ≤ x / 65536), Bool.and_true, Bool.false_and, Bool.false_or]
        simp only [flipR]
        rw [decide_eq_false (by omega : ¬ (min ≤ x ∧ _)), Bool.false_bne]

theorem r64Flip_spec {r : R64} {s : NSet} (h : Rep64 r s) {min max : Nat} (hmax : max < TOP64) :
    Rep64 (r64Flip r min max) (flipR s min max) := by
  unfold r64Flip
  split
  · next hh => exact (r64Copy_spec h).congr fun x => by simp only [flipR]; rw [decide_eq_false (by omega)]; simp
  · next hh =>
    have := r64FlipClosed_spec h (min := min) (max := max - 1) (by omega)
    rwa [Nat.sub_add_cancel (by omega)] at this

end CRoaring
