import Verif.Lemmas.Map64c
import Verif.Lemmas.Map64d
/-
Lemmas about the model of `Roaring64Map`: which entries can be empty.
-/
set_option linter.unusedSimpArgs false
set_option linter.unusedVariables false
namespace CRoaring
open Spec

/-- The map has an entry with the key `j`, and it is empty. -/
def Hollow (m : Map64) (j : Nat) : Prop := HasKey m j ∧ mapAt m j = []

theorem hollow_of_no {m : Map64} (hm : ValidM m) {j : Nat} (hk : HasKey m j) (h : ∀ v, mhas m j v = false) : Hollow m j :=
  ⟨hk, isEmpty_iff.1 ((rbIsEmpty_spec (mapAt_valid hm j)).2 h)⟩

theorem Hollow.no {m : Map64} {j : Nat} (h : Hollow m j) (v : Nat) : mhas m j v = false := by
  unfold mhas; rw [h.2]; exact contains_nil v

theorem mapAt_eq_of_find {m m' : Map64} {j : Nat} (h : mapFind m j = mapFind m' j) : mapAt m j = mapAt m' j := by
  unfold mapAt; rw [h]

theorem hollow_store {m : Map64} {k : Nat} {b : Bitmap} {j : Nat} (h : Hollow (mapStore m k b) j) :
    (j = k ∧ b = []) ∨ (j ≠ k ∧ Hollow m j) := by
  obtain ⟨h1, h2⟩ := h
  rw [mapStore_hasKey] at h1
  by_cases hj : j = k
  · subst hj
    rw [mapAt_store h1, if_pos rfl] at h2
    exact Or.inl ⟨rfl, h2⟩
  · refine Or.inr ⟨hj, h1, ?_⟩
    rw [← h2]
    apply mapAt_eq_of_find
    rw [mapFind_store, if_neg hj]

theorem hollow_eraseIfEmpty {m : Map64} {k : Nat} {j : Nat} (h : Hollow (eraseIfEmpty m k) j) : j ≠ k ∧ Hollow m j := by
  unfold eraseIfEmpty at h
  by_cases he : rbIsEmpty (mapAt m k) = true
  · rw [if_pos he] at h
    obtain ⟨h1, h2⟩ := h
    rw [mapErase_hasKey] at h1
    refine ⟨h1.2, h1.1, ?_⟩
    rw [← h2]
    apply mapAt_eq_of_find
    rw [mapFind_erase, if_neg h1.2]
  · rw [if_neg he] at h
    refine ⟨fun e => ?_, h⟩
    subst e
    exact he (isEmpty_iff.2 h.2)

theorem hollow_shrink {m : Map64} {k : Nat} {b : Bitmap} {j : Nat} (h : Hollow (eraseIfEmpty (mapStore m k b) k) j) :
    j ≠ k ∧ Hollow m j := by
  obtain ⟨h1, h2⟩ := hollow_eraseIfEmpty h
  rcases hollow_store h2 with h | h
  · exact absurd h.1 h1
  · exact h

theorem hollow_filter {m : Map64} (p : Nat → Bool) {j : Nat} (h : Hollow (m.filter (fun q => p q.1)) j) : Hollow m j := by
  obtain ⟨h1, h2⟩ := h
  rw [hasKey_filter] at h1
  refine ⟨h1.1, ?_⟩
  rw [← h2]
  apply mapAt_eq_of_find
  rw [mapFind_filter, if_pos h1.2]

theorem hollow_mem {m : Map64} (hm : ValidM m) {j : Nat} : Hollow m j ↔ (j, []) ∈ m := by
  constructor
  · rintro ⟨h1, h2⟩
    obtain ⟨b, hb⟩ := mapFind_isSome h1
    rw [mapAt_some hb] at h2
    subst h2
    exact mapFind_mem hb
  · intro h
    have := (mapFind_iff hm).2 h
    exact ⟨List.mem_map_of_mem (f := (·.1)) h, mapAt_some this⟩

/-- No entry but the first, with key 0, is empty. -/
def Tight (m : Map64) : Prop := ∀ j, 0 < j → ¬ Hollow m j

theorem tight_of_grow {m m' : Map64} (ht : Tight m) (hm : ValidM m) (T : Nat → Prop)
    (hk : ∀ j, HasKey m' j → HasKey m j ∨ T j) (hT : ∀ j, 0 < j → T j → ∃ v, mhas m' j v = true)
    (hs : ∀ j v, mhas m j v = true → mhas m' j v = true) : Tight m' := by
  intro j hj h
  rcases hk j h.1 with h1 | h1
  · refine ht j hj (hollow_of_no hm h1 fun v => ?_)
    cases e : mhas m j v with
    | false => rfl
    | true => have := hs j v e; rw [h.no v] at this; cases this
  · obtain ⟨v, hv⟩ := hT j hj h1
    rw [h.no v] at hv; cases hv

theorem lookup_hasKey {m : Map64} {k j : Nat} : HasKey (lookupOrCreate m k) j ↔ j = k ∨ HasKey m j := mapInsert_hasKey

theorem addMany_keys (vals : List Nat) : ∀ {m : Map64} {last : Option Nat} {ctx : BulkCtx} {j : Nat},
    HasKey (addMany64Loop m last ctx vals) j → HasKey m j ∨ ∃ x ∈ vals, j = highBytes x := by
  induction vals with
  | nil => intro m last ctx j h; exact Or.inl h
  | cons x t ih =>
    intro m last ctx j h
    rw [addMany64Loop] at h
    by_cases hc : last ≠ some (highBytes x)
    · rw [if_pos hc] at h
      rcases ih h with h | ⟨y, h1, h2⟩
      · rw [mapStore_hasKey, lookup_hasKey] at h
        rcases h with h | h
        · exact Or.inr ⟨x, List.mem_cons_self, h⟩
        · exact Or.inl h
      · exact Or.inr ⟨y, List.mem_cons_of_mem _ h1, h2⟩
    · rw [if_neg hc] at h
      rcases ih h with h | ⟨y, h1, h2⟩
      · rw [mapStore_hasKey] at h; exact Or.inl h
      · exact Or.inr ⟨y, List.mem_cons_of_mem _ h1, h2⟩

theorem copy_keys {first : Bitmap} (n : Nat) : ∀ {m : Map64} {it : Option Nat} {r : Map64 × Option Nat} {j : Nat},
    copyLoop first n m it = some r → HasKey r.1 j → HasKey m j := by
  induction n with
  | zero => intro m it r j e h; cases e; exact h
  | succ n ih =>
    intro m it r j e h
    cases it with
    | none => cases e
    | some k =>
      rw [copyLoop] at e
      have := ih e h
      rwa [mapStore_hasKey] at this

theorem addRange_keys {m : Map64} (hm : ValidM m) {lo hi : Nat} (hlo : lo < 18446744073709551616) (hhi : hi < 18446744073709551616)
    {m' : Map64} (e : m64AddRangeClosed m lo hi = some m') {j : Nat} (h : HasKey m' j) :
    HasKey m j ∨ (lo ≤ hi ∧ highBytes lo ≤ j ∧ j ≤ highBytes hi) := by
  unfold m64AddRangeClosed at e
  by_cases hlh : lo > hi
  · rw [if_pos hlh] at e; cases e; exact Or.inl h
  · rw [if_neg hlh] at e
    have hse : highBytes lo ≤ highBytes hi := by unfold highBytes; omega
    have heh := highBytes_lt hi
    have hE := (ensure_loop (highBytes hi + 1 - highBytes lo) hm (s := highBytes lo) (by omega)).2.2
    have hE' : ∀ i, HasKey (ensureRangePopulated m (highBytes lo) (highBytes hi)) i →
        HasKey m i ∨ (lo ≤ hi ∧ highBytes lo ≤ i ∧ i ≤ highBytes hi) := fun i hi' => by
      rcases (hE i).1 hi' with h | h
      · exact Or.inl h
      · exact Or.inr (by omega)
    simp only at e
    generalize ensureRangePopulated m (highBytes lo) (highBytes hi) = M at e hE'
    apply hE'
    split at e
    · cases e; rwa [mapStore_hasKey] at h
    · split at e
      · cases e
      · cases e
      · rename_i m2 k e2
        cases e
        rw [mapStore_hasKey] at h
        unfold addIntermediate at e2
        split at e2
        · split at e2
          · cases e2
          · have := copy_keys _ e2 h
            rwa [mapStore_hasKey, mapStore_hasKey] at this
        · have e3 : mapStore M (highBytes lo) (rbAddRangeClosed (mapAt M (highBytes lo)) (lowBytes lo) 4294967295) = m2 :=
            congrArg Prod.fst (Option.some.inj e2)
          rw [← e3, mapStore_hasKey] at h
          exact h

theorem orStep_keys {shared : Nat → Nat → Bool} {caps : Nat → Nat → Nat} {m : Map64} {e : Nat × Bitmap} {j : Nat}
    (h : HasKey (m64OrStep shared caps m e) j) : j = e.1 ∨ HasKey m j := by
  unfold m64OrStep at h
  simp only at h
  split at h
  · exact mapInsert_hasKey.1 h
  · rw [mapStore_hasKey] at h; exact mapInsert_hasKey.1 h

theorem or_keys {shared : Nat → Nat → Bool} {caps : Nat → Nat → Nat} (other : Map64) : ∀ {m : Map64} {j : Nat},
    HasKey (other.foldl (m64OrStep shared caps) m) j → HasKey m j ∨ HasKey other j := by
  induction other with
  | nil => intro m j h; exact Or.inl h
  | cons e t ih =>
    intro m j h
    rw [List.foldl_cons] at h
    rw [hasKey_cons]
    rcases ih h with h | h
    · rcases orStep_keys h with h | h
      · exact Or.inr (Or.inl h)
      · exact Or.inl h
    · exact Or.inr (Or.inr h)

/-- A key in one of the maps of the queue. -/
def QKey (pq : List Map64) (j : Nat) : Prop := ∃ q ∈ pq, HasKey q j

theorem getD_mem {pq : List Map64} {i : Nat} {x : Nat × Bitmap} {rest : Map64} (h : pq.getD i [] = x :: rest) : (x :: rest) ∈ pq := by
  rw [List.getD_eq_getElem?_getD] at h
  cases e : pq[i]? with
  | none => rw [e] at h; cases h
  | some q =>
    rw [e] at h
    have h' : q = x :: rest := h
    rw [← h']
    exact List.mem_of_getElem? e

theorem group_keys {pick : List Map64 → Nat} {key : Nat} : ∀ (fuel : Nat) {pq : List Map64} {acc : List Bitmap} {j : Nat},
    QKey (unionGroup pick key fuel pq acc).1 j → QKey pq j := by
  intro fuel
  induction fuel with
  | zero => intro pq acc j h; exact h
  | succ fuel ih =>
    intro pq acc j h
    rw [unionGroup] at h
    split at h
    · exact h
    · rename_i k b rest e
      have hmem := getD_mem e
      split at h
      · exact h
      · obtain ⟨q, h1, h2⟩ := ih h
        have : q = rest ∨ q ∈ pq.eraseIdx (pick pq) := by
          split at h1
          · exact Or.inr h1
          · exact List.mem_cons.1 h1
        rcases this with h3 | h3
        · exact ⟨_, hmem, hasKey_cons.2 (Or.inr (h3 ▸ h2))⟩
        · exact ⟨q, List.mem_of_mem_eraseIdx h3, h2⟩

theorem union_keys {pick : List Map64 → Nat} {caps : Nat → Nat → Nat → Nat} : ∀ (fuel : Nat) {pq : List Map64} {result : Map64} {j : Nat},
    HasKey (unionLoop pick caps fuel pq result) j → HasKey result j ∨ QKey pq j := by
  intro fuel
  induction fuel with
  | zero => intro pq result j h; exact Or.inl h
  | succ fuel ih =>
    intro pq result j h
    rw [unionLoop] at h
    split at h
    · exact Or.inl h
    · rename_i key b rest e
      have hmem := getD_mem e
      rcases ih h with h | h
      · rcases mapInsert_hasKey.1 h with h | h
        · exact Or.inr ⟨_, hmem, hasKey_cons.2 (Or.inl h)⟩
        · exact Or.inl h
      · exact Or.inr (group_keys _ h)

theorem fastUnion_keys {pick : List Map64 → Nat} {caps : Nat → Nat → Nat → Nat} {inputs : List Map64} {j : Nat}
    (h : HasKey (m64FastUnion pick caps inputs) j) : QKey inputs j := by
  rcases union_keys _ h with h | ⟨q, h1, h2⟩
  · exact absurd h (hasKey_nil j)
  · exact ⟨q, (List.mem_filter.1 h1).1, h2⟩

/-! ### The operations that take values out -/

theorem flipLoop_hollow (n : Nat) : ∀ {m : Map64} (hm : ValidM m) {k : Nat} (hk : ∀ i, k ≤ i → i ≤ k + n → HasKey m i)
    {r : Map64 × Option Nat} (e : flipLoop n m (some k) = some r) {j : Nat}, Hollow r.1 j →
    ¬ (k ≤ j ∧ j < k + n) ∧ Hollow m j := by
  induction n with
  | zero => intro m hm k hk r e j h; cases e; exact ⟨by omega, h⟩
  | succ n ih =>
    intro m hm k hk r e j h
    have hb := Props.C17_flip_inplace_closed (mapAt_valid hm k) 0 (hi := 4294967295) (by omega)
    have hS := shrink_spec hm (hk k (by omega) (by omega)) hb.1
    rw [flipLoop] at e
    rw [next_succ (mapStore_inv hm hb.1) (mapStore_hasKey.2 (hk (k + 1) (by omega) (by omega)))] at e
    obtain ⟨h1, h2⟩ := ih hS.1 (k := k + 1) (fun i a b => (hS.2.2 i (by omega)).2 (hk i (by omega) (by omega))) e h
    obtain ⟨h3, h4⟩ := hollow_shrink h2
    exact ⟨by omega, h4⟩

theorem flip_hollow {m : Map64} (hm : ValidM m) {lo hi : Nat} (hlo : lo < 18446744073709551616) (hhi : hi < 18446744073709551616)
    {m' : Map64} (e : m64FlipClosed m lo hi = some m') {j : Nat} (h : Hollow m' j) : Hollow m j := by
  unfold m64FlipClosed at e
  by_cases hlh : lo > hi
  · rw [if_pos hlh] at e; cases e; exact h
  · rw [if_neg hlh] at e
    have hse : highBytes lo ≤ highBytes hi := by unfold highBytes; omega
    have heh := highBytes_lt hi
    have hsl := lowBytes_lt lo
    obtain ⟨e1, e2, e3⟩ := ensure_loop (highBytes hi + 1 - highBytes lo) hm (s := highBytes lo) (by omega)
    have hE : ∀ i, Hollow (ensureRangePopulated m (highBytes lo) (highBytes hi)) i →
        ¬ (highBytes lo ≤ i ∧ i ≤ highBytes hi) → Hollow m i := fun i hi' hn => by
      refine ⟨?_, by rw [← e2 i]; exact hi'.2⟩
      rcases (e3 i).1 hi'.1 with h | h
      · exact h
      · exact absurd ⟨h.1, by omega⟩ hn
    have e1' : ValidM (ensureRangePopulated m (highBytes lo) (highBytes hi)) := e1
    have e3' : ∀ i, highBytes lo ≤ i → i ≤ highBytes hi → HasKey (ensureRangePopulated m (highBytes lo) (highBytes hi)) i :=
      fun i a b => (e3 i).2 (Or.inr (by omega))
    simp only at e
    generalize ensureRangePopulated m (highBytes lo) (highBytes hi) = M at e hE e1' e3'
    split at e
    · cases e
      obtain ⟨h1, h2⟩ := hollow_shrink h
      exact hE j h2 (by omega)
    · have hks := e3' (highBytes lo) (Nat.le_refl _) hse
      have hb := Props.C17_flip_inplace_closed (mapAt_valid e1' (highBytes lo)) (lowBytes lo) (hi := 4294967295) (by omega)
      have hS := shrink_spec e1' hks hb.1
      rw [next_succ (mapStore_inv e1' hb.1) (mapStore_hasKey.2 (e3' (highBytes lo + 1) (by omega) (by omega)))] at e
      have hk : ∀ i, highBytes lo + 1 ≤ i → i ≤ highBytes lo + 1 + (highBytes hi - highBytes lo - 1) → HasKey
          (eraseIfEmpty (mapStore M (highBytes lo) (rbFlipInplaceClosed (mapAt M (highBytes lo)) (lowBytes lo) 4294967295)) (highBytes lo)) i :=
        fun i a b => (hS.2.2 i (by omega)).2 (e3' i (by omega) (by omega))
      obtain ⟨m2, i1, i2, i3, i4⟩ := flipLoop_spec (highBytes hi - highBytes lo - 1) hS.1 hk
      rw [i1] at e
      cases e
      obtain ⟨h1, h2⟩ := hollow_shrink h
      obtain ⟨h3, h4⟩ := flipLoop_hollow _ hS.1 hk i1 h2
      obtain ⟨h5, h6⟩ := hollow_shrink h4
      exact hE j h6 (by omega)

theorem eraseRange_hollow {m : Map64} {a z : Option Nat} {j : Nat} :
    Hollow (mapEraseRange m a z) j → Hollow m j := by
  cases a with
  | none => exact id
  | some a => exact hollow_filter (fun q => !(decide (a ≤ q) && (match z with | none => true | some z => decide (q < z))))

theorem tail_hollow {m : Map64} {a z : Option Nat} {eh el j : Nat} (h : Hollow (removeRangeTail m a z eh el) j) : Hollow m j := by
  unfold removeRangeTail at h
  simp only at h
  split at h
  · exact eraseRange_hollow (hollow_shrink h).2
  · exact eraseRange_hollow h

theorem removeRange_hollow {m : Map64} {lo hi : Nat} {m' : Map64} (e : m64RemoveRangeClosed m lo hi = some m') {j : Nat}
    (h : Hollow m' j) : Hollow m j := by
  unfold m64RemoveRangeClosed at e
  simp only at e
  split at e
  · cases e; exact h
  · split at e
    · split at e
      · cases e; exact h
      · split at e
        · cases e
        · split at e
          · split at e
            · cases e; exact (hollow_shrink h).2
            · cases e; exact (hollow_shrink (tail_hollow h)).2
          · cases e; exact tail_hollow h
    · cases e; exact h

theorem and_hollow {shared : Nat → Nat → Bool} {other : Map64} : ∀ {m : Map64}, ∀ p ∈ m64AndLoop shared other m, p.2 ≠ [] := by
  intro m
  induction m with
  | nil => intro p hp; cases hp
  | cons e t ih =>
    intro p hp
    obtain ⟨k, b⟩ := e
    rw [m64AndLoop] at hp
    split at hp
    · exact ih p hp
    · rename_i b' _
      simp only at hp
      by_cases he : rbIsEmpty (rbAndInplace false (shared k) b b') = true
      · rw [if_pos he] at hp; exact ih p hp
      · rw [if_neg he] at hp
        rcases List.mem_cons.1 hp with h | h
        · rw [h]; exact fun e => he (isEmpty_iff.2 e)
        · exact ih p h

theorem andnot_hollow {shared : Nat → Nat → Bool} : ∀ (n : Nat) {m other : Map64}, m.length + other.length ≤ n →
    ∀ p ∈ m64AndnotLoop shared m other, p ∈ m ∨ p.2 ≠ [] := by
  intro n
  induction n with
  | zero =>
    intro m other hn p hp
    have : m = [] := List.eq_nil_of_length_eq_zero (by omega)
    subst this
    rw [m64AndnotLoop] at hp; cases hp
  | succ n ih =>
    intro m other hn p hp
    cases m with
    | nil => rw [m64AndnotLoop] at hp; cases hp
    | cons x t1 =>
      obtain ⟨k1, b1⟩ := x
      cases other with
      | nil => rw [m64AndnotLoop] at hp; exact Or.inl hp; exact (fun h => by cases h)
      | cons y t2 =>
        obtain ⟨k2, b2⟩ := y
        simp only [List.length_cons] at hn
        rw [m64AndnotLoop] at hp
        split at hp
        · rename_i hlt
          have hd := List.dropWhile_suffix (fun p : Nat × Bitmap => decide (p.1 < k2)) (l := t1)
          simp only [List.cons_append, List.mem_cons, List.mem_append] at hp
          rcases hp with h | h | h
          · exact Or.inl (by simp [h])
          · exact Or.inl (List.mem_cons_of_mem _ ((List.takeWhile_prefix _).subset h))
          · rcases ih (by simp only [List.length_cons]; have := hd.length_le; omega) p h with h | h
            · exact Or.inl (List.mem_cons_of_mem _ (hd.subset h))
            · exact Or.inr h
        · split at hp
          · have hd := List.dropWhile_suffix (fun p : Nat × Bitmap => decide (p.1 < k1)) (l := t2)
            exact ih (by simp only [List.length_cons]; have := hd.length_le; omega) p hp
          · simp only at hp
            by_cases he : rbIsEmpty (rbAndnotInplace (shared k1) b1 b2) = true
            · rw [if_pos he] at hp
              rcases ih (by omega) p hp with h | h
              · exact Or.inl (List.mem_cons_of_mem _ h)
              · exact Or.inr h
            · rw [if_neg he] at hp
              rcases List.mem_cons.1 hp with h | h
              · rw [h]; exact Or.inr fun e => he (isEmpty_iff.2 e)
              · rcases ih (by omega) p h with h | h
                · exact Or.inl (List.mem_cons_of_mem _ h)
                · exact Or.inr h

theorem xorStep_hollow {shared : Nat → Nat → Bool} {m : Map64} (hm : ValidM m) {k : Nat} {b : Bitmap} (hk : k < 4294967296) (hb : Valid b)
    {j : Nat} (h : Hollow (m64XorStep shared m (k, b)) j) : Hollow m j ∨ (j = k ∧ b = []) := by
  obtain ⟨i1, i2, i3⟩ := mapInsert_spec hm hk hb
  unfold m64XorStep at h
  simp only at h
  have hins : Hollow (mapInsert k b m).1 j → j ≠ k → Hollow m j := by
    rintro ⟨h1, h2⟩ hj
    rcases mapInsert_hasKey.1 h1 with h | h
    · exact absurd h hj
    · refine ⟨h, ?_⟩
      rw [← h2]
      apply mapAt_eq_of_find
      rw [i3 j, if_neg hj]
  split at h
  · rename_i hnew
    by_cases hj : j = k
    · right
      refine ⟨hj, ?_⟩
      rw [i2, Option.isNone_iff_eq_none] at hnew
      have h2 := h.2
      rw [hj] at h2
      unfold mapAt at h2
      rw [i3 k, if_pos rfl, hnew] at h2
      exact h2
    · exact Or.inl (hins h hj)
  · split at h
    · obtain ⟨h1, h2⟩ := h
      rw [mapErase_hasKey] at h1
      have h3 : Hollow (mapStore (mapInsert k b m).1 k (rbXorInplace (shared k) (mapAt (mapInsert k b m).1 k) b)) j :=
        ⟨h1.1, by rw [← h2]; apply mapAt_eq_of_find; rw [mapFind_erase, if_neg h1.2]⟩
      rcases hollow_store h3 with h | h
      · exact absurd h.1 h1.2
      · exact Or.inl (hins h.2 h1.2)
    · rename_i hne
      rcases hollow_store h with h | h
      · exact absurd (isEmpty_iff.2 h.2) hne
      · exact Or.inl (hins h.2 h.1)

theorem xor_hollow {shared : Nat → Nat → Bool} : ∀ {other : Map64} (ho : ValidM other) {m : Map64} (hm : ValidM m) {j : Nat},
    Hollow (other.foldl (m64XorStep shared) m) j → Hollow m j ∨ Hollow other j := by
  intro other
  induction other with
  | nil => intro _ m hm j h; exact Or.inl h
  | cons e t ih =>
    intro ho m hm j h
    obtain ⟨k, b⟩ := e
    obtain ⟨c1, c2, c3, c4⟩ := minv_cons.1 ho
    rw [List.foldl_cons] at h
    rcases ih c4 (xorStep_spec hm shared c1 c2).1 h with h | h
    · rcases xorStep_hollow hm c1 c2 h with h | h
      · exact Or.inl h
      · right
        rw [hollow_mem ho]
        rw [h.1, h.2]; exact List.mem_cons_self
    · right
      rw [hollow_mem ho]
      exact List.mem_cons_of_mem _ ((hollow_mem c4).1 h)

end CRoaring
