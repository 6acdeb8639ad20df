import Verif.Lemmas.BitmapMem11
import Verif.Model.BitmapMemQuery
set_option linter.unusedSimpArgs false
set_option linter.unusedVariables false

/-! Bitmaps in memory: questions. -/

namespace CRoaring
open Spec

theorem RQ.loadCell {b : RaBuf} {A B : Bitmap} {p : Nat × Container} (h : RHolds b (A ++ p :: B)) : loadCell b.mem A.length = .ok p := by
  obtain ⟨⟨o, h3, h4⟩, _⟩ := cellsAt_cons.1 (cellsAt_append.1 h.cells).2
  rw [Nat.zero_add] at h3
  rw [CRoaring.loadCell, cellAt_eq h3, ok_bind, CHolds.load h4, ok_bind]

theorem RQ.loadAt {b : RaBuf} {A B : Bitmap} {p : Nat × Container} (h : RHolds b (A ++ p :: B)) (hl : A.length < 65536) :
    raLoadBuf b A.length = .ok p.2 := by
  obtain ⟨o, e, g⟩ := h.cont hl
  rw [raLoadBuf, e, ok_bind, g.load]

theorem rbIsEmptyBuf_spec {b : RaBuf} {r : Bitmap} (h : RHolds b r) : rbIsEmptyBuf b = rbIsEmpty r := by
  rw [rbIsEmptyBuf, h.size, rbIsEmpty]

theorem rbCardLoopBuf_spec (B : Bitmap) : ∀ {A : Bitmap} {b : RaBuf} (card : Nat), RHolds b (A ++ B) →
    rbCardLoopBuf b.mem B.length A.length card = .ok (B.foldl (fun card p => u64 (card + containerCard p.2)) card) := by
  induction B with
  | nil => intro A b card h; rfl
  | cons p t ih =>
    intro A b card h
    have := ih (u64 (card + containerCard p.2)) h.next
    rw [List.length_append, List.length_singleton] at this
    rw [List.length_cons, rbCardLoopBuf, h.loadCell, ok_bind, this, List.foldl_cons]

theorem rbCardinalityBuf_spec {b : RaBuf} {r : Bitmap} (h : RHolds b r) : rbCardinalityBuf b = .ok (rbCardinality r) := by
  have := rbCardLoopBuf_spec r (A := []) 0 (by simpa using h)
  rw [rbCardinalityBuf, h.size]
  exact this

theorem rbRankLoopBuf_spec (x : Nat) (B : Bitmap) : ∀ {A : Bitmap} {b : RaBuf} (size : Nat), RHolds b (A ++ B) →
    rbRankLoopBuf b.mem x B.length A.length size = .ok (rbRankLoop x size B) := by
  induction B with
  | nil => intro A b size h; rfl
  | cons p t ih =>
    intro A b size h
    obtain ⟨key, c⟩ := p
    have := ih (u64 (size + containerCard c)) h.next
    rw [List.length_append, List.length_singleton] at this
    rw [List.length_cons, rbRankLoopBuf, h.loadCell, ok_bind, this, rbRankLoop]
    split
    · rfl
    · split <;> rfl

theorem rbRankBuf_spec {b : RaBuf} {r : Bitmap} (h : RHolds b r) (x : Nat) : rbRankBuf b x = .ok (rbRank r x) := by
  have := rbRankLoopBuf_spec x r (A := []) 0 (by simpa using h)
  rw [rbRankBuf, h.size]
  exact this

theorem rbGetIndexLoopBuf_spec (x high : Nat) {c : Container} {b : RaBuf} (hc : ∃ k, loadCell b.mem high = .ok (k, c)) (B : Bitmap) :
    ∀ {A : Bitmap} (index : Int), RHolds b (A ++ B) →
    rbGetIndexLoopBuf b.mem x high B.length A.length index = .ok (rbGetIndexLoop x c index B) := by
  induction B with
  | nil => intro A index h; rfl
  | cons p t ih =>
    intro A index h
    obtain ⟨key, d⟩ := p
    obtain ⟨k, hk⟩ := hc
    have := ih (index + containerCard d) h.next
    rw [List.length_append, List.length_singleton] at this
    rw [List.length_cons, rbGetIndexLoopBuf, h.loadCell, ok_bind, this, rbGetIndexLoop]
    simp only
    split
    · rfl
    · split
      · rw [hk, ok_bind]
      · rfl

theorem rbGetIndexBuf_spec {b : RaBuf} {r : Bitmap} (h : RHolds b r) (hr : BInv r) (x : Nat) : rbGetIndexBuf b x = .ok (rbGetIndex r x) := by
  rw [rbGetIndexBuf, h.index, ok_bind, rbGetIndex]
  rcases ra_split hr (x / 65536) with ⟨A, c, B, e, hA, hB, hi⟩ | ⟨A, B, e, hA, hB, hi⟩
  · simp only [hi]
    rw [if_neg (by omega), if_neg (by omega), Int.toNat_natCast]
    subst e
    have hcont : contAt (A ++ (x / 65536, c) :: B) A.length = c := by simp [contAt]
    rw [hcont, h.size]
    exact rbGetIndexLoopBuf_spec x A.length ⟨_, h.loadCell⟩ _ (A := []) 0 (by simpa using h)
  · simp only [hi]
    rw [if_pos (by omega), if_pos (by omega)]

theorem rbMinimumBuf_spec {b : RaBuf} {r : Bitmap} (h : RHolds b r) : rbMinimumBuf b = .ok (rbMinimum r) := by
  rw [rbMinimumBuf, rbMinimum, h.size]
  cases r with
  | nil => simp
  | cons p t =>
    have := RQ.loadCell (A := []) (p := p) (B := t) (by simpa using h)
    rw [List.length_nil] at this
    rw [if_pos (by simp), if_pos (by simp), this, ok_bind]
    simp [contAt, keyAt]

theorem rbMaximumBuf_spec {b : RaBuf} {r : Bitmap} (h : RHolds b r) : rbMaximumBuf b = .ok (rbMaximum r) := by
  rw [rbMaximumBuf, rbMaximum, h.size]
  rcases List.eq_nil_or_concat r with e | ⟨A, p, e⟩
  · subst e; simp
  · rw [List.concat_eq_append] at e
    subst e
    have := RQ.loadCell (A := A) (p := p) (B := []) h
    rw [if_pos (by simp), if_pos (by simp), List.length_append, List.length_singleton, Nat.add_sub_cancel, this, ok_bind]
    simp [contAt, keyAt]

theorem rbSelectLoopBuf_spec (rank : Nat) (B : Bitmap) : ∀ {A : Bitmap} {b : RaBuf} (sr : Nat), RHolds b (A ++ B) →
    rbSelectLoopBuf b.mem rank B.length A.length sr = match rbSelectLoop rank sr B with | none => .oob | some o => .ok o := by
  induction B with
  | nil => intro A b sr h; rfl
  | cons p t ih =>
    intro A b sr h
    obtain ⟨key, c⟩ := p
    rw [List.length_cons, rbSelectLoopBuf, h.loadCell, ok_bind, rbSelectLoop]
    simp only
    cases hs : containerSelect sr rank c with
    | none => rfl
    | some o =>
      cases o with
      | inl e => rfl
      | inr s' =>
        have := ih s' h.next
        rw [List.length_append, List.length_singleton] at this
        exact this

theorem rbSelectBuf_spec {b : RaBuf} {r : Bitmap} (h : RHolds b r) (rank : Nat) :
    rbSelectBuf b rank = match rbSelect r rank with | none => .oob | some o => .ok o := by
  have := rbSelectLoopBuf_spec rank r (A := []) 0 (by simpa using h)
  rw [rbSelectBuf, h.size]
  exact this

theorem rbToArrayLoopBuf_spec (hw : Hw) (B : Bitmap) : ∀ {A : Bitmap} {b : RaBuf} (ans : List Nat) (ctr : Nat), RHolds b (A ++ B) →
    rbToArrayLoopBuf hw b.mem B.length A.length ans ctr = (do let p ← rbToMem hw B ans ctr; .ok p.1) := by
  induction B with
  | nil => intro A b ans ctr h; rfl
  | cons p t ih =>
    intro A b ans ctr h
    obtain ⟨key, c⟩ := p
    rw [List.length_cons, rbToArrayLoopBuf, h.loadCell, ok_bind, rbToMem]
    simp only
    cases containerToMem hw (key <<< 16) c ans ctr with
    | oob => rfl
    | fail => rfl
    | ok q =>
      rw [ok_bind, ok_bind]
      have := ih q.1 q.2 h.next
      rw [List.length_append, List.length_singleton] at this
      exact this

theorem rbAllFullBuf_spec {b : RaBuf} (M : Bitmap) : ∀ {A D : Bitmap}, RHolds b (A ++ (M ++ D)) → BInv (A ++ (M ++ D)) →
    rbAllFullBuf b M.length A.length = .ok (M.all (fun p => containerIsFull p.2)) := by
  induction M with
  | nil => intro A D h hr; rfl
  | cons p t ih =>
    intro A D h hr
    obtain ⟨k, c⟩ := p
    rw [List.cons_append] at h hr
    obtain ⟨o, e, g⟩ := h.cont (bp_split_lt hr)
    have := ih (A := A ++ [(k, c)]) (D := D) h.next hr.next
    rw [List.length_append, List.length_singleton] at this
    have n := (bp_mid.1 hr).2.2.1
    rw [List.length_cons, rbAllFullBuf, e, ok_bind, g.isFull n.run, ok_bind, this, List.all_cons]
    cases containerIsFull c <;> rfl

theorem raLoadBuf_spec {b : RaBuf} {r : Bitmap} (h : RHolds b r) (hr : BInv r) {i : Nat} (hi : i < r.length) : raLoadBuf b i = .ok (contAt r i) := by
  have e : r = r.take i ++ r[i] :: r.drop (i + 1) := by rw [List.getElem_cons_drop, List.take_append_drop]
  have hl : (r.take i).length = i := by simp; omega
  have h' := h
  have hr' := hr
  rw [e] at h' hr'
  have := h'.loadAt (bp_split_lt hr')
  rw [hl] at this
  rw [this]
  simp [contAt, hi]

theorem rbContainsRangeClosedBuf_spec {b : RaBuf} {r : Bitmap} (h : RHolds b r) (hr : BInv r) (rs re : Nat) :
    rbContainsRangeClosedBuf b rs re = .ok (rbContainsRangeClosed r rs re) := by
  simp only [rbContainsRangeClosedBuf, rbContainsRangeClosed, h.size, h.index, ok_bind]
  split
  · rfl
  split
  · exact rbContainsBuf_spec h hr rs
  split
  · rfl
  split
  · rfl
  rename_i h1 h2 h3 h4
  have h5 : ¬ raGetIndex r (re / 65536) < 0 := fun q => h4 (Or.inl q)
  have h6 : ¬ raGetIndex r (rs / 65536) < 0 := fun q => h4 (Or.inr (Or.inl q))
  have h7 : raGetIndex r (re / 65536) - raGetIndex r (rs / 65536) = ((re / 65536 : Nat) : Int) - ((rs / 65536 : Nat) : Int) := by
    refine Decidable.byContradiction fun q => h4 (Or.inr (Or.inr (Or.inl q)))
  have h8 : ¬ raGetIndex r (re / 65536) ≥ (r.length : Int) := fun q => h4 (Or.inr (Or.inr (Or.inr q)))
  have hle : rs / 65536 ≤ re / 65536 := Nat.div_le_div_right (by omega)
  generalize hie : raGetIndex r (re / 65536) = ie at *
  generalize his : raGetIndex r (rs / 65536) = is at *
  rw [raLoadBuf_spec h hr (by omega), ok_bind]
  split
  · rfl
  rename_i hne
  split
  · rfl
  rw [raLoadBuf_spec h hr (by omega), ok_bind]
  split
  · rfl
  have hM : ((r.take ie.toNat).drop (is.toNat + 1)).length = ie.toNat - (is.toNat + 1) := by simp; omega
  have hA : (r.take (is.toNat + 1)).length = is.toNat + 1 := by simp; omega
  have e : r = r.take (is.toNat + 1) ++ ((r.take ie.toNat).drop (is.toNat + 1) ++ r.drop ie.toNat) := by
    have q : r.take (is.toNat + 1) = (r.take ie.toNat).take (is.toNat + 1) := by rw [List.take_take]; congr 1; omega
    rw [← List.append_assoc, q, List.take_append_drop, List.take_append_drop]
  have h' := h
  have hr' := hr
  rw [e] at h' hr'
  have := rbAllFullBuf_spec _ h' hr'
  rw [hM, hA] at this
  exact this

theorem rangeCardLoopBuf_spec (maxhb lo : Nat) (B : Bitmap) : ∀ {A : Bitmap} {b : RaBuf} (card : Nat), RHolds b (A ++ B) →
    rangeCardLoopBuf b.mem maxhb lo B.length A.length card = .ok (rangeCardLoop maxhb lo card B) := by
  induction B with
  | nil => intro A b card h; rfl
  | cons p t ih =>
    intro A b card h
    obtain ⟨key, c⟩ := p
    have := ih (u64 (card + containerCard c)) h.next
    rw [List.length_append, List.length_singleton] at this
    rw [List.length_cons, rangeCardLoopBuf, h.loadCell, ok_bind, this, rangeCardLoop]
    split
    · rfl
    · split <;> rfl

theorem rbRangeCardinalityClosedBuf_spec {b : RaBuf} {r : Bitmap} (h : RHolds b r) (hr : BInv r) (rs re : Nat) :
    rbRangeCardinalityClosedBuf b rs re = .ok (rbRangeCardinalityClosed r rs re) := by
  simp only [rbRangeCardinalityClosedBuf, rbRangeCardinalityClosed, h.size, h.index, ok_bind]
  split
  · rfl
  rcases ra_split hr (rs / 65536) with ⟨A, c, B, e, hA, hB, hi⟩ | ⟨A, B, e, hA, hB, hi⟩
  · simp only [hi]
    rw [if_pos (by omega), if_pos (by omega), Int.toNat_natCast]
    subst e
    rw [h.loadCell, ok_bind, contAt_mid]
    have e2 : (A ++ (rs / 65536, c) :: B).drop (A.length + 1) = B := by simp
    have e3 : (A ++ (rs / 65536, c) :: B).length - (A.length + 1) = B.length := by simp; omega
    rw [e2, e3]
    have := fun card => rangeCardLoopBuf_spec (re / 65536) (re % 65536) B (A := A ++ [(rs / 65536, c)]) card h.next
    simp only [List.length_append, List.length_singleton] at this
    exact this _
  · simp only [hi]
    rw [if_neg (by omega), if_neg (by omega)]
    have e1 : (- -((A.length : Int) + 1) - 1).toNat = A.length := by omega
    rw [e1]
    subst e
    have e3 : (A ++ B).length - A.length = B.length := by simp
    rw [e3, List.drop_left]
    exact rangeCardLoopBuf_spec _ _ B _ h

/-! ### Two bitmaps -/

theorem sameKeysBuf_spec {b1 b2 : RaBuf} (B1 : Bitmap) : ∀ {A1 A2 B2 : Bitmap}, RHolds b1 (A1 ++ B1) → RHolds b2 (A2 ++ B2) → A1.length = A2.length →
    B1.length = B2.length → sameKeysBuf b1.mem b2.mem B1.length A1.length = .ok (decide (keysOf B1 = keysOf B2)) := by
  induction B1 with
  | nil =>
    intro A1 A2 B2 h1 h2 hA hB
    have : B2 = [] := List.length_eq_zero_iff.1 hB.symm
    subst this
    rfl
  | cons p t ih =>
    intro A1 A2 B2 h1 h2 hA hB
    cases B2 with
    | nil => simp at hB
    | cons q u =>
      obtain ⟨⟨o, a1, _⟩, _⟩ := cellsAt_cons.1 (cellsAt_append.1 h1.cells).2
      obtain ⟨⟨o', a2, _⟩, _⟩ := cellsAt_cons.1 (cellsAt_append.1 h2.cells).2
      rw [Nat.zero_add] at a1 a2
      rw [← hA] at a2
      have := ih (A1 := A1 ++ [p]) (A2 := A2 ++ [q]) (B2 := u) h1.next h2.next (by simp [hA]) (by simpa using hB)
      rw [List.length_append, List.length_singleton] at this
      rw [List.length_cons, sameKeysBuf, cellAt_eq a1, ok_bind, cellAt_eq a2, ok_bind, this]
      simp only [keysOf, List.map_cons, List.cons.injEq]
      by_cases hpq : p.1 = q.1
      · rw [if_neg (by simpa using hpq)]
        simp only [hpq, true_and]
        congr
      · rw [if_pos hpq]
        simp [hpq]

theorem sameContsBuf_spec {b1 b2 : RaBuf} (B1 : Bitmap) : ∀ {A1 A2 B2 : Bitmap}, RHolds b1 (A1 ++ B1) → RHolds b2 (A2 ++ B2) → A1.length = A2.length →
    B1.length = B2.length → sameContsBuf b1.mem b2.mem B1.length A1.length = .ok ((B1.zip B2).all (fun p => containerEquals p.1.2 p.2.2)) := by
  induction B1 with
  | nil =>
    intro A1 A2 B2 h1 h2 hA hB
    have : B2 = [] := List.length_eq_zero_iff.1 hB.symm
    subst this
    rfl
  | cons p t ih =>
    intro A1 A2 B2 h1 h2 hA hB
    cases B2 with
    | nil => simp at hB
    | cons q u =>
      have a1 := h1.loadCell
      have a2 := h2.loadCell
      rw [← hA] at a2
      have := ih (A1 := A1 ++ [p]) (A2 := A2 ++ [q]) (B2 := u) h1.next h2.next (by simp [hA]) (by simpa using hB)
      rw [List.length_append, List.length_singleton] at this
      rw [List.length_cons, sameContsBuf, a1, ok_bind, a2, ok_bind, this]
      simp only [List.zip_cons_cons, List.all_cons]
      cases containerEquals p.2 q.2 <;> rfl

theorem rbEqualsBuf_spec {b1 b2 : RaBuf} {r1 r2 : Bitmap} (h1 : RHolds b1 r1) (h2 : RHolds b2 r2) :
    rbEqualsBuf b1 b2 = .ok (rbEquals r1 r2) := by
  simp only [rbEqualsBuf, rbEquals, h1.size, h2.size]
  split
  · rfl
  rename_i hl
  simp only [ne_eq, Decidable.not_not] at hl
  have e1 := sameKeysBuf_spec (b1 := b1) (b2 := b2) r1 (A1 := []) (A2 := []) (B2 := r2) (by simpa using h1) (by simpa using h2) rfl hl
  have e2 := sameContsBuf_spec (b1 := b1) (b2 := b2) r1 (A1 := []) (A2 := []) (B2 := r2) (by simpa using h1) (by simpa using h2) rfl hl
  rw [List.length_nil] at e1 e2
  rw [e1, ok_bind, e2]
  by_cases hk : keysOf r1 = keysOf r2
  · rw [if_neg (by simp [hk]), if_neg (by simp [hk])]
  · rw [if_pos (by simp [hk]), if_pos hk]

theorem rbIsSubsetLoopBuf_spec {x1 x2 : RaBuf} (fuel : Nat) : ∀ {A1 B1 A2 B2 : Bitmap}, RHolds x1 (A1 ++ B1) → BInv (A1 ++ B1) → RHolds x2 (A2 ++ B2) →
    BInv (A2 ++ B2) → B1.length + B2.length < fuel → rbIsSubsetLoopBuf x1 x2 fuel A1.length A2.length = .ok (rbIsSubset B1 B2) := by
  induction fuel with
  | zero => intros; omega
  | succ fuel ih =>
    intro A1 B1 A2 B2 h1 i1 h2 i2 hf
    have z1 := h1.size
    have z2 := h2.size
    rw [List.length_append] at z1 z2
    rw [rbIsSubsetLoopBuf]
    cases B1 with
    | nil =>
      rw [if_neg (by simp at z1; omega), rbIsSubset]
      simp at z1
      simp [z1]
    | cons p1 t1 =>
    cases B2 with
    | nil =>
      rw [if_neg (by simp at z2; omega), rbIsSubset]
      simp only [List.length_cons] at z1
      have : (A1.length == x1.size) = false := by simp; omega
      rw [this]
    | cons p2 t2 =>
    obtain ⟨s1, c1⟩ := p1
    obtain ⟨s2, c2⟩ := p2
    simp only [List.length_cons] at z1 z2 hf
    rw [if_pos ⟨by omega, by omega⟩, h1.key (bp_split_lt i1), ok_bind, h2.key (bp_split_lt i2), ok_bind, rbIsSubset]
    simp only
    split
    · rw [h1.loadAt (bp_split_lt i1), ok_bind, h2.loadAt (bp_split_lt i2), ok_bind]
      have := ih (A1 := A1 ++ [(s1, c1)]) (B1 := t1) (A2 := A2 ++ [(s2, c2)]) (B2 := t2) h1.next i1.next h2.next i2.next (by omega)
      simp only [List.length_append, List.length_singleton] at this
      rw [this]
      split <;> rfl
    · split
      · rfl
      · rename_i hs hlt
        obtain ⟨C, D, e1, e2, e3, e4, e5, _⟩ := h2.advance i2 (by omega : s2 < s1)
        rw [e4, ok_bind, raAdvance_eq (bp_append.1 i2).2.1 (by omega : s2 < s1), ← e3]
        have hlen : t2.length + 1 = C.length + D.length := by
          have := congrArg List.length e1
          simpa using this
        have := ih (A1 := A1) (B1 := (s1, c1) :: t1) (A2 := A2 ++ C) (B2 := D) h1 i1 (by rw [List.append_assoc, ← e1]; exact h2)
          (by rw [List.append_assoc, ← e1]; exact i2) (by simp only [List.length_cons]; omega)
        rw [List.length_append] at this
        exact this

theorem rbIntersectLoopBuf_spec {x1 x2 : RaBuf} (fuel : Nat) : ∀ {A1 B1 A2 B2 : Bitmap}, RHolds x1 (A1 ++ B1) → BInv (A1 ++ B1) → RHolds x2 (A2 ++ B2) →
    BInv (A2 ++ B2) → B1.length + B2.length < fuel → rbIntersectLoopBuf x1 x2 fuel A1.length A2.length = .ok (rbIntersect B1 B2) := by
  induction fuel with
  | zero => intros; omega
  | succ fuel ih =>
    intro A1 B1 A2 B2 h1 i1 h2 i2 hf
    have z1 := h1.size
    have z2 := h2.size
    rw [List.length_append] at z1 z2
    rw [rbIntersectLoopBuf]
    cases B1 with
    | nil => rw [if_neg (by simp at z1; omega), rbIntersect]
    | cons p1 t1 =>
    cases B2 with
    | nil => rw [if_neg (by simp at z2; omega), rbIntersect]; simp
    | cons p2 t2 =>
    obtain ⟨s1, c1⟩ := p1
    obtain ⟨s2, c2⟩ := p2
    simp only [List.length_cons] at z1 z2 hf
    rw [if_pos ⟨by omega, by omega⟩, h1.key (bp_split_lt i1), ok_bind, h2.key (bp_split_lt i2), ok_bind, rbIntersect]
    simp only
    split
    · rw [h1.loadAt (bp_split_lt i1), ok_bind, h2.loadAt (bp_split_lt i2), ok_bind]
      have := ih (A1 := A1 ++ [(s1, c1)]) (B1 := t1) (A2 := A2 ++ [(s2, c2)]) (B2 := t2) h1.next i1.next h2.next i2.next (by omega)
      simp only [List.length_append, List.length_singleton] at this
      rw [this]
      split <;> rfl
    · split
      · rename_i hs hlt
        obtain ⟨C, D, e1, e2, e3, e4, e5, _⟩ := h1.advance i1 hlt
        rw [e4, ok_bind, raAdvance_eq (bp_append.1 i1).2.1 hlt, ← e3]
        have hlen : t1.length + 1 = C.length + D.length := by
          have := congrArg List.length e1
          simpa using this
        have := ih (A1 := A1 ++ C) (B1 := D) (A2 := A2) (B2 := (s2, c2) :: t2) (by rw [List.append_assoc, ← e1]; exact h1)
          (by rw [List.append_assoc, ← e1]; exact i1) h2 i2 (by simp only [List.length_cons]; omega)
        rw [List.length_append] at this
        exact this
      · rename_i hs hlt
        obtain ⟨C, D, e1, e2, e3, e4, e5, _⟩ := h2.advance i2 (by omega : s2 < s1)
        rw [e4, ok_bind, raAdvance_eq (bp_append.1 i2).2.1 (by omega : s2 < s1), ← e3]
        have hlen : t2.length + 1 = C.length + D.length := by
          have := congrArg List.length e1
          simpa using this
        have := ih (A1 := A1) (B1 := (s1, c1) :: t1) (A2 := A2 ++ C) (B2 := D) h1 i1 (by rw [List.append_assoc, ← e1]; exact h2)
          (by rw [List.append_assoc, ← e1]; exact i2) (by simp only [List.length_cons]; omega)
        rw [List.length_append] at this
        exact this

theorem rbAndCardLoopBuf_spec {x1 x2 : RaBuf} (fuel : Nat) : ∀ {A1 B1 A2 B2 : Bitmap} (acc : Nat), RHolds x1 (A1 ++ B1) → BInv (A1 ++ B1) →
    RHolds x2 (A2 ++ B2) → BInv (A2 ++ B2) → B1.length + B2.length < fuel →
    rbAndCardLoopBuf x1 x2 fuel A1.length A2.length acc = .ok (rbAndCardLoop acc B1 B2) := by
  induction fuel with
  | zero => intros; omega
  | succ fuel ih =>
    intro A1 B1 A2 B2 acc h1 i1 h2 i2 hf
    have z1 := h1.size
    have z2 := h2.size
    rw [List.length_append] at z1 z2
    rw [rbAndCardLoopBuf]
    cases B1 with
    | nil => rw [if_neg (by simp at z1; omega), rbAndCardLoop]
    | cons p1 t1 =>
    cases B2 with
    | nil => rw [if_neg (by simp at z2; omega), rbAndCardLoop]; simp
    | cons p2 t2 =>
    obtain ⟨s1, c1⟩ := p1
    obtain ⟨s2, c2⟩ := p2
    simp only [List.length_cons] at z1 z2 hf
    rw [if_pos ⟨by omega, by omega⟩, h1.key (bp_split_lt i1), ok_bind, h2.key (bp_split_lt i2), ok_bind, rbAndCardLoop]
    simp only
    split
    · rw [h1.loadAt (bp_split_lt i1), ok_bind, h2.loadAt (bp_split_lt i2), ok_bind]
      have := ih (A1 := A1 ++ [(s1, c1)]) (B1 := t1) (A2 := A2 ++ [(s2, c2)]) (B2 := t2) (u64 (acc + containerAndCard c1 c2)) h1.next i1.next h2.next i2.next
        (by omega)
      simp only [List.length_append, List.length_singleton] at this
      exact this
    · split
      · rename_i hs hlt
        obtain ⟨C, D, e1, e2, e3, e4, e5, _⟩ := h1.advance i1 hlt
        rw [e4, ok_bind, raAdvance_eq (bp_append.1 i1).2.1 hlt, ← e3]
        have hlen : t1.length + 1 = C.length + D.length := by
          have := congrArg List.length e1
          simpa using this
        have := ih (A1 := A1 ++ C) (B1 := D) (A2 := A2) (B2 := (s2, c2) :: t2) acc (by rw [List.append_assoc, ← e1]; exact h1)
          (by rw [List.append_assoc, ← e1]; exact i1) h2 i2 (by simp only [List.length_cons]; omega)
        rw [List.length_append] at this
        exact this
      · rename_i hs hlt
        obtain ⟨C, D, e1, e2, e3, e4, e5, _⟩ := h2.advance i2 (by omega : s2 < s1)
        rw [e4, ok_bind, raAdvance_eq (bp_append.1 i2).2.1 (by omega : s2 < s1), ← e3]
        have hlen : t2.length + 1 = C.length + D.length := by
          have := congrArg List.length e1
          simpa using this
        have := ih (A1 := A1) (B1 := (s1, c1) :: t1) (A2 := A2 ++ C) (B2 := D) acc h1 i1 (by rw [List.append_assoc, ← e1]; exact h2)
          (by rw [List.append_assoc, ← e1]; exact i2) (by simp only [List.length_cons]; omega)
        rw [List.length_append] at this
        exact this

section
variable {b1 b2 : RaBuf} {r1 r2 : Bitmap} (h1 : RHolds b1 r1) (i1 : BInv r1) (h2 : RHolds b2 r2) (i2 : BInv r2)
include h1 h2 i1 i2

theorem rbIsSubsetBuf_spec : rbIsSubsetBuf b1 b2 = .ok (rbIsSubset r1 r2) := by
  rw [rbIsSubsetBuf]
  exact rbIsSubsetLoopBuf_spec _ (A1 := []) (A2 := []) (by simpa using h1) (by simpa using i1) (by simpa using h2) (by simpa using i2)
    (by rw [h1.size, h2.size]; omega)

theorem rbIntersectBuf_spec : rbIntersectBuf b1 b2 = .ok (rbIntersect r1 r2) := by
  rw [rbIntersectBuf]
  exact rbIntersectLoopBuf_spec _ (A1 := []) (A2 := []) (by simpa using h1) (by simpa using i1) (by simpa using h2) (by simpa using i2)
    (by rw [h1.size, h2.size]; omega)

theorem rbAndCardinalityBuf_spec : rbAndCardinalityBuf b1 b2 = .ok (rbAndCardinality r1 r2) := by
  rw [rbAndCardinalityBuf]
  exact rbAndCardLoopBuf_spec _ (A1 := []) (A2 := []) 0 (by simpa using h1) (by simpa using i1) (by simpa using h2) (by simpa using i2)
    (by rw [h1.size, h2.size]; omega)

theorem rbIsStrictSubsetBuf_spec : rbIsStrictSubsetBuf b1 b2 = .ok (rbIsStrictSubset r1 r2) := by
  rw [rbIsStrictSubsetBuf, rbCardinalityBuf_spec h1, rbCardinalityBuf_spec h2, ok_bind, ok_bind, rbIsSubsetBuf_spec h1 i1 h2 i2, rbIsStrictSubset]
  split
  · rename_i q; simp [q]
  · rename_i q; simp [q]

theorem rbOrCardinalityBuf_spec : rbOrCardinalityBuf b1 b2 = .ok (rbOrCardinality r1 r2) := by
  rw [rbOrCardinalityBuf, rbCardinalityBuf_spec h1, rbCardinalityBuf_spec h2, ok_bind, ok_bind, rbAndCardinalityBuf_spec h1 i1 h2 i2, ok_bind, rbOrCardinality]

theorem rbAndnotCardinalityBuf_spec : rbAndnotCardinalityBuf b1 b2 = .ok (rbAndnotCardinality r1 r2) := by
  rw [rbAndnotCardinalityBuf, rbCardinalityBuf_spec h1, ok_bind, rbAndCardinalityBuf_spec h1 i1 h2 i2, ok_bind, rbAndnotCardinality]

theorem rbXorCardinalityBuf_spec : rbXorCardinalityBuf b1 b2 = .ok (rbXorCardinality r1 r2) := by
  rw [rbXorCardinalityBuf, rbCardinalityBuf_spec h1, rbCardinalityBuf_spec h2, ok_bind, ok_bind, rbAndCardinalityBuf_spec h1 i1 h2 i2, ok_bind, rbXorCardinality]

end

end CRoaring
