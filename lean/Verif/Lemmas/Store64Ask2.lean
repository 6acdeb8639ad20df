import Verif.Lemmas.Store64Ask
/-
The iterator over a 64-bit bitmap: what it does on memory is what it does on the tree of containers.
-/
set_option linter.unusedSimpArgs false
set_option linter.unusedVariables false
namespace CRoaring

/-- The same iterator on the tree of containers. -/
def Iter64M.over (im : Iter64M) (ait : AIt) : Iter64 := ⟨ait, im.cit, im.high48, im.value, im.hasValue, im.satFwd⟩

/-- Two iterators in the same state. -/
structure IB (r : R64M) (L : ArtRef → Prop) (R : R64) (im : Iter64M) (ia : Iter64) : Prop where
  at_ : Bi r L R True im.artIt ia.artIt
  same : ia = im.over ia.artIt
  on : ia.hasValue = true → ia.artIt.value ≠ none

section
variable {r : R64M} {L : ArtRef → Prop} {R : R64} (hR : ArtOk R)
include hR

theorem Bi.look {B : Prop} {it : HIt} {ait : AIt} (h : Bi r L R B it ait) {c : Container} (hv : ait.value = some c) : r.lookAt it = .ok c ∧ it.key = ait.key := by
  rcases h.see hR with ⟨e1, e2⟩ | ⟨p, l, a, c', it', e1, e2, e3, e4, e5, -⟩
  · rw [hv] at e2; cases e2
  · rw [hv] at e2
    cases e2
    exact ⟨by simp only [R64M.lookAt, e1, e5, ok_bind], e3⟩

theorem Bi.isSome {B : Prop} {it : HIt} {ait : AIt} (h : Bi r L R B it ait) : it.value.isSome = ait.value.isSome := by
  rcases h.see hR with ⟨e1, e2⟩ | ⟨p, l, a, c', it', e1, e2, -⟩ <;> rw [e1, e2] <;> rfl

theorem leafFirst_sim {im : Iter64M} {ait : AIt} (h : Bi r L R True im.artIt ait) (hv : ait.value ≠ none) :
    ∃ im', r.leafFirst im = .ok im' ∧ IB r L R im' (it64LeafFirst (im.over ait)) := by
  obtain ⟨c, hc⟩ := Option.ne_none_iff_exists'.1 hv
  obtain ⟨e1, e2⟩ := h.look hR hc
  refine ⟨_, by rw [R64M.leafFirst, e1, ok_bind], ?_⟩
  simp only [it64LeafFirst, Iter64M.over, hc]
  exact ⟨h, by simp only [Iter64M.over, e2], fun _ => hv⟩

theorem leafLast_sim {im : Iter64M} {ait : AIt} (h : Bi r L R True im.artIt ait) (hv : ait.value ≠ none) :
    ∃ im', r.leafLast im = .ok im' ∧ IB r L R im' (it64LeafLast (im.over ait)) := by
  obtain ⟨c, hc⟩ := Option.ne_none_iff_exists'.1 hv
  obtain ⟨e1, e2⟩ := h.look hR hc
  refine ⟨_, by rw [R64M.leafLast, e1, ok_bind], ?_⟩
  simp only [it64LeafLast, Iter64M.over, hc]
  exact ⟨h, by simp only [Iter64M.over, e2], fun _ => hv⟩

theorem initAt_sim (hs : Sim64 r L R) (im : Iter64M) (ait : AIt) (first : Bool) :
    ∃ im', r.initAt im first = .ok im' ∧ IB r L R im' (it64InitAt R (im.over ait) first) := by
  have key : ∃ a, r.art.initIterator first = .ok a ∧ Bi r L R True a (artInitIterator R first) := by
    cases first
    · exact Bi.startLast hR hs
    · exact Bi.start hR hs
  obtain ⟨a, g1, g2⟩ := key
  unfold R64M.initAt it64InitAt
  rw [g1, ok_bind, g2.isSome hR]
  by_cases hv : (artInitIterator R first).value = none
  · simp only [hv, Option.isSome_none, Bool.false_eq_true, if_false]
    exact ⟨_, rfl, g2, rfl, fun h => by cases h⟩
  · have e : (artInitIterator R first).value.isSome = true := Option.isSome_iff_ne_none.2 hv
    simp only [e, if_true]
    cases first
    · exact leafLast_sim hR (im := { im with artIt := a, hasValue := true }) g2 hv
    · exact leafFirst_sim hR (im := { im with artIt := a, hasValue := true }) g2 hv

/-- The abstract counterpart of `R64M.nextLeaf`. -/
theorem nextLeaf_sim {im : Iter64M} {ait : AIt} (h : Bi r L R True im.artIt ait) (hv : ait.value ≠ none) :
    ∃ im', r.nextLeaf im = .ok im' ∧ IB r L R im'
      (if (itNext R ait).value.isSome then it64LeafFirst (im.over (itNext R ait)) else { im.over (itNext R ait) with satFwd := true, hasValue := false }) := by
  rcases h.see hR with ⟨e1, e2⟩ | ⟨p, l, a, c, it', e1, e2, e3, e4, e5, e6, e7, e8, e9⟩
  · exact absurd e2 hv
  · unfold R64M.nextLeaf
    rw [e7, ok_bind, e8.isSome hR]
    by_cases hv : (itNext R ait).value = none
    · simp only [hv, Option.isSome_none, Bool.false_eq_true, if_false]
      exact ⟨_, rfl, e8, rfl, fun h => by cases h⟩
    · have e : (itNext R ait).value.isSome = true := Option.isSome_iff_ne_none.2 hv
      simp only [e, if_true]
      exact leafFirst_sim hR (im := { im with artIt := it' }) e8 hv

theorem advance_sim (hs : Sim64 r L R) {im : Iter64M} {ia : Iter64} (h : IB r L R im ia) :
    ∃ im', r.advance im = .ok im' ∧ IB r L R im' (it64Advance R ia) := by
  obtain ⟨ait, cit', high48', value', hasValue', satFwd'⟩ := ia
  obtain ⟨hit, cit, high48, value, hasValue, satFwd⟩ := im
  obtain ⟨h1, h2, h3⟩ := h
  cases h2
  simp only at h1 h3
  rcases h1.see hR with ⟨e1, e2⟩ | ⟨p, l, a, c, it', e1, e2, -⟩
  · simp only [R64M.advance, it64Advance, e1, e2]
    cases satFwd
    · exact initAt_sim hR hs ⟨hit, cit, high48, value, hasValue, false⟩ ait true
    · exact ⟨_, rfl, h1, rfl, fun h => by cases h⟩
  · obtain ⟨k1, k2⟩ := h1.look hR e2
    simp only [R64M.advance, it64Advance, e1, e2, k1, ok_bind]
    cases hq : (containerIteratorNext c cit (value % 65536)).2 with
    | some low16 => exact ⟨_, rfl, h1, rfl, fun _ => by rw [e2]; simp⟩
    | none => exact nextLeaf_sim hR (im := ⟨hit, _, high48, value, hasValue, satFwd⟩) h1 (by rw [e2]; simp)

theorem previous_sim (hs : Sim64 r L R) {im : Iter64M} {ia : Iter64} (h : IB r L R im ia) :
    ∃ im', r.previous im = .ok im' ∧ IB r L R im' (it64Previous R ia) := by
  obtain ⟨ait, cit', high48', value', hasValue', satFwd'⟩ := ia
  obtain ⟨hit, cit, high48, value, hasValue, satFwd⟩ := im
  obtain ⟨h1, h2, h3⟩ := h
  cases h2
  simp only at h1 h3
  rcases h1.see hR with ⟨e1, e2⟩ | ⟨p, l, a, c, it', e1, e2, -⟩
  · simp only [R64M.previous, it64Previous, e1, e2]
    cases satFwd
    · exact ⟨_, rfl, h1, rfl, fun h => by cases h⟩
    · exact initAt_sim hR hs ⟨hit, cit, high48, value, hasValue, true⟩ ait false
  · obtain ⟨k1, k2⟩ := h1.look hR e2
    simp only [R64M.previous, it64Previous, e1, e2, k1, ok_bind]
    cases hq : (containerIteratorPrev c cit (value % 65536)).2 with
    | some low16 => exact ⟨_, rfl, h1, rfl, fun _ => by rw [e2]; simp⟩
    | none =>
      obtain ⟨it', g1, g2⟩ := h1.prev hR (by rw [e2]; simp)
      simp only [g1, ok_bind, g2.isSome hR]
      by_cases hv : (itPrev R ait).value = none
      · simp only [hv, Option.isSome_none, Bool.false_eq_true, if_false]
        exact ⟨_, rfl, g2, rfl, fun h => by cases h⟩
      · have e : (itPrev R ait).value.isSome = true := Option.isSome_iff_ne_none.2 hv
        simp only [e, if_true]
        exact leafLast_sim hR (im := ⟨it', _, high48, value, hasValue, satFwd⟩) g2 hv

theorem moveAt_sim {im : Iter64M} {ait : AIt} (h : Bi r L R True im.artIt ait) (hv : ait.value ≠ none) (val : Nat) :
    ∃ im', r.moveAt im val = .ok im' ∧ IB r L R im' (it64MoveAt R (im.over ait) val) := by
  obtain ⟨c, hc⟩ := Option.ne_none_iff_exists'.1 hv
  obtain ⟨e1, e2⟩ := h.look hR hc
  have e3 : (im.over ait).high48 = im.high48 := rfl
  have e4 : (im.over ait).artIt = ait := rfl
  unfold R64M.moveAt it64MoveAt
  rw [e3, e4]
  split
  · simp only [e1, ok_bind, hc]
    have e5 : (im.over ait).cit = im.cit := rfl
    rw [e5]
    cases hq : (containerIteratorLowerBound c im.cit (splitKey val).2).2 with
    | some low16 => exact ⟨_, rfl, h, rfl, fun _ => hv⟩
    | none => exact nextLeaf_sim hR (im := { im with cit := (containerIteratorLowerBound c im.cit (splitKey val).2).1 }) h hv
  · exact leafFirst_sim hR h hv

theorem moveTo_sim {im : Iter64M} {ia : Iter64} (h : IB r L R im ia) (val : Nat) :
    ∃ im', r.moveTo im val = .ok im' ∧ IB r L R im' (it64Move R ia val) := by
  obtain ⟨ait, cit', high48', value', hasValue', satFwd'⟩ := ia
  obtain ⟨hit, cit, high48, value, hasValue, satFwd⟩ := im
  obtain ⟨h1, h2, h3⟩ := h
  cases h2
  simp only at h1 h3
  unfold R64M.moveTo it64Move
  simp only
  by_cases hc : (!hasValue || high48 != clearLow val) = true
  · rw [if_pos hc, if_pos hc]
    obtain ⟨it', g1, g2⟩ := h1.seek hR (splitKey_isKey val)
    simp only [g1, ok_bind, g2.isSome hR]
    by_cases hv : (itLowerBound R ait (splitKey val).1).value = none
    · simp only [hv, Option.isSome_none, Bool.false_eq_true, if_false]
      exact ⟨_, rfl, g2, rfl, fun h => by cases h⟩
    · have e : (itLowerBound R ait (splitKey val).1).value.isSome = true := Option.isSome_iff_ne_none.2 hv
      obtain ⟨c, hc'⟩ := Option.ne_none_iff_exists'.1 hv
      simp only [e, if_true, (g2.look hR hc').2]
      exact moveAt_sim hR (im := ⟨it', cit, _, value, hasValue, satFwd⟩) g2 hv val
  · rw [if_neg hc, if_neg hc]
    have hh : hasValue = true := by
      cases hasValue
      · simp at hc
      · rfl
    exact moveAt_sim hR (im := ⟨hit, cit, high48, value, hasValue, satFwd⟩) h1 (h3 hh) val

theorem intersectRange_sim (hs : Sim64 r L R) (min max : Nat) (junk : Iter64M) (ait : AIt) :
    r.intersectWithRange min max junk = .ok (r64IntersectWithRange R min max (junk.over ait)) := by
  unfold R64M.intersectWithRange r64IntersectWithRange
  split
  · rfl
  · obtain ⟨im, g1, g2⟩ := initAt_sim hR hs junk ait true
    obtain ⟨im', g3, g4⟩ := moveTo_sim hR g2 min
    simp only [g1, ok_bind, g3]
    generalize it64Move R (it64InitAt R (junk.over ait) true) min = ia at g4
    rw [g4.same]
    simp only [Iter64M.over]
    by_cases hb : im'.hasValue = true
    · simp only [hb]; rfl
    · simp only [hb, Bool.not_eq_true] at *; simp [hb]

theorem readNext_sim {im : Iter64M} {ait : AIt} (h : Bi r L R True im.artIt ait) (hv : ait.value ≠ none) :
    ∃ im', r.readNext im = .ok im' ∧ IB r L R im'
      (if (itNext R ait).value.isSome then it64LeafFirst { im.over (itNext R ait) with hasValue := (itNext R ait).value.isSome }
        else { im.over (itNext R ait) with hasValue := (itNext R ait).value.isSome }) := by
  rcases h.see hR with ⟨e1, e2⟩ | ⟨p, l, a, c, it', e1, e2, e3, e4, e5, e6, e7, e8, e9⟩
  · exact absurd e2 hv
  · unfold R64M.readNext
    rw [e7, ok_bind, e8.isSome hR]
    by_cases hv : (itNext R ait).value = none
    · simp only [hv, Option.isSome_none, Bool.false_eq_true, if_false]
      exact ⟨_, rfl, e8, rfl, fun h => by cases h⟩
    · have e : (itNext R ait).value.isSome = true := Option.isSome_iff_ne_none.2 hv
      simp only [e, if_true]
      exact leafFirst_sim hR (im := { im with artIt := it', hasValue := true }) e8 hv

omit hR in
theorem leafFirst_it (it : Iter64) : (it64LeafFirst it).artIt = it.artIt := by
  unfold it64LeafFirst
  split <;> rfl

theorem read_loop : ∀ (n : Nat) {im : Iter64M} {ia : Iter64} (count : Nat), IB r L R im ia → Gas n ia.artIt →
    ∃ im', R64M.readLoop r n im count = .ok ((it64ReadLoop R n ia count).1, im') ∧ IB r L R im' (it64ReadLoop R n ia count).2
  | 0, _, _, _, _, hg => absurd hg.1 (by omega)
  | n + 1, im, ia, count, h, hg => by
    obtain ⟨ait, cit', high48', value', hasValue', satFwd'⟩ := ia
    obtain ⟨hit, cit, high48, value, hasValue, satFwd⟩ := im
    have h0 := h
    obtain ⟨h1, h2, h3⟩ := h
    cases h2
    simp only at h1 h3 hg
    unfold R64M.readLoop it64ReadLoop
    simp only
    by_cases hc : (hasValue && decide (0 < count)) = true
    · rw [if_pos hc, if_pos hc]
      have hv := h3 (by cases hasValue; simp at hc; rfl)
      rcases h1.see hR with ⟨e1, e2⟩ | ⟨p, l, a, c, it', e1, e2, e3, e4, e5, e6, e7, e8, e9⟩
      · exact absurd e2 hv
      · obtain ⟨k1, k2⟩ := h1.look hR e2
        simp only [e2, k1, ok_bind]
        generalize hp : containerIteratorRead c cit high48 (if count < 4294967295 then count else 4294967295) (value % 65536) = p
        obtain ⟨p1, p2, p3⟩ := p
        cases p3 with
        | some low16 => exact ⟨_, rfl, h1, rfl, fun _ => hv⟩
        | none =>
          simp only
          obtain ⟨im1, g1, g2⟩ := readNext_sim hR (im := ⟨hit, p2, high48, value, hasValue, satFwd⟩) h1 hv
          simp only [g1, ok_bind]
          have e : ({ (Iter64M.over ⟨hit, p2, high48, value, hasValue, satFwd⟩ (itNext R ait)) with hasValue := (itNext R ait).value.isSome } : Iter64) =
            ⟨itNext R ait, p2, high48, value, (itNext R ait).value.isSome, satFwd⟩ := rfl
          rw [e] at g2
          generalize hia : (if (itNext R ait).value.isSome = true then it64LeafFirst ⟨itNext R ait, p2, high48, value, (itNext R ait).value.isSome, satFwd⟩
            else ⟨itNext R ait, p2, high48, value, (itNext R ait).value.isSome, satFwd⟩) = ia1 at g2
          have hit1 : ia1.artIt = itNext R ait := by
            rw [← hia]
            split
            · exact leafFirst_it _
            · rfl
          obtain ⟨im2, q1, q2⟩ := read_loop n (count - p1.length) g2 (by rw [hit1]; exact e9 n hg)
          exact ⟨im2, by rw [q1]; rfl, q2⟩
    · rw [if_neg hc, if_neg hc]
      exact ⟨_, rfl, h0⟩

theorem read_sim {im : Iter64M} {ia : Iter64} (h : IB r L R im ia) (count : Nat) :
    ∃ im', r.read im count = .ok ((it64Read R ia count).1, im') ∧ IB r L R im' (it64Read R ia count).2 :=
  read_loop hR FUEL count h (gas_start hR (X := 0))

theorem toUint64_sim (hs : Sim64 r L R) (junk : Iter64M) (ait : AIt) : r.toUint64 junk = .ok (r64ToUint64 R (junk.over ait)) := by
  obtain ⟨im, g1, g2⟩ := initAt_sim hR hs junk ait true
  obtain ⟨im', g3, g4⟩ := read_sim hR g2 18446744073709551615
  rw [R64M.toUint64, g1, ok_bind, g3]
  rfl

end

end CRoaring
