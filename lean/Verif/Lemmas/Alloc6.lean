import Verif.Lemmas.Alloc5

set_option linter.unusedSimpArgs false
set_option linter.unusedVariables false

/-! The array of containers grows and shrinks, when requests for memory may be refused. -/

namespace CRoaring

variable {F : Nat → Option MBlk} {m m1 m2 m' base : Mem} {own own' : List Nat} {ok : Nat → Bool}

theorem holdsB_same {p : Nat} {b : Bitmap} {cow : Bool} {alloc : Nat} {buf : Option Nat} {rs : List CRec}
    (h : HoldsB m p b cow alloc buf rs) (hs : Same (bmBlocks p buf rs) m m') : HoldsB m' p b cow alloc buf rs := by
  refine ⟨by rw [hs p (by simp [bmBlocks]), h.hdr], h.room, fun q hq => ?_, h.nobuf, holdsC_blocks_same h.conts (hs.mono ?_), h.nodup⟩
  · obtain ⟨s, h1, h2⟩ := h.slots q hq
    exact ⟨s, by rw [hs q (by simp [bmBlocks, hq]), h1], h2⟩
  · intro x hx
    rw [bmBlocks]
    simp only [List.mem_append, List.mem_cons]
    exact Or.inr (Or.inr hx)

theorem reallocB_spec {p n : Nat} {b : Bitmap} {cow : Bool} {alloc : Nat} {buf : Option Nat} {rs : List CRec} (ok : Nat → Bool)
    (h : HoldsB m p b cow alloc buf rs) (hi : Owns F m (bmBlocks p buf rs ++ own)) (hn : n ≠ 0) (hs : b.length ≤ n) :
    (∃ m', reallocArrayA ok p n m = some (false, m') ∧ Owns F m' (bmBlocks p buf rs ++ own) ∧ m'.live = m.live ∧ Refused ok m m') ∨
    (∃ m' q, reallocArrayA ok p n m = some (true, m') ∧ Owns F m' (bmBlocks p (some q) rs ++ own) ∧ Same own m m' ∧ Granted ok m m' ∧
      HoldsB m' p b cow n (some q) rs) := by
  have hroom := h.room
  have hi' : Owns F m (p :: (buf.toList ++ (rs.flatMap CRec.blocks ++ own))) := by simpa [bmBlocks] using hi
  rcases reallocArrayA_spec (h := ⟨b.length, alloc, buf, cow⟩) (n := n) ok h.hdr hn hs
      (fun q hq => by
        obtain ⟨s, h1, h2, h3, h4, _⟩ := h.slots q hq
        exact ⟨s, h1, by simp; omega, by simp; omega, by simp; omega⟩)
      (fun hb => by have := h.nobuf hb; simp; exact List.eq_nil_of_length_eq_zero (by omega)) hi' with
    ⟨m1, e1, i1, l1, r1⟩ | ⟨m1, q, s', e1, i1, s1, g1, lp, lq, k1, k2, k3, k4⟩
  · exact Or.inl ⟨m1, e1, by simpa [bmBlocks] using i1, l1, r1⟩
  · right
    have i2 : Owns F m1 (bmBlocks p (some q) rs ++ own) := by simpa [bmBlocks] using i1
    refine ⟨m1, q, e1, i2, s1.mono (by simp only [List.mem_append]; tauto), g1, ⟨lp, hs, ?_, by simp,
      holdsC_blocks_same h.conts (s1.mono (by simp only [List.mem_append]; tauto)), (List.nodup_append.1 i2.nodup).1⟩⟩
    intro q' hq'
    cases hq'
    refine ⟨s', lq, k1, k2, k3, ?_⟩
    cases hb : buf with
    | none =>
      have h0 : b.length = 0 := by have := h.nobuf hb; omega
      have hrs : rs = [] := by
        have := h.conts.length_eq
        exact List.eq_nil_of_length_eq_zero (by simpa [h0] using this)
      have hbn : b = [] := List.eq_nil_of_length_eq_zero h0
      subst hrs hbn
      simp
    | some q0 =>
      obtain ⟨s, h1, _, _, _, h5, h6, h7⟩ := h.slots q0 hb
      obtain ⟨c1, c2, c3⟩ := k4 q0 s hb h1
      exact ⟨c1.trans h5, c2.trans h6, c3.trans h7⟩

/-- `extend_array`, for one more container. -/
theorem extendA_spec {p : Nat} {b : Bitmap} {cow : Bool} {alloc : Nat} {buf : Option Nat} {rs : List CRec} (ok : Nat → Bool)
    (h : HoldsB m p b cow alloc buf rs) (hi : Owns F m (bmBlocks p buf rs ++ own)) (hb : b.length < 65536) :
    (∃ m', extendA ok p 1 m = some (false, m') ∧ Owns F m' (bmBlocks p buf rs ++ own) ∧ m'.live = m.live ∧ Refused ok m m' ∧ alloc = b.length) ∨
    (∃ m' alloc' q, extendA ok p 1 m = some (true, m') ∧ Owns F m' (bmBlocks p (some q) rs ++ own) ∧ Same own m m' ∧ Granted ok m m' ∧
      HoldsB m' p b cow alloc' (some q) rs ∧ b.length < alloc') := by
  have hroom := h.room
  rw [extendA, hdrA_eq h.hdr]
  simp only [Option.bind_eq_bind, Option.bind_some]
  by_cases hd : b.length + 1 > alloc
  · rw [if_pos hd]
    generalize hN : (if (if b.length < 1024 then 2 * (b.length + 1) else 5 * (b.length + 1) / 4) > 65536 then 65536
      else (if b.length < 1024 then 2 * (b.length + 1) else 5 * (b.length + 1) / 4)) = N
    have hNb : b.length + 1 ≤ N := by
      rw [← hN]
      split <;> (try split) <;> omega
    rcases reallocB_spec ok h hi (n := N) (by omega) (by omega) with ⟨m1, e1, i1, l1, r1⟩ | ⟨m1, q, e1, i1, s1, g1, h1⟩
    · exact Or.inl ⟨m1, e1, i1, l1, r1, by omega⟩
    · exact Or.inr ⟨m1, N, q, e1, i1, s1, g1, h1, by omega⟩
  · rw [if_neg hd]
    cases hbf : buf with
    | none => have := h.nobuf hbf; omega
    | some q =>
      subst hbf
      exact Or.inr ⟨m, alloc, q, rfl, hi, Same.refl _ _, Granted.refl _ _, h, by omega⟩

theorem insertAt_take {α β : Type} {xs : List α} {ys : List β} {f : β → α} {n i : Nat} {v : β} (h : xs.take n = ys.map f) (hn : n < xs.length) (hi : i ≤ n) :
    ∃ zs, insertAt xs n i (f v) = some zs ∧ zs.length = xs.length ∧ zs.take (n + 1) = (ys.take i ++ v :: ys.drop i).map f := by
  refine ⟨_, by rw [insertAt, if_pos ⟨hi, hn⟩], by simp; omega, ?_⟩
  have h1 : xs.take i = (ys.take i).map f := by
    have := congrArg (List.take i) h
    rwa [List.take_take, Nat.min_eq_left hi, ← List.map_take] at this
  have h2 : (xs.take n).drop i = (ys.drop i).map f := by
    rw [h, ← List.map_drop]
  rw [h1, h2]
  have hl : ys.length = n := by
    have := congrArg List.length h
    simp at this
    omega
  rw [show (List.take i ys).map f ++ f v :: ((ys.drop i).map f ++ xs.drop (n + 1)) = ((List.take i ys).map f ++ f v :: (ys.drop i).map f) ++ xs.drop (n + 1) by simp]
  rw [List.take_left' (by simp; omega)]
  simp

theorem insert_blocks (rs : List CRec) (r : CRec) (i : Nat) :
    ((rs.take i ++ r :: rs.drop i).flatMap CRec.blocks).Perm (r.blocks ++ rs.flatMap CRec.blocks) := by
  have h1 : (rs.take i ++ r :: rs.drop i).Perm (r :: rs) := by
    have := List.perm_middle (a := r) (l₁ := rs.take i) (l₂ := rs.drop i)
    rwa [List.take_append_drop] at this
  have := h1.flatMap_right CRec.blocks
  simpa using this

/-- The writes of `ra_insert_new_key_value_at` once there is room. -/
theorem insertRoom_spec {p q i key : Nat} {b : Bitmap} {cow : Bool} {alloc : Nat} {rs : List CRec} {r : CRec} {c : Container}
    (h : HoldsB m p b cow alloc (some q) rs) (hc : HoldsC m r c) (hi : Owns F m (bmBlocks p (some q) rs ++ (r.blocks ++ own)))
    (hr : b.length < alloc) (hib : i ≤ b.length) (x : Option Mem) (hx : x = (do
      let h ← hdrA m p
      let s ← slotsA m h
      let ks ← insertAt s.keys h.size i (some key)
      let cs ← insertAt s.conts h.size i (some (some r.addr))
      let ts ← insertAt s.types h.size i (some (typecode c))
      let m ← putSlotsA m h ⟨cs, ks, ts⟩
      some (m.set p (some (.bitmap { h with size := h.size + 1 }))))) :
    ∃ m', x = some m' ∧ HoldsB m' p (b.take i ++ (key, c) :: b.drop i) cow alloc (some q) (rs.take i ++ r :: rs.drop i) ∧
      Owns F m' (bmBlocks p (some q) (rs.take i ++ r :: rs.drop i) ++ own) ∧ Same own m m' ∧ m'.calls = m.calls := by
  obtain ⟨s, lq, k1, k2, k3, k4, k5, k6⟩ := h.slots q rfl
  obtain ⟨ks, a1, a2, a3⟩ := insertAt_take (v := ((key, c) : Nat × Container)) (i := i) k5 (by omega) hib
  obtain ⟨cs, b1, b2, b3⟩ := insertAt_take (v := r) (i := i) k4 (by omega) hib
  obtain ⟨ts, c1, c2, c3⟩ := insertAt_take (v := ((key, c) : Nat × Container)) (i := i) k6 (by omega) hib
  have hlen : (b.take i ++ (key, c) :: b.drop i).length = b.length + 1 := by simp; omega
  have hperm : (bmBlocks p (some q) rs ++ (r.blocks ++ own)).Perm (bmBlocks p (some q) (rs.take i ++ r :: rs.drop i) ++ own) := by
    have := (insert_blocks rs r i)
    rw [List.perm_iff_count] at this ⊢
    intro y
    have := this y
    simp only [bmBlocks, List.count_append, List.count_cons] at this ⊢
    omega
  have hnd2 := hperm.nodup hi.nodup
  have hnd3 := (List.nodup_append.1 hnd2).1
  have hpq : q ≠ p := fun e => (List.nodup_cons.1 h.nodup).1 (by simp [e])
  have hne : ∀ x ∈ (rs.take i ++ r :: rs.drop i).flatMap CRec.blocks, x ≠ p ∧ x ≠ q := by
    intro x hx
    rw [bmBlocks] at hnd3
    refine ⟨fun e => (List.nodup_cons.1 hnd3).1 ?_, fun e => (List.nodup_cons.1 (List.nodup_cons.1 hnd3).2).1 ?_⟩
    · rw [List.mem_append]; exact Or.inr (e ▸ hx)
    · exact e ▸ hx
  refine ⟨(m.set q (some (.slots ⟨cs, ks, ts⟩))).set p (some (.bitmap ⟨b.length + 1, alloc, some q, cow⟩)), ?_, ⟨?_, ?_, ?_, by simp, ?_, hnd3⟩, ?_, ?_, rfl⟩
  · rw [hx, hdrA_eq h.hdr]
    simp only [Option.bind_eq_bind, Option.bind_some, slotsA_eq (h := ⟨b.length, alloc, some q, cow⟩) rfl lq, a1, b1, c1,
      putSlotsA_eq (h := ⟨b.length, alloc, some q, cow⟩) rfl]
  · rw [set_live_eq, hlen]
  · omega
  · intro q' hq'
    cases hq'
    refine ⟨⟨cs, ks, ts⟩, by rw [set_live_ne _ _ hpq, set_live_eq], b2.trans k1, a2.trans k2, c2.trans k3, ?_, ?_, ?_⟩
    · rw [hlen, b3]
    · rw [hlen, a3]
    · rw [hlen, c3]
  · have hsame : Same ((rs.take i ++ r :: rs.drop i).flatMap CRec.blocks) m ((m.set q (some (.slots ⟨cs, ks, ts⟩))).set p (some (.bitmap ⟨b.length + 1, alloc, some q, cow⟩))) :=
      fun x hx => by rw [set_live_ne _ _ (hne x hx).1, set_live_ne _ _ (hne x hx).2]
    refine holdsC_blocks_same ?_ hsame
    rw [List.map_append, List.map_cons, List.map_take, List.map_drop]
    exact forall₂_append (List.forall₂_take i h.conts) (.cons hc (List.forall₂_drop i h.conts))
  · exact ((hi.perm hperm).set (a := q) (by simp [bmBlocks]) _).set (a := p) (by simp [bmBlocks]) _
  · intro x hx
    have h2 := (List.nodup_append.1 hnd2).2.2
    rw [set_live_ne _ _ (show x ≠ p from fun e => h2 p (by simp [bmBlocks]) x hx e.symm), set_live_ne _ _ (show x ≠ q from fun e => h2 q (by simp [bmBlocks]) x hx e.symm)]

theorem insertAt_none {α : Type} {xs : List α} {n i : Nat} {v : α} (h : xs.length ≤ n) : insertAt xs n i v = none := by
  rw [insertAt, if_neg (by omega)]

/-- `ra_insert_new_key_value_at`: with room, or when the request is granted, the container is in its place; otherwise
the arrays are written outside of their bounds. -/
theorem insertKeyA_spec {p i key : Nat} {b : Bitmap} {cow : Bool} {alloc : Nat} {buf : Option Nat} {rs : List CRec} {r : CRec} {c : Container}
    (ok : Nat → Bool) (h : HoldsB m p b cow alloc buf rs) (hc : HoldsC m r c) (hi : Owns F m (bmBlocks p buf rs ++ (r.blocks ++ own)))
    (hb : b.length < 65536) (hib : i ≤ b.length) :
    (insertKeyA ok p i key (some r.addr) (typecode c) m = none ∧ alloc = b.length ∧ ok m.calls = false) ∨
    (∃ m' alloc' q, insertKeyA ok p i key (some r.addr) (typecode c) m = some m' ∧ (alloc = b.length → ok m.calls = true) ∧
      HoldsB m' p (b.take i ++ (key, c) :: b.drop i) cow alloc' (some q) (rs.take i ++ r :: rs.drop i) ∧
      Owns F m' (bmBlocks p (some q) (rs.take i ++ r :: rs.drop i) ++ own) ∧ Same own m m' ∧ Granted ok m m') := by
  have hroom := h.room
  rcases extendA_spec ok h hi hb with ⟨m1, e1, i1, l1, r1, ha⟩ | ⟨m1, A, q, e1, i1, s1, g1, h1, hA⟩
  · left
    refine ⟨?_, ha, ?_⟩
    · rw [insertKeyA, e1]
      simp only [Option.bind_eq_bind, Option.bind_some, hdrA_eq (show m1.live p = _ from by rw [l1]; exact h.hdr)]
      cases hbf : buf with
      | none => rfl
      | some q =>
        obtain ⟨s, lq, k1, k2, k3, _⟩ := h.slots q hbf
        rw [slotsA_eq (h := ⟨b.length, alloc, some q, cow⟩) rfl (by rw [l1]; exact lq)]
        simp only [Option.bind_some, insertAt_none (v := some key) (show s.keys.length ≤ b.length by omega)]
        rfl
    · rw [extendA, hdrA_eq h.hdr] at e1
      simp only [Option.bind_eq_bind, Option.bind_some, if_pos (show b.length + 1 > alloc by omega)] at e1
      exact (reallocArrayA_flag e1 (by split <;> (try split) <;> omega)).symm
  · right
    have hc1 : HoldsC m1 r c := holdsC_congr hc (s1.mono (by simp; tauto))
    obtain ⟨m2, e2, h2, i2, s2, c2⟩ := insertRoom_spec (key := key) h1 hc1 i1 hA hib _ rfl
    refine ⟨m2, A, q, ?_, ?_, h2, i2, (s1.mono (by simp; tauto)).trans s2, g1.congr c2⟩
    · rw [insertKeyA, e1]
      exact e2
    · intro ha
      rw [extendA, hdrA_eq h.hdr] at e1
      simp only [Option.bind_eq_bind, Option.bind_some, if_pos (show b.length + 1 > alloc by omega)] at e1
      exact (reallocArrayA_flag e1 (by split <;> (try split) <;> omega)).symm

theorem putAt_none {α : Type} {xs : List α} {i : Nat} {v : α} (h : xs.length ≤ i) : putAt xs i v = none := by
  rw [putAt, if_neg (by omega)]

/-- Appending is inserting at the end. -/
theorem appendKeyA_eq {p key : Nat} {b : Bitmap} {cow : Bool} {alloc : Nat} {buf : Option Nat} {rs : List CRec} {r : CRec} {c : Container}
    (ok : Nat → Bool) (h : HoldsB m p b cow alloc buf rs) (hi : Owns F m (bmBlocks p buf rs ++ own)) (hb : b.length < 65536) :
    appendKeyA ok p key (some r.addr) (typecode c) m = insertKeyA ok p b.length key (some r.addr) (typecode c) m := by
  have main : ∀ {α : Type} (xs : List α) (n : Nat) (v : α), putAt xs n v = insertAt xs n n v := by
    intro α xs n v
    rw [putAt, insertAt]
    by_cases hn : n < xs.length
    · rw [if_pos hn, if_pos ⟨Nat.le_refl _, hn⟩, List.set_eq_take_append_cons_drop, if_pos hn]
      simp
    · rw [if_neg hn, if_neg (by omega)]
  have hsz : ∀ x, extendA ok p 1 m = some x → ∃ h', hdrA x.2 p = some h' ∧ h'.size = b.length := by
    intro x hx
    rcases extendA_spec ok h hi hb with ⟨m1, e1, i1, l1, r1, ha⟩ | ⟨m1, A, q, e1, i1, s1, g1, h1, hA⟩
    · rw [e1] at hx
      cases hx
      exact ⟨_, hdrA_eq (by rw [l1]; exact h.hdr), rfl⟩
    · rw [e1] at hx
      cases hx
      exact ⟨_, hdrA_eq h1.hdr, rfl⟩
  rw [appendKeyA, insertKeyA]
  cases he : extendA ok p 1 m with
  | none => rfl
  | some x =>
    obtain ⟨h', e1, e2⟩ := hsz x he
    simp only [Option.bind_eq_bind, Option.bind_some, e1, main, e2]

/-- `ra_shrink_to_fit`. -/
theorem raShrinkA_spec {p : Nat} {b : Bitmap} {cow : Bool} {alloc : Nat} {buf : Option Nat} {rs : List CRec} (ok : Nat → Bool)
    (h : HoldsB m p b cow alloc buf rs) (hi : Owns F m (bmBlocks p buf rs ++ own)) :
    (∃ m', raShrinkA ok p m = some (0, m') ∧ m'.live = m.live ∧ Owns F m' (bmBlocks p buf rs ++ own) ∧ Refused ok m m') ∨
    (∃ m' buf', raShrinkA ok p m = some (alloc - b.length, m') ∧ HoldsB m' p b cow b.length buf' rs ∧ Same own m m' ∧ Granted ok m m' ∧
      Owns F m' (bmBlocks p buf' rs ++ own)) := by
  by_cases h0 : b.length = 0
  · right
    have hbn : b = [] := List.eq_nil_of_length_eq_zero h0
    have hrs : rs = [] := by
      have := h.conts.length_eq
      exact List.eq_nil_of_length_eq_zero (by simpa [h0] using this)
    subst hbn hrs
    have hi' : Owns F m (p :: (buf.toList ++ own)) := by simpa [bmBlocks] using hi
    obtain ⟨m1, e1, i1, s1, l1, c1⟩ : ∃ m1, mfree buf m = some m1 ∧ Owns F m1 (p :: own) ∧ Same own m m1 ∧ m1.live p = m.live p ∧ m1.calls = m.calls := by
      cases hbf : buf with
      | none => rw [hbf] at hi'; exact ⟨m, rfl, by simpa using hi', Same.refl _ _, rfl, rfl⟩
      | some q =>
        obtain ⟨s, lq, _⟩ := h.slots q hbf
        rw [hbf] at hi'
        have hi2 := hi'.perm (own' := q :: p :: own) (by perm_tac)
        have hnd := (List.nodup_cons.1 hi2.nodup).1
        refine ⟨_, mfree_some lq, hi2.free, fun x hx => set_live_ne _ _ (fun e => hnd (by simp [← e, hx])), set_live_ne _ _ (fun e => hnd (by simp [e])), rfl⟩
    refine ⟨(m1.set p (some (.bitmap ⟨0, 0, none, cow⟩))).set p (some (.bitmap ⟨0, 0, none, cow⟩)), none, ?_, ?_, ?_, (Granted.refl ok m).congr c1, ?_⟩
    · rw [raShrinkA, hdrA_eq h.hdr]
      simp only [Option.bind_eq_bind, Option.bind_some, List.length_nil, reallocArrayA, hdrA_eq h.hdr, if_true, e1]
      simp only [Bool.not_true, Bool.false_eq_true, if_false, hdrA_eq (set_live_eq m1 p _), Option.bind_some]
    · exact holdsB_empty (set_live_eq _ _ _) (by simp) (by simp)
    · intro x hx
      have hne : x ≠ p := fun e => (List.nodup_cons.1 i1.nodup).1 (e ▸ hx)
      rw [set_live_ne _ _ hne, set_live_ne _ _ hne]
      exact s1 x hx
    · simpa [bmBlocks] using (i1.set (a := p) (by simp) _).set (a := p) (by simp) _
  · rcases reallocB_spec ok h hi (n := b.length) h0 (Nat.le_refl _) with ⟨m1, e1, i1, l1, r1⟩ | ⟨m1, q, e1, i1, s1, g1, h1⟩
    · left
      refine ⟨m1, ?_, l1, i1, r1⟩
      rw [raShrinkA, hdrA_eq h.hdr]
      simp [e1]
    · right
      refine ⟨m1.set p (some (.bitmap ⟨b.length, b.length, some q, cow⟩)), some q, ?_, holdsB_cow h1, ?_, g1.congr rfl, i1.set (by simp [bmBlocks]) _⟩
      · rw [raShrinkA, hdrA_eq h.hdr]
        simp [e1, hdrA_eq h1.hdr]
      · intro x hx
        have hne : x ≠ p := fun e => (List.nodup_append.1 i1.nodup).2.2 p (by simp [bmBlocks]) x hx e.symm
        rw [set_live_ne _ _ hne]
        exact s1 x hx

end CRoaring
