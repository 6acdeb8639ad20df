import Verif.Lemmas.Alloc2

set_option linter.unusedSimpArgs false
set_option linter.unusedVariables false

/-! Overwriting and copying bitmaps when requests for memory may be refused. -/

namespace CRoaring

variable {F : Nat → Option MBlk} {m m1 m2 m' base : Mem} {own own' : List Nat} {ok : Nat → Bool}

theorem clearContainersA_spec {p : Nat} {b : Bitmap} {cow : Bool} {alloc : Nat} {buf : Option Nat} {rs : List CRec}
    (h : HoldsB m p b cow alloc buf rs) (hi : Owns F m (bmBlocks p buf rs ++ own)) :
    ∃ m', clearContainersA p m = some m' ∧ Owns F m' (p :: (buf.toList ++ own)) ∧ Same (p :: (buf.toList ++ own)) m m' ∧
      m'.calls = m.calls := by
  have hi1 : Owns F m (rs.flatMap CRec.blocks ++ (p :: (buf.toList ++ own))) := hi.perm (by rw [bmBlocks]; perm_tac)
  obtain ⟨m1, e1, i1, s1, c1⟩ := clearLoopA_spec p rs (b.map (·.2)) 0 m hi1 h.conts
    (fun j r c hr hc m' hm' => by
      rw [Nat.zero_add]
      exact holdsB_slot h (hm'.mono (by simp; tauto)) hr hc)
  have hlen : rs.length = b.length := by have := h.conts.length_eq; simpa using this
  refine ⟨m1, ?_, i1, s1, c1⟩
  rw [clearContainersA, hdrA_eq h.hdr]
  simp only [Option.bind_eq_bind, Option.bind_some]
  rw [← hlen, e1]

/-- The array gets new places, or nothing happens. -/
theorem reallocArrayA_spec {p n : Nat} {h : RaHdr} (ok : Nat → Bool) (h1 : m.live p = some (.bitmap h)) (hn : n ≠ 0) (hs : h.size ≤ n)
    (hq : ∀ q, h.buf = some q → ∃ s, m.live q = some (.slots s) ∧ h.size ≤ s.conts.length ∧ h.size ≤ s.keys.length ∧ h.size ≤ s.types.length)
    (h0 : h.buf = none → h.size = 0) (hi : Owns F m (p :: (h.buf.toList ++ own))) :
    (∃ m', reallocArrayA ok p n m = some (false, m') ∧ Owns F m' (p :: (h.buf.toList ++ own)) ∧ m'.live = m.live ∧ Refused ok m m') ∨
    (∃ m' q s', reallocArrayA ok p n m = some (true, m') ∧ Owns F m' (p :: q :: own) ∧ Same own m m' ∧ Granted ok m m' ∧
      m'.live p = some (.bitmap { h with buf := some q, alloc := n }) ∧ m'.live q = some (.slots s') ∧
      s'.conts.length = n ∧ s'.keys.length = n ∧ s'.types.length = n ∧
      ∀ q0 s, h.buf = some q0 → m.live q0 = some (.slots s) → s'.conts.take h.size = s.conts.take h.size ∧
        s'.keys.take h.size = s.keys.take h.size ∧ s'.types.take h.size = s.types.take h.size) := by
  rcases malloc_cases hi ok (.slots (freshSlots n)) with ⟨m1, e1, i1, l1, r1⟩ | ⟨m1, e1, i1, l1, o1, s1, g1⟩
  · left
    refine ⟨m1, ?_, i1, l1, r1⟩
    rw [reallocArrayA, hdrA_eq h1]
    simp [hn, e1]
  · right
    generalize hqq : m.next = q at *
    have hpown : p ∉ own := fun w => (List.nodup_cons.1 hi.nodup).1 (by simp [w])
    have hqp : q ≠ p := fun e => (List.nodup_cons.1 i1.nodup).1 (by simp [e])
    have hqown : ∀ x ∈ own, x ≠ q := fun x hx e => (List.nodup_cons.1 i1.nodup).1 (by simp [← e, hx])
    have lp : m1.live p = some (.bitmap h) := by rw [o1 p (Ne.symm hqp), h1]
    have hpo : ∀ x ∈ own, x ≠ p := fun x hx e => hpown (e ▸ hx)
    -- the memory after the writes and the release of the old arrays
    have key : ∀ s' : SlotBuf, ∃ m', (mfree h.buf ((m1.set q (some (.slots s'))).set p (some (.bitmap { h with buf := some q, alloc := n })))) = some m' ∧
        Owns F m' (p :: q :: own) ∧ Same own m m' ∧ Granted ok m m' ∧
        m'.live p = some (.bitmap { h with buf := some q, alloc := n }) ∧ m'.live q = some (.slots s') := by
      intro s'
      have i2 := (i1.set (a := q) (by simp) (some (.slots s'))).set (a := p) (by simp) (some (.bitmap { h with buf := some q, alloc := n }))
      have sm : Same own m ((m1.set q (some (.slots s'))).set p (some (.bitmap { h with buf := some q, alloc := n }))) := by
        intro x hx
        rw [set_live_ne _ _ (hpo x hx), set_live_ne _ _ (hqown x hx)]
        exact s1 x (by simp [hx])
      cases hb : h.buf with
      | none =>
        rw [hb] at i2
        exact ⟨_, rfl, i2.perm (by perm_tac), sm, g1.congr rfl, set_live_eq _ _ _, by rw [set_live_ne _ _ hqp, set_live_eq]⟩
      | some q0 =>
        obtain ⟨s, ls, _⟩ := hq q0 hb
        rw [hb] at i2 i1
        have hnd := (List.nodup_cons.1 (i1.perm (own' := q0 :: q :: p :: own) (by perm_tac)).nodup).1
        have h3 : q0 ≠ q := fun e => hnd (by simp [e])
        have h4 : q0 ≠ p := fun e => hnd (by simp [e])
        have h5 : ∀ x ∈ own, x ≠ q0 := fun x hx e => hnd (by simp [← e, hx])
        have l0 : ((m1.set q (some (.slots s'))).set p (some (.bitmap { h with buf := some q, alloc := n }))).live q0 = some (.slots s) := by
          rw [set_live_ne _ _ h4, set_live_ne _ _ h3, o1 q0 h3, ls]
        have i3 := (i2.perm (own' := q0 :: p :: q :: own) (by perm_tac)).free
        rw [← hb]
        rw [hb, mfree_some l0]
        refine ⟨_, rfl, i3, ?_, g1.congr rfl, ?_, ?_⟩
        · intro x hx
          rw [set_live_ne _ _ (h5 x hx)]
          exact sm x hx
        · rw [set_live_ne _ _ (Ne.symm h4), set_live_eq]
        · rw [set_live_ne _ _ (Ne.symm h3), set_live_ne _ _ hqp, set_live_eq]
    by_cases hz : h.size > 0
    · cases hb : h.buf with
      | none => have := h0 hb; omega
      | some q0 =>
        obtain ⟨s, ls, k1, k2, k3⟩ := hq q0 hb
        have h3 : q0 ≠ q := fun e => (List.nodup_cons.1 i1.nodup).1 (by simp [← e, hb])
        have l0 : m1.live q0 = some (.slots s) := by rw [o1 q0 h3, ls]
        have c1 : copyN (freshSlots n).conts s.conts h.size = some (s.conts.take h.size ++ (freshSlots n).conts.drop h.size) :=
          copyN_eq k1 (by simpa [freshSlots] using hs)
        have c2 : copyN (freshSlots n).keys s.keys h.size = some (s.keys.take h.size ++ (freshSlots n).keys.drop h.size) :=
          copyN_eq k2 (by simpa [freshSlots] using hs)
        have c3 : copyN (freshSlots n).types s.types h.size = some (s.types.take h.size ++ (freshSlots n).types.drop h.size) :=
          copyN_eq k3 (by simpa [freshSlots] using hs)
        obtain ⟨m', e', i', s', g', l', l''⟩ := key ⟨s.conts.take h.size ++ (freshSlots n).conts.drop h.size,
          s.keys.take h.size ++ (freshSlots n).keys.drop h.size, s.types.take h.size ++ (freshSlots n).types.drop h.size⟩
        refine ⟨m', q, _, ?_, i', s', g', l', l'', ?_, ?_, ?_, ?_⟩
        · rw [reallocArrayA, hdrA_eq h1]
          simp only [Option.bind_eq_bind, Option.bind_some, hn, if_false, e1, hz, if_true, slotsA_eq hb l0, c1, c2, c3, e']
        · simp [freshSlots]; omega
        · simp [freshSlots]; omega
        · simp [freshSlots]; omega
        · intro q1 s1' hq1 ls1
          cases hq1
          rw [ls] at ls1
          cases ls1
          refine ⟨?_, ?_, ?_⟩ <;> exact List.take_left' (by simp; omega)
    · obtain ⟨m', e', i', s', g', l', l''⟩ := key (freshSlots n)
      have heq : (m1.set q (some (MBlk.slots (freshSlots n)))).set p (some (.bitmap { h with buf := some q, alloc := n })) =
          m1.set p (some (.bitmap { h with buf := some q, alloc := n })) := by
        have : m1.set q (some (MBlk.slots (freshSlots n))) = m1 := by
          rw [Mem.set]
          congr 1
          funext x
          split
          · next e => rw [e, l1]
          · rfl
        rw [this]
      rw [heq] at e'
      refine ⟨m', q, _, ?_, i', s', g', l', l'', by simp [freshSlots], by simp [freshSlots], by simp [freshSlots], ?_⟩
      · rw [reallocArrayA, hdrA_eq h1]
        simp only [Option.bind_eq_bind, Option.bind_some, hn, if_false, e1, hz, e']
      · intro q0 s hb ls
        rw [show h.size = 0 by omega]
        simp

theorem reallocArrayA_flag {p n : Nat} {b : Bool} (h : reallocArrayA ok p n m = some (b, m')) (hn : n ≠ 0) : b = ok m.calls := by
  rw [reallocArrayA] at h
  obtain ⟨hd, h1, h2⟩ := Option.bind_eq_some_iff.1 h
  rw [if_neg hn, malloc] at h2
  cases hok : ok m.calls with
  | false =>
    simp only [hok, Bool.false_eq_true, if_false, Option.some.injEq, Prod.mk.injEq] at h2
    exact h2.1.symm
  | true =>
    simp only [hok, if_true, Option.bind_eq_bind] at h2
    split at h2
    · obtain ⟨_, _, h2⟩ := Option.bind_eq_some_iff.1 h2
      obtain ⟨_, _, h2⟩ := Option.bind_eq_some_iff.1 h2
      obtain ⟨_, _, h2⟩ := Option.bind_eq_some_iff.1 h2
      obtain ⟨_, _, h2⟩ := Option.bind_eq_some_iff.1 h2
      obtain ⟨_, _, h2⟩ := Option.bind_eq_some_iff.1 h2
      simp only [Option.some.injEq, Prod.mk.injEq] at h2
      exact h2.1.symm
    · obtain ⟨_, _, h2⟩ := Option.bind_eq_some_iff.1 h2
      simp only [Option.some.injEq, Prod.mk.injEq] at h2
      exact h2.1.symm

/-- The part of `ra_overwrite` after the array has enough places. -/
theorem overwriteTail_spec {src dest q : Nat} {b : Bitmap} {cowS : Bool} {allocS : Nat} {bufS : Option Nat} {rsS : List CRec}
    (hsrc : HoldsB base src b cowS allocS bufS rsS) (ok : Nat → Bool) {hd : RaHdr} (hq : hd.buf = some q) {s : SlotBuf}
    (hb0 : b.length ≠ 0) (hz : hd.size = b.length) (hi : Owns base.live m (dest :: q :: own)) (h1 : m.live dest = some (.bitmap hd))
    (h2 : m.live q = some (.slots s)) (hA : b.length ≤ hd.alloc) (l1 : s.conts.length = hd.alloc) (l2 : s.keys.length = hd.alloc)
    (l3 : s.types.length = hd.alloc) (x : Option (Bool × Mem))
    (hx : x = (do
      let ss ← slotsA m ⟨b.length, allocS, bufS, cowS⟩
      let sd ← slotsA m hd
      let ks ← copyN sd.keys ss.keys hd.size
      let m ← putSlotsA m hd { sd with keys := ks }
      let ss ← slotsA m ⟨b.length, allocS, bufS, cowS⟩
      let sd ← slotsA m hd
      let ts ← copyN sd.types ss.types hd.size
      let m ← putSlotsA m hd { sd with types := ts }
      cloneLoopA ok src dest hd.size 0 m)) :
    (∃ m', x = some (false, m') ∧ Owns base.live m' (dest :: own) ∧ Same own m m' ∧
      m'.live dest = some (.bitmap ⟨0, 0, none, hd.cow⟩) ∧ Refused ok m m') ∨
    (∃ m' rs, x = some (true, m') ∧ Owns base.live m' (bmBlocks dest (some q) rs ++ own) ∧ Same own m m' ∧ Granted ok m m' ∧
      HoldsB m' dest b hd.cow hd.alloc (some q) rs) := by
  cases hbS : bufS with
  | none => have := hsrc.nobuf hbS; have := hsrc.room; omega
  | some qs =>
    obtain ⟨ss, t1, t2, t3, t4, t5, t6, t7⟩ := hsrc.slots qs hbS
    subst hbS
    have hroom := hsrc.room
    have hqs : base.live qs ≠ none := by rw [t1]; simp
    have hqsq : qs ≠ q := fun e => hqs (e ▸ (hi.priv q (by simp)).1)
    have hdq : dest ≠ q := fun e => (List.nodup_cons.1 hi.nodup).1 (by simp [e])
    have l0 : m.live qs = some (.slots ss) := by rw [hi.keep hqs, t1]
    have c1 : copyN s.keys ss.keys hd.size = some (ss.keys.take hd.size ++ s.keys.drop hd.size) := copyN_eq (by omega) (by omega)
    have c2 : copyN s.types ss.types hd.size = some (ss.types.take hd.size ++ s.types.drop hd.size) := copyN_eq (by omega) (by omega)
    have e0 : x = cloneLoopA ok src dest hd.size 0 (m.set q (some (.slots ⟨s.conts, ss.keys.take hd.size ++ s.keys.drop hd.size, ss.types.take hd.size ++ s.types.drop hd.size⟩))) := by
      have l4 : (m.set q (some (.slots { s with keys := ss.keys.take hd.size ++ s.keys.drop hd.size }))).live qs = some (.slots ss) := by
        rw [set_live_ne _ _ hqsq, l0]
      rw [hx]
      simp only [slotsA_eq (h := ⟨b.length, allocS, some qs, cowS⟩) rfl l0, slotsA_eq hq h2, Option.bind_eq_bind, Option.bind_some, c1, putSlotsA_eq hq,
        slotsA_eq (h := ⟨b.length, allocS, some qs, cowS⟩) rfl l4, slotsA_eq hq (set_live_eq m q _), c2]
      congr 1
      simp only [Mem.set]
      congr 1
      funext y
      split <;> simp_all
    have i1 := hi.set (a := q) (by simp) (some (.slots ⟨s.conts, ss.keys.take hd.size ++ s.keys.drop hd.size, ss.types.take hd.size ++ s.types.drop hd.size⟩))
    have sm : Same own m (m.set q (some (.slots ⟨s.conts, ss.keys.take hd.size ++ s.keys.drop hd.size, ss.types.take hd.size ++ s.types.drop hd.size⟩))) := by
      intro y hy
      refine set_live_ne _ _ (fun e => ?_)
      have := (List.nodup_cons.1 (List.nodup_cons.1 hi.nodup).2).1
      exact this (e ▸ hy)
    rcases cloneLoopA_spec hsrc ok hd hq b.length 0 _ [] _ (by omega) (by simpa using i1) (by rw [set_live_ne _ _ hdq, h1]) (set_live_eq _ _ _)
        (by simp; omega) (by simp only; rw [List.take_left' (by simp; omega), hz, t7]) (by simp) (by simp) with
      ⟨m', a1, a2, a3, a4, a5⟩ | ⟨m', rs, s', a1, a2, a3, a4, a5, a6, a7, a8, a9, a10, a11⟩
    · left
      rw [e0, hz]
      rw [hz] at a1
      refine ⟨m', a1, a2, ?_, a4, ?_⟩
      · rw [hz] at sm
        rw [hz] at a3
        exact sm.trans a3
      · exact a5
    · right
      rw [e0, hz]
      rw [hz] at a1 a3
      have hnd : (dest :: (q :: rs.flatMap CRec.blocks)).Nodup := (List.nodup_append.1 a2.nodup).1
      refine ⟨m', rs, a1, a2, ?_, a4, ⟨?_, hA, ?_, by simp, a11, hnd⟩⟩
      · rw [hz] at sm
        exact sm.trans a3
      · rw [a5, ← hz, ← hq]
      · intro q' hq'
        cases hq'
        refine ⟨s', a6, by rw [a9]; exact l1, ?_, ?_, a10, ?_, ?_⟩
        · rw [a7]; simp; omega
        · rw [a8]; simp; omega
        · rw [a7]
          simp only
          rw [List.take_left' (by simp; omega), hz, t6]
        · rw [a8]
          simp only
          rw [List.take_left' (by simp; omega), hz, t7]

/-- `ra_overwrite` without copy-on-write. -/
theorem raOverwriteA_spec {src dest : Nat} {b bd : Bitmap} {cowS cow : Bool} {allocS alloc : Nat} {bufS buf : Option Nat} {rsS rsD : List CRec}
    (hsrc : HoldsB base src b cowS allocS bufS rsS) (ok : Nat → Bool) (hdst : HoldsB m dest bd cow alloc buf rsD)
    (hi : Owns base.live m (bmBlocks dest buf rsD ++ own)) :
    (∃ m', raOverwriteA ok src dest false m = some (false, m') ∧ Owns base.live m' (dest :: own) ∧ Same own m m' ∧
      m'.live dest = some (.bitmap ⟨0, 0, none, cow⟩) ∧ Refused ok m m' ∧ (alloc < b.length → ok m.calls = true)) ∨
    (∃ m' buf' alloc' rs, raOverwriteA ok src dest false m = some (true, m') ∧ Owns base.live m' (bmBlocks dest buf' rs ++ own) ∧
      Same own m m' ∧ Granted ok m m' ∧ HoldsB m' dest b cow alloc' buf' rs ∧ (alloc < b.length → ok m.calls = true)) ∨
    (∃ m', raOverwriteA ok src dest false m = some (false, m') ∧ alloc < b.length ∧ Owns base.live m' (dest :: (buf.toList ++ own)) ∧ Same own m m' ∧
      m'.live dest = some (.bitmap ⟨bd.length, alloc, buf, cow⟩) ∧ Refused ok m m' ∧ ok m.calls = false) := by
  obtain ⟨m1, e1, i1, s1, c1⟩ := clearContainersA_spec hdst hi
  have hs1 : m1.live src = some (.bitmap ⟨b.length, allocS, bufS, cowS⟩) := by rw [i1.keep (by rw [hsrc.hdr]; simp), hsrc.hdr]
  have hd1 : m1.live dest = some (.bitmap ⟨bd.length, alloc, buf, cow⟩) := by rw [s1 dest (by simp), hdst.hdr]
  have s1' : Same own m m1 := s1.mono (by simp; tauto)
  have g1 : Granted ok m m1 := (Granted.refl ok m).congr c1
  have hdown : ∀ x ∈ own, x ≠ dest := fun x hx e => (List.nodup_cons.1 i1.nodup).1 (by simp [← e, hx])
  by_cases hb0 : b.length = 0
  · right; left
    have hb : b = [] := List.eq_nil_of_length_eq_zero hb0
    subst hb
    refine ⟨m1.set dest (some (.bitmap ⟨0, alloc, buf, cow⟩)), buf, alloc, [], ?_, ?_, ?_, g1.congr rfl, ?_, by simp⟩
    · rw [raOverwriteA, e1]
      simp [hdrA_eq hs1, hdrA_eq hd1]
    · simpa [bmBlocks] using i1.set (a := dest) (by simp) _
    · intro x hx
      rw [set_live_ne _ _ (hdown x hx)]
      exact s1' x hx
    · refine ⟨set_live_eq _ _ _, by simp, ?_, hdst.nobuf, by simp, ?_⟩
      · intro q hq
        obtain ⟨s, h1, h2, h3, h4, _⟩ := hdst.slots q hq
        have : q ≠ dest := fun e => (List.nodup_cons.1 hdst.nodup).1 (by simp [hq, e])
        exact ⟨s, by rw [set_live_ne _ _ this, s1 q (by simp [hq]), h1], h2, h3, h4, by simp, by simp, by simp⟩
      · have := hdst.nodup
        rw [List.nodup_cons] at this ⊢
        refine ⟨fun w => this.1 (by simp at w ⊢; exact Or.inl w), ?_⟩
        simpa using (List.nodup_append.1 this.2).1
  · -- the arrays are large enough, or new ones are requested
    have main : ∀ (m2 : Mem) (q A : Nat) (sd : SlotBuf) (sz : Nat), (alloc < b.length → ok m.calls = true) → Owns base.live m2 (dest :: q :: own) → Same own m m2 → Granted ok m m2 →
        m2.live dest = some (.bitmap ⟨sz, A, some q, cow⟩) → m2.live q = some (.slots sd) → b.length ≤ A → sd.conts.length = A →
        sd.keys.length = A → sd.types.length = A →
        raOverwriteA ok src dest false m = (do
          let hd ← hdrA m2 dest
          let hd := { hd with size := b.length }
          let m := m2.set dest (some (.bitmap hd))
          let ss ← slotsA m ⟨b.length, allocS, bufS, cowS⟩
          let sd ← slotsA m hd
          let ks ← copyN sd.keys ss.keys hd.size
          let m ← putSlotsA m hd { sd with keys := ks }
          let ss ← slotsA m ⟨b.length, allocS, bufS, cowS⟩
          let sd ← slotsA m hd
          let ts ← copyN sd.types ss.types hd.size
          let m ← putSlotsA m hd { sd with types := ts }
          cloneLoopA ok src dest hd.size 0 m) →
        (∃ m', raOverwriteA ok src dest false m = some (false, m') ∧ Owns base.live m' (dest :: own) ∧ Same own m m' ∧
          m'.live dest = some (.bitmap ⟨0, 0, none, cow⟩) ∧ Refused ok m m' ∧ (alloc < b.length → ok m.calls = true)) ∨
        (∃ m' buf' alloc' rs, raOverwriteA ok src dest false m = some (true, m') ∧ Owns base.live m' (bmBlocks dest buf' rs ++ own) ∧
          Same own m m' ∧ Granted ok m m' ∧ HoldsB m' dest b cow alloc' buf' rs ∧ (alloc < b.length → ok m.calls = true)) := by
      intro m2 q A sd sz hok i2 s2 g2 ld lq hA k1 k2 k3 heq
      have hqd : q ≠ dest := fun e => (List.nodup_cons.1 i2.nodup).1 (by simp [e])
      have s3 : Same own m (m2.set dest (some (.bitmap ⟨b.length, A, some q, cow⟩))) := by
        intro x hx
        rw [set_live_ne _ _ (hdown x hx)]
        exact s2 x hx
      rw [hdrA_eq ld] at heq
      rcases overwriteTail_spec hsrc ok (hd := ⟨b.length, A, some q, cow⟩) rfl hb0 rfl (i2.set (a := dest) (by simp) _) (set_live_eq _ _ _)
        (by rw [set_live_ne _ _ hqd]; exact lq) hA k1 k2 k3 (raOverwriteA ok src dest false m) heq with
        ⟨m', a1, a2, a3, a4, a5⟩ | ⟨m', rs, a1, a2, a3, a4, a5⟩
      · exact Or.inl ⟨m', a1, a2, s3.trans a3, a4, (g2.congr rfl : Granted ok m (m2.set dest _)).refused a5, hok⟩
      · exact Or.inr ⟨m', some q, A, rs, a1, a2, s3.trans a3, (g2.congr rfl : Granted ok m (m2.set dest _)).trans a4, a5, hok⟩
    by_cases hlt : alloc < b.length
    · rcases reallocArrayA_spec (h := ⟨bd.length, alloc, buf, cow⟩) (n := b.length) ok hd1 hb0 (by have := hdst.room; simp; omega)
        (fun q hq => by
          obtain ⟨s, h1, h2, h3, h4, _⟩ := hdst.slots q hq
          have := hdst.room
          exact ⟨s, by rw [s1 q (by simp only [List.mem_cons, List.mem_append, Option.mem_toList, Option.mem_def]; exact Or.inr (Or.inl hq)), h1], by simp; omega, by simp; omega, by simp; omega⟩)
        (fun hn => by have := hdst.nobuf hn; have := hdst.room; simp; exact List.eq_nil_of_length_eq_zero (by omega)) i1 with
        ⟨m2, e2, i2, l2, r2⟩ | ⟨m2, q, s', e2, i2, s2, g2, ld, lq, k1, k2, k3, _⟩
      · right; right
        refine ⟨m2, ?_, hlt, i2, fun x hx => by rw [l2]; exact s1' x hx, by rw [l2, hd1], g1.refused r2, by rw [← c1]; exact (reallocArrayA_flag e2 hb0).symm⟩
        rw [raOverwriteA, e1]
        simp only [Option.bind_eq_bind, Option.bind_some, hdrA_eq hs1, hdrA_eq hd1, hb0, if_false, hlt, if_true, e2]
        rfl
      · have := main m2 q b.length s' bd.length (fun _ => by rw [← c1]; exact (reallocArrayA_flag e2 hb0).symm) i2 (s1'.trans s2) (g1.trans g2) ld lq (Nat.le_refl _) k1 k2 k3 (by
          rw [raOverwriteA, e1]
          simp only [Option.bind_eq_bind, Option.bind_some, hdrA_eq hs1, hdrA_eq hd1, hb0, if_false, hlt, if_true, e2]
          rfl)
        exact this.elim Or.inl (fun w => Or.inr (Or.inl w))
    · cases hb : buf with
      | none => have := hdst.nobuf hb; omega
      | some q =>
        obtain ⟨s, h1, h2, h3, h4, _⟩ := hdst.slots q hb
        have lq : m1.live q = some (.slots s) := by rw [s1 q (by simp [hb]), h1]
        rw [hb] at hd1 i1
        have := main m1 q alloc s bd.length (fun w => absurd w hlt) (by simpa using i1) s1' g1 hd1 lq (by omega) h2 h3 h4 (by
          rw [raOverwriteA, e1]
          simp only [Option.bind_eq_bind, Option.bind_some, hdrA_eq hs1, hdrA_eq hd1, hb0, if_false, hlt]
          rfl)
        exact this.elim Or.inl (fun w => Or.inr (Or.inl w))

theorem holdsB_cow {p : Nat} {b : Bitmap} {cow cow' : Bool} {alloc : Nat} {buf : Option Nat} {rs : List CRec}
    (h : HoldsB m p b cow alloc buf rs) : HoldsB (m.set p (some (.bitmap ⟨b.length, alloc, buf, cow'⟩))) p b cow' alloc buf rs := by
  have hne : ∀ x ∈ buf.toList ++ rs.flatMap CRec.blocks, x ≠ p := fun x hx e => (List.nodup_cons.1 h.nodup).1 (e ▸ hx)
  refine ⟨set_live_eq _ _ _, h.room, fun q hq => ?_, h.nobuf, holdsC_blocks_same h.conts (fun x hx => set_live_ne _ _ (hne x (by simp only [List.mem_append]; exact Or.inr hx))), h.nodup⟩
  obtain ⟨s, h1, h2⟩ := h.slots q hq
  exact ⟨s, by rw [set_live_ne _ _ (hne q (by simp [hq])), h1], h2⟩

/-- `roaring_bitmap_copy` without copy-on-write. -/
theorem copyA_spec {src : Nat} {b : Bitmap} {allocS : Nat} {bufS : Option Nat} {rsS : List CRec}
    (hsrc : HoldsB base src b false allocS bufS rsS) (hlen : b.length ≤ 65536) (ok : Nat → Bool) (hi : Owns base.live m own) :
    MadeB base.live ok m own b false (copyA ok src m) := by
  rcases malloc_cases hi ok (.bitmap ⟨0, 0, none, false⟩) with ⟨m1, e1, i1, l1, r1⟩ | ⟨m1, e1, i1, l1, o1, s1, g1⟩
  · left
    exact ⟨m1, by rw [copyA, e1], i1, fun x _ => by rw [l1], r1⟩
  · have hs1 : m1.live src = some (.bitmap ⟨b.length, allocS, bufS, false⟩) := by rw [i1.keep (by rw [hsrc.hdr]; simp), hsrc.hdr]
    have hno : ∀ x ∈ own, x ≠ m.next := fun x hx e => hi.next_notMem (e ▸ hx)
    generalize m.next = p at *
    rcases raInitCapA_spec b.length i1 ok with ⟨m2, e2, i2, s2, r2, bl, l2⟩ | ⟨m2, buf, e2, i2, s2, g2, h2⟩
    · left
      refine ⟨m2.set p none, by rw [copyA, e1]; simp [hdrA_eq hs1, e2, mfree_some l2], i2.free, ?_, (g1.refused r2).congr rfl⟩
      intro x hx
      rw [set_live_ne _ _ (hno x hx), s2 x hx]
      exact s1 x hx
    · rw [Nat.min_eq_left hlen] at h2
      have s2' := s1.trans s2
      rcases raOverwriteA_spec hsrc ok h2 (own := own) (by simpa [bmBlocks] using i2) with
        ⟨m3, e3, i3, s3, l3, r3, _⟩ | ⟨m3, buf', alloc', rs, e3, i3, s3, g3, h3, _⟩ | ⟨m3, e3, hlt, _⟩
      · left
        have hemp : HoldsB m3 p [] false 0 none [] := holdsB_empty l3 (by simp) (by simp)
        obtain ⟨m4, e4, i4, s4, c4⟩ := freeBitmapA_spec hemp (by simpa [bmBlocks] using i3)
        refine ⟨m4, by rw [copyA, e1]; simp [hdrA_eq hs1, e2, e3, e4], i4, (s2'.trans s3).trans s4, ((g1.trans g2).refused r3).congr c4⟩
      · right
        refine ⟨p, alloc', buf', rs, m3.set p (some (.bitmap ⟨b.length, alloc', buf', false⟩)), ?_, i3.set (by simp [bmBlocks]) _, ?_,
          ((g1.trans g2).trans g3).congr rfl, holdsB_cow h3⟩
        · rw [copyA, e1]
          simp [hdrA_eq hs1, e2, e3, setCowA, hdrA_eq h3.hdr]
        · intro x hx
          rw [set_live_ne _ _ (hno x hx)]
          exact (s2'.trans s3) x hx
      · omega

end CRoaring
