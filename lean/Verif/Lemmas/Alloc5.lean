import Verif.Lemmas.Alloc4

set_option linter.unusedSimpArgs false
set_option linter.unusedVariables false

/-! `roaring_bitmap_portable_deserialize_safe` when requests for memory may be refused. -/

namespace CRoaring

variable {F : Nat → Option MBlk} {m m1 m2 m' : Mem} {own own' : List Nat} {ok : Nat → Bool}

theorem keysLoopA_spec {buf : List UInt8} {kc p q : Nat} {h : RaHdr} (hq : h.buf = some q) (hpq : p ≠ q) (n : Nat) :
    ∀ {k : Nat} {m : Mem} {s : SlotBuf} {vs : List Nat}, m.live p = some (.bitmap h) → m.live q = some (.slots s) → k + n ≤ s.keys.length →
      readKeys buf kc n k = .ok vs →
      ∃ m' s', keysLoopA buf kc p n k m = some m' ∧ m'.live q = some (.slots s') ∧ s'.conts = s.conts ∧ s'.types = s.types ∧
        s'.keys.length = s.keys.length ∧ s'.keys.take (k + n) = s.keys.take k ++ vs.map some ∧ (∀ x, x ≠ q → m'.live x = m.live x) ∧
        m'.calls = m.calls ∧ ∀ F own, Owns F m own → q ∈ own → Owns F m' own := by
  induction n with
  | zero =>
    intro k m s vs h1 h2 h3 h4
    cases h4
    exact ⟨m, s, rfl, h2, rfl, rfl, rfl, by simp, fun _ _ => rfl, rfl, fun _ _ i _ => i⟩
  | succ n ih =>
    intro k m s vs h1 h2 h3 h4
    rw [readKeys] at h4
    cases hv : readLE buf (kc + 2 * (2 * k)) 2 with
    | oob => rw [hv] at h4; cases h4
    | fail => rw [hv] at h4; cases h4
    | ok v =>
      rw [hv, ok_bind] at h4
      cases hl : readKeys buf kc n (k + 1) with
      | oob => rw [hl] at h4; cases h4
      | fail => rw [hl] at h4; cases h4
      | ok l =>
        rw [hl, ok_bind, pure_ok] at h4
        cases h4
        obtain ⟨m', s', e, g1, g2, g3, g4, g5, g6, g7, g8⟩ := ih (m := m.set q (some (.slots { s with keys := s.keys.set k (some v) })))
          (s := { s with keys := s.keys.set k (some v) }) (by rw [set_live_ne _ _ hpq, h1]) (set_live_eq _ _ _) (by simp; omega) hl
        refine ⟨m', s', ?_, g1, g2, g3, by simpa using g4, ?_, fun x hx => by rw [g6 x hx, set_live_ne _ _ hx], g7, fun F own i hm => g8 F own (i.set hm _) hm⟩
        · rw [keysLoopA, hv]
          simp only [rd_ok, Option.bind_eq_bind, Option.bind_some, hdrA_eq h1, slotsA_eq hq h2, putAt_eq (some v) (show k < s.keys.length by omega), putSlotsA_eq hq, e]
        · rw [show k + (n + 1) = k + 1 + n by omega, g5]
          have : (s.keys.set k (some v)).take (k + 1) = s.keys.take k ++ [some v] := by
            rw [List.take_add_one, List.take_set_of_le (Nat.le_refl _), List.getElem?_set_self (by omega)]
            rfl
          rw [this]
          simp

/-- The outcome of reading a bitmap, given the outcome `y` without a memory. -/
def ReadB (F : Nat → Option MBlk) (ok : Nat → Bool) (m : Mem) (p : Nat) (own : List Nat) (hasrun : Prop)
    (x : Option (Bool × Mem)) (y : Out (Bitmap × Nat)) : Prop :=
  (x = none ∧ hasrun ∧ ∃ j, m.calls ≤ j ∧ ok j = false) ∨
  (∃ m', x = some (false, m') ∧ Gone F m p own m' ∧ (Refused ok m m' ∨ (Granted ok m m' ∧ y = .fail))) ∨
  (∃ m' alloc buf rs b n, x = some (true, m') ∧ y = .ok (b, n) ∧ HoldsB m' p b false alloc buf rs ∧ Owns F m' (bmBlocks p buf rs ++ own) ∧
    Same own m m' ∧ Granted ok m m' ∧ alloc ≤ 65536)

/-- The part of `ra_portable_deserialize` after the header. -/
theorem deserTail_spec {buf : List UInt8} {runs : Option Nat} {base maxbytes kc p size : Nat} {hasrun : Prop} [Decidable hasrun]
    (hm : base + maxbytes ≤ buf.length) (hkc : kc + 4 * size ≤ buf.length)
    (hr : ∀ o, runs = some o → o + (size + 7) / 8 ≤ buf.length) (hsz : size ≤ 65536) (hru : runs ≠ none → hasrun) (ok : Nat → Bool)
    {off rb : Nat} (ho : off = base + rb) (hrb : rb ≤ maxbytes) (hi : Owns F m (p :: own)) :
    ReadB F ok m p own hasrun
      (do
        let (b, m) ← raInitCapA ok p size m
        if !b then some (false, m)
        else
          let m ← keysLoopA buf kc p size 0 m
          match deserSkipOffsets hasrun size off maxbytes rb with
          | .ok o => deserLoopA ok buf maxbytes runs kc p size 0 o.1 o.2 m
          | _ => do
            let m ← raClearA p m
            some (false, m))
      (do
        let keys ← readKeys buf kc size 0
        let o ← deserSkipOffsets hasrun size off maxbytes rb
        let p ← deserLoop buf maxbytes runs kc size 0 o.1 o.2
        pure (keys.zip p.1, p.2)) := by
  obtain ⟨keys, hk, hkl, _⟩ := readKeys_ok (buf := buf) (kc := kc) size (k := 0) (by omega)
  rw [hk]
  simp only [ok_bind]
  have hskip : deserSkipOffsets hasrun size off maxbytes rb = .fail ∨
      ∃ o1 o2, deserSkipOffsets hasrun size off maxbytes rb = .ok (o1, o2) ∧ o1 = base + o2 ∧ o2 ≤ maxbytes := by
    rw [deserSkipOffsets]
    split
    · split
      · exact Or.inl rfl
      · exact Or.inr ⟨_, _, rfl, by omega, by omega⟩
    · exact Or.inr ⟨_, _, rfl, ho, hrb⟩
  rcases raInitCapA_spec size hi ok with ⟨m1, e1, i1, s1, r1, l1⟩ | ⟨m1, buf1, e1, i1, s1, g1, h1⟩
  · exact Or.inr (Or.inl ⟨m1, by rw [e1]; rfl, ⟨i1, s1, l1⟩, Or.inl r1⟩)
  · rw [Nat.min_eq_left hsz] at h1
    rw [e1]
    simp only [Option.bind_eq_bind, Option.bind_some, Bool.not_true]
    have i1' : Owns F m1 (bmBlocks p buf1 [] ++ own) := by simpa [bmBlocks] using i1
    by_cases h0 : size = 0
    · subst h0
      have hkn : keys = [] := List.eq_nil_of_length_eq_zero hkl
      subst hkn
      simp only [keysLoopA, Option.bind_some, Bool.false_eq_true, if_false]
      rcases hskip with hs | ⟨o1, o2, hs, _⟩
      · rw [hs]
        obtain ⟨m2, e2, i2, s2, l2, c2⟩ := raClearA_spec h1 i1'
        exact Or.inr (Or.inl ⟨m2, by simp [e2], ⟨i2, s1.trans s2, _, l2⟩, Or.inr ⟨g1.congr c2, rfl⟩⟩)
      · rw [hs]
        exact Or.inr (Or.inr ⟨m1, _, _, _, [], o2, rfl, rfl, h1, i1', s1, g1, by omega⟩)
    · cases hb : buf1 with
      | none => exact absurd (h1.nobuf hb) h0
      | some q =>
        subst hb
        obtain ⟨s, lq, k1, k2, k3, _⟩ := h1.slots q rfl
        have hpq : p ≠ q := fun e => (List.nodup_cons.1 h1.nodup).1 (by simp [e])
        obtain ⟨m2, s', e2, l2, c1, c2, c3, c4, c5, c6, c7⟩ := keysLoopA_spec (h := ⟨0, size, some q, false⟩) rfl hpq size (k := 0) h1.hdr lq (by omega) hk
        simp only [e2, Option.bind_some, Bool.false_eq_true, if_false]
        have hpart : Part F m2 p q size keys own [] [] := by
          refine ⟨⟨by rw [c5 p hpq, h1.hdr]; simp, by simp, ?_, by simp, by simp, h1.nodup⟩, ⟨s', l2, ?_⟩, c7 _ _ i1' (by simp [bmBlocks]), by omega⟩
          · intro q' hq'
            cases hq'
            exact ⟨s', l2, by rw [c1, k1], by rw [c3, k2], by rw [c2, k3], by simp, by simp, by simp⟩
          · rw [hkl]
            simpa using c4
        have sm : Same own m m2 := by
          intro x hx
          have hq : x ≠ q := fun e => (List.nodup_append.1 i1'.nodup).2.2 q (by simp [bmBlocks]) x hx e.symm
          rw [c5 x hq]
          exact s1 x hx
        have g2 : Granted ok m m2 := g1.congr c6
        rcases hskip with hs | ⟨o1, o2, hs, ho1, ho2⟩
        · rw [hs]
          obtain ⟨m3, e3, i3, s3, l3, c3'⟩ := raClearA_spec hpart.hb hpart.inv
          exact Or.inr (Or.inl ⟨m3, by simp [e3], ⟨i3, sm.trans s3, _, l3⟩, Or.inr ⟨g2.congr c3', rfl⟩⟩)
        · rw [hs]
          simp only [ok_bind]
          rcases deserLoopA_spec (kc := kc) (runs := runs) hm (by omega) (by rw [hkl]; exact hr) ok size (k := 0) (off := o1) (rb := o2) (by omega) ho1 ho2 rfl hpart with
            ⟨x1, x2, j, x3, x4⟩ | ⟨m3, x1, ⟨x2, x3, x4⟩, x5⟩ | ⟨m3, rs, cs, n, x1, x2, x3, x4, x5⟩
          · exact Or.inl ⟨x1, hru x2, j, Nat.le_trans g2.1 x3, x4⟩
          · refine Or.inr (Or.inl ⟨m3, x1, ⟨x2, sm.trans x3, x4⟩, ?_⟩)
            rcases x5 with x5 | ⟨x5, x6⟩
            · exact Or.inl (g2.refused x5)
            · exact Or.inr ⟨g2.trans x5, by rw [x6]; rfl⟩
          · exact Or.inr (Or.inr ⟨m3, _, _, rs, keys.zip cs, n, x1, by rw [x2]; rfl, by simpa using x3.hb, x3.inv, sm.trans x4, g2.trans x5, hsz⟩)

theorem raDeserA_spec {buf : List UInt8} {base maxbytes p : Nat} (hm : base + maxbytes ≤ buf.length) (ok : Nat → Bool)
    (hi : Owns F m (p :: own)) (hp : ∃ b, m.live p = some b) :
    ReadB F ok m p own (∃ c, readLE buf base 4 = .ok c ∧ c % 65536 = COOKIE) (raDeserA ok p buf base maxbytes m) (raPortableDeserialize buf base maxbytes) := by
  have early : ∀ hasrun, ReadB F ok m p own hasrun (some (false, m)) .fail := fun _ =>
    Or.inr (Or.inl ⟨m, rfl, ⟨hi, Same.refl _ _, hp⟩, Or.inr ⟨Granted.refl _ _, rfl⟩⟩)
  rw [raDeserA, raPortableDeserialize]
  by_cases h4 : 4 > maxbytes
  · rw [if_pos h4, if_pos h4]; exact early _
  rw [if_neg h4, if_neg h4]
  obtain ⟨cookie, hc, hcl⟩ := readLE_ok (buf := buf) (off := base) (k := 4) (by omega)
  rw [hc]
  simp only [ok_bind, rd_ok, Option.bind_eq_bind, Option.bind_some]
  by_cases h1 : cookie % 65536 ≠ COOKIE ∧ cookie ≠ COOKIE_NORUN
  · rw [if_pos h1, if_pos h1]; exact early _
  rw [if_neg h1, if_neg h1]
  obtain ⟨_, hs⟩ := deserSize_total (cookie := cookie) hm (by omega) (by by_cases h : cookie % 65536 = COOKIE; exact .inl h; exact .inr (by simpa [h] using h1)) hcl
  rcases hs with hs | ⟨size, rb, hs, hrb, hrb4⟩
  · rw [hs]; exact early _
  rw [hs]
  simp only [ok_bind]
  by_cases h2 : size < 0
  · rw [if_pos h2, if_pos h2]; exact early _
  rw [if_neg h2, if_neg h2]
  by_cases h3 : size > 65536
  · rw [if_pos h3, if_pos h3]; exact early _
  rw [if_neg h3, if_neg h3]
  obtain ⟨sz, rfl⟩ : ∃ sz : Nat, size = sz := ⟨size.toNat, by omega⟩
  simp only [Int.toNat_natCast]
  by_cases hr : cookie % 65536 = COOKIE
  · simp only [hr, if_true, true_and]
    by_cases h5 : rb + (sz + 7) / 8 > maxbytes
    · rw [if_pos h5, if_pos h5]; exact early _
    rw [if_neg h5, if_neg h5]
    by_cases h6 : rb + (sz + 7) / 8 + sz * 2 * 2 > maxbytes
    · rw [if_pos h6, if_pos h6]; exact early _
    rw [if_neg h6, if_neg h6]
    rcases deserTail_spec (hasrun := True) (runs := some (base + rb)) (kc := base + rb + (sz + 7) / 8) (p := p) (size := sz) hm (by omega)
      (fun o ho => by cases ho; omega) (by omega) (fun _ => trivial) ok (off := base + rb + (sz + 7) / 8 + sz * 2 * 2) (rb := rb + (sz + 7) / 8 + sz * 2 * 2) (by omega) (by omega) hi with
      ⟨x1, x2, x3⟩ | x | x
    · exact Or.inl ⟨x1, ⟨cookie, rfl, hr⟩, x3⟩
    · exact Or.inr (Or.inl x)
    · exact Or.inr (Or.inr x)
  · simp only [hr, if_false, false_and]
    by_cases h6 : rb + sz * 2 * 2 > maxbytes
    · rw [if_pos h6, if_pos h6]; exact early _
    rw [if_neg h6, if_neg h6]
    rcases deserTail_spec (hasrun := False) (runs := none) (kc := base + rb) (p := p) (size := sz) hm (by omega)
      (fun o ho => by cases ho) (by omega) (fun h => h rfl) ok (off := base + rb + sz * 2 * 2) (rb := rb + sz * 2 * 2) (by omega) (by omega) hi with
      ⟨x1, x2, x3⟩ | x | x
    · exact x2.elim
    · exact Or.inr (Or.inl x)
    · exact Or.inr (Or.inr x)

/-- `roaring_bitmap_portable_deserialize_safe`. -/
theorem deserA_spec {buf : List UInt8} {base maxbytes : Nat} (hm : base + maxbytes ≤ buf.length) (ok : Nat → Bool) (hi : Owns F m own) :
    (deserA ok buf base maxbytes m = none ∧ (∃ c, readLE buf base 4 = .ok c ∧ c % 65536 = COOKIE) ∧ ∃ j, m.calls ≤ j ∧ ok j = false) ∨
    (∃ m', deserA ok buf base maxbytes m = some (none, m') ∧ Owns F m' own ∧ Same own m m' ∧
      (Refused ok m m' ∨ (Granted ok m m' ∧ rbPortableDeserializeSafe buf base maxbytes = .fail))) ∨
    (∃ m' p alloc buf' rs b, deserA ok buf base maxbytes m = some (some p, m') ∧ rbPortableDeserializeSafe buf base maxbytes = .ok b ∧
      HoldsB m' p b false alloc buf' rs ∧ Owns F m' (bmBlocks p buf' rs ++ own) ∧ Same own m m' ∧ Granted ok m m' ∧ alloc ≤ 65536) := by
  rcases malloc_cases hi ok (.bitmap ⟨0, 0, none, false⟩) with ⟨m1, e1, i1, l1, r1⟩ | ⟨m1, e1, i1, l1, o1, s1, g1⟩
  · exact Or.inr (Or.inl ⟨m1, by rw [deserA, e1], i1, fun x _ => by rw [l1], Or.inl r1⟩)
  · have hno : ∀ x ∈ own, x ≠ m.next := fun x hx e => hi.next_notMem (e ▸ hx)
    generalize m.next = p at *
    rw [deserA, e1, rbPortableDeserializeSafe]
    simp only
    rcases raDeserA_spec hm ok i1 ⟨_, l1⟩ with ⟨x1, x2, j, x3, x4⟩ | ⟨m2, x1, ⟨x2, x3, b, x4⟩, x5⟩ | ⟨m2, alloc, buf', rs, b, n, x1, x2, x3, x4, x5, x6, x7⟩
    · exact Or.inl ⟨by rw [x1]; rfl, x2, j, Nat.le_trans g1.1 x3, x4⟩
    · refine Or.inr (Or.inl ⟨m2.set p none, by simp [x1, mfree_some x4], x2.free, ?_, ?_⟩)
      · intro x hx
        rw [set_live_ne _ _ (hno x hx), x3 x hx]
        exact s1 x hx
      · rcases x5 with x5 | ⟨x5, x6⟩
        · exact Or.inl ((g1.refused x5).congr rfl)
        · exact Or.inr ⟨(g1.trans x5).congr rfl, by rw [x6]; rfl⟩
    · refine Or.inr (Or.inr ⟨m2.set p (some (.bitmap ⟨b.length, alloc, buf', false⟩)), p, alloc, buf', rs, b, ?_, by rw [x2]; rfl, holdsB_cow x3,
        x4.set (by simp [bmBlocks]) _, ?_, (g1.trans x6).congr rfl, x7⟩)
      · simp [x1, setCowA, hdrA_eq x3.hdr]
      · intro x hx
        rw [set_live_ne _ _ (hno x hx), x5 x hx]
        exact s1 x hx

end CRoaring
