import Verif.Lemmas.Frozen

set_option linter.unusedSimpArgs false
set_option linter.unusedVariables false

/-! The frozen view on arbitrary bytes, and views of the portable format. -/

namespace CRoaring
open Spec

theorem Typed.cons {k : Nat} {c : Container} {r : Bitmap} (hk : k < 65536) (hc : CTyped c) (h : Typed r) :
    Typed ((k, c) :: r) := by
  intro p hp
  rcases List.mem_cons.1 hp with rfl | hp
  · exact ⟨hk, hc⟩
  · exact h p hp

theorem frozen_total {buf : List UInt8} {kz cz tz : Nat} (n : Nat) : ∀ {i : Nat} {z : Nat × Nat × Nat},
    cz + 2 * (i + n) ≤ buf.length → tz + (i + n) ≤ buf.length → kz + 2 * (i + n) ≤ buf.length →
    frozenSizesLoop buf cz tz n i z = .fail ∨
    ∃ z', frozenSizesLoop buf cz tz n i z = .ok z' ∧ z.1 ≤ z'.1 ∧ z.2.1 ≤ z'.2.1 ∧ z.2.2 ≤ z'.2.2 ∧
      ∀ bz rz az, bz + z'.1 ≤ buf.length + z.1 → rz + z'.2.1 ≤ buf.length + z.2.1 →
        az + z'.2.2 ≤ buf.length + z.2.2 →
        ∃ r, frozenViewLoop buf kz cz tz n i bz rz az = .ok r ∧ Typed r := by
  induction n with
  | zero =>
    intro i z _ _ _
    exact .inr ⟨z, rfl, by omega, by omega, by omega, fun bz rz az _ _ _ => ⟨[], rfl, by intro p hp; cases hp⟩⟩
  | succ n ih =>
    intro i z hc ht hk
    obtain ⟨k, hk1, hk2⟩ := readLE_ok (buf := buf) (off := kz + 2 * i) (k := 2) (by omega)
    obtain ⟨t, ht1, ht2⟩ := readLE_ok (buf := buf) (off := tz + i) (k := 1) (by omega)
    obtain ⟨c, hc1, hc2⟩ := readLE_ok (buf := buf) (off := cz + 2 * i) (k := 2) (by omega)
    have hrec := fun z => ih (i := i + 1) (z := z) (by omega) (by omega) (by omega)
    have hv : ∀ bz rz az, frozenViewLoop buf kz cz tz (n + 1) i bz rz az =
        if t = BITSET_TYPE then
          readWords buf bz NWORDS >>= fun ws =>
          frozenViewLoop buf kz cz tz n (i + 1) (bz + NWORDS * 8) rz az >>= fun rest =>
          pure ((k, .bitset ⟨(c : Int) + 1, ws⟩) :: rest)
        else if t = RUN_TYPE then
          readRles buf rz c >>= fun rs =>
          frozenViewLoop buf kz cz tz n (i + 1) bz (rz + c * 4) az >>= fun rest =>
          pure ((k, .run rs) :: rest)
        else if t = ARRAY_TYPE then
          readU16s buf az (c + 1) >>= fun l =>
          frozenViewLoop buf kz cz tz n (i + 1) bz rz (az + (c + 1) * 2) >>= fun rest =>
          pure ((k, .array l) :: rest)
        else .fail := by
      intro bz rz az
      rw [frozenViewLoop, hk1, ok_bind, ht1, ok_bind, hc1, ok_bind]
    rw [frozenSizesLoop, ht1, ok_bind, hc1]
    simp only [ok_bind]
    by_cases h1 : t = BITSET_TYPE
    · simp only [h1, if_true] at hv ⊢
      rcases hrec (z.1 + NWORDS * 8, z.2.1, z.2.2) with e | ⟨z', e, l1, l2, l3, hr⟩
      · exact .inl e
      · simp only at l1 l2 l3 hr
        refine .inr ⟨z', e, by omega, l2, l3, fun bz rz az b1 b2 b3 => ?_⟩
        obtain ⟨ws, w1, w2⟩ := readWords_ok (buf := buf) NWORDS (off := bz) (by omega)
        obtain ⟨r, r1, r2⟩ := hr (bz + NWORDS * 8) rz az (by omega) b2 b3
        rw [hv, w1, ok_bind, r1, ok_bind]
        exact ⟨_, rfl, r2.cons hk2 w2⟩
    · simp only [h1, if_false] at hv ⊢
      by_cases h2 : t = RUN_TYPE
      · simp only [h2, if_true] at hv ⊢
        rcases hrec (z.1, z.2.1 + c * 4, z.2.2) with e | ⟨z', e, l1, l2, l3, hr⟩
        · exact .inl e
        · simp only at l1 l2 l3 hr
          refine .inr ⟨z', e, by omega, by omega, l3, fun bz rz az b1 b2 b3 => ?_⟩
          obtain ⟨ws, w1, w2, w3⟩ := readRles_ok (buf := buf) c (off := rz) (by omega)
          obtain ⟨r, r1, r2⟩ := hr bz (rz + c * 4) az b1 (by omega) b3
          rw [hv, w1, ok_bind, r1, ok_bind]
          exact ⟨_, rfl, r2.cons hk2 w3⟩
      · simp only [h2, if_false] at hv ⊢
        by_cases h3 : t = ARRAY_TYPE
        · simp only [h3, if_true] at hv ⊢
          rcases hrec (z.1, z.2.1, z.2.2 + (c + 1) * 2) with e | ⟨z', e, l1, l2, l3, hr⟩
          · exact .inl e
          · simp only at l1 l2 l3 hr
            refine .inr ⟨z', e, by omega, by omega, by omega, fun bz rz az b1 b2 b3 => ?_⟩
            obtain ⟨ws, w1, w2, w3⟩ := readU16s_ok (buf := buf) (c + 1) (off := az) (by omega)
            obtain ⟨r, r1, r2⟩ := hr bz rz (az + (c + 1) * 2) b1 b2 (by omega)
            rw [hv, w1, ok_bind, r1, ok_bind]
            exact ⟨_, rfl, r2.cons hk2 w3⟩
        · simp only [h3, if_false]
          exact .inl trivial

theorem rbFrozenView_total {addr : Nat} {buf : List UInt8} {length : Nat} (h : length ≤ buf.length) :
    rbFrozenView addr buf length = .fail ∨ ∃ r, rbFrozenView addr buf length = .ok r ∧ Typed r := by
  rw [rbFrozenView]
  by_cases h1 : addr % 32 ≠ 0
  · rw [if_pos h1]; exact .inl rfl
  rw [if_neg h1]
  by_cases h2 : length < 4
  · rw [if_pos h2]; exact .inl rfl
  rw [if_neg h2]
  obtain ⟨hd, e1, e2⟩ := readLE_ok (buf := buf) (off := length - 4) (k := 4) (by omega)
  rw [e1, ok_bind]
  by_cases h3 : hd % 32768 ≠ FROZEN_COOKIE
  · rw [if_pos h3]; exact .inl rfl
  rw [if_neg h3]
  generalize hd >>> 15 = n
  simp only
  by_cases h4 : length < 4 + n * (1 + 2 + 2)
  · rw [if_pos h4]; exact .inl rfl
  rw [if_neg h4]
  rcases frozen_total (buf := buf) (kz := length - 4 - n * 5) (cz := length - 4 - n * 3) (tz := length - 4 - n * 1) n
    (i := 0) (z := (0, 0, 0)) (by omega) (by omega) (by omega) with e | ⟨z, e, _, _, _, hr⟩
  · rw [e, fail_bind]; exact .inl rfl
  · rw [e, ok_bind]
    by_cases h5 : length ≠ z.1 + z.2.1 + z.2.2 + 5 * n + 4
    · rw [if_pos h5]; exact .inl rfl
    rw [if_neg h5]
    obtain ⟨r, r1, r2⟩ := hr 0 z.1 (z.1 + z.2.1) (by simp only; omega) (by simp only; omega) (by simp only; omega)
    exact .inr ⟨r, r1, r2⟩

theorem frozenSizesLoop_le {buf tail : List UInt8} {cz tz : Nat} (n : Nat) : ∀ {i : Nat} {z : Nat × Nat × Nat},
    OLe (frozenSizesLoop buf cz tz n i z) (frozenSizesLoop (buf ++ tail) cz tz n i z) := by
  induction n with
  | zero => intro i z; exact .rfl'
  | succ n ih =>
    intro i z
    rw [frozenSizesLoop, frozenSizesLoop]
    refine readLE_le.bind fun t => .ite ih (.ite (readLE_le.bind fun c => ih) (.ite (readLE_le.bind fun c => ih) .rfl'))

theorem frozenViewLoop_le {buf tail : List UInt8} {kz cz tz : Nat} (n : Nat) : ∀ {i bz rz az : Nat},
    OLe (frozenViewLoop buf kz cz tz n i bz rz az) (frozenViewLoop (buf ++ tail) kz cz tz n i bz rz az) := by
  induction n with
  | zero => intro i bz rz az; exact .rfl'
  | succ n ih =>
    intro i bz rz az
    rw [frozenViewLoop, frozenViewLoop]
    refine readLE_le.bind fun k => readLE_le.bind fun t => readLE_le.bind fun c => .ite ?_ (.ite ?_ (.ite ?_ .rfl'))
    · exact (readWords_le _).bind fun ws => ih.bind fun _ => .rfl'
    · exact (readRles_le _).bind fun ws => ih.bind fun _ => .rfl'
    · exact (readU16s_le _).bind fun ws => ih.bind fun _ => .rfl'

theorem rbFrozenView_le {addr : Nat} {buf tail : List UInt8} {length : Nat} :
    OLe (rbFrozenView addr buf length) (rbFrozenView addr (buf ++ tail) length) := by
  rw [rbFrozenView, rbFrozenView]
  refine .ite .rfl' (.ite .rfl' (readLE_le.bind fun h => .ite .rfl' (.ite .rfl' ?_)))
  exact (frozenSizesLoop_le _).bind fun z => .ite .rfl' (frozenViewLoop_le _)

/-! ### Views of the portable format -/

/-- The data of a container, wherever they are. -/
theorem readCont_at {buf : List UInt8} {c : Container} (hc : CNe c) {off n : Nat} (h : At buf off (contBytes c))
    (hn : n = Spec.card 65536 (chas c)) :
    (if (!isRun c && decide (n > DEFAULT_MAX_SIZE)) = true then bitsetRead n buf off
      else if isRun c = true then runRead buf off else arrayRead n buf off) = .ok c := by
  have hct := hc.1.typed
  have h3 := containerCard_eq hc.1.rep
  cases c with
  | bitset b =>
    have h1 : n > DEFAULT_MAX_SIZE := by
      have := hc.1.2
      simp only [containerCard] at h3
      rw [DEFAULT_MAX_SIZE]
      omega
    simp only [isRun, Bool.not_false, Bool.true_and, h1, decide_true, if_true]
    have hw := readWords_at b.words h
    rw [show b.words.length = NWORDS from hct] at hw
    have hcard : (n : Int) = b.card := by rw [hn]; exact hc.1.1.card.symm
    rw [bitsetRead, hw, ok_bind, pure_ok, hcard]
  | array l =>
    have h1 : ¬ n > DEFAULT_MAX_SIZE ∧ n = l.length := by
      have := hc.1.2
      simp only [containerCard] at h3
      rw [DEFAULT_MAX_SIZE]
      omega
    simp only [isRun, Bool.not_false, Bool.true_and, h1.1, decide_false, Bool.false_eq_true, if_false]
    rw [arrayRead, h1.2, readU16s_at l hct h, ok_bind, pure_ok]
  | run rs =>
    have hl := RunOK.length_le hc.1
    simp only [isRun, Bool.not_true, Bool.false_and, Bool.false_eq_true, if_false, if_true]
    simp only [contBytes] at h
    have hnr : readLE buf off 2 = .ok rs.length := by
      have := readLE_at h.left (by omega)
      rwa [Nat.mod_eq_of_lt (by omega)] at this
    rw [runRead, hnr, ok_bind, readRles_at rs hct (h.right' (leBytes_length 2 _)), ok_bind, pure_ok]

theorem pfContainer_none {buf : List UInt8} {c : Container} (hc : CNe c) {base i off n : Nat}
    (h : At buf off (contBytes c)) (hn : n = Spec.card 65536 (chas c)) :
    pfContainer buf base none (!isRun c && decide (n > DEFAULT_MAX_SIZE)) (isRun c) n i off =
      .ok (c, off + containerSizeInBytes c) := by
  have hr := readCont_at hc h hn
  have h3 := containerCard_eq hc.1.rep
  rw [pfContainer]
  by_cases h1 : (!isRun c && decide (n > DEFAULT_MAX_SIZE)) = true
  · rw [if_pos h1] at hr ⊢
    rw [hr, ok_bind, pure_ok]
    cases c with
    | bitset b => rfl
    | array l =>
      simp only [containerCard] at h3
      simp [isRun, DEFAULT_MAX_SIZE] at h1
      have := hc.1.2
      omega
    | run rs => simp [isRun] at h1
  · rw [if_neg h1] at hr ⊢
    by_cases h2 : isRun c = true
    · rw [if_pos h2] at hr ⊢
      rw [runRead] at hr
      cases hb : readLE buf off 2 with
      | oob => rw [hb, oob_bind] at hr; cases hr
      | fail => rw [hb, fail_bind] at hr; cases hr
      | ok m =>
        rw [hb, ok_bind] at hr
        rw [ok_bind]
        cases hb2 : readRles buf (off + 2) m with
        | oob => rw [hb2, oob_bind] at hr; cases hr
        | fail => rw [hb2, fail_bind] at hr; cases hr
        | ok rs =>
          rw [hb2, ok_bind, pure_ok] at hr
          rw [ok_bind, pure_ok]
          cases hr
          have hl := RunOK.length_le hc.1
          simp only [contBytes] at h
          have hnr : readLE buf off 2 = .ok rs.length := by
            have := readLE_at h.left (by omega)
            rwa [Nat.mod_eq_of_lt (by omega)] at this
          rw [hb] at hnr
          cases hnr
          simp only [containerSizeInBytes, runSerializedSize, Out.ok.injEq, Prod.mk.injEq, true_and]
          omega
    · rw [if_neg h2] at hr ⊢
      rw [hr, ok_bind, pure_ok]
      cases c with
      | bitset b =>
        simp only [containerCard] at h3
        simp [isRun, DEFAULT_MAX_SIZE] at h1
        have := hc.1.2
        omega
      | array l =>
        simp only [containerCard] at h3
        simp only [containerSizeInBytes, Out.ok.injEq, Prod.mk.injEq, true_and]
        omega
      | run rs => simp [isRun] at h2

theorem pfContainer_some {buf : List UInt8} {c : Container} (hc : CNe c) {base i off n o p : Nat}
    (h : At buf (base + p) (contBytes c)) (hn : n = Spec.card 65536 (chas c)) (hp : readLE buf (o + 4 * i) 4 = .ok p) :
    pfContainer buf base (some o) (!isRun c && decide (n > DEFAULT_MAX_SIZE)) (isRun c) n i off = .ok (c, off) := by
  have hr := readCont_at hc h hn
  rw [pfContainer, hp, ok_bind]
  by_cases h1 : (!isRun c && decide (n > DEFAULT_MAX_SIZE)) = true
  · rw [if_pos h1] at hr ⊢
    rw [hr, ok_bind, pure_ok]
  · rw [if_neg h1] at hr ⊢
    by_cases h2 : isRun c = true
    · rw [if_pos h2] at hr ⊢
      rw [hr, ok_bind, pure_ok]
    · rw [if_neg h2] at hr ⊢
      rw [hr, ok_bind, pure_ok]

/-- The key of container `pre.length`. -/
theorem readKeyCards_at {buf : List UInt8} {kc : Nat} {pre suf : Bitmap} {p : Nat × Container} (hk : p.1 < 65536)
    (h : At buf kc (kcBytes (pre ++ p :: suf))) : readLE buf (kc + 2 * (2 * pre.length)) 2 = .ok p.1 := by
  rw [kcBytes] at h
  have h' := h.entry (k := 4) (fun a => by simp [leBytes_length])
  rw [show kc + 4 * pre.length = kc + 2 * (2 * pre.length) by omega] at h'
  exact readLE_at h'.left hk

theorem runFlag_at {buf : List UInt8} {r pre suf : Bitmap} {p : Nat × Container} {runs : Option Nat}
    (hr : ∀ o, runs = some o → At buf o (runFlags r)) (hn : runs = none → raHasRun r = false)
    (hpre : r = pre ++ p :: suf) : isRunAt buf runs pre.length = Out.ok (isRun p.2) := by
  have hcat := contAt_mid (A := pre) (B := suf) (k := p.1) (c := p.2)
  rw [isRunAt.eq_def]
  cases runs with
  | none =>
    have := hn rfl
    rw [hpre] at this
    simp [raHasRun] at this
    simp only
    rw [this.2.1]
  | some o =>
    have h1 : pre.length < r.length := by rw [hpre]; simp
    simp only
    rw [readRunFlag_at (hr o rfl) (by rw [runFlags_length]; omega), runFlags_bit r h1, hpre]
    rw [show p = (p.1, p.2) from rfl, hcat]

theorem pfLoop_none {buf : List UInt8} {r : Bitmap} {base kc : Nat} {runs : Option Nat}
    (hkc : At buf kc (kcBytes r)) (hr : ∀ o, runs = some o → At buf o (runFlags r))
    (hn : runs = none → raHasRun r = false) (suf : Bitmap) :
    ∀ (pre : Bitmap) (off : Nat), r = pre ++ suf → (∀ p ∈ suf, CNe p.2) → (∀ p ∈ suf, p.1 < 65536) →
      At buf off (allBytes suf) → pfLoop buf base kc runs none suf.length pre.length off = .ok suf := by
  induction suf with
  | nil => intro pre off _ _ _ _; rfl
  | cons p t ih =>
    intro pre off hpre hcs hk hat
    have hc := hcs p (by simp)
    have e : allBytes (p :: t) = contBytes p.2 ++ allBytes t := by simp [allBytes]
    rw [e] at hat
    have hkc' := hkc
    rw [hpre] at hkc'
    obtain ⟨tmp, ht1, ht2⟩ := readCard_at hc hkc'
    have hrec := ih (pre ++ [p]) (off + containerSizeInBytes p.2) (by simp [hpre]) (fun q hq => hcs q (by simp [hq]))
      (fun q hq => hk q (by simp [hq])) (hat.right' (contBytes_length hc.1.typed))
    rw [List.length_append, List.length_singleton] at hrec
    rw [List.length_cons, pfLoop, ht1, ok_bind, runFlag_at hr hn hpre, ok_bind, readKeyCards_at (hk p (by simp)) hkc',
      ok_bind, pfContainer_none hc hat.left ht2, ok_bind, hrec, ok_bind, pure_ok]

theorem pfLoop_some {buf : List UInt8} {r : Bitmap} {base kc o : Nat} {runs : Option Nat} {off : Nat}
    (hkc : At buf kc (kcBytes r)) (hr : ∀ o, runs = some o → At buf o (runFlags r))
    (hn : runs = none → raHasRun r = false) (suf : Bitmap) :
    ∀ (pre : Bitmap) (s : Nat), r = pre ++ suf → (∀ p ∈ suf, CNe p.2) → (∀ p ∈ suf, p.1 < 65536) →
      At buf (base + s) (allBytes suf) → At buf (o + 4 * pre.length) (offBytes s suf) →
      s + (allBytes suf).length < 4294967296 →
      pfLoop buf base kc runs (some o) suf.length pre.length off = .ok suf := by
  induction suf with
  | nil => intro pre s _ _ _ _ _ _; rfl
  | cons p t ih =>
    intro pre s hpre hcs hk hat hoff hlt
    have hc := hcs p (by simp)
    have e : allBytes (p :: t) = contBytes p.2 ++ allBytes t := by simp [allBytes]
    rw [e] at hat hlt
    rw [List.length_append] at hlt
    have hkc' := hkc
    rw [hpre] at hkc'
    obtain ⟨tmp, ht1, ht2⟩ := readCard_at hc hkc'
    have hl := contBytes_length hc.1.typed
    obtain ⟨k, c⟩ := p
    simp only [offBytes] at hoff hl ht2
    have e2 : (s + containerSizeInBytes c) % 4294967296 = s + containerSizeInBytes c := Nat.mod_eq_of_lt (by simp only at hlt; omega)
    rw [e2] at hoff
    have hat2 := hat.right' hl
    rw [Nat.add_assoc] at hat2
    have hoff2 := hoff.right' (leBytes_length 4 _)
    have hrec := ih (pre ++ [(k, c)]) (s + containerSizeInBytes c) (by simp [hpre]) (fun q hq => hcs q (by simp [hq]))
      (fun q hq => hk q (by simp [hq])) hat2 (by
        rw [List.length_append, List.length_singleton, show o + 4 * (pre.length + 1) = o + 4 * pre.length + 4 by omega]
        exact hoff2) (by simp only at hlt; omega)
    rw [List.length_append, List.length_singleton] at hrec
    rw [List.length_cons, pfLoop, ht1, ok_bind, runFlag_at hr hn hpre, ok_bind, readKeyCards_at (hk _ (by simp)) hkc',
      ok_bind, pfContainer_some hc hat.left ht2 (readLE_at hoff.left (by omega)), ok_bind, hrec, ok_bind, pure_ok]

theorem rbPortableDeserializeFrozen_at {buf : List UInt8} {r : Bitmap} {base : Nat} (hb : BInv r)
    (h : At buf base (serBytes r)) (hm : rbPortableSize r < 4294967296) :
    rbPortableDeserializeFrozen buf base = .ok r := by
  have hbp := bp_iff.1 hb
  have hne : ∀ p ∈ r, CNe p.2 := hbp.2.2
  have ht : ∀ p ∈ r, CTyped p.2 := fun p hp => (hne p hp).1.typed
  have hk : ∀ p ∈ r, p.1 < 65536 := hbp.2.1
  have hsz := hb.length_le
  have hl := serBytes_length ht
  rw [← hl] at hm
  rw [rbPortableDeserializeFrozen]
  by_cases hr : raHasRun r = true
  · have hpos : 0 < r.length := by
      rcases r with _ | _
      · simp [raHasRun] at hr
      · simp
    obtain ⟨hc1, hc2, hc3⟩ := cookie_low (r.length - 1) (by omega)
    have hc4 : ¬ (COOKIE ||| ((r.length - 1) <<< 16)) = COOKIE_NORUN := by
      intro e
      rw [e] at hc1
      revert hc1
      decide
    have hnum : r.length - 1 + 1 = r.length := by omega
    by_cases h2 : r.length < NO_OFFSET_THRESHOLD
    · have h2' : ¬ NO_OFFSET_THRESHOLD ≤ r.length := by omega
      have es : serBytes r = leBytes 4 (COOKIE ||| ((r.length - 1) <<< 16)) ++ (runFlags r ++ (kcBytes r ++
          allBytes r)) := by simp [serBytes, hr, h2']
      rw [es] at h hm
      have a1 := h.left
      have a2 := h.right' (leBytes_length 4 _)
      have a3 := a2.left
      have a4 := a2.right' (runFlags_length r)
      have a5 := a4.left
      have a6 := a4.right' (kcBytes_length r)
      rw [readLE_at a1 hc3, ok_bind, if_neg hc4, if_pos hc1]
      simp only [hc2, hnum]
      rw [if_neg (by omega)]
      have := pfLoop_none (base := base) (runs := some (base + 4)) a5 (fun o ho => by cases ho; exact a3)
        (fun h => by cases h) r [] _ rfl hne hk a6
      rw [show r.length * 4 = 4 * r.length by omega]
      exact this
    · have h2' : NO_OFFSET_THRESHOLD ≤ r.length := by omega
      have es : serBytes r = leBytes 4 (COOKIE ||| ((r.length - 1) <<< 16)) ++ (runFlags r ++ (kcBytes r ++
          (offBytes (4 + 8 * r.length + (r.length + 7) / 8) r ++ allBytes r))) := by simp [serBytes, hr, h2']
      rw [es] at h hm
      have a1 := h.left
      have a2 := h.right' (leBytes_length 4 _)
      have a3 := a2.left
      have a4 := a2.right' (runFlags_length r)
      have a5 := a4.left
      have a6 := a4.right' (kcBytes_length r)
      have a7 := a6.left
      have a8 := a6.right' (offBytes_length r _)
      simp only [List.length_append, leBytes_length, runFlags_length, kcBytes_length, offBytes_length] at hm
      rw [readLE_at a1 hc3, ok_bind, if_neg hc4, if_pos hc1]
      simp only [hc2, hnum]
      rw [if_pos (by omega)]
      have := pfLoop_some (base := base) (runs := some (base + 4)) (o := base + 4 + (r.length + 7) / 8 + 4 * r.length)
        (off := base + 4 + (r.length + 7) / 8 + 4 * r.length + 4 * r.length)
        a5 (fun o ho => by cases ho; exact a3)
        (fun h => by cases h) r [] (4 + 8 * r.length + (r.length + 7) / 8) rfl hne hk (by
          rw [show base + (4 + 8 * r.length + (r.length + 7) / 8) =
            base + 4 + (r.length + 7) / 8 + 4 * r.length + 4 * r.length by omega]; exact a8) a7 (by omega)
      rw [show r.length * 4 = 4 * r.length by omega]
      exact this
  · simp only [Bool.not_eq_true] at hr
    have es : serBytes r = leBytes 4 COOKIE_NORUN ++ (leBytes 4 r.length ++ (kcBytes r ++
        (offBytes (4 + 4 + 4 * r.length + 4 * r.length) r ++ allBytes r))) := by simp [serBytes, hr]
    rw [es] at h hm
    have a1 := h.left
    have a2 := h.right' (leBytes_length 4 _)
    have a3 := a2.left
    have a4 := a2.right' (leBytes_length 4 _)
    have a5 := a4.left
    have a6 := a4.right' (kcBytes_length r)
    have a7 := a6.left
    have a8 := a6.right' (offBytes_length r _)
    simp only [List.length_append, leBytes_length, kcBytes_length, offBytes_length] at hm
    rw [readLE_at a1 (by decide), ok_bind, if_pos rfl, readLE_at a3 (by omega), ok_bind]
    have es : toI32 r.length = (r.length : Int) := by rw [toI32, if_pos (by omega)]
    rw [if_neg (by rw [es]; omega)]
    have := pfLoop_some (base := base) (runs := none) (o := base + 4 + 4 + 4 * r.length)
      (off := base + 4 + 4 + 4 * r.length + 4 * r.length)
      a5 (fun o ho => by cases ho) (fun _ => hr) r [] (4 + 4 + 4 * r.length + 4 * r.length) rfl hne hk (by
        rw [show base + (4 + 4 + 4 * r.length + 4 * r.length) =
          base + 4 + 4 + 4 * r.length + 4 * r.length by omega]; exact a8) a7 (by omega)
    rw [show r.length * 4 = 4 * r.length by omega]
    exact this

end CRoaring
