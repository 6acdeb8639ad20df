import Verif.Lemmas.Serial

set_option linter.unusedSimpArgs false
set_option linter.unusedVariables false

/-! Reading back a serialized bitmap. -/

namespace CRoaring
open Spec

theorem readU16s_at {buf : List UInt8} (l : List Nat) : ∀ {off : Nat}, (∀ x ∈ l, x < 65536) →
    At buf off (l.flatMap (leBytes 2)) → readU16s buf off l.length = .ok l := by
  induction l with
  | nil => intro off _ _; rfl
  | cons a t ih =>
    intro off hl h
    rw [List.flatMap_cons] at h
    rw [List.length_cons, readU16s, readLE_at h.left (by have := hl a (by simp); omega), ok_bind,
      ih (fun x hx => hl x (by simp [hx])) (h.right' (leBytes_length 2 a))]
    rfl

theorem readRles_at {buf : List UInt8} (l : List Rle) : ∀ {off : Nat}, (∀ x ∈ l, x.1 < 65536 ∧ x.2 < 65536) →
    At buf off (l.flatMap fun p => leBytes 2 p.1 ++ leBytes 2 p.2) → readRles buf off l.length = .ok l := by
  induction l with
  | nil => intro off _ _; rfl
  | cons a t ih =>
    intro off hl h
    have ha := hl a (by simp)
    rw [List.flatMap_cons] at h
    rw [List.length_cons, readRles, readLE_at h.left.left (by omega), ok_bind,
      readLE_at (h.left.right' (leBytes_length 2 _)) (by omega), ok_bind,
      ih (fun x hx => hl x (by simp [hx])) (h.right' (by simp [leBytes_length]))]
    rfl

theorem readWords_at {buf : List UInt8} (l : List Word) : ∀ {off : Nat},
    At buf off (wordBytes l) → readWords buf off l.length = .ok l := by
  induction l with
  | nil => intro off _; rfl
  | cons a t ih =>
    intro off h
    have ha : a.toNat < 256 ^ 8 := a.isLt
    have e : wordBytes (a :: t) = leBytes 8 a.toNat ++ wordBytes t := by simp [wordBytes]
    rw [e] at h
    rw [List.length_cons, readWords, readLE_at h.left ha, ok_bind, ih (h.right' (leBytes_length 8 _))]
    simp [ok_bind, pure_ok]

theorem readKeys_at {buf : List UInt8} {kc : Nat} (suf : Bitmap) : ∀ (pre : Bitmap),
    (∀ p ∈ suf, p.1 < 65536) → At buf kc (kcBytes (pre ++ suf)) →
    readKeys buf kc suf.length pre.length = .ok (keysOf suf) := by
  induction suf with
  | nil => intro pre _ _; rfl
  | cons p t ih =>
    intro pre hk h
    have e : kcBytes (pre ++ p :: t) =
        kcBytes pre ++ (leBytes 2 p.1 ++ (leBytes 2 ((containerCard p.2 - 1) % 65536).toNat ++ kcBytes t)) := by
      simp [kcBytes]
    have h1 := h
    rw [e] at h1
    have h2 := h1.right' (kcBytes_length pre)
    rw [List.length_cons, readKeys,
      readLE_at (k := 2) (n := p.1) (by rw [show 2 * (2 * pre.length) = 4 * pre.length by omega]; exact h2.left)
        (by have := hk p (by simp); omega), ok_bind]
    have := ih (pre ++ [p]) (fun q hq => hk q (by simp [hq])) (by simpa using h)
    rw [List.length_append, List.length_singleton] at this
    rw [this]
    rfl

/-- What the header stores for a container's cardinality. -/
theorem card_field {c : Container} (h : CNe c) :
    ((containerCard c - 1) % 65536).toNat + 1 = Spec.card 65536 (chas c) ∧
      ((containerCard c - 1) % 65536).toNat < 65536 := by
  have h1 := containerCard_eq h.1.rep
  obtain ⟨x, hx⟩ := h.2
  have h2 : 0 < Spec.card 65536 (chas c) := card_pos.2 ⟨x, h.1.rep.lt hx, hx⟩
  have h3 : Spec.card 65536 (chas c) ≤ 65536 := card_le _ _
  rw [h1]
  omega

theorem readCard_at {buf : List UInt8} {kc : Nat} {pre suf : Bitmap} {p : Nat × Container} (hc : CNe p.2)
    (h : At buf kc (kcBytes (pre ++ p :: suf))) :
    ∃ tmp, readLE buf (kc + 2 * (2 * pre.length + 1)) 2 = .ok tmp ∧ tmp + 1 = Spec.card 65536 (chas p.2) := by
  have hf := card_field hc
  have e : kcBytes (pre ++ p :: suf) =
      kcBytes pre ++ (leBytes 2 p.1 ++ (leBytes 2 ((containerCard p.2 - 1) % 65536).toNat ++ kcBytes suf)) := by
    simp [kcBytes]
  rw [e] at h
  have h2 := (h.right' (kcBytes_length pre)).right' (leBytes_length 2 p.1)
  refine ⟨_, readLE_at (k := 2) (n := ((containerCard p.2 - 1) % 65536).toNat) ?_ (by omega), hf.1⟩
  rw [show kc + 2 * (2 * pre.length + 1) = kc + 4 * pre.length + 2 by omega]
  exact h2.left

/-! ### The bitmap of run containers -/

theorem testBit_and_one_shl (b i : Nat) : (b &&& (1 <<< i) != 0) = b.testBit i := by
  rw [Nat.one_shiftLeft]
  have hb : (b &&& 2 ^ i).testBit i = b.testBit i := by simp
  by_cases h : b.testBit i = true
  · rw [h, bne_iff_ne]
    intro h0
    rw [h0, h] at hb
    simp at hb
  · simp only [Bool.not_eq_true] at h
    rw [h, bne_eq_false_iff_eq]
    apply Nat.eq_of_testBit_eq
    intro j
    rw [Nat.testBit_and, Nat.testBit_two_pow, Nat.zero_testBit]
    by_cases e : i = j
    · subst e; simp [h]
    · simp [e]

/-- Bit `j` of a list of bytes. -/
def flagBit (bm : List UInt8) (j : Nat) : Bool := (bm.getD (j / 8) 0).toNat.testBit (j % 8)

theorem flag_step {bm : List UInt8} {i j : Nat} (hi : i / 8 < bm.length) :
    flagBit (bm.modify (i / 8) (· ||| UInt8.ofNat (1 <<< (i % 8)))) j = (flagBit bm j || decide (i = j)) := by
  have hb : (UInt8.ofNat (1 <<< (i % 8))).toNat = 2 ^ (i % 8) := by
    have : 2 ^ (i % 8) < 256 := Nat.pow_lt_pow_right (n := 8) (by omega) (by omega)
    rw [UInt8.toNat_ofNat', Nat.one_shiftLeft, Nat.mod_eq_of_lt this]
  simp only [flagBit, List.getD_eq_getElem?_getD, List.getElem?_modify]
  by_cases h : i / 8 = j / 8
  · have hj : j / 8 < bm.length := by omega
    simp only [h, if_true, List.getElem?_eq_getElem hj, Option.map_eq_map, Option.map_some, Option.getD_some,
      UInt8.toNat_or, hb, Nat.testBit_or, Nat.testBit_two_pow]
    congr 1
    apply decide_eq_decide.2
    omega
  · have : i ≠ j := by rintro rfl; exact h rfl
    simp [h, this]

theorem runFlags_bit' (r : Bitmap) (j : Nat) :
    flagBit (runFlags r) j = (decide (j < r.length) && isRun (contAt r j)) := by
  have key : ∀ n, n ≤ r.length →
      flagBit ((List.range n).foldl
        (fun bm i => if isRun (contAt r i) then bm.modify (i / 8) (· ||| UInt8.ofNat (1 <<< (i % 8))) else bm)
        (List.replicate ((r.length + 7) / 8) 0)) j = (decide (j < n) && isRun (contAt r j)) ∧
      ((List.range n).foldl
        (fun bm i => if isRun (contAt r i) then bm.modify (i / 8) (· ||| UInt8.ofNat (1 <<< (i % 8))) else bm)
        (List.replicate ((r.length + 7) / 8) (0 : UInt8))).length = (r.length + 7) / 8 := by
    intro n
    induction n with
    | zero =>
      intro _
      simp [flagBit, List.getD_eq_getElem?_getD, List.getElem?_replicate]
      split <;> simp
    | succ n ih =>
      intro hn
      obtain ⟨h1, h2⟩ := ih (by omega)
      rw [List.range_succ, List.foldl_append, List.foldl_cons, List.foldl_nil]
      generalize (List.range n).foldl _ _ = bm at h1 h2 ⊢
      by_cases hr : isRun (contAt r n) = true
      · rw [if_pos hr]
        refine ⟨?_, by simp [h2]⟩
        rw [flag_step (by omega), h1]
        by_cases e : n = j
        · subst e; simp [hr]
        · simp only [e, decide_false, Bool.or_false]
          congr 1
          apply decide_eq_decide.2
          omega
      · rw [if_neg hr]
        refine ⟨?_, h2⟩
        rw [h1]
        by_cases e : n = j
        · subst e; simp [hr]
        · congr 1
          apply decide_eq_decide.2
          omega
  have := (key r.length (Nat.le_refl _)).1
  rw [runFlags, this]

theorem runFlags_bit (r : Bitmap) {j : Nat} (hj : j < r.length) : flagBit (runFlags r) j = isRun (contAt r j) := by
  rw [runFlags_bit']; simp [hj]

theorem runFlags_high (r : Bitmap) {j i : Nat} (hj : j < (r.length + 7) / 8) (hi : i < 8) (h : r.length ≤ 8 * j + i) :
    ((runFlags r)[j]'(by rw [runFlags_length]; exact hj)).toNat.testBit i = false := by
  have := runFlags_bit' r (8 * j + i)
  rw [flagBit, show (8 * j + i) / 8 = j by omega, show (8 * j + i) % 8 = i by omega,
    List.getD_eq_getElem?_getD, List.getElem?_eq_getElem (by rw [runFlags_length]; exact hj)] at this
  simp only [Option.getD_some] at this
  rw [this]
  simp; omega

theorem readRunFlag_at {buf : List UInt8} {o k : Nat} {bm : List UInt8} (h : At buf o bm) (hk : k / 8 < bm.length) :
    readRunFlag buf o k = .ok (flagBit bm k) := by
  have e : bm = bm.take (k / 8) ++ ([bm[k / 8]] ++ bm.drop (k / 8 + 1)) := by
    rw [List.singleton_append, ← List.drop_eq_getElem_cons hk, List.take_append_drop]
  have h1 : At buf (o + k / 8) [bm[k / 8]] := by
    rw [e] at h
    exact (h.right' (by simp; omega)).left
  have h2 := memRead_at h1
  rw [readRunFlag, readLE]
  rw [show ([bm[k / 8]] : List UInt8).length = 1 from rfl] at h2
  rw [h2, ok_bind, pure_ok, ok_bind, pure_ok, leVal, leVal, Nat.mul_zero, Nat.add_zero, testBit_and_one_shl, flagBit,
    List.getD_eq_getElem?_getD, List.getElem?_eq_getElem hk]
  rfl

/-! ### The containers -/

theorem RunOK.idx_ge {rs : List Rle} (h : RunOK rs) : ∀ {i : Nat}, i < rs.length → 2 * i ≤ (rdR rs i).1 := by
  intro i
  induction i with
  | zero => intro _; omega
  | succ i ih =>
    intro hi
    have h1 := ih (by omega)
    have h2 := h.idx (i := i) (j := i + 1) (by omega) hi
    omega

theorem RunOK.length_le {rs : List Rle} (h : RunOK rs) : rs.length ≤ 32768 := by
  by_cases h0 : rs.length = 0
  · omega
  · have h1 := h.idx_ge (i := rs.length - 1) (by omega)
    have h2 := RunOK.lt h (rdR rs (rs.length - 1)) (by rw [rdR_eq (by omega)]; exact List.getElem_mem _)
    omega

/-- Reading the container that has been written. -/
theorem deserLoop_at {buf : List UInt8} {r : Bitmap} {maxbytes kc : Nat} {runs : Option Nat}
    (hkc : At buf kc (kcBytes r)) (hr : ∀ o, runs = some o → At buf o (runFlags r))
    (hn : runs = none → raHasRun r = false) (suf : Bitmap) :
    ∀ (pre : Bitmap) (off rb : Nat), r = pre ++ suf → (∀ p ∈ suf, CNe p.2) →
      At buf off (allBytes suf) → rb + (allBytes suf).length ≤ maxbytes →
      deserLoop buf maxbytes runs kc suf.length pre.length off rb =
        .ok (suf.map (·.2), rb + (allBytes suf).length) := by
  induction suf with
  | nil => intro pre off rb _ _ _ _; simp [deserLoop, allBytes]
  | cons p t ih =>
    intro pre off rb hpre hcs hat hmax
    have hc := hcs p (by simp)
    have hct := hc.1.typed
    have hlen := contBytes_length hct
    have e : allBytes (p :: t) = contBytes p.2 ++ allBytes t := by simp [allBytes]
    rw [e] at hat hmax ⊢
    rw [List.length_append] at hmax ⊢
    have hcat := contAt_mid (A := pre) (B := t) (k := p.1) (c := p.2)
    obtain ⟨tmp, ht1, ht2⟩ := readCard_at (buf := buf) (kc := kc) (pre := pre) (suf := t) (p := p) hc (by rw [← hpre]; exact hkc)
    have hflag : isRunAt buf runs pre.length = Out.ok (isRun p.2) := by
      rw [isRunAt.eq_def]
      cases runs with
      | none =>
        have := hn rfl
        rw [hpre] at this
        simp [raHasRun] at this
        simp only
        rw [this.2.1]
      | some o =>
        have h1 : pre.length < r.length := by rw [hpre]; simp
        simp only
        rw [readRunFlag_at (hr o rfl) (by rw [runFlags_length]; omega), runFlags_bit r h1, hpre]
        rw [show p = (p.1, p.2) from rfl, hcat]
    have hrec := ih (pre ++ [p]) (off + containerSizeInBytes p.2) (rb + containerSizeInBytes p.2) (by simp [hpre])
      (fun q hq => hcs q (by simp [hq])) (hat.right' hlen) (by omega)
    rw [List.length_append, List.length_singleton] at hrec
    rw [List.length_cons, deserLoop, ht1, ok_bind, hflag, ok_bind]
    obtain ⟨k, c⟩ := p
    simp only at *
    cases c with
    | bitset b =>
      have h1 : tmp + 1 > DEFAULT_MAX_SIZE := by
        have := hc.1.2
        have h3 := containerCard_eq hc.1.rep
        simp only [containerCard] at h3
        rw [DEFAULT_MAX_SIZE]
        omega
      simp only [isRun, Bool.not_false, Bool.true_and, h1, decide_true, if_true]
      simp only [containerSizeInBytes] at hlen hrec
      rw [if_neg (by omega), bitsetRead]
      have hw := readWords_at b.words hat.left
      rw [show b.words.length = NWORDS from hct] at hw
      rw [hw, ok_bind, pure_ok, ok_bind]
      simp only [containerSizeInBytes]
      rw [hrec, ok_bind, pure_ok]
      have hcard : ((tmp + 1 : Nat) : Int) = b.card := by rw [ht2]; exact hc.1.1.card.symm
      rw [hcard, hlen, List.map_cons, Nat.add_assoc]
    | array l =>
      have h1 : ¬ tmp + 1 > DEFAULT_MAX_SIZE ∧ tmp + 1 = l.length := by
        have := hc.1.2
        have h3 := containerCard_eq hc.1.rep
        simp only [containerCard] at h3
        rw [DEFAULT_MAX_SIZE]
        omega
      simp only [isRun, Bool.not_false, Bool.true_and, h1.1, decide_false, Bool.false_eq_true, if_false]
      simp only [containerSizeInBytes] at hlen hrec
      rw [if_neg (by omega), arrayRead, h1.2, readU16s_at l hct hat.left, ok_bind, pure_ok, ok_bind]
      simp only [containerSizeInBytes]
      rw [hrec, ok_bind, pure_ok, hlen, List.map_cons, Nat.add_assoc]
    | run rs =>
      have hl := RunOK.length_le hc.1
      simp only [isRun, Bool.not_true, Bool.false_and, Bool.false_eq_true, if_false, if_true]
      simp only [containerSizeInBytes, runSerializedSize] at hlen hrec
      have hc2 := hat.left
      simp only [contBytes] at hc2
      have hnr : readLE buf off 2 = .ok rs.length := by
        have := readLE_at hc2.left (by omega)
        rwa [Nat.mod_eq_of_lt (by omega)] at this
      rw [if_neg (by omega), hnr, ok_bind, if_neg (by omega), runRead, hnr, ok_bind,
        readRles_at rs hct (hc2.right' (leBytes_length 2 _)), ok_bind, pure_ok, ok_bind]
      simp only [containerSizeInBytes, runSerializedSize]
      rw [show rb + 2 + rs.length * 4 = rb + (2 + 4 * rs.length) by omega, hrec, ok_bind, pure_ok, hlen, List.map_cons,
        Nat.add_assoc]

theorem cookie_low (n : Nat) (hn : n < 65536) :
    (COOKIE ||| (n <<< 16)) % 65536 = COOKIE ∧ (COOKIE ||| (n <<< 16)) >>> 16 = n ∧ (COOKIE ||| (n <<< 16)) < 256 ^ 4 := by
  have e : COOKIE ||| (n <<< 16) = n * 65536 + COOKIE := by
    rw [Nat.or_comm, Nat.shiftLeft_eq]
    rw [show n * 2 ^ 16 = 2 ^ 16 * n by omega, ← Nat.two_pow_add_eq_or_of_lt (by decide)]
  rw [e, Nat.shiftRight_eq_div_pow]
  simp only [COOKIE]
  omega

theorem BP.length_le {P : Container → Prop} {r : Bitmap} (h : BP P r) : r.length ≤ 65536 := by
  have h1 := bp_iff.1 h
  have h2 := sorted_length_ofList (l := keysOf r) (n := 65536) h1.1 (by
    intro x hx
    simp only [keysOf, List.mem_map] at hx
    obtain ⟨p, hp, rfl⟩ := hx
    exact h1.2.1 p hp)
  have h3 := card_le 65536 (ofList (keysOf r))
  rw [h2] at h3
  simpa [keysOf] using h3

/-- Deserializing a serialized bitmap. -/
theorem raPortableDeserialize_at {buf : List UInt8} {r : Bitmap} {base maxbytes : Nat} (hb : BInv r)
    (h : At buf base (serBytes r)) (hm : rbPortableSize r ≤ maxbytes) :
    raPortableDeserialize buf base maxbytes = .ok (r, rbPortableSize r) := by
  have hbp := bp_iff.1 hb
  have hne : ∀ p ∈ r, CNe p.2 := hbp.2.2
  have ht : ∀ p ∈ r, CTyped p.2 := fun p hp => (hne p hp).1.typed
  have hk : ∀ p ∈ r, p.1 < 65536 := hbp.2.1
  have hsz := hb.length_le
  have hl := serBytes_length ht
  rw [← hl] at hm ⊢
  have hz : (keysOf r).zip (r.map (·.2)) = r := by simp [keysOf, List.zip_map']
  have hzp : ∀ n : Nat, Out.ok (((keysOf r).zip (r.map (·.2))), n) = .ok (r, n) := by intro n; rw [hz]
  rw [raPortableDeserialize]
  by_cases hr : raHasRun r = true
  · have hpos : 0 < r.length := by
      rcases r with _ | _
      · simp [raHasRun] at hr
      · simp
    obtain ⟨hc1, hc2, hc3⟩ := cookie_low (r.length - 1) (by omega)
    by_cases h2 : r.length < NO_OFFSET_THRESHOLD
    · have h2' : ¬ NO_OFFSET_THRESHOLD ≤ r.length := by omega
      have es : serBytes r = leBytes 4 (COOKIE ||| ((r.length - 1) <<< 16)) ++ (runFlags r ++ (kcBytes r ++
          allBytes r)) := by simp [serBytes, hr, h2']
      rw [es] at h hm ⊢
      have a1 := h.left
      have a2 := h.right' (leBytes_length 4 _)
      have a3 := a2.left
      have a4 := a2.right' (runFlags_length r)
      have a5 := a4.left
      have a6 := a4.right' (kcBytes_length r)
      simp only [List.length_append, leBytes_length, runFlags_length, kcBytes_length] at hm ⊢
      rw [if_neg (by omega), readLE_at a1 hc3, ok_bind]
      simp only [hc1, hc2, ne_eq, not_true_eq_false, false_and, if_false, deserSize, if_true, ok_bind]
      have es : ((r.length - 1 : Nat) : Int) + 1 = (r.length : Int) := by omega
      simp only [es, Int.toNat_natCast, true_and]
      have hk1 := readKeys_at r [] hk (by simpa using a5)
      have hk2 := deserLoop_at (runs := some (base + 4)) (maxbytes := maxbytes) a5 (fun o ho => by cases ho; exact a3)
        (fun h => by cases h) r [] _ (4 + (r.length + 7) / 8 + 4 * r.length) rfl hne a6 (by omega)
      simp only [List.length_nil] at hk1 hk2
      rw [if_neg (by omega), if_neg (by omega), if_neg (by omega), if_neg (by omega), hk1, ok_bind, deserSkipOffsets,
        if_neg (by simp; omega), ok_bind]
      simp only
      rw [show r.length * 2 * 2 = 4 * r.length by omega, hk2, ok_bind, pure_ok, hzp]
      simp only [Nat.add_assoc]
    · have h2' : NO_OFFSET_THRESHOLD ≤ r.length := by omega
      have es : serBytes r = leBytes 4 (COOKIE ||| ((r.length - 1) <<< 16)) ++ (runFlags r ++ (kcBytes r ++
          (offBytes (4 + 8 * r.length + (r.length + 7) / 8) r ++ allBytes r))) := by simp [serBytes, hr, h2']
      rw [es] at h hm ⊢
      have a1 := h.left
      have a2 := h.right' (leBytes_length 4 _)
      have a3 := a2.left
      have a4 := a2.right' (runFlags_length r)
      have a5 := a4.left
      have a6 := (a4.right' (kcBytes_length r)).right' (offBytes_length r _)
      simp only [List.length_append, leBytes_length, runFlags_length, kcBytes_length, offBytes_length] at hm ⊢
      rw [if_neg (by omega), readLE_at a1 hc3, ok_bind]
      simp only [hc1, hc2, ne_eq, not_true_eq_false, false_and, if_false, deserSize, if_true, ok_bind]
      have es : ((r.length - 1 : Nat) : Int) + 1 = (r.length : Int) := by omega
      simp only [es, Int.toNat_natCast, true_and]
      have hk1 := readKeys_at r [] hk (by simpa using a5)
      have hk2 := deserLoop_at (runs := some (base + 4)) (maxbytes := maxbytes) a5 (fun o ho => by cases ho; exact a3)
        (fun h => by cases h) r [] _ (4 + (r.length + 7) / 8 + 4 * r.length + 4 * r.length) rfl hne a6 (by omega)
      simp only [List.length_nil] at hk1 hk2
      rw [if_neg (by omega), if_neg (by omega), if_neg (by omega), if_neg (by omega), hk1, ok_bind, deserSkipOffsets,
        if_pos (by simp; omega), if_neg (by omega), ok_bind]
      simp only
      rw [show r.length * 2 * 2 = 4 * r.length by omega, show r.length * 4 = 4 * r.length by omega, hk2, ok_bind,
        pure_ok, hzp]
      simp only [Nat.add_assoc]
  · simp only [Bool.not_eq_true] at hr
    have es : serBytes r = leBytes 4 COOKIE_NORUN ++ (leBytes 4 r.length ++ (kcBytes r ++
        (offBytes (4 + 4 + 4 * r.length + 4 * r.length) r ++ allBytes r))) := by simp [serBytes, hr]
    rw [es] at h hm ⊢
    have a1 := h.left
    have a2 := h.right' (leBytes_length 4 _)
    have a3 := a2.left
    have a4 := a2.right' (leBytes_length 4 _)
    have a5 := a4.left
    have a6 := (a4.right' (kcBytes_length r)).right' (offBytes_length r _)
    simp only [List.length_append, leBytes_length, kcBytes_length, offBytes_length] at hm ⊢
    rw [if_neg (by omega), readLE_at a1 (by decide), ok_bind]
    have hck : ¬ COOKIE_NORUN % 65536 = COOKIE := by decide
    simp only [hck, ne_eq, not_true_eq_false, and_false, if_false, deserSize, false_and]
    rw [if_neg (by omega), readLE_at a3 (by omega), ok_bind, pure_ok, ok_bind]
    have es : toI32 r.length = (r.length : Int) := by rw [toI32, if_pos (by omega)]
    simp only [es, Int.toNat_natCast]
    have hk1 := readKeys_at r [] hk (by simpa using a5)
    have hk2 := deserLoop_at (runs := none) (maxbytes := maxbytes) a5 (fun o ho => by cases ho)
      (fun _ => hr) r [] _ (4 + 4 + 4 * r.length + 4 * r.length) rfl hne a6 (by omega)
    simp only [List.length_nil] at hk1 hk2
    rw [if_neg (by omega), if_neg (by omega), if_neg (by omega), hk1, ok_bind, deserSkipOffsets,
      if_pos (by simp), if_neg (by omega), ok_bind]
    simp only
    rw [show r.length * 2 * 2 = 4 * r.length by omega, show r.length * 4 = 4 * r.length by omega, hk2, ok_bind,
      pure_ok, hzp]
    simp only [Nat.add_assoc]

end CRoaring
