import Verif.Lemmas.ArrOps
import Verif.Lemmas.RunMem2
import Verif.Lemmas.MixedRel
/-! Array containers on memory: operations with a bitset or runs, flipping a range. -/
set_option linter.unusedSimpArgs false
set_option linter.unusedVariables false
namespace CRoaring

variable {fresh : Nat → List Nat}

/-- A write below `k` does not change what is read at `k`. -/
def Later (g : List Nat → List Nat) : Prop := ∀ m j x k, j < k → rdVal (g (m.set j x)) k = rdVal (g m) k

theorem later_const (m : List Nat) : Later (fun _ => m) := fun _ _ _ _ _ => rfl
theorem later_id : Later (fun m => m) := fun m j x k h => by
  simp only [rdVal]
  rw [List.getElem?_set_ne (by omega)]

theorem push_inv {b b' : ArrBuf} {v : List Nat} {x : Nat} (h : AHolds b v) (hi : v.length < b.mem.length) (e : b.push x = .ok b') :
    b'.mem = b.mem.set v.length x := by
  rw [apush_eq (by rw [h.card]; exact hi)] at e
  cases e
  rw [h.card]

theorem astore_inv {b b' : ArrBuf} {v : List Nat} {x : Nat} {k : Bool} (h : AHolds b v) (hi : v.length < b.mem.length) (e : b.store x k = .ok b') :
    b'.mem = b.mem.set v.length x := by
  rw [astore_eq (by rw [h.card]; exact hi)] at e
  cases e
  rw [h.card]

theorem drop_rdL {l : List Nat} {i : Nat} (h : i < l.length) : l.drop i = rdL l i :: l.drop (i + 1) := by
  rw [List.drop_eq_getElem_cons h, rdL]
  simp [h]

theorem filterBuf_spec (keep : Nat → Bool) {g : List Nat → List Nat} (hg : Later g) (l : List Nat) : ∀ n i {d : ArrBuf} {acc : List Nat},
    i + n = l.length → acc.length ≤ i → AHolds d acc → l.length ≤ d.mem.length →
    (∀ k, i ≤ k → k < l.length → rdVal (g d.mem) k = .ok (rdL l k)) →
    ∃ d', filterBuf keep g n i d = .ok d' ∧ AHolds d' (acc ++ (l.drop i).filter keep) := by
  intro n
  induction n with
  | zero =>
    intro i d acc hi ha h hl hr
    exact ⟨d, rfl, by rw [List.drop_eq_nil_of_le (by omega)]; simpa using h⟩
  | succ n ih =>
    intro i d acc hi ha h hl hr
    obtain ⟨d1, e1, h1, l1⟩ := h.store (by omega) (rdL l i) (keep (rdL l i))
    have hm := astore_inv h (by omega) e1
    obtain ⟨d2, e2, h2⟩ := ih (i + 1) (by omega) (by split <;> simp <;> omega) h1 (by omega) (fun k hk hkl => by
      rw [hm, hg _ _ _ _ (by omega)]; exact hr k (by omega) hkl)
    refine ⟨d2, by rw [filterBuf, hr i (by omega) (by omega), ok_bind, e1, ok_bind, e2], ?_⟩
    rw [drop_rdL (by omega)]
    by_cases c : keep (rdL l i) = true
    · rw [List.filter_cons_of_pos c]
      rw [if_pos c] at h2
      simpa using h2
    · rw [List.filter_cons_of_neg c]
      rw [if_neg c] at h2
      simpa using h2

theorem reserve_self (h : AHolds a l) : arrayReserve fresh a a.card a.card = a := by
  have := h.le
  rw [arrayReserve, if_neg (by rw [h.card]; omega)]

theorem arrayBitsetIntersectionBuf_spec (hf : Mallocs fresh) {a : ArrBuf} {l : List Nat} (h : AHolds a l) (hl : l.length ≤ 65536) (b : Bitset)
    (dst : ArrBuf) : ∃ o, arrayBitsetIntersectionBuf fresh a b dst = .ok o ∧ AHolds o (arrayBitsetIntersection l b) := by
  have hc := (arrayReserve_len hf dst a.card a.card (Nat.le_refl _) (by rw [h.card]; exact hl)).1
  have := filterBuf_spec (bitsetGet b) (later_const a.mem) l l.length 0 (by omega) (Nat.le_refl _) (aholds_nil _) (by rw [h.card] at hc; exact hc)
    (fun k _ hk => h.rd hk)
  rw [arrayBitsetIntersectionBuf, h.card]
  simpa [arrayBitsetIntersection] using this

theorem arrayBitsetIntersectionInplaceBuf_spec {a : ArrBuf} {l : List Nat} (h : AHolds a l) (b : Bitset) :
    ∃ o, arrayBitsetIntersectionInplaceBuf fresh a b = .ok o ∧ AHolds o (arrayBitsetIntersection l b) := by
  have := filterBuf_spec (bitsetGet b) later_id l l.length 0 (by omega) (Nat.le_refl _) (aholds_nil a.mem) h.le (fun k _ hk => h.rd hk)
  rw [arrayBitsetIntersectionInplaceBuf, reserve_self h, h.card]
  simpa [arrayBitsetIntersection] using this

theorem arrayBitsetAndnotBuf_spec (hf : Mallocs fresh) {a : ArrBuf} {l : List Nat} (h : AHolds a l) (hl : l.length ≤ 65536) (b : Bitset)
    (dst : ArrBuf) : ∃ o, arrayBitsetAndnotBuf fresh a b dst = .ok o ∧ AHolds o (arrayBitsetAndnot l b) := by
  have hc := (arrayReserve_len hf dst a.card a.card (Nat.le_refl _) (by rw [h.card]; exact hl)).1
  have := filterBuf_spec (fun key => !bitsetGet b key) (later_const a.mem) l l.length 0 (by omega) (Nat.le_refl _) (aholds_nil _)
    (by rw [h.card] at hc; exact hc) (fun k _ hk => h.rd hk)
  rw [arrayBitsetAndnotBuf, h.card]
  simpa [arrayBitsetAndnot] using this

theorem arrayBitsetIandnotBuf_spec {a : ArrBuf} {l : List Nat} (h : AHolds a l) (b : Bitset) :
    ∃ o, arrayBitsetIandnotBuf fresh a b = .ok o ∧ AHolds o (arrayBitsetAndnot l b) := by
  have := filterBuf_spec (fun key => !bitsetGet b key) later_id l l.length 0 (by omega) (Nat.le_refl _) (aholds_nil a.mem) h.le
    (fun k _ hk => h.rd hk)
  rw [arrayBitsetIandnotBuf, reserve_self h, h.card]
  simpa [arrayBitsetAndnot] using this

theorem dropR {rs : List Rle} {j : Nat} (h : j < rs.length) : rs.drop j = rdR rs j :: rs.drop (j + 1) := by
  rw [List.drop_eq_getElem_cons h, rdR_eq h]

theorem arrayRunInterBufLoop_spec {a : ArrBuf} {l : List Nat} {r : RunBuf} {rs : List Rle} (ha : AHolds a l) (hr : Holds r rs) :
    ∀ fuel i j rle d acc, (l.length - i) + (rs.length - j) < fuel → j < rs.length → AHolds d acc → acc.length ≤ i →
      l.length ≤ d.mem.length →
      ∃ o, arrayRunInterBufLoop a r fuel i j rle d = .ok o ∧ AHolds o (acc ++ arrayRunInterLoop l i rle (rs.drop (j + 1))) := by
  intro fuel
  induction fuel with
  | zero => intro i j rle d acc hfu; omega
  | succ fuel ih =>
    intro i j rle d acc hfu hj h hac hl
    rw [arrayRunInterBufLoop, arrayRunInterLoop.eq_def, ha.card]
    by_cases c : i < l.length
    · rw [if_pos c, if_pos c, ha.rd c, ok_bind]
      simp only
      by_cases c1 : rle.1 + rle.2 < rdL l i
      · rw [if_pos c1, if_pos c1, hr.n]
        by_cases c2 : j + 1 = rs.length
        · rw [if_pos c2, List.drop_eq_nil_of_le (by omega)]
          exact ⟨d, rfl, by simpa using h⟩
        · rw [if_neg c2, hr.rd (by omega), ok_bind, dropR (by omega)]
          exact ih i (j + 1) _ d acc (by omega) (by omega) h hac hl
      · rw [if_neg c1, if_neg c1]
        by_cases c2 : rle.1 > rdL l i
        · rw [if_pos c2, if_pos c2, ha.vals]
          have := lt_advanceUntil (rdL l) i l.length rle.1
          exact ih _ j rle d acc (by omega) hj h (by omega) hl
        · rw [if_neg c2, if_neg c2]
          obtain ⟨d1, e1, h1, l1⟩ := h.push (by omega) (rdL l i)
          obtain ⟨o, e2, h2⟩ := ih (i + 1) j rle d1 _ (by omega) hj h1 (by simp; omega) (by omega)
          exact ⟨o, by rw [e1, ok_bind, e2], by simpa using h2⟩
    · rw [if_neg c, if_neg c]
      exact ⟨d, rfl, by simpa using h⟩

theorem arrayRunIntersectionBuf_spec (hf : Mallocs fresh) {a : ArrBuf} {l : List Nat} {r : RunBuf} {rs : List Rle} (ha : AHolds a l)
    (hl : l.length ≤ 65536) (hr : Holds r rs) (hne : rs ≠ []) (dst : ArrBuf) :
    ∃ o, arrayRunIntersectionBuf fresh a r dst = .ok o ∧ AHolds o (arrayRunIntersection l rs) := by
  rw [arrayRunIntersectionBuf, hr.isFull hne, ok_bind, arrayRunIntersection.eq_def]
  have hpos : 0 < rs.length := List.length_pos_iff.2 hne
  by_cases c : runIsFull rs = true
  · rw [if_pos c, if_pos c]; exact arrayCopyBuf_spec hf ha hl dst
  · rw [if_neg c, if_neg c]
    have hc := (arrayReserve_len hf dst a.card a.card (Nat.le_refl _) (by rw [ha.card]; exact hl)).1
    simp only
    rw [if_neg (by rw [hr.n]; omega), hr.rd hpos, ok_bind, ha.card] at *
    rw [hr.n]
    obtain ⟨o, e, h⟩ := arrayRunInterBufLoop_spec ha hr (l.length + rs.length + 1) 0 0 (rdR rs 0) ⟨0, _⟩ [] (by omega) hpos (aholds_nil _)
      (Nat.le_refl _) hc
    refine ⟨o, e, ?_⟩
    have e0 := dropR hpos
    rw [List.drop_zero] at e0
    rw [List.nil_append] at h
    rw [e0]
    exact h

theorem nextRunBuf_spec {r : RunBuf} {rs : List Rle} (hr : Holds r rs) {val : Nat} (hv : val < 65536) :
    ∀ fuel w, rs.length - w < fuel → w < rs.length →
      ∃ w', nextRunBuf r val fuel w = .ok (w', (nextRunFor val (rs.drop (w + 1))).1) ∧ w' < rs.length ∧
        (nextRunFor val (rs.drop (w + 1))).2 = rs.drop (w' + 1) := by
  intro fuel
  induction fuel with
  | zero => intro w h; omega
  | succ fuel ih =>
    intro w hfu hw
    rw [nextRunBuf, hr.n]
    by_cases c : w + 1 < rs.length
    · rw [if_pos c, hr.rd c, ok_bind, dropR c, nextRunFor]
      by_cases c1 : val > (rdR rs (w + 1)).1 + (rdR rs (w + 1)).2
      · rw [if_pos c1, if_pos c1]
        exact ih (w + 1) (by omega) c
      · rw [if_neg c1, if_neg c1]
        exact ⟨w + 1, rfl, c, rfl⟩
    · rw [if_neg c, if_neg (by omega), List.drop_eq_nil_of_le (by omega), nextRunFor]
      exact ⟨w, rfl, hw, (List.drop_eq_nil_of_le (by omega)).symm⟩

theorem arrayRunAndnotBufLoop_spec {g : List Nat → List Nat} (hg : Later g) {l : List Nat} (hlt : ∀ x ∈ l, x < 65536) {r : RunBuf} {rs : List Rle}
    (hr : Holds r rs) : ∀ n i s d acc, i + n = l.length → acc.length ≤ i → AHolds d acc → l.length ≤ d.mem.length → s.1 < rs.length →
    (∀ k, i ≤ k → k < l.length → rdVal (g d.mem) k = .ok (rdL l k)) →
    ∃ o, arrayRunAndnotBufLoop g r n i s d = .ok o ∧ AHolds o (acc ++ arrayRunAndnotLoop s.2.1 s.2.2 (rs.drop (s.1 + 1)) (l.drop i)) := by
  intro n
  induction n with
  | zero =>
    intro i s d acc hi hac h hl hs hrd
    rw [List.drop_eq_nil_of_le (by omega : l.length ≤ i)]
    exact ⟨d, rfl, by simpa [arrayRunAndnotLoop] using h⟩
  | succ n ih =>
    intro i s d acc hi hac h hl hs hrd
    have hskip : ∀ s : Nat × Nat × Nat, s.1 < rs.length → ∃ o, arrayRunAndnotBufLoop g r n (i + 1) s d = .ok o ∧
        AHolds o (acc ++ arrayRunAndnotLoop s.2.1 s.2.2 (rs.drop (s.1 + 1)) (l.drop (i + 1))) := fun s hs =>
      ih (i + 1) s d acc (by omega) (by omega) h hl hs (fun k hk hkl => hrd k (by omega) hkl)
    have hkeep : ∀ s : Nat × Nat × Nat, s.1 < rs.length → ∃ o, (do let d ← d.push (rdL l i); arrayRunAndnotBufLoop g r n (i + 1) s d) = .ok o ∧
        AHolds o (acc ++ rdL l i :: arrayRunAndnotLoop s.2.1 s.2.2 (rs.drop (s.1 + 1)) (l.drop (i + 1))) := by
      intro s hs
      obtain ⟨d1, e1, h1, l1⟩ := h.push (by omega) (rdL l i)
      have hm := push_inv h (by omega) e1
      obtain ⟨o, e2, h2⟩ := ih (i + 1) s d1 _ (by omega) (by simp; omega) h1 (by omega) hs (fun k hk hkl => by
        rw [hm, hg _ _ _ _ (by omega)]; exact hrd k (by omega) hkl)
      exact ⟨o, by rw [e1, ok_bind, e2], by simpa using h2⟩
    have hv : rdL l i < 65536 := hlt _ (by rw [rdL]; simp [show i < l.length by omega])
    rw [arrayRunAndnotBufLoop, hrd i (by omega) (by omega), ok_bind, drop_rdL (by omega), arrayRunAndnotLoop]
    by_cases c : rdL l i < s.2.1
    · rw [if_pos c, if_pos c]; exact hkeep s hs
    · rw [if_neg c, if_neg c]
      by_cases c1 : rdL l i ≤ s.2.2
      · rw [if_pos c1, if_pos c1]; exact hskip s hs
      · rw [if_neg c1, if_neg c1]
        obtain ⟨w, e, hw, hq⟩ := nextRunBuf_spec hr hv (r.n + 1) s.1 (by rw [hr.n]; omega) hs
        rw [e, ok_bind]
        simp only
        rw [hq]
        split
        · exact hkeep (w, _) hw
        · exact hskip (w, _) hw

theorem arrayRunAndnotBuf_spec (hf : Mallocs fresh) {a : ArrBuf} {l : List Nat} {r : RunBuf} {rs : List Rle} (ha : AHolds a l) (hl : ArrOK l)
    (hr : Holds r rs) (dst : ArrBuf) :
    ∃ o, arrayRunAndnotBuf fresh a r dst = .ok o ∧ AHolds o (arrayRunAndnot l rs) := by
  have hc := (arrayReserve_len hf dst a.card a.card (Nat.le_refl _) (by rw [ha.card]; exact hl.length_le)).1
  have hc' : l.length ≤ (arrayReserve fresh dst a.card a.card).mem.length := by rw [ha.card] at hc; rw [ha.card]; exact hc
  rw [arrayRunAndnotBuf, hr.n]
  cases rs with
  | nil =>
    simp only [List.length_nil, if_true]
    obtain ⟨m', e1, e2, _⟩ := storeu_holds hc'
    rw [ha.readAll, ok_bind, e1, ok_bind, ha.card]
    exact ⟨_, rfl, e2⟩
  | cons x xs =>
    rw [if_neg (by simp), hr.rd (by simp), ok_bind]
    obtain ⟨o, e, h⟩ := arrayRunAndnotBufLoop_spec (later_const a.mem) hl.lt hr l.length 0 (0, x.1, x.1 + x.2) ⟨0, _⟩ [] (by omega) (Nat.le_refl _)
      (aholds_nil _) hc' (by simp) (fun k _ hk => ha.rd hk)
    rw [ha.card] at *
    exact ⟨o, e, by simpa [arrayRunAndnot] using h⟩

theorem arrayRunIandnotBuf_spec {a : ArrBuf} {l : List Nat} {r : RunBuf} {rs : List Rle} (ha : AHolds a l) (hl : ArrOK l)
    (hr : Holds r rs) : ∃ o, arrayRunIandnotBuf fresh a r = .ok o ∧ AHolds o (arrayRunAndnot l rs) := by
  rw [arrayRunIandnotBuf, reserve_self ha, hr.n]
  have hle := ha.le
  have hcard := ha.card
  cases rs with
  | nil =>
    simp only [List.length_nil, if_true]
    rw [mvVals_eq (by omega) (by omega), ok_bind]
    refine ⟨_, rfl, ?_⟩
    obtain ⟨rest, rfl⟩ := ha
    exact ⟨rest, by simp [arrayRunAndnot]⟩
  | cons x xs =>
    rw [if_neg (by simp), hr.rd (by simp), ok_bind]
    obtain ⟨o, e, h⟩ := arrayRunAndnotBufLoop_spec later_id hl.lt hr l.length 0 (0, x.1, x.1 + x.2) ⟨0, a.mem⟩ [] (by omega) (Nat.le_refl _)
      (aholds_nil _) hle (by simp) (fun k _ hk => ha.rd hk)
    rw [ha.card]
    exact ⟨o, e, by simpa [arrayRunAndnot] using h⟩

/-! ### Runs into an array -/

theorem runsLoop_spec {σ : Type} {r : RunBuf} {v : List Rle} (hr : Holds r v) {f : σ → Rle → Out σ} (Inv : Nat → σ → Prop)
    (hstep : ∀ i s, i < v.length → Inv i s → ∃ s', f s (rdR v i) = .ok s' ∧ Inv (i + 1) s') :
    ∀ n i s, i + n = v.length → Inv i s → ∃ s', runsLoop r f n i s = .ok s' ∧ Inv v.length s' := by
  intro n
  induction n with
  | zero => intro i s hi h; rw [show v.length = i by omega]; exact ⟨s, rfl, h⟩
  | succ n ih =>
    intro i s hi h
    obtain ⟨s1, e1, h1⟩ := hstep i s (by omega) h
    obtain ⟨s2, e2, h2⟩ := ih (i + 1) s1 (by omega) h1
    exact ⟨s2, by rw [runsLoop, hr.rd (by omega), ok_bind, e1, ok_bind, e2], h2⟩

theorem runCard_nil : runCard [] = 0 := rfl

theorem runsInto_spec {r : RunBuf} {v : List Rle} (hr : Holds r v) {f : ArrBuf → Rle → Out ArrBuf} {F : Rle → List Nat}
    (hF : ∀ x ∈ v, (F x).length ≤ x.2 + 1)
    (hf : ∀ x ∈ v, ∀ d acc, AHolds d acc → acc.length + (x.2 + 1) ≤ d.mem.length →
      ∃ d', f d x = .ok d' ∧ AHolds d' (acc ++ F x) ∧ d'.mem.length = d.mem.length)
    {d : ArrBuf} (hd : AHolds d []) (hc : runCard v ≤ d.mem.length) :
    ∃ d', runsLoop r f r.n 0 d = .ok d' ∧ AHolds d' (v.flatMap F) := by
  obtain ⟨d', e, h, _⟩ := runsLoop_spec hr (f := f)
    (fun i s => AHolds s ((v.take i).flatMap F) ∧ ((v.take i).flatMap F).length + runCard (v.drop i) ≤ s.mem.length)
    (fun i s hi h => by
      have hm : rdR v i ∈ v := by rw [rdR_eq hi]; exact List.getElem_mem hi
      have e0 := dropR hi
      have h2 := h.2
      rw [e0, runCard_cons] at h2
      obtain ⟨d', e, g1, g2⟩ := hf _ hm s _ h.1 (by omega)
      have ht : (v.take (i + 1)).flatMap F = (v.take i).flatMap F ++ F (rdR v i) := by
        rw [List.take_add_one, List.getElem?_eq_getElem hi, rdR_eq hi]
        rw [List.flatMap_append]; simp
      refine ⟨d', e, by rw [ht]; exact g1, ?_⟩
      rw [ht, List.length_append, g2]
      have := hF _ hm
      omega) v.length 0 d (by omega) ⟨by simpa using hd, by simpa using hc⟩
  rw [hr.n]
  exact ⟨d', e, by simpa using h⟩

theorem arrayFromRunBuf_spec (hf : Mallocs fresh) {r : RunBuf} {v : List Rle} (hr : Holds r v) :
    ∃ o, arrayFromRunBuf fresh r = .ok o ∧ AHolds o (arrayFromRun v) := by
  rw [arrayFromRunBuf, hr.vals]
  exact runsInto_spec hr (F := fun x => (List.range' x.1 (x.2 + 1)).map (· % 65536)) (by simp)
    (fun x _ d acc h hl => pushRange_spec (x.2 + 1) x.1 h hl) (arrayCreateBuf_holds _) (by rw [arrayCreateBuf_len hf]; omega)

theorem convertToArrayBuf_spec (hf : Mallocs fresh) {r : RunBuf} {v : List Rle} (hr : Holds r v) (hv : RunOK v) :
    ∃ o, convertToArrayBuf fresh r (runCard v) = .ok o ∧ AHolds o (v.flatMap runCells) := by
  rw [convertToArrayBuf]
  have hlt : ∀ x ∈ v, x.1 + x.2 < 65536 := fun x hx => hv.2 x hx
  have hu : ∀ x ∈ v, u16 ((x.1 : Int) + x.2) = x.1 + x.2 := fun x hx => by
    have := hlt x hx; unfold u16; omega
  refine runsInto_spec hr (F := runCells) (fun x hx => ?_) (fun x hx d acc h hl => ?_) (arrayCreateBuf_holds _) (by rw [arrayCreateBuf_len hf]; omega)
  · simp [runCells, hu x hx]
  · rw [hu x hx]
    have := hlt x hx
    obtain ⟨d1, e1, h1, l1⟩ := pushRange_spec (x.1 + x.2 - x.1) x.1 h (by omega)
    obtain ⟨d2, e2, h2, l2⟩ := h1.push (by simp; omega) (x.1 + x.2)
    refine ⟨d2, by rw [e1, ok_bind, e2], ?_, by omega⟩
    rw [range'_map_mod _ _ (by omega)] at h2
    rw [runCells, hu x hx]
    simpa using h2

theorem runBitsetInterBuf_spec (hf : Mallocs fresh) {r : RunBuf} {v : List Rle} (hr : Holds r v) {b : Bitset} (hb : (runCard v : Int) ≤ b.card) :
    ∃ o, runBitsetInterBuf fresh r b = .ok o ∧
      AHolds o ((v.flatMap fun (r : Rle) => (List.range' r.1 (r.2 + 1)).filter (bitsetGet b)).map (· % 65536)) := by
  rw [runBitsetInterBuf, hr.vals]
  rw [if_neg (by omega), Int.toNat_natCast, List.map_flatMap]
  exact runsInto_spec hr (F := fun x => ((List.range' x.1 (x.2 + 1)).filter (bitsetGet b)).map (· % 65536))
    (fun x _ => by rw [List.length_map]; exact Nat.le_trans (List.length_filter_le _ _) (by simp))
    (fun x _ d acc h hl => storeRange_spec _ (x.2 + 1) x.1 h hl) (arrayCreateBuf_holds _) (by rw [arrayCreateBuf_len hf]; omega)

theorem runBitsetAndnotBuf_spec (hf : Mallocs fresh) {r : RunBuf} {v : List Rle} (hr : Holds r v) (b : Bitset) :
    ∃ o, runBitsetAndnotBuf fresh r b = .ok o ∧
      AHolds o ((v.flatMap fun (r : Rle) => (List.range' r.1 (r.2 + 1)).filter fun v => !bitsetGet b v).map (· % 65536)) := by
  rw [runBitsetAndnotBuf, hr.vals, List.map_flatMap]
  exact runsInto_spec hr (F := fun x => ((List.range' x.1 (x.2 + 1)).filter (fun v => !bitsetGet b v)).map (· % 65536))
    (fun x _ => by rw [List.length_map]; exact Nat.le_trans (List.length_filter_le _ _) (by simp))
    (fun x _ d acc h hl => pushRangeIf_spec _ (x.2 + 1) x.1 h hl) (arrayCreateBuf_holds _) (by rw [arrayCreateBuf_len hf]; omega)

theorem subtractRunBuf_spec (l : List Nat) : ∀ n i next pos {d : ArrBuf} {acc : List Nat}, AHolds d acc → acc.length + n ≤ d.mem.length →
    ∃ d', subtractRunBuf l i n next pos d = .ok (d', (subtractRun l i n next pos).2) ∧ AHolds d' (acc ++ (subtractRun l i n next pos).1) ∧
      d'.mem.length = d.mem.length ∧ (subtractRun l i n next pos).1.length ≤ n := by
  intro n
  induction n with
  | zero => intro i next pos d acc h hl; exact ⟨d, rfl, by simpa [subtractRun] using h, rfl, by simp [subtractRun]⟩
  | succ n ih =>
    intro i next pos d acc h hl
    rw [subtractRunBuf, subtractRun]
    by_cases c : i ≠ next
    · rw [if_pos c, if_pos c]
      obtain ⟨d1, e1, h1, l1⟩ := h.push (by omega) (i % 65536)
      obtain ⟨d2, e2, h2, l2, l3⟩ := ih (i + 1) next pos h1 (by simp; omega)
      exact ⟨d2, by rw [e1, ok_bind, e2], by simpa using h2, by omega, by simp; omega⟩
    · rw [if_neg c, if_neg c]
      by_cases c1 : pos + 1 ≥ l.length
      · rw [if_pos c1, if_pos c1]
        obtain ⟨d2, e2, h2, l2, l3⟩ := ih (i + 1) 0 pos h (by omega)
        exact ⟨d2, e2, h2, l2, by omega⟩
      · rw [if_neg c1, if_neg c1, rdVal_rdL (by omega), ok_bind]
        obtain ⟨d2, e2, h2, l2, l3⟩ := ih (i + 1) (rdL l (pos + 1)) (pos + 1) h (by omega)
        exact ⟨d2, e2, h2, l2, by omega⟩

theorem runArraySubtractBuf_spec (hf : Mallocs fresh) {r : RunBuf} {v : List Rle} (hr : Holds r v) {a : ArrBuf} {l : List Nat} (ha : AHolds a l) :
    ∃ o, runArraySubtractBuf fresh r a = .ok o ∧ AHolds o (runArrayArraySubtract l 0 v) := by
  rw [runArraySubtractBuf, hr.vals, ha.vals, hr.n]
  obtain ⟨p, e, acc, h1, h2, _⟩ := runsLoop_spec hr (f := subtractStepBuf l)
    (fun i s => ∃ acc, AHolds s.1 acc ∧ runArrayArraySubtract l 0 v = acc ++ runArrayArraySubtract l s.2 (v.drop i) ∧
      acc.length + runCard (v.drop i) ≤ s.1.mem.length)
    (fun i s hi ⟨acc, h1, h2, h3⟩ => by
      obtain ⟨d, low⟩ := s
      simp only at h1 h2 h3
      rw [dropR hi] at h2 h3
      generalize rdR v i = x at *
      rw [runCard_cons] at h3
      rw [runArrayArraySubtract] at h2
      simp only at h2
      rw [subtractStepBuf]
      simp only
      have hn : x.1 + x.2 + 1 - x.1 = x.2 + 1 := by omega
      rw [hn] at h2 ⊢
      by_cases c : advanceFrom (rdL l) low l.length x.1 ≥ l.length
      · rw [if_pos c] at h2 ⊢
        obtain ⟨d1, e1, g1, g2⟩ := pushRange_spec (x.2 + 1) x.1 h1 (by omega)
        refine ⟨_, by rw [e1, ok_bind], _, g1, by simpa using h2, by simp [g2]; omega⟩
      · rw [if_neg c] at h2 ⊢
        rw [rdVal_rdL (by omega), ok_bind]
        by_cases c1 : rdL l (advanceFrom (rdL l) low l.length x.1) ≥ x.1 + x.2 + 1
        · rw [if_pos c1] at h2 ⊢
          obtain ⟨d1, e1, g1, g2⟩ := pushRange_spec (x.2 + 1) x.1 h1 (by omega)
          refine ⟨_, by rw [e1, ok_bind], _, g1, by simpa using h2, by simp [g2]; omega⟩
        · rw [if_neg c1] at h2 ⊢
          obtain ⟨d1, e1, g1, g2, g3⟩ := subtractRunBuf_spec l (x.2 + 1) x.1 (rdL l (advanceFrom (rdL l) low l.length x.1))
            (advanceFrom (rdL l) low l.length x.1) h1 (by omega)
          refine ⟨_, e1, _, g1, by simpa using h2, by simp [g2]; omega⟩)
    v.length 0 (arrayCreateBuf fresh (runCard v), 0) (by omega)
    ⟨[], arrayCreateBuf_holds _, by simp, by simp [arrayCreateBuf_len hf]⟩
  rw [e, ok_bind]
  refine ⟨_, rfl, ?_⟩
  rw [h2]
  simpa [runArrayArraySubtract] using h1

/-! ### Flipping a range of an array -/

theorem negationFill_spec (l : List Nat) {last : Int} (hlast : last < l.length) : ∀ n val pos {d : ArrBuf} {acc : List Nat}, AHolds d acc →
    acc.length + (negationLoop l last val n pos).length ≤ d.mem.length →
    ∃ d', negationFill l last val n pos d = .ok d' ∧ AHolds d' (acc ++ negationLoop l last val n pos) ∧ d'.mem.length = d.mem.length := by
  intro n
  induction n with
  | zero => intro val pos d acc h hl; exact ⟨d, rfl, by simpa [negationLoop] using h, rfl⟩
  | succ n ih =>
    intro val pos d acc h hl
    rw [negationFill]
    rw [negationLoop] at hl ⊢
    by_cases c : (pos : Int) ≤ last
    · rw [if_pos c] at hl ⊢
      rw [if_pos c, rdVal_rdL (by omega), ok_bind]
      by_cases c1 : val % 65536 ≠ rdL l pos
      · rw [if_pos c1] at hl ⊢
        rw [if_pos c1]
        rw [List.length_cons] at hl
        obtain ⟨d1, e1, h1, l1⟩ := h.push (by omega) (val % 65536)
        obtain ⟨d2, e2, h2, l2⟩ := ih (val + 1) pos h1 (by simp; omega)
        exact ⟨d2, by rw [e1, ok_bind, e2], by simpa using h2, by omega⟩
      · rw [if_neg c1] at hl ⊢
        rw [if_neg c1]
        exact ih (val + 1) (pos + 1) h hl
    · rw [if_neg c] at hl ⊢
      rw [if_neg c]
      rw [List.length_cons] at hl
      obtain ⟨d1, e1, h1, l1⟩ := h.push (by omega) (val % 65536)
      obtain ⟨d2, e2, h2, l2⟩ := ih (val + 1) pos h1 (by simp; omega)
      exact ⟨d2, by rw [e1, ok_bind, e2], by simpa using h2, by omega⟩

theorem filter_not_length {l : List Nat} (hs : SSorted l) : ∀ n v, ((List.range' v n).filter fun x => decide (x ∉ l)).length + lb l (v + n) = n + lb l v := by
  intro n
  induction n with
  | zero => intro v; simp
  | succ n ih =>
    intro v
    have := ih (v + 1)
    rw [show v + 1 + n = v + (n + 1) by omega] at this
    rw [List.range'_succ]
    by_cases hm : v ∈ l
    · have h1 := (mem_iff_lb_succ hs v).1 hm
      rw [List.filter_cons_of_neg (by simpa using hm)]
      omega
    · have h1 := lb_succ_not hs hm
      rw [List.filter_cons_of_pos (by simpa using hm), List.length_cons]
      omega

/-- The values stored when `[a, b)` is flipped in `l`. -/
def negL (l : List Nat) (a b : Nat) : List Nat :=
  l.take (lb l a) ++ (List.range' a (b - a)).filter (fun x => decide (x ∉ l)) ++ l.drop (lb l b)

theorem negL_length {l : List Nat} (hs : SSorted l) {a b : Nat} (hab : a ≤ b) :
    (negL l a b).length + 2 * lb l b = l.length + (b - a) + 2 * lb l a := by
  have h1 := filter_not_length hs (b - a) a
  have h2 := lb_le l b
  have h3 : lb l a ≤ lb l b := lb_mono hab
  rw [show a + (b - a) = b by omega] at h1
  simp only [negL, List.length_append, List.length_take, List.length_drop]
  omega

theorem arrayNegationBuf_spec (hf : Mallocs fresh) {src : ArrBuf} {l : List Nat} (h : AHolds src l) (hl : ArrOK l) {a b : Nat} (hab : a < b)
    (hb : b ≤ 65536) :
    ∃ o, arrayNegationBuf fresh src a b (lb l a) ((lb l b : Int) - 1) (negL l a b).length = .ok o ∧ AHolds o (negL l a b) := by
  have h2 := lb_le l b
  have h3 : lb l a ≤ lb l b := lb_mono (by omega)
  rw [arrayNegationBuf]
  by_cases c : (negL l a b).length = 0
  · rw [if_pos c]
    have := List.eq_nil_of_length_eq_zero c
    rw [this]
    exact ⟨_, rfl, aholds_nil _⟩
  · rw [if_neg c, h.card, h.vals]
    have hN := negationLoop_eq hl.sorted a (b - a) (lb l a) ((lb l b : Int) - 1) rfl (by rw [show a + (b - a) = b by omega]) (by omega)
    rw [Int.toNat_natCast, show ((lb l b : Int) - 1 + 1).toNat = lb l b by omega, h.readN (by omega), ok_bind]
    rw [List.drop_zero]
    have hcap : (arrayCreateBuf fresh (negL l a b).length).mem.length = (negL l a b).length := arrayCreateBuf_len hf _
    have hlen : (negL l a b).length = lb l a + (negationLoop l ((lb l b : Int) - 1) a (b - a) (lb l a)).length + (l.length - lb l b) := by
      rw [hN]; simp [negL]; omega
    have htk : (l.take (lb l a)).length = lb l a := by simp; omega
    obtain ⟨m', e1, e2, e3⟩ := storeu_holds (m := (arrayCreateBuf fresh (negL l a b).length).mem) (v := l.take (lb l a)) (by omega)
    rw [htk] at e2
    rw [e1, ok_bind]
    obtain ⟨d, e4, h4, l4⟩ := negationFill_spec l (last := (lb l b : Int) - 1) (by omega) (b - a) a (lb l a) e2 (by simp only; omega)
    rw [e4, ok_bind, h.readN (by omega), ok_bind, List.take_of_length_le (by simp)]
    simp only at l4
    have hdc := h4.card
    simp only [List.length_append, htk] at hdc
    rw [storeu_ok (by simp; omega), ok_bind]
    refine ⟨_, rfl, [], ?_⟩
    congr 1
    obtain ⟨rest, rfl⟩ := h4
    simp only [List.length_append, htk] at l4
    simp only [List.append_nil]
    rw [List.take_left' rfl, List.drop_eq_nil_of_le (as := _ ++ rest) (by simp only [List.length_drop, List.length_append, htk]; omega),
      List.append_nil, hN]
    rfl

end CRoaring
