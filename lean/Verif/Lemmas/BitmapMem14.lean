import Verif.Lemmas.BitmapMem13
import Verif.Lemmas.Iter2
import Verif.Model.BitmapMemIter

set_option linter.unusedSimpArgs false
set_option linter.unusedVariables false
set_option linter.constructorNameAsVariable false

/-! Iterators over bitmaps in memory. -/

namespace CRoaring
open Spec

theorem rdWord_eq {ws : List Word} {i : Nat} (h : i < ws.length) : rdWord ws i = .ok (wd ws i) := by
  simp [rdWord, wd, h]

theorem AHolds.rdZ {b : ArrBuf} {v : List Nat} (h : AHolds b v) {i : Int} (h0 : 0 ≤ i) (hi : i < v.length) :
    rdValZ b.mem i = .ok (rdL v i.toNat) := by
  rw [rdValZ, if_neg (by omega), h.rd (by omega)]

theorem Holds.rdZ {b : RunBuf} {v : List Rle} (h : Holds b v) {i : Int} (h0 : 0 ≤ i) (hi : i < v.length) :
    rdRunZ b.mem i = .ok (rdR v i.toNat) := by
  rw [rdRunZ, if_neg (by omega), h.rd (by omega)]

/-! ### Moves in a container -/

theorem firstBitBuf_spec (ws : List Word) (i : Nat) (h : ∃ x, bitAt ws x = true) : firstBitBuf i ws = .ok (firstBit i ws) := by
  induction ws generalizing i with
  | nil => obtain ⟨x, hx⟩ := h; rw [bitAt_ge (by simp)] at hx; exact absurd hx (by simp)
  | cons w ws ih =>
    rw [firstBitBuf, firstBit]
    by_cases hw : w = 0#64
    · rw [if_pos hw, if_pos hw]
      apply ih
      obtain ⟨x, hx⟩ := h
      refine ⟨x - 64, ?_⟩
      have h0 := bitAt_word (w :: ws) (x / 64) (x % 64) (Nat.mod_lt _ (by omega))
      rw [show 64 * (x / 64) + x % 64 = x by omega, hx] at h0
      have hx1 : 64 ≤ x := by
        rcases Nat.lt_or_ge x 64 with h1 | h1
        · rw [show x / 64 = 0 by omega] at h0
          simp [wd, hw] at h0
        · exact h1
      have h1 := bitAt_word ws (x / 64 - 1) (x % 64) (Nat.mod_lt _ (by omega))
      rw [show 64 * (x / 64 - 1) + x % 64 = x - 64 by omega] at h1
      rw [h1, h0]
      obtain ⟨k, hk⟩ : ∃ k, x / 64 = k + 1 := ⟨x / 64 - 1, by omega⟩
      rw [hk]
      simp [wd]
    · rw [if_neg hw, if_neg hw]

theorem lastBitBuf_spec {ws : List Word} (hl : ws.length = 1024) (n y : Nat) (hn : n < 1024) (h : prevBit ws (wd ws n) n = some y) :
    lastBitBuf ws n = .ok y := by
  induction n with
  | zero =>
    rw [prevBit] at h
    rw [lastBitBuf, rdWord_eq (by omega), ok_bind]
    split at h
    · exact absurd h (by simp)
    · rename_i hw
      rw [if_neg hw]
      simpa using h
  | succ n ih =>
    rw [prevBit] at h
    rw [lastBitBuf, rdWord_eq (by omega), ok_bind]
    split at h
    · rename_i hw
      rw [if_pos hw]
      exact ih (by omega) h
    · rename_i hw
      rw [if_neg hw]
      simpa using h

theorem bitset_lastBuf {b : Bitset} (hl : b.words.length = 1024) (hne : ∃ x, bitAt b.words x = true) :
    lastBitBuf b.words (NWORDS - 1) = .ok (lastBit b.words (NWORDS - 1)) := by
  have h := prevBit_spec b.words 65536 1023 (wd b.words 1023) (by omega) (fun i hi => by
    rw [wd_bit _ _ _ hi, decide_eq_true (by omega), Bool.and_true]) (fun y h1 h2 => by omega)
  cases e : prevBit b.words (wd b.words 1023) 1023 with
  | none =>
    rw [e] at h
    obtain ⟨x, hx⟩ := hne
    have := h x (bitAt_lt hl hx)
    rw [this] at hx
    exact absurd hx (by simp)
  | some y =>
    rw [show NWORDS - 1 = 1023 from rfl, lastBitBuf_spec hl 1023 y (by omega) e, lastBit_eq _ _ _ e]

theorem containerInitBuf_spec {o : CBuf} {c : Container} (ho : CHolds o c) (h : CNe c) :
    containerInitIteratorBuf o = .ok (containerInitIterator c) := by
  obtain ⟨h, hne⟩ := h
  cases o <;> cases c <;> try exact ho.elim
  · cases ho
    rw [containerInitIteratorBuf, firstBitBuf_spec _ _ hne, ok_bind]
    rfl
  · rename_i a l
    have hl : 0 < l.length := by
      obtain ⟨x, hx⟩ := hne
      exact List.length_pos_of_mem (by simpa [chas] using hx)
    rw [containerInitIteratorBuf, AHolds.rd ho hl, ok_bind]
    rfl
  · rename_i r rs
    have hl : 0 < rs.length := by
      obtain ⟨x, hx⟩ := hne
      obtain ⟨r, hr, _⟩ := runHas_iff.1 hx
      exact List.length_pos_of_mem hr
    rw [containerInitIteratorBuf, Holds.rd ho hl, ok_bind]
    rfl

theorem containerInitLastBuf_spec {o : CBuf} {c : Container} (ho : CHolds o c) (h : CNe c) :
    containerInitIteratorLastBuf o = .ok (containerInitIteratorLast c) := by
  obtain ⟨h, hne⟩ := h
  cases o <;> cases c <;> try exact ho.elim
  · cases ho
    rw [containerInitIteratorLastBuf, bitset_lastBuf h.1.len hne, ok_bind]
    rfl
  · rename_i a l
    have hl : 0 < l.length := by
      obtain ⟨x, hx⟩ := hne
      exact List.length_pos_of_mem (by simpa [chas] using hx)
    rw [containerInitIteratorLastBuf, AHolds.card ho, AHolds.rdZ ho (by omega) (by omega), ok_bind]
    rw [containerInitIteratorLast, show ((l.length : Int) - 1).toNat = l.length - 1 by omega]
  · rename_i r rs
    have hl : 0 < rs.length := by
      obtain ⟨x, hx⟩ := hne
      obtain ⟨r, hr, _⟩ := runHas_iff.1 hx
      exact List.length_pos_of_mem hr
    rw [containerInitIteratorLastBuf, Holds.n ho, Holds.rdZ ho (by omega) (by omega), ok_bind]
    rw [containerInitIteratorLast, show ((rs.length : Int) - 1).toNat = rs.length - 1 by omega]

theorem skipWordsBuf_spec {ws : List Word} (n : Nat) : ∀ (k : Nat) (w : Word), k + n < ws.length →
    skipWordsBuf ws w k n = .ok (skipWords ws w k n) := by
  induction n with
  | zero => intro k w h; rfl
  | succ n ih =>
    intro k w h
    rw [skipWordsBuf, skipWords]
    split
    · rw [rdWord_eq (by omega), ok_bind, ih (k + 1) _ (by omega)]
    · rfl

theorem indexLoop_skip (ws : List Word) (n : Nat) : ∀ (k : Nat) (w : Word), indexEqualOrLargerLoop ws w k n =
    if (skipWords ws w k n).2 ≠ 0#64 then (((skipWords ws w k n).1 * 64 + ctz (skipWords ws w k n).2 : Nat) : Int) else -1 := by
  induction n with
  | zero =>
    intro k w
    rw [indexEqualOrLargerLoop, skipWords]
    by_cases h : w = 0#64
    · rw [if_pos h, if_neg (by simpa using h)]
    · rw [if_neg h, if_pos h]
  | succ n ih =>
    intro k w
    rw [indexEqualOrLargerLoop, skipWords]
    by_cases h : w = 0#64
    · rw [if_pos h, if_pos h, ih]
    · rw [if_neg h, if_neg h, if_pos h]

theorem containerNextBuf_spec {o : CBuf} {c : Container} (ho : CHolds o c) (h : CInv c) {idx : Int} {v : Nat} (hc : CIt c idx v) :
    containerIteratorNextBuf o idx v = .ok (containerIteratorNext c idx v) := by
  cases o <;> cases c <;> try exact ho.elim
  · cases ho
    rename_i b
    obtain ⟨rfl, hv⟩ := hc
    have hl := h.1.len
    simp only [containerIteratorNextBuf, containerIteratorNext]
    split
    · rfl
    · rename_i hk
      simp only [NWORDS] at hk
      rw [rdWord_eq (by omega), ok_bind, skipWordsBuf_spec _ _ _ (by simp only [NWORDS]; omega), ok_bind, indexLoop_skip]
      generalize skipWords _ _ _ _ = q
      by_cases hq : q.2 = 0#64
      · simp [hq]
      · rw [if_pos hq, if_pos hq, if_neg (by omega), Int.toNat_natCast]
  · rename_i a l
    obtain ⟨A, B, rfl, rfl⟩ := hc
    simp only [containerIteratorNextBuf, containerIteratorNext, AHolds.card ho]
    split
    · rw [AHolds.rdZ ho (by omega) (by omega), ok_bind]
    · rfl
  · rename_i r rs
    obtain ⟨A, x, B, rfl, rfl, hv1, hv2⟩ := hc
    simp only [containerIteratorNextBuf, containerIteratorNext, Holds.n ho]
    split
    · rfl
    · rw [Holds.rdZ ho (by omega) (by simp; omega), ok_bind]
      split
      · rfl
      · split
        · rw [Holds.rdZ ho (by omega) (by omega), ok_bind]
        · rfl

theorem prevBitBuf_spec {ws : List Word} (k : Nat) : ∀ (w : Word), k ≤ ws.length → prevBitBuf ws w k = .ok (prevBit ws w k) := by
  induction k with
  | zero => intro w h; rfl
  | succ k ih =>
    intro w h
    rw [prevBitBuf, prevBit]
    split
    · rw [rdWord_eq (by omega), ok_bind, ih _ (by omega)]
    · rfl

theorem containerPrevBuf_spec {o : CBuf} {c : Container} (ho : CHolds o c) (h : CInv c) {idx : Int} {v : Nat} (hc : CIt c idx v) :
    containerIteratorPrevBuf o idx v = .ok (containerIteratorPrev c idx v) := by
  cases o <;> cases c <;> try exact ho.elim
  · cases ho
    rename_i b
    obtain ⟨rfl, hv⟩ := hc
    have hl := h.1.len
    have hlt := bitAt_lt hl hv
    simp only [containerIteratorPrevBuf, containerIteratorPrev]
    split
    · rfl
    · rename_i hk
      rw [rdWord_eq (by omega), ok_bind, prevBitBuf_spec _ _ (by omega), ok_bind]
      generalize prevBit _ _ _ = q
      cases q <;> rfl
  · rename_i a l
    obtain ⟨A, B, rfl, rfl⟩ := hc
    simp only [containerIteratorPrevBuf, containerIteratorPrev]
    split
    · rfl
    · rw [AHolds.rdZ ho (by omega) (by simp; omega), ok_bind]
  · rename_i r rs
    obtain ⟨A, x, B, rfl, rfl, hv1, hv2⟩ := hc
    simp only [containerIteratorPrevBuf, containerIteratorPrev]
    split
    · rfl
    · rw [Holds.rdZ ho (by omega) (by simp; omega), ok_bind]
      split
      · rfl
      · split
        · rfl
        · rw [Holds.rdZ ho (by omega) (by simp; omega), ok_bind]

theorem containerLowerBoundBuf_spec {o : CBuf} {c : Container} (ho : CHolds o c) (h : CNe c) (idx : Int) (val : Nat) :
    containerIteratorLowerBoundBuf o idx val = .ok (containerIteratorLowerBound c idx val) := by
  rw [containerIteratorLowerBoundBuf, CHolds.load ho, ok_bind]
  by_cases hv : val > containerMax c
  · unfold containerIteratorLowerBound
    rw [if_pos hv, if_pos hv]
  · rw [if_neg hv]
    obtain ⟨v', h1, h2, h3⟩ := containerLowerBound_spec h idx (val := val) (by omega)
    unfold containerIteratorLowerBound at h1 h3 ⊢
    rw [if_neg hv] at h1 h3 ⊢
    cases o <;> cases c <;> try exact ho.elim
    · cases ho; rfl
    · obtain ⟨A, B, e, e1⟩ := h3
      simp only at e1 ⊢
      rw [AHolds.rdZ ho (by omega) (by rw [e1, e]; simp; omega), ok_bind]
    · rename_i r rs
      have h4 : (0 : Int) ≤ runIndexEqualOrLarger rs val ∧ runIndexEqualOrLarger rs val < (rs.length : Int) := by
        simp only at h3
        split at h3
        · obtain ⟨A, x, B, e, e1, _⟩ := h3
          simp only at e1
          rw [e] at e1 ⊢
          rw [e1]
          simp; omega
        · obtain ⟨A, x, B, e, e1, _⟩ := h3
          simp only at e1
          rw [e] at e1 ⊢
          rw [e1]
          simp; omega
      simp only
      rw [Holds.rdZ ho h4.1 h4.2, ok_bind]
      split <;> rfl

/-! ### Reads from a container -/

theorem over_one {out : List Nat} {pos : Nat} (h : pos < out.length) (v : Nat) : out.set pos v = over out pos [v] := by
  rw [over, List.set_eq_take_append_cons_drop, if_pos h]
  simp

theorem write_over {out : List Nat} {pos : Nat} (h : pos < out.length) (v : Nat) : write16 out pos v = .ok (over out pos [v]) := by
  rw [write16_lt h, over_one h]

theorem over_cons {out : List Nat} {pos v : Nat} {t : List Nat} (h : pos + (t.length + 1) ≤ out.length) :
    over (over out pos [v]) (pos + 1) t = over out pos (v :: t) := over_over (a := [v]) (by simp; omega)

theorem readWordBuf_spec (high base : Nat) (count : Nat) : ∀ (w : Word) (out : List Nat) (pos : Nat),
    pos + (readWord high base count w).1.length ≤ out.length →
    readWordBuf high base count w out pos =
      .ok (over out pos (readWord high base count w).1, (readWord high base count w).1.length, (readWord high base count w).2) := by
  induction count with
  | zero => intro w out pos h; simp [readWordBuf, readWord, over_nil]
  | succ count ih =>
    intro w out pos h
    rw [readWordBuf]
    rw [readWord] at h ⊢
    by_cases hw : w = 0#64
    · rw [if_pos hw, if_pos hw]; simp [over_nil]
    · rw [if_neg hw] at h
      rw [if_neg hw, if_neg hw]
      simp only [List.length_cons] at h ⊢
      rw [write_over (by omega), ok_bind, ih _ _ _ (by rw [over_length (by simp; omega)]; omega), ok_bind, over_cons (by omega)]

theorem readBitsBuf_spec {ws : List Word} (hl : ws.length = 1024) (high : Nat) (fuel : Nat) : ∀ (k : Nat) (w : Word) (count : Nat)
    (out : List Nat) (pos : Nat), k < 1024 → 1024 ≤ fuel + k → pos + (readBits ws high fuel k w count).1.length ≤ out.length →
    readBitsBuf ws high fuel k w count out pos =
      .ok (over out pos (readBits ws high fuel k w count).1, (readBits ws high fuel k w count).1.length,
        (readBits ws high fuel k w count).2) := by
  induction fuel with
  | zero => intro k w count out pos hk hf; omega
  | succ fuel ih =>
    intro k w count out pos hk hf hp
    obtain ⟨r1, r2⟩ := readWord_spec high (k * 64) count w
    have hw := readWordBuf_spec high (k * 64) count w out pos
    rw [readBits] at hp ⊢
    rw [readBitsBuf]
    generalize readWord high (k * 64) count w = p at r1 r2 hw hp ⊢
    obtain ⟨s1, s2, s3, s4, s5⟩ := skipWords_spec hl (NWORDS - 1 - k) k p.2 (by simp only [NWORDS]; omega)
    have hs := skipWordsBuf_spec (ws := ws) (NWORDS - 1 - k) k p.2 (by simp only [NWORDS]; omega)
    simp only at hp ⊢
    generalize skipWords ws p.2 k (NWORDS - 1 - k) = q at s1 s2 s3 s4 s5 hs hp ⊢
    by_cases hcond : q.2 ≠ 0#64 ∧ p.1.length < count
    · rw [if_pos hcond] at hp ⊢
      simp only [List.length_append] at hp ⊢
      have hlen : p.1.length = min count (extractWord w (k * 64)).length := by rw [r1]; simp
      have hp2 : p.2 = 0#64 := extractWord_nil.1 (by rw [r2, List.drop_eq_nil_of_le (by omega)])
      have hkq := s5 hp2 hcond.1
      rw [hw (by omega), ok_bind]
      simp only
      rw [hs, ok_bind, if_pos hcond, ih _ _ _ _ _ (by omega) (by omega) (by rw [over_length (by omega)]; omega), ok_bind]
      simp only
      rw [over_over (by omega)]
    · rw [if_neg hcond] at hp ⊢
      simp only at hp ⊢
      rw [hw (by omega), ok_bind]
      simp only
      rw [hs, ok_bind, if_neg hcond]

theorem readSeqBuf_spec (high : Nat) (n : Nat) : ∀ (v : Nat) (out : List Nat) (pos : Nat), pos + n ≤ out.length →
    readSeqBuf high n v out pos = .ok (over out pos ((List.range' v n).map (fun x => high ||| x))) := by
  induction n with
  | zero => intro v out pos h; simp [readSeqBuf, over_nil]
  | succ n ih =>
    intro v out pos h
    rw [readSeqBuf, write_over (by omega), ok_bind, ih _ _ _ (by rw [over_length (by simp; omega)]; omega), over_cons (by simp; omega)]
    rw [List.range'_succ, List.map_cons]

theorem readValsBuf_spec {a : ArrBuf} (high : Nat) (n : Nat) : ∀ {A B : List Nat} (out : List Nat) (pos : Nat), AHolds a (A ++ B) →
    n ≤ B.length → pos + n ≤ out.length →
    readValsBuf a.mem high n A.length out pos = .ok (over out pos ((B.take n).map (fun x => high ||| x))) := by
  induction n with
  | zero => intro A B out pos h hb hp; simp [readValsBuf, over_nil]
  | succ n ih =>
    intro A B out pos h hb hp
    cases B with
    | nil => simp at hb
    | cons b B =>
      rw [readValsBuf, AHolds.rdZ h (by omega) (by simp; omega), ok_bind, Int.toNat_natCast, rdL_mid, write_over (by omega), ok_bind]
      have e : ((A.length : Int) + 1) = ((A ++ [b]).length : Nat) := by simp
      rw [e, ih (A := A ++ [b]) (B := B) _ _ (by simpa using h) (by simpa using hb) (by rw [over_length (by simp; omega)]; omega)]
      simp only [List.length_cons] at hb
      rw [over_cons (by simp; omega), List.take_succ_cons, List.map_cons]

theorem readRunsBuf_spec {o : RunBuf} (high : Nat) (B : List Rle) : ∀ (A : List Rle) (r : Rle) (fuel v count : Nat) (out : List Nat)
    (pos : Nat), Holds o (A ++ r :: B) → RunOK (A ++ r :: B) → B.length < fuel → 0 < count → r.1 ≤ v → v ≤ r.1 + r.2 →
    pos + (readRuns (A ++ r :: B) high fuel A.length v count).1.length ≤ out.length →
    readRunsBuf o high fuel A.length v count out pos =
      .ok (over out pos (readRuns (A ++ r :: B) high fuel A.length v count).1,
        (readRuns (A ++ r :: B) high fuel A.length v count).1.length, (readRuns (A ++ r :: B) high fuel A.length v count).2) := by
  induction B with
  | nil =>
    intro A r fuel v count out pos ho h hf hc h1 h2 hp
    obtain ⟨fuel, rfl⟩ : ∃ f, fuel = f + 1 := ⟨fuel - 1, by simp at hf; omega⟩
    have hlt := h.lt r (by simp)
    rw [readRunsBuf, Holds.rdZ ho (by omega) (by simp; omega), ok_bind, Holds.n ho]
    simp only [readRuns, Int.toNat_natCast, rdR_mid] at hp ⊢
    rw [show u32 (((r.1 + r.2 : Nat) : Int) - v + 1) = r.1 + r.2 + 1 - v by simp only [u32]; omega] at hp ⊢
    generalize hm : r.1 + r.2 + 1 - v = m at hp ⊢
    rcases Nat.lt_or_ge count m with h5 | h5
    · rw [show Nat.min m count = count from Nat.min_eq_right (by omega), map_range_add] at hp ⊢
      rw [if_neg (by omega), if_neg (by omega)] at hp ⊢
      simp only [List.length_map, List.length_range'] at hp ⊢
      rw [readSeqBuf_spec _ _ _ _ _ hp, ok_bind, if_neg (by omega), if_neg (by omega)]
    · rw [show Nat.min m count = m from Nat.min_eq_left h5, map_range_add] at hp ⊢
      rw [if_pos (by omega), if_neg (by simp)] at hp ⊢
      simp only [List.length_map, List.length_range'] at hp ⊢
      rw [readSeqBuf_spec _ _ _ _ _ hp, ok_bind, if_pos (by omega), if_neg (by simp)]
  | cons b B ih =>
    intro A r fuel v count out pos ho h hf hc h1 h2 hp
    obtain ⟨fuel, rfl⟩ : ∃ f, fuel = f + 1 := ⟨fuel - 1, by simp at hf; omega⟩
    have hlt := h.lt r (by simp)
    have e : A ++ r :: b :: B = (A ++ [r]) ++ b :: B := by simp
    have eL : ((A.length : Int) + 1) = ((A ++ [r]).length : Nat) := by simp
    rw [readRunsBuf, Holds.rdZ ho (by omega) (by simp; omega), ok_bind, Holds.n ho]
    simp only [readRuns, Int.toNat_natCast, rdR_mid] at hp ⊢
    rw [show u32 (((r.1 + r.2 : Nat) : Int) - v + 1) = r.1 + r.2 + 1 - v by simp only [u32]; omega] at hp ⊢
    generalize hm : r.1 + r.2 + 1 - v = m at hp ⊢
    rcases Nat.lt_or_ge count m with h5 | h5
    · rw [show Nat.min m count = count from Nat.min_eq_right (by omega), map_range_add] at hp ⊢
      rw [if_neg (by omega), if_neg (by omega)] at hp ⊢
      simp only [List.length_map, List.length_range'] at hp ⊢
      rw [readSeqBuf_spec _ _ _ _ _ hp, ok_bind, if_neg (by omega), if_neg (by omega)]
    · rw [show Nat.min m count = m from Nat.min_eq_left h5, map_range_add] at hp ⊢
      rw [if_pos (by omega), if_pos (by simp; omega), show ((A.length : Int) + 1).toNat = A.length + 1 by omega, rdR_mid_succ] at hp ⊢
      by_cases h6 : m < count
      · rw [if_pos h6] at hp ⊢
        simp only [List.length_append, List.length_map, List.length_range'] at hp ⊢
        rw [readSeqBuf_spec _ _ _ _ _ (by omega), ok_bind, if_pos (by omega), if_pos (by simp; omega), Holds.rdZ ho (by omega) (by simp; omega),
          ok_bind, if_pos h6, show ((A.length : Int) + 1).toNat = A.length + 1 by omega, rdR_mid_succ]
        have hi := ih (A ++ [r]) b fuel b.1 (count - m) (over out pos ((List.range' v m).map (fun x => high ||| x))) (pos + m)
          (e ▸ ho) (e ▸ h) (by simp at hf; omega) (by omega) (by omega) (by omega)
          (by rw [over_length (by simp; omega), ← eL, ← e]; omega)
        rw [← eL, ← e] at hi
        rw [hi, ok_bind]
        simp only
        rw [show pos + m = pos + ((List.range' v m).map (fun x => high ||| x)).length by simp, over_over (by simp; omega)]
      · rw [if_neg h6] at hp ⊢
        simp only [List.length_append, List.length_map, List.length_range'] at hp ⊢
        rw [readSeqBuf_spec _ _ _ _ _ (by omega), ok_bind, if_pos (by omega), if_pos (by simp; omega), Holds.rdZ ho (by omega) (by simp; omega),
          ok_bind, if_neg h6, show ((A.length : Int) + 1).toNat = A.length + 1 by omega, rdR_mid_succ]

theorem containerReadBuf_spec {o : CBuf} {c : Container} (ho : CHolds o c) (h : CInv c) (high count : Nat) {idx : Int} {v : Nat}
    (hc : CIt c idx v) {out : List Nat} {pos : Nat} (hp : pos + (containerIteratorRead c idx high count v).1.length ≤ out.length) :
    containerIteratorReadBuf o idx high count v out pos =
      .ok (over out pos (containerIteratorRead c idx high count v).1, (containerIteratorRead c idx high count v).1.length,
        (containerIteratorRead c idx high count v).2) := by
  unfold containerIteratorReadBuf
  unfold containerIteratorRead at hp ⊢
  by_cases h0 : count = 0
  · rw [if_pos h0, if_pos h0]; simp [over_nil]
  rw [if_neg h0] at hp
  rw [if_neg h0, if_neg h0]
  cases o <;> cases c <;> try exact ho.elim
  · cases ho
    rename_i b
    obtain ⟨rfl, hv⟩ := hc
    have hl := h.1.len
    have hlt := bitAt_lt hl hv
    simp only [Int.toNat_natCast] at hp ⊢
    rw [rdWord_eq (by omega), ok_bind, readBitsBuf_spec hl _ _ _ _ _ _ _ (by omega) (by simp only [NWORDS]; omega) (by
      split at hp <;> exact hp), ok_bind]
    simp only
    split <;> rfl
  · rename_i a l
    obtain ⟨A, B, rfl, rfl⟩ := hc
    have hle := h.2
    simp only [AHolds.card ho] at hp ⊢
    have hu : u32 (((A ++ v :: B).length : Int) - A.length) = (v :: B).length := by
      simp only [u32, List.length_append, List.length_cons] at hle ⊢; omega
    rw [hu] at hp ⊢
    generalize hn : Nat.min (v :: B).length count = n at hp ⊢
    have hn1 : n ≤ (v :: B).length := by rw [← hn]; exact Nat.min_le_left _ _
    rw [Int.toNat_natCast, map_rdL_append _ _ _ _ hn1] at hp ⊢
    have hpp : pos + n ≤ out.length := by
      split at hp <;> simpa only [List.length_map, List.length_take, Nat.min_eq_left hn1] using hp
    rw [readValsBuf_spec high n out pos ho hn1 hpp, ok_bind]
    split
    · rw [AHolds.rdZ ho (by omega) (by omega), ok_bind]
      simp only [List.length_map, List.length_take, Nat.min_eq_left hn1]
    · simp only [List.length_map, List.length_take, Nat.min_eq_left hn1]
  · rename_i r rs
    obtain ⟨A, x, B, rfl, rfl, hv1, hv2⟩ := hc
    simp only [Holds.n ho] at hp ⊢
    exact readRunsBuf_spec high B A x _ v count out pos ho h (by simp; omega) (by omega) hv1 hv2 hp

/-! ### Iterators over a bitmap -/

/-- The fields other than the container are equal. -/
structure IScal (bi : BIter) (it : Iter) : Prop where
  ci : bi.containerIndex = it.containerIndex
  hv : bi.hasValue = it.hasValue
  high : bi.highbits = it.highbits
  cit : bi.cit = it.cit
  cur : bi.currentValue = it.currentValue

/-- The fields are equal; if the iterator is on a container of the `n` of the bitmap, it holds that container. -/
structure IRel (n : Nat) (bi : BIter) (it : Iter) : Prop extends IScal bi it where
  cont : 0 ≤ it.containerIndex → it.containerIndex < n → CHolds bi.container it.container

theorem partialInitBuf_out {b : RaBuf} {r : Bitmap} (h : RHolds b r) {bi : BIter} {it : Iter} (hi : IScal bi it)
    (ho : it.containerIndex ≥ r.length ∨ it.containerIndex < 0) :
    ∃ bi', iterPartialInitBuf b bi = .ok bi' ∧ IRel r.length bi' (iterPartialInit r it) ∧ bi'.hasValue = false ∧
      (iterPartialInit r it).hasValue = false := by
  refine ⟨_, by rw [iterPartialInitBuf, h.size, hi.ci, if_pos ho], ?_, rfl, ?_⟩
  · rw [iterPartialInit, if_pos ho]
    exact ⟨⟨rfl, rfl, hi.high, hi.cit, rfl⟩, fun h1 h2 => by simp only at h1 h2; omega⟩
  · rw [iterPartialInit, if_pos ho]

theorem partialInitBuf_in {b : RaBuf} {A B : Bitmap} {k : Nat} {c : Container} (h : RHolds b (A ++ (k, c) :: B)) {bi : BIter} {it : Iter}
    (hi : IScal bi it) (ho : it.containerIndex = A.length) :
    ∃ bi', iterPartialInitBuf b bi = .ok bi' ∧ IScal bi' (iterPartialInit (A ++ (k, c) :: B) it) ∧ CHolds bi'.container c ∧
      bi'.hasValue = true ∧ (iterPartialInit (A ++ (k, c) :: B) it).hasValue = true ∧
      (iterPartialInit (A ++ (k, c) :: B) it).container = c := by
  obtain ⟨o, e1, e2⟩ := h.cellHead
  have hn : ¬ (it.containerIndex ≥ ((A ++ (k, c) :: B).length : Int) ∨ it.containerIndex < 0) := by rw [ho]; simp; omega
  have hin : iterPartialInit (A ++ (k, c) :: B) it =
      { it with currentValue := 0, hasValue := true, container := c, highbits := k <<< 16 } := by
    rw [iterPartialInit, if_neg hn, ho, Int.toNat_natCast, contAt_mid, keyAt_mid]
  refine ⟨{ bi with currentValue := 0, hasValue := true, container := o, highbits := k <<< 16 }, ?_, ?_, e2, rfl, ?_, ?_⟩
  · rw [iterPartialInitBuf, h.size, hi.ci, if_neg hn, ho, Int.toNat_natCast, cellAt_eq e1, ok_bind]
  · rw [hin]
    exact ⟨hi.ci, rfl, rfl, hi.cit, rfl⟩
  · rw [hin]
  · rw [hin]

/-- An index is out of the bitmap or that of a container. -/
theorem index_cases (r : Bitmap) (i : Int) : (i ≥ r.length ∨ i < 0) ∨ ∃ A k c B, r = A ++ (k, c) :: B ∧ i = A.length := by
  by_cases h : i ≥ r.length ∨ i < 0
  · exact Or.inl h
  · right
    have hi : i.toNat < r.length := by omega
    refine ⟨r.take i.toNat, r[i.toNat].1, r[i.toNat].2, r.drop (i.toNat + 1), ?_, ?_⟩
    · rw [show ((r[i.toNat]).1, (r[i.toNat]).2) = r[i.toNat] from rfl, List.getElem_cons_drop, List.take_append_drop]
    · rw [List.length_take]; omega

theorem loadFirstBuf_spec {b : RaBuf} {r : Bitmap} (h : RHolds b r) (hb : BInv r) {bi : BIter} {it : Iter} (hi : IScal bi it) :
    ∃ bi', loadFirstBuf b bi = .ok bi' ∧ IRel r.length bi' (loadFirst r it) := by
  rcases index_cases r it.containerIndex with ho | ⟨A, k, c, B, rfl, ho⟩
  · obtain ⟨b1, e, hr, e1, e2⟩ := partialInitBuf_out h hi ho
    refine ⟨b1, ?_, ?_⟩
    · rw [loadFirstBuf, e, ok_bind, e1, if_neg (show ¬ (false = true) by simp)]
    · simp only [loadFirst]
      rw [e2, if_neg (show ¬ (false = true) by simp)]
      exact hr
  · obtain ⟨b1, e, hr, hc, e1, e2, e3⟩ := partialInitBuf_in h hi ho
    have hne := (bp_mid.1 hb).2.2.1
    refine ⟨_, by rw [loadFirstBuf, e, ok_bind, e1, if_pos rfl, containerInitBuf_spec hc hne, ok_bind], ?_⟩
    simp only [loadFirst]
    rw [e2, if_pos rfl, e3]
    exact ⟨⟨hr.ci, rfl, hr.high, rfl, by simp only; rw [hr.high]⟩, fun _ _ => hc⟩

theorem loadLastBuf_spec {b : RaBuf} {r : Bitmap} (h : RHolds b r) (hb : BInv r) {bi : BIter} {it : Iter} (hi : IScal bi it) :
    ∃ bi', loadLastBuf b bi = .ok bi' ∧ IRel r.length bi' (loadLast r it) := by
  rcases index_cases r it.containerIndex with ho | ⟨A, k, c, B, rfl, ho⟩
  · obtain ⟨b1, e, hr, e1, e2⟩ := partialInitBuf_out h hi ho
    refine ⟨b1, ?_, ?_⟩
    · rw [loadLastBuf, e, ok_bind, e1, if_neg (show ¬ (false = true) by simp)]
    · simp only [loadLast]
      rw [e2, if_neg (show ¬ (false = true) by simp)]
      exact hr
  · obtain ⟨b1, e, hr, hc, e1, e2, e3⟩ := partialInitBuf_in h hi ho
    have hne := (bp_mid.1 hb).2.2.1
    refine ⟨_, by rw [loadLastBuf, e, ok_bind, e1, if_pos rfl, containerInitLastBuf_spec hc hne, ok_bind], ?_⟩
    simp only [loadLast]
    rw [e2, if_pos rfl, e3]
    exact ⟨⟨hr.ci, rfl, hr.high, rfl, by simp only; rw [hr.high]⟩, fun _ _ => hc⟩

theorem loadFirstGeBuf_spec {b : RaBuf} {r : Bitmap} (h : RHolds b r) (hb : BInv r) {bi : BIter} {it : Iter} (hi : IScal bi it) (val : Nat) :
    ∃ bi', loadFirstGeBuf b bi val = .ok bi' ∧ IRel r.length bi' (loadFirstGe r it val) := by
  rcases index_cases r it.containerIndex with ho | ⟨A, k, c, B, rfl, ho⟩
  · obtain ⟨b1, e, hr, e1, e2⟩ := partialInitBuf_out h hi ho
    refine ⟨b1, ?_, ?_⟩
    · rw [loadFirstGeBuf, e, ok_bind, e1, if_neg (show ¬ (false = true) by simp)]
    · simp only [loadFirstGe]
      rw [e2, if_neg (show ¬ (false = true) by simp)]
      exact hr
  · obtain ⟨b1, e, hr, hc, e1, e2, e3⟩ := partialInitBuf_in h hi ho
    have hne := (bp_mid.1 hb).2.2.1
    rw [loadFirstGeBuf, e, ok_bind, e1, if_pos rfl, containerInitBuf_spec hc hne, ok_bind, containerLowerBoundBuf_spec hc hne, ok_bind]
    simp only [loadFirstGe]
    rw [e2, if_pos rfl, e3]
    generalize containerIteratorLowerBound c _ _ = q
    obtain ⟨q1, q2⟩ := q
    cases q2 with
    | none => exact ⟨_, rfl, ⟨⟨hr.ci, rfl, hr.high, rfl, hr.cur⟩, fun _ _ => hc⟩⟩
    | some v =>
      exact ⟨_, rfl, ⟨⟨hr.ci, rfl, hr.high, rfl, by simp only; rw [hr.high]⟩, fun _ _ => hc⟩⟩

theorem iterInitBuf_spec {b : RaBuf} {r : Bitmap} (h : RHolds b r) (hb : BInv r) {bi : BIter} {it : Iter} (hi : IScal bi it) :
    ∃ bi', iterInitBuf b bi = .ok bi' ∧ IRel r.length bi' (iterInit r it) :=
  loadFirstBuf_spec h hb ⟨rfl, hi.hv, hi.high, hi.cit, hi.cur⟩

theorem iterInitLastBuf_spec {b : RaBuf} {r : Bitmap} (h : RHolds b r) (hb : BInv r) {bi : BIter} {it : Iter} (hi : IScal bi it) :
    ∃ bi', iterInitLastBuf b bi = .ok bi' ∧ IRel r.length bi' (iterInitLast r it) :=
  loadLastBuf_spec h hb ⟨by simp only; rw [h.size], hi.hv, hi.high, hi.cit, hi.cur⟩

/-- The fields of a changed iterator, from those of the iterator `h` speaks of. -/
local macro "iscal " h:term : tactic =>
  `(tactic| (constructor <;> simp only [($h).ci, ($h).hv, ($h).high, ($h).cit, ($h).cur]))

theorem iterMoveBuf_spec {b : RaBuf} {r : Bitmap} (h : RHolds b r) (hb : BInv r) {bi : BIter} {it : Iter} (hi : IScal bi it) (val : Nat) :
    ∃ bi', iterMoveBuf b bi val = .ok bi' ∧ IRel r.length bi' (iterMove r it val) := by
  simp only [iterMoveBuf, iterMove]
  rw [h.index, ok_bind]
  by_cases hx : raGetIndex r (val / 65536 % 65536) ≥ 0
  · rw [if_pos hx, if_pos hx]
    have hlt : raGetIndex r (val / 65536 % 65536) < r.length := by
      rw [raGetIndex_eq hb.sorted] at hx
      split at hx
      · rename_i hm
        obtain ⟨⟨k, c⟩, hp, e⟩ := List.mem_map.1 hm
        obtain ⟨A, B, rfl⟩ := List.append_of_mem hp
        rw [← e, raGetIndex_mid hb]
        simp; omega
      · omega
    rcases index_cases r (raGetIndex r (val / 65536 % 65536)) with ho | ⟨A, k, c, B, e, ho⟩
    · omega
    · rw [ho, Int.toNat_natCast]
      have hc : loadCell b.mem A.length = .ok (k, c) := RQ.loadCell (e ▸ h)
      have hk : contAt r A.length = c := by rw [e, contAt_mid]
      rw [hc, ok_bind, hk]
      simp only
      split
      · exact loadFirstBuf_spec h hb (by iscal hi)
      · exact loadFirstGeBuf_spec h hb (by iscal hi) _
  · rw [if_neg hx, if_neg hx]
    exact loadFirstBuf_spec h hb (by iscal hi)

theorem iterAdvanceBuf_spec {b : RaBuf} {r : Bitmap} (h : RHolds b r) (hb : BInv r) {bi : BIter} {it : Iter} {i : Nat} (hr : RelI r it i)
    (hi : IRel r.length bi it) : ∃ bi', iterAdvanceBuf b bi = .ok bi' ∧ IRel r.length bi' (iterAdvance r it) := by
  unfold iterAdvanceBuf iterAdvance
  rw [h.size, hi.ci]
  by_cases h1 : it.containerIndex ≥ r.length
  · rw [if_pos h1, if_pos h1]
    exact ⟨_, rfl, ⟨by iscal hi, hi.cont⟩⟩
  rw [if_neg h1, if_neg h1]
  by_cases h2 : it.containerIndex < 0
  · rw [if_pos h2, if_pos h2]
    exact loadFirstBuf_spec h hb (by iscal hi)
  rw [if_neg h2, if_neg h2]
  have hc := hi.cont (by omega) (by omega)
  rcases hr with ⟨rfl, hg⟩ | ⟨w, A, c, B, hat, hw, rfl⟩ | ⟨rfl, he⟩
  · have := hg.ci; omega
  · have hci := (bp_mid.1 (hat.eq ▸ hb)).2.2.1.1
    rw [hi.cit, hi.cur, containerNextBuf_spec hc (by rw [hat.cont]; exact hci) (by rw [hat.cont, hat.cur]; exact hat.cit), ok_bind]
    simp only
    generalize containerIteratorNext _ _ _ = q
    obtain ⟨q1, q2⟩ := q
    cases q2 with
    | none => exact loadFirstBuf_spec h hb (by iscal hi)
    | some v => exact ⟨_, rfl, ⟨by iscal hi, hi.cont⟩⟩
  · have := he.ci; omega

theorem iterPreviousBuf_spec {b : RaBuf} {r : Bitmap} (h : RHolds b r) (hb : BInv r) {bi : BIter} {it : Iter} {i : Nat} (hr : RelI r it i)
    (hi : IRel r.length bi it) : ∃ bi', iterPreviousBuf b bi = .ok bi' ∧ IRel r.length bi' (iterPrevious r it) := by
  unfold iterPreviousBuf iterPrevious
  rw [h.size, hi.ci]
  by_cases h1 : it.containerIndex < 0
  · rw [if_pos h1, if_pos h1]
    exact ⟨_, rfl, ⟨by iscal hi, hi.cont⟩⟩
  rw [if_neg h1, if_neg h1]
  by_cases h2 : it.containerIndex ≥ r.length
  · rw [if_pos h2, if_pos h2]
    exact loadLastBuf_spec h hb (by iscal hi)
  rw [if_neg h2, if_neg h2]
  have hc := hi.cont (by omega) (by omega)
  rcases hr with ⟨rfl, hg⟩ | ⟨w, A, c, B, hat, hw, rfl⟩ | ⟨rfl, he⟩
  · have := hg.ci; omega
  · have hci := (bp_mid.1 (hat.eq ▸ hb)).2.2.1.1
    rw [hi.cit, hi.cur, containerPrevBuf_spec hc (by rw [hat.cont]; exact hci) (by rw [hat.cont, hat.cur]; exact hat.cit), ok_bind]
    simp only
    generalize containerIteratorPrev _ _ _ = q
    obtain ⟨q1, q2⟩ := q
    cases q2 with
    | none => exact loadLastBuf_spec h hb (by iscal hi)
    | some v => exact ⟨_, rfl, ⟨by iscal hi, hi.cont⟩⟩
  · have := he.ci; omega

theorem iterReadLoopBuf_spec {b : RaBuf} {r : Bitmap} (h : RHolds b r) (hb : BInv r) (fuel : Nat) : ∀ (bi : BIter) (it : Iter) (count : Nat)
    (o : Option Nat) (out : List Nat) (pos : Nat), IRel r.length bi it → LandsF r it o → (r.length : Int) < fuel + it.containerIndex →
    pos + (iterReadLoop r fuel it count).1.length ≤ out.length →
    ∃ bi', iterReadLoopBuf b fuel bi count out pos =
        .ok (over out pos (iterReadLoop r fuel it count).1, (iterReadLoop r fuel it count).1.length, bi') ∧
      IRel r.length bi' (iterReadLoop r fuel it count).2 := by
  induction fuel with
  | zero =>
    intro bi it count o out pos hi hl hf hp
    cases o with
    | none => have := hl.ci; omega
    | some w =>
      obtain ⟨A, c, B, hat⟩ := hl
      have := hat.ci
      have := congrArg List.length hat.eq
      simp at this
      omega
  | succ fuel ih =>
    intro bi it count o out pos hi hl hf hp
    rw [iterReadLoopBuf]
    rw [iterReadLoop] at hp ⊢
    rw [hi.hv]
    by_cases hcond : (it.hasValue && decide (0 < count)) = true
    · rw [if_pos hcond] at hp ⊢
      rw [if_pos hcond]
      cases o with
      | none => rw [hl.hv] at hcond; exact absurd hcond (by simp)
      | some w =>
        obtain ⟨A, c, B, hat⟩ := hl
        have hlen := congrArg List.length hat.eq
        simp only [List.length_append, List.length_cons] at hlen
        have hci := (bp_mid.1 (hat.eq ▸ hb)).2.2.1.1
        have hc := hi.cont (by rw [hat.ci]; omega) (by rw [hat.ci]; omega)
        have hcr := containerReadBuf_spec hc (by rw [hat.cont]; exact hci) it.highbits count (idx := it.cit) (v := it.currentValue % 65536)
          (by rw [hat.cont, hat.cur]; exact hat.cit) (out := out) (pos := pos)
        rw [hi.cit, hi.cur, hi.high]
        simp only at hp ⊢
        generalize containerIteratorRead _ _ _ _ _ = q at hp hcr ⊢
        obtain ⟨q0, q1, q2⟩ := q
        cases q2 with
        | none =>
          simp only [List.length_append] at hp ⊢
          rw [hcr (by simp only; omega), ok_bind]
          simp only
          obtain ⟨b1, e1, r1⟩ := loadFirstBuf_spec h hb (bi := { bi with
              cit := q1, containerIndex := bi.containerIndex + 1, hasValue := it.hasValue, highbits := it.highbits,
              currentValue := it.currentValue })
            (it := { it with cit := q1, containerIndex := it.containerIndex + 1 })
            (by iscal hi)
          have er : r = (A ++ [(w / 65536, c)]) ++ B := by rw [hat.eq]; simp
          obtain ⟨o', hn, hl'⟩ := loadFirst_spec (A := A ++ [(w / 65536, c)]) (B := B) (er ▸ hb)
            (it := { it with cit := q1, containerIndex := it.containerIndex + 1 }) (by simp only; rw [hat.ci]; simp)
          rw [← er] at hl'
          have hci' : (loadFirst r { it with cit := q1, containerIndex := it.containerIndex + 1 }).containerIndex = it.containerIndex + 1 := by
            simp only [loadFirst, iterPartialInit]
            split <;> split <;> rfl
          rw [e1, ok_bind]
          obtain ⟨b2, e2, r2⟩ := ih b1 _ (count - q0.length) o' (over out pos q0) (pos + q0.length) r1 hl' (by rw [hci']; omega)
            (by rw [over_length (by omega)]; omega)
          rw [e2, ok_bind]
          refine ⟨b2, ?_, r2⟩
          simp only
          rw [over_over (by omega)]
        | some v =>
          simp only at hp ⊢
          rw [hcr (by simp only; omega), ok_bind]
          exact ⟨_, rfl, ⟨by iscal hi, hi.cont⟩⟩
    · rw [if_neg hcond]
      rw [if_neg hcond]
      exact ⟨bi, by simp [over_nil], hi⟩

theorem iterReadBuf_spec {b : RaBuf} {r : Bitmap} (h : RHolds b r) (hb : BInv r) {bi : BIter} {it : Iter} {i : Nat} (hr : RelI r it i)
    (hi : IRel r.length bi it) {count : Nat} {out : List Nat} {pos : Nat} (hp : pos + (iterRead r it count).1.length ≤ out.length) :
    ∃ bi', iterReadBuf b bi count out pos = .ok (over out pos (iterRead r it count).1, (iterRead r it count).1.length, bi') ∧
      IRel r.length bi' (iterRead r it count).2 := by
  unfold iterReadBuf iterRead at *
  rw [h.size]
  rcases hr with ⟨rfl, hg⟩ | ⟨w, A, c, B, hat, hw, rfl⟩ | ⟨rfl, he⟩
  · have hv := hg.hv
    rw [iterReadLoop, hv] at hp ⊢
    rw [iterReadLoopBuf, hi.hv, hv]
    exact ⟨bi, by simp [over_nil], hi⟩
  · exact iterReadLoopBuf_spec h hb _ _ _ _ (some w) _ _ hi ⟨A, c, B, hat⟩ (by rw [hat.ci]; omega) hp
  · exact iterReadLoopBuf_spec h hb _ _ _ _ none _ _ hi he (by rw [he.ci]; omega) hp

theorem rbIntersectWithRangeBuf_spec {b : RaBuf} {r : Bitmap} (h : RHolds b r) (hb : BInv r) (x y : Nat) {bi : BIter} {it : Iter}
    (hi : IScal bi it) : rbIntersectWithRangeBuf b x y bi = .ok (rbIntersectWithRange r x y it) := by
  unfold rbIntersectWithRangeBuf rbIntersectWithRange
  split
  · rfl
  · obtain ⟨b1, e1, r1⟩ := iterInitBuf_spec h hb hi
    obtain ⟨b2, e2, r2⟩ := iterMoveBuf_spec h hb r1.toIScal (x % 4294967296)
    rw [e1, ok_bind, e2, ok_bind, r2.hv, r2.cur]
    simp only
    split
    · rfl
    · split <;> rfl

end CRoaring
