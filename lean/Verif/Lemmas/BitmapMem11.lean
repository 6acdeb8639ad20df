import Verif.Lemmas.BitmapMem10
import Verif.Lemmas.BitmapMem8
import Verif.Lemmas.BitmapMem7
import Verif.Lemmas.Offset
import Verif.Lemmas.Extract3
import Verif.Model.BitmapMemOffset
set_option linter.unusedSimpArgs false
set_option linter.unusedVariables false

/-! Shifts of bitmaps in memory. -/

namespace CRoaring
open Spec

variable {E : RbEnv}

/-! ### Containers -/

/-- Both are there and related, or neither is there. -/
def OptRel {α β : Type} (R : α → β → Prop) : Option α → Option β → Prop
  | some a, some b => R a b
  | none, none => True
  | _, _ => False

theorem OptRel.map {α β γ δ : Type} {R : α → β → Prop} {S : γ → δ → Prop} {f : α → γ} {g : β → δ} (h : ∀ a b, R a b → S (f a) (g b))
    {a : Option α} {b : Option β} (hr : OptRel R a b) : OptRel S (a.map f) (b.map g) := by
  cases a <;> cases b
  · exact trivial
  · exact hr.elim
  · exact hr.elim
  · exact h _ _ hr

theorem optPart_spec {α β : Type} {R : α → β → Prop} {c : Bool} {x : Out α} {y : β} (h : c = true → ∃ v, x = .ok v ∧ R v y) :
    ∃ o, optPart c x = .ok o ∧ OptRel R o (if c = true then some y else none) := by
  rw [optPart]
  cases c with
  | false => exact ⟨none, rfl, trivial⟩
  | true =>
    obtain ⟨v, e, hv⟩ := h rfl
    rw [if_pos rfl, if_pos rfl, e, ok_bind]
    exact ⟨some v, rfl, hv⟩

theorem arrayOffsetIfBuf_spec (hE : RbEnvOK E) {b : ArrBuf} {v : List Nat} (h : AHolds b v) (ho : ArrOK v) (loc hic : Bool) (off : Nat) :
    ∃ lo hi, arrayOffsetIfBuf E b loc hic off = .ok (lo, hi) ∧ OptRel AHolds lo (if loc then (arrayOffset v off).1 else none) ∧
      OptRel AHolds hi (if hic then (arrayOffset v off).2 else none) := by
  rw [arrayOffsetIfBuf, arrayOffset, h.vals, h.card, countLess_list ho.sorted]
  have hle := lb_le v (65536 - off)
  have hlen := ho.length_le
  simp only [Int.toNat_natCast]
  generalize lb v (65536 - off) = k at *
  have hm : ∃ rest, b.mem = v ++ rest := by obtain ⟨rest, rfl⟩ := h; exact ⟨rest, rfl⟩
  obtain ⟨b1, e1, h1⟩ := offsetLoopBuf_spec hE.m.vals off hm k 0 (by omega) (arrayCreateBuf_holds (fresh := E.m.vals) k) ArrOK.nil (by simp; omega)
  obtain ⟨b2, e2, h2⟩ := offsetLoopBuf_spec hE.m.vals off hm (v.length - k) k (by omega) (arrayCreateBuf_holds (fresh := E.m.vals) (v.length - k)) ArrOK.nil
    (by simp; omega)
  rw [List.drop_zero] at h1
  rw [List.take_of_length_le (by simp)] at h2
  obtain ⟨o1, p1, q1⟩ := optPart_spec (R := AHolds) (c := loc && decide (k ≠ 0)) (fun _ => ⟨b1, e1, h1⟩)
  obtain ⟨o2, p2, q2⟩ := optPart_spec (R := AHolds) (c := hic && decide (v.length - k ≠ 0)) (fun _ => ⟨b2, e2, h2⟩)
  rw [p1, ok_bind, p2, ok_bind]
  refine ⟨o1, o2, rfl, ?_, ?_⟩
  · cases loc <;> by_cases hk : k = 0 <;> simpa [hk] using q1
  · cases hic <;> by_cases hk : v.length - k = 0 <;> simpa [hk] using q2

theorem runShiftLoop_spec (off : Nat) (B : List Rle) : ∀ {A : List Rle} {b : RunBuf}, Holds b (A ++ B) →
    ∃ b', runShiftLoop off B.length A.length b = .ok b' ∧ Holds b' (A ++ B.map fun r => ((r.1 + off) % 65536, r.2)) := by
  induction B with
  | nil => intro A b h; exact ⟨b, rfl, h⟩
  | cons r t ih =>
    intro A b h
    have hr : rdR (A ++ r :: t) A.length = r := by rw [rdR_eq (by simp)]; simp
    obtain ⟨b1, e1, h1, _⟩ := h.put (i := A.length) (by simp) ((r.1 + off) % 65536, r.2)
    rw [List.set_append_right _ _ (Nat.le_refl _), Nat.sub_self, List.set_cons_zero] at h1
    obtain ⟨b2, e2, h2⟩ := ih (A := A ++ [((r.1 + off) % 65536, r.2)]) (by simpa using h1)
    rw [List.length_cons, runShiftLoop, h.rd (by simp), ok_bind, hr, e1, ok_bind]
    refine ⟨b2, ?_, by simpa using h2⟩
    rw [← e2]
    simp

theorem runOffsetPartBuf_spec (hE : RbEnvOK E) {c : RunBuf} {rs : List Rle} (h : Holds c rs) {start cap : Nat} (hl : start + cap ≤ rs.length) (off : Nat) :
    ∃ b, runOffsetPartBuf E c start cap off = .ok b ∧ Holds b (((rs.drop start).take cap).map fun r => ((r.1 + off) % 65536, r.2)) := by
  have hle := h.le
  have hg : getRuns c.mem start cap = .ok ((rs.drop start).take cap) := by
    rw [getRuns_eq (by omega)]
    obtain ⟨rest, rfl⟩ := h
    rw [List.drop_append_of_le_length (by omega), List.take_append_of_le_length (by simp; omega)]
  have hz : ((rs.drop start).take cap).length = cap := by simp; omega
  rw [runOffsetPartBuf, hg, ok_bind, cpRuns_eq (by rw [hz, hE.m.runs]; omega), ok_bind, hz]
  have hh : Holds ⟨cap, (E.m.runs cap).take 0 ++ (rs.drop start).take cap ++ (E.m.runs cap).drop (0 + cap)⟩ ([] ++ (rs.drop start).take cap) := by
    refine ⟨(E.m.runs cap).drop (0 + cap), ?_⟩
    simp only [List.take_zero, List.nil_append, hz]
  obtain ⟨b, e, h1⟩ := runShiftLoop_spec off _ hh
  rw [hz] at e
  exact ⟨b, e, h1⟩

theorem runFixLoBuf_spec (split : Bool) {b : RunBuf} {v : List Rle} (h : Holds b v) (hn : v.length ≠ 0) :
    ∃ b', runFixLoBuf split b = .ok b' ∧ Holds b' (if split = true then
      v.set (v.length - 1) ((rdR v (v.length - 1)).1, u16 (65536 - ((rdR v (v.length - 1)).1 : Int) - 1)) else v) := by
  rw [runFixLoBuf]
  split
  · rw [h.n, h.rd (by omega), ok_bind]
    obtain ⟨b', e, h', _⟩ := h.put (i := v.length - 1) (by omega) ((rdR v (v.length - 1)).1, u16 (65536 - ((rdR v (v.length - 1)).1 : Int) - 1))
    exact ⟨b', e, h'⟩
  · exact ⟨b, rfl, h⟩

theorem runFixHiBuf_spec (split : Bool) {b : RunBuf} {v : List Rle} (h : Holds b v) (hn : v.length ≠ 0) :
    ∃ b', runFixHiBuf split b = .ok b' ∧ Holds b' (if split = true then
      v.set 0 (0, u16 (((rdR v 0).2 : Int) - (65535 - (rdR v 0).1 + 1))) else v) := by
  rw [runFixHiBuf]
  split
  · rw [h.rd (by omega), ok_bind]
    obtain ⟨b', e, h', _⟩ := h.put (i := 0) (by omega) (0, u16 (((rdR v 0).2 : Int) - (65535 - (rdR v 0).1 + 1)))
    exact ⟨b', e, h'⟩
  · exact ⟨b, rfl, h⟩

theorem runOffsetBuf_spec (hE : RbEnvOK E) {c : RunBuf} {rs : List Rle} (h : Holds c rs) (hr : RunOK rs) (loc hic : Bool) (off : Nat) :
    ∃ lo hi, runOffsetBuf E c loc hic off = .ok (lo, hi) ∧ OptRel Holds lo (if loc then (runOffset rs off).1 else none) ∧
      OptRel Holds hi (if hic then (runOffset rs off).2 else none) := by
  have hp : runIndexEqualOrLarger rs ((65536 - off) % 65536) = -1 ∨
      (0 ≤ runIndexEqualOrLarger rs ((65536 - off) % 65536) ∧ runIndexEqualOrLarger rs ((65536 - off) % 65536) < rs.length) := by
    obtain ⟨A, B, e, _, _, hi⟩ := runIndexEqualOrLarger_spec hr ((65536 - off) % 65536)
    rw [hi]
    split
    · exact Or.inl rfl
    · rename_i hB
      have : 0 < B.length := List.length_pos_iff.2 hB
      have : rs.length = A.length + B.length := by rw [e, List.length_append]
      exact Or.inr ⟨by omega, by omega⟩
  rw [runOffsetBuf, runOffset, h.vals, h.n]
  generalize runIndexEqualOrLarger rs ((65536 - off) % 65536) = pivot at *
  simp only
  generalize (decide (pivot ≠ -1) && decide ((rdR rs pivot.toNat).1 < 65536 - off)) = split
  have hlo : (if pivot = -1 then rs.length else pivot.toNat + (if split = true then 1 else 0)) ≤ rs.length := by
    split
    · exact Nat.le_refl _
    · split <;> omega
  generalize (if pivot = -1 then rs.length else pivot.toNat + (if split = true then 1 else 0)) = lc at *
  have hhi : pivot.toNat + (if pivot = -1 then 0 else rs.length - pivot.toNat) ≤ rs.length := by
    rcases hp with hp | hp
    · rw [if_pos hp, hp]; simp
    · rw [if_neg (by omega)]; omega
  have hdrop : (if pivot = -1 then 0 else rs.length - pivot.toNat) ≠ 0 →
      (rs.drop pivot.toNat).take (if pivot = -1 then 0 else rs.length - pivot.toNat) = rs.drop pivot.toNat := by
    intro hn
    split at hn
    · exact absurd rfl hn
    · rename_i hq
      rw [if_neg hq, List.take_of_length_le (by simp)]
  generalize (if pivot = -1 then 0 else rs.length - pivot.toNat) = hc at *
  obtain ⟨b1, e1, h1⟩ := runOffsetPartBuf_spec hE h (start := 0) (cap := lc) (by omega) off
  obtain ⟨b2, e2, h2⟩ := runOffsetPartBuf_spec hE h (start := pivot.toNat) (cap := hc) hhi off
  rw [List.drop_zero] at h1
  have z1 : ((rs.take lc).map fun r => ((r.1 + off) % 65536, r.2)).length = lc := by simp; omega
  have z2 : (((rs.drop pivot.toNat).take hc).map fun r => ((r.1 + off) % 65536, r.2)).length = hc := by simp; omega
  obtain ⟨o1, p1, q1⟩ := optPart_spec (R := Holds) (c := loc && decide (lc ≠ 0))
    (x := do let lo ← runOffsetPartBuf E c 0 lc off; runFixLoBuf split lo)
    (y := if split = true then ((rs.take lc).map fun r => ((r.1 + off) % 65536, r.2)).set (lc - 1)
      ((rdR ((rs.take lc).map fun r => ((r.1 + off) % 65536, r.2)) (lc - 1)).1,
        u16 (65536 - ((rdR ((rs.take lc).map fun r => ((r.1 + off) % 65536, r.2)) (lc - 1)).1 : Int) - 1))
      else (rs.take lc).map fun r => ((r.1 + off) % 65536, r.2)) (fun hc => by
    simp only [Bool.and_eq_true, decide_eq_true_eq] at hc
    obtain ⟨b', e', h'⟩ := runFixLoBuf_spec split h1 (by rw [z1]; exact hc.2)
    rw [z1] at h'
    exact ⟨b', by rw [e1, ok_bind, e'], h'⟩)
  obtain ⟨o2, p2, q2⟩ := optPart_spec (R := Holds) (c := hic && decide (hc ≠ 0))
    (x := do let hi ← runOffsetPartBuf E c pivot.toNat hc off; runFixHiBuf split hi)
    (y := if split = true then ((rs.drop pivot.toNat).map fun r => ((r.1 + off) % 65536, r.2)).set 0
      (0, u16 (((rdR ((rs.drop pivot.toNat).map fun r => ((r.1 + off) % 65536, r.2)) 0).2 : Int) -
        (65535 - (rdR ((rs.drop pivot.toNat).map fun r => ((r.1 + off) % 65536, r.2)) 0).1 + 1)))
      else (rs.drop pivot.toNat).map fun r => ((r.1 + off) % 65536, r.2)) (fun hc => by
    simp only [Bool.and_eq_true, decide_eq_true_eq] at hc
    obtain ⟨b', e', h'⟩ := runFixHiBuf_spec split h2 (by rw [z2]; exact hc.2)
    rw [hdrop hc.2] at h'
    exact ⟨b', by rw [e2, ok_bind, e'], h'⟩)
  rw [p1, ok_bind, p2, ok_bind]
  refine ⟨o1, o2, rfl, ?_, ?_⟩
  · cases loc <;> by_cases hk : lc = 0 <;> simpa [hk] using q1
  · cases hic <;> by_cases hk : hc = 0 <;> simpa [hk] using q2

theorem cAddOffsetBuf_spec (hE : RbEnvOK E) {o : CBuf} {c : Container} (h : CHolds o c) (hi : CInv c) (loc hic : Bool) (off : Nat) :
    ∃ r, cAddOffsetBuf E o loc hic off = .ok r ∧ OptRel CHolds r.1 (containerAddOffset c loc hic off).1 ∧
      OptRel CHolds r.2 (containerAddOffset c loc hic off).2 := by
  cases o with
  | bitset b =>
    cases c <;> try exact h.elim
    cases h
    refine ⟨_, rfl, ?_, ?_⟩
    · simp only [containerAddOffset]
      cases (bitsetOffset b loc hic off).1 <;> trivial
    · simp only [containerAddOffset]
      cases (bitsetOffset b loc hic off).2 <;> trivial
  | array a =>
    cases c <;> try exact h.elim
    obtain ⟨lo, hi, e, h1, h2⟩ := arrayOffsetIfBuf_spec hE h hi.1 loc hic off
    simp only [cAddOffsetBuf, containerAddOffset, e, ok_bind]
    refine ⟨_, rfl, ?_, ?_⟩
    · cases loc
      · exact OptRel.map (R := AHolds) (g := Container.array) (fun _ _ h => h) (b := none) h1
      · exact OptRel.map (R := AHolds) (g := Container.array) (fun _ _ h => h) h1
    · cases hic
      · exact OptRel.map (R := AHolds) (g := Container.array) (fun _ _ h => h) (b := none) h2
      · exact OptRel.map (R := AHolds) (g := Container.array) (fun _ _ h => h) h2
  | run r =>
    cases c <;> try exact h.elim
    obtain ⟨lo, hi, e, h1, h2⟩ := runOffsetBuf_spec hE h ⟨hi.1, hi.2⟩ loc hic off
    simp only [cAddOffsetBuf, containerAddOffset, e, ok_bind]
    refine ⟨_, rfl, ?_, ?_⟩
    · cases loc
      · exact OptRel.map (R := Holds) (g := Container.run) (fun _ _ h => h) (b := none) h1
      · exact OptRel.map (R := Holds) (g := Container.run) (fun _ _ h => h) h1
    · cases hic
      · exact OptRel.map (R := Holds) (g := Container.run) (fun _ _ h => h) (b := none) h2
      · exact OptRel.map (R := Holds) (g := Container.run) (fun _ _ h => h) h2

/-! ### Bitmaps -/

theorem MNe.lne {c : Container} (h : MNe c) : LNe c := ⟨h.mrep.lrep.inv, h.2⟩

theorem offsetAppendBuf_spec (hE : RbEnvOK E) {ans : RaBuf} {r : Bitmap} (h : RHolds ans r) (hr : BP MNe r) {k : Nat} {o : CBuf} {d : Container}
    (hd : CHolds o d) (hn : MNe d) (hk : k < 65536) (hle : ∀ p ∈ r, p.1 ≤ k) :
    ∃ cap, RGives (offsetAppendBuf E ans k o) (offsetAppendWithMerge (fun _ => cap) r k d) := by
  have hl := (offsetAppend_spec (fun _ => 0) hr hk hle hn).1.length_le
  rw [offsetAppendBuf]
  simp only [offsetAppendWithMerge] at hl ⊢
  rcases List.eq_nil_or_concat r with e | ⟨A, ⟨k', c'⟩, e⟩
  · subst e
    have hz : ans.size = 0 := h.size
    rw [if_pos hz]
    refine ⟨0, ?_⟩
    rw [if_pos (Or.inl List.length_nil)]
    exact h.append hE (by simp) hd
  · rw [List.concat_eq_append] at e
    subst e
    have hA : A.length < 65536 := bp_split_lt hr
    have hz := h.size
    rw [if_neg (by rw [hz]; simp), offsetMergeBuf, hz]
    have hlen : (A ++ [(k', c')]).length - 1 = A.length := by simp
    rw [hlen, keyAt_mid, contAt_mid] at hl
    rw [hlen, h.key hA, ok_bind]
    by_cases hkk : k' = k
    · subst hkk
      obtain ⟨o', e', h'⟩ := h.cont hA
      have hb := (bp_append.1 hr).2.1.2.1
      obtain ⟨w, ew, hw⟩ := cIorBuf_spec hE.m h' hd hb.lne.1 hn.lne.1 hb.lne.run hn.lne.run
      obtain ⟨b, e3, h3, _⟩ := h.set hw
      refine ⟨o'.capacity, ?_⟩
      rw [keyAt_mid, contAt_mid, if_neg (by simp), if_neg (by simp), e', ok_bind, ew, ok_bind, List.set_append_right _ _ (Nat.le_refl _), Nat.sub_self,
        List.set_cons_zero]
      exact ⟨b, e3, h3⟩
    · refine ⟨0, ?_⟩
      rw [keyAt_mid, if_pos hkk, if_pos (Or.inr hkk)]
      rw [if_pos (Or.inr hkk), List.length_append, List.length_singleton] at hl
      exact h.append hE (by omega) hd

/-- The keys of a shifted bitmap. -/
theorem shifted_keys {A ans : Bitmap} {co : Int} {inOff : Nat} (ho : inOff < 65536) (hb : BP MNe ans)
    (h : ∀ v, bhas ans v = shifted (bhas A) (co * 65536 + inOff) v) : ∀ q ∈ ans, ∃ p ∈ A, (q.1 : Int) ≤ p.1 + co + 1 := by
  intro q hq
  obtain ⟨x, hx⟩ := (hb.all q hq).2
  have hxl : x < 65536 := (hb.all q hq).mrep.lrep.lt hx
  have h1 : bhas ans (q.1 * 65536 + x) = true := by
    rw [bhas, List.any_eq_true]
    refine ⟨q, hq, ?_⟩
    rw [Bool.and_eq_true, beq_iff_eq]
    exact ⟨by omega, by rw [show (q.1 * 65536 + x) % 65536 = x by omega]; exact hx⟩
  rw [h, shifted, Bool.and_eq_true, decide_eq_true_eq, bhas, List.any_eq_true] at h1
  obtain ⟨⟨_, h2⟩, p, hp, h3⟩ := h1
  rw [Bool.and_eq_true, beq_iff_eq] at h3
  exact ⟨p, hp, by omega⟩

theorem offsetCellBuf_spec (hE : RbEnvOK E) {bm ans : RaBuf} {A t r : Bitmap} {key : Nat} {c : Container} {co : Int} {inOff : Nat} (ho : 0 < inOff)
    (ho2 : inOff < 65536) (hbm : RHolds bm (A ++ (key, c) :: t)) (ib : BInv (A ++ (key, c) :: t)) (h : RHolds ans r) (hr : BP MNe r)
    (hs : ∀ v, bhas r v = shifted (bhas A) (co * 65536 + inOff) v) :
    ∃ r', RGives (offsetCellBuf E bm co inOff A.length ans) r' ∧ BP MNe r' ∧
      ∀ v, bhas r' v = shifted (bhas (A ++ [(key, c)])) (co * 65536 + inOff) v := by
  have hA : A.length < 65536 := bp_split_lt ib
  have hk := shifted_keys ho2 hr hs
  have hmid := bp_mid.1 ib
  have ib1 : BInv (A ++ [(key, c)]) := by
    have : BInv ((A ++ [(key, c)]) ++ t) := by simpa using ib
    exact (bp_append.1 this).1
  have hcr := hmid.2.2.1.1.rep
  have hlek : ∀ q ∈ r, (q.1 : Int) ≤ key + co := fun q hq => by
    obtain ⟨p, hp, hh⟩ := hk q hq
    have := hmid.2.2.2.1 p hp
    omega
  suffices hh : ∃ cap, RGives (offsetCellBuf E bm co inOff A.length ans) (offsetLoop (fun _ => cap) co inOff r [(key, c)]) by
    obtain ⟨cap, hh⟩ := hh
    obtain ⟨h1, h2⟩ := offsetLoop_spec (fun _ => cap) ho ho2 [(key, c)] A r ib1 hr hk hs
    exact ⟨_, hh, h1, h2⟩
  rw [offsetCellBuf, hbm.key hA, ok_bind]
  simp only [offsetLoop]
  split
  · exact ⟨0, ans, rfl, h⟩
  · obtain ⟨o, e, hc⟩ := hbm.cont hA
    have hsp := containerAddOffset_spec hcr (decide ((key : Int) + co ≥ 0 ∧ (key : Int) + co < 65536))
        (decide ((key : Int) + co + 1 ≥ 0 ∧ (key : Int) + co + 1 < 65536)) ho ho2
    have hmi := containerAddOffset_minv hcr (decide ((key : Int) + co ≥ 0 ∧ (key : Int) + co < 65536))
        (decide ((key : Int) + co + 1 ≥ 0 ∧ (key : Int) + co + 1 < 65536)) ho ho2
    obtain ⟨w, ew, w1, w2⟩ := cAddOffsetBuf_spec hE hc hmid.2.2.1.1 (decide ((key : Int) + co ≥ 0 ∧ (key : Int) + co < 65536))
        (decide ((key : Int) + co + 1 ≥ 0 ∧ (key : Int) + co + 1 < 65536)) inOff
    rw [e, ok_bind, ew, ok_bind]
    generalize containerAddOffset c _ _ inOff = z at hsp hmi w1 w2 ⊢
    obtain ⟨lo, hi⟩ := z
    obtain ⟨wl, wh⟩ := w
    simp only at hsp hmi w1 w2 ⊢
    obtain ⟨s1, s2, s3, s4, _, _⟩ := hsp
    -- the low part
    have step1 : ∃ cap a1, offsetPutLoBuf E ans ((key : Int) + co) wl = .ok a1 ∧ RHolds a1 (offsetPutLo (fun _ => cap) r ((key : Int) + co) lo) ∧
        BP MNe (offsetPutLo (fun _ => cap) r ((key : Int) + co) lo) ∧ ∀ q ∈ offsetPutLo (fun _ => cap) r ((key : Int) + co) lo, (q.1 : Int) ≤ key + co := by
      cases lo with
      | none =>
        cases wl with
        | some _ => exact w1.elim
        | none => exact ⟨0, ans, rfl, h, hr, hlek⟩
      | some d =>
        cases wl with
        | none => exact w1.elim
        | some od =>
          have hkr : (key : Int) + co ≥ 0 ∧ (key : Int) + co < 65536 := by
            have : ¬ (decide ((key : Int) + co ≥ 0 ∧ (key : Int) + co < 65536) = false) := fun e => by simpa using s1 e
            simpa using this
          obtain ⟨q1, x, hx, hxo⟩ := s3 d rfl
          have hne : MNe d := ⟨hmi.1 d rfl, x + inOff, by
            rw [q1.has, Bool.and_eq_true, decide_eq_true_eq]
            exact ⟨by omega, by rw [Nat.add_sub_cancel]; exact hx⟩⟩
          have hle : ∀ p ∈ r, p.1 ≤ ((key : Int) + co).toNat := fun p hp => by have := hlek p hp; omega
          obtain ⟨cap, a1, e1, h1⟩ := offsetAppendBuf_spec hE h hr w1 hne (k := ((key : Int) + co).toNat) (by omega) hle
          have hs := offsetAppend_spec (fun _ => cap) hr (k := ((key : Int) + co).toNat) (by omega) hle hne
          exact ⟨cap, a1, e1, h1, hs.1, fun q hq => by have := hs.2.1 q hq; omega⟩
    obtain ⟨cap, a1, e1, h1, b1, b2⟩ := step1
    refine ⟨cap, ?_⟩
    rw [e1, ok_bind]
    cases hi with
    | none =>
      cases wh with
      | some _ => exact w2.elim
      | none => exact ⟨a1, rfl, h1⟩
    | some d =>
      cases wh with
      | none => exact w2.elim
      | some od =>
        have hkr : (key : Int) + co + 1 ≥ 0 ∧ (key : Int) + co + 1 < 65536 := by
          have : ¬ (decide ((key : Int) + co + 1 ≥ 0 ∧ (key : Int) + co + 1 < 65536) = false) := fun e => by simpa using s2 e
          simpa using this
        have hbk := bk_snoc (k := ((key : Int) + co + 1).toNat) (by omega) d b1.bk (fun p hp => by have := b2 p hp; omega)
        exact h1.append hE (bk_snoc_len hbk) w2

theorem offsetCellsBuf_spec (hE : RbEnvOK E) {bm : RaBuf} {co : Int} {inOff : Nat} (ho : 0 < inOff) (ho2 : inOff < 65536) (t : Bitmap) :
    ∀ {A r : Bitmap} {ans : RaBuf}, RHolds bm (A ++ t) → BInv (A ++ t) → RHolds ans r → BP MNe r →
    (∀ v, bhas r v = shifted (bhas A) (co * 65536 + inOff) v) →
    ∃ r', RGives (offsetCellsBuf E bm co inOff t.length A.length ans) r' ∧ BP MNe r' ∧ ∀ v, bhas r' v = shifted (bhas (A ++ t)) (co * 65536 + inOff) v := by
  induction t with
  | nil => intro A r ans hbm ib h hr hs; exact ⟨r, ⟨ans, rfl, h⟩, hr, by simpa using hs⟩
  | cons p t ih =>
    intro A r ans hbm ib h hr hs
    obtain ⟨r1, ⟨a1, e1, h1⟩, b1, s1⟩ := offsetCellBuf_spec hE ho ho2 hbm ib h hr hs
    obtain ⟨r2, h2, b2, s2⟩ := ih (A := A ++ [p]) (by simpa using hbm) (by simpa using ib) h1 b1 s1
    refine ⟨r2, ?_, b2, by simpa using s2⟩
    rw [List.length_cons, offsetCellsBuf, e1, ok_bind, next_length A p]
    exact h2

theorem raSetKeyBuf_spec {b : RaBuf} {A : Bitmap} {p : Nat × Container} (h : RHolds b (A ++ [p])) (k : Nat) :
    ∃ b', raSetKeyBuf b A.length k = .ok b' ∧ RHolds b' (A ++ [(k, p.2)]) := by
  have hl := h.lt
  obtain ⟨hA, hB⟩ := cellsAt_append.1 h.cells
  obtain ⟨⟨c0, h1, h2⟩, h3⟩ := cellsAt_cons.1 hB
  have h1' : b.mem[A.length]? = some (p.1, c0) := by simpa using h1
  rw [raSetKeyBuf, cellAt_eq h1', ok_bind, setCell_eq hl, ok_bind]
  refine ⟨_, rfl, ⟨by simpa using h.size, by simpa using h.le, cellsAt_append.2 ⟨hA.set_ne (by omega) _, ?_⟩⟩⟩
  simp only [Nat.zero_add] at *
  exact CellsAt.set_here hl h3 h2 rfl

theorem offsetKeysLoopBuf_spec (hE : RbEnvOK E) {bm : RaBuf} {co : Int} (t : Bitmap) : ∀ {A r : Bitmap} {ans : RaBuf} {j : Nat}, RHolds bm (A ++ t) →
    (A ++ t).length ≤ 65536 → RHolds ans r → r.length ≤ A.length → j = r.length →
    RGives (offsetKeysLoopBuf E bm co t.length A.length j ans) (r ++ offsetKeys co t) := by
  induction t with
  | nil => intro A r ans j hbm hl h hr hj; exact ⟨ans, rfl, by simpa [offsetKeys] using h⟩
  | cons p t ih =>
    intro A r ans j hbm hl h hr hj
    have hA : A.length < 65536 := by rw [List.length_append, List.length_cons] at hl; omega
    have hl2 : ((A ++ [p]) ++ t).length ≤ 65536 := by simpa using hl
    have hbm2 : RHolds bm ((A ++ [p]) ++ t) := by simpa using hbm
    rw [List.length_cons, offsetKeysLoopBuf, hbm.key hA, ok_bind]
    simp only
    rw [next_length A p]
    split
    · rename_i hk
      have := ih hbm2 hl2 h (by simp; omega) hj
      have e : offsetKeys co (p :: t) = offsetKeys co t := by
        simp only [offsetKeys]
        rw [List.filterMap_cons]
        simp only [if_pos hk]
      rw [e]
      exact this
    · rename_i hk
      obtain ⟨a1, e1, h1⟩ := raAppendCopyBuf_spec hE hbm hA h (by omega)
      obtain ⟨a2, e2, h2⟩ := raSetKeyBuf_spec h1 ((p.1 : Int) + co).toNat
      have := ih (j := j + 1) hbm2 hl2 h2 (by simp; omega) (by rw [hj]; simp)
      have e : offsetKeys co (p :: t) = (((p.1 : Int) + co).toNat, p.2) :: offsetKeys co t := by
        simp only [offsetKeys]
        rw [List.filterMap_cons]
        simp only [if_neg hk]
      rw [e1, ok_bind, hj, e2, ok_bind, ← hj, e]
      simpa using this

/-- `roaring_bitmap_add_offset` on memory. -/
theorem rbAddOffsetBuf_spec (hE : RbEnvOK E) {b : RaBuf} {r : Bitmap} (h : RHolds b r) (hr : BInv r) (d : Int) :
    ∃ r', RGives (rbAddOffsetBuf E b d) r' ∧ BInv r' ∧ ∀ v, bhas r' v = shifted (bhas r) d v := by
  rw [rbAddOffsetBuf]
  split
  · rename_i hd
    subst hd
    refine ⟨r, rbCopyBuf_spec hE h, hr, fun v => ?_⟩
    simp only [shifted, Int.sub_zero, Int.toNat_natCast]
    cases e : bhas r v
    · simp
    · simp [bhas_lt hr e]
  · simp only
    have e2 : ((d - d / 65536 * 65536) % 65536).toNat = (d % 65536).toNat := by omega
    rw [e2, h.size]
    split
    · rename_i hz
      have hk := offsetKeys_spec (co := d / 65536) hr
      rw [show d / 65536 * 65536 = d by omega] at hk
      refine ⟨offsetKeys (d / 65536) r, ?_, hk.1, hk.2.2⟩
      exact offsetKeysLoopBuf_spec hE r (A := []) (r := []) (by simpa using h) (by simpa using hr.length_le) (raInitBuf_spec hE 0).1 (by simp) rfl
    · rename_i hz
      obtain ⟨r1, ⟨a1, e1, h1⟩, b1, s1⟩ := offsetCellsBuf_spec hE (co := d / 65536) (inOff := (d % 65536).toNat) (by omega) (by omega) r (A := []) (r := [])
        (by simpa using h) (by simpa using hr) (raInitBuf_spec hE 0).1 trivial (fun v => by simp [bhas_nil, shifted])
      rw [show d / 65536 * 65536 + (((d % 65536).toNat : Nat) : Int) = d by omega, List.nil_append] at s1
      have hL : LBInv r1 := BP.mono b1 fun c hc => hc.lne
      have h2 := rbRepair_spec hL
      refine ⟨rbRepair r1, ?_, h2.1, fun v => by rw [h2.2, s1]⟩
      have e1' : offsetCellsBuf E b (d / 65536) (d % 65536).toNat r.length 0 (rbCreateBuf E 0) = .ok a1 := e1
      rw [e1', ok_bind]
      exact rbRepairBuf_spec hE h1 hL

/-- `roaring_bitmap_range_uint32_array` on memory. -/
theorem rbRangeArrayBuf_spec {b : RaBuf} {r : Bitmap} (h : RHolds b r) (hr : BInv r) (offset limit : Nat) (ans : List Nat) (ha : limit ≤ ans.length) :
    rbRangeArrayBuf E b offset limit ans = .ok (over ans 0 (rbRangeUint32 r offset limit)) := by
  have e : raLoadLoop b.mem r.length 0 = .ok r := raLoadLoop_spec r (A := []) (by simpa using h)
  rw [rbRangeArrayBuf, h.size, e, ok_bind]
  rcases rangeMem_over E.m.hw hr offset limit ans ha with ⟨_, e1, e2⟩ | ⟨_, k, e1, _⟩
  · rw [e1, ok_bind, e2]
    simp [over]
  · rw [e1, ok_bind]

end CRoaring
