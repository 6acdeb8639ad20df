import Verif.Lemmas.BitmapMem6
import Verif.Lemmas.Flip
import Verif.Lemmas.Bulk
import Verif.Lemmas.Query2
set_option linter.unusedSimpArgs false
set_option linter.unusedVariables false

/-! Bitmaps in memory: flips. -/

namespace CRoaring
open Spec

variable {E : RbEnv}

theorem CHolds.card {o : CBuf} {c : Container} (h : CHolds o c) : cCardBuf o = .ok (containerCard c) := by
  rw [cCardBuf, CHolds.load h, ok_bind]

/-- Keys below `n` are at most `n` many. -/
theorem length_le_of_keys {P : Container → Prop} {r : Bitmap} (h : BP P r) {n : Nat} (hk : ∀ p ∈ r, p.1 < n) : r.length ≤ n := by
  have h5 := nodup_length_le (a := keysOf r) (b := List.range' 0 n) (h.sorted.imp fun h => by omega) (by
    intro a ha
    obtain ⟨p, hp, rfl⟩ := List.mem_map.1 ha
    have := hk p hp
    exact List.mem_range'_1.2 ⟨by omega, by omega⟩)
  simpa [keysOf] using h5

/-! ### In place -/

/-- Common form of `inplaceFlipBuf` and `inplaceFullyFlipBuf`. -/
def flipWithBuf (E : RbEnv) (x1 : RaBuf) (hb : Nat) (N : CBuf → Out CBuf) (O : Out CBuf) : Out RaBuf := do
  let i ← raGetIndexBuf x1 hb
  if i ≥ 0 then do
    let c ← raContBuf x1 i.toNat
    let f ← N c
    let n ← cCardBuf f
    if n ≠ 0 then raSetBuf x1 i.toNat f else raRemoveBuf x1 i.toNat
  else do
    let f ← O
    raInsertBuf E x1 (-i - 1).toNat hb f

theorem flipWithBuf_spec (hE : RbEnvOK E) {b : RaBuf} {x : Bitmap} (h : RHolds b x) (hx : BInv x) {hb : Nat} {N : Container → Container} {O : Container}
    {Nb : CBuf → Out CBuf} {Ob : Out CBuf} (hN : ∀ o c, CHolds o c → CInv c → Gives (Nb o) (N c)) (hO : Gives Ob O)
    (hl : (flipWith x hb N O).length ≤ 65536) : RGives (flipWithBuf E b hb Nb Ob) (flipWith x hb N O) := by
  rw [flipWithBuf, h.index, ok_bind]
  rw [flipWith] at hl ⊢
  rcases ra_split hx hb with ⟨A, c, B, e, hA, hB, hi⟩ | ⟨A, B, e, hA, hB, hi⟩
  · simp only [hi]
    rw [if_pos (by omega), if_pos (by omega), Int.toNat_natCast]
    subst e
    obtain ⟨o, e1, h1⟩ := h.cont (bp_split_lt hx)
    obtain ⟨f, e2, h2⟩ := hN o c h1 (bp_mid.1 hx).2.2.1.1
    rw [e1, ok_bind, e2, ok_bind, CHolds.card h2, ok_bind, contAt_mid]
    split
    · obtain ⟨b', e3, h3, _⟩ := h.set h2
      rw [raSet_mid]
      exact ⟨b', e3, h3⟩
    · obtain ⟨b', e3, h3, _⟩ := h.remove
      rw [raRemoveAt_mid]
      exact ⟨b', e3, h3⟩
  · simp only [hi] at hl ⊢
    rw [if_neg (by omega), show (-(-((A.length : Int) + 1)) - 1).toNat = A.length by omega] at hl
    rw [if_neg (by omega), if_neg (by omega), show (-(-((A.length : Int) + 1)) - 1).toNat = A.length by omega]
    subst e
    obtain ⟨o2, e2, h2⟩ := hO
    rw [raInsertAt_mid] at hl ⊢
    rw [e2, ok_bind]
    exact h.insert hE (by simp at hl ⊢; omega) h2

theorem inplaceFlipBuf_spec (hE : RbEnvOK E) {b : RaBuf} {x : Bitmap} (h : RHolds b x) (hx : BInv x) {hb a e : Nat} (hk : hb < 65536) (hae : a ≤ e)
    (he : e < 65536) : RGives (inplaceFlipBuf E b hb a e) (inplaceFlip x hb a e) :=
  flipWithBuf_spec (Nb := cInotRangeBuf E.m a (e + 1)) (N := containerNotRange a (e + 1)) hE h hx
    (fun o c h1 h2 => cInotRangeBuf_spec hE.m h1 h2 (by omega)) (cRangeOfOnesBuf_spec hE.m _ _) (inplaceFlip_spec hx hk hae he).1.length_le

theorem inplaceFullyFlipBuf_spec (hE : RbEnvOK E) {b : RaBuf} {x : Bitmap} (h : RHolds b x) (hx : BInv x) {hb : Nat} (hk : hb < 65536) :
    RGives (inplaceFullyFlipBuf E b hb) (inplaceFullyFlip x hb) :=
  flipWithBuf_spec (Nb := cInotBuf E.m) (N := containerNot) hE h hx
    (fun o c h1 h2 => cInotBuf_spec hE.m h1 h2) (cRangeOfOnesBuf_spec hE.m _ _) (inplaceFullyFlip_spec hx hk).1.length_le

theorem forKeysBuf_flip (hE : RbEnvOK E) : ∀ (n k : Nat) {b : RaBuf} {x : Bitmap}, RHolds b x → BInv x → k + n ≤ 65536 →
    RGives (forKeysBuf (inplaceFullyFlipBuf E) n k b) ((List.range' k n).foldl inplaceFullyFlip x) := by
  intro n
  induction n with
  | zero => intro k b x h _ _; exact ⟨b, rfl, h⟩
  | succ n ih =>
    intro k b x h hx hk
    obtain ⟨b1, e1, h1⟩ := inplaceFullyFlipBuf_spec hE h hx (hb := k) (by omega)
    rw [forKeysBuf, e1, ok_bind, List.range'_succ, List.foldl_cons]
    exact ih (k + 1) h1 (inplaceFullyFlip_spec hx (by omega)).1 (by omega)

theorem rbFlipInplaceClosedBuf_spec (hE : RbEnvOK E) {b : RaBuf} {x : Bitmap} (h : RHolds b x) (hx : BInv x) {rs re : Nat} (hre : re < 4294967296) :
    RGives (rbFlipInplaceClosedBuf E b rs re) (rbFlipInplaceClosed x rs re) := by
  rw [rbFlipInplaceClosedBuf, rbFlipInplaceClosed]
  by_cases h1 : rs > re
  · rw [if_pos h1, if_pos h1]
    exact ⟨b, rfl, h⟩
  rw [if_neg h1, if_neg h1]
  simp only
  by_cases hk : rs / 65536 = re / 65536
  · rw [if_pos hk, if_pos hk]
    exact inplaceFlipBuf_spec hE h hx (by omega) (by omega) (by omega)
  rw [if_neg hk, if_neg hk]
  have hfirst : ∃ b1 y k, flipFirstInplaceBuf E b (rs / 65536) (rs % 65536) = .ok b1 ∧
      (if rs % 65536 > 0 then (inplaceFlip x (rs / 65536) (rs % 65536) 65535, rs / 65536 + 1) else (x, rs / 65536)) = (y, k) ∧
      k = (if rs % 65536 > 0 then rs / 65536 + 1 else rs / 65536) ∧ RHolds b1 y ∧ BInv y ∧ k ≤ re / 65536 := by
    rw [flipFirstInplaceBuf]
    split
    · obtain ⟨b1, e1, g1⟩ := inplaceFlipBuf_spec hE h hx (hb := rs / 65536) (a := rs % 65536) (e := 65535) (by omega) (by omega) (by omega)
      exact ⟨b1, _, _, e1, rfl, rfl, g1, (inplaceFlip_spec hx (by omega) (by omega) (by omega)).1, by omega⟩
    · exact ⟨b, _, _, rfl, rfl, rfl, h, hx, by omega⟩
  obtain ⟨b1, y, k, e1, e2, e3, g1, g2, g3⟩ := hfirst
  rw [e1, ok_bind, e2, ← e3]
  simp only [forKeys]
  have hend : (if re % 65536 ≠ 65535 then re / 65536 - 1 else re / 65536) + 1 ≤ 65536 := by split <;> omega
  generalize hg : (if re % 65536 ≠ 65535 then re / 65536 - 1 else re / 65536) = hi at hend ⊢
  have hki : k ≤ hi + 1 := by rw [← hg]; split <;> omega
  obtain ⟨b2, e4, g4⟩ := forKeysBuf_flip hE (hi + 1 - k) k g1 g2 (by omega)
  have g5 := (forKeys_flip g2 (k := k) (hi + 1 - k) (by omega)).1
  rw [e4, ok_bind, flipLastInplaceBuf]
  split
  · rename_i h5
    rw [if_pos h5] at hg
    exact inplaceFlipBuf_spec hE g4 g5 (by omega) (by omega) (by omega)
  · exact ⟨b2, rfl, g4⟩

/-! ### Into a new bitmap -/

/-- Common form of `insertFlippedBuf` and `insertFullyFlippedBuf`. -/
def insertWithBuf (E : RbEnv) (ans x1 : RaBuf) (hb : Nat) (N : CBuf → Out CBuf) (O : Out CBuf) : Out RaBuf := do
  let i ← raGetIndexBuf x1 hb
  let j ← raGetIndexBuf ans hb
  if i ≥ 0 then do
    let c ← raContBuf x1 i.toNat
    let f ← N c
    let n ← cCardBuf f
    if n ≠ 0 then raInsertBuf E ans (-j - 1).toNat hb f else .ok ans
  else do
    let f ← O
    raInsertBuf E ans (-j - 1).toNat hb f

theorem insertWithBuf_spec (hE : RbEnvOK E) {b a : RaBuf} {x ans : Bitmap} (h : RHolds b x) (hx : BInv x) (ha : RHolds a ans) (hia : BInv ans)
    {hb : Nat} (hka : ∀ p ∈ ans, p.1 < hb) (hk : hb < 65536) {N : Container → Container} {O : Container}
    {Nb : CBuf → Out CBuf} {Ob : Out CBuf} (hN : ∀ o c, CHolds o c → CInv c → Gives (Nb o) (N c)) (hO : Gives Ob O) :
    RGives (insertWithBuf E a b hb Nb Ob) (insertWith ans x hb N O) := by
  have hla := length_le_of_keys hia hka
  have hj : (-raGetIndex ans hb - 1).toNat = ans.length := by
    rcases ra_split hia hb with ⟨A, c, B, e, hA, hB, hi⟩ | ⟨A, B, e, hA, hB, hi⟩
    · have := hka (hb, c) (by rw [e]; simp)
      simp at this
    · have : B = [] := by
        cases B with
        | nil => rfl
        | cons p t =>
          have h1 := hka p (by rw [e]; simp)
          have h2 := hB p (by simp)
          omega
      rw [hi, e, this]
      simp
  have hins : ∀ o c, CHolds o c → RGives (raInsertBuf E a ans.length hb o) (ans ++ [(hb, c)]) := by
    intro o c ho
    have := RQ.insert hE (A := ans) (B := []) (b := a) (k := hb) (by simpa using ha) (by simp; omega) ho
    exact this
  rw [insertWithBuf, h.index, ok_bind, ha.index, ok_bind, insertWith]
  simp only [hj, insertAt_end hia hka]
  rcases ra_split hx hb with ⟨A, c, B, e, hA, hB, hi⟩ | ⟨A, B, e, hA, hB, hi⟩
  · simp only [hi]
    rw [if_pos (by omega), if_pos (by omega), Int.toNat_natCast]
    subst e
    obtain ⟨o, e1, h1⟩ := h.cont (bp_split_lt hx)
    obtain ⟨f, e2, h2⟩ := hN o c h1 (bp_mid.1 hx).2.2.1.1
    rw [e1, ok_bind, e2, ok_bind, CHolds.card h2, ok_bind, contAt_mid]
    split
    · rw [← hj, insertAt_end hia hka, hj]; exact hins f _ h2
    · exact ⟨a, rfl, ha⟩
  · simp only [hi]
    rw [if_neg (by omega), if_neg (by omega)]
    obtain ⟨o2, e2, h2⟩ := hO
    rw [e2, ok_bind, ← hj, insertAt_end hia hka, hj]
    exact hins o2 _ h2

theorem insertFlippedBuf_spec (hE : RbEnvOK E) {b a : RaBuf} {x ans : Bitmap} (h : RHolds b x) (hx : BInv x) (ha : RHolds a ans) {T : NSet} {hb s e : Nat}
    (hu : Upto T hb ans) (hk : hb < 65536) (he : e < 65536) : RGives (insertFlippedBuf E a b hb s e) (insertFlipped ans x hb s e) :=
  insertWithBuf_spec (Nb := cNotRangeBuf E.m s (e + 1)) (N := containerNotRange s (e + 1)) hE h hx ha hu.inv hu.keys hk
    (fun o c h1 h2 => cNotRangeBuf_spec hE.m h1 h2 (by omega)) (cRangeOfOnesBuf_spec hE.m _ _)

theorem insertFullyFlippedBuf_spec (hE : RbEnvOK E) {b a : RaBuf} {x ans : Bitmap} (h : RHolds b x) (hx : BInv x) (ha : RHolds a ans) {T : NSet} {hb : Nat}
    (hu : Upto T hb ans) (hk : hb < 65536) : RGives (insertFullyFlippedBuf E a b hb) (insertFullyFlipped ans x hb) :=
  insertWithBuf_spec (Nb := cNotBuf E.m) (N := containerNot) hE h hx ha hu.inv hu.keys hk
    (fun o c h1 h2 => cNotBuf_spec hE.m h1 h2) (cRangeOfOnesBuf_spec hE.m _ _)

theorem forKeysBuf_insert (hE : RbEnvOK E) {b : RaBuf} {x : Bitmap} (h : RHolds b x) (hx : BInv x) {T : NSet} : ∀ (n k : Nat) {a : RaBuf} {ans : Bitmap},
    RHolds a ans → Upto T k ans → k + n ≤ 65536 → (∀ v, k ≤ v / 65536 → v / 65536 < k + n → T v = !bhas x v) →
    RGives (forKeysBuf (fun a hb => insertFullyFlippedBuf E a b hb) n k a) ((List.range' k n).foldl (fun a hb => insertFullyFlipped a x hb) ans) := by
  intro n
  induction n with
  | zero => intro k a ans ha _ _ _; exact ⟨a, rfl, ha⟩
  | succ n ih =>
    intro k a ans ha hu hk hT
    obtain ⟨b1, e1, h1⟩ := insertFullyFlippedBuf_spec hE h hx ha hu (by omega)
    rw [forKeysBuf, e1, ok_bind, List.range'_succ, List.foldl_cons]
    exact ih (k + 1) h1 (insertFullyFlipped_spec hx (by omega) hu fun v hv => hT v (by omega) (by omega)) (by omega) fun v v1 v2 => hT v (by omega) (by omega)

theorem raAppendCopyBuf_spec (hE : RbEnvOK E) {sa b : RaBuf} {A B acc : Bitmap} {p : Nat × Container} (hs : RHolds sa (A ++ p :: B)) (hA : A.length < 65536)
    (h : RHolds b acc) (hl : acc.length < 65536) : RGives (raAppendCopyBuf E b sa A.length) (acc ++ [p]) := by
  obtain ⟨b1, e1, h1, h2⟩ := h.extend hE (k := 1) (by omega)
  obtain ⟨⟨c, h3, h4⟩, _⟩ := cellsAt_cons.1 (cellsAt_append.1 hs.cells).2
  rw [Nat.zero_add] at h3
  obtain ⟨c', e, hc⟩ := cCloneBuf_spec hE.m h4
  have hz := h1.size
  rw [raAppendCopyBuf, e1, ok_bind, Nat.mod_eq_of_lt hA, cellAt_eq h3, ok_bind, e, ok_bind, setCell_eq (by omega), ok_bind]
  refine ⟨_, rfl, ⟨by simp [hz], by simp; omega, cellsAt_append.2 ⟨h1.cells.set_ne (by omega) _, ?_⟩⟩⟩
  rw [hz, Nat.zero_add]
  exact CellsAt.set_here (by omega) (cellsAt_nil _ _) hc rfl

theorem raCopiesUntilBuf_spec (hE : RbEnvOK E) {sa : RaBuf} {k : Nat} (B : Bitmap) : ∀ {A : Bitmap} {b : RaBuf}, RHolds sa (A ++ B) →
    (A ++ B).length ≤ 65536 → RHolds b A → RGives (raCopiesUntilBuf E sa k B.length A.length b) (A ++ raCopiesUntil B k) := by
  induction B with
  | nil => intro A b hs hl h; exact ⟨b, rfl, by simpa [raCopiesUntil] using h⟩
  | cons p t ih =>
    intro A b hs hl h
    obtain ⟨⟨c, h3, h4⟩, _⟩ := cellsAt_cons.1 (cellsAt_append.1 hs.cells).2
    rw [Nat.zero_add] at h3
    rw [List.length_cons, raCopiesUntilBuf, cellAt_eq h3, ok_bind, raCopiesUntil, List.takeWhile_cons]
    simp only
    by_cases hk : p.1 ≥ k
    · rw [if_pos hk, if_neg (by simp; omega)]
      exact ⟨b, rfl, by simpa using h⟩
    · rw [if_neg hk, if_pos (by simp; omega)]
      simp at hl
      obtain ⟨b1, e1, h1⟩ := raAppendCopyBuf_spec hE hs (by omega) h (by omega)
      rw [e1, ok_bind]
      have := ih (A := A ++ [p]) (b := b1) (by simpa using hs) (by simp; omega) h1
      simpa [raCopiesUntil] using this

theorem raCopiesAfterBuf_spec (hE : RbEnvOK E) {sa b : RaBuf} {x ans : Bitmap} (h : RHolds sa x) (hx : BInv x) (ha : RHolds b ans) {k : Nat}
    (hl : (ans ++ raCopiesAfter x k).length ≤ 65536) : RGives (raCopiesAfterBuf E b sa k) (ans ++ raCopiesAfter x k) := by
  rw [raCopiesAfterBuf, h.index, ok_bind]
  rw [raCopiesAfter] at hl ⊢
  rcases ra_split hx k with ⟨A, c, B, e, hA, hB, hi⟩ | ⟨A, B, e, hA, hB, hi⟩
  · simp only [hi] at hl ⊢
    rw [if_pos (by omega)] at hl
    rw [if_pos (by omega), if_pos (by omega)]
    rw [show ((A.length : Int) + 1).toNat = (A ++ [(k, c)]).length by simp] at hl ⊢
    rw [show x = (A ++ [(k, c)]) ++ B by rw [e]; simp] at h hl ⊢
    rw [List.drop_left] at hl ⊢
    exact appendRest hE h ha hl rfl
  · simp only [hi] at hl ⊢
    rw [if_neg (by omega), show (-(-((A.length : Int) + 1)) - 1).toNat = A.length by omega] at hl
    rw [if_neg (by omega), if_neg (by omega), show (-(-((A.length : Int) + 1)) - 1).toNat = A.length by omega]
    subst e
    rw [List.drop_left] at hl ⊢
    exact appendRest hE h ha hl rfl

theorem rbFlipClosedBuf_spec (hE : RbEnvOK E) {b : RaBuf} {x : Bitmap} (h : RHolds b x) (hx : BInv x) {rs re : Nat} (hre : re < 4294967296) :
    RGives (rbFlipClosedBuf E b rs re) (rbFlipClosed x rs re) := by
  have hlen := (rbFlipClosed_spec hx (rs := rs) hre).1.length_le
  rw [rbFlipClosedBuf]
  rw [rbFlipClosed] at hlen ⊢
  by_cases h1 : rs > re
  · rw [if_pos h1, if_pos h1]
    exact rbCopyBuf_spec hE h
  rw [if_neg h1] at hlen
  rw [if_neg h1, if_neg h1]
  simp only at hlen ⊢
  have hTlow : ∀ v, v / 65536 < rs / 65536 → (decide (rs ≤ v ∧ v ≤ re) != bhas x v) = bhas x v := by
    intro v hv
    rw [decide_eq_false (by omega)]; simp
  have h0 := copiesUntil_spec (T := fun v => decide (rs ≤ v ∧ v ≤ re) != bhas x v) hx hTlow
  have hmid : ∀ v, rs ≤ v → v ≤ re → (decide (rs ≤ v ∧ v ≤ re) != bhas x v) = !bhas x v := by
    intro v h1 h2
    rw [decide_eq_true ⟨h1, h2⟩]; cases bhas x v <;> rfl
  obtain ⟨b0, e0, g0⟩ := raCopiesUntilBuf_spec hE (sa := b) (k := rs / 65536) x (A := []) (b := rbCreateBuf E 0) (by simpa using h)
    (by simpa using hx.length_le) (raInitBuf_spec hE 0).1
  rw [List.nil_append] at g0
  have e0' : raCopiesUntilBuf E b (rs / 65536) x.length 0 (rbCreateBuf E 0) = .ok b0 := e0
  rw [h.size, e0', ok_bind]
  by_cases hk : rs / 65536 = re / 65536
  · rw [if_pos hk] at hlen
    rw [if_pos hk, if_pos hk]
    obtain ⟨b1, e1, g1⟩ := insertFlippedBuf_spec hE h hx g0 h0 (s := rs % 65536) (e := re % 65536) (by omega) (by omega)
    rw [e1, ok_bind]
    exact raCopiesAfterBuf_spec hE h hx g1 hlen
  rw [if_neg hk] at hlen
  rw [if_neg hk, if_neg hk]
  have hfirst : ∃ b1 y k, flipFirstBuf E b0 b (rs / 65536) (rs % 65536) = .ok b1 ∧
      (if rs % 65536 > 0 then (insertFlipped (raCopiesUntil x (rs / 65536)) x (rs / 65536) (rs % 65536) 65535, rs / 65536 + 1)
        else (raCopiesUntil x (rs / 65536), rs / 65536)) = (y, k) ∧
      k = (if rs % 65536 > 0 then rs / 65536 + 1 else rs / 65536) ∧ RHolds b1 y ∧
      Upto (fun v => decide (rs ≤ v ∧ v ≤ re) != bhas x v) k y ∧ rs ≤ k * 65536 ∧ k ≤ re / 65536 := by
    rw [flipFirstBuf]
    split
    · obtain ⟨b1, e1, g1⟩ := insertFlippedBuf_spec hE h hx g0 h0 (s := rs % 65536) (e := 65535) (by omega) (by omega)
      refine ⟨b1, _, _, e1, rfl, rfl, g1, ?_, by omega, by omega⟩
      refine insertFlipped_spec hx (by omega) (by omega) (by omega) h0 fun v hv => ?_
      congr 1
      apply decide_eq_decide.2; omega
    · exact ⟨b0, _, _, rfl, rfl, rfl, g0, h0, by omega, by omega⟩
  obtain ⟨b1, y, k, e1, e2, e3, g1, g2, g3, g3'⟩ := hfirst
  rw [e2] at hlen
  rw [e1, ok_bind, e2, ← e3]
  simp only [forKeys] at hlen ⊢
  have hend : (if re % 65536 ≠ 65535 then re / 65536 - 1 else re / 65536) + 1 ≤ 65536 := by split <;> omega
  generalize hg : (if re % 65536 ≠ 65535 then re / 65536 - 1 else re / 65536) = hi at hend hlen ⊢
  have hki : k ≤ hi + 1 := by rw [← hg]; split <;> omega
  have hTm : ∀ v, k ≤ v / 65536 → v / 65536 < k + (hi + 1 - k) → (decide (rs ≤ v ∧ v ≤ re) != bhas x v) = !bhas x v := by
    intro v v1 v2
    refine hmid v (by omega) ?_
    split at hg <;> omega
  obtain ⟨b2, e4, g4⟩ := forKeysBuf_insert hE h hx (hi + 1 - k) k g1 g2 (by omega) hTm
  have g5 := forKeys_insert hx (k := k) (hi + 1 - k) (by omega) g2 hTm
  rw [show k + (hi + 1 - k) = hi + 1 by omega] at g5
  rw [e4, ok_bind, flipLastBuf]
  by_cases h5 : re % 65536 ≠ 65535
  · rw [if_pos h5] at hlen hg
    rw [if_pos h5, if_pos h5, if_pos h5]
    obtain ⟨b3, e5, g6⟩ := insertFlippedBuf_spec hE h hx g4 g5 (s := 0) (e := re % 65536) (by omega) (by omega)
    rw [e5, ok_bind]
    exact raCopiesAfterBuf_spec hE h hx g6 hlen
  · rw [if_neg h5] at hlen
    rw [if_neg h5, if_neg h5, if_neg h5, ok_bind]
    exact raCopiesAfterBuf_spec hE h hx g4 hlen

end CRoaring
