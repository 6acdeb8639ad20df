import Verif.Lemmas.BitmapMem
import Verif.Lemmas.Bitmap3
import Verif.Lemmas.Serial2
set_option linter.unusedSimpArgs false
set_option linter.unusedVariables false

/-! Bitmaps in memory: reading containers, copies, single values. -/

namespace CRoaring
open Spec

variable {E : RbEnv}

/-! ### Reading a container -/

theorem CHolds.load {o : CBuf} {c : Container} (h : CHolds o c) : o.load = .ok c := by
  cases o <;> cases c <;> try exact h.elim
  · cases h; rfl
  · simp only [CBuf.load]; rw [AHolds.load h, ok_bind]
  · simp only [CBuf.load]; rw [Holds.load h, ok_bind]

theorem CHolds.nonzero {o : CBuf} {c : Container} (h : CHolds o c) : cNonzeroBuf o = containerNonzero c := by
  cases o <;> cases c <;> try exact h.elim
  · cases h; rfl
  · simp only [cNonzeroBuf, containerNonzero, AHolds.card h]
  · simp only [cNonzeroBuf, containerNonzero, Holds.n h]

theorem CHolds.isFull {o : CBuf} {c : Container} (h : CHolds o c) (n : NonEmptyRun c) : cIsFullBuf o = .ok (containerIsFull c) := by
  cases o <;> cases c <;> try exact h.elim
  · cases h; rfl
  · simp only [cIsFullBuf, containerIsFull, AHolds.card h]
  · rename_i r rs
    have : 0 < rs.length := List.length_pos_iff.2 n
    simp only [cIsFullBuf, containerIsFull, runIsFull]
    rw [Holds.rd h this, ok_bind, Holds.n h]

theorem CHolds.changed {o o' : CBuf} {c c' : Container} (h : CHolds o c) (h' : CHolds o' c') : o.changed o' = !sameType c c' := by
  cases o <;> cases c <;> try exact h.elim
  all_goals cases o' <;> cases c' <;> try exact h'.elim
  all_goals rfl

theorem LNe.run {c : Container} (h : LNe c) : NonEmptyRun c := by
  cases c with
  | bitset _ => trivial
  | array _ => trivial
  | run rs =>
    intro e
    obtain ⟨_, x, hx⟩ := h
    rw [e] at hx
    simp [chas] at hx

theorem CNe.run {c : Container} (h : CNe c) : NonEmptyRun c := h.lne.run

/-! ### Copies -/

theorem rholds_nil (mem : List RCell) : RHolds ⟨0, mem⟩ [] := ⟨rfl, Nat.zero_le _, cellsAt_nil _ _⟩

theorem raInitBuf_spec (hE : RbEnvOK E) (cap : Nat) : RHolds (raInitBuf E cap) [] ∧ (cap ≤ 65536 → (raInitBuf E cap).mem.length = cap) := by
  constructor
  · simp only [raInitBuf]
    split <;> split <;> exact rholds_nil _
  · intro h
    simp only [raInitBuf]
    rw [show (if cap > 65536 then 65536 else cap) = cap by rw [if_neg (by omega)]]
    split
    · exact hE.cells _
    · simp; omega

theorem raCopyLoop_spec (hE : RbEnvOK E) {sa : RaBuf} (B : Bitmap) : ∀ {A C acc : Bitmap} {b : RaBuf}, RHolds sa (A ++ (B ++ C)) → RHolds b acc →
    acc.length + B.length ≤ b.mem.length → RGives (raCopyLoop E sa B.length A.length b) (acc ++ B) := by
  induction B with
  | nil => intro A C acc b hs h hl; exact ⟨b, rfl, by simpa using h⟩
  | cons p t ih =>
    intro A C acc b hs h hl
    obtain ⟨_, h2⟩ := cellsAt_append.1 hs.cells
    rw [List.cons_append] at h2
    obtain ⟨⟨c, h3, h4⟩, _⟩ := cellsAt_cons.1 h2
    rw [Nat.zero_add] at h3
    obtain ⟨c', e, hc⟩ := cCloneBuf_spec hE.m h4
    rw [List.length_cons] at hl
    have hz := h.size
    rw [List.length_cons, raCopyLoop, cellAt_eq h3, ok_bind, e, ok_bind, setCell_eq (by omega), ok_bind]
    have := ih (A := A ++ [p]) (C := C) (acc := acc ++ [p]) (b := ⟨b.size + 1, b.mem.set b.size (p.1, c')⟩) (by simpa using hs) ?_ (by simp; omega)
    · simpa using this
    · refine ⟨by simp [hz], by simp; omega, cellsAt_append.2 ⟨h.cells.set_ne (by omega) _, ?_⟩⟩
      rw [hz, Nat.zero_add]
      exact CellsAt.set_here (by omega) (cellsAt_nil _ _) hc rfl

theorem raAppendCopyRangeBuf_spec (hE : RbEnvOK E) {sa b : RaBuf} {A B C acc : Bitmap} (hs : RHolds sa (A ++ (B ++ C))) (h : RHolds b acc)
    (hl : (acc ++ B).length ≤ 65536) {i j : Nat} (hi : i = A.length) (hj : j = A.length + B.length) :
    RGives (raAppendCopyRangeBuf E b sa i j) (acc ++ B) := by
  subst hi; subst hj
  rw [List.length_append] at hl
  obtain ⟨b1, e1, h1, h2⟩ := h.extend hE (k := B.length) hl
  rw [raAppendCopyRangeBuf, show A.length + B.length - A.length = B.length by omega, e1, ok_bind]
  exact raCopyLoop_spec hE B hs h1 h2

/-- The rest of `sa` from `i` on. -/
theorem appendRest (hE : RbEnvOK E) {sa b : RaBuf} {A B acc : Bitmap} (hs : RHolds sa (A ++ B)) (h : RHolds b acc)
    (hl : (acc ++ B).length ≤ 65536) {i : Nat} (hi : i = A.length) :
    RGives (raAppendCopyRangeBuf E b sa i sa.size) (acc ++ B) :=
  raAppendCopyRangeBuf_spec hE (A := A) (C := []) (by simpa using hs) h hl hi (by rw [hs.size]; simp)

theorem raOverwriteBuf_spec (hE : RbEnvOK E) {src dst : RaBuf} {r s : Bitmap} (h : RHolds src r) (hd : RHolds dst s) :
    RGives (raOverwriteBuf E src dst) r := by
  have hz := h.size
  have hz' := hd.size
  rw [raOverwriteBuf]
  split
  · have : r = [] := List.length_eq_zero_iff.1 (by omega)
    subst this
    exact ⟨_, rfl, rholds_nil _⟩
  · have hd' : ∃ d, raReserveBuf E dst src.size = .ok d ∧ r.length ≤ d.mem.length := by
      rw [raReserveBuf]
      split
      · obtain ⟨d, e, _, hl⟩ := hd.realloc hE (cap := src.size) (by have := hd.le; omega)
        exact ⟨d, e, by omega⟩
      · exact ⟨dst, rfl, by omega⟩
    obtain ⟨d, e, hl⟩ := hd'
    rw [e, ok_bind]
    have := raCopyLoop_spec hE r (A := []) (C := []) (acc := []) (b := ⟨0, d.mem⟩) (by simpa using h) (rholds_nil _) (by simpa using hl)
    rw [hz]
    simpa using this

theorem rbCopyBuf_spec (hE : RbEnvOK E) {b : RaBuf} {r : Bitmap} (h : RHolds b r) : RGives (rbCopyBuf E b) r :=
  raOverwriteBuf_spec hE h (raInitBuf_spec hE _).1

theorem rbOverwriteBuf_spec (hE : RbEnvOK E) {d b : RaBuf} {s r : Bitmap} (hd : RHolds d s) (h : RHolds b r) : RGives (rbOverwriteBuf E d b) r :=
  raOverwriteBuf_spec hE h hd

theorem rbClearBuf_spec (hE : RbEnvOK E) (b : RaBuf) : RGives (rbClearBuf E b) [] := by
  rw [rbClearBuf, raShrinkBuf, reallocArrayBuf, if_pos rfl]
  exact ⟨_, rfl, rholds_nil _⟩

theorem raShrinkBuf_spec (hE : RbEnvOK E) {b : RaBuf} {r : Bitmap} (h : RHolds b r) :
    ∃ b', raShrinkBuf E b = .ok b' ∧ RHolds b' r ∧ b'.mem.length = r.length := by
  rw [raShrinkBuf, h.size]
  exact h.realloc hE (Nat.le_refl _)

/-! ### One value -/

theorem bp_split_lt {P : Container → Prop} {A B : Bitmap} {p : Nat × Container} (h : BP P (A ++ p :: B)) : A.length < 65536 := by
  have := h.length_le
  simp at this
  omega

theorem rbContainsBuf_spec {b : RaBuf} {r : Bitmap} (h : RHolds b r) (hr : BInv r) (v : Nat) : rbContainsBuf b v = .ok (rbContains r v) := by
  rw [rbContainsBuf, h.index, ok_bind, rbContains]
  rcases ra_split hr (v / 65536) with ⟨A, c, B, e, hA, hB, hi⟩ | ⟨A, B, e, hA, hB, hi⟩
  · simp only [hi]
    rw [if_neg (by omega), if_neg (by omega), Int.toNat_natCast]
    subst e
    obtain ⟨o, e1, h1⟩ := h.cont (bp_split_lt hr)
    rw [e1, ok_bind, CHolds.load h1, ok_bind, contAt_mid]
  · simp only [hi]
    rw [if_pos (by omega), if_pos (by omega)]

theorem rbAddBuf_spec (hE : RbEnvOK E) {b : RaBuf} {r : Bitmap} (h : RHolds b r) (hr : BInv r) {v : Nat} (hv : v < 4294967296) :
    RGives (rbAddBuf E b v) (rbAdd r v) := by
  have hlen := (rbAdd_spec hr hv).1.length_le
  rw [rbAddBuf, h.index, ok_bind]
  rw [rbAdd] at hlen ⊢
  rcases ra_split hr (v / 65536) with ⟨A, c, B, e, hA, hB, hi⟩ | ⟨A, B, e, hA, hB, hi⟩
  · simp only [hi] at hlen ⊢
    rw [if_pos (by omega), if_pos (by omega), Int.toNat_natCast]
    subst e
    obtain ⟨o, e1, h1⟩ := h.cont (bp_split_lt hr)
    obtain ⟨o2, e2, h2⟩ := cAddBuf_spec hE.m h1 (bp_mid.1 hr).2.2.1.1 (v % 65536)
    rw [e1, ok_bind, e2, ok_bind, contAt_mid, raSet_mid]
    obtain ⟨b', e3, h3, _⟩ := h.set h2
    exact ⟨b', e3, h3⟩
  · simp only [hi] at hlen ⊢
    rw [if_neg (by omega), show (-(-((A.length : Int) + 1)) - 1).toNat = A.length by omega] at hlen
    rw [if_neg (by omega), if_neg (by omega), show (-(-((A.length : Int) + 1)) - 1).toNat = A.length by omega]
    subst e
    rw [raInsertAt_mid] at hlen ⊢
    obtain ⟨o2, e2, h2⟩ := cAddBuf_spec hE.m (o := .array (arrayCreateBuf E.m.vals 0)) (c := .array []) (aholds_nil _) rep_empty.inv (v % 65536)
    rw [e2, ok_bind]
    exact h.insert hE (by simp at hlen ⊢; omega) h2

theorem rbAddCheckedBuf_spec (hE : RbEnvOK E) {b : RaBuf} {r : Bitmap} (h : RHolds b r) (hr : BInv r) {v : Nat} (hv : v < 4294967296) :
    ∃ b', rbAddCheckedBuf E b v = .ok (b', (rbAddChecked r v).2) ∧ RHolds b' (rbAddChecked r v).1 := by
  have hlen := ((rbAddChecked_spec hr hv).1 ▸ (rbAdd_spec hr hv).1 : BInv (rbAddChecked r v).1).length_le
  rw [rbAddCheckedBuf, h.index, ok_bind]
  rw [rbAddChecked] at hlen ⊢
  rcases ra_split hr (v / 65536) with ⟨A, c, B, e, hA, hB, hi⟩ | ⟨A, B, e, hA, hB, hi⟩
  · simp only [hi] at hlen ⊢
    rw [if_pos (by omega), if_pos (by omega), Int.toNat_natCast]
    subst e
    obtain ⟨o, e1, h1⟩ := h.cont (bp_split_lt hr)
    obtain ⟨o2, e2, h2⟩ := cAddBuf_spec hE.m h1 (bp_mid.1 hr).2.2.1.1 (v % 65536)
    obtain ⟨b', e3, h3, _⟩ := h.set h2
    rw [e1, ok_bind, CHolds.load h1, ok_bind, e2, ok_bind, CHolds.load h2, ok_bind, contAt_mid, raSet_mid, e3, ok_bind, CHolds.changed h1 h2]
    exact ⟨b', rfl, h3⟩
  · simp only [hi] at hlen ⊢
    rw [if_neg (by omega), show (-(-((A.length : Int) + 1)) - 1).toNat = A.length by omega] at hlen
    rw [if_neg (by omega), if_neg (by omega), show (-(-((A.length : Int) + 1)) - 1).toNat = A.length by omega]
    subst e
    rw [raInsertAt_mid] at hlen ⊢
    obtain ⟨o2, e2, h2⟩ := cAddBuf_spec hE.m (o := .array (arrayCreateBuf E.m.vals 0)) (c := .array []) (aholds_nil _) rep_empty.inv (v % 65536)
    obtain ⟨b', e3, h3⟩ := h.insert hE (by simp at hlen ⊢; omega) h2
    rw [e2, ok_bind, e3, ok_bind]
    exact ⟨b', rfl, h3⟩

theorem rbRemoveBuf_spec (hE : RbEnvOK E) {b : RaBuf} {r : Bitmap} (h : RHolds b r) (hr : BInv r) (v : Nat) :
    RGives (rbRemoveBuf E b v) (rbRemove r v) := by
  rw [rbRemoveBuf, h.index, ok_bind, rbRemove]
  rcases ra_split hr (v / 65536) with ⟨A, c, B, e, hA, hB, hi⟩ | ⟨A, B, e, hA, hB, hi⟩
  · simp only [hi]
    rw [if_pos (by omega), if_pos (by omega), Int.toNat_natCast]
    subst e
    obtain ⟨o, e1, h1⟩ := h.cont (bp_split_lt hr)
    obtain ⟨o2, e2, h2⟩ := cRemoveBuf_spec hE.m h1 (bp_mid.1 hr).2.2.1.1 (v := v % 65536) (by omega)
    obtain ⟨b', e3, h3, _⟩ := h.set h2
    rw [e1, ok_bind, e2, ok_bind, contAt_mid, e3, ok_bind, CHolds.nonzero h2]
    split
    · rw [raSet_mid]; exact ⟨b', rfl, h3⟩
    · rw [raRemoveAt_mid]
      obtain ⟨b2, e4, h4, _⟩ := h3.remove
      exact ⟨b2, e4, h4⟩
  · simp only [hi]
    rw [if_neg (by omega), if_neg (by omega)]
    exact ⟨b, rfl, h⟩

theorem rbRemoveCheckedBuf_spec (hE : RbEnvOK E) {b : RaBuf} {r : Bitmap} (h : RHolds b r) (hr : BInv r) (v : Nat) :
    ∃ b', rbRemoveCheckedBuf E b v = .ok (b', (rbRemoveChecked r v).2) ∧ RHolds b' (rbRemoveChecked r v).1 := by
  rw [rbRemoveCheckedBuf, h.index, ok_bind, rbRemoveChecked]
  rcases ra_split hr (v / 65536) with ⟨A, c, B, e, hA, hB, hi⟩ | ⟨A, B, e, hA, hB, hi⟩
  · simp only [hi]
    rw [if_pos (by omega), if_pos (by omega), Int.toNat_natCast]
    subst e
    obtain ⟨o, e1, h1⟩ := h.cont (bp_split_lt hr)
    obtain ⟨o2, e2, h2⟩ := cRemoveBuf_spec hE.m h1 (bp_mid.1 hr).2.2.1.1 (v := v % 65536) (by omega)
    obtain ⟨b', e3, h3, _⟩ := h.set h2
    rw [e1, ok_bind, CHolds.load h1, ok_bind, e2, ok_bind, contAt_mid, e3, ok_bind, CHolds.load h2, ok_bind]
    simp only
    split
    · rw [raSet_mid]; exact ⟨b', rfl, h3⟩
    · rw [raRemoveAt_mid]
      obtain ⟨b2, e4, h4, _⟩ := h3.remove
      rw [e4, ok_bind]
      exact ⟨b2, rfl, h4⟩
  · simp only [hi]
    rw [if_neg (by omega), if_neg (by omega)]
    exact ⟨b, rfl, h⟩

end CRoaring
