import Verif.Lemmas.BitsetMem2
set_option linter.unusedSimpArgs false
set_option linter.unusedVariables false
/-
Lemmas about Model/BitsetMem.lean, for C129: shifts.
-/
namespace CRoaring

theorem bmLd_get {h : BHeap} {a : Option Nat} {ws : List Word} (ha : BArr h a ws) (i : Nat) : bmLd h a i = ws[i]? := by
  cases a with
  | none => have : ws = [] := ha; rw [this]; rfl
  | some q =>
    have ha' : h.blocks[q]? = some (some (.words ws)) := ha
    simp only [bmLd, ha']

theorem bmSt_get {h : BHeap} {a : Option Nat} {ws : List Word} (ha : BArr h a ws) (i : Nat) (w : Word) :
    bmSt h a i w = (wordStore ws i w).map fun ws => wset h a ws := by
  unfold wordStore
  by_cases hi : i < ws.length
  · rw [bmSt_eq ha hi, if_pos hi]; rfl
  · rw [if_neg hi]
    cases a with
    | none => rfl
    | some q =>
      have ha' : h.blocks[q]? = some (some (.words ws)) := ha
      simp only [bmSt, ha', if_neg hi]
      rfl

theorem wordStore_length {ws ws' : List Word} {i : Nat} {w : Word} (h : wordStore ws i w = some ws') :
    ws'.length = ws.length := by
  unfold wordStore at h
  by_cases hi : i < ws.length
  · rw [if_pos hi] at h; injection h with h; rw [← h]; simp
  · rw [if_neg hi] at h; cases h

theorem shlMove_eq {h : BHeap} {a : Option Nat} {ws : List Word} (ha : BArr h a ws) (extra n : Nat) :
    bmShlMove h a extra n = (shlMove extra n ws).map (fun ws => wset h a ws) ∧
    ∀ ws', shlMove extra n ws = some ws' → ws'.length = ws.length := by
  induction n generalizing h ws with
  | zero => exact ⟨by simp [bmShlMove, shlMove, wset_self ha], fun ws' e => by simp [shlMove] at e; rw [← e]⟩
  | succ n ih =>
    rw [bmShlMove, shlMove, bmLd_get ha]
    cases e1 : ws[n]? with
    | none => exact ⟨rfl, fun _ e => by cases e⟩
    | some w =>
      simp only []
      rw [bmSt_get ha]
      cases e2 : wordStore ws (n + extra) w with
      | none => exact ⟨rfl, fun _ e => by cases e⟩
      | some ws2 =>
        simp only [Option.map_some]
        have hl := wordStore_length e2
        obtain ⟨i1, i2⟩ := ih (arr_wset ha hl)
        rw [i1]
        refine ⟨by simp only [wset_wset], fun ws' e => by rw [i2 ws' e, hl]⟩

theorem shlLoop_eq {h : BHeap} {a : Option Nat} {ws : List Word} (ha : BArr h a ws) (extra sh n : Nat) :
    bmShlLoop h a extra sh n = (shlLoop extra sh n ws).map (fun ws => wset h a ws) ∧
    ∀ ws', shlLoop extra sh n ws = some ws' → ws'.length = ws.length := by
  induction n generalizing h ws with
  | zero => exact ⟨by simp [bmShlLoop, shlLoop, wset_self ha], fun ws' e => by simp [shlLoop] at e; rw [← e]⟩
  | succ n ih =>
    rw [bmShlLoop, shlLoop, bmLd_get ha, bmLd_get ha]
    cases e1 : ws[n + 1]? with
    | none => exact ⟨rfl, fun _ e => by cases e⟩
    | some w1 =>
      cases e0 : ws[n]? with
      | none => exact ⟨rfl, fun _ e => by cases e⟩
      | some w0 =>
        simp only []
        rw [bmSt_get ha]
        cases e2 : wordStore ws (n + 1 + extra) ((w1 <<< sh) ||| (w0 >>> (64 - sh))) with
        | none => exact ⟨rfl, fun _ e => by cases e⟩
        | some ws2 =>
          simp only [Option.map_some]
          have hl := wordStore_length e2
          obtain ⟨i1, i2⟩ := ih (arr_wset ha hl)
          rw [i1]
          refine ⟨by simp only [wset_wset], fun ws' e => by rw [i2 ws' e, hl]⟩

theorem shrMove_eq {h : BHeap} {a : Option Nat} {ws : List Word} (ha : BArr h a ws) (extra i n : Nat) :
    bmShrMove h a extra i n = (shrMove extra i n ws).map (fun ws => wset h a ws) ∧
    ∀ ws', shrMove extra i n ws = some ws' → ws'.length = ws.length := by
  induction n generalizing h ws i with
  | zero => exact ⟨by simp [bmShrMove, shrMove, wset_self ha], fun ws' e => by simp [shrMove] at e; rw [← e]⟩
  | succ n ih =>
    rw [bmShrMove, shrMove, bmLd_get ha]
    cases e1 : ws[i + extra]? with
    | none => exact ⟨rfl, fun _ e => by cases e⟩
    | some w =>
      simp only []
      rw [bmSt_get ha]
      cases e2 : wordStore ws i w with
      | none => exact ⟨rfl, fun _ e => by cases e⟩
      | some ws2 =>
        simp only [Option.map_some]
        have hl := wordStore_length e2
        obtain ⟨i1, i2⟩ := ih (arr_wset ha hl) (i + 1)
        rw [i1]
        refine ⟨by simp only [wset_wset], fun ws' e => by rw [i2 ws' e, hl]⟩

theorem shrLoop_eq {h : BHeap} {a : Option Nat} {ws : List Word} (ha : BArr h a ws) (extra sh i n : Nat) :
    bmShrLoop h a extra sh i n = (shrLoop extra sh i n ws).map (fun ws => wset h a ws) ∧
    ∀ ws', shrLoop extra sh i n ws = some ws' → ws'.length = ws.length := by
  induction n generalizing h ws i with
  | zero => exact ⟨by simp [bmShrLoop, shrLoop, wset_self ha], fun ws' e => by simp [shrLoop] at e; rw [← e]⟩
  | succ n ih =>
    rw [bmShrLoop, shrLoop, bmLd_get ha, bmLd_get ha]
    cases e1 : ws[i + extra]? with
    | none => exact ⟨rfl, fun _ e => by cases e⟩
    | some w0 =>
      cases e0 : ws[i + extra + 1]? with
      | none => exact ⟨rfl, fun _ e => by cases e⟩
      | some w1 =>
        simp only []
        rw [bmSt_get ha]
        cases e2 : wordStore ws i ((w0 >>> sh) ||| (w1 <<< (64 - sh))) with
        | none => exact ⟨rfl, fun _ e => by cases e⟩
        | some ws2 =>
          simp only [Option.map_some]
          have hl := wordStore_length e2
          obtain ⟨i1, i2⟩ := ih (arr_wset ha hl) (i + 1)
          rw [i1]
          refine ⟨by simp only [wset_wset], fun ws' e => by rw [i2 ws' e, hl]⟩

/-- The last step of a left shift. -/
theorem shlZero_eq {h : BHeap} {p : Nat} {a : Option Nat} {b b' : BSet} (hb : BAt h p a b) {extra : Nat}
    (e : shlZero extra b.mem b.size = some b') :
    ∃ h', bmFill h a 0#64 0 extra = some h' ∧ BAt h' p a b' ∧ BFr h p a h' a ∧ h'.reqs = h.reqs := by
  unfold shlZero at e
  by_cases hx : extra ≤ b.mem.length
  · rw [if_pos hx] at e
    injection e with e
    subst e
    rw [bmFill_eq hb.arr _ (by omega)]
    exact ⟨_, rfl, hb.wset (fillWords_length' _ _ _ _), frame_wset _ _ _ _, wset_reqs _ _ _⟩
  · rw [if_neg hx] at e; cases e

theorem frame_wset_trans {h h' : BHeap} {p : Nat} {a : Option Nat} {b : BSet} (hb : BAt h p a b) (ws : List Word)
    (hf : BFr (wset h a ws) p a h' a) : BFr h p a h' a := (frame_wset h p a ws).transAt hb hf

/-- A left shift whose memory is granted. -/
theorem bmShiftLeft_ok (al : BAlloc) {h : BHeap} {p : Nat} {a : Option Nat} {b b' : BSet} (hb : BAt h p a b) (hk : BSOK b) {s : Nat}
    (hg : al.grants h.reqs = true) (e : bsShiftLeft (al.junk h.reqs) b s = some b') :
    ∃ h' a', bmShiftLeft al h p s = some h' ∧ BAt h' p a' b' ∧ BFr h p a h' a' := by
  have hres : ∀ n pad, ∃ h1 a1 r, bmResize al h p n pad = some (h1, r) ∧ BAt h1 p a1 (bsResize (al.junk h.reqs) b n pad).1 ∧
      BFr h p a h1 a1 := by
    intro n pad
    obtain ⟨h1, a1, b1, r, e1, hb1, hf1, _, hv⟩ := bmResize_ok al hb hk n pad
    by_cases hgr : al.granted h h1 = true
    · rw [if_pos hgr] at hv
      rw [← hv]
      exact ⟨h1, a1, r, e1, hb1, hf1⟩
    · exfalso
      rw [if_neg hgr] at hv
      have hfalse : r = false := by injection hv
      unfold bmResize at e1
      by_cases hm : n > MAXWORDS
      · rw [if_pos hm] at e1
        injection e1 with e1
        injection e1 with e1 _
        rw [← e1] at hgr
        exact hgr (granted_zero al rfl)
      · rw [if_neg hm, bmObj_eq hb] at e1
        simp only [] at e1
        by_cases hc : b.mem.length < n
        · simp only [if_pos hc] at e1
          have hge := doubleUntil_ge (if b.mem.length = 0 then 1 else b.mem.length) n (by split <;> omega)
          generalize hN : doubleUntil (if b.mem.length = 0 then 1 else b.mem.length) n = N at *
          have hN0 : N ≠ 0 := by omega
          rcases realloc_put al hb hN0 b.size with ⟨hg2, _⟩ | ⟨_, h2, q, h3, e2, e3, hr, hf, hb2⟩
          · rw [hg] at hg2; cases hg2
          · rw [e2] at e1
            simp only [] at e1
            rw [e3] at e1
            simp only [] at e1
            obtain ⟨h4, e4, hr4, _⟩ := fin_fill hb2 (pad = true ∧ n > if n < b.size then n else b.size)
              (k := if n < b.size then n else b.size) (n := n - if n < b.size then n else b.size) (m := n)
              (fun _ => by simp only [reallocWords_length]; split <;> omega)
            simp only [reallocWords_length] at e4
            have e5 := e4.symm.trans e1
            injection e5 with e5
            injection e5 with _ e5
            rw [hfalse] at e5
            cases e5
        · simp only [if_neg hc] at e1
          obtain ⟨h4, e4, hr4, _⟩ := fin_fill hb (pad = true ∧ n > if n < b.size then n else b.size)
              (k := if n < b.size then n else b.size) (n := n - if n < b.size then n else b.size) (m := n)
              (fun _ => by split <;> omega)
          have e5 := e4.symm.trans e1
          injection e5 with e5
          injection e5 with _ e5
          rw [hfalse] at e5
          cases e5
  unfold bsShiftLeft at e
  unfold bmShiftLeft
  rw [bmObj_eq hb]
  simp only [] at e ⊢
  by_cases h0 : s % 64 = 0
  · rw [if_pos h0] at e
    rw [if_pos h0]
    obtain ⟨h1, a1, r, e1, hb1, hf1⟩ := hres (b.size + s / 64) false
    rw [e1]
    simp only []
    rw [bmObj_eq hb1]
    simp only []
    obtain ⟨m1, m2⟩ := shlMove_eq hb1.arr (s / 64) b.size
    rw [m1]
    generalize bsResize (al.junk h.reqs) b (b.size + s / 64) false = g at *
    cases em : shlMove (s / 64) b.size g.1.mem with
    | none => rw [em] at e; cases e
    | some ws =>
      rw [em] at e
      simp only [] at e
      simp only [Option.map_some]
      obtain ⟨h2, e2, hb2, hf2, _⟩ := shlZero_eq (hb1.wset (m2 ws em)) e
      exact ⟨h2, a1, e2, hb2, hf1.transAt hb (frame_wset_trans hb1 _ hf2)⟩
  · rw [if_neg h0] at e
    rw [if_neg h0]
    obtain ⟨h1, a1, r, e1, hb1, hf1⟩ := hres (b.size + s / 64 + 1) true
    rw [e1]
    simp only []
    rw [bmObj_eq hb1]
    simp only []
    rw [bmLd_get hb1.arr]
    generalize bsResize (al.junk h.reqs) b (b.size + s / 64 + 1) true = g at *
    cases et : g.1.mem[szSub b.size 1]? with
    | none => rw [et] at e; cases e
    | some top =>
      rw [et] at e
      simp only [] at e ⊢
      rw [bmSt_get hb1.arr]
      cases es : wordStore g.1.mem (b.size + s / 64) (top >>> (64 - s % 64)) with
      | none => rw [es] at e; cases e
      | some w1 =>
        rw [es] at e
        simp only [Option.map_some] at e ⊢
        have hb2 := hb1.wset (wordStore_length es)
        obtain ⟨m1, m2⟩ := shlLoop_eq hb2.arr (s / 64) (s % 64) (b.size - 1)
        rw [m1]
        cases em : shlLoop (s / 64) (s % 64) (b.size - 1) w1 with
        | none => rw [em] at e; cases e
        | some w2 =>
          rw [em] at e
          simp only [Option.map_some] at e ⊢
          have hb3 := hb2.wset (m2 w2 em)
          simp only [] at hb3
          rw [bmLd_get hb3.arr]
          cases e0 : w2[0]? with
          | none => rw [e0] at e; cases e
          | some w0 =>
            rw [e0] at e
            simp only [] at e ⊢
            rw [bmSt_get hb3.arr]
            cases es2 : wordStore w2 (s / 64) (w0 <<< (s % 64)) with
            | none => rw [es2] at e; cases e
            | some w3 =>
              rw [es2] at e
              simp only [Option.map_some] at e ⊢
              have hb4 := hb3.wset (wordStore_length es2)
              obtain ⟨h2, e2, hb5, hf2, _⟩ := shlZero_eq hb4 e
              exact ⟨h2, a1, e2, hb5, hf1.transAt hb (frame_wset_trans hb1 _ (frame_wset_trans hb2 _ (frame_wset_trans hb3 _ hf2)))⟩

/-- `bitset_resize` to a smaller size. -/
theorem bmResize_shrink (al : BAlloc) (junk : Nat → Word) {h : BHeap} {p : Nat} {a : Option Nat} {b : BSet} (hb : BAt h p a b) {n : Nat}
    (hn : n ≤ b.size) (hl : n ≤ b.mem.length) (hm : n ≤ MAXWORDS) :
    ∃ h', bmResize al h p n false = some (h', true) ∧ BAt h' p a ⟨b.mem, n⟩ ∧ BFr h p a h' a ∧ h'.reqs = h.reqs ∧
      (bsResize junk b n false).1 = ⟨b.mem, n⟩ := by
  have hnc : ¬ b.mem.length < n := by omega
  have hnm : ¬ n > MAXWORDS := by omega
  unfold bmResize bsResize
  rw [if_neg hnm, if_neg hnm, bmObj_eq hb]
  simp only [if_neg hnc]
  simp only [Bool.false_eq_true, false_and, if_false]
  rw [bmPut_eq (bmObj_eq hb)]
  exact ⟨_, rfl, hb.oset n, oset_frame _ _ _ _, rfl, trivial⟩

/-- `bitset_shift_right`, the case of words that are cut. -/
theorem shrCut_eq (al : BAlloc) (junk : Nat → Word) {h : BHeap} {p : Nat} {a : Option Nat} {b b' : BSet} (hb : BAt h p a b)
    (extra sh m N t1 t2 : Nat) (hn : N ≤ b.size) (hl : N ≤ b.mem.length) (hm : N ≤ MAXWORDS)
    (e : (match shrLoop extra sh 0 m b.mem with
      | none => none
      | some mem =>
        match mem[t1]? with
        | none => none
        | some top =>
          match wordStore mem t2 (top >>> sh) with
          | none => none
          | some mem => some (bsResize junk ⟨mem, b.size⟩ N false).1) = some b') :
    ∃ h', (match bmShrLoop h a extra sh 0 m with
      | none => none
      | some h =>
        match bmLd h a t1 with
        | none => none
        | some top =>
          match bmSt h a t2 (top >>> sh) with
          | none => none
          | some h => (bmResize al h p N false).map fun r => r.1) = some h' ∧
      BAt h' p a b' ∧ BFr h p a h' a ∧ h'.reqs = h.reqs ∧ b'.size = N := by
  obtain ⟨m1, m2⟩ := shrLoop_eq hb.arr extra sh 0 m
  rw [m1]
  cases em : shrLoop extra sh 0 m b.mem with
  | none => rw [em] at e; cases e
  | some ws =>
    rw [em] at e
    simp only [Option.map_some] at e ⊢
    have hb1 := hb.wset (m2 ws em)
    rw [bmLd_get hb1.arr]
    cases et : ws[t1]? with
    | none => rw [et] at e; cases e
    | some top =>
      rw [et] at e
      simp only [] at e ⊢
      rw [bmSt_get hb1.arr]
      cases es : wordStore ws t2 (top >>> sh) with
      | none => rw [es] at e; cases e
      | some w1 =>
        rw [es] at e
        simp only [Option.map_some] at e ⊢
        have hl1 : w1.length = b.mem.length := by rw [wordStore_length es, m2 ws em]
        obtain ⟨h2, e2, hb2, hf2, hr2, hv⟩ := bmResize_shrink al junk (hb1.wset (wordStore_length es)) hn
          (show N ≤ w1.length by omega) hm
        rw [e2]
        injection e with e
        rw [hv] at e
        subst e
        exact ⟨h2, rfl, hb2, frame_wset_trans hb _ (frame_wset_trans hb1 _ hf2), by rw [hr2, wset_reqs, wset_reqs], rfl⟩

/-- `bitset_shift_right`, the case of whole words. -/
theorem shrWhole_eq (al : BAlloc) (junk : Nat → Word) {h : BHeap} {p : Nat} {a : Option Nat} {b b' : BSet} (hb : BAt h p a b)
    (extra m N : Nat) (hn : N ≤ b.size) (hl : N ≤ b.mem.length) (hm : N ≤ MAXWORDS)
    (e : (match shrMove extra 0 m b.mem with
      | none => none
      | some mem => some (bsResize junk ⟨mem, b.size⟩ N false).1) = some b') :
    ∃ h', (match bmShrMove h a extra 0 m with
      | none => none
      | some h => (bmResize al h p N false).map fun r => r.1) = some h' ∧
      BAt h' p a b' ∧ BFr h p a h' a ∧ h'.reqs = h.reqs ∧ b'.size = N := by
  obtain ⟨m1, m2⟩ := shrMove_eq hb.arr extra 0 m
  rw [m1]
  cases em : shrMove extra 0 m b.mem with
  | none => rw [em] at e; cases e
  | some ws =>
    rw [em] at e
    simp only [Option.map_some] at e ⊢
    have hl1 : ws.length = b.mem.length := m2 ws em
    obtain ⟨h2, e2, hb2, hf2, hr2, hv⟩ := bmResize_shrink al junk (hb.wset (m2 ws em)) hn (show N ≤ ws.length by omega) hm
    rw [e2]
    injection e with e
    rw [hv] at e
    subst e
    exact ⟨h2, rfl, hb2, frame_wset_trans hb _ hf2, by rw [hr2, wset_reqs], rfl⟩

theorem bmShiftRight_ok (al : BAlloc) {h : BHeap} {p : Nat} {a : Option Nat} {b b' : BSet} (hb : BAt h p a b) (hk : BSOK b) {s : Nat}
    (hs : s / 64 < b.size) (e : bsShiftRight (al.junk h.reqs) b s = some b') :
    ∃ h', bmShiftRight al h p s = some h' ∧ BAt h' p a b' ∧ BFr h p a h' a ∧ h'.reqs = h.reqs ∧ b'.size = b.size - s / 64 := by
  have hmx := maxwords_eq
  have hmax := hk.max
  have hle := hk.le
  have hsub : szSub b.size (s / 64) = b.size - s / 64 := szSub_eq (by omega) (by omega)
  rw [← hsub]
  have hN1 : szSub b.size (s / 64) ≤ b.size := by omega
  have hN2 : szSub b.size (s / 64) ≤ b.mem.length := by omega
  have hN3 : szSub b.size (s / 64) ≤ MAXWORDS := by omega
  unfold bsShiftRight at e
  unfold bmShiftRight
  rw [bmObj_eq hb]
  dsimp only at e ⊢
  by_cases h0 : s % 64 = 0
  · rw [if_pos h0] at e
    rw [if_pos h0]
    exact shrWhole_eq al _ hb _ _ _ hN1 hN2 hN3 e
  · rw [if_neg h0] at e
    rw [if_neg h0]
    exact shrCut_eq al _ hb _ _ _ _ _ _ hN1 hN2 hN3 e

end CRoaring
