import Verif.Lemmas.BitsetMem
set_option linter.unusedSimpArgs false
set_option linter.unusedVariables false
/-
Lemmas about Model/BitsetMem.lean, for C129: each call on one bitset is the call of Model/BitsetT.lean when its memory is
granted.
-/
namespace CRoaring

/-- Refused: nothing but the number of requests has changed. -/
theorem BAt.refused {h : BHeap} {p : Nat} {a : Option Nat} {b : BSet} (hb : BAt h p a b) (n : Nat) :
    BAt ⟨h.blocks, n⟩ p a b := ⟨hb.obj, by cases a <;> exact hb.arr⟩

theorem frame_refused (h : BHeap) (p : Nat) (a : Option Nat) {n : Nat} (hn : h.reqs ≤ n) : BFr h p a ⟨h.blocks, n⟩ a where
  len := Nat.le_refl _
  old := fun _ _ _ _ => rfl
  new := fun k blk hk e => absurd (getElem?_lt e) (by show ¬ k < h.blocks.length; omega)
  arr := Or.inl rfl
  freed := fun _ _ hn => absurd rfl hn
  reqs := hn

/-- A granted reallocation and the write of the struct. -/
theorem realloc_put (al : BAlloc) {h : BHeap} {p : Nat} {a : Option Nat} {b : BSet} (hb : BAt h p a b) {n : Nat} (hn : n ≠ 0)
    (s : Nat) :
    (al.grants h.reqs = false ∧ bmRealloc al h a n = some (⟨h.blocks, h.reqs + 1⟩, none)) ∨
    (al.grants h.reqs = true ∧ ∃ h1 q h2, bmRealloc al h a n = some (h1, some q) ∧ bmPut h1 p (some q) s n = some h2 ∧
      h2.reqs = h.reqs + 1 ∧ BFr h p a h2 (some q) ∧ BAt h2 p (some q) ⟨reallocWords (al.junk h.reqs) b.mem n, s⟩) := by
  rcases realloc_ok al hb hn with h1 | ⟨hg, h1, q, e, hr, hf, ho, hqp, ha⟩
  · exact Or.inl h1
  · refine Or.inr ⟨hg, h1, q, _, e, bmPut_eq ho _ _ _, hr, hf.transAt hb (oset_frame _ _ _ _), ?_, ?_⟩
    · show (oset h1 p (some q) s n).blocks[p]? = _
      rw [oset_obj (Nat.lt_of_lt_of_le hb.lt hf.len)]
      simp [reallocWords_length]
    · exact oset_arr ha (fun e => hqp (by injection e)) _ _ _

theorem fin_fill {h : BHeap} {p : Nat} {a : Option Nat} {b : BSet} (hb : BAt h p a b) (c : Prop) [Decidable c] {k n m : Nat}
    (hn : c → k + n ≤ b.mem.length) :
    ∃ h', (match (if c then bmFill h a 0#64 k n else some h) with
        | none => none
        | some h => (bmPut h p a m b.mem.length).map fun h => (h, true)) = some (h', true) ∧
      h'.reqs = h.reqs ∧ BFr h p a h' a ∧ BAt h' p a ⟨if c then fillWords b.mem 0#64 k n else b.mem, m⟩ := by
  by_cases hc : c
  · simp only [if_pos hc]
    rw [bmFill_eq hb.arr _ (hn hc)]
    have hb1 := hb.wset (ws := fillWords b.mem 0#64 k n) (fillWords_length' _ _ _ _)
    simp only []
    rw [bmPut_eq (bmObj_eq hb1)]
    refine ⟨_, rfl, wset_reqs _ _ _, (frame_wset h p a _).transAt hb (oset_frame _ _ _ _), ?_⟩
    have := hb1.oset m
    simp only [fillWords_length'] at this
    exact this
  · simp only [if_neg hc]
    rw [bmPut_eq (bmObj_eq hb)]
    exact ⟨_, rfl, rfl, oset_frame _ _ _ _, hb.oset m⟩

theorem bmResize_ok (al : BAlloc) {h : BHeap} {p : Nat} {a : Option Nat} {b : BSet} (hb : BAt h p a b) (hk : BSOK b) (n : Nat)
    (pad : Bool) : ∃ h' a' b' r, bmResize al h p n pad = some (h', r) ∧ BAt h' p a' b' ∧ BFr h p a h' a' ∧
      (n > MAXWORDS → al.granted h h' = true) ∧
      (b', r) = (if al.granted h h' = true then bsResize (al.junk h.reqs) b n pad else (b, false)) := by
  unfold bmResize bsResize
  by_cases hm : n > MAXWORDS
  · simp only [if_pos hm]
    exact ⟨h, a, b, false, rfl, hb, BFr.refl _ _ _, fun _ => granted_zero al rfl, by simp⟩
  · simp only [if_neg hm]
    rw [bmObj_eq hb]
    simp only []
    by_cases hc : b.mem.length < n
    · simp only [if_pos hc]
      have hge := doubleUntil_ge (if b.mem.length = 0 then 1 else b.mem.length) n (by split <;> omega)
      generalize hN : doubleUntil (if b.mem.length = 0 then 1 else b.mem.length) n = N at *
      have hN0 : N ≠ 0 := by omega
      rcases realloc_put al hb hN0 b.size with ⟨hg, e⟩ | ⟨hg, h1, q, h2, e, e2, hr, hf, hb2⟩
      · rw [e]
        simp only []
        have hgr : al.granted h ⟨h.blocks, h.reqs + 1⟩ = false := by rw [granted_one al rfl, hg]
        exact ⟨_, a, b, false, rfl, hb.refused _, frame_refused _ _ _ (by omega), fun h => absurd h hm, by simp [hgr]⟩
      · rw [e]
        simp only []
        rw [e2]
        simp only []
        obtain ⟨h3, e3, hr3, hf3, hb3⟩ := fin_fill hb2 (pad = true ∧ n > if n < b.size then n else b.size)
          (k := if n < b.size then n else b.size) (n := n - if n < b.size then n else b.size) (m := n)
          (fun _ => by simp only [reallocWords_length]; split <;> omega)
        simp only [reallocWords_length] at e3
        have hgr : al.granted h h3 = true := by rw [granted_one al (by omega), hg]
        exact ⟨_, _, _, true, e3, hb3, hf.transAt hb hf3, fun h => absurd h hm, by simp [hgr]⟩
    · simp only [if_neg hc]
      obtain ⟨h3, e3, hr3, hf3, hb3⟩ := fin_fill hb (pad = true ∧ n > if n < b.size then n else b.size)
          (k := if n < b.size then n else b.size) (n := n - if n < b.size then n else b.size) (m := n)
          (fun _ => by split <;> omega)
      have hgr : al.granted h h3 = true := granted_zero al hr3
      exact ⟨_, _, _, true, e3, hb3, hf3, fun h => absurd h hm, by simp [hgr]⟩

theorem bmGrow_ok (al : BAlloc) {h : BHeap} {p : Nat} {a : Option Nat} {b : BSet} (hb : BAt h p a b) (hk : BSOK b) (n : Nat) :
    ∃ h' a' b' r, bmGrow al h p n = some (h', r) ∧ BAt h' p a' b' ∧ BFr h p a h' a' ∧
      (n < b.size ∨ n > MAXWORDS → al.granted h h' = true) ∧
      (b', r) = (if al.granted h h' = true then bsGrow (al.junk h.reqs) b n else (b, false)) := by
  unfold bmGrow bsGrow
  rw [bmObj_eq hb]
  simp only []
  by_cases hs : n < b.size
  · simp only [if_pos hs]
    exact ⟨h, a, b, false, rfl, hb, BFr.refl _ _ _, fun _ => granted_zero al rfl, by simp⟩
  · simp only [if_neg hs]
    by_cases hm : n > MAXWORDS
    · simp only [if_pos hm]
      exact ⟨h, a, b, false, rfl, hb, BFr.refl _ _ _, fun _ => granted_zero al rfl, by simp⟩
    · simp only [if_neg hm]
      by_cases hc : b.mem.length < n
      · simp only [if_pos hc]
        have hge := doubleUntil_ge _ n (growCap_pos (n := n) (by omega) (by omega))
        generalize hN : doubleUntil ((ones >>> clz (BitVec.ofNat 64 n)) + 1#64).toNat n = N at *
        have hN0 : N ≠ 0 := by omega
        rcases realloc_put al hb hN0 b.size with ⟨hg, e⟩ | ⟨hg, h1, q, h2, e, e2, hr, hf, hb2⟩
        · rw [e]
          simp only []
          have hgr : al.granted h ⟨h.blocks, h.reqs + 1⟩ = false := by rw [granted_one al rfl, hg]
          exact ⟨_, a, b, false, rfl, hb.refused _, frame_refused _ _ _ (by omega), fun h => h.elim (fun h => absurd h hs) (fun h => absurd h hm), by simp [hgr]⟩
        · rw [e]
          simp only []
          rw [e2]
          simp only []
          obtain ⟨h3, e3, hr3, hf3, hb3⟩ := fin_fill hb2 True (k := b.size) (n := n - b.size) (m := n)
            (fun _ => by simp only [reallocWords_length]; omega)
          simp only [reallocWords_length, if_true] at e3 hb3
          have hgr : al.granted h h3 = true := by rw [granted_one al (by omega), hg]
          exact ⟨_, _, _, true, e3, hb3, hf.transAt hb hf3, fun h => h.elim (fun h => absurd h hs) (fun h => absurd h hm), by simp [hgr]⟩
      · simp only [if_neg hc]
        obtain ⟨h3, e3, hr3, hf3, hb3⟩ := fin_fill hb True (k := b.size) (n := n - b.size) (m := n)
          (fun _ => by omega)
        simp only [if_true] at e3 hb3
        have hgr : al.granted h h3 = true := granted_zero al hr3
        exact ⟨_, _, _, true, e3, hb3, hf3, fun h => h.elim (fun h => absurd h hs) (fun h => absurd h hm), by simp [hgr]⟩

/-- What `bitset_set` and `bitset_set_to_value` have in common, on values. -/
def bsSetWith (junk : Nat → Word) (b : BSet) (i : Nat) (f : Word → Word) : BSet :=
  let g := if i / 64 ≥ b.size then bsGrow junk b (i / 64 + 1) else (b, true)
  if g.2 = false then g.1 else ⟨g.1.mem.set (i / 64) (f (wd g.1.mem (i / 64))), g.1.size⟩

theorem bmSetWith_ok (al : BAlloc) {h : BHeap} {p : Nat} {a : Option Nat} {b : BSet} (hb : BAt h p a b) (hk : BSOK b) (i : Nat)
    (f : Word → Word) : ∃ h' a' b', bmSetWith al h p i f = some h' ∧ BAt h' p a' b' ∧ BFr h p a h' a' ∧
      (i / 64 ≥ MAXWORDS → al.granted h h' = true) ∧
      b' = (if al.granted h h' = true then bsSetWith (al.junk h.reqs) b i f else b) := by
  unfold bmSetWith bsSetWith
  rw [bmObj_eq hb]
  simp only []
  have store : ∀ {h1 : BHeap} {a1 : Option Nat} {b1 : BSet}, BAt h1 p a1 b1 → i / 64 < b1.mem.length →
      ∃ h2, (match bmObj h1 p with
        | none => none
        | some (a, _, _) =>
          match bmLd h1 a (i / 64) with
          | none => none
          | some w => bmSt h1 a (i / 64) (f w)) = some h2 ∧
        BAt h2 p a1 ⟨b1.mem.set (i / 64) (f (wd b1.mem (i / 64))), b1.size⟩ ∧ BFr h1 p a1 h2 a1 ∧ h2.reqs = h1.reqs := by
    intro h1 a1 b1 hb1 hl
    rw [bmObj_eq hb1]
    simp only []
    rw [bmLd_eq hb1.arr hl]
    simp only []
    rw [bmSt_eq hb1.arr hl]
    exact ⟨_, rfl, hb1.wset (by simp), frame_wset _ _ _ _, wset_reqs _ _ _⟩
  by_cases hs : i / 64 ≥ b.size
  · simp only [if_pos hs]
    obtain ⟨h1, a1, b1, r, e, hb1, hf1, hx, hv⟩ := bmGrow_ok al hb hk (i / 64 + 1)
    rw [e]
    have hmax := hk.max
    cases r with
    | false =>
      refine ⟨h1, a1, b1, rfl, hb1, hf1, fun hi => hx (Or.inr (by omega)), ?_⟩
      by_cases hg : al.granted h h1 = true
      · rw [if_pos hg] at hv
        rw [if_pos hg, ← hv]; simp
      · rw [if_neg hg] at hv
        rw [if_neg hg]
        exact congrArg Prod.fst hv
    | true =>
      have hg : al.granted h h1 = true := by
        by_cases hg : al.granted h h1 = true
        · exact hg
        · rw [if_neg hg] at hv; cases hv
      rw [if_pos hg] at hv
      have hle : i / 64 + 1 ≤ MAXWORDS := by
        rcases Nat.lt_or_ge MAXWORDS (i / 64 + 1) with h2 | h2
        · rw [bsGrow_fail _ (Or.inl h2)] at hv; cases hv
        · exact h2
      have hsp := bsGrow_spec (al.junk h.reqs) hk hle (by omega)
      rw [← hv] at hsp
      have hsz : b1.size = i / 64 + 1 := hsp.2.2.1
      have hlen : b1.size ≤ b1.mem.length := hsp.2.1.le
      obtain ⟨h2, e2, hb2, hf2, hr2⟩ := store hb1 (by omega)
      have hg2 : al.granted h h2 = true := by
        have : al.granted h h2 = al.granted h h1 := by simp only [BAlloc.granted, hr2]
        rw [this, hg]
      exact ⟨h2, a1, _, e2, hb2, hf1.transAt hb hf2, fun _ => hg2, by rw [if_pos hg2, ← hv]; simp⟩
  · simp only [if_neg hs]
    have hle := hk.le
    obtain ⟨h2, e2, hb2, hf2, hr2⟩ := store hb (by omega)
    have hg2 : al.granted h h2 = true := granted_zero al hr2
    exact ⟨h2, a, _, e2, hb2, hf2, fun _ => hg2, by rw [if_pos hg2]; simp⟩

theorem bmTrimLoop_eq {h : BHeap} {a : Option Nat} {ws : List Word} (ha : BArr h a ws) {n : Nat} (hn : n ≤ ws.length) :
    bmTrimLoop h a n = some (trimLoop ws n) := by
  induction n with
  | zero => rfl
  | succ n ih =>
    rw [bmTrimLoop, bmLd_eq ha (by omega), trimLoop]
    simp only []
    by_cases hw : wd ws n = 0#64
    · rw [if_pos hw, if_pos hw, ih (by omega)]
    · rw [if_neg hw, if_neg hw]

theorem bmEmptyLoop_eq {h : BHeap} {a : Option Nat} {ws : List Word} (ha : BArr h a ws) {k n : Nat} (hn : k + n ≤ ws.length) :
    bmEmptyLoop h a k n = some (zeroWords ws k n) := by
  induction n generalizing k with
  | zero => rfl
  | succ n ih =>
    rw [bmEmptyLoop, bmLd_eq ha (by omega), zeroWords]
    simp only []
    by_cases hw : wd ws k = 0#64
    · rw [if_neg (by simp [hw]), ih (by omega)]; simp [hw]
    · rw [if_pos hw]; simp [hw]

theorem reallocWords_take (junk : Nat → Word) (mem : List Word) {n : Nat} (hn : n ≤ mem.length) :
    reallocWords junk mem n = mem.take n := by
  apply List.ext_getElem?
  intro i
  rw [reallocWords, List.getElem?_map, List.getElem?_take]
  by_cases hi : i < n
  · rw [if_pos hi, List.getElem?_range hi]
    simp only [Option.map_some]
    rw [if_pos (by omega), wd, List.getD_eq_getElem?_getD, List.getElem?_eq_getElem (by omega)]
    rfl
  · rw [if_neg hi, List.getElem?_eq_none (by simp; omega)]; rfl

theorem trimLoop_le (ws : List Word) (n : Nat) : trimLoop ws n ≤ n := by
  induction n with
  | zero => exact Nat.le_refl _
  | succ n ih => rw [trimLoop]; split <;> omega

theorem bmTrim_ok (al : BAlloc) {h : BHeap} {p : Nat} {a : Option Nat} {b : BSet} (hb : BAt h p a b) (hk : BSOK b)
    (h0 : trimLoop b.mem b.size ≠ 0) : ∃ h' a' b' r, bmTrim al h p = some (h', r) ∧ BAt h' p a' b' ∧ BFr h p a h' a' ∧
      (some (b', r)) = (if al.granted h h' = true then bsTrim b else some (b, false)) := by
  unfold bmTrim bsTrim
  rw [bmObj_eq hb]
  simp only []
  rw [bmTrimLoop_eq hb.arr hk.le]
  simp only []
  have hle := trimLoop_le b.mem b.size
  have hk1 := hk.le
  by_cases hc : b.mem.length = trimLoop b.mem b.size
  · simp only [if_pos hc]
    exact ⟨h, a, b, true, rfl, hb, BFr.refl _ _ _, by simp [granted_zero al (h := h) (h' := h) rfl]⟩
  · simp only [if_neg hc, if_neg h0]
    rcases realloc_put al hb h0 (trimLoop b.mem b.size) with ⟨hg, e⟩ | ⟨hg, h1, q, h2, e, e2, hr, hf, hb2⟩
    · rw [e]
      have hgr : al.granted h ⟨h.blocks, h.reqs + 1⟩ = false := by rw [granted_one al rfl, hg]
      exact ⟨_, a, b, false, rfl, hb.refused _, frame_refused _ _ _ (by omega), by simp [hgr]⟩
    · rw [e]
      simp only []
      rw [e2]
      have hgr : al.granted h h2 = true := by rw [granted_one al (by omega), hg]
      refine ⟨_, _, _, true, rfl, hb2, hf, ?_⟩
      rw [if_pos hgr, reallocWords_take _ _ (by omega)]

theorem bmAll_ok {h : BHeap} {p : Nat} {a : Option Nat} {b : BSet} (hb : BAt h p a b) (hk : BSOK b) (v : Word) :
    ∃ h', bmAll h p v = some h' ∧ BAt h' p a ⟨fillWords b.mem v 0 b.size, b.size⟩ ∧ BFr h p a h' a ∧ h'.reqs = h.reqs := by
  unfold bmAll
  rw [bmObj_eq hb]
  simp only []
  rw [bmFill_eq hb.arr _ (by have := hk.le; omega)]
  exact ⟨_, rfl, hb.wset (fillWords_length' _ _ _ _), frame_wset _ _ _ _, wset_reqs _ _ _⟩

/-- Two bitsets that share no memory. -/
structure BSep (p1 : Nat) (a1 : Option Nat) (p2 : Nat) (a2 : Option Nat) : Prop where
  pp : p2 ≠ p1
  ap : a1 ≠ some p2
  pa : a2 ≠ some p1
  aa : a2 = none ∨ a2 ≠ a1

theorem minL {b1 b2 : BSet} : (if b1.size < b2.size then b1.size else b2.size) = minLength b1 b2 := rfl

/-- The union or symmetric difference when memory is refused: only the words that both have. -/
def bsCommon (f : Word → Word → Word) (b1 b2 : BSet) : BSet :=
  ⟨updWords (fun k w => f w (wd b2.mem k)) b1.mem 0 (minLength b1 b2), b1.size⟩

theorem bmUnite_ok (al : BAlloc) (f : Word → Word → Word) {h : BHeap} {p1 p2 : Nat} {a1 a2 : Option Nat} {b1 b2 : BSet}
    (h1 : BAt h p1 a1 b1) (h2 : BAt h p2 a2 b2) (k1 : BSOK b1) (k2 : BSOK b2) (hs : BSep p1 a1 p2 a2) :
    ∃ h' a' b' r, bmUnite al f h p1 p2 = some (h', r) ∧ BAt h' p1 a' b' ∧ BFr h p1 a1 h' a' ∧
      (b', r) = (if al.granted h h' = true then bsCopyTail (al.junk h.reqs) (bsCommon f b1 b2) b2
        else (bsCommon f b1 b2, false)) := by
  unfold bmUnite
  rw [bmObj_eq h1, bmObj_eq h2]
  simp only [minL]
  have l1 := k1.le
  have l2 := k2.le
  have hm := minLength_eq b1 b2
  rw [bmUpd_eq f h1.arr h2.arr hs.aa (by omega) (by omega)]
  simp only []
  have hc := h1.wset (ws := updWords (fun k w => f w (wd b2.mem k)) b1.mem 0 (minLength b1 b2)) (updWords_length _ _ _ _)
  have hcf := frame_wset h p1 a1 (updWords (fun k w => f w (wd b2.mem k)) b1.mem 0 (minLength b1 b2))
  have hcr := wset_reqs h a1 (updWords (fun k w => f w (wd b2.mem k)) b1.mem 0 (minLength b1 b2))
  change BAt _ p1 a1 (bsCommon f b1 b2) at hc
  generalize wset h a1 (updWords (fun k w => f w (wd b2.mem k)) b1.mem 0 (minLength b1 b2)) = hh at *
  have hk : BSOK (bsCommon f b1 b2) := ⟨by simp only [bsCommon, updWords_length]; exact l1, k1.max⟩
  have hsz : (bsCommon f b1 b2).size = b1.size := rfl
  generalize bsCommon f b1 b2 = c at *
  unfold bsCopyTail
  by_cases ht : b2.size > b1.size
  · rw [if_pos ht, if_pos (by omega : b2.size > c.size)]
    obtain ⟨h3, a3, b3, r, e3, hb3, hf3, hx3, hv3⟩ := bmResize_ok al hc hk b2.size false
    have hgg : al.granted h h3 = al.granted hh h3 := by simp only [BAlloc.granted, hcr]
    rw [e3]
    have hsp := bsResize_spec (al.junk h.reqs) hk (n := b2.size) false k2.max
    rw [hcr] at hv3
    cases r with
    | false =>
      have hg : ¬ al.granted hh h3 = true := by
        intro hg
        rw [if_pos hg] at hv3
        rw [← hv3] at hsp
        exact absurd hsp.1 (by simp)
      rw [if_neg hg] at hv3
      refine ⟨h3, a3, b3, false, rfl, hb3, hcf.transAt h1 hf3, ?_⟩
      rw [hgg, if_neg hg, hv3]
    | true =>
      have hg : al.granted hh h3 = true := by
        by_cases hg : al.granted hh h3 = true
        · exact hg
        · rw [if_neg hg] at hv3; cases hv3
      rw [if_pos hg] at hv3
      rw [← hv3] at hsp
      simp only [] at hsp
      have h23 : BAt h3 p2 a2 b2 := h2.frame (hcf.transAt h1 hf3) hs.pp hs.ap hs.pa hs.aa
      have hne : a2 = none ∨ a2 ≠ a3 := by
        rcases hs.aa with e | e
        · exact Or.inl e
        · rcases (hcf.transAt h1 hf3).arr with e2 | ⟨q, e2, hq⟩
          · exact Or.inr (by rw [e2]; exact e)
          · refine Or.inr ?_
            rw [e2]
            intro e4
            subst e4
            have := h2.arr_lt
            omega
      have hb3l := hsp.2.1.le
      simp only []
      rw [bmObj_eq hb3]
      simp only []
      rw [bmUpd_eq _ hb3.arr h23.arr hne (by omega) (by omega)]
      simp only [Option.map_some]
      have hg4 : ∀ ws, al.granted h (wset h3 a3 ws) = true := fun ws => by
        have : al.granted h (wset h3 a3 ws) = al.granted h h3 := by simp only [BAlloc.granted, wset_reqs]
        rw [this, hgg, hg]
      refine ⟨_, a3, _, true, rfl, hb3.wset (updWords_length _ _ _ _),
        (hcf.transAt h1 hf3).transAt h1 (frame_wset _ _ _ _), ?_⟩
      rw [if_pos (hg4 _), ← hv3, hsz]
      simp
  · rw [if_neg ht, if_neg (by omega : ¬ b2.size > c.size)]
    have hg : al.granted h hh = true := granted_zero al hcr
    exact ⟨hh, a1, c, true, rfl, hc, hcf, by rw [if_pos hg]⟩

theorem bmInter_ok {h : BHeap} {p1 p2 : Nat} {a1 a2 : Option Nat} {b1 b2 : BSet}
    (h1 : BAt h p1 a1 b1) (h2 : BAt h p2 a2 b2) (k1 : BSOK b1) (k2 : BSOK b2) (hs : BSep p1 a1 p2 a2) :
    ∃ h', bmInter h p1 p2 = some h' ∧ BAt h' p1 a1 (bsInplaceIntersection b1 b2) ∧ BFr h p1 a1 h' a1 ∧ h'.reqs = h.reqs := by
  unfold bmInter bsInplaceIntersection
  rw [bmObj_eq h1, bmObj_eq h2]
  simp only [minL]
  have l1 := k1.le
  have l2 := k2.le
  have hm := minLength_eq b1 b2
  rw [bmUpd_eq _ h1.arr h2.arr hs.aa (by omega) (by omega)]
  simp only []
  have hc := h1.wset (ws := updWords (fun k w => w &&& wd b2.mem k) b1.mem 0 (minLength b1 b2)) (updWords_length _ _ _ _)
  rw [bmFill_eq hc.arr _ (by simp only [updWords_length]; omega)]
  refine ⟨_, rfl, hc.wset (fillWords_length' _ _ _ _), (frame_wset _ _ _ _).transAt h1 (frame_wset _ _ _ _), ?_⟩
  rw [wset_reqs, wset_reqs]

theorem bmDiff_ok {h : BHeap} {p1 p2 : Nat} {a1 a2 : Option Nat} {b1 b2 : BSet}
    (h1 : BAt h p1 a1 b1) (h2 : BAt h p2 a2 b2) (k1 : BSOK b1) (k2 : BSOK b2) (hs : BSep p1 a1 p2 a2) :
    ∃ h', bmDiff h p1 p2 = some h' ∧ BAt h' p1 a1 (bsInplaceDifference b1 b2) ∧ BFr h p1 a1 h' a1 ∧ h'.reqs = h.reqs := by
  unfold bmDiff bsInplaceDifference
  rw [bmObj_eq h1, bmObj_eq h2]
  simp only [minL]
  have l1 := k1.le
  have l2 := k2.le
  have hm := minLength_eq b1 b2
  rw [bmUpd_eq _ h1.arr h2.arr hs.aa (by omega) (by omega)]
  exact ⟨_, rfl, h1.wset (updWords_length _ _ _ _), frame_wset _ _ _ _, wset_reqs _ _ _⟩

theorem bmGet_ok {h : BHeap} {p : Nat} {a : Option Nat} {b : BSet} (hb : BAt h p a b) (hk : BSOK b) (i : Nat) :
    bmGet h p i = some (bsGet b i) := by
  unfold bmGet bsGet
  rw [bmObj_eq hb]
  simp only []
  by_cases hi : i / 64 ≥ b.size
  · rw [if_pos hi, if_pos hi]
  · rw [if_neg hi, if_neg hi, bmLd_eq hb.arr (by have := hk.le; omega)]

end CRoaring
