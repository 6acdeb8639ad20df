import Verif.Lemmas.BitsetMem3
import Verif.Lemmas.BitsetMem2b
set_option linter.unusedSimpArgs false
set_option linter.unusedVariables false
/-
Lemmas about Model/BitsetMem.lean, for C129: histories.
-/
namespace CRoaring
open BitsetHist

/-- A bitset seen from outside. -/
def bsBits (b : BSet) : Bits := ⟨b.size, bsGet b⟩

theorem bsBits_eq {b : BSet} {n : Nat} {s : NSet} (h1 : b.size = n) (h2 : ∀ x, bsGet b x = s x) : bsBits b = ⟨n, s⟩ := by
  unfold bsBits
  rw [h1, funext h2]

/-- The program's pointers. -/
def bVars (G : List (Option BG)) : List (Option Nat) := G.map (Option.map (·.1))

theorem bPool_set (G : List (Option BG)) (i p : Nat) (a : Option Nat) (b : BSet) :
    bPool (G.set i (some (p, a, b))) = (bPool G).set i (some (bsBits b)) := by
  simp [bPool, List.map_set, bsBits]

theorem bVars_set {G : List (Option BG)} {i p : Nat} {a a' : Option Nat} {b b' : BSet} (h : G[i]? = some (some (p, a, b))) :
    bVars (G.set i (some (p, a', b'))) = bVars G := by
  simp only [bVars, List.map_set, Option.map_some]
  exact set_self' (by rw [List.getElem?_map, h]; rfl)

theorem bGet_some {G : List (Option BG)} {i p : Nat} {a : Option Nat} {b : BSet} (h : G[i]? = some (some (p, a, b))) :
    BitsetHist.get (bPool G) i = some (bsBits b) := by
  simp [BitsetHist.get, bPool, List.getElem?_map, h, bsBits]

/-- Bitset `i` is there, or its pointer is null. -/
theorem bvar_cases (G : List (Option BG)) (i : Nat) :
    (((bVars G)[i]?).join = none ∧ BitsetHist.get (bPool G) i = none ∧ (G[i]? = none ∨ G[i]? = some none)) ∨
    ∃ p a b, G[i]? = some (some (p, a, b)) ∧ ((bVars G)[i]?).join = some p := by
  cases e : G[i]? with
  | none => exact Or.inl ⟨by simp [bVars, List.getElem?_map, e], by simp [BitsetHist.get, bPool, List.getElem?_map, e], Or.inl rfl⟩
  | some o =>
    cases o with
    | none => exact Or.inl ⟨by simp [bVars, List.getElem?_map, e], by simp [BitsetHist.get, bPool, List.getElem?_map, e], Or.inr rfl⟩
    | some g =>
      obtain ⟨p, a, b⟩ := g
      exact Or.inr ⟨p, a, b, rfl, by simp [bVars, List.getElem?_map, e]⟩

/-- What has to be shown of one call. -/
def BStepOk (al : BAlloc) (h : BHeap) (G : List (Option BG)) (op : BitsetHist.Op) : Prop :=
  ∃ h' G' r rest, bmStep al ⟨h, bVars G⟩ op = some (⟨h', bVars G'⟩, r) ∧ BMInv h' G' ∧
    BitsetHist.step ⟨al.granted h h', rest⟩ (bPool G) op = (bPool G', r)

theorem granted_self (al : BAlloc) (h : BHeap) : al.granted h h = true := granted_zero al rfl

/-- A call with one bitset. -/
theorem one_ok (al : BAlloc) {h : BHeap} {G : List (Option BG)} (hI : BMInv h G) (op : BitsetHist.Op) (i : Nat)
    (f : Nat → Option (BHeap × Bool)) (F : Luck → Bits → Bits × Bool)
    (hop : bmStep al ⟨h, bVars G⟩ op = BWorld.one ⟨h, bVars G⟩ i f)
    (hsp : ∀ c, BitsetHist.step c (bPool G) op = BitsetHist.change (bPool G) i (F c))
    (key : ∀ p a b, BAt h p a b → BSOK b → ∃ h' a' b' r rest, f p = some (h', r) ∧ BAt h' p a' b' ∧ BSOK b' ∧ BFr h p a h' a' ∧
      F ⟨al.granted h h', rest⟩ (bsBits b) = (bsBits b', r)) : BStepOk al h G op := by
  rcases bvar_cases G i with ⟨h1, h2, _⟩ | ⟨p, a, b, hi, h1⟩
  · refine ⟨h, G, false, fun _ => false, ?_, hI, ?_⟩
    · rw [hop]; simp only [BWorld.one, h1]
    · rw [hsp]; simp only [BitsetHist.change, h2]
  · obtain ⟨hb, hk⟩ := hI.ok i p a b hi
    obtain ⟨h', a', b', r, rest, e, hb', hk', hf, hv⟩ := key p a b hb hk
    refine ⟨h', G.set i (some (p, a', b')), r, rest, ?_, hI.upd hi hb' hk' hf, ?_⟩
    · rw [hop]; simp only [BWorld.one, h1, e, BWorld.on, Option.map_some, bVars_set hi]
    · rw [hsp]; simp only [BitsetHist.change, bGet_some hi, hv, bPool_set]

/-- A call with two bitsets. -/
theorem two_ok (al : BAlloc) {h : BHeap} {G : List (Option BG)} (hI : BMInv h G) (op : BitsetHist.Op) (i j : Nat)
    (f : Nat → Nat → Option (BHeap × Bool)) (F : Luck → Bits → Bits → Bits × Bool)
    (hop : bmStep al ⟨h, bVars G⟩ op = BWorld.two ⟨h, bVars G⟩ i j f)
    (hsp : ∀ c, BitsetHist.step c (bPool G) op = BitsetHist.change2 (bPool G) i j (F c))
    (key : ∀ p1 a1 b1 p2 a2 b2, BAt h p1 a1 b1 → BSOK b1 → BAt h p2 a2 b2 → BSOK b2 → BSep p1 a1 p2 a2 →
      ∃ h' a' b' r, f p1 p2 = some (h', r) ∧ BAt h' p1 a' b' ∧ BSOK b' ∧ BFr h p1 a1 h' a' ∧
      F ⟨al.granted h h', fun _ => false⟩ (bsBits b1) (bsBits b2) = (bsBits b', r)) : BStepOk al h G op := by
  rcases bvar_cases G i with ⟨h1, h2, _⟩ | ⟨p, a, b, hi, h1⟩
  · refine ⟨h, G, false, fun _ => false, ?_, hI, ?_⟩
    · rw [hop]; simp only [BWorld.two, h1]
    · rw [hsp]; simp only [BitsetHist.change2, h2]
  · rcases bvar_cases G j with ⟨h3, h4, _⟩ | ⟨p2, a2, b2, hj, h3⟩
    · refine ⟨h, G, false, fun _ => false, ?_, hI, ?_⟩
      · rw [hop]; simp only [BWorld.two, h1, h3]
      · rw [hsp]; simp only [BitsetHist.change2, bGet_some hi, h4]
    · by_cases hij : i = j
      · refine ⟨h, G, false, fun _ => false, ?_, hI, ?_⟩
        · rw [hop]; simp only [BWorld.two, h1, h3, if_pos hij]
        · rw [hsp]; simp only [BitsetHist.change2, bGet_some hi, bGet_some hj, if_pos hij]
      · obtain ⟨hb, hk⟩ := hI.ok i p a b hi
        obtain ⟨hb2, hk2⟩ := hI.ok j p2 a2 b2 hj
        obtain ⟨h', a', b', r, e, hb', hk', hf, hv⟩ := key p a b p2 a2 b2 hb hk hb2 hk2 (hI.sepOf hi hj hij)
        refine ⟨h', G.set i (some (p, a', b')), r, fun _ => false, ?_, hI.upd hi hb' hk' hf, ?_⟩
        · rw [hop]; simp only [BWorld.two, h1, h3, if_neg hij, e, BWorld.on, Option.map_some, bVars_set hi]
        · rw [hsp]; simp only [BitsetHist.change2, bGet_some hi, bGet_some hj, if_neg hij, hv, bPool_set]

/-- A call that makes a bitset. -/
theorem made_ok {al : BAlloc} {h h' : BHeap} {G : List (Option BG)} {op : BitsetHist.Op} {r : Option (BHeap × Option Nat)}
    {v : Option Nat} {g : Option BG} (hop : bmStep al ⟨h, bVars G⟩ op = BWorld.made ⟨h, bVars G⟩ r) (e : r = some (h', v))
    (hI : BMInv h' (G ++ [g])) (hv : v = g.map (·.1))
    (hsp : BitsetHist.step ⟨al.granted h h', fun _ => false⟩ (bPool G) op =
      (bPool G ++ [g.map fun g => bsBits g.2.2], g.isSome)) : BStepOk al h G op := by
  refine ⟨h', G ++ [g], g.isSome, fun _ => false, ?_, hI, ?_⟩
  · rw [hop, e]
    simp only [BWorld.made, Option.map_some, bVars, List.map_append, List.map_cons, List.map_nil, hv]
    cases g <;> rfl
  · rw [hsp]
    simp only [bPool, List.map_append, List.map_cons, List.map_nil]
    rfl

theorem maxWords_eq' : BitsetHist.maxWords = MAXWORDS := by decide

theorem any_word {b : BSet} {n : Nat} (hn : n < b.size) :
    ((List.range 64).any fun i => bsGet b (64 * n + i)) = true ↔ wd b.mem n ≠ 0#64 := by
  rw [Ne, zero_iff_get hn, List.any_eq_true]
  constructor
  · rintro ⟨i, hi, e⟩ h
    rw [h i (List.mem_range.1 hi)] at e
    cases e
  · intro h
    apply Classical.byContradiction
    intro h2
    refine h fun i hi => ?_
    cases e : bsGet b (64 * n + i) with
    | false => rfl
    | true => exact absurd ⟨i, List.mem_range.2 hi, e⟩ h2

theorem used_eq (b : BSet) {n : Nat} (hn : n ≤ b.size) : BitsetHist.used (bsGet b) n = trimLoop b.mem n := by
  induction n with
  | zero => rfl
  | succ n ih =>
    rw [BitsetHist.used, trimLoop]
    by_cases hw : wd b.mem n = 0#64
    · rw [if_pos hw, if_neg (fun h => (any_word (by omega)).1 h hw), ih (by omega)]
    · rw [if_neg hw, if_pos ((any_word (by omega)).2 hw)]

theorem zero_trim {b : BSet} : zeroWords b.mem 0 b.size = decide (trimLoop b.mem b.size = 0) := by
  have h2 : ∀ n, (∀ j, j < n → wd b.mem j = 0#64) ↔ trimLoop b.mem n = 0 := by
    intro n
    induction n with
    | zero => simp [trimLoop]
    | succ n ih =>
      rw [trimLoop]
      by_cases hw : wd b.mem n = 0#64
      · rw [if_pos hw, ← ih]
        refine ⟨fun h j hj => h j (by omega), fun h j hj => ?_⟩
        by_cases e : j = n
        · rw [e]; exact hw
        · exact h j (by omega)
      · rw [if_neg hw]
        exact ⟨fun h => absurd (h n (by omega)) hw, fun h => by omega⟩
  rw [Bool.eq_iff_iff, zeroWords_iff, decide_eq_true_iff, ← h2]
  exact ⟨fun h j hj => h j (by omega) (by omega), fun h j _ hj => h j (by omega)⟩

theorem resize_bits (junk : Nat → Word) {b : BSet} (h : BSOK b) {n : Nat} (pad : Bool) (hn : n ≤ MAXWORDS) (x : Nat) :
    bsGet (bsResize junk b n pad).1 x =
      (decide (x < 64 * n) && (if x < 64 * b.size then bsGet b x else !pad && bsGet (bsResize junk b n pad).1 x)) := by
  obtain ⟨_, hk, hs, h1, h2, _⟩ := bsResize_spec junk h pad hn
  by_cases hx : x < 64 * n
  · rw [decide_eq_true hx, Bool.true_and]
    by_cases hx2 : x < 64 * b.size
    · rw [if_pos hx2, bsGet_eq, bsGet_eq, bword, bword, hs, if_pos (by omega), if_pos (by omega), h1 _ (by omega) (by omega)]
    · rw [if_neg hx2]
      cases pad with
      | false => simp
      | true =>
        rw [bsGet_eq, bword, hs, if_pos (by omega), h2 rfl _ (by omega) (by omega)]
        simp
  · rw [decide_eq_false hx, Bool.false_and, bsGet_eq, bword, hs, if_neg (by omega)]
    simp

theorem bits_eta (b : BSet) : bsBits b = ⟨b.size, bsGet b⟩ := rfl

theorem resize_step (al : BAlloc) {h : BHeap} {G : List (Option BG)} (hI : BMInv h G) (i n : Nat) (pad : Bool) :
    BStepOk al h G (.resize i n pad) := by
  refine one_ok al hI _ i (fun p => bmResize al h p n pad) _ rfl (fun c => rfl) ?_
  intro p a b hb hk
  obtain ⟨h', a', b', r, e, hb', hf, hx, hv⟩ := bmResize_ok al hb hk n pad
  refine ⟨h', a', b', r, bsGet b', e, hb', ?_, hf, ?_⟩
  · by_cases hg : al.granted h h' = true
    · rw [if_pos hg] at hv
      by_cases hn : n > MAXWORDS
      · rw [bsResize, if_pos hn] at hv
        injection hv with h1 h2
        rw [h1]; exact hk
      · have := (bsResize_spec (al.junk h.reqs) hk pad (by omega : n ≤ MAXWORDS)).2.1
        rw [← hv] at this
        exact this
    · rw [if_neg hg] at hv
      injection hv with h1 h2
      rw [h1]; exact hk
  · rw [maxWords_eq']
    by_cases hn : n > MAXWORDS
    · rw [if_pos hn]
      rw [if_pos (hx hn), bsResize, if_pos hn] at hv
      injection hv with h1 h2
      rw [h1, h2]
    · rw [if_neg hn]
      by_cases hg : al.granted h h' = true
      · rw [if_pos hg] at hv
        simp only [hg, if_true]
        have hs := bsResize_spec (al.junk h.reqs) hk pad (by omega : n ≤ MAXWORDS)
        have hbits := resize_bits (al.junk h.reqs) hk pad (by omega : n ≤ MAXWORDS)
        rw [← hv] at hs hbits
        simp only [] at hs hbits
        rw [hs.1, bsBits_eq (b := b') hs.2.2.1 hbits]
        rfl
      · rw [if_neg hg] at hv
        have hg' : al.granted h h' = false := by simpa using hg
        simp only [hg', Bool.false_eq_true, if_false]
        injection hv with h1 h2
        rw [h1, h2]

theorem grow_step (al : BAlloc) {h : BHeap} {G : List (Option BG)} (hI : BMInv h G) (i n : Nat) :
    BStepOk al h G (.grow i n) := by
  refine one_ok al hI _ i (fun p => bmGrow al h p n) _ rfl (fun c => rfl) ?_
  intro p a b hb hk
  obtain ⟨h', a', b', r, e, hb', hf, hx, hv⟩ := bmGrow_ok al hb hk n
  have hsz : (bsBits b).words = b.size := rfl
  by_cases hn : n < b.size ∨ n > MAXWORDS
  · rw [if_pos (hx hn), bsGrow_fail _ (by omega)] at hv
    injection hv with h1 h2
    refine ⟨h', a', b', r, fun _ => false, e, hb', by rw [h1]; exact hk, hf, ?_⟩
    rw [maxWords_eq', hsz, if_pos hn, h1, h2]
  · by_cases hg : al.granted h h' = true
    · rw [if_pos hg] at hv
      have hs := bsGrow_spec (al.junk h.reqs) hk (by omega : n ≤ MAXWORDS) (by omega)
      rw [← hv] at hs
      refine ⟨h', a', b', r, fun _ => false, e, hb', hs.2.1, hf, ?_⟩
      rw [maxWords_eq', hsz, if_neg hn]
      simp only [hg, if_true]
      rw [show r = true from hs.1, bsBits_eq (b := b') (n := n) (s := bsGet b) hs.2.2.1 (fun x => by rw [bsGet_eq, bsGet_eq, hs.2.2.2])]
      rfl
    · rw [if_neg hg] at hv
      have hg' : al.granted h h' = false := by simpa using hg
      injection hv with h1 h2
      refine ⟨h', a', b', r, fun _ => false, e, hb', by rw [h1]; exact hk, hf, ?_⟩
      rw [maxWords_eq', hsz, if_neg hn]
      simp only [hg', Bool.false_eq_true, if_false]
      rw [h1, h2]

theorem setWith_step (al : BAlloc) {h : BHeap} {G : List (Option BG)} (hI : BMInv h G) {op : BitsetHist.Op} (i x : Nat) (f : Word → Word)
    (S : NSet → NSet) (hop : bmStep al ⟨h, bVars G⟩ op = BWorld.one ⟨h, bVars G⟩ i fun p => (bmSetWith al h p x f).map fun h => (h, true))
    (hsp : ∀ c, BitsetHist.step c (bPool G) op = BitsetHist.change (bPool G) i fun b =>
      if x / 64 ≥ BitsetHist.maxWords then (b, true)
      else if c.memory then (⟨max b.words (x / 64 + 1), S b.has⟩, true) else (b, true))
    (hv : ∀ junk b, BSOK b → x / 64 < MAXWORDS → BSOK (bsSetWith junk b x f) ∧
      (bsSetWith junk b x f).size = max b.size (x / 64 + 1) ∧ ∀ y, bsGet (bsSetWith junk b x f) y = S (bsGet b) y) :
    BStepOk al h G op := by
  refine one_ok al hI _ i _ _ hop hsp ?_
  intro p a b hb hk
  obtain ⟨h', a', b', e, hb', hf, hx, hval⟩ := bmSetWith_ok al hb hk x f
  have hfail : x / 64 ≥ MAXWORDS → bsSetWith (al.junk h.reqs) b x f = b := by
    intro hm
    have := hk.max
    have hs : x / 64 ≥ b.size := by omega
    simp only [bsSetWith, if_pos hs, bsGrow_fail (al.junk h.reqs) (b := b) (n := x / 64 + 1) (Or.inl (by omega))]
    simp
  by_cases hm : x / 64 ≥ MAXWORDS
  · rw [if_pos (hx hm), hfail hm] at hval
    refine ⟨h', a', b', true, fun _ => false, by rw [e]; rfl, hb', by rw [hval]; exact hk, hf, ?_⟩
    rw [maxWords_eq', if_pos hm, hval]
  · by_cases hg : al.granted h h' = true
    · rw [if_pos hg] at hval
      obtain ⟨s1, s2, s3⟩ := hv (al.junk h.reqs) b hk (by omega)
      rw [← hval] at s1 s2 s3
      refine ⟨h', a', b', true, fun _ => false, by rw [e]; rfl, hb', s1, hf, ?_⟩
      rw [maxWords_eq', if_neg hm]
      simp only [hg, if_true]
      rw [bsBits_eq s2 s3]
      rfl
    · rw [if_neg hg] at hval
      have hg' : al.granted h h' = false := by simpa using hg
      refine ⟨h', a', b', true, fun _ => false, by rw [e]; rfl, hb', by rw [hval]; exact hk, hf, ?_⟩
      rw [maxWords_eq', if_neg hm]
      simp only [hg', Bool.false_eq_true, if_false]
      rw [hval]

theorem trim_step (al : BAlloc) {h : BHeap} {G : List (Option BG)} (hI : BMInv h G) (i : Nat) : BStepOk al h G (.trim i) := by
  refine one_ok al hI _ i (fun p => bmTrimIf al h p) _ rfl (fun c => rfl) ?_
  intro p a b hb hk
  have hu : BitsetHist.used (bsBits b).has (bsBits b).words = trimLoop b.mem b.size := used_eq b (Nat.le_refl _)
  have hif : bmTrimIf al h p = if trimLoop b.mem b.size = 0 then some (h, false) else bmTrim al h p := by
    unfold bmTrimIf
    rw [bmObj_eq hb]
    simp only []
    rw [bmEmptyLoop_eq hb.arr (by have := hk.le; omega), zero_trim]
    by_cases h0 : trimLoop b.mem b.size = 0
    · simp [h0]
    · simp [h0]
  by_cases h0 : trimLoop b.mem b.size = 0
  · refine ⟨h, a, b, false, fun _ => false, by show bmTrimIf al h p = _; rw [hif, if_pos h0], hb, hk, BFr.refl _ _ _, ?_⟩
    rw [hu, if_pos h0]
  · obtain ⟨h', a', b', r, e, hb', hf, hv⟩ := bmTrim_ok al hb hk h0
    have e' : bmTrimIf al h p = some (h', r) := by rw [hif, if_neg h0, e]
    by_cases hg : al.granted h h' = true
    · rw [if_pos hg] at hv
      obtain ⟨t1, t2, t3⟩ := trimLoop_spec b b.size (Nat.le_refl _)
      obtain ⟨x, hx, _⟩ := t3 (by omega)
      obtain ⟨b2, u1, u2, u3, u4, u5⟩ := bsTrim_spec hk ⟨x, hx⟩
      rw [u1] at hv
      injection hv with hv
      injection hv with hv1 hv2
      subst hv1
      have hsz : b'.size = trimLoop b.mem b.size := by
        have hle := hk.le
        unfold bsTrim at u1
        simp only [] at u1
        by_cases hc : b.mem.length = trimLoop b.mem b.size
        · rw [if_pos hc] at u1
          injection u1 with u1
          injection u1 with u1 _
          rw [← u1]; omega
        · rw [if_neg hc, if_neg h0] at u1
          injection u1 with u1
          injection u1 with u1 _
          rw [← u1]
      refine ⟨h', a', b', r, fun _ => false, e', hb', u2, hf, ?_⟩
      rw [hu, if_neg h0]
      simp only [hg, if_true]
      rw [hv2, bsBits_eq hsz u4]
      rfl
    · rw [if_neg hg] at hv
      injection hv with hv
      injection hv with hv1 hv2
      have hg' : al.granted h h' = false := by simpa using hg
      refine ⟨h', a', b', r, fun _ => false, e', hb', by rw [hv1]; exact hk, hf, ?_⟩
      rw [hu, if_neg h0]
      simp only [hg', Bool.false_eq_true, if_false]
      rw [hv1, hv2]

theorem tail_size (junk : Nat → Word) {b1 b2 : BSet} (h1 : BSOK b1) (h2 : BSOK b2) :
    (bsCopyTail junk b1 b2).1.size = max b1.size b2.size := by
  unfold bsCopyTail
  by_cases hc : b2.size > b1.size
  · rw [if_pos hc]
    obtain ⟨r1, r2, r3, _⟩ := bsResize_spec junk h1 (n := b2.size) false h2.max
    simp only [r1]
    rw [if_neg (by simp)]
    simp only [r3]
    omega
  · rw [if_neg hc]; simp only []; omega

theorem unite_step (al : BAlloc) {h : BHeap} {G : List (Option BG)} (hI : BMInv h G) {op : BitsetHist.Op} (i j : Nat)
    (f : Word → Word → Word) (g : Bool → Bool → Bool) (hz : ∀ v, f v 0#64 = v) (hz2 : ∀ v, f 0#64 v = v)
    (hbit : ∀ v w k, (f v w).getLsbD k = g (v.getLsbD k) (w.getLsbD k))
    (hop : bmStep al ⟨h, bVars G⟩ op = BWorld.two ⟨h, bVars G⟩ i j fun p q => bmUnite al f h p q)
    (hsp : ∀ c, BitsetHist.step c (bPool G) op = BitsetHist.change2 (bPool G) i j fun a b =>
      if c.memory then (⟨max a.words b.words, fun x => g (a.has x) (b.has x)⟩, true)
      else (⟨a.words, fun x => g (a.has x) (BitsetHist.upTo (64 * a.words) b.has x)⟩, false)) : BStepOk al h G op := by
  refine two_ok al hI _ i j _ _ hop hsp ?_
  intro p1 a1 b1 p2 a2 b2 hb1 hk1 hb2 hk2 hs
  obtain ⟨h', a', b', r, e, hb', hf, hv⟩ := bmUnite_ok al f hb1 hb2 hk1 hk2 hs
  obtain ⟨u1, u2⟩ := upd_spec (b2 := b2) f hk1
  change BSOK (bsCommon f b1 b2) at u1
  change ∀ k, bword (bsCommon f b1 b2) k = _ at u2
  by_cases hg : al.granted h h' = true
  · rw [if_pos hg] at hv
    obtain ⟨c1, c2, c3⟩ := bsCopyTail_spec (al.junk h.reqs) u1 hk2
    have c4 := tail_size (al.junk h.reqs) u1 hk2
    rw [← hv] at c1 c2 c3 c4
    simp only [] at c1 c2 c3 c4
    refine ⟨h', a', b', r, e, hb', c2, hf, ?_⟩
    simp only [hg, if_true]
    rw [c1, bsBits_eq (b := b') c4 (s := fun x => g (bsGet b1 x) (bsGet b2 x)) ?_]
    · rfl
    · intro x
      rw [bsGet_eq, bsGet_eq, bsGet_eq, ← hbit, c3]
      congr 1
      have hsz : (bsCommon f b1 b2).size = b1.size := rfl
      rw [hsz, u2]
      by_cases hx : x / 64 < b1.size
      · rw [if_pos hx]
        by_cases hx2 : x / 64 < b2.size
        · rw [if_pos ⟨hx, hx2⟩]
        · rw [if_neg (fun h => hx2 h.2), bword_ge (b := b2) hx2, hz]
      · rw [if_neg hx, bword_ge (b := b1) hx, hz2]
  · rw [if_neg hg] at hv
    have hg' : al.granted h h' = false := by simpa using hg
    injection hv with h1 h2
    refine ⟨h', a', b', r, e, hb', by rw [h1]; exact u1, hf, ?_⟩
    simp only [hg', Bool.false_eq_true, if_false]
    rw [h1, h2, bsBits_eq (b := bsCommon f b1 b2) (n := b1.size)
      (s := fun x => g (bsGet b1 x) (BitsetHist.upTo (64 * b1.size) (bsGet b2) x)) rfl ?_]
    · rfl
    · intro x
      rw [bsGet_eq, bsGet_eq, u2, BitsetHist.upTo]
      by_cases hx : x / 64 < b1.size
      · rw [decide_eq_true (by omega), Bool.true_and, bsGet_eq, ← hbit]
        congr 1
        by_cases hx2 : x / 64 < b2.size
        · rw [if_pos ⟨hx, hx2⟩]
        · rw [if_neg (fun h => hx2 h.2), bword_ge (b := b2) hx2, hz]
      · rw [decide_eq_false (by omega), Bool.false_and, if_neg (fun h => hx h.1), bword_ge (b := b1) hx]
        have := hbit 0#64 0#64 (x % 64)
        rw [hz] at this
        simp at this
        simp [this]

theorem shiftRight_step (al : BAlloc) {h : BHeap} {G : List (Option BG)} (hI : BMInv h G) (i s : Nat) :
    BStepOk al h G (.shiftRight i s) := by
  refine one_ok al hI _ i (fun p => bmShiftRightIf al h p s) _ rfl (fun c => rfl) ?_
  intro p a b hb hk
  unfold bmShiftRightIf
  rw [bmObj_eq hb]
  simp only []
  by_cases hs : s / 64 < b.size
  · rw [if_pos hs]
    obtain ⟨b', e, hk', hv⟩ := bsShiftRight_spec (al.junk h.reqs) hk (s := s) (Or.inl hs)
    obtain ⟨h', e', hb', hf, _, hz⟩ := bmShiftRight_ok al hb hk hs e
    refine ⟨h', a, b', true, fun _ => false, by rw [e']; rfl, hb', hk', hf, ?_⟩
    have h1 : (bsBits b).words = b.size := rfl
    rw [h1, if_pos hs, bsBits_eq hz hv]
    rfl
  · rw [if_neg hs]
    refine ⟨h, a, b, false, fun _ => false, rfl, hb, hk, BFr.refl _ _ _, ?_⟩
    have h1 : (bsBits b).words = b.size := rfl
    rw [h1, if_neg hs]

end CRoaring
