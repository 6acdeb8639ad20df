import Verif.Lemmas.BitsetMem4
set_option linter.unusedSimpArgs false
set_option linter.unusedVariables false
/-
Lemmas about Model/BitsetMem.lean, for C129: every call, and histories.
-/
namespace CRoaring
open BitsetHist

theorem bmStep_ok (al : BAlloc) {h : BHeap} {G : List (Option BG)} (hI : BMInv h G) (op : BitsetHist.Op) (hfit : fits op) :
    BStepOk al h G op := by
  cases op with
  | create =>
    obtain ⟨h', v, g, e, hI', hv, hg⟩ := bsetCreate_ok al hI
    refine made_ok rfl (by rw [← e]) hI' hv ?_
    by_cases hgr : al.granted h h' = true
    · rw [if_pos hgr] at hg
      obtain ⟨p, a, b, rfl, hs, hb⟩ := hg
      simp only [BitsetHist.step, hgr, if_true, Option.map_some, Option.isSome_some, bsBits_eq hs hb]
    · rw [if_neg hgr] at hg
      subst hg
      have hgr' : al.granted h h' = false := by simpa using hgr
      simp [BitsetHist.step, hgr']
  | createCap n =>
    obtain ⟨h', v, g, e, hI', hv, hg⟩ := bsetCreateCap_ok al hI n
    refine made_ok rfl e hI' hv ?_
    by_cases hgr : al.granted h h' = true
    · rw [if_pos hgr] at hg
      obtain ⟨p, a, b, rfl, hb⟩ := hg
      have hn : n + 63 < 2 ^ 64 := hfit
      have hs : b.size = (n + 63) / 64 := by
        rw [hb]
        show (n + 63) % 18446744073709551616 / 64 = _
        omega
      have hb2 : ∀ x, bsGet b x = false := by rw [hb]; exact (bsCreateWithCapacity_spec n).2
      simp only [BitsetHist.step, hgr, if_true, Option.map_some, Option.isSome_some, bsBits_eq hs hb2]
    · rw [if_neg hgr] at hg
      subst hg
      have hgr' : al.granted h h' = false := by simpa using hgr
      simp [BitsetHist.step, hgr']
  | copy i =>
    rcases bvar_cases G i with ⟨h1, h2, _⟩ | ⟨p, a, b, hi, h1⟩
    · refine ⟨h, G, false, fun _ => false, ?_, hI, ?_⟩
      · simp only [bmStep, h1]
      · simp only [BitsetHist.step, h2]
    · obtain ⟨h', v, g, e, hI', hv, hg⟩ := bsetCopy_ok al hI hi
      refine made_ok (r := bmCopy al h p) (by simp only [bmStep, h1]) e hI' hv ?_
      by_cases hgr : al.granted h h' = true
      · rw [if_pos hgr] at hg
        obtain ⟨p', a', b', rfl, hs, hb⟩ := hg
        simp only [BitsetHist.step, bGet_some hi, hgr, if_true, Option.map_some, Option.isSome_some, bsBits_eq hs hb]
        rfl
      · rw [if_neg hgr] at hg
        subst hg
        have hgr' : al.granted h h' = false := by simpa using hgr
        simp [BitsetHist.step, bGet_some hi, hgr']
  | free i =>
    rcases bvar_cases G i with ⟨h1, h2, h3⟩ | ⟨p, a, b, hi, h1⟩
    · have hself : G.set i none = G := by
        rcases h3 with e | e
        · apply List.ext_getElem?
          intro k
          rw [List.getElem?_set]
          by_cases hk : i = k
          · subst hk
            rw [if_pos rfl, if_neg (by rw [List.getElem?_eq_none_iff] at e; omega), e]
          · rw [if_neg hk]
        · exact set_self' e
      have hv : (bVars G).set i none = bVars G := by
        have := congrArg bVars hself
        simpa [bVars, List.map_set] using this
      have hp : (bPool G).set i none = bPool G := by
        have := congrArg bPool hself
        simpa [bPool, List.map_set] using this
      refine ⟨h, G, true, fun _ => false, ?_, hI, ?_⟩
      · simp only [bmStep, h1, bmFreeSet, Option.map_some, hv]
      · simp only [BitsetHist.step, hp]
    · obtain ⟨h', e, hI'⟩ := bsetFree_ok hI hi
      refine ⟨h', G.set i none, true, fun _ => false, ?_, hI', ?_⟩
      · simp only [bmStep, h1, e, Option.map_some]
        simp [bVars, List.map_set]
      · simp [BitsetHist.step, bPool, List.map_set]
  | clear i =>
    refine one_ok al hI _ i (fun p => (bmAll h p 0#64).map fun h => (h, true)) _ rfl (fun c => rfl) ?_
    intro p a b hb hk
    obtain ⟨h', e, hb', hf, hr⟩ := bmAll_ok hb hk 0#64
    refine ⟨h', a, bsClear b, true, fun _ => false, by rw [e]; rfl, hb', (bsClear_spec hk).1, hf, ?_⟩
    rw [bsBits_eq (b := bsClear b) (n := b.size) rfl (bsClear_spec hk).2]
    rfl
  | fill i =>
    refine one_ok al hI _ i (fun p => (bmAll h p ones).map fun h => (h, true)) _ rfl (fun c => rfl) ?_
    intro p a b hb hk
    obtain ⟨h', e, hb', hf, hr⟩ := bmAll_ok hb hk ones
    refine ⟨h', a, bsFill b, true, fun _ => false, by rw [e]; rfl, hb', (bsFill_spec hk).1, hf, ?_⟩
    rw [bsBits_eq (b := bsFill b) (n := b.size) rfl (bsFill_spec hk).2]
    rfl
  | resize i n pad => exact resize_step al hI i n pad
  | grow i n => exact grow_step al hI i n
  | trim i => exact trim_step al hI i
  | set i x =>
    refine setWith_step al hI i x _ (fun s => Spec.insert s x) rfl (fun c => rfl) ?_
    intro junk b hk hx
    exact bsSet_spec junk hk hx
  | setTo i x v =>
    refine setWith_step al hI i x _ (fun s y => if y = x then v else s y) rfl (fun c => rfl) ?_
    intro junk b hk hx
    exact bsSetToValue_spec junk hk v hx
  | shiftRight i s => exact shiftRight_step al hI i s
  | unite i j =>
    exact unite_step al hI i j (fun x y => x ||| y) (fun x y => x || y) (by simp) (by simp) (by simp) rfl (fun c => rfl)
  | symm i j =>
    exact unite_step al hI i j (fun x y => x ^^^ y) (fun x y => x != y) (by simp) (by simp) (by simp) rfl (fun c => rfl)
  | inter i j =>
    refine two_ok al hI _ i j (fun p q => (bmInter h p q).map fun h => (h, true)) _ rfl (fun c => rfl) ?_
    intro p1 a1 b1 p2 a2 b2 hb1 hk1 hb2 hk2 hs
    obtain ⟨h', e, hb', hf, hr⟩ := bmInter_ok hb1 hb2 hk1 hk2 hs
    refine ⟨h', a1, _, true, by rw [e]; rfl, hb', (bsInplaceIntersection_spec hk1).1, hf, ?_⟩
    rw [bsBits_eq (b := bsInplaceIntersection b1 b2) (n := b1.size) rfl (bsInplaceIntersection_spec hk1).2]
    rfl
  | diff i j =>
    refine two_ok al hI _ i j (fun p q => (bmDiff h p q).map fun h => (h, true)) _ rfl (fun c => rfl) ?_
    intro p1 a1 b1 p2 a2 b2 hb1 hk1 hb2 hk2 hs
    obtain ⟨h', e, hb', hf, hr⟩ := bmDiff_ok hb1 hb2 hk1 hk2 hs
    refine ⟨h', a1, _, true, by rw [e]; rfl, hb', (bsInplaceDifference_spec hk1).1, hf, ?_⟩
    rw [bsBits_eq (b := bsInplaceDifference b1 b2) (n := b1.size) rfl (bsInplaceDifference_spec hk1).2]
    rfl

theorem bmRun_ok (al : BAlloc) {h : BHeap} {G : List (Option BG)} (hI : BMInv h G) (ops : List BitsetHist.Op)
    (hfit : ∀ op ∈ ops, fits op) :
    ∃ (h' : BHeap) (G' : List (Option BG)) (rs : List (Bool × Bool)) (lucks : List Luck), bmRun al ⟨h, bVars G⟩ ops = some (⟨h', bVars G'⟩, rs) ∧ BMInv h' G' ∧ lucks.length = ops.length ∧
      lucks.map Luck.memory = rs.map (·.2) ∧
      BitsetHist.run (bPool G) (lucks.zip ops) = (bPool G', rs.map (·.1)) := by
  induction ops generalizing h G with
  | nil => exact ⟨h, G, [], [], rfl, hI, rfl, rfl, rfl⟩
  | cons op ops ih =>
    obtain ⟨h1, G1, r, rest, e1, hI1, s1⟩ := bmStep_ok al hI op (hfit op (by simp))
    obtain ⟨h2, G2, rs, lucks, e2, hI2, hl, hm, s2⟩ := ih hI1 (fun o ho => hfit o (by simp [ho]))
    refine ⟨h2, G2, (r, al.granted h h1) :: rs, ⟨al.granted h h1, rest⟩ :: lucks, ?_, hI2, by simp [hl], by simp [hm], ?_⟩
    · rw [bmRun, e1]
      simp only []
      rw [e2]
    · rw [List.zip_cons_cons, BitsetHist.run, s1]
      simp only []
      rw [s2]
      rfl

theorem BMInv.start : BMInv BWorld.start.heap [] where
  ok := fun i p a b h => by simp at h
  sep := fun i j gi gj k h => by simp at h
  live := fun k blk h => by simp [BWorld.start] at h

/-- What the program can see. -/
theorem BMInv.sees {h : BHeap} {G : List (Option BG)} (hI : BMInv h G) (i : Nat) :
    (∀ x, BWorld.get ⟨h, bVars G⟩ i x = (BitsetHist.get (bPool G) i).map fun b => b.has x) ∧
    BWorld.words ⟨h, bVars G⟩ i = (BitsetHist.get (bPool G) i).map fun b => b.words := by
  rcases bvar_cases G i with ⟨h1, h2, _⟩ | ⟨p, a, b, hi, h1⟩
  · exact ⟨fun x => by simp [BWorld.get, h1, h2], by simp [BWorld.words, h1, h2]⟩
  · obtain ⟨hb, hk⟩ := hI.ok i p a b hi
    refine ⟨fun x => ?_, ?_⟩
    · simp only [BWorld.get, h1, bmGet_ok hb hk, bGet_some hi, Option.map_some]
      rfl
    · simp only [BWorld.words, h1, bmObj_eq hb, bGet_some hi, Option.map_some]
      rfl

theorem bsResize_size (junk : Nat → Word) (b : BSet) {n : Nat} (pad : Bool) (hn : n ≤ MAXWORDS) :
    (bsResize junk b n pad).1.size = n := by
  unfold bsResize
  rw [if_neg (by omega)]

theorem shlZero_size {extra n : Nat} {ws : List Word} {b : BSet} (e : shlZero extra ws n = some b) : b.size = n := by
  unfold shlZero at e
  by_cases h : extra ≤ ws.length
  · rw [if_pos h] at e; injection e with e; rw [← e]
  · rw [if_neg h] at e; cases e

theorem bsShiftLeft_size {junk : Nat → Word} {b b' : BSet} {s : Nat} (hs : b.size + s / 64 + 1 ≤ MAXWORDS)
    (e : bsShiftLeft junk b s = some b') : b'.size = b.size + s / 64 + (if s % 64 = 0 then 0 else 1) := by
  unfold bsShiftLeft at e
  dsimp only at e
  by_cases h0 : s % 64 = 0
  · rw [if_pos h0] at e ⊢
    have hz := bsResize_size junk b false (show b.size + s / 64 ≤ MAXWORDS by omega)
    generalize bsResize junk b (b.size + s / 64) false = g at *
    cases em : shlMove (s / 64) b.size g.1.mem with
    | none => rw [em] at e; cases e
    | some ws => rw [em] at e; rw [shlZero_size e, hz]; rfl
  · rw [if_neg h0] at e ⊢
    have hz := bsResize_size junk b true (show b.size + s / 64 + 1 ≤ MAXWORDS by omega)
    generalize bsResize junk b (b.size + s / 64 + 1) true = g at *
    generalize szSub b.size 1 = t at *
    cases et : g.1.mem[t]? with
    | none => rw [et] at e; cases e
    | some top =>
      rw [et] at e
      simp only [] at e
      cases es : wordStore g.1.mem (b.size + s / 64) (top >>> (64 - s % 64)) with
      | none => rw [es] at e; cases e
      | some w1 =>
        rw [es] at e
        simp only [] at e
        cases em : shlLoop (s / 64) (s % 64) (b.size - 1) w1 with
        | none => rw [em] at e; cases e
        | some w2 =>
          rw [em] at e
          simp only [] at e
          cases e0 : w2[0]? with
          | none => rw [e0] at e; cases e
          | some w0 =>
            rw [e0] at e
            simp only [] at e
            cases es2 : wordStore w2 (s / 64) (w0 <<< (s % 64)) with
            | none => rw [es2] at e; cases e
            | some w3 => rw [es2] at e; rw [shlZero_size e, hz]

/-- A left shift after any history. -/
theorem shiftLeft_ok (al : BAlloc) {h : BHeap} {G : List (Option BG)} (hI : BMInv h G) {i n s : Nat}
    (hg : al.grants h.reqs = true) (hw : BWorld.words ⟨h, bVars G⟩ i = some n) (hn : n ≠ 0) (hm : n + s / 64 + 1 ≤ maxWords) :
    ∃ h' G' b b', BWorld.shiftLeft al ⟨h, bVars G⟩ i s = some (⟨h', bVars G'⟩, true) ∧ BMInv h' G' ∧
      BitsetHist.get (bPool G) i = some b ∧ bPool G' = (bPool G).set i (some b') ∧ i < (bPool G).length ∧ b.words = n ∧
      b'.words = n + s / 64 + (if s % 64 = 0 then 0 else 1) ∧
      ∀ x, b'.has x = (decide (s ≤ x) && b.has (x - s)) := by
  rcases bvar_cases G i with ⟨h1, h2, _⟩ | ⟨p, a, b, hi, h1⟩
  · simp [BWorld.words, h1] at hw
  · obtain ⟨hb, hk⟩ := hI.ok i p a b hi
    simp only [BWorld.words, h1, bmObj_eq hb, Option.map_some] at hw
    injection hw with hw
    rw [maxWords_eq'] at hm
    subst hw
    obtain ⟨b', e, hk', hv⟩ := bsShiftLeft_spec (al.junk h.reqs) hk (s := s) hm (Or.inl hn)
    obtain ⟨h', a', e', hb', hf⟩ := bmShiftLeft_ok al hb hk hg e
    refine ⟨h', G.set i (some (p, a', b')), bsBits b, bsBits b', ?_, hI.upd hi hb' hk' hf, bGet_some hi, bPool_set _ _ _ _ _,
      ?_, rfl, bsShiftLeft_size hm e, hv⟩
    · simp only [BWorld.shiftLeft, BWorld.one, h1, e', BWorld.on, Option.map_some, bVars_set hi]
    · rw [bPool, List.length_map]
      exact (List.getElem?_eq_some_iff.1 hi).1

end CRoaring
