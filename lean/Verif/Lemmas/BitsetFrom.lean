import Verif.Model.BitsetFrom
import Verif.Lemmas.BitsetMem5
import Verif.Lemmas.BitsetT3
set_option linter.unusedSimpArgs false
set_option linter.unusedVariables false
/-
Lemmas for C131: `roaring_bitmap_to_bitset` on checked memory is the computation on lists of words.
-/
namespace CRoaring
open BitsetHist

theorem ld_app {h : BHeap} {a : Option Nat} {pre ws : List Word} (ha : BArr h a (pre ++ ws)) {i : Nat} (hi : i < ws.length) :
    bmLd h a (pre.length + i) = some (wd ws i) := by
  rw [bmLd_eq ha (by rw [List.length_append]; omega)]
  congr 1
  simp [wd, List.getD_eq_getElem?_getD, List.getElem?_append_right]

theorem st_app {h : BHeap} {a : Option Nat} {pre ws : List Word} (ha : BArr h a (pre ++ ws)) {i : Nat} (hi : i < ws.length) (w : Word) :
    bmSt h a (pre.length + i) w = some (wset h a (pre ++ ws.set i w)) := by
  rw [bmSt_eq ha (by rw [List.length_append]; omega)]
  congr 2
  rw [List.set_append_right _ _ (by omega)]
  congr 2
  omega

theorem or_app {h : BHeap} {a : Option Nat} {pre ws : List Word} (ha : BArr h a (pre ++ ws)) {i : Nat} (hi : i < ws.length) (w : Word) :
    bmOr h a (pre.length + i) w = some (wset h a (pre ++ ws.set i (wd ws i ||| w))) := by
  rw [bmOr, ld_app ha hi]
  exact st_app ha hi _

theorem arr_app {h : BHeap} {a : Option Nat} {pre ws ws' : List Word} (ha : BArr h a (pre ++ ws)) (hl : ws'.length = ws.length) :
    BArr (wset h a (pre ++ ws')) a (pre ++ ws') := arr_wset ha (by rw [List.length_append, List.length_append, hl])

theorem bmSetList_eq {h : BHeap} {a : Option Nat} {pre ws : List Word} (ha : BArr h a (pre ++ ws)) (l : List Nat)
    (hl : ∀ p ∈ l, p < 64 * ws.length) : bmSetList h a pre.length l = some (wset h a (pre ++ bitsetSetList ws l)) := by
  induction l generalizing h ws with
  | nil => rw [bmSetList, bitsetSetList, wset_self ha]
  | cons p l ih =>
    have hp := hl p List.mem_cons_self
    rw [bmSetList, or_app ha (by omega)]
    simp only []
    rw [ih (arr_app ha (List.length_set ..)) (fun q hq => by rw [List.length_set]; exact hl q (List.mem_cons_of_mem _ hq)), wset_wset]
    rfl

theorem bmFillPairs_eq {h : BHeap} {a : Option Nat} {pre ws : List Word} (ha : BArr h a (pre ++ ws)) (i e : Nat) (he : e < ws.length) :
    bmFillPairs h a pre.length i e = some (wset h a (pre ++ fillPairs ws i e)) := by
  induction hn : e - i using Nat.strongRecOn generalizing h ws i with
  | ind n ih =>
    rw [bmFillPairs, fillPairs]
    by_cases hi : i < e
    · rw [if_pos hi, if_pos hi, st_app ha (by omega)]
      simp only []
      have h1 := arr_app ha (ws' := ws.set (i + 1) ones) (List.length_set ..)
      rw [st_app h1 (by rw [List.length_set]; omega), wset_wset]
      simp only []
      have h2 := arr_app ha (ws' := (ws.set (i + 1) ones).set i ones) (by simp)
      rw [ih (e - (i + 2)) (by omega) h2 (i + 2) (by simpa using he) rfl, wset_wset]
    · rw [if_neg hi, if_neg hi, wset_self ha]

theorem bmSetLenrange_eq {h : BHeap} {a : Option Nat} {pre ws : List Word} (ha : BArr h a (pre ++ ws)) (s l : Nat)
    (he : s + l < 64 * ws.length) : bmSetLenrange h a pre.length s l = some (wset h a (pre ++ bitsetSetLenrange ws s l)) := by
  unfold bmSetLenrange bitsetSetLenrange
  simp only []
  by_cases hc : s / 64 = (s + l) / 64
  · rw [if_pos hc, if_pos hc, or_app ha (by omega)]
  · rw [if_neg hc, if_neg hc, ld_app ha (by omega)]
    simp only []
    rw [or_app ha (by omega)]
    simp only []
    rw [bmFillPairs_eq (arr_app ha (List.length_set ..)) _ _ (by rw [List.length_set]; omega), wset_wset]
    simp only []
    rw [st_app (arr_app ha (by simp)) (by simp; omega), wset_wset]

theorem bmSetRuns_eq {h : BHeap} {a : Option Nat} {pre ws : List Word} (ha : BArr h a (pre ++ ws)) (rs : List Rle)
    (hl : ∀ r ∈ rs, r.1 + r.2 < 64 * ws.length) : bmSetRuns h a pre.length rs = some (wset h a (pre ++ setRuns ws rs)) := by
  induction rs generalizing h ws with
  | nil => rw [bmSetRuns, setRuns, List.foldl_nil, wset_self ha]
  | cons r rs ih =>
    rw [bmSetRuns, bmSetLenrange_eq ha _ _ (hl r List.mem_cons_self)]
    simp only []
    rw [ih (arr_app ha (by simp)) (fun q hq => by simpa using hl q (List.mem_cons_of_mem _ hq)), wset_wset]
    rfl

theorem bmCopyIn_eq {h : BHeap} {a : Option Nat} {ws : List Word} (ha : BArr h a ws) (off : Nat) (src : List Word) (k n : Nat)
    (h1 : off + k + n ≤ ws.length) (h2 : k + n ≤ src.length) :
    bmCopyIn h a off src k n = some (wset h a (updWords (fun j _ => wd src (j - off)) ws (off + k) n)) := by
  induction n generalizing h ws k with
  | zero => rw [bmCopyIn, updWords, wset_self ha]
  | succ n ih =>
    have e : src[k]? = some (wd src k) := by
      rw [wd, List.getD_eq_getElem?_getD, List.getElem?_eq_getElem (by omega)]; rfl
    rw [bmCopyIn, e]
    simp only []
    rw [bmSt_eq ha (by omega)]
    simp only []
    rw [ih (arr_wset ha (List.length_set ..)) (k + 1) (by rw [List.length_set]; omega) (by omega), wset_wset, updWords,
      show off + k - off = k by omega]
    rfl

theorem copyLen {N off : Nat} (h : off ≤ N) (hN : N < 18446744073709551616) :
    (if szSub N off > 1024 then 1024 else szSub N off) = min 1024 (N - off) := by
  rw [szSub_eq h hN]
  split <;> omega

theorem bmFromStep_eq {h : BHeap} {a : Option Nat} {mem : List Word} (ha : BArr h a mem) {N k : Nat} {c : Container}
    (hN : N ≤ mem.length) (hc : CNe c) (hb : ∀ v, chas c v = true → 65536 * k + v < 64 * N) (hN2 : N < 18446744073709551616) :
    bmFromStep h a N k c = some (wset h a (toBitsetStep N mem (k, c))) ∧ (toBitsetStep N mem (k, c)).length = mem.length := by
  obtain ⟨hi, v, hv⟩ := hc
  have hv2 := hb v hv
  have hoff : k <<< 10 = 1024 * k := by rw [Nat.shiftLeft_eq]; omega
  have hkN : 1024 * k ≤ N := by omega
  have hpre : (mem.take (1024 * k)).length = 1024 * k := by rw [List.length_take]; omega
  have hsplit : BArr h a (mem.take (1024 * k) ++ mem.drop (1024 * k)) := by rw [List.take_append_drop]; exact ha
  cases c with
  | bitset b =>
    unfold bmFromStep toBitsetStep
    simp only [hoff]
    rw [copyLen hkN hN2]
    have hbl : b.words.length = 1024 := hi.1.1
    refine ⟨?_, updWords_length _ _ _ _⟩
    have := bmCopyIn_eq ha (1024 * k) b.words 0 (min 1024 (N - 1024 * k)) (by omega) (by omega)
    rw [this, Nat.add_zero]
  | array l =>
    unfold bmFromStep toBitsetStep
    simp only [hoff]
    have hl : ∀ p ∈ l, p < 64 * (mem.drop (1024 * k)).length := fun p hp => by
      have := hb p (decide_eq_true hp)
      rw [List.length_drop]; omega
    have := bmSetList_eq hsplit l hl
    rw [hpre] at this
    exact ⟨this, by rw [List.length_append, bitsetSetList_length', List.length_take, List.length_drop]; omega⟩
  | run rs =>
    unfold bmFromStep toBitsetStep
    simp only [hoff]
    have hl : ∀ r ∈ rs, r.1 + r.2 < 64 * (mem.drop (1024 * k)).length := fun r hr => by
      have := hb (r.1 + r.2) (List.any_eq_true.2 ⟨r, hr, by simp⟩)
      rw [List.length_drop]; omega
    have := bmSetRuns_eq hsplit rs hl
    rw [hpre] at this
    refine ⟨this, ?_⟩
    have e : (rs.foldl (fun ws r => bitsetSetLenrange ws r.1 r.2) (mem.drop (1024 * k))) = setRuns (mem.drop (1024 * k)) rs := rfl
    rw [e, List.length_append, setRuns_length, List.length_take, List.length_drop]; omega

theorem bmFromLoop_eq (r : Bitmap) {h : BHeap} {a : Option Nat} {mem : List Word} (ha : BArr h a mem) {N : Nat}
    (hN : N ≤ mem.length) (hr : BInv r) (hb : ∀ v, bhas r v = true → v < 64 * N) (hN2 : N < 18446744073709551616) :
    bmFromLoop h a N r = some (wset h a (r.foldl (toBitsetStep N) mem)) ∧ (r.foldl (toBitsetStep N) mem).length = mem.length := by
  induction r generalizing h mem with
  | nil => exact ⟨by rw [bmFromLoop, List.foldl_nil, wset_self ha], rfl⟩
  | cons p t ih =>
    obtain ⟨k, c⟩ := p
    have hs := bmFromStep_eq ha hN hr.2.1 (fun v hv => by
        have hlt := hr.2.1.1.rep.lt hv
        apply hb
        rw [bhas_cons, show (65536 * k + v) / 65536 = k by omega, show (65536 * k + v) % 65536 = v by omega, hv]
        simp) hN2
    have hi := ih (arr_wset ha hs.2) (by omega) hr.2.2.2 (fun v hv => by apply hb; rw [bhas_cons, hv, Bool.or_true])
    rw [bmFromLoop, hs.1, List.foldl_cons]
    simp only []
    rw [hi.1, wset_wset]
    exact ⟨rfl, hi.2.trans hs.2⟩

theorem max_words {r : Bitmap} (h : BInv r) : rbMaximum r / 64 + 1 ≤ MAXWORDS ∧ rbMaximum r / 64 + 1 < 18446744073709551616 ∧
    ∀ v, bhas r v = true → v < 64 * (rbMaximum r / 64 + 1) := by
  have hmx := maxwords_eq
  have hmax := rbMaximum_spec h
  have hle : rbMaximum r < 4294967296 := by
    by_cases hr : r = []
    · rw [hmax.1 hr]; decide
    · exact bhas_lt h (hmax.2 hr).1
  refine ⟨by omega, by omega, fun v hv => ?_⟩
  have hr : r ≠ [] := by rintro rfl; cases hv
  have := (hmax.2 hr).2 v hv
  omega

/-- The call on memory: refused and without effect, or the computation on values. -/
theorem bmToBitset_ok (al : BAlloc) {h : BHeap} {p : Nat} {a : Option Nat} {b : BSet} (hb : BAt h p a b) (hk : BSOK b) {r : Bitmap}
    (hr : BInv r) :
    ∃ h' a' b' q, bmToBitset al h p r = some (h', q) ∧ BAt h' p a' b' ∧ BSOK b' ∧ BFr h p a h' a' ∧ q = al.granted h h' ∧
      (q = false → b' = b) ∧ (q = true → b' = (rbToBitset (al.junk h.reqs) r b).1 ∧ b'.size = rbMaximum r / 64 + 1) := by
  obtain ⟨hm1, hm2, hub⟩ := max_words hr
  unfold bmToBitset rbToBitset
  simp only []
  generalize rbMaximum r / 64 + 1 = N at *
  obtain ⟨h1, a1, b1, q, e1, hb1, hf1, _, hv⟩ := bmResize_ok al hb hk N true
  rw [e1]
  by_cases hg : al.granted h h1 = true
  · rw [if_pos hg] at hv
    obtain ⟨s1, s2, s3, _⟩ := bsResize_spec (al.junk h.reqs) hk (n := N) true hm1
    rw [← hv] at s1 s2 s3 ⊢
    have s1' : q = true := s1
    subst s1'
    simp only []
    rw [bmObj_eq hb1]
    simp only []
    have hle : N ≤ b1.mem.length := by
      have h2 := s2.le
      have h3 : b1.size = N := s3
      have h4 : b1.size ≤ b1.mem.length := h2
      omega
    obtain ⟨f1, f2⟩ := bmFromLoop_eq r hb1.arr hle hr hub hm2
    rw [f1]
    refine ⟨_, a1, ⟨r.foldl (toBitsetStep N) b1.mem, b1.size⟩, true, rfl, hb1.wset f2, ⟨?_, s2.max⟩, ?_, ?_, ?_, ?_⟩
    · show b1.size ≤ (r.foldl (toBitsetStep N) b1.mem).length
      rw [f2]; exact s2.le
    · exact hf1.transAt hb (frame_wset _ _ _ _)
    · rw [← hg]
      unfold BAlloc.granted
      rw [wset_reqs]
    · intro e; cases e
    · intro _
      exact ⟨rfl, s3⟩
  · rw [if_neg hg] at hv
    injection hv with hv1 hv2
    subst hv1
    subst hv2
    exact ⟨h1, a1, b1, false, rfl, hb1, hk, hf1, by cases hh : al.granted h h1 <;> simp_all, fun _ => rfl, fun e => by cases e⟩

/-- The call in a program. -/
theorem toBitset_ok (al : BAlloc) {h : BHeap} {G : List (Option BG)} (hI : BMInv h G) {i : Nat} {b : Bits}
    (hi : BitsetHist.get (bPool G) i = some b) {r : Bitmap} (hr : BInv r) :
    ∃ h' G' b' q, BWorld.toBitset al ⟨h, bVars G⟩ i r = some (⟨h', bVars G'⟩, q) ∧ BMInv h' G' ∧ q = al.granted h h' ∧
      bPool G' = (bPool G).set i (some b') ∧ i < (bPool G).length ∧ (q = false → b' = b) ∧
      (q = true → b'.words = rbMaximum r / 64 + 1 ∧ ((∀ x, b.has x = false) → ∀ x, b'.has x = bhas r x)) := by
  rcases bvar_cases G i with ⟨_, h2, _⟩ | ⟨p, a, c, hg, h1⟩
  · rw [hi] at h2; cases h2
  · obtain ⟨hb, hk⟩ := hI.ok i p a c hg
    rw [bGet_some hg] at hi
    injection hi with hi
    subst hi
    obtain ⟨h', a', c', q, e, hb', hk', hf, hq, hn, hy⟩ := bmToBitset_ok al hb hk hr
    refine ⟨h', G.set i (some (p, a', c')), bsBits c', q, ?_, hI.upd hg hb' hk' hf, hq, bPool_set _ _ _ _ _, ?_, ?_, ?_⟩
    · simp only [BWorld.toBitset, BWorld.one, h1, e, BWorld.on, Option.map_some, bVars_set hg]
    · rw [bPool, List.length_map]
      exact (List.getElem?_eq_some_iff.1 hg).1
    · intro e2; rw [hn e2]
    · intro e2
      obtain ⟨y1, y2⟩ := hy e2
      refine ⟨y2, fun he x => ?_⟩
      have := (rbToBitset_spec (al.junk h.reqs) hr hk he).2.2 x
      rw [← y1] at this
      exact this

end CRoaring
