import Verif.Lemmas.SimdBits2
set_option linter.unusedSimpArgs false
set_option linter.unusedVariables false
/-
Comparisons, the cardinality of run containers and the lists of bits with vector code.
-/
namespace CRoaring
open Spec

/-! ### Comparisons -/

theorem someByteDiffers_false : ∀ {a b : List Nat}, a.length = b.length → (someByteDiffers a b = false ↔ a = b)
  | [], [], _ => by simp [someByteDiffers]
  | x :: a, y :: b, h => by
    have ih := someByteDiffers_false (a := a) (b := b) (by simpa using h)
    unfold someByteDiffers at ih ⊢
    rw [List.zip_cons_cons, List.any_cons, Bool.or_eq_false_iff, ih]
    simp
  | [], _ :: _, h => by simp at h
  | _ :: _, [], h => by simp at h

theorem bytesW_inj {u v : Word} (h : bytesW u = bytesW v) : u = v := by
  apply BitVec.eq_of_getLsbD_eq
  intro i hi
  have hb : ∀ w : Word, ((bytesW w)[i / 8]?.getD 0).testBit (i % 8) = w.getLsbD i := by
    intro w
    unfold bytesW
    rw [List.getElem?_map, List.getElem?_range (by omega)]
    simp only [Option.map_some, Option.getD_some]
    rw [show (256 : Nat) = 2 ^ 8 from rfl, Nat.testBit_mod_two_pow, BitVec.toNat_ushiftRight, Nat.testBit_shiftRight]
    have : i % 8 < 8 := by omega
    simp only [this, decide_true, Bool.true_and]
    rw [show 8 * (i / 8) + i % 8 = i by omega]
    rfl
  rw [← hb u, ← hb v, h]

theorem flatMap_bytesW_inj : ∀ {a b : List Word}, a.length = b.length → a.flatMap bytesW = b.flatMap bytesW → a = b
  | [], [], _, _ => rfl
  | x :: a, y :: b, h, e => by
    rw [List.flatMap_cons, List.flatMap_cons] at e
    obtain ⟨e1, e2⟩ := List.append_inj e (by rw [bytesW_length, bytesW_length])
    rw [bytesW_inj e1, flatMap_bytesW_inj (by simpa using h) e2]
  | [], _ :: _, h, _ => by simp at h
  | _ :: _, [], h, _ => by simp at h

theorem flatMap_bytesW_len (a : List Word) : (a.flatMap bytesW).length = 8 * a.length := by
  induction a with
  | nil => rfl
  | cons x a ih => rw [List.flatMap_cons, List.length_append, ih, bytesW_length, List.length_cons]; omega

theorem equalsLoop_spec {n : Nat} {a b : List Word} : ∀ (k i : Nat), a.length = n * (i + k) → b.length = n * (i + k) →
    equalsLoop n a b k i = .ok (decide (a.drop (n * i) = b.drop (n * i)))
  | 0, i, ha, hb => by
    rw [equalsLoop, List.drop_of_length_le (by rw [ha]; exact Nat.le_refl _), List.drop_of_length_le (by rw [hb]; exact Nat.le_refl _)]
    rfl
  | k + 1, i, ha, hb => by
    have hk : n * (i + (k + 1)) = n * i + n + n * k := by rw [Nat.mul_add, Nat.mul_add]; omega
    have hk' : n * (i + 1 + k) = n * i + n + n * k := by rw [Nat.mul_add, Nat.mul_add]; omega
    rw [equalsLoop, loadW_ok (by omega), ok_bind, loadW_ok (by omega), ok_bind, equalsLoop_spec k (i + 1) (by omega) (by omega)]
    have hla : ((a.drop (n * i)).take n).length = n := by rw [List.length_take, List.length_drop]; omega
    have hlb : ((b.drop (n * i)).take n).length = n := by rw [List.length_take, List.length_drop]; omega
    have hs : ∀ c : List Word, c.drop (n * i) = (c.drop (n * i)).take n ++ c.drop (n * (i + 1)) := by
      intro c
      conv => lhs; rw [← List.take_append_drop n (c.drop (n * i))]
      rw [List.drop_drop, Nat.mul_add, Nat.mul_one]
    have hd := someByteDiffers_false (a := ((a.drop (n * i)).take n).flatMap bytesW) (b := ((b.drop (n * i)).take n).flatMap bytesW)
      (by rw [flatMap_bytesW_len, flatMap_bytesW_len, hla, hlb])
    by_cases h : (a.drop (n * i)).take n = (b.drop (n * i)).take n
    · rw [if_neg (by rw [hd.2 (by rw [h])]; exact Bool.false_ne_true)]
      rw [hs a, hs b, h]
      simp only [List.append_cancel_left_eq]
    · have hne : someByteDiffers (((a.drop (n * i)).take n).flatMap bytesW) (((b.drop (n * i)).take n).flatMap bytesW) = true := by
        rw [← Bool.not_eq_false, hd]
        exact fun e => h (flatMap_bytesW_inj (by rw [hla, hlb]) e)
      rw [if_pos hne, decide_eq_false]
      intro e
      exact h (by rw [e])

theorem bitsetEqualsMem_spec (m : Machine) {b1 b2 : Bitset} (l1 : b1.words.length = 1024) (l2 : b2.words.length = 1024) :
    bitsetEqualsMem m b1 b2 = .ok (bitsetEquals b1 b2) := by
  unfold bitsetEqualsMem bitsetEquals
  by_cases c1 : b1.card ≠ UNKNOWN_CARD ∧ b2.card ≠ UNKNOWN_CARD ∧ b1.card ≠ b2.card
  · rw [if_pos c1, if_pos c1]
  rw [if_neg c1, if_neg c1]
  by_cases c2 : b1.card ≠ UNKNOWN_CARD ∧ b2.card ≠ UNKNOWN_CARD ∧ b1.card = 65536
  · rw [if_pos c2, if_pos c2]
  rw [if_neg c2, if_neg c2]
  have hb : (b1.words == b2.words) = decide (b1.words = b2.words) := by
    rw [Bool.eq_iff_iff]
    simp
  rw [hb]
  cases m
  · simp only
    rw [equalsLoop_spec _ _ (by rw [l1]) (by rw [l2]), Nat.mul_zero, List.drop_zero, List.drop_zero]
  · simp only
    rw [equalsLoop_spec _ _ (by rw [l1]) (by rw [l2]), Nat.mul_zero, List.drop_zero, List.drop_zero]
  · rfl
  · rfl

theorem readN_ok {a : List Nat} {i n : Nat} (h : i + n ≤ a.length) : readN a i n = .ok ((a.drop i).take n) := by
  unfold readN
  rw [if_pos h]

/-- A loop of `memequals` over `n` bytes at a time. -/
theorem memEqLoop_spec {n : Nat} {a b : List Nat} {e : Nat} (hn : 0 < n) (ha : e ≤ a.length) (hb : e ≤ b.length) :
    ∀ (fuel p : Nat), p ≤ e → e - p < fuel → (e - p) % n = 0 →
    (memEqLoop n a b e fuel p = .ok (some e) ∧ (a.drop p).take (e - p) = (b.drop p).take (e - p)) ∨
    (memEqLoop n a b e fuel p = .ok none ∧ (a.drop p).take (e - p) ≠ (b.drop p).take (e - p))
  | 0, p, hp, hf, _ => by omega
  | fuel + 1, p, hp, hf, hm => by
    rw [memEqLoop]
    by_cases h : p < e
    · have hge : n ≤ e - p := Nat.le_of_dvd (by omega) (Nat.dvd_of_mod_eq_zero hm)
      have hm' : (e - (p + n)) % n = 0 := by
        rw [show e - (p + n) = (e - p) - n by omega, ← Nat.mod_eq_sub_mod hge]
        exact hm
      rw [if_pos h, readN_ok (by omega), ok_bind, readN_ok (by omega), ok_bind]
      have hs : ∀ c : List Nat, (c.drop p).take (e - p) = (c.drop p).take n ++ (c.drop (p + n)).take (e - (p + n)) := by
        intro c
        rw [show e - p = n + (e - (p + n)) by omega, List.take_add, List.drop_drop]
      have hla : ((a.drop p).take n).length = n := by rw [List.length_take, List.length_drop]; omega
      have hlb : ((b.drop p).take n).length = n := by rw [List.length_take, List.length_drop]; omega
      have hd := someByteDiffers_false (a := (a.drop p).take n) (b := (b.drop p).take n) (by rw [hla, hlb])
      have ih := memEqLoop_spec hn ha hb fuel (p + n) (by omega) (by omega) hm'
      by_cases hq : (a.drop p).take n = (b.drop p).take n
      · rw [if_neg (by rw [hd.2 hq]; exact Bool.false_ne_true), hs a, hs b, hq]
        simp only [ne_eq, List.append_cancel_left_eq]
        exact ih
      · rw [if_pos (by rw [← Bool.not_eq_false, hd]; exact hq)]
        refine Or.inr ⟨rfl, fun he => hq ?_⟩
        rw [hs a, hs b] at he
        exact (List.append_inj he (by rw [hla, hlb])).1
    · rw [if_neg h]
      have : p = e := by omega
      subst this
      exact Or.inl ⟨rfl, by rw [Nat.sub_self, List.take_zero, List.take_zero]⟩

/-- The loops of `memequals`: each takes the bytes up to its end. -/
theorem memEqLoops_spec {a b : List Nat} {n : Nat} (ha : n ≤ a.length) (hb : n ≤ b.length) :
    ∀ (ls : List (Nat × Nat)) (p : Nat), p ≤ n → (∀ x ∈ ls, 0 < x.1 ∧ x.2 ≤ n ∧ p ≤ x.2 ∧ (x.2 - p) % x.1 = 0) →
      ls.Pairwise (fun x y => x.2 ≤ y.2 ∧ (y.2 - x.2) % y.1 = 0) → (ls.getLast?.map (·.2)).getD p = n →
      memEqLoops a b (n + 1) ls p = .ok (decide ((a.drop p).take (n - p) = (b.drop p).take (n - p)))
  | [], p, hp, _, _, hl => by
    have : p = n := hl
    subst this
    rw [memEqLoops, Nat.sub_self, List.take_zero, List.take_zero]
    rfl
  | (k, e) :: t, p, hp, hx, hpw, hl => by
    obtain ⟨hk, he, hpe, hm⟩ := hx (k, e) (by simp)
    simp only at hk he hpe hm
    rw [memEqLoops]
    have hs : ∀ c : List Nat, (c.drop p).take (n - p) = (c.drop p).take (e - p) ++ (c.drop e).take (n - e) := by
      intro c
      rw [show n - p = (e - p) + (n - e) by omega, List.take_add, List.drop_drop, show p + (e - p) = e by omega]
    have hla : ((a.drop p).take (e - p)).length = e - p := by rw [List.length_take, List.length_drop]; omega
    have hlb : ((b.drop p).take (e - p)).length = e - p := by rw [List.length_take, List.length_drop]; omega
    have hpw' := List.pairwise_cons.1 hpw
    rcases memEqLoop_spec hk (Nat.le_trans he ha) (Nat.le_trans he hb) (n + 1) p hpe (by omega) hm with ⟨h, hq⟩ | ⟨h, hq⟩
    · rw [h, ok_bind]
      simp only
      rw [memEqLoops_spec ha hb t e he ?_ hpw'.2 ?_, hs a, hs b, hq]
      · simp only [List.append_cancel_left_eq]
      · intro x hxt
        obtain ⟨x1, x2, x3, x4⟩ := hx x (by simp [hxt])
        obtain ⟨y1, y2⟩ := hpw'.1 x hxt
        exact ⟨x1, x2, y1, y2⟩
      · rw [List.getLast?_cons] at hl
        cases ht : t.getLast? with
        | none => rw [ht] at hl; exact hl
        | some z => rw [ht] at hl; exact hl
    · rw [h, ok_bind]
      simp only
      rw [decide_eq_false]
      intro he'
      rw [hs a, hs b] at he'
      exact hq (List.append_inj he' (by rw [hla, hlb])).1

/-- `memequals` says whether the first `n` bytes are the same, and reads no others. -/
theorem memequals_spec (m : Machine) {a b : List Nat} {n : Nat} (ha : a.length = n) (hb : b.length = n) : memequals m a b n = .ok (decide (a = b)) := by
  unfold memequals
  by_cases h0 : n = 0
  · subst h0
    rw [if_pos rfl, List.length_eq_zero_iff.1 ha, List.length_eq_zero_iff.1 hb]
    rfl
  rw [if_neg h0]
  have fin : decide ((a.drop 0).take (n - 0) = (b.drop 0).take (n - 0)) = decide (a = b) := by
    rw [List.drop_zero, List.drop_zero, Nat.sub_zero, List.take_of_length_le (by omega), List.take_of_length_le (by omega)]
  cases m
  · simp only
    rw [Nat.shiftRight_eq_div_pow, Nat.shiftRight_eq_div_pow, Nat.shiftRight_eq_div_pow, Nat.shiftLeft_eq, Nat.shiftLeft_eq, Nat.shiftLeft_eq]
    rw [memEqLoops_spec (n := n) (by omega) (by omega) _ 0 (by omega) ?_ ?_ rfl, fin]
    · intro x hx
      simp only [List.mem_cons, List.not_mem_nil, or_false] at hx
      rcases hx with rfl | rfl | rfl | rfl <;> simp only <;> omega
    · simp only [List.pairwise_cons, List.mem_cons, List.not_mem_nil, or_false, forall_eq_or_imp, forall_eq, false_imp_iff, implies_true, List.Pairwise.nil, and_true]
      omega
  · simp only
    rw [memEqLoops_spec (n := n) (by omega) (by omega) _ 0 (by omega) ?_ ?_ rfl, fin]
    · intro x hx
      simp only [List.mem_cons, List.not_mem_nil, or_false] at hx
      rcases hx with rfl | rfl | rfl <;> simp only <;> omega
    · simp only [List.pairwise_cons, List.mem_cons, List.not_mem_nil, or_false, forall_eq_or_imp, forall_eq, false_imp_iff, implies_true, List.Pairwise.nil, and_true]
      omega
  · simp only
    rw [readN_ok (by omega), ok_bind, readN_ok (by omega), ok_bind, ← fin, Nat.sub_zero]
  · simp only
    rw [readN_ok (by omega), ok_bind, readN_ok (by omega), ok_bind, ← fin, Nat.sub_zero]

theorem le16_inj {x y : Nat} (hx : x < 65536) (hy : y < 65536) (h : le16 x = le16 y) : x = y := by
  unfold le16 at h
  simp only [List.cons.injEq, and_true] at h
  omega

theorem arrayBytes_len (l : List Nat) : (arrayBytes l).length = l.length * 2 := by
  induction l with
  | nil => rfl
  | cons x l ih =>
    have : arrayBytes (x :: l) = le16 x ++ arrayBytes l := rfl
    rw [this, List.length_append, ih, List.length_cons]
    simp only [le16, List.length_cons, List.length_nil]
    omega

theorem runImage_len (l : List Rle) : (runImage l).length = l.length * 4 := by
  induction l with
  | nil => rfl
  | cons x l ih =>
    have : runImage (x :: l) = (le16 x.1 ++ le16 x.2) ++ runImage l := rfl
    rw [this, List.length_append, ih, List.length_cons]
    simp only [le16, List.length_cons, List.length_nil, List.length_append]
    omega

theorem arrayBytes_inj : ∀ {a b : List Nat}, (∀ x ∈ a, x < 65536) → (∀ x ∈ b, x < 65536) → a.length = b.length → arrayBytes a = arrayBytes b → a = b
  | [], [], _, _, _, _ => rfl
  | x :: a, y :: b, hx, hy, h, e => by
    have e' : le16 x ++ arrayBytes a = le16 y ++ arrayBytes b := e
    obtain ⟨e1, e2⟩ := List.append_inj e' rfl
    rw [le16_inj (hx x (by simp)) (hy y (by simp)) e1, arrayBytes_inj (fun z hz => hx z (by simp [hz])) (fun z hz => hy z (by simp [hz])) (by simpa using h) e2]
  | [], _ :: _, _, _, h, _ => by simp at h
  | _ :: _, [], _, _, h, _ => by simp at h

theorem runImage_inj : ∀ {a b : List Rle}, (∀ x ∈ a, x.1 < 65536 ∧ x.2 < 65536) → (∀ x ∈ b, x.1 < 65536 ∧ x.2 < 65536) → a.length = b.length →
    runImage a = runImage b → a = b
  | [], [], _, _, _, _ => rfl
  | x :: a, y :: b, hx, hy, h, e => by
    have e' : (le16 x.1 ++ le16 x.2) ++ runImage a = (le16 y.1 ++ le16 y.2) ++ runImage b := e
    obtain ⟨e1, e2⟩ := List.append_inj e' rfl
    obtain ⟨e3, e4⟩ := List.append_inj e1 rfl
    have k1 := hx x (by simp)
    have k2 := hy y (by simp)
    have : x = y := Prod.ext (le16_inj k1.1 k2.1 e3) (le16_inj k1.2 k2.2 e4)
    rw [this, runImage_inj (fun z hz => hx z (by simp [hz])) (fun z hz => hy z (by simp [hz])) (by simpa using h) e2]
  | [], _ :: _, _, _, h, _ => by simp at h
  | _ :: _, [], _, _, h, _ => by simp at h

theorem arrayEqualsMem_spec (m : Machine) {a b : List Nat} (ha : ∀ x ∈ a, x < 65536) (hb : ∀ x ∈ b, x < 65536) :
    arrayEqualsMem m a b = .ok (decide (a = b)) := by
  unfold arrayEqualsMem
  by_cases h : a.length = b.length
  · rw [if_neg (by simpa using h), memequals_spec m (arrayBytes_len a) (by rw [arrayBytes_len, h])]
    congr 1
    exact decide_eq_decide.2 ⟨arrayBytes_inj ha hb h, fun e => by rw [e]⟩
  · rw [if_pos h, decide_eq_false]
    exact fun e => h (by rw [e])

theorem runEqualsMem_spec (m : Machine) {a b : List Rle} (ha : ∀ x ∈ a, x.1 < 65536 ∧ x.2 < 65536) (hb : ∀ x ∈ b, x.1 < 65536 ∧ x.2 < 65536) :
    runEqualsMem m a b = .ok (decide (a = b)) := by
  unfold runEqualsMem
  by_cases h : a.length = b.length
  · rw [if_neg (by simpa using h), memequals_spec m (runImage_len a) (by rw [runImage_len, h])]
    congr 1
    exact decide_eq_decide.2 ⟨runImage_inj ha hb h, fun e => by rw [e]⟩
  · rw [if_pos h, decide_eq_false]
    exact fun e => h (by rw [e])

/-! ### The cardinality of runs -/

theorem runCardVec_spec {step : Nat} (hs : 0 < step) {rs : List Rle} (hr : ∀ r ∈ rs, r.1 < 65536) :
    ∀ (fuel k : Nat) (total : List Nat), k ≤ rs.length → rs.length - k < fuel → total.length = step →
      MEq (2 ^ 32) total.sum ((rs.take k).map (·.2)).sum →
      ∃ k' t', runCardVec step rs fuel k total = .ok (k', t') ∧ k' ≤ rs.length ∧ MEq (2 ^ 32) t'.sum ((rs.take k').map (·.2)).sum
  | 0, k, total, hk, hf, _, _ => by omega
  | fuel + 1, k, total, hk, hf, ht, hv => by
    rw [runCardVec]
    by_cases h : k + step ≤ rs.length
    · rw [if_pos h]
      simp only
      have hm : (((rs.drop k).take step).map (fun r => r.1 + 65536 * r.2)).map (· / 2 ^ 16) = ((rs.drop k).take step).map (·.2) := by
        rw [List.map_map]
        apply List.map_congr_left
        intro r hr'
        have := hr r (List.mem_of_mem_drop (List.mem_of_mem_take hr'))
        simp only [Function.comp]
        omega
      rw [hm]
      have hl : (((rs.drop k).take step).map (·.2)).length = step := by rw [List.length_map, List.length_take, List.length_drop]; omega
      refine runCardVec_spec hs hr fuel (k + step) _ h (by omega) (addLanes_len ht hl) ?_
      refine (sum_addLanes (ht.trans hl.symm)).trans ?_
      rw [List.take_add, List.map_append, List.sum_append]
      exact hv.add_right _
    · rw [if_neg h]
      exact ⟨k, total, rfl, hk, hv⟩

theorem runCardSimd_spec {step : Nat} (hs : 0 < step) {rs : List Rle} (hr : ∀ r ∈ rs, r.1 < 65536) (hc : runCard rs ≤ 65536) :
    runCardSimd step rs = .ok (runCard rs : Nat) := by
  have fin : ∀ (k : Nat) (t : List Nat), MEq (2 ^ 32) t.sum ((rs.take k).map (·.2)).sum →
      i32of (rs.length + t.sum + ((rs.drop k).map (·.2)).sum) = (runCard rs : Nat) := by
    intro k t ht
    have hsplit : (rs.map (·.2)).sum = ((rs.take k).map (·.2)).sum + ((rs.drop k).map (·.2)).sum := by
      rw [← List.sum_append, ← List.map_append, List.take_append_drop]
    have hm : (rs.length + t.sum + ((rs.drop k).map (·.2)).sum) % 4294967296 = runCard rs := by
      unfold runCard at hc ⊢
      unfold MEq at ht
      omega
    have := i32of_small hc
    unfold i32of at this ⊢
    rw [hm]
    rw [Nat.mod_eq_of_lt (by omega)] at this
    exact this
  unfold runCardSimd runCardBlocks
  by_cases h : rs.length > step
  · rw [if_pos h]
    obtain ⟨k, t, e, _, v⟩ := runCardVec_spec hs hr (rs.length + 1) 0 (List.replicate step 0) (by omega) (by omega) List.length_replicate (by simp [MEq])
    rw [e, ok_bind]
    simp only
    rw [fin k t v]
  · rw [if_neg h, ok_bind]
    have := fin 0 [] rfl
    simp only
    rw [this]

theorem runCardMem_spec (m : Machine) {rs : List Rle} (hr : ∀ r ∈ rs, r.1 < 65536) (hc : runCard rs ≤ 65536) :
    runCardMem m rs = .ok (runCard rs : Nat) := by
  unfold runCardMem
  cases m
  · exact runCardSimd_spec (by omega) hr hc
  · exact runCardSimd_spec (by omega) hr hc
  · rfl
  · rfl

/-! ### Lists of bits -/

theorem toggle_set (w : Word) {p : Nat} (hp : p < 64) : ((w ^^^ (w ||| oneBit p)) >>> p).toNat = if w.getLsbD p then 0 else 1 := by
  have : (w ^^^ (w ||| oneBit p)) >>> p = if w.getLsbD p then 0#64 else 1#64 := by
    apply BitVec.eq_of_getLsbD_eq
    intro i hi
    rw [BitVec.getLsbD_ushiftRight, BitVec.getLsbD_xor, BitVec.getLsbD_or, oneBit_getLsbD]
    by_cases hi0 : i = 0
    · subst hi0
      cases h : w.getLsbD p <;> simp [h, hp]
    · have : ¬ (p + i = p) := by omega
      have h2 : (1#64).getLsbD i = false := by simp [hi0]
      cases h : w.getLsbD p <;> simp [this, hi0]
  rw [this]
  split <;> rfl

theorem toggle_clear (w : Word) {p : Nat} (hp : p < 64) : ((w ^^^ (w &&& ~~~oneBit p)) >>> p).toNat = if w.getLsbD p then 1 else 0 := by
  have : (w ^^^ (w &&& ~~~oneBit p)) >>> p = if w.getLsbD p then 1#64 else 0#64 := by
    apply BitVec.eq_of_getLsbD_eq
    intro i hi
    by_cases hb : p + i < 64
    · rw [BitVec.getLsbD_ushiftRight, BitVec.getLsbD_xor, BitVec.getLsbD_and, BitVec.getLsbD_not, oneBit_getLsbD]
      by_cases hi0 : i = 0
      · subst hi0
        cases h : w.getLsbD p <;> simp [h, hp]
      · have : ¬ (p + i = p) := by omega
        cases h : w.getLsbD p <;> simp [this, hi0, hb]
    · rw [BitVec.getLsbD_ushiftRight, BitVec.getLsbD_of_ge _ _ (by omega)]
      have hi0 : i ≠ 0 := by omega
      cases h : w.getLsbD p <;> simp [hi0]
  rw [this]
  split <;> rfl

theorem sbb_allOnes (c : Word) (b : Bool) : (c - BitVec.allOnes 64 - (if b then 1#64 else 0#64)) = c + (if b then 0#64 else 1#64) := by
  have h : BitVec.allOnes 64 = -(1#64) := by decide
  rw [h, BitVec.sub_neg]
  cases b
  · simp
  · simp [BitVec.add_sub_cancel]

theorem asmSetListWithcard_spec : ∀ (l : List Nat) (ws : List Word) (c : Int) (cf : Bool), (∀ p ∈ l, p < 64 * ws.length) →
    ∃ cf', asmSetListWithcard l { card := BitVec.ofInt 64 c, cf := cf, words := ws } =
      .ok { card := BitVec.ofInt 64 (bitsetSetListWithcard ws c l).2, cf := cf', words := (bitsetSetListWithcard ws c l).1 }
  | [], ws, c, cf, _ => ⟨cf, rfl⟩
  | p :: t, ws, c, cf, h => by
    have hp := h p (by simp)
    have hd : p >>> 6 = p / 64 := Nat.shiftRight_eq_div_pow p 6
    rw [asmSetListWithcard, bitsetSetListWithcard]
    unfold asmBit
    simp only
    rw [hd, if_pos (by omega), ok_bind]
    unfold asmSbb
    simp only [if_true]
    rw [sbb_allOnes, toggle_set _ (Nat.mod_lt _ (by omega))]
    have hc : BitVec.ofInt 64 c + (if (wd ws (p / 64)).getLsbD (p % 64) then 0#64 else 1#64) =
        BitVec.ofInt 64 (c + ((if (wd ws (p / 64)).getLsbD (p % 64) then 0 else 1 : Nat) : Int)) := by
      rw [BitVec.ofInt_add]
      split <;> rfl
    rw [hc]
    exact asmSetListWithcard_spec t _ _ _ (fun q hq => by rw [List.length_set]; exact h q (by simp [hq]))

theorem asmBit_set {p : Nat} {s : AsmSt} (hp : p < 64 * s.words.length) :
    ∃ s', asmBit true p s = .ok s' ∧ s'.words = s.words.set (p / 64) (wd s.words (p / 64) ||| oneBit (p % 64)) := by
  have hd : p >>> 6 = p / 64 := Nat.shiftRight_eq_div_pow p 6
  unfold asmBit
  simp only
  rw [hd, if_pos (by omega)]
  exact ⟨_, rfl, rfl⟩

theorem asmSetList_spec : ∀ (l : List Nat) (s : AsmSt), (∀ p ∈ l, p < 64 * s.words.length) →
    ∃ s', asmSetList l s = .ok s' ∧ s'.words = bitsetSetList s.words l := by
  intro l s
  induction l, s using asmSetList.induct with
  | case1 p0 p1 p2 p3 t s ih =>
    intro h
    obtain ⟨s0, e0, w0⟩ := asmBit_set (h p0 (by simp))
    have k0 : s0.words.length = s.words.length := by rw [w0, List.length_set]
    obtain ⟨s1, e1, w1⟩ := asmBit_set (s := s0) (by rw [k0]; exact h p1 (by simp))
    have k1 : s1.words.length = s.words.length := by rw [w1, List.length_set, k0]
    obtain ⟨s2, e2, w2⟩ := asmBit_set (s := s1) (by rw [k1]; exact h p2 (by simp))
    have k2 : s2.words.length = s.words.length := by rw [w2, List.length_set, k1]
    obtain ⟨s3, e3, w3⟩ := asmBit_set (s := s2) (by rw [k2]; exact h p3 (by simp))
    have k3 : s3.words.length = s.words.length := by rw [w3, List.length_set, k2]
    obtain ⟨s', e', w'⟩ := ih s3 (by rw [k3]; exact fun q hq => h q (by simp [hq]))
    refine ⟨s', by rw [asmSetList, e0, ok_bind, e1, ok_bind, e2, ok_bind, e3, ok_bind, e'], ?_⟩
    rw [w', w3, w2, w1, w0]
    rfl
  | case2 p t s hne ih =>
    intro h
    obtain ⟨s0, e0, w0⟩ := asmBit_set (h p (by simp))
    have k0 : s0.words.length = s.words.length := by rw [w0, List.length_set]
    obtain ⟨s', e', w'⟩ := ih s0 (by rw [k0]; exact fun q hq => h q (by simp [hq]))
    refine ⟨s', by rw [asmSetList, e0, ok_bind, e'] <;> assumption, ?_⟩
    rw [w', w0]
    rfl
  | case3 s => exact fun _ => ⟨s, rfl, rfl⟩

theorem asmClearList_spec : ∀ (l : List Nat) (ws : List Word) (c : Int) (cf : Bool), (∀ p ∈ l, p < 64 * ws.length) →
    ∃ cf', asmClearList l { card := BitVec.ofInt 64 c, cf := cf, words := ws } =
      .ok { card := BitVec.ofInt 64 (bitsetClearList ws c l).2, cf := cf', words := (bitsetClearList ws c l).1 }
  | [], ws, c, cf, _ => ⟨cf, rfl⟩
  | p :: t, ws, c, cf, h => by
    have hp := h p (by simp)
    have hd : p >>> 6 = p / 64 := Nat.shiftRight_eq_div_pow p 6
    rw [asmClearList, bitsetClearList]
    unfold asmBit
    simp only
    rw [hd, if_pos (by omega), ok_bind]
    unfold asmSbb
    simp only [Bool.false_eq_true, if_false]
    rw [toggle_clear _ (Nat.mod_lt _ (by omega))]
    have hc : BitVec.ofInt 64 c - 0#64 - (if (wd ws (p / 64)).getLsbD (p % 64) then 1#64 else 0#64) =
        BitVec.ofInt 64 (c - ((if (wd ws (p / 64)).getLsbD (p % 64) then 1 else 0 : Nat) : Int)) := by
      rw [Int.sub_eq_add_neg, BitVec.ofInt_add, BitVec.ofInt_neg, ← BitVec.sub_eq_add_neg, BitVec.sub_zero]
      split <;> rfl
    rw [hc]
    exact asmClearList_spec t _ _ _ (fun q hq => by rw [List.length_set]; exact h q (by simp [hq]))

theorem i32of_ofInt {c : Int} (h1 : -2147483648 ≤ c) (h2 : c < 2147483648) : i32of (BitVec.ofInt 64 c).toNat = c := by
  unfold i32of toI32
  rw [BitVec.toNat_ofInt]
  split <;> omega

/-- The cells a list of positions leaves, and the number, in plain words. -/
theorem setListWithcardMem_spec (m : Machine) {ws : List Word} {c : Int} {l : List Nat} (hl : ∀ p ∈ l, p < 64 * ws.length) (hw : ws.length = 1024)
    (hc : c = popAll ws) :
    ∃ ws', setListWithcardMem m ws c l = .ok (ws', (popAll ws' : Nat)) ∧ ws'.length = ws.length ∧ ∀ x, bitAt ws' x = (decide (x ∈ l) || bitAt ws x) := by
  have e1 := setListWithcard_fst ws c l
  have e2 := setListWithcard_snd ws c l hl
  have hle := popAll_le (bitsetSetList ws l)
  rw [bitsetSetList_length] at hle
  refine ⟨bitsetSetList ws l, ?_, bitsetSetList_length ws l, fun x => bitAt_setList ws l x hl⟩
  have e3 : (bitsetSetListWithcard ws c l).2 = (popAll (bitsetSetList ws l) : Nat) := by rw [e2]; omega
  obtain ⟨cf, e⟩ := asmSetListWithcard_spec l ws c false hl
  unfold setListWithcardMem
  rw [e, ok_bind, e1, e3, i32of_ofInt (by omega) (by omega)]
  cases m
  · rfl
  · rfl
  · simp only; rw [← e3, ← e1]
  · simp only; rw [← e3, ← e1]

theorem setListMem_spec (m : Machine) {ws : List Word} {l : List Nat} (hl : ∀ p ∈ l, p < 64 * ws.length) :
    ∃ ws', setListMem m ws l = .ok ws' ∧ ws'.length = ws.length ∧ ∀ x, bitAt ws' x = (decide (x ∈ l) || bitAt ws x) := by
  refine ⟨bitsetSetList ws l, ?_, bitsetSetList_length ws l, fun x => bitAt_setList ws l x hl⟩
  obtain ⟨s, e, w⟩ := asmSetList_spec l { card := 0#64, cf := false, words := ws } hl
  unfold setListMem
  rw [e, ok_bind, w]
  cases m <;> rfl

theorem clearListMem_spec (m : Machine) {ws : List Word} {c : Int} {l : List Nat} (hl : ∀ p ∈ l, p < 64 * ws.length) (hw : ws.length = 1024)
    (hc : c = popAll ws) :
    ∃ ws', clearListMem m ws c l = .ok (ws', (popAll ws' : Nat)) ∧ ws'.length = ws.length ∧ ∀ x, bitAt ws' x = (decide (x ∉ l) && bitAt ws x) := by
  have e2 := clearList_snd ws c l hl
  have hle := popAll_le (bitsetClearList ws c l).1
  rw [clearList_length] at hle
  refine ⟨(bitsetClearList ws c l).1, ?_, clearList_length ws c l, fun x => bitAt_clearList ws c l x hl⟩
  have e3 : (bitsetClearList ws c l).2 = (popAll (bitsetClearList ws c l).1 : Nat) := by rw [e2]; omega
  obtain ⟨cf, e⟩ := asmClearList_spec l ws c false hl
  unfold clearListMem
  rw [e, ok_bind]
  simp only
  rw [i32of_ofInt (by rw [e3]; omega) (by rw [e3]; omega)]
  cases m
  · simp only; rw [← e3]
  · simp only; rw [← e3]
  · simp only; rw [← e3]
  · simp only; rw [← e3]

end CRoaring
