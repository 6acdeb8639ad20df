import Verif.Lemmas.Extract2
import Verif.Lemmas.Bitset
import Verif.Model.SimdBits
set_option linter.unusedSimpArgs false
set_option linter.unusedVariables false
/-
Population counts by vector code.
-/
namespace CRoaring
open Spec

/-! ### A lane -/

theorem shr_shr (w : Word) (a b : Nat) : (w >>> a) >>> b = w >>> (a + b) := by rw [BitVec.shiftRight_add]

theorem popcount_lowBits (w : Word) : popcount w = (lowBits w 64).length := by
  unfold popcount lowBits
  rw [List.countP_eq_length_filter]

theorem lowBits_bytes (w : Word) : ∀ k, (lowBits w (8 * k)).length = (((List.range k).map (fun i => (w >>> (8 * i)).toNat % 256)).map (fun b => (byteBits b).length)).sum := by
  intro k
  induction k with
  | zero => simp [lowBits]
  | succ k ih =>
    rw [show 8 * (k + 1) = 8 * k + 8 by omega, lowBits_add, List.length_append, List.length_map, lowBits_byte, ih, List.range_succ]
    simp

theorem popcount_bytes (w : Word) : popcount w = ((bytesW w).map (fun b => (byteBits b).length)).sum := by
  rw [popcount_lowBits]
  exact lowBits_bytes w 8

theorem bytesW_lt (w : Word) : ∀ b ∈ bytesW w, b < 256 := by
  intro b hb
  unfold bytesW at hb
  obtain ⟨i, _, rfl⟩ := List.mem_map.1 hb
  exact Nat.mod_lt _ (by omega)

theorem bytesW_length (w : Word) : (bytesW w).length = 8 := by simp [bytesW]

theorem nibble_row : ∀ a < 256, (lookupPos.getD (a % 16) 0 - lookupNeg.getD (a / 16) 0) + (lookupNeg.getD (a / 16) 0 - lookupPos.getD (a % 16) 0) = (byteBits a).length := by
  decide +kernel

theorem and15 (x : Nat) : x &&& 0x0f = x % 16 := Nat.and_two_pow_sub_one_eq_mod x 4

theorem srli_nibbles : ∀ (l : List Nat), (∀ b ∈ l, b < 256) → 2 ∣ l.length → (srliEpi16 4 l).map (· &&& 0x0f) = l.map (· / 16)
  | [], _, _ => rfl
  | [a], _, h => by simp at h
  | a :: b :: t, h, hl => by
    have ha := h a (by simp)
    have hb := h b (by simp)
    have ih := srli_nibbles t (fun x hx => h x (by simp [hx])) (by simp only [List.length_cons] at hl; omega)
    rw [srliEpi16]
    simp only [List.map_cons, ih]
    rw [and15, and15]
    congr 1
    · omega
    · congr 1
      omega

theorem sad_sum : ∀ (l : List Nat), (∀ b ∈ l, b < 256) →
    sadEpu8 ((l.map (· % 16)).map (fun i => lookupPos.getD i 0)) ((l.map (· / 16)).map (fun i => lookupNeg.getD i 0)) = (l.map (fun b => (byteBits b).length)).sum := by
  intro l
  induction l with
  | nil => intro _; rfl
  | cons a t ih =>
    intro h
    have := ih (fun x hx => h x (by simp [hx]))
    have hr := nibble_row a (h a (by simp))
    unfold sadEpu8 at this ⊢
    simp only [List.map_cons, List.zipWith_cons_cons, List.sum_cons] at this ⊢
    rw [this, hr]

theorem popcountLane_eq (w : Word) : popcountLane w = popcount w := by
  unfold popcountLane
  simp only
  rw [srli_nibbles _ (bytesW_lt w) (by rw [bytesW_length]; decide)]
  have : (bytesW w).map (· &&& 0x0f) = (bytesW w).map (· % 16) := List.map_congr_left fun x _ => and15 x
  rw [this, sad_sum _ (bytesW_lt w), popcount_bytes]

theorem popcount256_eq (v : List Word) : popcount256 v = v.map popcount := by
  unfold popcount256
  exact List.map_congr_left fun w _ => popcountLane_eq w

/-! ### Sums of lanes -/

/-- Equal modulo `m`. -/
def MEq (m a b : Nat) : Prop := a % m = b % m

theorem MEq.mod (m a : Nat) : MEq m (a % m) a := Nat.mod_mod _ _

theorem MEq.trans {m a b c : Nat} (h1 : MEq m a b) (h2 : MEq m b c) : MEq m a c := Eq.trans h1 h2

theorem MEq.add {m a b c d : Nat} (h1 : MEq m a b) (h2 : MEq m c d) : MEq m (a + c) (b + d) := by
  unfold MEq at *
  rw [Nat.add_mod, h1, h2, ← Nat.add_mod]

theorem MEq.add_right {m a b : Nat} (h : MEq m a b) (c : Nat) : MEq m (a + c) (b + c) := h.add rfl

theorem sum_addLanes {m : Nat} : ∀ {a b : List Nat}, a.length = b.length → MEq m (addLanes m a b).sum (a.sum + b.sum)
  | [], [], _ => rfl
  | x :: a, y :: b, h => by
    have ih := sum_addLanes (m := m) (a := a) (b := b) (by simpa using h)
    unfold addLanes at ih ⊢
    simp only [List.zipWith_cons_cons, List.sum_cons]
    have h1 : MEq m ((x + y) % m) (x + y) := MEq.mod _ _
    have := h1.add ih
    rw [show x + a.sum + (y + b.sum) = x + y + (a.sum + b.sum) by omega]
    exact this
  | [], _ :: _, h => by simp at h
  | _ :: _, [], h => by simp at h

theorem addLanes_len {m : Nat} {a b : List Nat} {n : Nat} (ha : a.length = n) (hb : b.length = n) : (addLanes m a b).length = n := by
  unfold addLanes
  rw [List.length_zipWith, ha, hb, Nat.min_self]

theorem sum_slli (k : Nat) (v : List Nat) : MEq (2 ^ 64) (slliEpi64 k v).sum (v.sum * 2 ^ k) := by
  induction v with
  | nil => simp [slliEpi64, MEq]
  | cons x t ih =>
    unfold slliEpi64 at ih ⊢
    simp only [List.map_cons, List.sum_cons, Nat.add_mul]
    exact (MEq.mod _ _).add ih

theorem slli_len {k : Nat} {v : List Nat} {n : Nat} (h : v.length = n) : (slliEpi64 k v).length = n := by
  unfold slliEpi64
  rw [List.length_map, h]

theorem csa_word (a b c : Word) :
    2 * popcount ((a &&& b) ||| ((a ^^^ b) &&& c)) + popcount ((a ^^^ b) ^^^ c) = popcount a + popcount b + popcount c := by
  unfold popcount
  generalize List.range 64 = l
  induction l with
  | nil => rfl
  | cons i t ih =>
    have hh : ∀ p q r : Bool, 2 * (if (p && q || (p ^^ q) && r) = true then 1 else 0) + (if ((p ^^ q) ^^ r) = true then 1 else 0)
        = (if p = true then 1 else 0) + (if q = true then 1 else 0) + (if r = true then 1 else 0) := by decide
    have h1 := hh (a.getLsbD i) (b.getLsbD i) (c.getLsbD i)
    simp only [List.countP_cons, BitVec.getLsbD_or, BitVec.getLsbD_and, BitVec.getLsbD_xor] at ih ⊢
    omega

theorem csa_sum : ∀ {a b c : List Word} {n : Nat}, a.length = n → b.length = n → c.length = n →
    2 * popAll (csa a b c).1 + popAll (csa a b c).2 = popAll a + popAll b + popAll c ∧ (csa a b c).1.length = n ∧ (csa a b c).2.length = n
  | [], [], [], n, h1, _, _ => by subst h1; simp [csa, popAll]
  | x :: a, y :: b, z :: c, n, h1, h2, h3 => by
    cases n with
    | zero => simp at h1
    | succ n =>
      have ih := csa_sum (a := a) (b := b) (c := c) (n := n) (by simpa using h1) (by simpa using h2) (by simpa using h3)
      have hw := csa_word x y z
      unfold csa popAll at ih ⊢
      simp only [List.zipWith_cons_cons, List.map_cons, List.sum_cons, List.length_cons] at ih ⊢
      refine ⟨by omega, by omega, by omega⟩
  | [], _ :: _, _, _, h1, h2, _ => by simp at h1 h2; omega
  | [], [], _ :: _, _, h1, _, h2 => by simp at h1 h2; omega
  | _ :: _, [], _, _, h1, h2, _ => by simp at h1 h2; omega
  | _ :: _, _ :: _, [], _, h1, _, h2 => by simp at h1 h2; omega

/-! ### Harley-Seal -/

/-- The blocks come from the list of words `W`, `n` at a time; `M i` is the memory when `i` blocks have been done. -/
structure BlkOK (blk : Blk) (n size : Nat) (W : List Word) (M : Nat → List Word) : Prop where
  len : W.length = n * size
  step : ∀ i, i < size → blk i (M i) = .ok ((W.drop (n * i)).take n, M (i + 1))

theorem BlkOK.blen {blk : Blk} {n size : Nat} {W : List Word} {M : Nat → List Word} (h : BlkOK blk n size W M) {i : Nat} (hi : i < size) :
    ((W.drop (n * i)).take n).length = n := by
  rw [List.length_take, List.length_drop, h.len]
  have : n * (i + 1) ≤ n * size := Nat.mul_le_mul_left _ hi
  rw [Nat.mul_add] at this
  omega

theorem popAll_append (a b : List Word) : popAll (a ++ b) = popAll a + popAll b := by simp [popAll]

theorem popAll_step (W : List Word) (n i : Nat) : popAll (W.take (n * (i + 1))) = popAll (W.take (n * i)) + popAll ((W.drop (n * i)).take n) := by
  rw [← popAll_append]
  congr 1
  rw [show n * (i + 1) = n * i + n by rw [Nat.mul_add]; omega, List.take_add]

variable {blk : Blk} {size : Nat} {W : List Word} {M : Nat → List Word}

/-- The number of bits in the blocks before number `i`. -/
abbrev popTo (n : Nat) (W : List Word) (i : Nat) : Nat := popAll (W.take (n * i))

theorem hsPair_spec (h : BlkOK blk 4 size W M) {i : Nat} (hi : i + 2 ≤ size) {o : List Word} (ho : o.length = 4) :
    ∃ t o', hsPair blk i o (M i) = .ok (t, o', M (i + 2)) ∧ t.length = 4 ∧ o'.length = 4 ∧
      2 * popAll t + popAll o' + popTo 4 W i = popAll o + popTo 4 W (i + 2) := by
  have c := csa_sum ho (h.blen (show i < size by omega)) (h.blen (show i + 1 < size by omega))
  refine ⟨_, _, ?_, c.2.1, c.2.2, ?_⟩
  · unfold hsPair
    rw [h.step i (by omega), ok_bind, h.step (i + 1) (by omega), ok_bind]
  · have h1 := popAll_step W 4 i
    have h2 := popAll_step W 4 (i + 1)
    unfold popTo
    rw [show i + 2 = i + 1 + 1 from rfl]
    omega

theorem hsQuad_spec (h : BlkOK blk 4 size W M) {i : Nat} (hi : i + 4 ≤ size) {o t : List Word} (ho : o.length = 4) (ht : t.length = 4) :
    ∃ f o' t', hsQuad blk i o t (M i) = .ok (f, o', t', M (i + 4)) ∧ f.length = 4 ∧ o'.length = 4 ∧ t'.length = 4 ∧
      4 * popAll f + 2 * popAll t' + popAll o' + popTo 4 W i = 2 * popAll t + popAll o + popTo 4 W (i + 4) := by
  obtain ⟨ta, o1, e1, l1, l2, p1⟩ := hsPair_spec h (show i + 2 ≤ size by omega) ho
  obtain ⟨tb, o2, e2, l3, l4, p2⟩ := hsPair_spec h (show i + 2 + 2 ≤ size by omega) l2
  have c := csa_sum ht l1 l3
  refine ⟨_, o2, _, ?_, c.2.1, l4, c.2.2, ?_⟩
  · unfold hsQuad
    rw [e1, ok_bind]
    simp only
    rw [e2, ok_bind]
  · rw [show i + 4 = i + 2 + 2 from rfl]
    omega

/-- What the registers stand for. -/
def HsSt.val (s : HsSt) : Nat := 16 * s.total.sum + 8 * popAll s.eights + 4 * popAll s.fours + 2 * popAll s.twos + popAll s.ones

structure HsSt.WF (s : HsSt) : Prop where
  total : s.total.length = 4
  ones : s.ones.length = 4
  twos : s.twos.length = 4
  fours : s.fours.length = 4
  eights : s.eights.length = 4

theorem hsStep_spec (h : BlkOK blk 4 size W M) {i : Nat} (hi : i + 16 ≤ size) {s : HsSt} (hs : s.WF) (hv : MEq (2 ^ 64) s.val (popTo 4 W i)) :
    ∃ s', hsStep blk i s (M i) = .ok (s', M (i + 16)) ∧ s'.WF ∧ MEq (2 ^ 64) s'.val (popTo 4 W (i + 16)) := by
  obtain ⟨f1, o1, t1, e1, a1, a2, a3, p1⟩ := hsQuad_spec h (show i + 4 ≤ size by omega) hs.ones hs.twos
  obtain ⟨f2, o2, t2, e2, b1, b2, b3, p2⟩ := hsQuad_spec h (show i + 4 + 4 ≤ size by omega) a2 a3
  obtain ⟨f3, o3, t3, e3, c1, c2, c3, p3⟩ := hsQuad_spec h (show i + 8 + 4 ≤ size by omega) b2 b3
  obtain ⟨f4, o4, t4, e4, d1, d2, d3, p4⟩ := hsQuad_spec h (show i + 12 + 4 ≤ size by omega) c2 c3
  have ca := csa_sum hs.fours a1 b1
  have cb := csa_sum ca.2.2 c1 d1
  have cx := csa_sum hs.eights ca.2.1 cb.2.1
  have hlen : (popcount256 (csa s.eights (csa s.fours f1 f2).1 (csa (csa s.fours f1 f2).2 f3 f4).1).1).length = 4 := by
    rw [popcount256_eq, List.length_map]
    exact cx.2.1
  refine ⟨{ total := addLanes (2 ^ 64) s.total (popcount256 (csa s.eights (csa s.fours f1 f2).1 (csa (csa s.fours f1 f2).2 f3 f4).1).1), ones := o4, twos := t4, fours := (csa (csa s.fours f1 f2).2 f3 f4).2, eights := (csa s.eights (csa s.fours f1 f2).1 (csa (csa s.fours f1 f2).2 f3 f4).1).2 }, ?_, ⟨addLanes_len hs.total hlen, d2, d3, cb.2.2, cx.2.2⟩, ?_⟩
  · unfold hsStep
    rw [e1, ok_bind]
    simp only
    rw [e2, ok_bind]
    simp only
    rw [e3, ok_bind]
    simp only
    rw [e4, ok_bind]
  · have hsum := sum_addLanes (m := 2 ^ 64) (a := s.total) (b := popcount256 (csa s.eights (csa s.fours f1 f2).1 (csa (csa s.fours f1 f2).2 f3 f4).1).1)
      (by rw [hs.total, hlen])
    rw [popcount256_eq] at hsum
    unfold HsSt.val at hv ⊢
    simp only at hv ⊢
    rw [popcount256_eq]
    have hp : ∀ v : List Word, (v.map popcount).sum = popAll v := fun v => rfl
    rw [hp] at hsum
    generalize (addLanes (2 ^ 64) s.total _).sum = T at hsum ⊢
    unfold MEq at hv hsum ⊢
    unfold popTo at *
    rw [show i + 4 + 4 = i + 8 from rfl] at p2
    rw [show i + 8 + 4 = i + 12 from rfl] at p3
    rw [show i + 12 + 4 = i + 16 from rfl] at p4
    omega

theorem hsLoop_spec (h : BlkOK blk 4 size W M) : ∀ (k i : Nat) (s : HsSt), i + 16 * k ≤ size → s.WF → MEq (2 ^ 64) s.val (popTo 4 W i) →
    ∃ s', hsLoop blk k i s (M i) = .ok (s', M (i + 16 * k)) ∧ s'.WF ∧ MEq (2 ^ 64) s'.val (popTo 4 W (i + 16 * k)) := by
  intro k
  induction k with
  | zero => intro i s hi hs hv; exact ⟨s, rfl, hs, hv⟩
  | succ k ih =>
    intro i s hi hs hv
    obtain ⟨s1, e1, w1, v1⟩ := hsStep_spec h (show i + 16 ≤ size by omega) hs hv
    obtain ⟨s2, e2, w2, v2⟩ := ih (i + 16) s1 (by omega) w1 v1
    rw [show i + 16 + 16 * k = i + 16 * (k + 1) by omega] at e2 v2
    exact ⟨s2, by rw [hsLoop, e1, ok_bind, e2], w2, v2⟩

theorem hsTail_spec (h : BlkOK blk 4 size W M) : ∀ (k i : Nat) (t : List Nat), i + k = size → t.length = 4 → MEq (2 ^ 64) t.sum (popTo 4 W i) →
    ∃ t', hsTail blk k i t (M i) = .ok (t', M size) ∧ MEq (2 ^ 64) t'.sum (popTo 4 W size) := by
  intro k
  induction k with
  | zero => intro i t hi ht hv; rw [Nat.add_zero] at hi; subst hi; exact ⟨t, rfl, hv⟩
  | succ k ih =>
    intro i t hi ht hv
    have hl : (popcount256 ((W.drop (4 * i)).take 4)).length = 4 := by
      rw [popcount256_eq, List.length_map]
      exact h.blen (by omega)
    have hsum := sum_addLanes (m := 2 ^ 64) (a := t) (b := popcount256 ((W.drop (4 * i)).take 4)) (by rw [ht, hl])
    have hp : (popcount256 ((W.drop (4 * i)).take 4)).sum = popAll ((W.drop (4 * i)).take 4) := by rw [popcount256_eq]; rfl
    rw [hp] at hsum
    obtain ⟨t', e, v⟩ := ih (i + 1) (addLanes (2 ^ 64) t (popcount256 ((W.drop (4 * i)).take 4))) (by omega) (addLanes_len ht hl)
      (by
        unfold popTo
        rw [popAll_step]
        exact hsum.trans (hv.add_right _))
    exact ⟨t', by rw [hsTail, h.step i (by omega), ok_bind, e], v⟩

theorem harleySeal_spec (h : BlkOK blk 4 size W M) (hsmall : popAll W < 2 ^ 64) : harleySeal blk size (M 0) = .ok (popAll W, M size) := by
  have z : popAll (List.replicate 4 0#64) = 0 := by decide
  obtain ⟨s, e, w, v⟩ := hsLoop_spec h (size / 16) 0
    { total := List.replicate 4 0, ones := List.replicate 4 0#64, twos := List.replicate 4 0#64, fours := List.replicate 4 0#64, eights := List.replicate 4 0#64 }
    (by omega) ⟨rfl, rfl, rfl, rfl, rfl⟩ (by unfold HsSt.val popTo; simp only [z]; simp [popAll, MEq])
  have hi : 0 + 16 * (size / 16) = size - size % 16 := by omega
  rw [hi] at e v
  have lp : ∀ {x : List Word}, x.length = 4 → (popcount256 x).length = 4 := fun hx => by rw [popcount256_eq, List.length_map, hx]
  have sp : ∀ x : List Word, (popcount256 x).sum = popAll x := fun x => by rw [popcount256_eq]; rfl
  have l1 := slli_len (k := 4) w.total
  have l2 := addLanes_len (m := 2 ^ 64) l1 (slli_len (k := 3) (lp w.eights))
  have l3 := addLanes_len (m := 2 ^ 64) l2 (slli_len (k := 2) (lp w.fours))
  have l4 := addLanes_len (m := 2 ^ 64) l3 (slli_len (k := 1) (lp w.twos))
  have l5 := addLanes_len (m := 2 ^ 64) l4 (lp w.ones)
  have s1 := sum_slli 4 s.total
  have s2 := (sum_addLanes (m := 2 ^ 64) (l1.trans (slli_len (k := 3) (lp w.eights)).symm)).trans (s1.add (sum_slli 3 (popcount256 s.eights)))
  have s3 := (sum_addLanes (m := 2 ^ 64) (l2.trans (slli_len (k := 2) (lp w.fours)).symm)).trans (s2.add (sum_slli 2 (popcount256 s.fours)))
  have s4 := (sum_addLanes (m := 2 ^ 64) (l3.trans (slli_len (k := 1) (lp w.twos)).symm)).trans (s3.add (sum_slli 1 (popcount256 s.twos)))
  have s5 := (sum_addLanes (m := 2 ^ 64) (l4.trans (lp w.ones).symm)).trans (s4.add_right _)
  have hv : s.total.sum * 2 ^ 4 + (popcount256 s.eights).sum * 2 ^ 3 + (popcount256 s.fours).sum * 2 ^ 2 + (popcount256 s.twos).sum * 2 ^ 1 + (popcount256 s.ones).sum = s.val := by
    unfold HsSt.val
    simp only [sp]
    omega
  rw [hv] at s5
  obtain ⟨t, et, vt⟩ := hsTail_spec h (size % 16) (size - size % 16) _ (by omega) l5 (s5.trans v)
  unfold harleySeal
  simp only
  rw [e, ok_bind]
  simp only
  rw [et, ok_bind]
  simp only
  have hw : popTo 4 W size = popAll W := by
    unfold popTo
    rw [List.take_of_length_le (Nat.le_of_eq h.len)]
  rw [hw] at vt
  have : t.sum % 2 ^ 64 = popAll W := by
    unfold MEq at vt
    rw [vt, Nat.mod_eq_of_lt hsmall]
  rw [this]

end CRoaring
