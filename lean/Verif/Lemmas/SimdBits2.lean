import Verif.Lemmas.SimdBits
set_option linter.unusedSimpArgs false
set_option linter.unusedVariables false
/-
Population counts by AVX-512, NEON and scalar code; the operations of bitset containers.
-/
namespace CRoaring
open Spec

variable {blk : Blk} {size : Nat} {W : List Word} {M : Nat → List Word}

theorem popTo_size {n : Nat} (h : BlkOK blk n size W M) : popTo n W size = popAll W := by
  unfold popTo
  rw [List.take_of_length_le (Nat.le_of_eq h.len)]

/-! ### AVX-512 -/

theorem vpopStep_spec (h : BlkOK blk 8 size W M) {i : Nat} (hi : i < size) {t : List Nat} (ht : t.length = 8) (hv : MEq (2 ^ 64) t.sum (popTo 8 W i)) :
    ∃ t', vpopStep blk i (t, M i) = .ok (t', M (i + 1)) ∧ t'.length = 8 ∧ MEq (2 ^ 64) t'.sum (popTo 8 W (i + 1)) := by
  have hl : (((W.drop (8 * i)).take 8).map popcount).length = 8 := by rw [List.length_map, h.blen hi]
  refine ⟨addLanes (2 ^ 64) t (((W.drop (8 * i)).take 8).map popcount), ?_, addLanes_len ht hl, ?_⟩
  · unfold vpopStep
    simp only
    rw [h.step i hi, ok_bind]
  · unfold popTo
    rw [popAll_step]
    exact (sum_addLanes (ht.trans hl.symm)).trans (hv.add_right _)

theorem vpopLoop_spec (h : BlkOK blk 8 size W M) : ∀ (k i : Nat) (t : List Nat), i + 4 * k ≤ size → t.length = 8 → MEq (2 ^ 64) t.sum (popTo 8 W i) →
    ∃ t', vpopLoop blk k i (t, M i) = .ok (t', M (i + 4 * k)) ∧ t'.length = 8 ∧ MEq (2 ^ 64) t'.sum (popTo 8 W (i + 4 * k)) := by
  intro k
  induction k with
  | zero => intro i t hi ht hv; exact ⟨t, rfl, ht, hv⟩
  | succ k ih =>
    intro i t hi ht hv
    obtain ⟨t1, e1, l1, v1⟩ := vpopStep_spec h (show i < size by omega) ht hv
    obtain ⟨t2, e2, l2, v2⟩ := vpopStep_spec h (show i + 1 < size by omega) l1 v1
    obtain ⟨t3, e3, l3, v3⟩ := vpopStep_spec h (show i + 2 < size by omega) l2 v2
    obtain ⟨t4, e4, l4, v4⟩ := vpopStep_spec h (show i + 3 < size by omega) l3 v3
    obtain ⟨t5, e5, l5, v5⟩ := ih (i + 4) t4 (by omega) l4 v4
    rw [show i + 4 + 4 * k = i + 4 * (k + 1) by omega] at e5 v5
    refine ⟨t5, ?_, l5, v5⟩
    rw [vpopLoop, e1, ok_bind, e2, ok_bind, e3, ok_bind, e4, ok_bind]
    exact e5

theorem vpopTail_spec (h : BlkOK blk 8 size W M) : ∀ (k i : Nat) (t : List Nat), i + k = size → t.length = 8 → MEq (2 ^ 64) t.sum (popTo 8 W i) →
    ∃ t', vpopTail blk k i (t, M i) = .ok (t', M size) ∧ MEq (2 ^ 64) t'.sum (popTo 8 W size) := by
  intro k
  induction k with
  | zero => intro i t hi ht hv; rw [Nat.add_zero] at hi; subst hi; exact ⟨t, rfl, hv⟩
  | succ k ih =>
    intro i t hi ht hv
    obtain ⟨t1, e1, l1, v1⟩ := vpopStep_spec h (show i < size by omega) ht hv
    obtain ⟨t5, e5, v5⟩ := ih (i + 1) t1 (by omega) l1 v1
    exact ⟨t5, by rw [vpopTail, e1, ok_bind, e5], v5⟩

theorem vpopcount_spec (h : BlkOK blk 8 size W M) (hsmall : popAll W < 2 ^ 64) : vpopcount blk size (M 0) = .ok (popAll W, M size) := by
  obtain ⟨t, e, l, v⟩ := vpopLoop_spec h (size / 4) 0 (List.replicate 8 0) (by omega) rfl (by unfold popTo; simp [popAll, MEq])
  rw [show 0 + 4 * (size / 4) = size - size % 4 by omega] at e v
  obtain ⟨t', e', v'⟩ := vpopTail_spec h (size % 4) (size - size % 4) t (by omega) l v
  unfold vpopcount
  rw [e, ok_bind]
  rw [e', ok_bind]
  rw [popTo_size h] at v'
  have hs : (t'.take 4).sum + (t'.drop 4).sum = t'.sum := by
    rw [← List.sum_append, List.take_append_drop]
  simp only
  unfold MEq at v'
  congr 2
  omega

/-! ### NEON -/

theorem vcnt_row : ∀ b < 256, (List.range 8).countP (fun i => b.testBit i) = (byteBits b).length := by
  intro b _
  rw [List.countP_eq_length_filter]
  rfl

theorem vcnt_spec (v : List Word) : (vcntqU8 v).sum = popAll v ∧ (vcntqU8 v).length = 8 * v.length ∧ ∀ x ∈ vcntqU8 v, x ≤ 8 := by
  induction v with
  | nil => exact ⟨rfl, rfl, by simp [vcntqU8]⟩
  | cons w t ih =>
    have hc : vcntqU8 (w :: t) = (bytesW w).map (fun b => (List.range 8).countP (fun i => b.testBit i)) ++ vcntqU8 t := rfl
    have hm : (bytesW w).map (fun b => (List.range 8).countP (fun i => b.testBit i)) = (bytesW w).map (fun b => (byteBits b).length) :=
      List.map_congr_left fun b hb => vcnt_row b (bytesW_lt w b hb)
    rw [hc, hm]
    refine ⟨?_, ?_, ?_⟩
    · rw [List.sum_append, ih.1, ← popcount_bytes]
      rfl
    · rw [List.length_append, ih.2.1, List.length_map, bytesW_length, List.length_cons]
      omega
    · intro x hx
      rcases List.mem_append.1 hx with hx | hx
      · obtain ⟨b, _, rfl⟩ := List.mem_map.1 hx
        exact byteBits_length b
      · exact ih.2.2 x hx

theorem vpaddlq_spec (c : Nat) : ∀ (k : Nat) (l : List Nat), l.length = 2 * k → (∀ x ∈ l, x ≤ c) →
    (vpaddlq l).sum = l.sum ∧ (vpaddlq l).length = k ∧ ∀ x ∈ vpaddlq l, x ≤ 2 * c := by
  intro k
  induction k with
  | zero =>
    intro l hl _
    have : l = [] := List.length_eq_zero_iff.1 (by omega)
    subst this
    exact ⟨rfl, rfl, by simp [vpaddlq]⟩
  | succ k ih =>
    intro l hl hx
    match l, hl, hx with
    | a :: b :: t, hl, hx =>
      have := ih t (by simp only [List.length_cons] at hl; omega) (fun x h => hx x (by simp [h]))
      have ha := hx a (by simp)
      have hb := hx b (by simp)
      rw [vpaddlq]
      refine ⟨by simp only [List.sum_cons, this.1]; omega, by rw [List.length_cons, this.2.1], ?_⟩
      intro x hx
      rcases List.mem_cons.1 hx with rfl | hx
      · omega
      · exact this.2.2 x hx
    | [_], hl, _ => simp only [List.length_cons, List.length_nil] at hl; omega
    | [], hl, _ => simp only [List.length_nil] at hl; omega

theorem addLanes_exact {m c d : Nat} (hcd : c + d < m) : ∀ {a b : List Nat}, a.length = b.length → (∀ x ∈ a, x ≤ c) → (∀ x ∈ b, x ≤ d) →
    (addLanes m a b).sum = a.sum + b.sum ∧ ∀ x ∈ addLanes m a b, x ≤ c + d
  | [], [], _, _, _ => by simp [addLanes]
  | x :: a, y :: b, h, hx, hy => by
    have ih := addLanes_exact hcd (a := a) (b := b) (by simpa using h) (fun z hz => hx z (by simp [hz])) (fun z hz => hy z (by simp [hz]))
    have h1 := hx x (by simp)
    have h2 := hy y (by simp)
    have h3 : (x + y) % m = x + y := Nat.mod_eq_of_lt (by omega)
    unfold addLanes at ih ⊢
    simp only [List.zipWith_cons_cons, List.sum_cons, h3, ih.1]
    refine ⟨by omega, fun z hz => ?_⟩
    rcases List.mem_cons.1 hz with rfl | hz
    · omega
    · exact ih.2 z hz
  | [], _ :: _, h, _, _ => by simp at h
  | _ :: _, [], h, _, _ => by simp at h

theorem neonStep_spec (h : BlkOK blk 2 size W M) {i c : Nat} (hi : i < size) {n : List Nat} (hn : n.length = 8) (hx : ∀ x ∈ n, x ≤ c) (hc : c + 16 < 65536) :
    ∃ n', neonStep blk i n (M i) = .ok (n', M (i + 1)) ∧ n'.length = 8 ∧ (∀ x ∈ n', x ≤ c + 16) ∧
      n'.sum + popTo 2 W i = n.sum + popTo 2 W (i + 1) := by
  have hv := vcnt_spec ((W.drop (2 * i)).take 2)
  have hp := vpaddlq_spec 8 8 (vcntqU8 ((W.drop (2 * i)).take 2)) (by rw [hv.2.1, h.blen hi]) hv.2.2
  have ha := addLanes_exact hc (hn.trans hp.2.1.symm) hx hp.2.2
  refine ⟨_, ?_, addLanes_len hn hp.2.1, ha.2, ?_⟩
  · unfold neonStep
    rw [h.step i hi, ok_bind]
  · unfold popTo
    rw [popAll_step, ha.1, hp.1, hv.1]
    omega

theorem neonLoop_spec (h : BlkOK blk 2 size W M) : ∀ (k i c : Nat) (n0 n1 n2 n3 : List Nat), i + 4 * k = size → c + 16 * k < 65536 →
    (n0.length = 8 ∧ ∀ x ∈ n0, x ≤ c) → (n1.length = 8 ∧ ∀ x ∈ n1, x ≤ c) → (n2.length = 8 ∧ ∀ x ∈ n2, x ≤ c) → (n3.length = 8 ∧ ∀ x ∈ n3, x ≤ c) →
    ∃ m0 m1 m2 m3, neonLoop blk k i n0 n1 n2 n3 (M i) = .ok ([m0, m1, m2, m3], M size) ∧
      (m0.length = 8 ∧ m1.length = 8 ∧ m2.length = 8 ∧ m3.length = 8) ∧
      m0.sum + m1.sum + m2.sum + m3.sum + popTo 2 W i = n0.sum + n1.sum + n2.sum + n3.sum + popTo 2 W size := by
  intro k
  induction k with
  | zero =>
    intro i c n0 n1 n2 n3 hi _ h0 h1 h2 h3
    have : i = size := by omega
    subst this
    exact ⟨n0, n1, n2, n3, rfl, ⟨h0.1, h1.1, h2.1, h3.1⟩, rfl⟩
  | succ k ih =>
    intro i c n0 n1 n2 n3 hi hc h0 h1 h2 h3
    obtain ⟨a0, e0, l0, x0, s0⟩ := neonStep_spec h (show i < size by omega) h0.1 h0.2 (by omega)
    obtain ⟨a1, e1, l1, x1, s1⟩ := neonStep_spec h (show i + 1 < size by omega) h1.1 h1.2 (by omega)
    obtain ⟨a2, e2, l2, x2, s2⟩ := neonStep_spec h (show i + 2 < size by omega) h2.1 h2.2 (by omega)
    obtain ⟨a3, e3, l3, x3, s3⟩ := neonStep_spec h (show i + 3 < size by omega) h3.1 h3.2 (by omega)
    obtain ⟨m0, m1, m2, m3, e, l, s⟩ := ih (i + 4) (c + 16) a0 a1 a2 a3 (by omega) (by omega) ⟨l0, x0⟩ ⟨l1, x1⟩ ⟨l2, x2⟩ ⟨l3, x3⟩
    refine ⟨m0, m1, m2, m3, ?_, l, ?_⟩
    · rw [neonLoop, e0, ok_bind]
      simp only
      rw [e1, ok_bind]
      simp only
      rw [e2, ok_bind]
      simp only
      rw [e3, ok_bind]
      exact e
    · rw [show i + 1 + 1 = i + 2 from rfl] at s1
      rw [show i + 2 + 1 = i + 3 from rfl] at s2
      rw [show i + 3 + 1 = i + 4 from rfl] at s3
      omega

theorem mem_le_sum : ∀ (l : List Nat) (x : Nat), x ∈ l → x ≤ l.sum
  | a :: t, x, h => by
    rcases List.mem_cons.1 h with rfl | h
    · simp
    · have := mem_le_sum t x h
      rw [List.sum_cons]
      omega

theorem vpad2 {a : List Nat} (h : a.length = 8) : (vpaddlq (vpaddlq a)).sum = a.sum ∧ (vpaddlq (vpaddlq a)).length = 2 := by
  have hb : ∀ x ∈ a, x ≤ a.sum := fun x hx => mem_le_sum a x hx
  have h1 := vpaddlq_spec a.sum 4 a h hb
  have h2 := vpaddlq_spec (2 * a.sum) 2 (vpaddlq a) h1.2.1 h1.2.2
  exact ⟨h2.1.trans h1.1, h2.2.1⟩

theorem neonCount_spec (h : BlkOK blk 2 size W M) (h4 : size % 4 = 0) (hs : size < 16384) (hsmall : popAll W < 2 ^ 64) :
    neonCount blk size (M 0) = .ok (popAll W, M size) := by
  have z : (List.replicate 8 0).length = 8 ∧ ∀ x ∈ List.replicate 8 0, x ≤ 0 := by decide
  obtain ⟨m0, m1, m2, m3, e, ⟨l0, l1, l2, l3⟩, s⟩ := neonLoop_spec h (size / 4) 0 0 (List.replicate 8 0) (List.replicate 8 0) (List.replicate 8 0) (List.replicate 8 0)
    (by omega) (by omega) z z z z
  unfold neonCount
  simp only
  rw [e, ok_bind]
  simp only
  rw [popTo_size h] at s
  have hz : popTo 2 W 0 = 0 := by simp [popTo, popAll]
  have hz8 : (List.replicate 8 0).sum = 0 := by decide
  rw [hz, hz8] at s
  have v0 := vpad2 l0
  have v1 := vpad2 l1
  have v2 := vpad2 l2
  have v3 := vpad2 l3
  have k0 := addLanes_len (m := 2 ^ 64) (show (List.replicate 2 0).length = 2 from rfl) v0.2
  have k1 := addLanes_len (m := 2 ^ 64) k0 v1.2
  have k2 := addLanes_len (m := 2 ^ 64) k1 v2.2
  have s0 := sum_addLanes (m := 2 ^ 64) ((show (List.replicate 2 0).length = 2 from rfl).trans v0.2.symm)
  have s1 := (sum_addLanes (m := 2 ^ 64) (k0.trans v1.2.symm)).trans (s0.add_right _)
  have s2 := (sum_addLanes (m := 2 ^ 64) (k1.trans v2.2.symm)).trans (s1.add_right _)
  have s3 := (sum_addLanes (m := 2 ^ 64) (k2.trans v3.2.symm)).trans (s2.add_right _)
  have hsum : (neonSum (List.replicate 2 0) [m0, m1, m2, m3]).sum % 2 ^ 64 = popAll W := by
    simp only [neonSum]
    refine Eq.trans s3 ?_
    rw [v0.1, v1.1, v2.1, v3.1, show (List.replicate 2 0).sum = 0 from rfl]
    rw [Nat.mod_eq_of_lt] <;> omega
  rw [hsum]

/-! ### Scalar code, and no counting -/

theorem scalarLoop_spec (h : BlkOK blk 1 size W M) : ∀ (k i s : Nat), i + k = size →
    scalarLoop blk k i s (M i) = .ok (s + popAll (W.drop i), M size) := by
  intro k
  induction k with
  | zero =>
    intro i s hi
    have : i = size := by omega
    subst this
    rw [scalarLoop, List.drop_of_length_le (by rw [h.len]; omega)]
    simp [popAll]
  | succ k ih =>
    intro i s hi
    rw [scalarLoop, h.step i (by omega), ok_bind]
    simp only
    rw [ih (i + 1) _ (by omega)]
    have hd : popAll (W.drop i) = popAll ((W.drop (1 * i)).take 1) + popAll (W.drop (i + 1)) := by
      rw [← popAll_append, Nat.one_mul]
      congr 1
      rw [← List.drop_drop, List.take_append_drop]
    rw [hd]
    unfold popAll
    congr 2
    omega

theorem storeLoop_spec {n : Nat} (h : BlkOK blk n size W M) : ∀ (k i : Nat), i + k = size → storeLoop blk k i (M i) = .ok (M size) := by
  intro k
  induction k with
  | zero =>
    intro i hi
    have : i = size := by omega
    subst this
    rfl
  | succ k ih =>
    intro i hi
    rw [storeLoop, h.step i (by omega), ok_bind]
    exact ih (i + 1) (by omega)

/-! ### The blocks of the operations -/

theorem loadW_ok {n : Nat} {a : List Word} {i : Nat} (h : n * i + n ≤ a.length) : loadW n a i = .ok ((a.drop (n * i)).take n) := by
  unfold loadW
  rw [if_pos h]

theorem avx_sym (op : BitOp) (a b : Word) : op.avx b a = op.sym a b := by
  cases op
  · exact BitVec.or_comm _ _
  · exact BitVec.and_comm _ _
  · exact BitVec.xor_comm _ _
  · exact BitVec.and_comm _ _

theorem neon_sym (op : BitOp) (a b : Word) : op.neon a b = op.sym a b := by cases op <;> rfl

theorem zipWith_swap {f g : Word → Word → Word} (h : ∀ a b, g b a = f a b) : ∀ (a b : List Word), List.zipWith g b a = List.zipWith f a b
  | [], b => by cases b <;> rfl
  | _ :: _, [] => rfl
  | x :: a, y :: b => by rw [List.zipWith_cons_cons, List.zipWith_cons_cons, h, zipWith_swap h a b]

theorem opBlock_ok {m : Machine} {op : BitOp} {d1 d2 : List Word → List Word} {i : Nat} {mem : List Word}
    (h1 : m.lanes * i + m.lanes ≤ (d1 mem).length) (h2 : m.lanes * i + m.lanes ≤ (d2 mem).length) :
    opBlock m op d1 d2 i mem = .ok (List.zipWith op.sym (((d1 mem).drop (m.lanes * i)).take m.lanes) (((d2 mem).drop (m.lanes * i)).take m.lanes)) := by
  unfold opBlock
  rw [loadW_ok h1, ok_bind, loadW_ok h2, ok_bind]
  cases m
  · simp only; rw [zipWith_swap (avx_sym op)]
  · simp only; rw [zipWith_swap (avx_sym op)]
  · simp only; rw [show op.neon = op.sym from by funext a b; exact neon_sym op a b]
  · rfl

/-- A source that is another container, or the destination itself. -/
def SrcOK (d : List Word → List Word) (ws dst : List Word) : Prop := (d = fun _ => ws) ∨ (d = id ∧ ws = dst)

theorem SrcOK.drop {d : List Word → List Word} {ws dst : List Word} (h : SrcOK d ws dst) {v : List Word} {p : Nat} (hv : v.length = p) (hp : p ≤ dst.length)
    (hl : ws.length = dst.length) : (d (v ++ dst.drop p)).drop p = ws.drop p ∧ (d (v ++ dst.drop p)).length = ws.length := by
  rcases h with h | ⟨h, h'⟩
  · rw [h]; exact ⟨rfl, rfl⟩
  · rw [h, h']
    simp only [id]
    rw [List.drop_append, List.drop_of_length_le (by omega), List.nil_append, hv, Nat.sub_self, List.drop_zero, List.length_append, List.length_drop]
    exact ⟨rfl, by omega⟩

theorem blkStore_ok {m : Machine} {op : BitOp} {d1 d2 : List Word → List Word} {w1 w2 dst : List Word} (hm : 1024 = m.lanes * (1024 / m.lanes))
    (l1 : w1.length = 1024) (l2 : w2.length = 1024) (l3 : dst.length = 1024) (h1 : SrcOK d1 w1 dst) (h2 : SrcOK d2 w2 dst) :
    BlkOK (blkStore m op d1 d2) m.lanes (1024 / m.lanes) (List.zipWith op.sym w1 w2)
      (fun i => (List.zipWith op.sym w1 w2).take (m.lanes * i) ++ dst.drop (m.lanes * i)) := by
  have hW : (List.zipWith op.sym w1 w2).length = 1024 := by rw [List.length_zipWith, l1, l2]; rfl
  refine ⟨by rw [hW]; exact hm, fun i hi => ?_⟩
  have hb : m.lanes * i + m.lanes ≤ 1024 := by
    have : m.lanes * (i + 1) ≤ m.lanes * (1024 / m.lanes) := Nat.mul_le_mul_left _ hi
    rw [Nat.mul_add] at this
    omega
  have hv : ((List.zipWith op.sym w1 w2).take (m.lanes * i)).length = m.lanes * i := by rw [List.length_take, hW]; omega
  obtain ⟨s1, t1⟩ := h1.drop hv (by omega) (by omega)
  obtain ⟨s2, t2⟩ := h2.drop hv (by omega) (by omega)
  unfold blkStore
  rw [opBlock_ok (by rw [t1]; omega) (by rw [t2]; omega), ok_bind, s1, s2, ← List.take_zipWith, ← List.drop_zipWith]
  have hlen : (((List.zipWith op.sym w1 w2).drop (m.lanes * i)).take m.lanes).length = m.lanes := by
    rw [List.length_take, List.length_drop, hW]; omega
  unfold storeW
  rw [hlen, if_pos (by rw [List.length_append, hv, List.length_drop]; omega), ok_bind]
  congr 2
  generalize List.zipWith op.sym w1 w2 = Z at *
  have e1 : (Z.take (m.lanes * i) ++ dst.drop (m.lanes * i)).take (m.lanes * i) = Z.take (m.lanes * i) := by
    rw [List.take_append_of_le_length (by omega), List.take_take, Nat.min_self]
  have e2 : (Z.take (m.lanes * i) ++ dst.drop (m.lanes * i)).drop (m.lanes * i + m.lanes) = dst.drop (m.lanes * i + m.lanes) := by
    rw [List.drop_append, List.drop_of_length_le (by omega), List.nil_append, hv, List.drop_drop]
    congr 1
    omega
  rw [e1, e2, ← List.take_add, Nat.mul_add, Nat.mul_one]

theorem blkOp_ok {m : Machine} {op : BitOp} {w1 w2 : List Word} (hm : 1024 = m.lanes * (1024 / m.lanes))
    (l1 : w1.length = 1024) (l2 : w2.length = 1024) (mem : List Word) :
    BlkOK (blkOp m op (fun _ => w1) (fun _ => w2)) m.lanes (1024 / m.lanes) (List.zipWith op.sym w1 w2) (fun _ => mem) := by
  have hW : (List.zipWith op.sym w1 w2).length = 1024 := by rw [List.length_zipWith, l1, l2]; rfl
  refine ⟨by rw [hW]; exact hm, fun i hi => ?_⟩
  have hb : m.lanes * i + m.lanes ≤ 1024 := by
    have : m.lanes * (i + 1) ≤ m.lanes * (1024 / m.lanes) := Nat.mul_le_mul_left _ hi
    rw [Nat.mul_add] at this
    omega
  unfold blkOp
  rw [opBlock_ok (by omega) (by omega), ok_bind, ← List.take_zipWith, ← List.drop_zipWith]

theorem blkLoad_ok {n : Nat} {ws : List Word} (hn : 1024 = n * (1024 / n)) (hl : ws.length = 1024) (mem : List Word) :
    BlkOK (blkLoad n ws) n (1024 / n) ws (fun _ => mem) := by
  refine ⟨by rw [hl]; exact hn, fun i hi => ?_⟩
  have hb : n * i + n ≤ 1024 := by
    have : n * (i + 1) ≤ n * (1024 / n) := Nat.mul_le_mul_left _ hi
    rw [Nat.mul_add] at this
    omega
  unfold blkLoad
  rw [loadW_ok (by omega), ok_bind]

theorem lanes_mul (m : Machine) : 1024 = m.lanes * (1024 / m.lanes) := by cases m <;> rfl

theorem popAll_le (ws : List Word) : popAll ws ≤ 64 * ws.length := by
  rw [popAll_eq_card]
  exact card_le _ _

theorem countBlocks_spec {m : Machine} (h : BlkOK blk m.lanes (1024 / m.lanes) W M) (hW : W.length = 1024) :
    countBlocks m blk (M 0) = .ok (popAll W, M (1024 / m.lanes)) := by
  have hs := popAll_le W
  rw [hW] at hs
  unfold countBlocks
  cases m
  · exact vpopcount_spec h (by omega)
  · exact harleySeal_spec h (by omega)
  · exact neonCount_spec h (by decide) (by decide) (by omega)
  · have := scalarLoop_spec h 1024 0 0 rfl
    rw [Nat.zero_add, List.drop_zero] at this
    exact this

theorem i32of_small {n : Nat} (h : n ≤ 65536) : i32of n = n := by
  unfold i32of toI32
  rw [Nat.mod_eq_of_lt (by omega), if_pos (by omega)]

theorem computeCard_popAll {ws : List Word} (h : ws.length = 1024) : computeCard ws = popAll ws := by
  unfold computeCard
  rw [popWords_zero_eq, popAll_eq_card, h]
  rfl

/-- `bitset_container_or` and so on, with the destination new, or one of the operands. -/
theorem bitsetOpMem_spec (m : Machine) (op : BitOp) {d1 d2 : List Word → List Word} {w1 w2 dst : List Word}
    (l1 : w1.length = 1024) (l2 : w2.length = 1024) (l3 : dst.length = 1024) (h1 : SrcOK d1 w1 dst) (h2 : SrcOK d2 w2 dst) :
    bitsetOpMem m op d1 d2 dst = .ok { card := (popAll (List.zipWith op.sym w1 w2) : Nat), words := List.zipWith op.sym w1 w2 } := by
  have hW : (List.zipWith op.sym w1 w2).length = 1024 := by rw [List.length_zipWith, l1, l2]; rfl
  have hb := countBlocks_spec (blkStore_ok (op := op) (lanes_mul m) l1 l2 l3 h1 h2) hW
  simp only [Nat.mul_zero, List.take_zero, List.nil_append, List.drop_zero] at hb
  rw [← lanes_mul m, List.take_of_length_le (by omega), List.drop_of_length_le (by omega), List.append_nil] at hb
  have hs := popAll_le (List.zipWith op.sym w1 w2)
  unfold bitsetOpMem
  rw [hb, ok_bind]
  simp only
  rw [i32of_small (by omega)]

theorem bitsetOpNocardMem_spec (m : Machine) (op : BitOp) {d1 d2 : List Word → List Word} {w1 w2 dst : List Word}
    (l1 : w1.length = 1024) (l2 : w2.length = 1024) (l3 : dst.length = 1024) (h1 : SrcOK d1 w1 dst) (h2 : SrcOK d2 w2 dst) :
    bitsetOpNocardMem m op d1 d2 dst = .ok { card := UNKNOWN_CARD, words := List.zipWith op.sym w1 w2 } := by
  have hW : (List.zipWith op.sym w1 w2).length = 1024 := by rw [List.length_zipWith, l1, l2]; rfl
  have hb := storeLoop_spec (blkStore_ok (op := op) (lanes_mul m) l1 l2 l3 h1 h2) (1024 / m.lanes) 0 (Nat.zero_add _)
  simp only [Nat.mul_zero, List.take_zero, List.nil_append, List.drop_zero] at hb
  rw [← lanes_mul m, List.take_of_length_le (by omega), List.drop_of_length_le (by omega), List.append_nil] at hb
  unfold bitsetOpNocardMem
  rw [hb, ok_bind]

theorem bitsetOpJustcardMem_spec (m : Machine) (op : BitOp) {w1 w2 : List Word} (l1 : w1.length = 1024) (l2 : w2.length = 1024) :
    bitsetOpJustcardMem m op w1 w2 = .ok (popAll (List.zipWith op.sym w1 w2) : Nat) := by
  have hW : (List.zipWith op.sym w1 w2).length = 1024 := by rw [List.length_zipWith, l1, l2]; rfl
  have hb := countBlocks_spec (blkOp_ok (op := op) (lanes_mul m) l1 l2 []) hW
  have hs := popAll_le (List.zipWith op.sym w1 w2)
  unfold bitsetOpJustcardMem
  rw [hb, ok_bind]
  simp only
  rw [i32of_small (by omega)]

theorem computeCardMem_spec (m : Machine) {ws : List Word} (hl : ws.length = 1024) : computeCardMem m ws = .ok (popAll ws : Nat) := by
  have hb := countBlocks_spec (m := m) (blkLoad_ok (lanes_mul m) hl []) hl
  have hs := popAll_le ws
  unfold computeCardMem
  rw [hb, ok_bind]
  simp only
  rw [i32of_small (by omega)]

end CRoaring
