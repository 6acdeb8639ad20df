import Verif.Model.SimdExtract
import Verif.Lemmas.Simd
import Verif.Lemmas.Bits
import Verif.Lemmas.Count
import Verif.Lemmas.Serial
set_option linter.unusedSimpArgs false
set_option linter.unusedVariables false
/-
Enumeration into memory: invariant of the output buffer and the loops over bitsets.
-/
namespace CRoaring
open Spec

/-- What has been written: `vals` from `pos0` on, nothing in front of it and nothing from `safe` on. -/
structure Filled (mem0 : List Nat) (pos0 safe : Nat) (vals mem : List Nat) (pos : Nat) : Prop where
  len : mem.length = mem0.length
  at_ : pos = pos0 + vals.length
  pre : mem.take pos = mem0.take pos0 ++ vals
  post : mem.drop safe = mem0.drop safe

theorem Filled.start (mem : List Nat) (pos safe : Nat) : Filled mem pos safe [] mem pos :=
  ⟨rfl, by simp, by simp, rfl⟩

theorem Filled.store {mem0 mem vals : List Nat} {pos0 safe pos : Nat} (h : Filled mem0 pos0 safe vals mem pos)
    {v : List Nat} {n : Nat} (hn : n ≤ v.length) (hs : pos + v.length ≤ safe) (hm : safe ≤ mem0.length) :
    ∃ mem', storeu mem pos v = .ok mem' ∧ Filled mem0 pos0 safe (vals ++ v.take n) mem' (pos + n) := by
  have hl := h.len
  have hp : (mem.take pos).length = pos := by rw [List.length_take]; omega
  refine ⟨mem.take pos ++ v ++ mem.drop (pos + v.length), ?_, ?_⟩
  · unfold storeu
    rw [if_pos (by omega)]
  · refine ⟨?_, ?_, ?_, ?_⟩
    · simp only [List.length_append, List.length_take, List.length_drop]; omega
    · have := h.at_
      rw [List.length_append, List.length_take]; omega
    · rw [List.append_assoc, List.take_append, hp, List.take_of_length_le (by omega), h.pre, List.append_assoc]
      congr 2
      rw [show pos + n - pos = n by omega, List.take_append_of_le_length hn]
    · rw [List.drop_append, List.drop_of_length_le (by simp only [List.length_append, List.length_take]; omega), List.nil_append, List.drop_drop]
      rw [← h.post]
      congr 1
      simp only [List.length_append, List.length_take]; omega

theorem storeu_one (mem : List Nat) (pos x : Nat) : write16 mem pos x = storeu mem pos [x] := by
  unfold write16 storeu
  by_cases h : pos < mem.length
  · rw [if_pos h, if_pos (by simp only [List.length_singleton]; omega)]
    rw [List.set_eq_take_append_cons_drop, if_pos h]
    simp
  · rw [if_neg h, if_neg (by simp only [List.length_singleton]; omega)]

theorem Filled.write {mem0 mem vals : List Nat} {pos0 safe pos : Nat} (h : Filled mem0 pos0 safe vals mem pos)
    (x : Nat) (hs : pos < safe) (hm : safe ≤ mem0.length) :
    ∃ mem', write16 mem pos x = .ok mem' ∧ Filled mem0 pos0 safe (vals ++ [x]) mem' (pos + 1) := by
  rw [storeu_one]
  exact h.store (v := [x]) (n := 1) (by simp) (by simp; omega) hm

/-- The positions of the set bits of a word. -/
def wordBits (w : Word) : List Nat := (List.range 64).filter (fun i => w.getLsbD i)

theorem extractWord_bits (w : Word) (base : Nat) : extractWord w base = (wordBits w).map (fun i => base + i) := by
  have h1 := extractWord_sorted w base
  have h2 : SSorted ((wordBits w).map (fun i => base + i)) := by
    unfold SSorted
    rw [List.pairwise_map]
    exact ((List.pairwise_lt_range (n := 64)).filter _).imp (fun h => by omega)
  refine sorted_ext h1 h2 fun x => ?_
  rw [mem_extractWord]
  unfold wordBits
  simp only [List.mem_map, List.mem_filter, List.mem_range]
  constructor
  · rintro ⟨a, b, c⟩
    exact ⟨x - base, ⟨by omega, c⟩, by omega⟩
  · rintro ⟨i, ⟨a, b⟩, rfl⟩
    exact ⟨by omega, by omega, by rw [Nat.add_sub_cancel_left]; exact b⟩

theorem wordBits_length (w : Word) : (wordBits w).length = popcount w := by
  unfold wordBits popcount
  rw [List.countP_eq_length_filter]

/-! ### The scalar loops -/

theorem extractWordMem_spec {m safe : Nat} {mem0 : List Nat} {pos0 : Nat} (hm : safe ≤ mem0.length) (b base : Nat) (hb : b % m = base % m) :
    ∀ (w : Word) (mem vals : List Nat) (pos : Nat), Filled mem0 pos0 safe vals mem pos →
    ∃ mem' pos', extractWordMem m safe w b mem pos = .ok (mem', pos') ∧
      Filled mem0 pos0 safe (vals ++ ((extractWord w base).map (· % m)).take (safe - pos)) mem' pos' := by
  intro w
  induction hn : w.toNat using Nat.strongRecOn generalizing w with
  | _ n ih =>
    intro mem vals pos h
    rw [extractWordMem, extractWord]
    by_cases hw : w = 0#64
    · rw [dif_pos hw, dif_pos hw]
      exact ⟨mem, pos, rfl, by simpa using h⟩
    · rw [dif_neg hw, dif_neg hw]
      by_cases hp : pos < safe
      · rw [if_pos hp]
        obtain ⟨mem1, e1, f1⟩ := h.write ((ctz w + b) % m) hp hm
        rw [e1]
        simp only
        obtain ⟨mem2, pos2, e2, f2⟩ := ih _ (by rw [← hn]; exact clearLowest_lt hw) (w &&& (w - 1#64)) rfl mem1 _ (pos + 1) f1
        refine ⟨mem2, pos2, e2, ?_⟩
        rw [List.append_assoc] at f2
        have he : (ctz w + b) % m = (ctz w + base) % m := by
          rw [Nat.add_mod, hb, ← Nat.add_mod]
        rw [he] at f2
        rw [show safe - pos = (safe - (pos + 1)) + 1 by omega, List.map_cons, List.take_succ_cons]
        exact f2
      · rw [if_neg hp]
        exact ⟨mem, pos, rfl, by rw [show safe - pos = 0 by omega]; simpa using h⟩

theorem extractTailMem_spec {m safe : Nat} {mem0 : List Nat} {pos0 : Nat} (hm : safe ≤ mem0.length) :
    ∀ (ws : List Word) (b base : Nat) (_ : b % m = base % m) (mem vals : List Nat) (pos : Nat), Filled mem0 pos0 safe vals mem pos →
    ∃ mem' pos', extractTailMem m safe ws b mem pos = .ok (mem', pos') ∧
      Filled mem0 pos0 safe (vals ++ ((extractSetbits ws base).map (· % m)).take (safe - pos)) mem' pos' := by
  intro ws
  induction ws with
  | nil =>
    intro b base hb mem vals pos h
    exact ⟨mem, pos, rfl, by simpa [extractSetbits] using h⟩
  | cons w ws ih =>
    intro b base hb mem vals pos h
    rw [extractTailMem, extractSetbits]
    by_cases hp : pos < safe
    · rw [if_pos hp]
      obtain ⟨mem1, pos1, e1, f1⟩ := extractWordMem_spec hm b base hb w mem vals pos h
      rw [e1]
      simp only [ok_bind]
      obtain ⟨mem2, pos2, e2, f2⟩ := ih ((b + 64) % m) (base + 64) (by rw [Nat.mod_mod, Nat.add_mod, hb, ← Nat.add_mod]) mem1 _ pos1 f1
      refine ⟨mem2, pos2, e2, ?_⟩
      have hpos := f1.at_
      have hpos0 := h.at_
      rw [List.length_append, List.length_take] at hpos
      rw [List.append_assoc] at f2
      rw [List.map_append, List.take_append]
      have hx : ((extractSetbits ws (base + 64)).map (· % m)).take (safe - pos1)
          = ((extractSetbits ws (base + 64)).map (· % m)).take (safe - pos - ((extractWord w base).map (· % m)).length) := by
        congr 1
        omega
      rw [hx] at f2
      exact f2
    · rw [if_neg hp]
      exact ⟨mem, pos, rfl, by rw [show safe - pos = 0 by omega]; simpa using h⟩

/-! ### Two bytes at a time -/

def byteBits (b : Nat) : List Nat := (List.range 8).filter (fun i => b.testBit i)

theorem decode_row : ∀ b < 256, vecDecodeTable.getD b [] = (byteBits b).map (· + 1) ++ List.replicate (8 - (byteBits b).length) 0 := by
  decide +kernel

theorem decode16_row : ∀ b < 256, vecDecodeTable16.getD b [] = (byteBits b).map (· + 1) ++ List.replicate (8 - (byteBits b).length) 0 := by
  decide +kernel

theorem length_row : ∀ b < 256, lengthTable.getD b 0 = (byteBits b).length := by
  decide +kernel

theorem byteBits_length (b : Nat) : (byteBits b).length ≤ 8 := by
  have := List.length_filter_le (fun i => b.testBit i) (List.range 8)
  rw [List.length_range] at this
  exact this

/-- `baseVec` when the next bit stands for `b`. -/
def baseAt (m b : Nat) : List Nat := List.replicate 8 ((b + (m - 1)) % m)

theorem baseAt_add {m : Nat} (b k : Nat) : addLanes m (baseAt m b) (set1 m 8 k) = baseAt m (b + k) := by
  unfold addLanes baseAt set1
  rw [List.zipWith_replicate, show min 8 8 = 8 from rfl, ← Nat.add_mod, show b + (m - 1) + k = b + k + (m - 1) by omega]

theorem decode_vec {m : Nat} (hm : 1 < m) (b byte : Nat) (row : List Nat)
    (hrow : row = (byteBits byte).map (· + 1) ++ List.replicate (8 - (byteBits byte).length) 0) :
    (addLanes m (baseAt m b) row).length = 8 ∧
    (addLanes m (baseAt m b) row).take (byteBits byte).length = (byteBits byte).map (fun i => (b + i) % m) := by
  have hl := byteBits_length byte
  have hlen : row.length = 8 := by
    rw [hrow]
    simp only [List.length_append, List.length_map, List.length_replicate]
    omega
  have he : ∀ (n : Nat) (r : List Nat), r.length = n → addLanes m (List.replicate n ((b + (m - 1)) % m)) r
      = r.map (fun x => ((b + (m - 1)) % m + x) % m) := by
    intro n r
    induction r generalizing n with
    | nil => intro h; simp at h; subst h; rfl
    | cons a t ih =>
      intro h
      obtain ⟨k, rfl⟩ : ∃ k, n = k + 1 := ⟨t.length, by simpa using h.symm⟩
      have := ih k (by simpa using h)
      unfold addLanes at this ⊢
      rw [List.replicate_succ, List.zipWith_cons_cons, this, List.map_cons]
  have h8 := he 8 row hlen
  unfold baseAt
  rw [h8, List.length_map, hlen]
  refine ⟨rfl, ?_⟩
  rw [hrow, List.map_append, List.take_append_of_le_length (by simp), List.take_of_length_le (by simp), List.map_map]
  refine List.map_congr_left fun i _ => ?_
  simp only [Function.comp]
  rw [Nat.add_mod, Nat.mod_mod, ← Nat.add_mod, show b + (m - 1) + (i + 1) = b + i + m by omega, Nat.add_mod_right]

/-- The positions of the set bits among the lowest `n`. -/
def lowBits (w : Word) (n : Nat) : List Nat := (List.range n).filter (fun i => w.getLsbD i)

theorem lowBits_add (w : Word) (a b : Nat) : lowBits w (a + b) = lowBits w a ++ (lowBits (w >>> a) b).map (a + ·) := by
  unfold lowBits
  rw [List.range_add, List.filter_append, List.filter_map]
  congr 3
  funext i
  simp only [Function.comp, BitVec.getLsbD_ushiftRight]

theorem lowBits_byte (w : Word) : lowBits w 8 = byteBits (w.toNat % 256) := by
  unfold lowBits byteBits
  refine List.filter_congr fun i hi => ?_
  rw [List.mem_range] at hi
  rw [show (256 : Nat) = 2 ^ 8 from rfl, Nat.testBit_mod_two_pow]
  simp [hi, BitVec.getLsbD]

theorem lowBits_length (w : Word) (n : Nat) : (lowBits w n).length ≤ n := by
  have := List.length_filter_le (fun i => w.getLsbD i) (List.range n)
  rw [List.length_range] at this
  exact this

theorem avx2Pair_spec {m safe : Nat} {table : List (List Nat)} {mem0 : List Nat} {pos0 : Nat} (hm1 : 1 < m) (hm : safe ≤ mem0.length)
    (htab : ∀ b < 256, table.getD b [] = (byteBits b).map (· + 1) ++ List.replicate (8 - (byteBits b).length) 0)
    (w : Word) (s : ExSt) (vals : List Nat) (b : Nat) (h : Filled mem0 pos0 safe vals s.mem s.pos) (hb : s.base = baseAt m b)
    (hroom : s.pos + 16 ≤ safe) :
    ∃ s', avx2Pair m table w s = .ok s' ∧ s'.base = baseAt m (b + 16) ∧ s'.pos ≤ s.pos + 16 ∧
      Filled mem0 pos0 safe (vals ++ (lowBits w 16).map (fun i => (b + i) % m)) s'.mem s'.pos := by
  have hA : w.toNat % 256 < 256 := Nat.mod_lt _ (by omega)
  have hB : (w >>> 8).toNat % 256 < 256 := Nat.mod_lt _ (by omega)
  obtain ⟨la, ta⟩ := decode_vec hm1 b _ _ (htab _ hA)
  obtain ⟨lb, tb⟩ := decode_vec hm1 (b + 8) _ _ (htab _ hB)
  have na := byteBits_length (w.toNat % 256)
  have nb := byteBits_length ((w >>> 8).toNat % 256)
  unfold avx2Pair
  simp only
  rw [hb, baseAt_add, baseAt_add, length_row _ hA, length_row _ hB]
  obtain ⟨mem1, e1, f1⟩ := h.store (v := addLanes m (baseAt m b) (table.getD (w.toNat % 256) [])) (n := (byteBits (w.toNat % 256)).length)
    (by omega) (by omega) hm
  rw [e1, ok_bind]
  obtain ⟨mem2, e2, f2⟩ := f1.store (v := addLanes m (baseAt m (b + 8)) (table.getD ((w >>> 8).toNat % 256) [])) (n := (byteBits ((w >>> 8).toNat % 256)).length)
    (by omega) (by omega) hm
  rw [e2, ok_bind]
  refine ⟨_, rfl, rfl, by simp only; omega, ?_⟩
  rw [ta, tb] at f2
  have hl : lowBits w 16 = byteBits (w.toNat % 256) ++ (byteBits ((w >>> 8).toNat % 256)).map (8 + ·) := by
    rw [show (16 : Nat) = 8 + 8 from rfl, lowBits_add, lowBits_byte, lowBits_byte]
  rw [hl, List.map_append, List.map_map, ← List.append_assoc]
  have hc : ((byteBits ((w >>> 8).toNat % 256)).map ((fun i => (b + i) % m) ∘ fun x => 8 + x))
      = (byteBits ((w >>> 8).toNat % 256)).map (fun i => (b + 8 + i) % m) := by
    refine List.map_congr_left fun i _ => ?_
    simp only [Function.comp, Nat.add_assoc]
  rw [hc]
  exact f2

theorem avx2Pairs_spec {m safe : Nat} {table : List (List Nat)} {mem0 : List Nat} {pos0 : Nat} (hm1 : 1 < m) (hm : safe ≤ mem0.length)
    (htab : ∀ b < 256, table.getD b [] = (byteBits b).map (· + 1) ++ List.replicate (8 - (byteBits b).length) 0) :
    ∀ (k : Nat) (w : Word) (s : ExSt) (vals : List Nat) (b : Nat), Filled mem0 pos0 safe vals s.mem s.pos → s.base = baseAt m b →
    s.pos + 16 * k ≤ safe →
    ∃ s', avx2Pairs m table k w s = .ok s' ∧ s'.base = baseAt m (b + 16 * k) ∧
      Filled mem0 pos0 safe (vals ++ (lowBits w (16 * k)).map (fun i => (b + i) % m)) s'.mem s'.pos := by
  intro k
  induction k with
  | zero =>
    intro w s vals b h hb hroom
    exact ⟨s, rfl, by simpa using hb, by simpa [lowBits] using h⟩
  | succ k ih =>
    intro w s vals b h hb hroom
    obtain ⟨s1, e1, b1, p1, f1⟩ := avx2Pair_spec hm1 hm htab w s vals b h hb (by omega)
    obtain ⟨s2, e2, b2, f2⟩ := ih (w >>> 16) s1 _ (b + 16) f1 b1 (by omega)
    refine ⟨s2, by rw [avx2Pairs, e1, ok_bind, e2], by rw [b2]; congr 1; omega, ?_⟩
    rw [show 16 * (k + 1) = 16 + 16 * k by omega, lowBits_add, List.map_append, List.map_map, ← List.append_assoc]
    have hc : ((lowBits (w >>> 16) (16 * k)).map ((fun i => (b + i) % m) ∘ fun x => 16 + x))
        = (lowBits (w >>> 16) (16 * k)).map (fun i => (b + 16 + i) % m) := by
      refine List.map_congr_left fun i _ => ?_
      simp only [Function.comp, Nat.add_assoc]
    rw [hc]
    exact f2

theorem extractWord_map (w : Word) (b m : Nat) : (extractWord w b).map (· % m) = (lowBits w 64).map (fun i => (b + i) % m) := by
  rw [extractWord_bits, List.map_map]
  rfl

theorem avx2Loop_spec {m safe : Nat} {table : List (List Nat)} {mem0 : List Nat} {pos0 : Nat} (hm1 : 1 < m) (hm : safe ≤ mem0.length)
    (htab : ∀ b < 256, table.getD b [] = (byteBits b).map (· + 1) ++ List.replicate (8 - (byteBits b).length) 0) (b0 : Nat) :
    ∀ (ws : List Word) (i : Nat) (s : ExSt) (vals : List Nat), Filled mem0 pos0 safe vals s.mem s.pos → s.base = baseAt m (b0 + i * 64) →
    ∃ ws1 ws2 s', ws = ws1 ++ ws2 ∧ avx2Loop m table 64 safe ws i s = .ok (ws2, i + ws1.length, s') ∧
      s'.pos = s.pos + (extractSetbits ws1 (b0 + i * 64)).length ∧ s'.pos ≤ max s.pos safe ∧
      Filled mem0 pos0 safe (vals ++ (extractSetbits ws1 (b0 + i * 64)).map (· % m)) s'.mem s'.pos := by
  intro ws
  induction ws with
  | nil =>
    intro i s vals h hb
    exact ⟨[], [], s, rfl, rfl, by simp [extractSetbits], by omega, by simpa [extractSetbits] using h⟩
  | cons w ws ih =>
    intro i s vals h hb
    rw [avx2Loop]
    by_cases hp : s.pos + 64 ≤ safe
    · rw [if_pos hp]
      by_cases hw : w = 0#64
      · rw [if_pos hw]
        obtain ⟨ws1, ws2, s', e, e1, e2, e3, e4⟩ := ih (i + 1) { s with base := addLanes m s.base (set1 m 8 64) } vals h
          (by simp only; rw [hb, baseAt_add]; congr 1; omega)
        have hx : extractSetbits (w :: ws1) (b0 + i * 64) = extractSetbits ws1 (b0 + (i + 1) * 64) := by
          rw [extractSetbits, extractWord, dif_pos hw, List.nil_append]
          congr 1; omega
        refine ⟨w :: ws1, ws2, s', by rw [e]; rfl, ?_, ?_, ?_, ?_⟩
        · rw [e1, List.length_cons]; congr 3; omega
        · rw [hx]; exact e2
        · exact e3
        · rw [hx]; exact e4
      · rw [if_neg hw]
        obtain ⟨s1, e1, b1, f1⟩ := avx2Pairs_spec hm1 hm htab 4 w s vals _ h hb (by omega)
        rw [e1, ok_bind]
        rw [show 16 * 4 = 64 from rfl] at b1 f1
        rw [← extractWord_map] at f1
        obtain ⟨ws1, ws2, s', e, e1, e2, e3, e4⟩ := ih (i + 1) s1 _ f1 (by rw [b1]; congr 1; omega)
        have hx : extractSetbits (w :: ws1) (b0 + i * 64) = extractWord w (b0 + i * 64) ++ extractSetbits ws1 (b0 + (i + 1) * 64) := by
          rw [extractSetbits]
          congr 2; omega
        have h1 := f1.at_
        have h0 := h.at_
        have hlen : (extractWord w (b0 + i * 64)).length ≤ 64 := by
          rw [extractWord_bits, List.length_map]
          exact lowBits_length w 64
        rw [List.length_append, List.length_map] at h1
        refine ⟨w :: ws1, ws2, s', by rw [e]; rfl, ?_, ?_, ?_, ?_⟩
        · rw [e1, List.length_cons]; congr 3; omega
        · rw [hx, List.length_append, e2]; omega
        · omega
        · rw [hx, List.map_append, ← List.append_assoc]; exact e4
    · rw [if_neg hp]
      exact ⟨[], w :: ws, s, rfl, rfl, by simp [extractSetbits], by omega, by simpa [extractSetbits] using h⟩

theorem extractSetbits_append (a b : List Word) (base : Nat) :
    extractSetbits (a ++ b) base = extractSetbits a base ++ extractSetbits b (base + 64 * a.length) := by
  induction a generalizing base with
  | nil => simp [extractSetbits]
  | cons w a ih =>
    rw [List.cons_append, extractSetbits, extractSetbits, ih, List.append_assoc, List.length_cons]
    congr 3
    omega

/-- The loops of a vector variant and the scalar loops after it. -/
theorem extract_finish {m : Nat} {mem : List Nat} {pos cap base : Nat} (hm : pos + cap ≤ mem.length)
    {ws1 ws2 : List Word} {mem1 : List Nat} {pos1 : Nat}
    (hp : pos1 = pos + (extractSetbits ws1 base).length) (hle : pos1 ≤ pos + cap)
    (h : Filled mem pos (pos + cap) ((extractSetbits ws1 base).map (· % m)) mem1 pos1) :
    ∃ mem' pos', extractTailMem m (pos + cap) ws2 ((base + ws1.length * 64) % m) mem1 pos1 = .ok (mem', pos') ∧
      Filled mem pos (pos + cap) (((extractSetbits (ws1 ++ ws2) base).map (· % m)).take cap) mem' pos' := by
  obtain ⟨mem2, pos2, e, f⟩ := extractTailMem_spec hm ws2 ((base + ws1.length * 64) % m) (base + 64 * ws1.length)
    (by rw [Nat.mod_mod, Nat.mul_comm]) mem1 _ pos1 h
  refine ⟨mem2, pos2, e, ?_⟩
  rw [extractSetbits_append, List.map_append, List.take_append]
  rw [List.take_of_length_le (by rw [List.length_map]; omega), List.length_map]
  rw [show pos + cap - pos1 = cap - (extractSetbits ws1 base).length by omega] at f
  exact f

/-- `bitset_extract_setbits_avx2` writes the first `cap` values and nothing outside its part of the output. -/
theorem extractAvx2_spec (ws : List Word) (mem : List Nat) (pos cap base : Nat) (hm : pos + cap ≤ mem.length) :
    ∃ mem' pos', extractAvx2 ws mem pos cap base = .ok (mem', pos') ∧
      Filled mem pos (pos + cap) (((extractSetbits ws base).map (· % 4294967296)).take cap) mem' pos' := by
  obtain ⟨ws1, ws2, s', e, e1, e2, e3, e4⟩ := avx2Loop_spec (m := 4294967296) (by omega) hm decode_row base ws 0
    { mem := mem, pos := pos, base := set1 4294967296 8 (base + 4294967295) } [] (Filled.start mem pos (pos + cap))
    (by simp only [Nat.zero_mul, Nat.add_zero]; rfl)
  simp only [Nat.zero_mul, Nat.add_zero, List.nil_append, Nat.zero_add] at e1 e2 e3 e4
  unfold extractAvx2
  rw [e1, ok_bind, e]
  exact extract_finish hm e2 (Nat.le_trans e3 (by simp)) e4

/-! ### A word at a time -/

theorem vbmi2_getD : ∀ i < 64, vbmi2Table.getD i 0 = i := by decide +kernel

theorem maskzCompress_eq (w : Word) :
    maskzCompress w vbmi2Table = lowBits w 64 ++ List.replicate (64 - (lowBits w 64).length) 0 := by
  unfold maskzCompress
  have : ((List.range 64).filter (fun i => w.getLsbD i)).map (fun i => vbmi2Table.getD i 0) = lowBits w 64 := by
    unfold lowBits
    conv => rhs; rw [← List.map_id ((List.range 64).filter (fun i => w.getLsbD i))]
    refine List.map_congr_left fun i hi => ?_
    rw [vbmi2_getD i (by simpa using (List.mem_filter.1 hi).1)]
    rfl
  simp only [this]

theorem addLanes_set1 {m : Nat} (v : List Nat) (n b : Nat) (h : v.length = n) :
    addLanes m v (set1 m n b) = v.map (fun x => (b + x) % m) := by
  unfold addLanes set1
  induction v generalizing n with
  | nil => simp
  | cons a t ih =>
    obtain ⟨k, rfl⟩ : ∃ k, n = k + 1 := ⟨t.length, by simpa using h.symm⟩
    rw [List.replicate_succ, List.zipWith_cons_cons, ih k (by simpa using h), List.map_cons]
    congr 1
    rw [Nat.add_mod, Nat.mod_mod, ← Nat.add_mod, Nat.add_comm]

/-- The stores together write the whole vector. -/
theorem avx512Stores_spec {m lanes : Nat} (vbase vec : List Nat) (b : Nat) (hvb : vbase = set1 m lanes b) (hv : ∀ x ∈ vec, x < 128) :
    ∀ (n j : Nat) (mem : List Nat) (pos : Nat), vec.length = (j + n) * lanes → pos + vec.length ≤ mem.length →
    avx512Stores m lanes vbase vec n j mem pos
      = storeu mem (pos + j * lanes) ((vec.drop (j * lanes)).map (fun x => (b + x) % m)) := by
  intro n
  induction n with
  | zero =>
    intro j mem pos hl hm
    have : vec.drop (j * lanes) = [] := by
      rw [List.drop_eq_nil_iff]; simp at hl; omega
    rw [avx512Stores, this]
    unfold storeu
    rw [Nat.add_zero] at hl
    rw [if_pos (by simp; omega)]
    simp
  | succ n ih =>
    intro j mem pos hl hm
    have hl2 : (j + (n + 1)) * lanes = j * lanes + lanes + n * lanes := by
      rw [Nat.add_mul, Nat.add_mul]; omega
    have hj : (j + 1) * lanes = j * lanes + lanes := by rw [Nat.add_mul]; omega
    have hlen : ((vec.drop (j * lanes)).take lanes).length = lanes := by
      rw [List.length_take, List.length_drop]; omega
    have hcvt : cvtepi8 m ((vec.drop (j * lanes)).take lanes) = (vec.drop (j * lanes)).take lanes := by
      unfold cvtepi8
      conv => rhs; rw [← List.map_id ((vec.drop (j * lanes)).take lanes)]
      refine List.map_congr_left fun x hx => ?_
      rw [if_pos (hv x (List.mem_of_mem_drop (List.mem_of_mem_take hx)))]
      rfl
    rw [avx512Stores, hcvt, hvb, addLanes_set1 _ lanes b hlen]
    generalize hX : (vec.drop (j * lanes)).take lanes = X
    rw [hX] at hlen
    have hsp : vec.drop (j * lanes) = X ++ vec.drop ((j + 1) * lanes) := by
      rw [← hX, hj, ← List.drop_drop, List.take_append_drop]
    have hY : (vec.drop ((j + 1) * lanes)).length = n * lanes := by
      rw [List.length_drop]; omega
    have e1 : storeu mem (pos + j * lanes) (X.map (fun x => (b + x) % m))
        = .ok (mem.take (pos + j * lanes) ++ X.map (fun x => (b + x) % m) ++ mem.drop (pos + j * lanes + lanes)) := by
      unfold storeu
      rw [if_pos (by rw [List.length_map]; omega), List.length_map, hlen]
    rw [e1, ok_bind, ← hvb, ih (j + 1) _ pos (by rw [hl]; congr 1; omega)
      (by simp only [List.length_append, List.length_take, List.length_drop, List.length_map]; omega)]
    rw [hsp]
    generalize vec.drop ((j + 1) * lanes) = Y at hY
    have hA : (mem.take (pos + j * lanes)).length = pos + j * lanes := by rw [List.length_take]; omega
    unfold storeu
    simp only [List.length_append, List.length_map, hA, List.length_drop, hlen, hY]
    rw [if_pos (by omega), if_pos (by omega)]
    congr 1
    rw [List.map_append, ← List.append_assoc]
    congr 1
    · congr 1
      rw [hj, ← Nat.add_assoc, List.take_left' (by simp only [List.length_append, List.length_map, hA, hlen])]
    · rw [hj, List.drop_append, List.drop_of_length_le (by simp only [List.length_append, List.length_map, hA, hlen]; omega), List.nil_append, List.drop_drop]
      congr 1
      simp only [List.length_append, List.length_map, hA, hlen]
      omega

theorem avx512Loop_spec {m lanes n safe : Nat} {mem0 : List Nat} {pos0 : Nat} (hln : n * lanes = 64) (hm : safe ≤ mem0.length) (b0 : Nat) :
    ∀ (ws : List Word) (i : Nat) (mem vals : List Nat) (pos : Nat), Filled mem0 pos0 safe vals mem pos →
    ∃ ws1 ws2 mem' pos', ws = ws1 ++ ws2 ∧ avx512Loop m lanes n safe b0 ws i mem pos = .ok (ws2, i + ws1.length, mem', pos') ∧
      pos' = pos + (extractSetbits ws1 (b0 + i * 64)).length ∧ pos' ≤ max pos safe ∧
      Filled mem0 pos0 safe (vals ++ (extractSetbits ws1 (b0 + i * 64)).map (· % m)) mem' pos' := by
  intro ws
  induction ws with
  | nil =>
    intro i mem vals pos h
    exact ⟨[], [], mem, pos, rfl, rfl, by simp [extractSetbits], by omega, by simpa [extractSetbits] using h⟩
  | cons w ws ih =>
    intro i mem vals pos h
    rw [avx512Loop]
    by_cases hp : pos + 64 < safe
    · rw [if_pos hp]
      have hll := lowBits_length w 64
      have hl : (maskzCompress w vbmi2Table).length = 64 := by
        rw [maskzCompress_eq]; simp only [List.length_append, List.length_replicate]; omega
      have hsm : ∀ x ∈ maskzCompress w vbmi2Table, x < 128 := by
        rw [maskzCompress_eq]
        intro x hx
        rcases List.mem_append.1 hx with hx | hx
        · have := List.mem_range.1 (List.mem_filter.1 hx).1
          omega
        · rw [List.mem_replicate] at hx
          omega
      have hvb : addLanes m (set1 m lanes b0) (set1 m lanes (i * 64)) = set1 m lanes (b0 + i * 64) := by
        unfold addLanes set1
        rw [List.zipWith_replicate, Nat.min_self, ← Nat.add_mod]
      have hlen := h.len
      simp only
      rw [avx512Stores_spec _ _ _ hvb hsm n 0 mem pos (by rw [hl, Nat.zero_add, hln]) (by omega)]
      simp only [Nat.zero_mul, Nat.add_zero, List.drop_zero]
      obtain ⟨mem1, e1, f1⟩ := h.store (v := (maskzCompress w vbmi2Table).map (fun x => (b0 + i * 64 + x) % m)) (n := (lowBits w 64).length)
        (by rw [List.length_map, hl]; exact hll) (by rw [List.length_map, hl]; omega) hm
      rw [e1, ok_bind]
      have hx1 : ((maskzCompress w vbmi2Table).map (fun x => (b0 + i * 64 + x) % m)).take (lowBits w 64).length
          = (extractWord w (b0 + i * 64)).map (· % m) := by
        rw [extractWord_map, maskzCompress_eq, List.map_append, List.take_append_of_le_length (by simp), List.take_of_length_le (by simp)]
      rw [hx1] at f1
      have hpc : popcount w = (lowBits w 64).length := (wordBits_length w).symm
      rw [hpc]
      obtain ⟨ws1, ws2, mem', pos', e, e1, e2, e3, e4⟩ := ih (i + 1) mem1 _ _ f1
      have hx : extractSetbits (w :: ws1) (b0 + i * 64) = extractWord w (b0 + i * 64) ++ extractSetbits ws1 (b0 + (i + 1) * 64) := by
        rw [extractSetbits]
        congr 2; omega
      have hwl : (extractWord w (b0 + i * 64)).length = (lowBits w 64).length := by
        rw [extractWord_bits, List.length_map]
        rfl
      refine ⟨w :: ws1, ws2, mem', pos', by rw [e]; rfl, ?_, ?_, ?_, ?_⟩
      · rw [e1, List.length_cons]; congr 3; omega
      · rw [hx, List.length_append, e2]; omega
      · omega
      · rw [hx, List.map_append, ← List.append_assoc]; exact e4
    · rw [if_neg hp]
      exact ⟨[], w :: ws, mem, pos, rfl, rfl, by simp [extractSetbits], by omega, by simpa [extractSetbits] using h⟩

theorem extractAvx512_spec (ws : List Word) (mem : List Nat) (pos cap base : Nat) (hm : pos + cap ≤ mem.length) :
    ∃ mem' pos', extractAvx512 ws mem pos cap base = .ok (mem', pos') ∧
      Filled mem pos (pos + cap) (((extractSetbits ws base).map (· % 4294967296)).take cap) mem' pos' := by
  obtain ⟨ws1, ws2, mem', pos', e, e1, e2, e3, e4⟩ := avx512Loop_spec (m := 4294967296) (lanes := 16) (n := 4) rfl hm base ws 0
    mem [] pos (Filled.start mem pos (pos + cap))
  simp only [Nat.zero_mul, Nat.add_zero, List.nil_append, Nat.zero_add] at e1 e2 e3 e4
  unfold extractAvx512
  rw [e1, ok_bind, e]
  exact extract_finish hm e2 (Nat.le_trans e3 (by simp)) e4

theorem extractAvx512u16_spec (ws : List Word) (mem : List Nat) (pos cap base : Nat) (hm : pos + cap ≤ mem.length) :
    ∃ mem' pos', extractAvx512u16 ws mem pos cap base = .ok (mem', pos') ∧
      Filled mem pos (pos + cap) (((extractSetbits ws base).map (· % 65536)).take cap) mem' pos' := by
  obtain ⟨ws1, ws2, mem', pos', e, e1, e2, e3, e4⟩ := avx512Loop_spec (m := 65536) (lanes := 32) (n := 2) rfl hm base ws 0
    mem [] pos (Filled.start mem pos (pos + cap))
  simp only [Nat.zero_mul, Nat.add_zero, List.nil_append, Nat.zero_add] at e1 e2 e3 e4
  unfold extractAvx512u16
  rw [e1, ok_bind, e]
  exact extract_finish hm e2 (Nat.le_trans e3 (by simp)) e4

end CRoaring
