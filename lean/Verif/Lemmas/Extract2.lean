import Verif.Lemmas.Extract
set_option linter.unusedSimpArgs false
set_option linter.unusedVariables false
/-
Enumeration into memory: arrays, runs, containers, bitmaps.
-/
namespace CRoaring
open Spec

/-- The memory with `vals` written at `pos`. -/
def over (mem : List Nat) (pos : Nat) (vals : List Nat) : List Nat := mem.take pos ++ vals ++ mem.drop (pos + vals.length)

theorem over_length {mem : List Nat} {pos : Nat} {vals : List Nat} (h : pos + vals.length ≤ mem.length) :
    (over mem pos vals).length = mem.length := by
  unfold over
  simp only [List.length_append, List.length_take, List.length_drop]
  omega

theorem over_nil (mem : List Nat) (pos : Nat) : over mem pos [] = mem := by simp [over]

theorem over_over {mem : List Nat} {pos : Nat} {a b : List Nat} (h : pos + a.length + b.length ≤ mem.length) :
    over (over mem pos a) (pos + a.length) b = over mem pos (a ++ b) := by
  unfold over
  have hp : (mem.take pos).length = pos := by rw [List.length_take]; omega
  have h1 : (mem.take pos ++ a ++ mem.drop (pos + a.length)).take (pos + a.length) = mem.take pos ++ a :=
    List.take_left' (by rw [List.length_append, hp])
  have h2 : (mem.take pos ++ a ++ mem.drop (pos + a.length)).drop (pos + a.length + b.length) = mem.drop (pos + a.length + b.length) := by
    rw [List.drop_append, List.drop_of_length_le (by rw [List.length_append, hp]; omega), List.nil_append, List.drop_drop]
    congr 1
    rw [List.length_append, hp]; omega
  rw [h1, h2, List.length_append, ← Nat.add_assoc, List.append_assoc (mem.take pos) a b]

theorem storeu_over {mem : List Nat} {pos : Nat} {v : List Nat} (h : pos + v.length ≤ mem.length) : storeu mem pos v = .ok (over mem pos v) := by
  unfold storeu over
  rw [if_pos h]

theorem write16_over {mem : List Nat} {pos : Nat} (x : Nat) (h : pos < mem.length) : write16 mem pos x = .ok (over mem pos [x]) := by
  rw [storeu_one, storeu_over (by simp only [List.length_singleton]; omega)]

theorem Filled.over {mem mem' : List Nat} {pos cap pos' : Nat} {vals : List Nat} (h : Filled mem pos (pos + cap) vals mem' pos')
    (hl : vals.length = cap) (hm : pos + cap ≤ mem.length) : mem' = over mem pos vals ∧ pos' = pos + vals.length := by
  refine ⟨?_, h.at_⟩
  have h1 := h.pre
  have h2 := h.post
  have h3 := h.at_
  unfold CRoaring.over
  rw [hl, ← h2, ← h1, h3, hl, List.take_append_drop]

/-- The scalar functions without a bound, when there is room. -/
theorem extractWordMem_over {m safe : Nat} (b base : Nat) (hb : b % m = base % m) :
    ∀ (w : Word) (mem : List Nat) (pos : Nat), pos + (extractWord w base).length ≤ mem.length → mem.length ≤ safe →
    extractWordMem m safe w b mem pos = .ok (over mem pos ((extractWord w base).map (· % m)), pos + (extractWord w base).length) := by
  intro w
  induction hn : w.toNat using Nat.strongRecOn generalizing w with
  | _ n ih =>
    intro mem pos hfit hsafe
    rw [extractWordMem, extractWord]
    rw [extractWord] at hfit
    by_cases hw : w = 0#64
    · rw [dif_pos hw, dif_pos hw]
      simp [over_nil]
    · rw [dif_neg hw] at hfit
      rw [dif_neg hw, dif_neg hw]
      rw [List.length_cons] at hfit
      rw [if_pos (by omega), write16_over _ (by omega)]
      simp only
      have he : (ctz w + b) % m = (ctz w + base) % m := by
        rw [Nat.add_mod, hb, ← Nat.add_mod]
      have hol : (over mem pos [(ctz w + base) % m]).length = mem.length :=
        over_length (by simp only [List.length_singleton]; omega)
      rw [he, ih _ (by rw [← hn]; exact clearLowest_lt hw) (w &&& (w - 1#64)) rfl _ (pos + 1) (by rw [hol]; omega) (by rw [hol]; omega)]
      have := over_over (mem := mem) (pos := pos) (a := [(ctz w + base) % m]) (b := (extractWord (w &&& (w - 1#64)) base).map (· % m))
        (by simp only [List.length_singleton, List.length_map]; omega)
      rw [List.length_singleton] at this
      rw [this, List.map_cons, List.length_cons]
      congr 2
      omega

theorem extractTailMem_over {m safe : Nat} :
    ∀ (ws : List Word) (b base : Nat) (_ : b % m = base % m) (mem : List Nat) (pos : Nat), pos + (extractSetbits ws base).length ≤ mem.length →
    mem.length < safe →
    extractTailMem m safe ws b mem pos = .ok (over mem pos ((extractSetbits ws base).map (· % m)), pos + (extractSetbits ws base).length) := by
  intro ws
  induction ws with
  | nil =>
    intro b base hb mem pos hfit hsafe
    simp [extractTailMem, extractSetbits, over_nil]
  | cons w ws ih =>
    intro b base hb mem pos hfit hsafe
    rw [extractTailMem, extractSetbits]
    rw [extractSetbits, List.length_append] at hfit
    rw [if_pos (by omega), extractWordMem_over b base hb w mem pos (by omega) (by omega), ok_bind]
    simp only
    have hol : (over mem pos ((extractWord w base).map (· % m))).length = mem.length := over_length (by rw [List.length_map]; omega)
    rw [ih ((b + 64) % m) (base + 64) (by rw [Nat.mod_mod, Nat.add_mod, hb, ← Nat.add_mod]) _ _ (by rw [hol]; omega) (by rw [hol]; omega)]
    have := over_over (mem := mem) (pos := pos) (a := (extractWord w base).map (· % m)) (b := (extractSetbits ws (base + 64)).map (· % m))
      (by simp only [List.length_map]; omega)
    rw [List.length_map] at this
    rw [this, List.map_append, List.length_append, Nat.add_assoc]

theorem extractScalarMem_over {m : Nat} (ws : List Word) (mem : List Nat) (pos base : Nat) (h : pos + (extractSetbits ws base).length ≤ mem.length) :
    extractScalarMem m ws mem pos base = .ok (over mem pos ((extractSetbits ws base).map (· % m)), pos + (extractSetbits ws base).length) :=
  extractTailMem_over ws base base rfl mem pos h (by omega)

theorem bitsetToMem_over (hw : Hw) (b : Bitset) (base : Nat) (mem : List Nat) (pos : Nat)
    (hc : b.card = (extractSetbits b.words base).length) (h : pos + (extractSetbits b.words base).length ≤ mem.length) :
    bitsetToMem hw b base mem pos
      = .ok (over mem pos ((extractSetbits b.words base).map (· % 4294967296)), pos + (extractSetbits b.words base).length) := by
  have hcn : b.card.toNat = (extractSetbits b.words base).length := by omega
  have fin : ∀ r : Out (List Nat × Nat), (∃ mem' pos', r = .ok (mem', pos') ∧
      Filled mem pos (pos + b.card.toNat) (((extractSetbits b.words base).map (· % 4294967296)).take b.card.toNat) mem' pos') →
      r = .ok (over mem pos ((extractSetbits b.words base).map (· % 4294967296)), pos + (extractSetbits b.words base).length) := by
    rintro r ⟨mem', pos', e, f⟩
    rw [List.take_of_length_le (by rw [List.length_map]; omega)] at f
    obtain ⟨h1, h2⟩ := f.over (by rw [List.length_map, hcn]) (by omega)
    rw [e, h1, h2, List.length_map]
  unfold bitsetToMem
  by_cases h1 : hw.avx512 = true ∧ b.card ≥ 8192
  · rw [if_pos h1]
    exact fin _ (extractAvx512_spec b.words mem pos b.card.toNat base (by omega))
  · rw [if_neg h1]
    by_cases h2 : hw.avx2 = true ∧ b.card ≥ 8192
    · rw [if_pos h2]
      exact fin _ (extractAvx2_spec b.words mem pos b.card.toNat base (by omega))
    · rw [if_neg h2]
      exact extractScalarMem_over _ _ _ _ h

/-! ### Arrays -/

theorem arrayTailMem_over : ∀ (l : List Nat) (base : Nat) (mem : List Nat) (pos : Nat), pos + l.length ≤ mem.length →
    arrayTailMem l base mem pos = .ok (over mem pos (l.map (fun v => (base + v) % 4294967296)), pos + l.length) := by
  intro l
  induction l with
  | nil => intro base mem pos h; simp [arrayTailMem, over_nil]
  | cons v l ih =>
    intro base mem pos h
    rw [List.length_cons] at h
    have hol : (over mem pos [(base + v) % 4294967296]).length = mem.length := over_length (by simp only [List.length_singleton]; omega)
    rw [arrayTailMem, write16_over _ (by omega), ok_bind, ih base _ (pos + 1) (by rw [hol]; omega)]
    have := over_over (mem := mem) (pos := pos) (a := [(base + v) % 4294967296]) (b := l.map (fun v => (base + v) % 4294967296))
      (by simp only [List.length_singleton, List.length_map]; omega)
    rw [List.length_singleton] at this
    rw [this, List.map_cons, List.length_cons]
    congr 2
    omega

theorem arrayVecMem_over {lanes : Nat} (hl : 0 < lanes) (arr : List Nat) (base : Nat) :
    ∀ (fuel i : Nat) (mem : List Nat) (pos : Nat), i ≤ arr.length → arr.length < i + fuel → pos + (arr.length - i) ≤ mem.length →
    ∃ j, i ≤ j ∧ j ≤ arr.length ∧ arrayVecMem lanes arr base fuel i mem pos
      = .ok (j, over mem pos (((arr.drop i).take (j - i)).map (fun v => (base + v) % 4294967296)), pos + (j - i)) := by
  intro fuel
  induction fuel with
  | zero => intro i mem pos h1 h2; omega
  | succ fuel ih =>
    intro i mem pos h1 h2 h3
    rw [arrayVecMem]
    by_cases h : i + lanes ≤ arr.length
    · rw [if_pos h]
      have hr : readN arr i lanes = .ok ((arr.drop i).take lanes) := by
        unfold readN
        rw [if_pos h]
      have hlen : ((arr.drop i).take lanes).length = lanes := by rw [List.length_take, List.length_drop]; omega
      rw [hr, ok_bind, addLanes_set1 _ lanes base hlen]
      have hlm : (((arr.drop i).take lanes).map (fun v => (base + v) % 4294967296)).length = lanes := by rw [List.length_map, hlen]
      rw [storeu_over (by rw [hlm]; omega), ok_bind]
      have hol : (over mem pos (((arr.drop i).take lanes).map (fun v => (base + v) % 4294967296))).length = mem.length :=
        over_length (by rw [hlm]; omega)
      obtain ⟨j, hj1, hj2, e⟩ := ih (i + lanes) _ (pos + lanes) h (by omega) (by rw [hol]; omega)
      refine ⟨j, by omega, hj2, ?_⟩
      rw [e]
      have := over_over (mem := mem) (pos := pos) (a := ((arr.drop i).take lanes).map (fun v => (base + v) % 4294967296))
        (b := ((arr.drop (i + lanes)).take (j - (i + lanes))).map (fun v => (base + v) % 4294967296))
        (by rw [hlm, List.length_map, List.length_take, List.length_drop]; omega)
      rw [hlm] at this
      rw [this, ← List.map_append]
      have hs : (arr.drop i).take lanes ++ (arr.drop (i + lanes)).take (j - (i + lanes)) = (arr.drop i).take (j - i) := by
        rw [← List.drop_drop, ← List.take_add]
        congr 1
        omega
      rw [hs]
      congr 3
      omega
    · rw [if_neg h]
      exact ⟨i, by omega, h1, by simp [over_nil]⟩

theorem arrayVec_over {lanes : Nat} (hl : 0 < lanes) (arr : List Nat) (base : Nat) (mem : List Nat) (pos : Nat) (h : pos + arr.length ≤ mem.length) :
    arrayVec lanes arr base mem pos = .ok (over mem pos (arr.map (fun v => (base + v) % 4294967296)), pos + arr.length) := by
  obtain ⟨j, h1, h2, e⟩ := arrayVecMem_over hl arr base (arr.length + 1) 0 mem pos (by omega) (by omega) (by omega)
  unfold arrayVec
  rw [e, ok_bind]
  simp only [Nat.sub_zero, List.drop_zero]
  have hlm : ((arr.take j).map (fun v => (base + v) % 4294967296)).length = j := by rw [List.length_map, List.length_take]; omega
  rw [arrayTailMem_over _ _ _ _ (by rw [over_length (by rw [hlm]; omega), List.length_drop]; omega)]
  have := over_over (mem := mem) (pos := pos) (a := (arr.take j).map (fun v => (base + v) % 4294967296))
    (b := (arr.drop j).map (fun v => (base + v) % 4294967296)) (by rw [hlm, List.length_map, List.length_drop]; omega)
  rw [hlm] at this
  rw [this, ← List.map_append, List.take_append_drop, List.length_drop]
  congr 2
  omega

theorem arrayToMem_over (hw : Hw) (arr : List Nat) (base : Nat) (mem : List Nat) (pos : Nat) (h : pos + arr.length ≤ mem.length) :
    arrayToMem hw arr base mem pos = .ok (over mem pos (arr.map (fun v => (base + v) % 4294967296)), pos + arr.length) := by
  unfold arrayToMem
  split
  · exact arrayVec_over (by omega) arr base mem pos h
  · split
    · exact arrayVec_over (by omega) arr base mem pos h
    · exact arrayTailMem_over arr base mem pos h

/-! ### Runs -/

/-- The values `start + j, …, start + j + n - 1` as 32-bit numbers. -/
def upFrom (start j n : Nat) : List Nat := (List.range n).map (fun k => (start + (j + k)) % 4294967296)

theorem upFrom_length (start j n : Nat) : (upFrom start j n).length = n := by simp [upFrom]

theorem upFrom_add (start j a b : Nat) : upFrom start j (a + b) = upFrom start j a ++ upFrom start (j + a) b := by
  unfold upFrom
  rw [List.range_add, List.map_append, List.map_map]
  congr 1
  refine List.map_congr_left fun k _ => ?_
  simp only [Function.comp, Nat.add_assoc]

theorem runTailMem_over (start : Nat) : ∀ (n j : Nat) (mem : List Nat) (pos : Nat), pos + n ≤ mem.length →
    runTailMem start n j mem pos = .ok (over mem pos (upFrom start j n), pos + n) := by
  intro n
  induction n with
  | zero => intro j mem pos h; simp [runTailMem, upFrom, over_nil]
  | succ n ih =>
    intro j mem pos h
    have hol : (over mem pos [(start + j) % 4294967296]).length = mem.length := over_length (by simp only [List.length_singleton]; omega)
    rw [runTailMem, write16_over _ (by omega), ok_bind, ih (j + 1) _ (pos + 1) (by rw [hol]; omega)]
    have := over_over (mem := mem) (pos := pos) (a := [(start + j) % 4294967296]) (b := upFrom start (j + 1) n)
      (by rw [upFrom_length, List.length_singleton]; omega)
    rw [List.length_singleton] at this
    rw [this, show n + 1 = 1 + n by omega, upFrom_add]
    rw [show upFrom start j 1 = [(start + j) % 4294967296] from rfl]
    congr 2
    omega

theorem delta_add (start j : Nat) :
    addLanes 4294967296 (set1 4294967296 8 start) ((List.range 8).map (fun k => (j + k) % 4294967296)) = upFrom start j 8 := by
  simp only [addLanes, set1, upFrom, List.range, List.range.loop, List.replicate, List.map, List.zipWith]
  simp only [← Nat.add_mod]

theorem runVecMem_over (start le : Nat) : ∀ (fuel j : Nat) (mem : List Nat) (pos : Nat), le < j + fuel → j ≤ le → pos + (le - j) ≤ mem.length →
    ∃ j', j ≤ j' ∧ j' ≤ le ∧ runVecMem start le fuel j ((List.range 8).map (fun k => (j + k) % 4294967296)) mem pos
      = .ok (j', over mem pos (upFrom start j (j' - j)), pos + (j' - j)) := by
  intro fuel
  induction fuel with
  | zero => intro j mem pos h1 h2; omega
  | succ fuel ih =>
    intro j mem pos h1 h2 h3
    rw [runVecMem]
    by_cases h : j + 8 ≤ le
    · rw [if_pos h, delta_add]
      have hol : (over mem pos (upFrom start j 8)).length = mem.length := over_length (by rw [upFrom_length]; omega)
      rw [storeu_over (by rw [upFrom_length]; omega), ok_bind]
      have hd : addLanes 4294967296 (set1 4294967296 8 8) ((List.range 8).map (fun k => (j + k) % 4294967296))
          = (List.range 8).map (fun k => (j + 8 + k) % 4294967296) := by
        rw [delta_add]
        unfold upFrom
        refine List.map_congr_left fun k _ => ?_
        rw [show 8 + (j + k) = j + 8 + k by omega]
      rw [hd]
      obtain ⟨j', a, b, e⟩ := ih (j + 8) _ (pos + 8) (by omega) h (by rw [hol]; omega)
      refine ⟨j', by omega, b, ?_⟩
      rw [e]
      have := over_over (mem := mem) (pos := pos) (a := upFrom start j 8) (b := upFrom start (j + 8) (j' - (j + 8)))
        (by rw [upFrom_length, upFrom_length]; omega)
      rw [upFrom_length] at this
      rw [this, ← upFrom_add, show 8 + (j' - (j + 8)) = j' - j by omega]
      congr 3
      omega
    · rw [if_neg h]
      exact ⟨j, by omega, h2, by simp [upFrom, over_nil]⟩

theorem runOneMem_over (hw : Hw) (base : Nat) (r : Rle) (mem : List Nat) (pos : Nat) (h : pos + (r.2 + 1) ≤ mem.length) :
    runOneMem hw base r mem pos = .ok (over mem pos (upFrom ((base + r.1) % 4294967296) 0 (r.2 + 1)), pos + (r.2 + 1)) := by
  unfold runOneMem
  split
  · unfold runOneAvx2
    simp only
    by_cases h8 : r.2 < 8
    · rw [if_pos h8]
      exact runTailMem_over _ _ _ _ _ h
    · rw [if_neg h8]
      obtain ⟨j, a, b, e⟩ := runVecMem_over ((base + r.1) % 4294967296) r.2 (r.2 + 1) 0 mem pos (by omega) (by omega) (by omega)
      have hd : (List.range 8).map (fun k => (0 + k) % 4294967296) = [0, 1, 2, 3, 4, 5, 6, 7] := by decide
      rw [hd] at e
      rw [e, ok_bind]
      simp only [Nat.sub_zero]
      rw [runTailMem_over _ _ _ _ _ (by rw [over_length (by rw [upFrom_length]; omega)]; omega)]
      have := over_over (mem := mem) (pos := pos) (a := upFrom ((base + r.1) % 4294967296) 0 j) (b := upFrom ((base + r.1) % 4294967296) j (r.2 + 1 - j))
        (by rw [upFrom_length, upFrom_length]; omega)
      rw [upFrom_length] at this
      have hadd := upFrom_add ((base + r.1) % 4294967296) 0 j (r.2 + 1 - j)
      rw [Nat.zero_add] at hadd
      rw [this, ← hadd, show j + (r.2 + 1 - j) = r.2 + 1 by omega]
      congr 2
      omega
  · exact runTailMem_over _ _ _ _ _ h

theorem runToMem_over (hw : Hw) (base : Nat) : ∀ (rs : List Rle) (mem : List Nat) (pos : Nat), pos + (runToUint32 rs base).length ≤ mem.length →
    runToMem hw base rs mem pos = .ok (over mem pos (runToUint32 rs base), pos + (runToUint32 rs base).length) := by
  intro rs
  induction rs with
  | nil => intro mem pos h; simp [runToMem, runToUint32, over_nil]
  | cons r rs ih =>
    intro mem pos h
    have hx : runToUint32 (r :: rs) base = upFrom ((base + r.1) % 4294967296) 0 (r.2 + 1) ++ runToUint32 rs base := by
      unfold runToUint32 upFrom
      rw [List.flatMap_cons]
      congr 1
      refine List.map_congr_left fun k _ => ?_
      simp only [Nat.zero_add, u32]
      omega
    rw [hx] at h ⊢
    rw [List.length_append, upFrom_length] at h
    rw [runToMem, runOneMem_over hw base r mem pos (by omega), ok_bind]
    simp only
    rw [ih _ _ (by rw [over_length (by rw [upFrom_length]; omega)]; omega)]
    have := over_over (mem := mem) (pos := pos) (a := upFrom ((base + r.1) % 4294967296) 0 (r.2 + 1)) (b := runToUint32 rs base)
      (by rw [upFrom_length]; omega)
    rw [upFrom_length] at this
    rw [this, List.length_append, upFrom_length, Nat.add_assoc]

end CRoaring
