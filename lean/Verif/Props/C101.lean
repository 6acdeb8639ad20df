import Verif.Lemmas.SimdBits3
import Verif.Lemmas.Isa
/-
C101, C102: bitset containers with the vector code of each processor; comparisons, the cardinality of runs, lists of bits.
C103, C104: how the library finds out what the processor can do.
-/
namespace CRoaring.Props
open CRoaring

/-- The set operation that each word operation stands for. -/
def setOp : BitOp → NSet → NSet → NSet
  | .or => Spec.union
  | .and => Spec.inter
  | .xor => Spec.symm
  | .andnot => Spec.diff

theorem bitAt_setOp (op : BitOp) {w1 w2 : List Word} (hl : w1.length = w2.length) (x : Nat) :
    bitAt (List.zipWith op.sym w1 w2) x = setOp op (bitAt w1) (bitAt w2) x := by
  cases op
  · exact bitAt_wOr hl x
  · exact bitAt_wAnd hl x
  · exact bitAt_wXor hl x
  · exact bitAt_wAndnot hl x

/-- Where an operand may be: in another container, or in the destination itself. -/
def Operand (d : List Word → List Word) (ws dst : List Word) : Prop := (d = fun _ => ws) ∨ (d = id ∧ ws = dst)

/-- C101: union, intersection, symmetric difference and difference of two bitsets with AVX-512, AVX2, NEON or none of them, into a new
container or over one of the operands: the memory accesses stay inside, the result is the set operation and the cardinality is right. -/
theorem C101_bitset_operation (m : Machine) (op : BitOp) {d1 d2 : List Word → List Word} {w1 w2 dst : List Word}
    (l1 : w1.length = 1024) (l2 : w2.length = 1024) (l3 : dst.length = 1024) (h1 : Operand d1 w1 dst) (h2 : Operand d2 w2 dst) :
    ∃ b, bitsetOpMem m op d1 d2 dst = .ok b ∧ b.words.length = 1024 ∧ (∀ x, bitAt b.words x = setOp op (bitAt w1) (bitAt w2) x) ∧
      b.card = (Spec.card 65536 (setOp op (bitAt w1) (bitAt w2)) : Nat) := by
  have hW : (List.zipWith op.sym w1 w2).length = 1024 := by rw [List.length_zipWith, l1, l2]; rfl
  refine ⟨_, bitsetOpMem_spec m op l1 l2 l3 h1 h2, hW, bitAt_setOp op (l1.trans l2.symm), ?_⟩
  have hf : bitAt (List.zipWith op.sym w1 w2) = setOp op (bitAt w1) (bitAt w2) := funext (bitAt_setOp op (l1.trans l2.symm))
  rw [popAll_1024 hW, hf]

/-- C101, the variants that do not count: same words, and the cardinality is marked as unknown. -/
theorem C101_bitset_operation_nocard (m : Machine) (op : BitOp) {d1 d2 : List Word → List Word} {w1 w2 dst : List Word}
    (l1 : w1.length = 1024) (l2 : w2.length = 1024) (l3 : dst.length = 1024) (h1 : Operand d1 w1 dst) (h2 : Operand d2 w2 dst) :
    ∃ b, bitsetOpNocardMem m op d1 d2 dst = .ok b ∧ b.words.length = 1024 ∧ (∀ x, bitAt b.words x = setOp op (bitAt w1) (bitAt w2) x) ∧
      b.card = -1 := by
  have hW : (List.zipWith op.sym w1 w2).length = 1024 := by rw [List.length_zipWith, l1, l2]; rfl
  exact ⟨_, bitsetOpNocardMem_spec m op l1 l2 l3 h1 h2, hW, bitAt_setOp op (l1.trans l2.symm), rfl⟩

/-- C101, the variants that only count. -/
theorem C101_bitset_operation_justcard (m : Machine) (op : BitOp) {w1 w2 : List Word} (l1 : w1.length = 1024) (l2 : w2.length = 1024) :
    bitsetOpJustcardMem m op w1 w2 = .ok (Spec.card 65536 (setOp op (bitAt w1) (bitAt w2)) : Nat) := by
  have hW : (List.zipWith op.sym w1 w2).length = 1024 := by rw [List.length_zipWith, l1, l2]; rfl
  have hf : bitAt (List.zipWith op.sym w1 w2) = setOp op (bitAt w1) (bitAt w2) := funext (bitAt_setOp op (l1.trans l2.symm))
  rw [bitsetOpJustcardMem_spec m op l1 l2, popAll_1024 hW, hf]

/-- C101: the population count of a bitset container. -/
theorem C101_compute_cardinality (m : Machine) {ws : List Word} (h : ws.length = 1024) :
    computeCardMem m ws = .ok (Spec.card 65536 (bitAt ws) : Nat) := by
  rw [computeCardMem_spec m h, popAll_1024 h]

/-- C101: the counting loops (Harley-Seal with AVX2, `vpopcntq` with AVX-512) are right for any number of blocks, not only for the size of a
container, as long as the count fits in 64 bits. -/
theorem C101_popcount_any_size {blk : Blk} {n size : Nat} {mem : List Word} (ws : List Word) (hl : ws.length = n * size)
    (hblk : ∀ i, i < size → blk i mem = .ok ((ws.drop (n * i)).take n, mem)) (hsmall : Spec.card (64 * ws.length) (bitAt ws) < 2 ^ 64) :
    (n = 4 → harleySeal blk size mem = .ok (Spec.card (64 * ws.length) (bitAt ws), mem)) ∧
    (n = 8 → vpopcount blk size mem = .ok (Spec.card (64 * ws.length) (bitAt ws), mem)) := by
  rw [← popAll_eq_card] at hsmall ⊢
  refine ⟨?_, ?_⟩
  · rintro rfl
    exact harleySeal_spec (M := fun _ => mem) ⟨hl, hblk⟩ hsmall
  · rintro rfl
    exact vpopcount_spec (M := fun _ => mem) ⟨hl, hblk⟩ hsmall

/-- Two containers that meet the hypotheses, and what comes out: the multiples of 64 and the values below 64, in place. -/
example : ∃ b, bitsetOpMem .avx2 .andnot id (fun _ => List.replicate 1024 1#64) (BitVec.allOnes 64 :: List.replicate 1023 0#64) = .ok b ∧
    bitAt b.words 0 = false ∧ bitAt b.words 5 = true := by
  obtain ⟨b, h, _, hb, _⟩ := C101_bitset_operation .avx2 .andnot (d1 := id) (d2 := fun _ => List.replicate 1024 1#64)
    (w1 := BitVec.allOnes 64 :: List.replicate 1023 0#64) (w2 := List.replicate 1024 1#64) (dst := BitVec.allOnes 64 :: List.replicate 1023 0#64)
    (by rw [List.length_cons, List.length_replicate]) List.length_replicate (by rw [List.length_cons, List.length_replicate]) (Or.inr ⟨rfl, rfl⟩) (Or.inl rfl)
  exact ⟨b, h, by rw [hb]; decide +kernel, by rw [hb]; decide +kernel⟩

/-! ### C102 -/

/-- C102: `memequals` compares exactly the bytes of the two buffers and reads nothing behind them. -/
theorem C102_memequals (m : Machine) {a b : List Nat} {n : Nat} (ha : a.length = n) (hb : b.length = n) :
    memequals m a b n = .ok (decide (a = b)) := memequals_spec m ha hb

/-- C102: equality of array containers is equality of the sets. -/
theorem C102_array_equals (m : Machine) {a b : List Nat} (ha : ∀ x ∈ a, x < 65536) (hb : ∀ x ∈ b, x < 65536) (sa : a.Pairwise (· < ·))
    (sb : b.Pairwise (· < ·)) : ∃ r, arrayEqualsMem m a b = .ok r ∧ (r = true ↔ ∀ x, x ∈ a ↔ x ∈ b) := by
  refine ⟨_, arrayEqualsMem_spec m ha hb, ?_⟩
  rw [decide_eq_true_eq]
  exact ⟨fun h x => by rw [h], fun h => sorted_ext sa sb h⟩

/-- C102: equality of run containers is equality of the runs. -/
theorem C102_run_equals (m : Machine) {a b : List Rle} (ha : ∀ x ∈ a, x.1 < 65536 ∧ x.2 < 65536) (hb : ∀ x ∈ b, x.1 < 65536 ∧ x.2 < 65536) :
    runEqualsMem m a b = .ok (decide (a = b)) := runEqualsMem_spec m ha hb

/-- C102: equality of bitset containers is equality of the sets. -/
theorem C102_bitset_equals (m : Machine) {b1 b2 : Bitset} (l1 : b1.words.length = 1024) (l2 : b2.words.length = 1024)
    (c1 : b1.card = (Spec.card 65536 (bitAt b1.words) : Nat)) (c2 : b2.card = (Spec.card 65536 (bitAt b2.words) : Nat)) :
    ∃ r, bitsetEqualsMem m b1 b2 = .ok r ∧ (r = true ↔ ∀ x, bitAt b1.words x = bitAt b2.words x) :=
  ⟨_, bitsetEqualsMem_spec m l1 l2, bitsetEquals_iff ⟨l1, c1⟩ ⟨l2, c2⟩⟩

/-- C102: the cardinality of a run container. -/
theorem C102_run_cardinality (m : Machine) {rs : List Rle} (h : RunOK rs) :
    runCardMem m rs = .ok (Spec.card 65536 (fun x => rs.any (fun r => decide (r.1 ≤ x ∧ x ≤ r.1 + r.2))) : Nat) := by
  have hr : ∀ r ∈ rs, r.1 < 65536 := fun r hr => by have := h.lt r hr; omega
  have hc : runCard rs = Spec.card 65536 (runHas rs) := (card_runHas' h).symm
  rw [runCardMem_spec m hr (by rw [hc]; exact card_le _ _), hc]
  rfl

/-- C102: setting the bits of a list in a bitset container with a right cardinality. -/
theorem C102_set_list_withcard (m : Machine) {ws : List Word} {c : Int} {l : List Nat} (hw : ws.length = 1024) (hl : ∀ p ∈ l, p < 65536)
    (hc : c = (Spec.card 65536 (bitAt ws) : Nat)) :
    ∃ ws', setListWithcardMem m ws c l = .ok (ws', (Spec.card 65536 (bitAt ws') : Nat)) ∧ ws'.length = 1024 ∧
      ∀ x, bitAt ws' x = Spec.union (Spec.ofList l) (bitAt ws) x := by
  obtain ⟨ws', e, l', b⟩ := setListWithcardMem_spec m (c := c) (l := l) (by rw [hw]; exact hl) hw (by rw [popAll_1024 hw]; exact hc)
  rw [popAll_1024 (l'.trans hw)] at e
  exact ⟨ws', e, l'.trans hw, b⟩

/-- C102: setting the bits of a list without counting. -/
theorem C102_set_list (m : Machine) {ws : List Word} {l : List Nat} (hw : ws.length = 1024) (hl : ∀ p ∈ l, p < 65536) :
    ∃ ws', setListMem m ws l = .ok ws' ∧ ws'.length = 1024 ∧ ∀ x, bitAt ws' x = Spec.union (Spec.ofList l) (bitAt ws) x := by
  obtain ⟨ws', e, l', b⟩ := setListMem_spec m (ws := ws) (l := l) (by rw [hw]; exact hl)
  exact ⟨ws', e, l'.trans hw, b⟩

/-- C102: clearing the bits of a list. -/
theorem C102_clear_list (m : Machine) {ws : List Word} {c : Int} {l : List Nat} (hw : ws.length = 1024) (hl : ∀ p ∈ l, p < 65536)
    (hc : c = (Spec.card 65536 (bitAt ws) : Nat)) :
    ∃ ws', clearListMem m ws c l = .ok (ws', (Spec.card 65536 (bitAt ws') : Nat)) ∧ ws'.length = 1024 ∧
      ∀ x, bitAt ws' x = Spec.diff (bitAt ws) (Spec.ofList l) x := by
  obtain ⟨ws', e, l', b⟩ := clearListMem_spec m (c := c) (l := l) (by rw [hw]; exact hl) hw (by rw [popAll_1024 hw]; exact hc)
  rw [popAll_1024 (l'.trans hw)] at e
  refine ⟨ws', e, l'.trans hw, fun x => ?_⟩
  rw [b x]
  unfold Spec.diff Spec.ofList
  rw [Bool.and_comm]
  by_cases hx : x ∈ l <;> simp [hx]

/-- Concrete cases. -/
example : memequals .avx512 (List.range 109) (List.range 109) 109 = .ok true := by decide +kernel
example : memequals .avx2 (List.range 45) (List.range 44 ++ [7]) 45 = .ok false := by decide +kernel
example : ∃ ws', clearListMem .avx512 (List.replicate 1024 0#64) 0 [3, 65535, 3] = .ok (ws', 0) := by
  obtain ⟨ws', h, _, hb⟩ := C102_clear_list .avx512 (ws := List.replicate 1024 0#64) (c := 0) (l := [3, 65535, 3]) List.length_replicate (by decide)
    (by rw [← popAll_1024 List.length_replicate, popAll, List.map_replicate]; decide +kernel)
  refine ⟨ws', ?_⟩
  rw [h, card_congr (t := fun _ => false)]
  · rw [show Spec.card 65536 (fun _ => false) = 0 by unfold Spec.card Spec.enum; rw [List.filter_eq_nil_iff.2 (by simp)]; rfl]
    rfl
  · intro x _
    rw [hb]
    unfold Spec.diff
    have : bitAt (List.replicate 1024 0#64) x = false := by
      unfold bitAt wd
      rw [List.getD_eq_getElem?_getD, List.getElem?_replicate]
      split <;> simp
    rw [this]
    rfl
example : runCardMem .avx2 ((List.range 19).map (fun i => (10 * i, i % 7))) = .ok 71 := by decide +kernel

/-! ### C103 -/

/-- An extension of the instruction set. -/
inductive Ext where
  | avx2
  | bmi2
  | avx512f
  | avx512dq
  | avx512bw
  | avx512vbmi2
  | avx512bitalg
  | avx512vpopcntdq
deriving DecidableEq

/-- What the processor's manual asks for before an extension may be used: its `cpuid` bit; for AVX2 also that the system has enabled XSAVE
(OSXSAVE) and saves the YMM registers (bit 2 of XCR0); for AVX-512 also the opmask and ZMM registers (bits 5 to 7). -/
def Ext.usable (c : Cpu) : Ext → Prop
  | .avx2 => c.ebx7.testBit 5 ∧ c.ecx1.testBit 27 ∧ c.xcr0.testBit 2
  | .bmi2 => c.ebx7.testBit 8
  | .avx512f => c.ebx7.testBit 16 ∧ c.ecx1.testBit 27 ∧ c.xcr0.testBit 2 ∧ c.xcr0.testBit 5 ∧ c.xcr0.testBit 6 ∧ c.xcr0.testBit 7
  | .avx512dq => c.ebx7.testBit 17 ∧ c.ecx1.testBit 27 ∧ c.xcr0.testBit 2 ∧ c.xcr0.testBit 5 ∧ c.xcr0.testBit 6 ∧ c.xcr0.testBit 7
  | .avx512bw => c.ebx7.testBit 30 ∧ c.ecx1.testBit 27 ∧ c.xcr0.testBit 2 ∧ c.xcr0.testBit 5 ∧ c.xcr0.testBit 6 ∧ c.xcr0.testBit 7
  | .avx512vbmi2 => c.ecx7.testBit 6 ∧ c.ecx1.testBit 27 ∧ c.xcr0.testBit 2 ∧ c.xcr0.testBit 5 ∧ c.xcr0.testBit 6 ∧ c.xcr0.testBit 7
  | .avx512bitalg => c.ecx7.testBit 12 ∧ c.ecx1.testBit 27 ∧ c.xcr0.testBit 2 ∧ c.xcr0.testBit 5 ∧ c.xcr0.testBit 6 ∧ c.xcr0.testBit 7
  | .avx512vpopcntdq => c.ecx7.testBit 14 ∧ c.ecx1.testBit 27 ∧ c.xcr0.testBit 2 ∧ c.xcr0.testBit 5 ∧ c.xcr0.testBit 6 ∧ c.xcr0.testBit 7

/-- The AVX-512 extensions the vector code uses. -/
def ext512 : List Ext := [.avx512f, .avx512dq, .avx512bw, .avx512vbmi2, .avx512bitalg, .avx512vpopcntdq]

theorem support_bits (k : Bool) (c : Cpu) :
    (hardwareSupport .plain k c).testBit 0 = isaHas (detectIsa c) ISA_AVX2 ∧
    (hardwareSupport .plain k c).testBit 1 = (k && isaHas (detectIsa c) AVX512_REQUIRED) := by
  unfold hardwareSupport supportOf
  simp only
  cases isaHas (detectIsa c) ISA_AVX2 <;> cases k <;> cases isaHas (detectIsa c) AVX512_REQUIRED <;> decide

/-- C103: the build for any x64 processor chooses the AVX2 code only if AVX2 may be used, and the AVX-512 code only if all its extensions may
be used; and on a processor with SSE4.2 and XSAVE it does choose them.  Missing: the instructions of other extensions in the AVX2 code. -/
theorem C103_detection_partial (k : Bool) (c : Cpu) :
    ((hardwareSupport .plain k c).testBit 0 = true → Ext.usable c .avx2) ∧
    ((hardwareSupport .plain k c).testBit 1 = true → ∀ e ∈ ext512, Ext.usable c e) ∧
    (c.ecx1.testBit 20 = true → c.ecx1.testBit 26 = true →
      (Ext.usable c .avx2 → (hardwareSupport .plain k c).testBit 0 = true) ∧
      (k = true → (∀ e ∈ ext512, Ext.usable c e) → (hardwareSupport .plain k c).testBit 1 = true)) := by
  obtain ⟨h0, h1⟩ := support_bits k c
  rw [h0, h1, detectIsa_avx2, detectIsa_avx512]
  unfold Cpu.avx512State Cpu.avxState
  refine ⟨?_, ?_, ?_⟩
  · intro h
    simp only [Bool.and_eq_true] at h
    exact ⟨h.2, h.1.1.2, h.1.2⟩
  · intro h e he
    simp only [Bool.and_eq_true] at h
    simp only [ext512, List.mem_cons, List.not_mem_nil, or_false] at he
    rcases he with rfl | rfl | rfl | rfl | rfl | rfl <;> simp only [Ext.usable] <;> simp [h]
  · intro h20 h26
    refine ⟨?_, ?_⟩
    · rintro ⟨a, b, d⟩
      simp [h20, h26, a, b, d]
    · rintro rfl h
      have a1 := h .avx512f (by simp [ext512])
      have a2 := h .avx512dq (by simp [ext512])
      have a3 := h .avx512bw (by simp [ext512])
      have a4 := h .avx512vbmi2 (by simp [ext512])
      have a5 := h .avx512bitalg (by simp [ext512])
      have a6 := h .avx512vpopcntdq (by simp [ext512])
      simp only [Ext.usable] at a1 a2 a3 a4 a5 a6
      simp [h20, h26, a1, a2, a3, a4, a5, a6]

/-- C103 fails for BMI2: the assembly that runs when AVX2 was found (`bitset_set_list`, `bitset_clear_list`) has the BMI2 instruction `shrx`,
but AVX2 is all that is tested. -/
theorem C103_bmi2_not_tested (k : Bool) : ∃ c : Cpu, (hardwareSupport .plain k c).testBit 0 = true ∧ ¬ Ext.usable c .bmi2 := by
  refine ⟨{ ecx1 := 2 ^ 20 + 2 ^ 26 + 2 ^ 27, ebx7 := 2 ^ 5, ecx7 := 0, xcr0 := 7 }, ?_, ?_⟩
  · cases k <;> decide
  · simp only [Ext.usable]
    decide

/-- A processor with everything. -/
example : hardwareSupport .plain true { ecx1 := 2 ^ 20 + 2 ^ 26 + 2 ^ 27, ebx7 := 2 ^ 5 + 2 ^ 16 + 2 ^ 17 + 2 ^ 30, ecx7 := 2 ^ 6 + 2 ^ 12 + 2 ^ 14, xcr0 := 231 } = 3 := by
  decide

/-! ### C104 -/

/-- C104: any number of threads that use the library for the first time at once, in any order of their steps: a thread that gets an answer gets
the one that a single thread would get. -/
theorem C104_same_answer_partial (k : Bool) (c : Cpu) (n : Nat) (sched : List Nat) {t v : Nat} (h : (isaRun c k n sched).2[t]? = some (.done v)) :
    v = hardwareSupport .plain k c :=
  (isaRun_ok c k n sched).pcs _ (List.mem_of_getElem? h)

/-- C104: and it gets one after at most nine steps of its own, whatever the others do. -/
theorem C104_answer_comes (k : Bool) (c : Cpu) {n : Nat} (sched : List Nat) {t : Nat} (ht : t < n) (h9 : 9 ≤ sched.count t) :
    (isaRun c k n sched).2[t]? = some (.done (hardwareSupport .plain k c)) := by
  obtain ⟨pc, e, hl⟩ := isaRun_left (c := c) (k := k) sched (IsaMem.init, List.replicate n .test) t .test
    (by simp only; rw [List.getElem?_replicate_of_lt ht])
  have e' : (isaRun c k n sched).2[t]? = some pc := e
  have hz : pc.left = 0 := by
    have : IsaPc.test.left = 9 := rfl
    omega
  cases pc with
  | done v => rw [e', C104_same_answer_partial k c n sched e']
  | probe s i => cases s <;> simp [IsaPc.left] at hz
  | fill s i => cases s <;> simp [IsaPc.left] at hz
  | result s i => cases s <;> simp [IsaPc.left] at hz
  | _ => simp [IsaPc.left] at hz

/-- C104 fails where `support` is a plain `int` (C++, C without atomics): two threads can come to a write and a read of it at once. -/
theorem C104_plain_int_race (k : Bool) (c : Cpu) : ∃ sched, ∃ p q, (isaRun c k 2 sched).2 = [p, q] ∧ p.writesSupport = true ∧ q.readsSupport = true := by
  have hn := detectIsa_ne c
  cases k
  · exact ⟨[0, 0, 0, 0], .store (supportOf false (detectIsa c) 0), .test, rfl, rfl, rfl⟩
  · refine ⟨[0, 0, 0, 0, 0, 0], .store (supportOf true (detectIsa c) (detectIsa c)), .test, ?_, rfl, rfl⟩
    simp [isaRun, isaStepAt, isaStep, IsaMem.init, IsaPc.after, hn, List.replicate]

/-- Two threads, step by step in turn. -/
example (c : Cpu) : (isaRun c true 2 (List.replicate 9 0 ++ List.replicate 9 1)).2[1]? = some (.done (hardwareSupport .plain true c)) :=
  C104_answer_comes true c _ (by decide) (by decide)

end CRoaring.Props
