import Verif.Lemmas.Lazy

set_option linter.unusedSimpArgs false
set_option linter.unusedVariables false

/-! The shift of a bitmap by an offset. -/

namespace CRoaring
open Spec

/-- Invariant of the containers under construction: a bitset has its cardinality, but may be small. -/
def MInv : Container → Prop
  | .bitset b => BitOK b
  | .array l => ArrOK l ∧ l.length ≤ 4096
  | .run rs => RunOK rs

structure MRep (c : Container) (s : NSet) : Prop where
  inv : MInv c
  has : ∀ x, chas c x = s x

theorem MRep.lrep {c : Container} {s : NSet} (h : MRep c s) : LRep c s := by
  cases c with
  | bitset b => exact ⟨⟨h.inv.len, Or.inr h.inv.card⟩, h.has⟩
  | array l => exact ⟨h.inv, h.has⟩
  | run rs => exact ⟨h.inv, h.has⟩

theorem Rep.mrep {c : Container} {s : NSet} (h : Rep c s) : MRep c s := by
  cases c with
  | bitset b => exact ⟨h.inv.1, h.has⟩
  | array l => exact ⟨h.inv, h.has⟩
  | run rs => exact ⟨h.inv, h.has⟩

theorem MRep.comm_union {c : Container} {s t : NSet} (h : MRep c (union s t)) : MRep c (union t s) :=
  ⟨h.inv, fun x => by rw [h.has]; simp [union, Bool.or_comm]⟩

theorem arrayBitsetUnion_mspec {l : List Nat} {b : Bitset} {s t : NSet} (h1 : Rep (.array l) s)
    (h2 : MRep (.bitset b) t) : MRep (.bitset (arrayBitsetUnion l b)) (union s t) := by
  obtain ⟨a1, a2, a3⟩ := rep_arr_iff h1
  have b1 : BitOK b := h2.inv
  have b3 : ∀ x, bitAt b.words x = t x := h2.has
  obtain ⟨c1, c2, c3⟩ := setListWithcard_spec b1.len a1 b1.card
  refine ⟨⟨c1, c3⟩, fun x => ?_⟩
  show bitAt (bitsetSetListWithcard b.words b.card l).1 x = union s t x
  rw [c2, mem_dec a2, b3]; rfl

theorem runBitsetOr_mrep {rs : List Rle} {b : Bitset} {s t : NSet} (h1 : Rep (.run rs) s) (h2 : MRep (.bitset b) t) :
    MRep (if runIsFull rs then .run rs else .bitset (runBitsetUnion rs b)) (union s t) := by
  split
  · rename_i h; exact (union_full h1 (fun x hx => h2.lrep.lt hx) h).mrep
  · obtain ⟨a1, a2⟩ := rep_run_iff h1
    have b1 : BitOK b := h2.inv
    have b3 : ∀ x, bitAt b.words x = t x := h2.has
    have e : ∀ x, bitAt (setRuns b.words rs) x = union s t x := by
      intro x; rw [bitAt_setRuns _ _ _ (run_lt64 a1 b1.len), a2, b3]; rfl
    refine ⟨⟨by simp only [runBitsetUnion]; rw [setRuns_length, b1.len], ?_⟩, e⟩
    simp only [runBitsetUnion]
    rw [computeCard_eq]

theorem containerIor_mspec (capacity : Nat) {c1 c2 : Container} {s t : NSet} (h1 : MRep c1 s) (h2 : MRep c2 t) :
    MRep (containerIor capacity c1 c2) (union s t) := by
  cases c1 with
  | bitset b1 =>
    cases c2 with
    | bitset b2 =>
      have ⟨e1, e2⟩ := bitsetOr_lrep h1.lrep h2.lrep
      simp only [containerIor]
      split
      · rename_i hc; exact (full_or_bitset e1 e2 hc).mrep
      · exact ⟨e1, e2⟩
    | array l2 => exact (arrayBitsetUnion_mspec (lrep_arr h2.lrep) h1).comm_union
    | run r2 => exact (runBitsetOr_mrep (lrep_run h2.lrep) h1).comm_union
  | array l1 =>
    have h1 := lrep_arr h1.lrep
    cases c2 with
    | bitset b2 => exact arrayBitsetUnion_mspec h1 h2
    | array l2 => exact (arrayArrayInplaceUnion_spec capacity h1 (lrep_arr h2.lrep)).mrep
    | run r2 => exact (rep_efficient (arrayRunUnion_rep h1 (lrep_run h2.lrep))).mrep
  | run r1 =>
    have h1 := lrep_run h1.lrep
    cases c2 with
    | bitset b2 => exact runBitsetOr_mrep h1 h2
    | array l2 => exact (rep_efficient (arrayRunUnion_rep (lrep_arr h2.lrep) h1)).comm_union.mrep
    | run r2 => exact (rep_efficient (runUnion_rep h1 (lrep_run h2.lrep))).mrep

theorem containerAddOffset_minv {c : Container} {s : NSet} (h : Rep c s) (lo hi : Bool) {off : Nat} (ho : 0 < off)
    (ho2 : off < 65536) :
    (∀ d, (containerAddOffset c lo hi off).1 = some d → MInv d) ∧
    (∀ d, (containerAddOffset c lo hi off).2 = some d → MInv d) := by
  have hs := containerAddOffset_spec h lo hi ho ho2
  cases c with
  | bitset b =>
    have h3 := bitsetOffset_spec (rep_bit_iff h).1 lo hi off ho2
    constructor
    · intro d hd
      obtain ⟨c, hc, rfl⟩ := Option.map_eq_some_iff.1 hd
      exact (h3.1 c hc).2.1
    · intro d hd
      obtain ⟨c, hc, rfl⟩ := Option.map_eq_some_iff.1 hd
      exact (h3.2.1 c hc).2.1
  | array l =>
    constructor
    · intro d hd
      have := (hs.2.2.1 d hd).1.inv
      simp only [containerAddOffset] at hd
      split at hd
      · obtain ⟨c, hc, rfl⟩ := Option.map_eq_some_iff.1 hd
        exact this
      · exact absurd hd (by simp)
    · intro d hd
      have := (hs.2.2.2.1 d hd).1.inv
      simp only [containerAddOffset] at hd
      split at hd
      · obtain ⟨c, hc, rfl⟩ := Option.map_eq_some_iff.1 hd
        exact this
      · exact absurd hd (by simp)
  | run rs =>
    constructor
    · intro d hd
      have := (hs.2.2.1 d hd).1.inv
      simp only [containerAddOffset] at hd
      split at hd
      · obtain ⟨c, hc, rfl⟩ := Option.map_eq_some_iff.1 hd
        exact this
      · exact absurd hd (by simp)
    · intro d hd
      have := (hs.2.2.2.1 d hd).1.inv
      simp only [containerAddOffset] at hd
      split at hd
      · obtain ⟨c, hc, rfl⟩ := Option.map_eq_some_iff.1 hd
        exact this
      · exact absurd hd (by simp)

def MNe (c : Container) : Prop := MInv c ∧ ∃ x, chas c x = true

theorem MNe.mrep {c : Container} (h : MNe c) : MRep c (chas c) := ⟨h.1, fun _ => rfl⟩

theorem keyEq (k v : Nat) : (k == v / 65536) = decide (v / 65536 = k) := by
  rw [Bool.eq_iff_iff, beq_iff_eq, decide_eq_true_eq, eq_comm]

theorem offsetAppend_spec (caps : Nat → Nat) {ra : Bitmap} (h : BP MNe ra) {k : Nat} (hk : k < 65536)
    (hle : ∀ p ∈ ra, p.1 ≤ k) {c : Container} (hc : MNe c) :
    BP MNe (offsetAppendWithMerge caps ra k c) ∧ (∀ p ∈ offsetAppendWithMerge caps ra k c, p.1 ≤ k) ∧
    ∀ v, bhas (offsetAppendWithMerge caps ra k c) v =
      (bhas ra v || (decide (v / 65536 = k) && chas c (v % 65536))) := by
  have happ : (∀ p ∈ ra, p.1 < k) → BP MNe (ra ++ [(k, c)]) ∧ (∀ p ∈ ra ++ [(k, c)], p.1 ≤ k) ∧
      ∀ v, bhas (ra ++ [(k, c)]) v = (bhas ra v || (decide (v / 65536 = k) && chas c (v % 65536))) := by
    intro hlt
    refine ⟨bp_append.2 ⟨h, ⟨hk, hc, by simp, trivial⟩, ?_⟩, ?_, ?_⟩
    · intro p hp q hq
      simp only [List.mem_singleton] at hq
      subst hq
      exact hlt p hp
    · intro p hp
      rcases List.mem_append.1 hp with hp | hp
      · exact hle p hp
      · simp only [List.mem_singleton] at hp
        subst hp
        exact Nat.le_refl _
    · intro v
      rw [bhas_append, bhas_cons, bhas_nil, Bool.or_false, keyEq]
  unfold offsetAppendWithMerge
  simp only
  rcases List.eq_nil_or_concat ra with e | ⟨A, ⟨k', c'⟩, e⟩
  · subst e
    rw [if_pos (by simp)]
    exact happ (by simp)
  · rw [List.concat_eq_append] at e
    subst e
    have hb := bp_append.1 h
    have hlen : (A ++ [(k', c')]).length - 1 = A.length := by simp
    rw [hlen, keyAt_mid, contAt_mid]
    by_cases hkk : k' = k
    · subst hkk
      rw [if_neg (by simp)]
      rw [List.set_append_right _ _ (Nat.le_refl _), Nat.sub_self, List.set_cons_zero]
      have hm := containerIor_mspec (caps k') hb.2.1.2.1.mrep hc.mrep
      refine ⟨bp_append.2 ⟨hb.1, ⟨hb.2.1.1, ⟨hm.inv, ?_⟩, by simp, trivial⟩, ?_⟩, ?_, ?_⟩
      · obtain ⟨y, hy⟩ := hc.2
        exact ⟨y, by rw [hm.has]; simp [union, hy]⟩
      · intro p hp q hq
        simp only [List.mem_singleton] at hq
        subst hq
        exact hb.2.2 p hp (k', c') (by simp)
      · intro p hp
        rcases List.mem_append.1 hp with hp | hp
        · exact hle p (by simp [hp])
        · simp only [List.mem_singleton] at hp
          subst hp
          exact Nat.le_refl _
      · intro v
        simp only [bhas_append, bhas_cons, bhas_nil, Bool.or_false, hm.has, union, keyEq]
        cases bhas A v <;> cases chas c' (v % 65536) <;> cases chas c (v % 65536) <;>
          by_cases e : v / 65536 = k' <;> simp [e]
    · rw [if_pos (Or.inr hkk)]
      refine happ fun p hp => ?_
      have h1 : k' ≤ k := hle (k', c') (by simp)
      rcases List.mem_append.1 hp with hp | hp
      · have : p.1 < k' := hb.2.2 p hp (k', c') (by simp)
        omega
      · simp only [List.mem_singleton] at hp
        subst hp
        show k' < k
        omega

/-- Membership in the shifted set. -/
def shifted (s : NSet) (d : Int) (v : Nat) : Bool := decide (v < 4294967296 ∧ d ≤ v) && s ((v : Int) - d).toNat

theorem shifted_append (A B : Bitmap) (d : Int) (v : Nat) :
    shifted (bhas (A ++ B)) d v = (shifted (bhas A) d v || shifted (bhas B) d v) := by
  simp only [shifted, bhas_append, Bool.and_or_distrib_left]

/-- A single container, shifted. -/
theorem shifted_single {key : Nat} {c : Container} {co : Int} {inOff : Nat} (h : key < 65536) (ho : inOff < 65536)
    (hc : ∀ x, chas c x = true → x < 65536) (v : Nat) :
    shifted (bhas [(key, c)]) (co * 65536 + inOff) v =
      (decide (v < 4294967296) &&
        ((decide (((v / 65536 : Nat) : Int) = key + co) && (decide (v % 65536 < 65536 ∧ inOff ≤ v % 65536) && chas c (v % 65536 - inOff))) ||
         (decide (((v / 65536 : Nat) : Int) = key + co + 1) && (decide (v % 65536 < 65536) && chas c (v % 65536 + 65536 - inOff))))) := by
  rw [shifted, bhas_cons, bhas_nil, Bool.or_false, Bool.eq_iff_iff]
  simp only [Bool.and_eq_true, Bool.or_eq_true, decide_eq_true_eq, beq_iff_eq]
  constructor
  · rintro ⟨⟨h1, h2⟩, h3, h4⟩
    refine ⟨h1, ?_⟩
    by_cases hl : inOff ≤ v % 65536
    · refine Or.inl ⟨by omega, ⟨by omega, hl⟩, ?_⟩
      rw [show v % 65536 - inOff = ((v : Int) - (co * 65536 + inOff)).toNat % 65536 by omega]; exact h4
    · refine Or.inr ⟨by omega, by omega, ?_⟩
      rw [show v % 65536 + 65536 - inOff = ((v : Int) - (co * 65536 + inOff)).toNat % 65536 by omega]; exact h4
  · rintro ⟨h1, ⟨h2, ⟨h3, h4⟩, h5⟩ | ⟨h2, h3, h5⟩⟩
    · refine ⟨⟨h1, by omega⟩, by omega, ?_⟩
      rw [show ((v : Int) - (co * 65536 + inOff)).toNat % 65536 = v % 65536 - inOff by omega]; exact h5
    · have := hc _ h5
      refine ⟨⟨h1, by omega⟩, by omega, ?_⟩
      rw [show ((v : Int) - (co * 65536 + inOff)).toNat % 65536 = v % 65536 + 65536 - inOff by omega]; exact h5

theorem offsetLoop_spec (caps : Nat → Nat) {co : Int} {inOff : Nat} (ho : 0 < inOff) (ho2 : inOff < 65536) (t : Bitmap) :
    ∀ (A ans : Bitmap), BInv (A ++ t) → BP MNe ans → (∀ q ∈ ans, ∃ p ∈ A, (q.1 : Int) ≤ p.1 + co + 1) →
    (∀ v, bhas ans v = shifted (bhas A) (co * 65536 + inOff) v) →
    BP MNe (offsetLoop caps co inOff ans t) ∧
      ∀ v, bhas (offsetLoop caps co inOff ans t) v = shifted (bhas (A ++ t)) (co * 65536 + inOff) v := by
  induction t with
  | nil =>
    intro A ans h h1 h2 h3
    rw [offsetLoop, List.append_nil]
    exact ⟨h1, h3⟩
  | cons p t ih =>
    intro A ans h h1 h2 h3
    obtain ⟨key, c⟩ := p
    have hbm := bp_mid.1 h
    have hcr := hbm.2.2.1.1.rep
    have hkey := hbm.2.1
    have eA : A ++ (key, c) :: t = (A ++ [(key, c)]) ++ t := by simp
    have hmono : ∀ q ∈ ans, ∃ p ∈ A ++ [(key, c)], (q.1 : Int) ≤ p.1 + co + 1 := fun q hq => by
      obtain ⟨p, hp, hh⟩ := h2 q hq
      exact ⟨p, by simp [hp], hh⟩
    have hlek : ∀ q ∈ ans, (q.1 : Int) ≤ key + co := fun q hq => by
      obtain ⟨p, hp, hh⟩ := h2 q hq
      have := hbm.2.2.2.1 p hp
      omega
    have hsh : ∀ v, shifted (bhas (A ++ [(key, c)])) (co * 65536 + inOff) v =
        (bhas ans v || shifted (bhas [(key, c)]) (co * 65536 + inOff) v) := fun v => by
      rw [shifted_append, h3]
    have hsing := shifted_single (key := key) (c := c) (co := co) hkey ho2 (fun x hx => hcr.lt hx)
    rw [eA, offsetLoop]
    simp only
    split
    · rename_i hn
      simp only [decide_eq_false_iff_not] at hn
      refine ih _ ans (eA ▸ h) h1 hmono fun v => ?_
      rw [hsh, hsing]
      have e1 : ¬ (((v / 65536 : Nat) : Int) = key + co ∧ v < 4294967296) := by omega
      have e2 : ¬ (((v / 65536 : Nat) : Int) = key + co + 1 ∧ v < 4294967296) := by omega
      by_cases hv : v < 4294967296
      · rw [decide_eq_false (fun e => e1 ⟨e, hv⟩), decide_eq_false (fun e => e2 ⟨e, hv⟩)]
        simp
      · rw [decide_eq_false hv]; simp
    · have hs := containerAddOffset_spec hcr (decide ((key : Int) + co ≥ 0 ∧ (key : Int) + co < 65536))
        (decide ((key : Int) + co + 1 ≥ 0 ∧ (key : Int) + co + 1 < 65536)) ho ho2
      have hmi := containerAddOffset_minv hcr (decide ((key : Int) + co ≥ 0 ∧ (key : Int) + co < 65536))
        (decide ((key : Int) + co + 1 ≥ 0 ∧ (key : Int) + co + 1 < 65536)) ho ho2
      generalize containerAddOffset c _ _ inOff = r at hs hmi ⊢
      obtain ⟨lo, hi⟩ := r
      simp only at hs hmi ⊢
      obtain ⟨s1, s2, s3, s4, s5, s6⟩ := hs
      -- after the low part
      have step1 : ∃ ans1, offsetPutLo caps ans ((key : Int) + co) lo = ans1 ∧
          BP MNe ans1 ∧ (∀ q ∈ ans1, (q.1 : Int) ≤ key + co) ∧
          ∀ v, v < 4294967296 → bhas ans1 v = (bhas ans v || (decide (((v / 65536 : Nat) : Int) = key + co) &&
            (decide (v % 65536 < 65536 ∧ inOff ≤ v % 65536) && chas c (v % 65536 - inOff)))) := by
        cases lo with
        | none =>
          refine ⟨ans, rfl, h1, hlek, fun v hv => ?_⟩
          by_cases hk : ((v / 65536 : Nat) : Int) = key + co
          · have h0 := s5 (by rw [decide_eq_true_eq]; omega) rfl
            have : (decide (v % 65536 < 65536 ∧ inOff ≤ v % 65536) && chas c (v % 65536 - inOff)) = false := by
              rw [Bool.eq_false_iff]
              intro hh
              simp only [Bool.and_eq_true, decide_eq_true_eq] at hh
              have := h0 _ hh.2
              omega
            rw [this]; simp
          · rw [decide_eq_false hk]; simp
        | some d =>
          have hkr : (key : Int) + co ≥ 0 ∧ (key : Int) + co < 65536 := by
            have : ¬ (decide ((key : Int) + co ≥ 0 ∧ (key : Int) + co < 65536) = false) := fun e => by simpa using s1 e
            simpa using this
          obtain ⟨q1, x, hx, hxo⟩ := s3 d rfl
          have hne : MNe d := ⟨hmi.1 d rfl, x + inOff, by
            rw [q1.has, Bool.and_eq_true, decide_eq_true_eq]
            exact ⟨by omega, by rw [Nat.add_sub_cancel]; exact hx⟩⟩
          have h := offsetAppend_spec caps h1 (k := ((key : Int) + co).toNat) (by omega)
            (fun p hp => by have := hlek p hp; omega) hne
          refine ⟨_, rfl, h.1, fun q hq => by have := h.2.1 q hq; omega, fun v hv => ?_⟩
          show bhas (offsetAppendWithMerge caps ans ((key : Int) + co).toNat d) v = _
          rw [h.2.2, q1.has, decide_eq_decide.2 (show v / 65536 = ((key : Int) + co).toNat ↔ ((v / 65536 : Nat) : Int) = key + co by omega)]
      obtain ⟨ans1, e1, b1, b2, b3⟩ := step1
      rw [e1]
      have hlt : ∀ v, shifted (bhas [(key, c)]) (co * 65536 + inOff) v = true → v < 4294967296 := by
        intro v hv
        simp only [shifted, Bool.and_eq_true, decide_eq_true_eq] at hv
        exact hv.1.1
      have step2 : ∃ ans2, offsetPutHi ans1 ((key : Int) + co) hi = ans2 ∧
          BP MNe ans2 ∧ (∀ q ∈ ans2, (q.1 : Int) ≤ key + co + 1) ∧
          ∀ v, v < 4294967296 → bhas ans2 v = (bhas ans1 v || (decide (((v / 65536 : Nat) : Int) = key + co + 1) &&
            (decide (v % 65536 < 65536) && chas c (v % 65536 + 65536 - inOff)))) := by
        cases hi with
        | none =>
          refine ⟨ans1, rfl, b1, fun q hq => by have := b2 q hq; omega, fun v hv => ?_⟩
          by_cases hk : ((v / 65536 : Nat) : Int) = key + co + 1
          · have h0 := s6 (by rw [decide_eq_true_eq]; omega) rfl
            have : chas c (v % 65536 + 65536 - inOff) = false := by
              rw [Bool.eq_false_iff]
              intro hh
              have := h0 _ hh
              omega
            rw [this]; simp
          · rw [decide_eq_false hk]; simp
        | some d =>
          have hkr : (key : Int) + co + 1 ≥ 0 ∧ (key : Int) + co + 1 < 65536 := by
            have : ¬ (decide ((key : Int) + co + 1 ≥ 0 ∧ (key : Int) + co + 1 < 65536) = false) := fun e => by simpa using s2 e
            simpa using this
          obtain ⟨q1, x, hx, hxo⟩ := s4 d rfl
          have hxl := hcr.lt hx
          have hne : MNe d := ⟨hmi.2 d rfl, x + inOff - 65536, by
            rw [q1.has, Bool.and_eq_true, decide_eq_true_eq]
            exact ⟨by omega, by rw [show x + inOff - 65536 + 65536 - inOff = x by omega]; exact hx⟩⟩
          refine ⟨_, rfl, bp_append.2 ⟨b1, ⟨by omega, hne, by simp, trivial⟩, ?_⟩, ?_, fun v hv => ?_⟩
          · intro p hp q hq
            simp only [List.mem_singleton] at hq
            subst hq
            have := b2 p hp
            show p.1 < ((key : Int) + co + 1).toNat
            omega
          · intro q hq
            rcases List.mem_append.1 hq with hq | hq
            · have := b2 q hq; omega
            · simp only [List.mem_singleton] at hq
              subst hq
              show ((((key : Int) + co + 1).toNat : Nat) : Int) ≤ _
              omega
          · show bhas (ans1 ++ [(((key : Int) + co + 1).toNat, d)]) v = _
            rw [bhas_append, bhas_cons, bhas_nil, Bool.or_false, q1.has]
            rw [keyEq, decide_eq_decide.2 (show v / 65536 = ((key : Int) + co + 1).toNat ↔ ((v / 65536 : Nat) : Int) = key + co + 1 by omega)]
      obtain ⟨ans2, e2, d1, d2, d3⟩ := step2
      rw [e2]
      refine ih _ ans2 (eA ▸ h) d1 (fun q hq => ⟨(key, c), by simp, d2 q hq⟩) fun v => ?_
      rw [hsh, hsing]
      by_cases hv : v < 4294967296
      · rw [d3 v hv, b3 v hv, decide_eq_true hv, Bool.true_and, Bool.or_assoc]
      · rw [decide_eq_false hv, Bool.false_and, Bool.or_false]
        cases e : bhas ans2 v
        · cases e' : bhas ans v
          · rfl
          · exact absurd (bhas_lt h1 e') hv
        · exact absurd (bhas_lt d1 e) hv

theorem offsetKeys_spec {co : Int} {r : Bitmap} (h : BInv r) :
    BInv (offsetKeys co r) ∧ (∀ q ∈ offsetKeys co r, ∃ p ∈ r, (q.1 : Int) = p.1 + co) ∧
      ∀ v, bhas (offsetKeys co r) v = shifted (bhas r) (co * 65536) v := by
  induction r with
  | nil => exact ⟨trivial, by simp [offsetKeys], fun v => by simp [offsetKeys, bhas_nil, shifted]⟩
  | cons p t ih =>
    obtain ⟨key, c⟩ := p
    obtain ⟨i1, i2, i3⟩ := ih h.2.2.2
    have e0 : (key, c) :: t = [(key, c)] ++ t := rfl
    have hsing := shifted_single (key := key) (c := c) (co := co) (inOff := 0) h.1 (by omega)
      (fun x hx => h.2.1.1.rep.lt hx)
    have hs : ∀ v, shifted (bhas ((key, c) :: t)) (co * 65536) v =
        ((decide (v < 4294967296) && (decide (((v / 65536 : Nat) : Int) = key + co) && chas c (v % 65536))) ||
          bhas (offsetKeys co t) v) := by
      intro v
      rw [e0, shifted_append, i3, show co * 65536 = co * 65536 + ((0 : Nat) : Int) by omega, hsing]
      have hz : chas c (v % 65536 + 65536) = false := h.2.1.1.rep.zero (by omega)
      have : v % 65536 < 65536 := by omega
      simp [hz, this]
    by_cases hk : (key : Int) + co < 0 ∨ (key : Int) + co ≥ 65536
    · have e : offsetKeys co ((key, c) :: t) = offsetKeys co t := by
        simp only [offsetKeys, List.filterMap_cons, if_pos hk]
      rw [e]
      refine ⟨i1, fun q hq => ?_, fun v => ?_⟩
      · obtain ⟨p, hp, hh⟩ := i2 q hq
        exact ⟨p, by simp [hp], hh⟩
      · rw [hs]
        by_cases hv : v < 4294967296
        · rw [decide_eq_false (show ¬ (((v / 65536 : Nat) : Int) = key + co) by omega)]; simp
        · rw [decide_eq_false hv]; simp
    · have e : offsetKeys co ((key, c) :: t) = (((key : Int) + co).toNat, c) :: offsetKeys co t := by
        simp only [offsetKeys, List.filterMap_cons, if_neg hk]
      rw [e]
      refine ⟨⟨by omega, h.2.1, ?_, i1⟩, ?_, fun v => ?_⟩
      · intro q hq
        obtain ⟨p, hp, hh⟩ := i2 q hq
        have := h.2.2.1 p hp
        show ((key : Int) + co).toNat < q.1
        omega
      · intro q hq
        rcases List.mem_cons.1 hq with rfl | hq
        · exact ⟨(key, c), by simp, by show ((((key : Int) + co).toNat : Nat) : Int) = key + co; omega⟩
        · obtain ⟨p, hp, hh⟩ := i2 q hq
          exact ⟨p, by simp [hp], hh⟩
      · rw [hs, bhas_cons]
        congr 1
        rw [keyEq, ← Bool.and_assoc]
        congr 1
        rw [Bool.eq_iff_iff, Bool.and_eq_true, decide_eq_true_eq, decide_eq_true_eq, decide_eq_true_eq]
        omega

theorem rbAddOffset_spec (caps : Nat → Nat) {r : Bitmap} (h : BInv r) (d : Int) :
    BInv (rbAddOffset caps r d) ∧ ∀ v, bhas (rbAddOffset caps r d) v = shifted (bhas r) d v := by
  unfold rbAddOffset
  split
  · rename_i hd
    subst hd
    refine ⟨h, fun v => ?_⟩
    simp only [rbCopy, shifted, Int.sub_zero, Int.toNat_natCast]
    cases e : bhas r v
    · simp
    · simp [bhas_lt h e]
  · simp only
    have e1 : d - d / 65536 * 65536 = d % 65536 := by omega
    have e2 : ((d - d / 65536 * 65536) % 65536).toNat = (d % 65536).toNat := by omega
    rw [e2]
    split
    · rename_i hz
      have := offsetKeys_spec (co := d / 65536) h
      rw [show d / 65536 * 65536 = d by omega] at this
      exact ⟨this.1, this.2.2⟩
    · rename_i hz
      have h1 := offsetLoop_spec caps (co := d / 65536) (inOff := (d % 65536).toNat) (by omega) (by omega) r [] [] h trivial
        (by simp) (fun v => by simp [bhas_nil, shifted])
      rw [show d / 65536 * 65536 + (((d % 65536).toNat : Nat) : Int) = d by omega, List.nil_append] at h1
      have h2 := rbRepair_spec (BP.mono h1.1 fun c hc => ⟨hc.mrep.lrep.inv, hc.2⟩)
      exact ⟨h2.1, fun v => by rw [h2.2, h1.2]⟩

end CRoaring
