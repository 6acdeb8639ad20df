import Verif.Lemmas.ContMem
set_option linter.unusedSimpArgs false
set_option linter.unusedVariables false

namespace CRoaring
open Spec

variable {E : MemEnv}

theorem gives_clone (hE : EnvOK E) {a : ArrBuf} {l : List Nat} (h : AHolds a l) :
    Gives (do let o ← arrayCloneBuf E.vals a; .ok (.array o)) (.array l) := by
  obtain ⟨o, e, ho, _⟩ := arrayCloneBuf_spec hE.vals h
  exact gives_array ⟨o, e, ho⟩

/-! ### Symmetric difference -/

theorem arrayArrayXorBuf_spec (hE : EnvOK E) {a1 a2 : ArrBuf} {l1 l2 : List Nat} (h1 : AHolds a1 l1) (h2 : AHolds a2 l2) (o1 : ArrOK l1)
    (o2 : ArrOK l2) (z1 : l1.length ≤ 4096) (z2 : l2.length ≤ 4096) : Gives (arrayArrayXorBuf E a1 a2) (arrayArrayXor l1 l2) := by
  rw [arrayArrayXorBuf, arrayArrayXor, h1.card, h2.card]
  split
  · have := arrayXorBuf_spec E.hw.avx2 hE.vals (h1.bufOK o1 z1) (h2.bufOK o2 z2) (arrayCreateBuf E.vals (l1.length + l2.length))
    rw [h1.vals, h2.vals] at this
    exact gives_array' this
  · refine gives_load h1 (gives_load h2 ?_)
    have hb := bitsetFromArray_spec o1.lt
    have hc : ((l1.length : Nat) : Int) = card 65536 (bitAt (bitsetFromArray l1).words) := by
      rw [← o1.card]
      exact congrArg _ (card_congr fun x _ => by rw [hb.2]; simp [ofList])
    have := flipListWithcard_spec hb.1.len o2 hc
    exact bitsetOrArrayBuf_spec hE ⟨this.1, this.2.2⟩

theorem arrayArrayLazyXorBuf_spec (hE : EnvOK E) {a1 a2 : ArrBuf} {l1 l2 : List Nat} (h1 : AHolds a1 l1) (h2 : AHolds a2 l2) (o1 : ArrOK l1)
    (o2 : ArrOK l2) (z1 : l1.length ≤ 4096) (z2 : l2.length ≤ 4096) : Gives (arrayArrayLazyXorBuf E a1 a2) (arrayArrayLazyXor l1 l2) := by
  rw [arrayArrayLazyXorBuf, arrayArrayLazyXor, h1.card, h2.card]
  split
  · have := arrayXorBuf_spec E.hw.avx2 hE.vals (h1.bufOK o1 z1) (h2.bufOK o2 z2) (arrayCreateBuf E.vals (l1.length + l2.length))
    rw [h1.vals, h2.vals] at this
    exact gives_array' this
  · exact gives_load h1 (gives_load h2 (gives_ok rfl))

theorem arrayBitsetXorBuf_spec (hE : EnvOK E) {a : ArrBuf} {l : List Nat} (h : AHolds a l) (o : ArrOK l) {b : Bitset} (hb : BitOK b) :
    Gives (arrayBitsetXorBuf E a b) (arrayBitsetXor l b) := by
  refine gives_load h ?_
  have := flipListWithcard_spec hb.len o hb.card
  exact bitsetOrArrayBuf_spec hE ⟨this.1, this.2.2⟩

theorem runBitsetXorBuf_spec (hE : EnvOK E) {r : RunBuf} {rs : List Rle} (h : Holds r rs) (o : RunOK rs) {b : Bitset}
    (hb : b.words.length = 1024) : Gives (runBitsetXorBuf E r b) (runBitsetXor rs b) :=
  gives_loadR h (bitsetOrArrayBuf_spec hE (compute_ok (flipRuns_spec _ _ hb o).1))

theorem arrayRunXorBuf_spec (hE : EnvOK E) {a : ArrBuf} {l : List Nat} (ha : AHolds a l) (o : ArrOK l) (hl : l.length ≤ 4096) {r : RunBuf}
    {rs : List Rle} (h : Holds r rs) (hr : RunOK rs) : Gives (arrayRunXorBuf E a r) (arrayRunXor l rs) := by
  rw [arrayRunXorBuf, arrayRunXor, h.load, ok_bind, ha.card]
  split
  · exact gives_load ha (gives_eff hE (arrayRunLazyXorBuf_spec hE.runs _ h _))
  · split
    · rename_i c
      obtain ⟨t, e, ht⟩ := arrayFromRunBuf_spec hE.vals h
      rw [e, ok_bind]
      have hv := arrayFromRun_eq hr
      refine arrayArrayXorBuf_spec hE ht ha (hv ▸ runValues_arrOK hr) o ?_ hl
      rw [hv, runValues_length]; exact c
    · exact arrayBitsetXorBuf_spec hE ha o (bitsetFromRun_spec hr).1

theorem runRunXorBuf_spec (hE : EnvOK E) {r1 r2 : RunBuf} {v1 v2 : List Rle} (h1 : Holds r1 v1) (h2 : Holds r2 v2) :
    Gives (runRunXorBuf E r1 r2) (runRunXor v1 v2) := gives_eff hE (runXorBuf_spec hE.runs h1 h2 _)

/-- A valid container, except that a bitset may have few elements. -/
def WCInv : Container → Prop
  | .bitset b => BitOK b
  | .array l => ArrOK l ∧ l.length ≤ 4096
  | .run rs => RunOK rs

theorem CInv.winv {c : Container} (h : CInv c) : WCInv c := by
  cases c
  · exact h.1
  · exact h
  · exact h

theorem cXorBuf_spec (hE : EnvOK E) {o1 o2 : CBuf} {c1 c2 : Container} (h1 : CHolds o1 c1) (h2 : CHolds o2 c2) (i1 : WCInv c1) (i2 : WCInv c2) :
    Gives (cXorBuf E o1 o2) (containerXor c1 c2) := by
  cases o1 <;> cases c1 <;> try exact h1.elim
  all_goals cases o2 <;> cases c2 <;> try exact h2.elim
  · cases h1; cases h2; exact bitsetOrArrayBuf_spec hE (bitsetOp_ok _ i1.len i2.len)
  · cases h1; exact arrayBitsetXorBuf_spec hE h2 i2.1 i1
  · cases h1; exact runBitsetXorBuf_spec hE h2 i2 i1.len
  · cases h2; exact arrayBitsetXorBuf_spec hE h1 i1.1 i2
  · exact arrayArrayXorBuf_spec hE h1 h2 i1.1 i2.1 i1.2 i2.2
  · exact arrayRunXorBuf_spec hE h1 i1.1 i1.2 h2 i2
  · cases h2; exact runBitsetXorBuf_spec hE h1 i1 i2.len
  · exact arrayRunXorBuf_spec hE h2 i2.1 i2.2 h1 i1
  · exact runRunXorBuf_spec hE h1 h2

theorem cIxorBuf_spec (hE : EnvOK E) {o1 o2 : CBuf} {c1 c2 : Container} (h1 : CHolds o1 c1) (h2 : CHolds o2 c2) (i1 : CInv c1) (i2 : CInv c2) :
    Gives (cXorBuf E o1 o2) (containerIxor c1 c2) := by
  rw [containerIxor_eq]; exact cXorBuf_spec hE h1 h2 i1.winv i2.winv

theorem cLazyXorBuf_spec (hE : EnvOK E) {o1 o2 : CBuf} {c1 c2 : Container} (h1 : CHolds o1 c1) (h2 : CHolds o2 c2) (i1 : LInv c1) (i2 : LInv c2) :
    Gives (cLazyXorBuf E o1 o2) (containerLazyXor c1 c2) := by
  cases o1 <;> cases c1 <;> try exact h1.elim
  all_goals cases o2 <;> cases c2 <;> try exact h2.elim
  · cases h1; cases h2; exact gives_ok rfl
  · cases h1; exact gives_load h2 (gives_ok rfl)
  · cases h1; exact gives_loadR h2 (gives_ok rfl)
  · cases h2; exact gives_load h1 (gives_ok rfl)
  · exact arrayArrayLazyXorBuf_spec hE h1 h2 i1.1 i2.1 i1.2 i2.2
  · exact gives_load h1 (gives_run (arrayRunLazyXorBuf_spec hE.runs _ h2 _))
  · cases h2; exact gives_loadR h1 (gives_ok rfl)
  · exact gives_load h2 (gives_run (arrayRunLazyXorBuf_spec hE.runs _ h1 _))
  · exact runRunXorBuf_spec hE h1 h2

theorem cLazyIxorBuf_spec (hE : EnvOK E) {o1 o2 : CBuf} {c1 c2 : Container} (h1 : CHolds o1 c1) (h2 : CHolds o2 c2) (i1 : LInv c1) (i2 : CInv c2) :
    Gives (cLazyIxorBuf E o1 o2) (containerLazyIxor c1 c2) := by
  have key : ∀ {b : Bitset}, LInv (.bitset b) → BitOK (if b.card = UNKNOWN_CARD then ⟨computeCard b.words, b.words⟩ else b) := by
    intro b i
    split
    · exact compute_ok i.1
    · rename_i c; exact ⟨i.1, i.2.resolve_left c⟩
  cases o1 <;> cases c1 <;> try exact h1.elim
  · cases h1
    cases o2 <;> cases c2 <;> try exact h2.elim
    · cases h2; exact gives_ok rfl
    · simp only [cLazyIxorBuf, containerLazyIxor]
      rw [containerIxor_eq]
      exact cXorBuf_spec hE (c2 := .array _) rfl h2 (key i1) i2.winv
    · simp only [cLazyIxorBuf, containerLazyIxor]
      rw [containerIxor_eq]
      exact cXorBuf_spec hE (c2 := .run _) rfl h2 (key i1) i2.winv
  · have e1 : cLazyIxorBuf E (.array ‹_›) o2 = cXorBuf E (.array ‹_›) o2 := by cases o2 <;> rfl
    have e2 : containerLazyIxor (.array ‹_›) c2 = containerIxor (.array ‹_›) c2 := by cases c2 <;> rfl
    rw [e1, e2, containerIxor_eq]
    exact cXorBuf_spec hE h1 h2 i1 i2.winv
  · have e1 : cLazyIxorBuf E (.run ‹_›) o2 = cXorBuf E (.run ‹_›) o2 := by cases o2 <;> rfl
    have e2 : containerLazyIxor (.run ‹_›) c2 = containerIxor (.run ‹_›) c2 := by cases c2 <;> rfl
    rw [e1, e2, containerIxor_eq]
    exact cXorBuf_spec hE h1 h2 i1 i2.winv

theorem cRepairBuf_spec (hE : EnvOK E) {o : CBuf} {c : Container} (h : CHolds o c) (i : LInv c) : Gives (cRepairBuf E o) (containerRepair c) := by
  cases o <;> cases c <;> try exact h.elim
  · cases h; exact bitsetOrArrayBuf_spec hE (compute_ok i.1)
  · exact gives_ok h
  · exact convertEffBuf_spec hE h

/-! ### Difference -/

theorem bitsetArrayAndnotBuf_spec (hE : EnvOK E) {a : ArrBuf} {l : List Nat} (h : AHolds a l) (o : ArrOK l) {b : Bitset} (hb : BitOK b) :
    Gives (bitsetArrayAndnotBuf E b a) (bitsetArrayAndnot b l) := by
  refine gives_load h ?_
  have := clearList_spec hb.len o hb.card
  exact bitsetOrArrayBuf_spec hE ⟨this.1, this.2.2⟩

theorem runBitsetDiffBuf_spec (hE : EnvOK E) {r : RunBuf} {rs : List Rle} (h : Holds r rs) {b : Bitset} (hb : b.words.length = 1024) :
    Gives (runBitsetDiffBuf E r b) (runBitsetAndnot rs b) := by
  refine gives_loadR h ?_
  rw [runBitsetAndnot]
  split
  · exact gives_array (runBitsetAndnotBuf_spec hE.vals h b)
  · exact bitsetOrArrayBuf_spec hE (compute_ok (by rw [flipRunsResetGaps_length, hb]))

theorem bitsetRunAndnotBuf_spec (hE : EnvOK E) {r : RunBuf} {rs : List Rle} (h : Holds r rs) (o : RunOK rs) {b : Bitset}
    (hb : b.words.length = 1024) : Gives (bitsetRunAndnotBuf E b r) (bitsetRunAndnot b rs) :=
  gives_loadR h (bitsetOrArrayBuf_spec hE (compute_ok (resetRuns_spec _ _ hb o).1))

theorem runArrayDiffBuf_spec (hE : EnvOK E) {a : ArrBuf} {l : List Nat} (ha : AHolds a l) (o : ArrOK l) {r : RunBuf} {rs : List Rle}
    (h : Holds r rs) (hr : RunOK rs) (hne : rs ≠ []) : Gives (runArrayDiffBuf E r a) (runArrayAndnot rs l) := by
  refine gives_loadR h ?_
  rw [runArrayAndnot.eq_def, ha.card]
  split
  · split
    · exact gives_run (h.clone hE.runs)
    · rename_i c
      have hl : l ≠ [] := fun e => c (by rw [e]; rfl)
      refine gives_load ha (gives_eff hE ?_)
      have := runArrayAndnotBuf_spec hE.runs h hne hl
      cases rs with
      | nil => exact absurd rfl hne
      | cons q qs =>
        simp only
        rw [runArrayAndnotLoop_eq]
        rw [runAndnot] at this
        cases l with
        | nil => exact absurd rfl hl
        | cons v l => exact this
  · split
    · exact gives_array (runArraySubtractBuf_spec hE.vals h ha)
    · exact bitsetArrayAndnotBuf_spec hE ha o (bitsetFromRun_spec hr).1

theorem unlessFull_spec (hE : EnvOK E) {r : RunBuf} {rs : List Rle} (h : Holds r rs) (hne : rs ≠ []) {k : Out CBuf} {c : Container}
    (hk : Gives k c) : Gives (unlessFull E r k) (if runIsFull rs then .array [] else c) := by
  rw [unlessFull, h.isFull hne, ok_bind]
  split
  · exact gives_ok (c := .array []) (aholds_nil _)
  · exact hk

theorem cAndnotBuf_spec (hE : EnvOK E) {o1 o2 : CBuf} {c1 c2 : Container} (h1 : CHolds o1 c1) (h2 : CHolds o2 c2) (i1 : CInv c1) (i2 : CInv c2)
    (n1 : NonEmptyRun c1) (n2 : NonEmptyRun c2) : Gives (cAndnotBuf E o1 o2) (containerAndnot c1 c2) := by
  cases o1 <;> cases c1 <;> try exact h1.elim
  all_goals cases o2 <;> cases c2 <;> try exact h2.elim
  · cases h1; cases h2; exact bitsetOrArrayBuf_spec hE (bitsetOp_ok _ i1.1.len i2.1.len)
  · cases h1; exact bitsetArrayAndnotBuf_spec hE h2 i2.1 i1.1
  · cases h1; exact unlessFull_spec hE h2 n2 (bitsetRunAndnotBuf_spec hE h2 i2 i1.1.len)
  · cases h2; exact gives_array (arrayBitsetAndnotBuf_spec hE.vals h1 (by have := i1.2; omega) _ _)
  · have := arrayAndnotBuf_spec E.hw.avx2 hE.vals (h1.bufOK i1.1 i1.2) (h2.bufOK i2.1 i2.2) (arrayCreateBuf E.vals 0)
    rw [h1.vals, h2.vals] at this
    exact gives_array' this
  · exact unlessFull_spec hE h2 n2 (gives_array (arrayRunAndnotBuf_spec hE.vals h1 i1.1 h2 _))
  · cases h2; exact runBitsetDiffBuf_spec hE h1 i2.1.len
  · exact runArrayDiffBuf_spec hE h2 i2.1 h1 i1 n1
  · exact unlessFull_spec hE h2 n2 (gives_eff hE (runAndnotBuf_spec hE.runs h1 h2 n1 n2 _))

theorem cIandnotBuf_spec (hE : EnvOK E) {o1 o2 : CBuf} {c1 c2 : Container} (h1 : CHolds o1 c1) (h2 : CHolds o2 c2) (i1 : CInv c1) (i2 : CInv c2)
    (n1 : NonEmptyRun c1) (n2 : NonEmptyRun c2) : Gives (cIandnotBuf E o1 o2) (containerIandnot c1 c2) := by
  cases o1 <;> cases c1 <;> try exact h1.elim
  all_goals cases o2 <;> cases c2 <;> try exact h2.elim
  · cases h1; cases h2; exact bitsetOrArrayBuf_spec hE (bitsetOp_ok _ i1.1.len i2.1.len)
  · cases h1; exact bitsetArrayAndnotBuf_spec hE h2 i2.1 i1.1
  · cases h1; exact bitsetRunAndnotBuf_spec hE h2 i2 i1.1.len
  · cases h2; exact gives_array (arrayBitsetIandnotBuf_spec h1 _)
  · obtain ⟨r, e, e1, e2, _⟩ := arrayAndnotInplaceBuf_spec (h1.bufOK i1.1 i1.2) (h2.bufOK i2.1 i2.2)
    rw [h1.vals, h2.vals] at e1
    exact gives_array' ⟨r, e, e1, e2⟩
  · exact gives_array (arrayRunIandnotBuf_spec h1 i1.1 h2)
  · cases h2; exact runBitsetDiffBuf_spec hE h1 i2.1.len
  · exact runArrayDiffBuf_spec hE h2 i2.1 h1 i1 n1
  · exact gives_eff hE (runAndnotBuf_spec hE.runs h1 h2 n1 n2 _)

/-! ### Complement -/

theorem bitsetNotRangeBuf_spec (hE : EnvOK E) {b : Bitset} (hb : b.words.length = 1024) (s e : Nat) :
    Gives (bitsetNotRangeBuf E b s e) (bitsetNegationRange b s e) := by
  have := bitsetOrArrayBuf_spec hE (compute_ok (ws := bitsetFlipRange b.words s e) (by rw [bitsetFlipRange_length, hb]))
  rw [bitsetOrArray] at this
  rw [bitsetNotRangeBuf, bitsetNegationRange]
  simp only at this ⊢
  split
  · rename_i c; rwa [if_neg (by omega)] at this
  · rename_i c; rwa [if_pos (by omega)] at this

theorem arrayNotRangeBuf_spec (hE : EnvOK E) {a : ArrBuf} {l : List Nat} (h : AHolds a l) (o : ArrOK l) {s e : Nat} (he : e ≤ 65536) :
    Gives (arrayNotRangeBuf E a s e) (arrayNegationRange l s e) := by
  rw [arrayNotRangeBuf, arrayNegationRange]
  by_cases hab : s ≥ e
  · rw [if_pos hab, if_pos hab]
    exact gives_clone hE h
  rw [if_neg hab, if_neg hab, h.load, ok_bind]
  simp only
  rw [Nat.mod_eq_of_lt (show s < 65536 by omega), Nat.mod_eq_of_lt (show e - 1 < 65536 by omega),
    bs_start o.sorted, bs_last o.sorted, show e - 1 + 1 = e by omega]
  have hn := negL_length o.sorted (a := s) (b := e) (by omega)
  have hnc : (l.length : Int) + ((e : Int) - s - ((lb l e : Int) - 1 - lb l s + 1) - ((lb l e : Int) - 1 - lb l s + 1)) =
      (negL l s e).length := by omega
  rw [hnc]
  split
  · exact gives_ok rfl
  · obtain ⟨b', e1, h1⟩ := arrayNegationBuf_spec hE.vals h o (a := s) (b := e) (by omega) he
    rw [Int.toNat_natCast, Int.toNat_natCast, e1, ok_bind]
    split
    · rename_i hz
      have hz' : negL l s e = [] := List.eq_nil_of_length_eq_zero (by omega)
      rw [hz'] at h1
      exact gives_ok h1
    · have hm := lb_mono (l := l) (show s ≤ e by omega)
      rw [negationLoop_eq o.sorted s (e - s) _ _ rfl (by rw [show s + (e - s) = e by omega]) (by omega),
        show ((lb l e : Int) - 1 + 1).toNat = lb l e by omega]
      have : negL l s e = l.take (lb l s) ++ (List.range' s (e - s)).filter (fun x => decide (x ∉ l)) ++ l.drop (lb l e) := rfl
      rw [← this, List.take_length]
      exact gives_ok h1

theorem runNotRangeBuf_spec (hE : EnvOK E) {r : RunBuf} {rs : List Rle} (h : Holds r rs) (s e : Nat) :
    Gives (runNotRangeBuf E r s e) (runNegationRange rs s e) := by
  rw [runNotRangeBuf, runNegationRange]
  split
  · exact gives_run (h.clone hE.runs)
  · exact gives_eff hE (runNegationBuf_spec hE.runs h s e)

theorem runInotRangeBuf_spec (hE : EnvOK E) {r : RunBuf} {rs : List Rle} (h : Holds r rs) (o : RunOK rs) {s e : Nat} (he : e ≤ 65536) :
    Gives (runInotRangeBuf E r s e) (runNegationRange rs s e) := by
  rw [runInotRangeBuf, runNegationRange]
  split
  · exact gives_ok h
  · exact gives_eff hE (runNegationInplaceBuf_spec hE.runs h o (by omega) he)

theorem cNotBuf_spec (hE : EnvOK E) {o : CBuf} {c : Container} (h : CHolds o c) (i : CInv c) : Gives (cNotBuf E o) (containerNot c) := by
  cases o <;> cases c <;> try exact h.elim
  · cases h; exact bitsetNotRangeBuf_spec hE i.1.len _ _
  · exact gives_load h (gives_ok rfl)
  · exact runNotRangeBuf_spec hE h _ _

theorem cInotBuf_spec (hE : EnvOK E) {o : CBuf} {c : Container} (h : CHolds o c) (i : CInv c) : Gives (cInotBuf E o) (containerNot c) := by
  cases o <;> cases c <;> try exact h.elim
  · cases h; exact bitsetNotRangeBuf_spec hE i.1.len _ _
  · exact gives_load h (gives_ok rfl)
  · exact runInotRangeBuf_spec hE h i (Nat.le_refl _)

theorem cNotRangeBuf_spec (hE : EnvOK E) {o : CBuf} {c : Container} (h : CHolds o c) (i : CInv c) {s e : Nat} (he : e ≤ 65536) :
    Gives (cNotRangeBuf E s e o) (containerNotRange s e c) := by
  cases o <;> cases c <;> try exact h.elim
  · cases h; exact bitsetNotRangeBuf_spec hE i.1.len _ _
  · exact arrayNotRangeBuf_spec hE h i.1 he
  · exact runNotRangeBuf_spec hE h _ _

theorem cInotRangeBuf_spec (hE : EnvOK E) {o : CBuf} {c : Container} (h : CHolds o c) (i : CInv c) {s e : Nat} (he : e ≤ 65536) :
    Gives (cInotRangeBuf E s e o) (containerNotRange s e c) := by
  cases o <;> cases c <;> try exact h.elim
  · cases h; exact bitsetNotRangeBuf_spec hE i.1.len _ _
  · exact arrayNotRangeBuf_spec hE h i.1 he
  · exact runInotRangeBuf_spec hE h i he

/-! ### Single values and ranges -/

theorem cAddBuf_spec (hE : EnvOK E) {o : CBuf} {c : Container} (h : CHolds o c) (i : CInv c) (v : Nat) :
    Gives (cAddBuf E v o) (containerAdd v c) := by
  cases o <;> cases c <;> try exact h.elim
  · cases h; exact gives_ok rfl
  · rename_i a l
    obtain ⟨b', e, hb⟩ := arrayTryAddBuf_spec hE.vals h i.1.sorted (by have := i.2; omega) v DEFAULT_MAX_SIZE
    rw [cAddBuf, e, ok_bind, containerAdd]
    simp only
    split
    · exact gives_ok hb
    · exact gives_load h (gives_ok rfl)
  · obtain ⟨b', e, hb⟩ := runAddBuf_spec hE.runs h i v
    rw [cAddBuf, e, ok_bind]
    exact gives_ok hb

theorem cRemoveBuf_spec (hE : EnvOK E) {o : CBuf} {c : Container} (h : CHolds o c) (i : CInv c) {v : Nat} (hv : v < 65536) :
    Gives (cRemoveBuf E v o) (containerRemove v c) := by
  cases o <;> cases c <;> try exact h.elim
  · cases h
    rw [cRemoveBuf, containerRemove]
    split
    · exact fromBitsetBuf_spec hE (bitsetRemove_spec i.1 hv).1
    · exact gives_ok rfl
  · obtain ⟨b', e, hb, _⟩ := arrayRemoveBuf_spec h i.1.sorted v
    rw [cRemoveBuf, e, ok_bind]
    exact gives_ok hb
  · obtain ⟨b', e, hb⟩ := runRemoveBuf_spec hE.runs h i v
    rw [cRemoveBuf, e, ok_bind]
    exact gives_ok hb

theorem fromRunRangeBuf_spec (hE : EnvOK E) {r : RunBuf} {rs : List Rle} (h : Holds r rs) (o : RunOK rs) {a b : Nat} (hab : a ≤ b)
    (hb : b < 65536) : Gives (fromRunRangeBuf E r a b) (containerFromRunRange rs a b) := by
  refine gives_loadR h ?_
  have hs : ∀ x, bitAt (setRuns zeros rs) x = runHas rs x := (bitsetFromRun_spec o).2
  have hlen : (setRuns zeros rs).length = 1024 := by rw [setRuns_length, zeros_length]
  refine bitsetOrArrayBuf_spec hE ⟨by simp only [bitsetSetLenrange_length, hlen], ?_⟩
  simp only
  have e2 := card_union_range (s := runHas rs) hab hb
  have e3 := card_runHas' o
  rw [lenrangeCardinality_eq, card_congr (s := fun x => bitAt (setRuns zeros rs) (a + x)) (t := fun x => runHas rs (a + x)) (fun x _ => hs _)]
  rw [card_congr (s := bitAt (bitsetSetLenrange (setRuns zeros rs) a (b - a))) (t := fun x => decide (a ≤ x ∧ x ≤ b) || runHas rs x) (fun x _ => by
    rw [bitAt_setLenrange _ _ _ _ (by rw [hlen]; omega), hs, show a + (b - a) = b by omega])]
  have e4 : (rs.map fun (r : Rle) => r.2 + 1).sum = runCard rs := by
    clear * -
    induction rs with
    | nil => rfl
    | cons r rs ih => rw [List.map_cons, List.sum_cons, ih, runCard_cons]
  rw [e4]
  omega

theorem cAddRangeBuf_spec (hE : EnvOK E) {o : CBuf} {c : Container} (h : CHolds o c) (i : CInv c) {a b : Nat} (hab : a ≤ b) (hb : b < 65536) :
    Gives (cAddRangeBuf E a b o) (containerAddRange a b c) := by
  cases o <;> cases c <;> try exact h.elim
  · cases h
    rw [cAddRangeBuf, containerAddRange]
    split
    · exact runCreateRangeBuf_spec hE _ _
    · exact gives_ok rfl
  · rename_i ar l
    refine gives_load h ?_
    have hle := lb_le l (b + 1)
    have hmono : lb l a ≤ lb l (b + 1) := lb_mono (by omega)
    have hadd : lb l (b + 1) ≤ lb l a + (b + 1 - a) := by
      have := lb_add_le i.1.sorted a (b + 1 - a)
      rwa [show a + (b + 1 - a) = b + 1 by omega] at this
    simp only [containerAddRange]
    rw [Nat.mod_eq_of_lt hb, Nat.mod_eq_of_lt (show a < 65536 by omega), countGreater_list i.1.sorted]
    simp only [Int.toNat_natCast]
    rw [show l.length - (l.length - lb l (b + 1)) = lb l (b + 1) by omega, countLess_trunc i.1.sorted hab]
    simp only [Int.toNat_natCast]
    split
    · exact runCreateRangeBuf_spec hE _ _
    · split
      · rename_i c2
        have hD : DEFAULT_MAX_SIZE = 4096 := rfl
        exact gives_array (arrayAddRangeNvalsBuf_spec hE.vals h (by omega) (by omega) (by omega))
      · exact gives_ok rfl
  · rename_i r rs
    refine gives_loadR h ?_
    simp only [containerAddRange]
    rw [Nat.mod_eq_of_lt hb, Nat.mod_eq_of_lt (show a < 65536 by omega)]
    obtain ⟨A, B, C, hrs, hA, hB, hC, hg, hl⟩ := addRange_split i hab
    have hgn : (rle16CountGreater rs rs.length b).toNat = C.length := by rw [hg]; rfl
    rw [hgn, hl, Int.toNat_natCast]
    split
    · have hlen := run_length_le i
      refine gives_run (runAddRangeBuf_spec hE.runs h (by omega) a b _ _ ?_)
      rw [hrs]; simp only [List.length_append]; omega
    · exact fromRunRangeBuf_spec hE h i hab hb

/-- The computation ends without an access out of bounds; its result is the given container, or `NULL`. -/
def GivesOpt (x : Out (Option CBuf)) (c : Option Container) : Prop :=
  match c with
  | none => x = .ok none
  | some c => ∃ o, x = .ok (some o) ∧ CHolds o c

theorem givesOpt_some {x : Out CBuf} {c : Container} (h : Gives x c) : GivesOpt (do let o ← x; .ok (some o)) (some c) := by
  obtain ⟨o, e, ho⟩ := h
  rw [e, ok_bind]
  exact ⟨o, rfl, ho⟩

theorem cRemoveRangeBuf_spec (hE : EnvOK E) {o : CBuf} {c : Container} (h : CHolds o c) (i : CInv c) {a b : Nat} (hab : a ≤ b) (hb : b < 65536) :
    GivesOpt (cRemoveRangeBuf E a b o) (containerRemoveRange a b c) := by
  cases o <;> cases c <;> try exact h.elim
  · cases h
    rename_i bs
    rw [cRemoveRangeBuf, containerRemoveRange]
    split
    · rfl
    · have hlen : (bitsetResetRange bs.words a (b + 1)).length = 1024 := by rw [bitsetResetRange_length, i.1.len]
      have hok : BitOK ⟨bs.card - bitsetLenrangeCardinality bs.words a (b - a), bitsetResetRange bs.words a (b + 1)⟩ := by
        refine ⟨hlen, ?_⟩
        simp only
        have e2 := card_diff_range (s := bitAt bs.words) hab hb
        rw [lenrangeCardinality_eq, i.1.card]
        rw [card_congr (s := bitAt (bitsetResetRange bs.words a (b + 1))) (t := fun x => bitAt bs.words x && !decide (a ≤ x ∧ x ≤ b)) (fun x _ => by
          rw [bitAt_resetRange _ _ _ _ (by omega) (by rw [i.1.len]; omega), Bool.and_comm]
          simp only [Nat.lt_succ_iff])]
        omega
      have := givesOpt_some (bitsetOrArrayBuf_spec hE hok)
      rw [bitsetOrArray] at this
      simp only at this
      split
      · rename_i c; rwa [if_pos c] at this
      · rename_i c; rwa [if_neg c] at this
  · rename_i ar l
    rw [cRemoveRangeBuf, AHolds.load h, ok_bind]
    have hle := lb_le l (b + 1)
    have hmono : lb l a ≤ lb l (b + 1) := lb_mono (by omega)
    simp only [containerRemoveRange]
    rw [Nat.mod_eq_of_lt hb, Nat.mod_eq_of_lt (show a < 65536 by omega), countGreater_list i.1.sorted]
    simp only [Int.toNat_natCast]
    rw [show l.length - (l.length - lb l (b + 1)) = lb l (b + 1) by omega, countLess_trunc i.1.sorted hab]
    simp only [Int.toNat_natCast]
    split
    · rfl
    · obtain ⟨b', e, hb', _⟩ := arrayRemoveRangeBuf_spec h (pos := lb l a) (count := l.length - (lb l a + (l.length - lb l (b + 1)))) (by omega)
      rw [e, ok_bind]
      exact ⟨_, rfl, hb'⟩
  · rename_i r rs
    have hn := Holds.n h
    simp only [cRemoveRangeBuf, containerRemoveRange, hn]
    by_cases c1 : rs.length = 0
    · rw [if_pos c1, if_pos c1]; rfl
    rw [if_neg c1, if_neg c1, Holds.load h, ok_bind]
    by_cases c2 : a ≤ runMin rs ∧ b ≥ runMax rs
    · rw [if_pos c2, if_pos c2]; rfl
    rw [if_neg c2, if_neg c2]
    obtain ⟨b', e, hb'⟩ := runRemoveRangeBuf_spec hE.runs h i a b
    rw [e, ok_bind]
    exact givesOpt_some (convertEffBuf_spec hE hb')

theorem cRangeOfOnesBuf_spec (hE : EnvOK E) (a b : Nat) : Gives (cRangeOfOnesBuf E a b) (containerRangeOfOnes a b) := by
  rw [cRangeOfOnesBuf, containerRangeOfOnes]
  split
  · exact gives_array (arrayCreateRangeBuf_spec hE.vals a b)
  · exact runCreateRangeBuf_spec hE a b

theorem cFromRangeBuf_spec (hE : EnvOK E) (a b step : Nat) (hb : b ≤ 65536) : GivesOpt (cFromRangeBuf E a b step) (containerFromRange a b step) := by
  rw [cFromRangeBuf, containerFromRange]
  split
  · rfl
  · split
    · exact givesOpt_some (cRangeOfOnesBuf_spec hE a b)
    · split
      · obtain ⟨b', e, h⟩ := arrayAddFromRangeBuf_spec hE.vals b step a (arrayCreateBuf E.vals ((b - a + step - 1) / step)) [] (aholds_nil _)
          (by simp; omega)
        rw [e, ok_bind]
        exact ⟨_, rfl, h⟩
      · exact ⟨_, rfl, rfl⟩

/-! ### Copies and conversions -/

theorem cCloneBuf_spec (hE : EnvOK E) {o : CBuf} {c : Container} (h : CHolds o c) : Gives (cCloneBuf E o) c := by
  cases o <;> cases c <;> try exact h.elim
  · cases h; exact gives_ok rfl
  · exact gives_clone hE h
  · exact gives_run (Holds.clone hE.runs h)

theorem cShrinkBuf_spec {o : CBuf} {c : Container} (h : CHolds o c) : CHolds (cShrinkBuf o).1 c := by
  cases o <;> cases c <;> try exact h.elim
  · exact h
  · exact (arrayShrinkBuf_spec h).1
  · exact (Holds.shrink h).1

theorem cRunOptimizeBuf_spec (hE : EnvOK E) {o : CBuf} {c : Container} (h : CHolds o c) (i : CInv c) :
    Gives (cRunOptimizeBuf E o) (convertRunOptimize c) := by
  cases o <;> cases c <;> try exact h.elim
  · cases h
    rw [cRunOptimizeBuf, convertRunOptimize]
    split
    · exact gives_ok rfl
    · exact gives_run (runFromBitsetBuf_spec hE.runs i.1.len)
  · rename_i a l
    refine gives_load h ?_
    rw [convertRunOptimize, AHolds.card h]
    simp only
    by_cases c1 : runSerializedSize (arrayNumberOfRuns (-2) l) ≥ arraySerializedSize l.length
    · rw [if_pos c1, if_pos c1]; exact gives_ok h
    · rw [if_neg c1, if_neg c1]
      have hl : l ≠ [] := by
        rintro rfl
        exact c1 (by decide)
      have hlen := runFromArrayLoop_length_top hl
      refine gives_run ?_
      obtain ⟨o, e, ho⟩ := fromArrayBufLoop_spec l (-2) (-1) (runCreateBuf E.runs (arrayNumberOfRuns (-2) l)) []
        ⟨holds_create _ _, by rw [runCreateBuf, hE.runs, hlen]; simp⟩
      exact ⟨o, e, ho⟩
  · exact convertEffBuf_spec hE h

end CRoaring
