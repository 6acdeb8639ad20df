import Verif.Model.ContMem
import Verif.Lemmas.ArrOps2
import Verif.Lemmas.RunMem5
import Verif.Lemmas.Extract3
import Verif.Lemmas.Container3
import Verif.Lemmas.ArrayBuf
set_option linter.unusedSimpArgs false
set_option linter.unusedVariables false

namespace CRoaring
open Spec

/-- `roaring_malloc` returns as much as it is asked for. -/
structure EnvOK (E : MemEnv) : Prop where
  vals : Mallocs E.vals
  runs : Fresh E.runs

/-- The container in memory holds the container `c`. -/
def CHolds : CBuf → Container → Prop
  | .bitset b, .bitset c => b = c
  | .array a, .array l => AHolds a l
  | .run r, .run rs => Holds r rs
  | _, _ => False

/-- The computation ends without an access out of bounds, and its result holds `c`. -/
def Gives (x : Out CBuf) (c : Container) : Prop := ∃ o, x = .ok o ∧ CHolds o c

/-- A run container that is not empty. -/
def NonEmptyRun : Container → Prop
  | .run rs => rs ≠ []
  | _ => True

variable {E : MemEnv}

theorem gives_ok {o : CBuf} {c : Container} (h : CHolds o c) : Gives (.ok o) c := ⟨o, rfl, h⟩

theorem AHolds.load {a : ArrBuf} {l : List Nat} (h : AHolds a l) : a.load = .ok l := h.readAll

theorem Holds.load {r : RunBuf} {rs : List Rle} (h : Holds r rs) : r.load = .ok rs := by
  have hl := h.le
  rw [RunBuf.load, getRuns_eq (by rw [h.n]; omega), List.drop_zero]
  exact congrArg _ h.vals

theorem aholds_of {r : ArrBuf} {l : List Nat} (h : r.vals = l) (hc : r.card ≤ r.mem.length) : AHolds r l := aholds_iff.2 ⟨hc, h⟩

theorem gives_array {x : Out ArrBuf} {l : List Nat} (h : ∃ o, x = .ok o ∧ AHolds o l) :
    Gives (do let o ← x; .ok (.array o)) (.array l) := by
  obtain ⟨o, e, ho⟩ := h
  rw [e, ok_bind]
  exact gives_ok ho

theorem gives_array' {x : Out ArrBuf} {l : List Nat} (h : ∃ o, x = .ok o ∧ o.vals = l ∧ o.card ≤ o.mem.length) :
    Gives (do let o ← x; .ok (.array o)) (.array l) := by
  obtain ⟨o, e, h1, h2⟩ := h
  exact gives_array ⟨o, e, aholds_of h1 h2⟩

theorem gives_run {x : Out RunBuf} {l : List Rle} (h : ∃ o, x = .ok o ∧ Holds o l) :
    Gives (do let o ← x; .ok (.run o)) (.run l) := by
  obtain ⟨o, e, ho⟩ := h
  rw [e, ok_bind]
  exact gives_ok ho

theorem fromBitsetBuf_spec (hE : EnvOK E) {b : Bitset} (hb : BitOK b) : Gives (fromBitsetBuf E b) (.array (arrayFromBitset b)) := by
  rw [fromBitsetBuf, arrayFromBitsetMem_spec E.hw hb hE.vals, ok_bind]
  refine gives_ok ?_
  have : (arrayFromBitset b).length = b.card.toNat := by
    cases b with | mk c ws =>
    rw [arrayFromBitset_eq hb.len hb.card]
    have := hb.card
    simp only at this
    simp only [this, Int.toNat_natCast]
    rfl
  refine ⟨[], ?_⟩
  rw [List.append_nil, this]

theorem bitsetOrArrayBuf_spec (hE : EnvOK E) {b : Bitset} (hb : BitOK b) : Gives (bitsetOrArrayBuf E b) (bitsetOrArray b) := by
  rw [bitsetOrArrayBuf, bitsetOrArray]
  split
  · exact fromBitsetBuf_spec hE hb
  · exact gives_ok rfl

theorem compute_ok {ws : List Word} (h : ws.length = 1024) : BitOK ⟨computeCard ws, ws⟩ := ⟨h, by rw [computeCard_eq]⟩

theorem convertEffBuf_spec (hE : EnvOK E) {r : RunBuf} {rs : List Rle} (h : Holds r rs) :
    Gives (convertEffBuf E r) (convertRunToEfficient rs) := by
  rw [convertEffBuf, h.load, ok_bind, convertRunToEfficient]
  simp only [h.n]
  by_cases c1 : runSerializedSize rs.length ≤
      (if bitsetSerializedSize < arraySerializedSize (runCard rs) then bitsetSerializedSize else arraySerializedSize (runCard rs))
  · rw [if_pos c1, if_pos c1]
    exact gives_ok h
  · rw [if_neg c1, if_neg c1]
    by_cases c2 : runCard rs ≤ DEFAULT_MAX_SIZE
    · rw [if_pos c2, if_pos c2]
      exact gives_array (arrayFromRunBuf_spec hE.vals h)
    · rw [if_neg c2, if_neg c2]
      exact gives_ok rfl

theorem gives_eff (hE : EnvOK E) {x : Out RunBuf} {rs : List Rle} (h : ∃ o, x = .ok o ∧ Holds o rs) :
    Gives (do let o ← x; convertEffBuf E o) (convertRunToEfficient rs) := by
  obtain ⟨o, e, ho⟩ := h
  rw [e, ok_bind]
  exact convertEffBuf_spec hE ho

theorem runCreateRangeBuf_spec (hE : EnvOK E) (a b : Nat) : Gives (runCreateRangeBuf E a b) (.run (runCreateRange a b)) := by
  refine gives_run ?_
  obtain ⟨o, e, ho, _⟩ := (holds_create E.runs 1).push (by rw [runCreateBuf, hE.runs 1]; simp) (a % 65536, u16 ((b : Int) - a - 1))
  exact ⟨o, e, ho⟩

/-! ### Intersection -/

theorem extractInterMem_over : ∀ (ws1 ws2 : List Word) (b base : Nat) (_ : b % 65536 = base % 65536) (mem : List Nat) (pos : Nat),
    pos + (extractIntersectionSetbits ws1 ws2 base).length ≤ mem.length →
    extractInterMem ws1 ws2 b mem pos = .ok (over mem pos ((extractIntersectionSetbits ws1 ws2 base).map (· % 65536)),
      pos + (extractIntersectionSetbits ws1 ws2 base).length) := by
  intro ws1
  induction ws1 with
  | nil => intro ws2 b base hb mem pos h; simp [extractInterMem, extractIntersectionSetbits, over_nil]
  | cons w1 ws1 ih =>
    intro ws2 b base hb mem pos h
    cases ws2 with
    | nil => simp [extractInterMem, extractIntersectionSetbits, over_nil]
    | cons w2 ws2 =>
      rw [extractInterMem, extractIntersectionSetbits]
      rw [extractIntersectionSetbits, List.length_append] at h
      rw [extractWordMem_over b base hb (w1 &&& w2) mem pos (by omega) (by omega), ok_bind]
      simp only
      have hol : (over mem pos ((extractWord (w1 &&& w2) base).map (· % 65536))).length = mem.length :=
        over_length (by rw [List.length_map]; omega)
      rw [ih ws2 ((b + 64) % 65536) (base + 64) (by rw [Nat.mod_mod, Nat.add_mod, hb, ← Nat.add_mod]) _ _ (by rw [hol]; omega)]
      have := over_over (mem := mem) (pos := pos) (a := (extractWord (w1 &&& w2) base).map (· % 65536))
        (b := (extractIntersectionSetbits ws1 ws2 (base + 64)).map (· % 65536)) (by simp only [List.length_map]; omega)
      rw [List.length_map] at this
      rw [this, List.map_append, List.length_append, Nat.add_assoc]

theorem over_zero {mem vals : List Nat} : over mem 0 vals = vals ++ mem.drop vals.length := by simp [over]

theorem extract_arrOK {ws : List Word} (h : ws.length = 1024) :
    (extractSetbits ws 0).length = card 65536 (bitAt ws) ∧ (extractSetbits ws 0).map (· % 65536) = extractSetbits ws 0 := by
  rw [extractSetbits_enum, h]
  refine ⟨rfl, ?_⟩
  rw [List.map_congr_left (g := id) (fun x hx => ?_), List.map_id]
  have := (mem_enum.1 hx).1
  simp only [id_eq]
  exact Nat.mod_eq_of_lt (by omega)

theorem bitsetBitsetInterBuf_spec (hE : EnvOK E) {b1 b2 : Bitset} (h1 : b1.words.length = 1024) (h2 : b2.words.length = 1024) :
    Gives (bitsetBitsetInterBuf E b1 b2) (bitsetBitsetIntersection b1 b2) := by
  rw [bitsetBitsetInterBuf, bitsetBitsetIntersection]
  by_cases c : bitsetOpJustcard wAnd b1 b2 > DEFAULT_MAX_SIZE
  · rw [if_pos c, if_pos c]
    exact gives_ok rfl
  · rw [if_neg c, if_neg c]
    have hz : (List.zipWith (· &&& ·) b1.words b2.words).length = 1024 := by rw [List.length_zipWith, h1, h2]; rfl
    have he := extract_arrOK hz
    have hc : bitsetOpJustcard wAnd b1 b2 = (extractIntersectionSetbits b1.words b2.words 0).length := by
      rw [extractIntersection_eq, he.1, bitsetOpJustcard, computeCard_eq]
      rfl
    have hm : (arrayCreateBuf E.vals (bitsetOpJustcard wAnd b1 b2)).mem.length = bitsetOpJustcard wAnd b1 b2 := arrayCreateBuf_len hE.vals _
    rw [extractInterMem_over _ _ 0 0 rfl _ _ (by rw [hm]; omega), ok_bind]
    simp only
    refine gives_ok ?_
    show AHolds _ _
    rw [hc, List.take_length, over_zero, extractIntersection_eq, he.2]
    exact ⟨_, rfl⟩

theorem runBitsetIntersectionBuf_spec (hE : EnvOK E) {r : RunBuf} {rs : List Rle} (h : Holds r rs) (hne : rs ≠ []) {b : Bitset}
    (hb : BitOK b) (hc : 4096 < b.card) : Gives (runBitsetIntersectionBuf E r b) (runBitsetIntersection rs b) := by
  rw [runBitsetIntersectionBuf, runBitsetIntersection, h.isFull hne, ok_bind]
  by_cases c : runIsFull rs = true
  · rw [if_pos c, if_pos c]; exact gives_ok rfl
  rw [if_neg c, if_neg c, h.load, ok_bind]
  by_cases c2 : runCard rs ≤ DEFAULT_MAX_SIZE
  · rw [if_pos c2, if_pos c2]
    exact gives_array (runBitsetInterBuf_spec hE.vals h (by unfold DEFAULT_MAX_SIZE at c2; omega))
  · rw [if_neg c2, if_neg c2]
    simp only
    have hl : (resetGaps b.words 0 rs).length = 1024 := by rw [resetGaps_length, hb.len]
    split
    · exact gives_ok rfl
    · exact fromBitsetBuf_spec hE (compute_ok hl)

theorem arrayRunInterNew_spec (hE : EnvOK E) {a : ArrBuf} {l : List Nat} (ha : AHolds a l) (hl : l.length ≤ 4096) {r : RunBuf} {rs : List Rle}
    (h : Holds r rs) (hne : rs ≠ []) : Gives (arrayRunInterNew E a r) (.array (arrayRunIntersection l rs)) :=
  gives_array (arrayRunIntersectionBuf_spec hE.vals ha (by omega) h hne _)

theorem cAndBuf_spec (hE : EnvOK E) {o1 o2 : CBuf} {c1 c2 : Container} (h1 : CHolds o1 c1) (h2 : CHolds o2 c2) (i1 : CInv c1) (i2 : CInv c2)
    (n1 : NonEmptyRun c1) (n2 : NonEmptyRun c2) : Gives (cAndBuf E o1 o2) (containerAnd c1 c2) := by
  cases o1 <;> cases c1 <;> try exact h1.elim
  all_goals cases o2 <;> cases c2 <;> try exact h2.elim
  · cases h1; cases h2; simp only [cAndBuf, containerAnd]; exact bitsetBitsetInterBuf_spec hE i1.1.len i2.1.len
  · cases h1
    exact gives_array (arrayBitsetIntersectionBuf_spec hE.vals h2 (by have := i2.2; omega) _ _)
  · cases h1; exact runBitsetIntersectionBuf_spec hE h2 n2 i1.1 i1.2
  · cases h2
    exact gives_array (arrayBitsetIntersectionBuf_spec hE.vals h1 (by have := i1.2; omega) _ _)
  · rename_i a1 l1 a2 l2
    have := arrayIntersectionBuf_spec E.hw.avx2 hE.vals (h1.bufOK i1.1 i1.2) (h2.bufOK i2.1 i2.2)
      (out := arrayCreateBuf E.vals 0) (.inl (arrayCreateBuf_len hE.vals _))
    rw [h1.vals, h2.vals] at this
    exact gives_array' this
  · exact arrayRunInterNew_spec hE h1 i1.2 h2 n2
  · cases h2; exact runBitsetIntersectionBuf_spec hE h1 n1 i2.1 i2.2
  · exact arrayRunInterNew_spec hE h2 i2.2 h1 n1
  · exact gives_eff hE (runIntersectionBuf_spec hE.runs h1 h2 n1 n2 _)

theorem cIandBuf_spec (hE : EnvOK E) {o1 o2 : CBuf} {c1 c2 : Container} (h1 : CHolds o1 c1) (h2 : CHolds o2 c2) (i1 : CInv c1) (i2 : CInv c2)
    (n1 : NonEmptyRun c1) (n2 : NonEmptyRun c2) : Gives (cIandBuf E o1 o2) (containerIand c1 c2) := by
  cases o1 <;> cases c1 <;> try exact h1.elim
  all_goals cases o2 <;> cases c2 <;> try exact h2.elim
  · cases h1; cases h2; simp only [cIandBuf, containerIand]; exact bitsetBitsetInterBuf_spec hE i1.1.len i2.1.len
  · cases h1
    exact gives_array (arrayBitsetIntersectionBuf_spec hE.vals h2 (by have := i2.2; omega) _ _)
  · cases h1; exact runBitsetIntersectionBuf_spec hE h2 n2 i1.1 i1.2
  · cases h2
    exact gives_array (arrayBitsetIntersectionInplaceBuf_spec h1 _)
  · rename_i a1 l1 a2 l2
    obtain ⟨r, e, e1, e2, _⟩ := arrayIntersectionInplaceBuf_spec E.hw.avx2 (h1.bufOK i1.1 i1.2) (h2.bufOK i2.1 i2.2)
    rw [h1.vals, h2.vals] at e1
    exact gives_array' ⟨r, e, e1, e2⟩
  · exact arrayRunInterNew_spec hE h1 i1.2 h2 n2
  · cases h2; exact runBitsetIntersectionBuf_spec hE h1 n1 i2.1 i2.2
  · exact arrayRunInterNew_spec hE h2 i2.2 h1 n1
  · exact gives_eff hE (runIntersectionBuf_spec hE.runs h1 h2 n1 n2 _)

/-! ### Union -/

theorem unionBitset_spec {a1 a2 : ArrBuf} {l1 l2 : List Nat} (h1 : AHolds a1 l1) (h2 : AHolds a2 l2) (o1 : ArrOK l1) (o2 : ArrOK l2) :
    ∃ b, unionBitset a1 a2 = .ok b ∧ BitOK b ∧
      b = ⟨(bitsetSetListWithcard (bitsetSetList zeros l1) l1.length l2).2, (bitsetSetListWithcard (bitsetSetList zeros l1) l1.length l2).1⟩ := by
  refine ⟨_, ?_, ?_, rfl⟩
  · rw [unionBitset, h1.load, ok_bind, h2.load, ok_bind, h1.card]
  · have hz : (bitsetSetList zeros l1).length = 1024 := by rw [bitsetSetList_length, zeros_length]
    have hc : ((l1.length : Nat) : Int) = card 65536 (bitAt (bitsetSetList zeros l1)) := by
      rw [show bitsetSetList zeros l1 = bitsetSetList zeros l1 from rfl]
      have := setListWithcard_spec (ws := zeros) (c := 0) (l := l1) zeros_length o1 (by
        rw [card_congr (t := fun _ => false) (fun x _ => bitAt_zeros x), card_false]; rfl)
      have hl : card 65536 (bitAt (bitsetSetList zeros l1)) = l1.length := by
        rw [← o1.card]
        refine card_congr fun x _ => ?_
        rw [bitAt_setList _ _ _ (by rw [zeros_length]; intro p hp; have := o1.lt p hp; omega), bitAt_zeros]
        simp [ofList]
      rw [hl]
    have := setListWithcard_spec hz o2 hc
    exact ⟨this.1, this.2.2⟩

theorem arrayArrayUnionBuf_spec (hE : EnvOK E) {a1 a2 : ArrBuf} {l1 l2 : List Nat} (h1 : AHolds a1 l1) (h2 : AHolds a2 l2) (o1 : ArrOK l1)
    (o2 : ArrOK l2) (z1 : l1.length ≤ 4096) (z2 : l2.length ≤ 4096) : Gives (arrayArrayUnionBuf E a1 a2) (arrayArrayUnion l1 l2) := by
  rw [arrayArrayUnionBuf, arrayArrayUnion, h1.card, h2.card]
  split
  · have := arrayUnionBuf_spec E.hw.avx2 hE.vals (h1.bufOK o1 z1) (h2.bufOK o2 z2) (arrayCreateBuf E.vals (l1.length + l2.length))
    rw [h1.vals, h2.vals] at this
    exact gives_array' this
  · obtain ⟨b, e, hb, rfl⟩ := unionBitset_spec h1 h2 o1 o2
    rw [e, ok_bind]
    exact bitsetOrArrayBuf_spec hE hb

theorem inplace_grow {a1 : ArrBuf} (hE : EnvOK E) {b : Bitset} (hb : BitOK b) (hc : b.card ≤ 4096) :
    Gives (do
      let p ← extractScalarMem 65536 b.words (arrayReserve E.vals a1 b.card.toNat b.card.toNat).mem 0 0
      .ok (.array ⟨b.card.toNat, p.1⟩)) (.array (arrayFromBitset b)) := by
  have he := extract_arrOK hb.len
  have hcard := hb.card
  have hn : b.card.toNat = (extractSetbits b.words 0).length := by rw [he.1]; omega
  have hr := (arrayReserve_len hE.vals a1 b.card.toNat b.card.toNat (Nat.le_refl _) (by omega)).1
  rw [extractScalarMem_over _ _ _ _ (by omega), ok_bind]
  refine gives_ok ?_
  show AHolds _ _
  rw [he.2, over_zero, arrayFromBitset, hn, List.take_length]
  exact ⟨_, rfl⟩

theorem arrayArrayInplaceUnionBuf_spec (hE : EnvOK E) {a1 a2 : ArrBuf} {l1 l2 : List Nat} (h1 : AHolds a1 l1) (h2 : AHolds a2 l2)
    (o1 : ArrOK l1) (o2 : ArrOK l2) (z1 : l1.length ≤ 4096) (z2 : l2.length ≤ 4096) :
    Gives (arrayArrayInplaceUnionBuf E a1 a2) (arrayArrayInplaceUnion a1.mem.length l1 l2) := by
  rw [arrayArrayInplaceUnionBuf, arrayArrayInplaceUnion, h1.card, h2.card]
  split
  · split
    · have := arrayUnionBuf_spec E.hw.avx2 hE.vals (h1.bufOK o1 z1) (h2.bufOK o2 z2) (arrayCreateBuf E.vals (2 * (l1.length + l2.length)))
      rw [h1.vals, h2.vals] at this
      exact gives_array' this
    · obtain ⟨r, e, e1, e2, _⟩ := arrayUnionInplaceBuf_spec (h1.bufOK o1 z1) (h2.bufOK o2 z2) (by rw [h1.card, h2.card]; omega)
      rw [h1.vals, h2.vals, arrayUnion, fastUnionU16_eq o1.sorted o2.sorted] at e1
      exact gives_array' ⟨r, e, e1, e2⟩
  · obtain ⟨b, e, hb, rfl⟩ := unionBitset_spec h1 h2 o1 o2
    rw [e, ok_bind]
    simp only
    split
    · rename_i c
      exact inplace_grow hE hb (by unfold DEFAULT_MAX_SIZE at c; exact c)
    · exact gives_ok rfl

theorem arrayArrayLazyUnionBuf_spec (hE : EnvOK E) {a1 a2 : ArrBuf} {l1 l2 : List Nat} (h1 : AHolds a1 l1) (h2 : AHolds a2 l2) (o1 : ArrOK l1)
    (o2 : ArrOK l2) (z1 : l1.length ≤ 4096) (z2 : l2.length ≤ 4096) : Gives (arrayArrayLazyUnionBuf E a1 a2) (arrayArrayLazyUnion l1 l2) := by
  rw [arrayArrayLazyUnionBuf, arrayArrayLazyUnion, h1.card, h2.card]
  split
  · have := arrayUnionBuf_spec E.hw.avx2 hE.vals (h1.bufOK o1 z1) (h2.bufOK o2 z2) (arrayCreateBuf E.vals (l1.length + l2.length))
    rw [h1.vals, h2.vals] at this
    exact gives_array' this
  · rw [lazyUnionBitset, h1.load, ok_bind, h2.load, ok_bind]
    exact gives_ok rfl

theorem arrayArrayLazyInplaceUnionBuf_spec (hE : EnvOK E) {a1 a2 : ArrBuf} {l1 l2 : List Nat} (h1 : AHolds a1 l1) (h2 : AHolds a2 l2)
    (o1 : ArrOK l1) (o2 : ArrOK l2) (z1 : l1.length ≤ 4096) (z2 : l2.length ≤ 4096) :
    Gives (arrayArrayLazyInplaceUnionBuf E a1 a2) (arrayArrayLazyInplaceUnion a1.mem.length l1 l2) := by
  rw [arrayArrayLazyInplaceUnionBuf, arrayArrayLazyInplaceUnion, h1.card, h2.card]
  split
  · split
    · have := arrayUnionBuf_spec E.hw.avx2 hE.vals (h1.bufOK o1 z1) (h2.bufOK o2 z2) (arrayCreateBuf E.vals (2 * (l1.length + l2.length)))
      rw [h1.vals, h2.vals] at this
      exact gives_array' this
    · obtain ⟨r, e, e1, e2, _⟩ := arrayLazyUnionInplaceBuf_spec E.hw.avx2 (h1.bufOK o1 z1) (h2.bufOK o2 z2) (by rw [h1.card, h2.card]; omega)
      rw [h1.vals, h2.vals, arrayUnion] at e1
      exact gives_array' ⟨r, e, e1, e2⟩
  · rw [lazyUnionBitset, h1.load, ok_bind, h2.load, ok_bind]
    exact gives_ok rfl

theorem runBitsetUnionBuf_spec (hE : EnvOK E) (f : List Rle → Bitset → Bitset) {r : RunBuf} {rs : List Rle} (h : Holds r rs) (hne : rs ≠ [])
    (b : Bitset) : Gives (runBitsetUnionBuf E f r b) (if runIsFull rs then .run rs else .bitset (f rs b)) := by
  rw [runBitsetUnionBuf, h.isFull hne, ok_bind]
  split
  · exact gives_run (h.copy hE.runs _)
  · rw [h.load, ok_bind]; exact gives_ok rfl

theorem runBitsetIunionBuf_spec (f : List Rle → Bitset → Bitset) {r : RunBuf} {rs : List Rle} (h : Holds r rs) (hne : rs ≠ [])
    (b : Bitset) : Gives (runBitsetIunionBuf f r b) (if runIsFull rs then .run rs else .bitset (f rs b)) := by
  rw [runBitsetIunionBuf, h.isFull hne, ok_bind]
  split
  · exact gives_ok h
  · rw [h.load, ok_bind]; exact gives_ok rfl

theorem gives_load {a : ArrBuf} {l : List Nat} (h : AHolds a l) {k : List Nat → Out CBuf} {c : Container} (hk : Gives (k l) c) :
    Gives (do let l ← a.load; k l) c := by
  rw [h.load, ok_bind]; exact hk

theorem gives_loadR {a : RunBuf} {l : List Rle} (h : Holds a l) {k : List Rle → Out CBuf} {c : Container} (hk : Gives (k l) c) :
    Gives (do let l ← a.load; k l) c := by
  rw [h.load, ok_bind]; exact hk

theorem cOrBuf_spec (hE : EnvOK E) {o1 o2 : CBuf} {c1 c2 : Container} (h1 : CHolds o1 c1) (h2 : CHolds o2 c2) (i1 : LInv c1) (i2 : LInv c2)
    (n1 : NonEmptyRun c1) (n2 : NonEmptyRun c2) : Gives (cOrBuf E o1 o2) (containerOr c1 c2) := by
  cases o1 <;> cases c1 <;> try exact h1.elim
  all_goals cases o2 <;> cases c2 <;> try exact h2.elim
  · cases h1; cases h2; exact gives_ok rfl
  · cases h1; exact gives_load h2 (gives_ok rfl)
  · cases h1; exact runBitsetUnionBuf_spec hE _ h2 n2 _
  · cases h2; exact gives_load h1 (gives_ok rfl)
  · exact arrayArrayUnionBuf_spec hE h1 h2 i1.1 i2.1 i1.2 i2.2
  · exact gives_load h1 (gives_eff hE (arrayRunUnionBuf_spec hE.runs _ h2 n2 _))
  · cases h2; exact runBitsetUnionBuf_spec hE _ h1 n1 _
  · exact gives_load h2 (gives_eff hE (arrayRunUnionBuf_spec hE.runs _ h1 n1 _))
  · exact gives_eff hE (runUnionBuf_spec hE.runs h1 h2 n1 n2 _)

theorem cLazyOrBuf_spec (hE : EnvOK E) {o1 o2 : CBuf} {c1 c2 : Container} (h1 : CHolds o1 c1) (h2 : CHolds o2 c2) (i1 : LInv c1) (i2 : LInv c2)
    (n1 : NonEmptyRun c1) (n2 : NonEmptyRun c2) : Gives (cLazyOrBuf E o1 o2) (containerLazyOr c1 c2) := by
  cases o1 <;> cases c1 <;> try exact h1.elim
  all_goals cases o2 <;> cases c2 <;> try exact h2.elim
  · cases h1; cases h2; exact gives_ok rfl
  · cases h1; exact gives_load h2 (gives_ok rfl)
  · cases h1; exact runBitsetUnionBuf_spec hE _ h2 n2 _
  · cases h2; exact gives_load h1 (gives_ok rfl)
  · exact arrayArrayLazyUnionBuf_spec hE h1 h2 i1.1 i2.1 i1.2 i2.2
  · exact gives_load h1 (gives_run (arrayRunUnionBuf_spec hE.runs _ h2 n2 _))
  · cases h2; exact runBitsetUnionBuf_spec hE _ h1 n1 _
  · exact gives_load h2 (gives_run (arrayRunUnionBuf_spec hE.runs _ h1 n1 _))
  · exact gives_eff hE (runUnionBuf_spec hE.runs h1 h2 n1 n2 _)

/-- The capacity of an array container. -/
def CBuf.capacity : CBuf → Nat
  | .array a => a.mem.length
  | _ => 0

theorem bitsetIorBuf_spec (hE : EnvOK E) (b : Bitset) :
    Gives (if b.card = 65536 then runCreateRangeBuf E 0 65536 else .ok (.bitset b))
      (if b.card = 65536 then .run (runCreateRange 0 65536) else .bitset b) := by
  split
  · exact runCreateRangeBuf_spec hE 0 65536
  · exact gives_ok rfl

theorem cIorBuf_spec (hE : EnvOK E) {o1 o2 : CBuf} {c1 c2 : Container} (h1 : CHolds o1 c1) (h2 : CHolds o2 c2) (i1 : LInv c1) (i2 : LInv c2)
    (n1 : NonEmptyRun c1) (n2 : NonEmptyRun c2) : Gives (cIorBuf E o1 o2) (containerIor o1.capacity c1 c2) := by
  cases o1 <;> cases c1 <;> try exact h1.elim
  all_goals cases o2 <;> cases c2 <;> try exact h2.elim
  · cases h1; cases h2; simp only [cIorBuf, containerIor]; exact bitsetIorBuf_spec hE _
  · cases h1; exact gives_load h2 (gives_ok rfl)
  · cases h1; exact runBitsetUnionBuf_spec hE _ h2 n2 _
  · cases h2; exact gives_load h1 (gives_ok rfl)
  · exact arrayArrayInplaceUnionBuf_spec hE h1 h2 i1.1 i2.1 i1.2 i2.2
  · exact gives_load h1 (gives_eff hE (arrayRunUnionBuf_spec hE.runs _ h2 n2 _))
  · cases h2; exact runBitsetIunionBuf_spec _ h1 n1 _
  · exact gives_load h2 (gives_eff hE (arrayRunInplaceUnionBuf_spec hE.runs _ h1 n1))
  · exact gives_eff hE (runUnionInplaceBuf_spec hE.runs h1 h2 n1 n2)

theorem cLazyIorBuf_spec (hE : EnvOK E) {o1 o2 : CBuf} {c1 c2 : Container} (h1 : CHolds o1 c1) (h2 : CHolds o2 c2) (i1 : LInv c1) (i2 : LInv c2)
    (n1 : NonEmptyRun c1) (n2 : NonEmptyRun c2) : Gives (cLazyIorBuf E o1 o2) (containerLazyIor o1.capacity c1 c2) := by
  cases o1 <;> cases c1 <;> try exact h1.elim
  all_goals cases o2 <;> cases c2 <;> try exact h2.elim
  · cases h1; cases h2; simp only [cLazyIorBuf, containerLazyIor]; exact bitsetIorBuf_spec hE _
  · cases h1; exact gives_load h2 (gives_ok rfl)
  · cases h1; exact runBitsetUnionBuf_spec hE _ h2 n2 _
  · cases h2; exact gives_load h1 (gives_ok rfl)
  · exact arrayArrayLazyInplaceUnionBuf_spec hE h1 h2 i1.1 i2.1 i1.2 i2.2
  · exact gives_load h1 (gives_run (arrayRunUnionBuf_spec hE.runs _ h2 n2 _))
  · cases h2; exact runBitsetIunionBuf_spec _ h1 n1 _
  · exact gives_load h2 (gives_run (arrayRunInplaceUnionBuf_spec hE.runs _ h1 n1))
  · exact gives_eff hE (runUnionInplaceBuf_spec hE.runs h1 h2 n1 n2)

end CRoaring
