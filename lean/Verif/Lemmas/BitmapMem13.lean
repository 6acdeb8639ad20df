import Verif.Lemmas.BitmapMem12
import Verif.Model.BitmapMemSerial
import Verif.Lemmas.Serial3
set_option linter.unusedSimpArgs false
set_option linter.unusedVariables false

/-! Bitmaps in memory: serialization, deserialization and validation. -/

namespace CRoaring
open Spec

/-! ### Validation -/

theorem RQ.cellHead {b : RaBuf} {A B : Bitmap} {p : Nat × Container} (h : RHolds b (A ++ p :: B)) :
    ∃ o, b.mem[A.length]? = some (p.1, o) ∧ CHolds o p.2 := by
  obtain ⟨⟨o, h3, h4⟩, _⟩ := cellsAt_cons.1 (cellsAt_append.1 h.cells).2
  rw [Nat.zero_add] at h3
  exact ⟨o, h3, h4⟩

theorem keysIncreasingBuf_spec (B : Bitmap) : ∀ {A : Bitmap} {b : RaBuf} (prev : Nat), RHolds b (A ++ B) →
    keysIncreasingBuf b.mem B.length A.length prev = .ok (keysIncreasing prev (keysOf B)) := by
  induction B with
  | nil => intro A b prev h; rfl
  | cons p t ih =>
    intro A b prev h
    obtain ⟨o, h3, h4⟩ := h.cellHead
    have := ih (A := A ++ [p]) p.1 h.next
    rw [List.length_append, List.length_singleton] at this
    rw [List.length_cons, keysIncreasingBuf, cellAt_eq h3, ok_bind, this]
    simp only [keysOf, List.map_cons, keysIncreasing]
    split <;> rfl

theorem containersValidBuf_spec (B : Bitmap) : ∀ {A : Bitmap} {b : RaBuf}, RHolds b (A ++ B) →
    containersValidBuf b.mem B.length A.length = .ok (B.all fun p => containerValidate p.2) := by
  induction B with
  | nil => intro A b h; rfl
  | cons p t ih =>
    intro A b h
    have := ih (A := A ++ [p]) h.next
    rw [List.length_append, List.length_singleton] at this
    rw [List.length_cons, containersValidBuf, h.loadCell, ok_bind, this, List.all_cons]
    cases containerValidate p.2 <;> rfl

theorem rbInternalValidateBuf_spec {b : RaBuf} {r : Bitmap} (h : RHolds b r) : rbInternalValidateBuf b = .ok (rbInternalValidate r) := by
  have hle := h.le
  rw [rbInternalValidateBuf, if_neg (by omega), h.size]
  cases r with
  | nil => rfl
  | cons p t =>
    obtain ⟨o, h3, h4⟩ := RQ.cellHead (A := []) (p := p) (B := t) (by simpa using h)
    rw [List.length_nil] at h3
    have e1 := keysIncreasingBuf_spec t (A := [p]) p.1 (by simpa using h)
    have e2 := containersValidBuf_spec (p :: t) (A := []) (by simpa using h)
    rw [List.length_singleton] at e1
    rw [List.length_nil] at e2
    rw [if_neg (by simp), cellAt_eq h3, ok_bind, List.length_cons, Nat.add_sub_cancel, e1, ok_bind]
    rw [List.length_cons] at e2
    rw [e2]
    obtain ⟨k, c⟩ := p
    rw [rbInternalValidate]
    cases keysIncreasing k (keysOf t) <;> simp

/-! ### Writing -/

theorem isRunBuf_eq {o : CBuf} {c : Container} (h : CHolds o c) : isRunBuf o = isRun c := by
  cases o <;> cases c <;> first | rfl | exact h.elim

theorem raHasRunLoopBuf_spec (B : Bitmap) : ∀ {A : Bitmap} {b : RaBuf}, RHolds b (A ++ B) →
    raHasRunLoopBuf b.mem B.length A.length = .ok (raHasRun B) := by
  induction B with
  | nil => intro A b h; rfl
  | cons p t ih =>
    intro A b h
    obtain ⟨o, h3, h4⟩ := h.cellHead
    have := ih (A := A ++ [p]) h.next
    rw [List.length_append, List.length_singleton] at this
    rw [List.length_cons, raHasRunLoopBuf, cellAt_eq h3, ok_bind, this, isRunBuf_eq h4]
    simp only [raHasRun, List.any_cons]
    cases isRun p.2 <;> rfl

theorem raHasRunBuf_spec {b : RaBuf} {r : Bitmap} (h : RHolds b r) : raHasRunLoopBuf b.mem b.size 0 = .ok (raHasRun r) := by
  rw [h.size]
  exact raHasRunLoopBuf_spec r (A := []) (by simpa using h)

theorem raPortableHeaderSizeBuf_spec {b : RaBuf} {r : Bitmap} (h : RHolds b r) : raPortableHeaderSizeBuf b = .ok (raPortableHeaderSize r) := by
  rw [raPortableHeaderSizeBuf, raHasRunBuf_spec h, ok_bind, raPortableHeaderSize, h.size]

theorem raPortableSizeLoopBuf_spec (B : Bitmap) : ∀ {A : Bitmap} {b : RaBuf} (count : Nat), RHolds b (A ++ B) →
    raPortableSizeLoopBuf b.mem B.length A.length count = .ok (B.foldl (fun count p => count + containerSizeInBytes p.2) count) := by
  induction B with
  | nil => intro A b count h; rfl
  | cons p t ih =>
    intro A b count h
    have := ih (A := A ++ [p]) (count + containerSizeInBytes p.2) h.next
    rw [List.length_append, List.length_singleton] at this
    rw [List.length_cons, raPortableSizeLoopBuf, h.loadCell, ok_bind, this, List.foldl_cons]

theorem raPortableSizeBuf_spec {b : RaBuf} {r : Bitmap} (h : RHolds b r) : raPortableSizeBuf b = .ok (rbPortableSize r) := by
  rw [raPortableSizeBuf, raPortableHeaderSizeBuf_spec h, ok_bind, h.size]
  exact raPortableSizeLoopBuf_spec r (A := []) _ (by simpa using h)

theorem runFlagsLoopBuf_spec (B : Bitmap) : ∀ {A : Bitmap} {b : RaBuf} (bm : List UInt8), RHolds b (A ++ B) → bm.length = ((A ++ B).length + 7) / 8 →
    runFlagsLoopBuf b.mem B.length A.length bm = .ok ((List.range' A.length B.length).foldl
      (fun bm i => if isRun (contAt (A ++ B) i) then bm.modify (i / 8) (· ||| UInt8.ofNat (1 <<< (i % 8))) else bm) bm) := by
  induction B with
  | nil => intro A b bm h hl; rfl
  | cons p t ih =>
    intro A b bm h hl
    obtain ⟨k, c⟩ := p
    obtain ⟨o, h3, h4⟩ := h.cellHead
    have ih' := fun bm hl => ih (A := A ++ [(k, c)]) (b := b) bm h.next hl
    simp only [List.length_append, List.length_singleton, List.append_assoc, List.singleton_append] at ih'
    rw [List.length_cons, runFlagsLoopBuf, cellAt_eq h3, ok_bind, isRunBuf_eq h4, List.range'_succ, List.foldl_cons, contAt_mid]
    simp only [List.length_append, List.length_cons] at hl
    simp only
    cases isRun c
    · rw [if_neg (by simp), if_neg (by simp)]
      exact ih' bm (by simp only [List.length_cons]; omega)
    · rw [if_pos rfl, if_pos rfl, if_pos (by omega)]
      exact ih' _ (by rw [List.length_modify, List.length_cons]; omega)

theorem runFlagsBuf_spec {b : RaBuf} {r : Bitmap} (h : RHolds b r) :
    runFlagsLoopBuf b.mem b.size 0 (List.replicate ((b.size + 7) / 8) 0) = .ok (runFlags r) := by
  have := runFlagsLoopBuf_spec r (A := []) (b := b) (List.replicate ((r.length + 7) / 8) 0) (by simpa using h) (by simp)
  rw [h.size, runFlags, List.range_eq_range']
  exact this

theorem writeKeyCardsBuf_spec (B : Bitmap) : ∀ {A : Bitmap} {b : RaBuf} (st : WSt), RHolds b (A ++ B) →
    writeKeyCardsBuf b.mem B.length A.length st = writeKeyCards st B := by
  induction B with
  | nil => intro A b st h; rfl
  | cons p t ih =>
    intro A b st h
    obtain ⟨k, c⟩ := p
    have ih' := fun st => ih (A := A ++ [(k, c)]) (b := b) st h.next
    simp only [List.length_append, List.length_singleton] at ih'
    rw [List.length_cons, writeKeyCardsBuf, h.loadCell, ok_bind, writeKeyCards]
    simp only [ih']

theorem writeOffsetsBuf_spec (B : Bitmap) : ∀ {A : Bitmap} {b : RaBuf} (st : WSt) (s : Nat), RHolds b (A ++ B) →
    writeOffsetsBuf b.mem B.length A.length st s = writeOffsets st s B := by
  induction B with
  | nil => intro A b st s h; rfl
  | cons p t ih =>
    intro A b st s h
    obtain ⟨k, c⟩ := p
    have ih' := fun st s => ih (A := A ++ [(k, c)]) (b := b) st s h.next
    simp only [List.length_append, List.length_singleton] at ih'
    rw [List.length_cons, writeOffsetsBuf, h.loadCell, ok_bind, writeOffsets]
    simp only [ih']

theorem writeContainersBuf_spec (B : Bitmap) : ∀ {A : Bitmap} {b : RaBuf} (st : WSt), RHolds b (A ++ B) →
    writeContainersBuf b.mem B.length A.length st = writeContainers st B := by
  induction B with
  | nil => intro A b st h; rfl
  | cons p t ih =>
    intro A b st h
    obtain ⟨k, c⟩ := p
    have ih' := fun st => ih (A := A ++ [(k, c)]) (b := b) st h.next
    simp only [List.length_append, List.length_singleton] at ih'
    rw [List.length_cons, writeContainersBuf, h.loadCell, ok_bind, writeContainers]
    simp only [ih']

theorem rbPortableSerializeBuf_spec {b : RaBuf} {r : Bitmap} (h : RHolds b r) (bytes : List UInt8) (off : Nat) :
    rbPortableSerializeBuf b bytes off = rbPortableSerialize r bytes off := by
  have h0 : RHolds b ([] ++ r) := by simpa using h
  have e1 := fun st => writeKeyCardsBuf_spec r (A := []) (b := b) st h0
  have e2 := fun st s => writeOffsetsBuf_spec r (A := []) (b := b) st s h0
  have e3 := fun st => writeContainersBuf_spec r (A := []) (b := b) st h0
  simp only [List.length_nil] at e1 e2 e3
  rw [rbPortableSerializeBuf, raHasRunBuf_spec h, ok_bind, rbPortableSerialize]
  have ef := runFlagsBuf_spec h
  rw [h.size] at ef
  simp only [serialHeaderBuf, h.size, ef, e1, e2, e3, ok_bind, pure_ok]
  cases raHasRun r
  · rw [if_neg (by simp), if_neg (by simp)]
    cases put (bytes, off) (leBytes 4 COOKIE_NORUN) with
    | oob => rfl
    | fail => rfl
    | ok st =>
      simp only [ok_bind]
      cases put st (leBytes 4 r.length) with
      | oob => rfl
      | fail => rfl
      | ok st => simp only [ok_bind]
  · rw [if_pos rfl, if_pos rfl]
    cases put (bytes, off) (leBytes 4 (COOKIE ||| (r.length - 1) <<< 16)) with
    | oob => rfl
    | fail => rfl
    | ok st =>
      simp only [ok_bind]
      cases put st (runFlags r) with
      | oob => rfl
      | fail => rfl
      | ok st => simp only [ok_bind]

theorem rbSizeInBytesBuf_spec {b : RaBuf} {r : Bitmap} (h : RHolds b r) : rbSizeInBytesBuf b = .ok (rbSizeInBytes r) := by
  rw [rbSizeInBytesBuf, raPortableSizeBuf_spec h, ok_bind, rbCardinalityBuf_spec h, ok_bind, rbSizeInBytes]

theorem rbSerializeBuf_spec (hw : Hw) {b : RaBuf} {r : Bitmap} (h : RHolds b r) (hr : BInv r) (bytes : List UInt8) :
    rbSerializeBuf hw b bytes = rbSerialize r bytes := by
  have e := rbToArrayLoopBuf_spec hw r (A := []) (List.replicate (rbCardinality r) 0) 0 (by simpa using h)
  have hl : (rbToUint32 r).length = rbCardinality r := by rw [rbToUint32_eq hr, vals_eq hr, rbCardinality_eq hr, Spec.card]
  rw [rbToMem_over hw r hr _ 0 (by simp [hl]), ok_bind, over, hl] at e
  have e' : rbToArrayBuf hw b (List.replicate (rbCardinality r) 0) = .ok (rbToUint32 r) := by
    rw [rbToArrayBuf, h.size]
    refine e.trans ?_
    simp
  rw [rbSerializeBuf, raPortableSizeBuf_spec h, ok_bind, rbCardinalityBuf_spec h, ok_bind, e', rbSerialize]
  simp only [rbPortableSerializeBuf_spec h, ok_bind, pure_ok]

/-! ### Reading -/

/-- The two computations end the same way, and what is in memory is the bitmap. -/
def DRel (x : Out (RaBuf × Nat)) (y : Out (Bitmap × Nat)) : Prop :=
  match x, y with
  | .ok p, .ok q => p.2 = q.2 ∧ RHolds p.1 q.1
  | .fail, .fail => True
  | .oob, .oob => True
  | _, _ => False

theorem DRel.fail : DRel .fail .fail := trivial

theorem DRel.bind {α : Type} {x : Out α} {f : α → Out (RaBuf × Nat)} {g : α → Out (Bitmap × Nat)} (h : ∀ a, x = .ok a → DRel (f a) (g a)) :
    DRel (x >>= f) (x >>= g) := by
  cases x with
  | oob => exact trivial
  | fail => exact trivial
  | ok a => exact h a rfl

theorem readU16s_len {buf : List UInt8} (n : Nat) : ∀ {off : Nat} {l : List Nat}, readU16s buf off n = .ok l → l.length = n := by
  induction n with
  | zero => intro off l h; rw [readU16s] at h; cases h; rfl
  | succ n ih =>
    intro off l h
    rw [readU16s] at h
    cases h1 : readLE buf off 2 with
    | oob => rw [h1] at h; cases h
    | fail => rw [h1] at h; cases h
    | ok v =>
      rw [h1, ok_bind] at h
      cases h2 : readU16s buf (off + 2) n with
      | oob => rw [h2] at h; cases h
      | fail => rw [h2] at h; cases h
      | ok vs => rw [h2, ok_bind] at h; cases h; simp [ih h2]

theorem readRles_len {buf : List UInt8} (n : Nat) : ∀ {off : Nat} {l : List Rle}, readRles buf off n = .ok l → l.length = n := by
  induction n with
  | zero => intro off l h; rw [readRles] at h; cases h; rfl
  | succ n ih =>
    intro off l h
    rw [readRles] at h
    cases h1 : readLE buf off 2 with
    | oob => rw [h1] at h; cases h
    | fail => rw [h1] at h; cases h
    | ok v =>
      rw [h1, ok_bind] at h
      cases h1' : readLE buf (off + 2) 2 with
      | oob => rw [h1'] at h; cases h
      | fail => rw [h1'] at h; cases h
      | ok w =>
      rw [h1', ok_bind] at h
      cases h2 : readRles buf (off + 4) n with
      | oob => rw [h2] at h; cases h
      | fail => rw [h2] at h; cases h
      | ok vs => rw [h2, ok_bind] at h; cases h; simp [ih h2]

/-- Cells with the keys `ks` from `k` on. -/
def KeysAt (mem : List RCell) (k : Nat) : List Nat → Prop
  | [] => True
  | x :: ks => (∃ o, mem[k]? = some (x, o)) ∧ KeysAt mem (k + 1) ks

theorem KeysAt.set {mem : List RCell} (c : RCell) {j : Nat} (ks : List Nat) : ∀ {k : Nat}, j < k → KeysAt mem k ks → KeysAt (mem.set j c) k ks := by
  induction ks with
  | nil => intros; trivial
  | cons x ks ih =>
    intro k hj h
    exact ⟨by rw [List.getElem?_set_ne (by omega)]; exact h.1, ih (by omega) h.2⟩

theorem readKeysBuf_spec (buf : List UInt8) (kc n : Nat) : ∀ {k : Nat} {mem : List RCell}, k + n ≤ mem.length →
    match readKeys buf kc n k with
    | .ok ks => ks.length = n ∧ ∃ mem', readKeysBuf buf kc n k mem = .ok mem' ∧ mem'.length = mem.length ∧ KeysAt mem' k ks ∧
        ∀ i, i < k → mem'[i]? = mem[i]?
    | .fail => readKeysBuf buf kc n k mem = .fail
    | .oob => readKeysBuf buf kc n k mem = .oob := by
  induction n with
  | zero => intro k mem h; exact ⟨rfl, mem, rfl, rfl, trivial, fun _ _ => rfl⟩
  | succ n ih =>
    intro k mem h
    rw [readKeys, readKeysBuf]
    cases h1 : readLE buf (kc + 2 * (2 * k)) 2 with
    | oob => rfl
    | fail => rfl
    | ok v =>
      have hk : k < mem.length := by omega
      have hc : mem[k]? = some mem[k] := List.getElem?_eq_getElem hk
      rw [ok_bind, ok_bind, cellAt_eq hc, ok_bind, setCell_eq hk, ok_bind]
      have := ih (k := k + 1) (mem := mem.set k (v, mem[k].2)) (by rw [List.length_set]; omega)
      cases h2 : readKeys buf kc n (k + 1) with
      | oob => rw [h2] at this; exact this
      | fail => rw [h2] at this; exact this
      | ok ks =>
        rw [h2] at this
        obtain ⟨a, mem', e1, e2, e3, e4⟩ := this
        rw [ok_bind]
        refine ⟨by simp [a], mem', e1, by rw [e2, List.length_set], ⟨⟨mem[k].2, ?_⟩, e3⟩, fun i hi => ?_⟩
        · rw [e4 k (by omega), List.getElem?_set_self hk]
        · rw [e4 i (by omega), List.getElem?_set_ne (by omega)]

theorem putContBuf_spec {ra : RaBuf} {A : Bitmap} {x : Nat} {ks : List Nat} {o : CBuf} {c : Container} (h : RHolds ra A) (hk : KeysAt ra.mem A.length (x :: ks))
    (ho : CHolds o c) : ∃ ra', putContBuf ra A.length o = .ok ra' ∧ RHolds ra' (A ++ [(x, c)]) ∧ KeysAt ra'.mem (A ++ [(x, c)]).length ks := by
  obtain ⟨⟨o', e⟩, hk'⟩ := hk
  have hl : A.length < ra.mem.length := (List.getElem?_eq_some_iff.1 e).1
  rw [putContBuf, cellAt_eq e, ok_bind, setCell_eq hl, ok_bind]
  refine ⟨_, rfl, ⟨by simp [h.size], ?_, ?_⟩, ?_⟩
  · show ra.size + 1 ≤ _
    rw [List.length_set, h.size]; omega
  · refine cellsAt_append.2 ⟨h.cells.set_ne (Or.inr (by omega)) _, ?_⟩
    simp only [Nat.zero_add]
    exact CellsAt.set_here hl (cellsAt_nil _ _) ho rfl
  · rw [List.length_append, List.length_singleton]
    exact KeysAt.set _ _ (by omega) hk'

variable {E : RbEnv}

theorem arrayReadBuf_spec (hE : RbEnvOK E) {card : Nat} (hc : card ≤ 65536) (a : ArrBuf) (buf : List UInt8) (off : Nat) :
    match arrayRead card buf off with
    | .ok c => ∃ a', arrayReadBuf E.m.vals card a buf off = .ok a' ∧ CHolds (.array a') c ∧ a'.card * 2 = containerSizeInBytes c
    | .fail => arrayReadBuf E.m.vals card a buf off = .fail
    | .oob => arrayReadBuf E.m.vals card a buf off = .oob := by
  rw [arrayRead, arrayReadBuf]
  cases h : readU16s buf off card with
  | oob => rfl
  | fail => rfl
  | ok l =>
    have hl := readU16s_len _ h
    obtain ⟨m', e1, e2, e3⟩ := storeu_holds (m := (arrayReserve E.m.vals a card card).mem) (v := l)
      (by rw [hl]; exact (arrayReserve_len hE.m.vals a card card (Nat.le_refl _) hc).1)
    rw [ok_bind, ok_bind, e1, ok_bind, pure_ok]
    rw [hl] at e2
    exact ⟨_, rfl, e2, by simp [containerSizeInBytes, hl]⟩

theorem runReadBuf_spec (hE : RbEnvOK E) (r : RunBuf) (buf : List UInt8) (off : Nat) :
    match runRead buf off with
    | .ok c => ∃ r', runReadBuf E.m.runs r buf off = .ok r' ∧ CHolds (.run r') c ∧ runSerializedSize r'.n = containerSizeInBytes c
    | .fail => runReadBuf E.m.runs r buf off = .fail
    | .oob => runReadBuf E.m.runs r buf off = .oob := by
  rw [runRead, runReadBuf]
  cases h : readLE buf off 2 with
  | oob => rfl
  | fail => rfl
  | ok n =>
    rw [ok_bind, ok_bind]
    have hlen : n ≤ (if n > r.mem.length then runGrow E.m.runs r n false else r).mem.length := by
      split
      · rw [runGrow_length hE.m.runs]; exact (runNewCapacity_ge _ n).1
      · omega
    simp only
    generalize (if n > r.mem.length then runGrow E.m.runs r n false else r) = r' at hlen
    cases n with
    | zero =>
      rw [if_neg (by omega), readRles, ok_bind]
      exact ⟨_, rfl, ⟨r'.mem, rfl⟩, rfl⟩
    | succ n =>
      rw [if_pos (by omega)]
      cases h2 : readRles buf (off + 2) (n + 1) with
      | oob => rfl
      | fail => rfl
      | ok rs =>
        have hl := readRles_len _ h2
        rw [ok_bind, ok_bind, cpRuns_eq (by omega), ok_bind, pure_ok]
        refine ⟨_, rfl, ⟨r'.mem.drop rs.length, by simp [hl]⟩, by simp [containerSizeInBytes, hl]⟩

theorem deserLoopBuf_spec (hE : RbEnvOK E) (buf : List UInt8) (maxbytes : Nat) (hasrun : Option Nat) (kc n : Nat) :
    ∀ {k off rb : Nat} {ra : RaBuf} {A : Bitmap} {ks : List Nat}, RHolds ra A → A.length = k → KeysAt ra.mem k ks → ks.length = n →
    DRel (deserLoopBuf E buf maxbytes hasrun kc n k off rb ra)
      (do let p ← deserLoop buf maxbytes hasrun kc n k off rb; .ok (A ++ ks.zip p.1, p.2)) := by
  induction n with
  | zero =>
    intro k off rb ra A ks h hk hks hl
    rw [deserLoopBuf, deserLoop, ok_bind]
    exact ⟨rfl, by simpa using h⟩
  | succ n ih =>
    intro k off rb ra A ks h hk hks hl
    obtain ⟨x, ks, rfl⟩ : ∃ x t, ks = x :: t := List.exists_cons_of_length_eq_add_one hl
    have hl' : ks.length = n := by simpa using hl
    subst hk
    -- the step with the container `c`
    have step : ∀ (o : CBuf) (c : Container) (off rb : Nat), CHolds o c →
        DRel (do let ra ← putContBuf ra A.length o; deserLoopBuf E buf maxbytes hasrun kc n (A.length + 1) off rb ra)
          (do
            let p ← (do
              let p ← deserLoop buf maxbytes hasrun kc n (A.length + 1) off rb
              pure (c :: p.1, p.2))
            .ok (A ++ (x :: ks).zip p.1, p.2)) := by
      intro o c off rb ho
      obtain ⟨ra', e1, e2, e3⟩ := putContBuf_spec h hks ho
      rw [e1, ok_bind]
      have := ih (off := off) (rb := rb) (k := A.length + 1) e2 (by simp) (by simpa using e3) hl'
      cases hd : deserLoop buf maxbytes hasrun kc n (A.length + 1) off rb with
      | oob => rw [hd] at this; exact this
      | fail => rw [hd] at this; exact this
      | ok p =>
        rw [hd, ok_bind] at this
        rw [ok_bind, pure_ok, ok_bind, List.zip_cons_cons]
        simpa using this
    rw [deserLoopBuf, deserLoop]
    cases h1 : readLE buf (kc + 2 * (2 * A.length + 1)) 2 with
    | oob => exact trivial
    | fail => exact trivial
    | ok tmp =>
    have htmp : tmp < 65536 := by
      have hb : kc + 2 * (2 * A.length + 1) + 2 ≤ buf.length := by
        refine Decidable.byContradiction fun q => ?_
        rw [readLE, memRead, if_neg q] at h1
        cases h1
      obtain ⟨v, e, hv⟩ := readLE_ok hb
      rw [e] at h1
      cases h1
      exact hv
    rw [ok_bind, ok_bind]
    cases h2 : isRunAt buf hasrun A.length with
    | oob => exact trivial
    | fail => exact trivial
    | ok isrun =>
    rw [ok_bind, ok_bind]
    simp only
    by_cases hbm : (!isrun && decide (tmp + 1 > DEFAULT_MAX_SIZE)) = true
    · rw [if_pos hbm, if_pos hbm]
      by_cases hr : rb + NWORDS * 8 > maxbytes
      · rw [if_pos hr, if_pos hr]; exact trivial
      rw [if_neg hr, if_neg hr, bitsetRead]
      cases h3 : readWords buf off NWORDS with
      | oob => exact trivial
      | fail => exact trivial
      | ok ws =>
        rw [ok_bind, ok_bind, pure_ok, ok_bind]
        exact step _ _ _ _ rfl
    · rw [if_neg hbm, if_neg hbm]
      cases isrun with
      | true =>
        rw [if_pos rfl, if_pos rfl]
        by_cases hr : rb + 2 > maxbytes
        · rw [if_pos hr, if_pos hr]; exact trivial
        rw [if_neg hr, if_neg hr]
        cases h3 : readLE buf off 2 with
        | oob => exact trivial
        | fail => exact trivial
        | ok nr =>
        rw [ok_bind, ok_bind]
        by_cases hr : rb + 2 + nr * 4 > maxbytes
        · rw [if_pos hr, if_pos hr]; exact trivial
        rw [if_neg hr, if_neg hr]
        have := runReadBuf_spec hE (runCreateBuf E.m.runs 0) buf off
        cases h4 : runRead buf off with
        | oob => rw [h4] at this; rw [this]; exact trivial
        | fail => rw [h4] at this; rw [this]; exact trivial
        | ok c =>
          rw [h4] at this
          obtain ⟨r', e1, e2, e3⟩ := this
          rw [e1, ok_bind, ok_bind, e3]
          exact step _ _ _ _ e2
      | false =>
        rw [if_neg (show ¬ (false = true) by simp), if_neg (show ¬ (false = true) by simp)]
        by_cases hr : rb + (tmp + 1) * 2 > maxbytes
        · rw [if_pos hr, if_pos hr]; exact trivial
        rw [if_neg hr, if_neg hr]
        have := arrayReadBuf_spec hE (card := tmp + 1) (by omega) (arrayCreateBuf E.m.vals (tmp + 1)) buf off
        cases h4 : arrayRead (tmp + 1) buf off with
        | oob => rw [h4] at this; rw [this]; exact trivial
        | fail => rw [h4] at this; rw [this]; exact trivial
        | ok c =>
          rw [h4] at this
          obtain ⟨r', e1, e2, e3⟩ := this
          rw [e1, ok_bind, ok_bind, e3]
          exact step _ _ _ _ e2

theorem raPortableDeserializeBuf_spec (hE : RbEnvOK E) (buf : List UInt8) (base maxbytes : Nat) :
    DRel (raPortableDeserializeBuf E buf base maxbytes) (raPortableDeserialize buf base maxbytes) := by
  rw [raPortableDeserializeBuf, raPortableDeserialize]
  simp only
  split
  · exact trivial
  refine DRel.bind fun cookie _ => ?_
  split
  · exact trivial
  refine DRel.bind fun hd _ => ?_
  split
  · exact trivial
  split
  · exact trivial
  rename_i h65
  generalize (if cookie % 65536 = COOKIE then hd.2.1 + (hd.1.toNat + 7) / 8 else hd.2.1) = off
  generalize (if cookie % 65536 = COOKIE then hd.2.2 + (hd.1.toNat + 7) / 8 else hd.2.2) = rb
  generalize (if cookie % 65536 = COOKIE then some hd.2.1 else none) = runs
  split
  · exact trivial
  split
  · exact trivial
  have hsz : hd.1.toNat ≤ 65536 := by omega
  generalize hd.1.toNat = size at *
  have hinit := (raInitBuf_spec hE size).1
  have hlen : size ≤ (raInitBuf E size).mem.length := Nat.le_of_eq ((raInitBuf_spec hE size).2 hsz).symm
  have hk := readKeysBuf_spec buf off size (k := 0) (mem := (raInitBuf E size).mem) (by omega)
  cases h1 : readKeys buf off size 0 with
  | oob => rw [h1] at hk; rw [hk]; exact trivial
  | fail => rw [h1] at hk; rw [hk]; exact trivial
  | ok ks =>
    rw [h1] at hk
    obtain ⟨a, mem', e1, e2, e3, _⟩ := hk
    rw [e1, ok_bind, ok_bind]
    refine DRel.bind fun o _ => ?_
    exact deserLoopBuf_spec hE buf maxbytes _ off size (A := []) ⟨hinit.size, by rw [hinit.size]; exact Nat.zero_le _, cellsAt_nil _ _⟩ rfl e3 a

/-- The result in memory is the bitmap `y`, or both computations fail in the same way. -/
def RRel (x : Out RaBuf) (y : Out Bitmap) : Prop :=
  match x, y with
  | .ok b, .ok r => RHolds b r
  | .fail, .fail => True
  | .oob, .oob => True
  | _, _ => False

theorem rbPortableDeserializeSafeBuf_spec (hE : RbEnvOK E) (buf : List UInt8) (base maxbytes : Nat) :
    RRel (rbPortableDeserializeSafeBuf E buf base maxbytes) (rbPortableDeserializeSafe buf base maxbytes) := by
  have := raPortableDeserializeBuf_spec hE buf base maxbytes
  rw [rbPortableDeserializeSafeBuf, rbPortableDeserializeSafe]
  cases h1 : raPortableDeserializeBuf E buf base maxbytes <;> cases h2 : raPortableDeserialize buf base maxbytes <;> rw [h1, h2] at this
  all_goals first | exact this.elim | exact trivial | exact this.2

theorem readLE_lt {buf : List UInt8} {off k v : Nat} (h : readLE buf off k = .ok v) : v < 256 ^ k := by
  have hb : off + k ≤ buf.length := by
    refine Decidable.byContradiction fun q => ?_
    rw [readLE, memRead, if_neg q] at h
    cases h
  obtain ⟨v', e, hv⟩ := readLE_ok hb
  rw [e] at h
  cases h
  exact hv

theorem deserAddLoopBuf_spec (hE : RbEnvOK E) (buf : List UInt8) (n : Nat) : ∀ {off : Nat} {b : RaBuf} {r : Bitmap} {ctx : BulkCtx}, RHolds b r → BInv r →
    CtxOK r ctx → RRel (deserAddLoopBuf E buf n off b ctx) (deserAddLoop buf n off r ctx) := by
  induction n with
  | zero => intro off b r ctx h _ _; exact h
  | succ n ih =>
    intro off b r ctx h hr hc
    rw [deserAddLoopBuf, deserAddLoop]
    cases h1 : readLE buf off 4 with
    | oob => exact trivial
    | fail => exact trivial
    | ok v =>
      have hv : v < 4294967296 := readLE_lt h1
      obtain ⟨b', e, h'⟩ := rbAddBulkBuf_spec hE h hr hc hv
      have h2 := rbAddBulk_spec hr hc v
      rw [ok_bind, ok_bind, e, ok_bind]
      refine ih h' ?_ ?_
      · rw [h2.1]; exact (rbAdd_spec hr hv).1
      · rw [h2.1]; exact h2.2

theorem rbDeserializeBuf_spec (hE : RbEnvOK E) (buf : List UInt8) : RRel (rbDeserializeBuf E buf) (rbDeserialize buf) := by
  have hc : RHolds (rbCreateBuf E 0) rbCreate := (raInitBuf_spec hE 0).1
  rw [rbDeserializeBuf, rbDeserialize]
  cases h1 : readLE buf 0 1 with
  | oob => exact trivial
  | fail => exact trivial
  | ok v =>
  rw [ok_bind, ok_bind]
  split
  · cases h2 : readLE buf 1 4 with
    | oob => exact trivial
    | fail => exact trivial
    | ok n => exact deserAddLoopBuf_spec hE buf n hc trivial (CtxOK.none _)
  split
  · exact rbPortableDeserializeSafeBuf_spec hE buf 1 SIZE_MAX
  · exact trivial

theorem rbDeserializeSafeBuf_spec (hE : RbEnvOK E) (buf : List UInt8) (maxbytes : Nat) :
    RRel (rbDeserializeSafeBuf E buf maxbytes) (rbDeserializeSafe buf maxbytes) := by
  have hc : RHolds (rbCreateBuf E 0) rbCreate := (raInitBuf_spec hE 0).1
  rw [rbDeserializeSafeBuf, rbDeserializeSafe]
  split
  · exact trivial
  cases h1 : readLE buf 0 1 with
  | oob => exact trivial
  | fail => exact trivial
  | ok v =>
  rw [ok_bind, ok_bind]
  split
  · split
    · exact trivial
    cases h2 : readLE buf 1 4 with
    | oob => exact trivial
    | fail => exact trivial
    | ok n =>
      rw [ok_bind, ok_bind]
      split
      · exact trivial
      · exact deserAddLoopBuf_spec hE buf n hc trivial (CtxOK.none _)
  split
  · exact rbPortableDeserializeSafeBuf_spec hE buf 1 (maxbytes - 1)
  · exact trivial

theorem RRel.ok {x : Out RaBuf} {y : Out Bitmap} {r : Bitmap} (h : RRel x y) (e : y = .ok r) : ∃ b, x = .ok b ∧ RHolds b r := by
  subst e
  cases x with
  | ok b => exact ⟨b, rfl, h⟩
  | fail => exact h.elim
  | oob => exact h.elim

theorem RRel.ok' {x : Out RaBuf} {y : Out Bitmap} {b : RaBuf} (h : RRel x y) (e : x = .ok b) : ∃ r, y = .ok r ∧ RHolds b r := by
  subst e
  cases y with
  | ok r => exact ⟨r, rfl, h⟩
  | fail => exact h.elim
  | oob => exact h.elim

theorem RRel.ne_oob {x : Out RaBuf} {y : Out Bitmap} (h : RRel x y) (e : y ≠ .oob) : x ≠ .oob := by
  rintro rfl
  cases y with
  | oob => exact e rfl
  | _ => exact h.elim

/-- What is in memory determines the bitmap. -/
theorem RQ.unique {b : RaBuf} {r r' : Bitmap} (h : RHolds b r) (h' : RHolds b r') : r = r' := by
  have key : ∀ {r : Bitmap}, RHolds b r → ∀ i (hi : i < r.length), CRoaring.loadCell b.mem i = .ok r[i] := by
    intro r h i hi
    have e : r = r.take i ++ r[i] :: r.drop (i + 1) := by simp
    have := RQ.loadCell (b := b) (A := r.take i) (p := r[i]) (B := r.drop (i + 1)) (e ▸ h)
    rwa [List.length_take, Nat.min_eq_left (by omega)] at this
  have hl : r.length = r'.length := by rw [← h.size, ← h'.size]
  refine List.ext_getElem hl fun i h1 h2 => ?_
  have := (key h i h1).symm.trans (key h' i h2)
  exact Out.ok.inj this

end CRoaring
