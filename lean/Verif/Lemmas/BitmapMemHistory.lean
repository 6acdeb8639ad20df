import Verif.Lemmas.BitmapMemSpec
import Verif.Lemmas.BitmapMem11
import Verif.Model.BitmapMemHistory
import Mathlib.Data.List.Forall2
set_option linter.unusedSimpArgs false
set_option linter.unusedVariables false

/-! Histories of calls over bitmaps in memory. -/

namespace CRoaring
open Spec

/-- The bitmap in memory is well formed and holds the set `s`. -/
def MSet (b : RaBuf) (s : NSet) : Prop := ∃ r, RHolds b r ∧ BInv r ∧ ∀ x, bhas r x = s x

/-- A place of the list of bitmaps. -/
def SlotInv : Option RaBuf → Option NSet → Prop
  | some b, some s => MSet b s
  | none, none => True
  | _, _ => False

theorem SlotInv.is {a : Option RaBuf} {s : Option NSet} (h : SlotInv a s) : SlotIs a s := by
  cases a <;> cases s
  · exact trivial
  · exact h.elim
  · exact h.elim
  · obtain ⟨r, h1, h2, h3⟩ := h
    exact isBitmapSet_of h1 h2 h3

theorem mset_iff {b : RaBuf} {s : NSet} : MSet b s ↔ IsBitmapSet b s := isBitmapSet_iff.symm

abbrev PoolInv (q : BufPool) (p : History.Pool) : Prop := List.Forall₂ SlotInv q p

/-- The result is well formed and holds `s`. -/
def GivesSet (x : Out RaBuf) (s : NSet) : Prop := ∃ b, x = .ok b ∧ MSet b s

theorem givesSet {x : Out RaBuf} {r : Bitmap} {s : NSet} (h : RGives x r) (hr : BInv r ∧ ∀ x, bhas r x = s x) : GivesSet x s := by
  obtain ⟨b, e, h⟩ := h
  exact ⟨b, e, r, h, hr⟩

theorem bhas_ext {r : Bitmap} {s : NSet} (h : ∀ x, bhas r x = s x) : bhas r = s := funext h

theorem pool_get {q : BufPool} {p : History.Pool} (h : PoolInv q p) {i : Nat} {s : NSet} (hi : History.get p i = some s) :
    ∃ b, bufGet q i = .ok b ∧ MSet b s := by
  rw [History.get] at hi
  rw [bufGet]
  induction h generalizing i with
  | nil => simp at hi
  | cons h1 h2 ih =>
    cases i with
    | succ i => exact ih (by simpa using hi)
    | zero =>
      rename_i a t _ _
      simp only [List.getElem?_cons_zero, Option.join_some] at hi ⊢
      subst hi
      cases a with
      | none => exact h1.elim
      | some b => exact ⟨b, rfl, h1⟩

theorem pool_set {q : BufPool} {p : History.Pool} (h : PoolInv q p) {a : Option RaBuf} {s : Option NSet} (ha : SlotInv a s) (i : Nat) :
    PoolInv (q.set i a) (p.set i s) := by
  induction h generalizing i with
  | nil => exact .nil
  | cons h1 h2 ih =>
    cases i with
    | zero => exact .cons ha h2
    | succ i => exact .cons h1 (ih i)

theorem pool_push {q : BufPool} {p : History.Pool} (h : PoolInv q p) {a : Option RaBuf} {s : Option NSet} (ha : SlotInv a s) :
    PoolInv (q ++ [a]) (p ++ [s]) := by
  induction h with
  | nil => exact .cons ha .nil
  | cons h1 h2 ih => exact .cons h1 ih

/-- The step succeeds, with the right bitmaps. -/
def StepOK (x : Out BufPool) (p : History.Pool) : Prop := ∃ q, x = .ok q ∧ PoolInv q p

theorem bufU_spec {q : BufPool} {p p' : History.Pool} (h : PoolInv q p) {i : Nat} {u : RaBuf → Out RaBuf} {f : NSet → NSet}
    (hp : History.upd p i f = some p') (hu : ∀ b s, MSet b s → GivesSet (u b) (f s)) : StepOK (bufU u q i) p' := by
  rw [History.upd] at hp
  cases hs : History.get p i with
  | none => rw [hs] at hp; cases hp
  | some s =>
    rw [hs] at hp
    cases hp
    obtain ⟨b, e, hb⟩ := pool_get h hs
    obtain ⟨b', e', hb'⟩ := hu b s hb
    rw [bufU, e, ok_bind, e', ok_bind]
    exact ⟨_, rfl, pool_set h (by exact hb') i⟩

theorem bufN_spec {q : BufPool} {p p' : History.Pool} (h : PoolInv q p) {i : Nat} {u : RaBuf → Out RaBuf} {f : NSet → NSet}
    (hp : History.new1 p i f = some p') (hu : ∀ b s, MSet b s → GivesSet (u b) (f s)) : StepOK (bufN u q i) p' := by
  rw [History.new1] at hp
  cases hs : History.get p i with
  | none => rw [hs] at hp; cases hp
  | some s =>
    rw [hs] at hp
    cases hp
    obtain ⟨b, e, hb⟩ := pool_get h hs
    obtain ⟨b', e', hb'⟩ := hu b s hb
    rw [bufN, e, ok_bind, e', ok_bind]
    exact ⟨_, rfl, pool_push h (by exact hb')⟩

theorem bufB_spec {q : BufPool} {p p' : History.Pool} (h : PoolInv q p) {i j : Nat} {u : RaBuf → RaBuf → Out RaBuf} {f : NSet → NSet → NSet}
    (hp : History.upd2 p i j f = some p') (hu : ∀ b c s t, MSet b s → MSet c t → GivesSet (u b c) (f s t)) : StepOK (bufB u q i j) p' := by
  rw [History.upd2] at hp
  cases hs : History.get p i with
  | none => rw [hs] at hp; cases hp
  | some s =>
  cases ht : History.get p j with
  | none => rw [hs, ht] at hp; cases hp
  | some t =>
    rw [hs, ht] at hp
    simp only [Option.bind_eq_bind, Option.bind_some] at hp
    split at hp
    · cases hp
    cases hp
    obtain ⟨b, e, hb⟩ := pool_get h hs
    obtain ⟨c, e2, hc⟩ := pool_get h ht
    obtain ⟨b', e', hb'⟩ := hu b c s t hb hc
    rw [bufB, e, ok_bind, e2, ok_bind, e', ok_bind]
    exact ⟨_, rfl, pool_set h (by exact hb') i⟩

theorem bufM_spec {q : BufPool} {p p' : History.Pool} (h : PoolInv q p) {i j : Nat} {u : RaBuf → RaBuf → Out RaBuf} {f : NSet → NSet → NSet}
    (hp : History.new2 p i j f = some p') (hu : ∀ b c s t, MSet b s → MSet c t → GivesSet (u b c) (f s t)) : StepOK (bufM u q i j) p' := by
  rw [History.new2] at hp
  cases hs : History.get p i with
  | none => rw [hs] at hp; cases hp
  | some s =>
  cases ht : History.get p j with
  | none => rw [hs, ht] at hp; cases hp
  | some t =>
    rw [hs, ht] at hp
    cases hp
    obtain ⟨b, e, hb⟩ := pool_get h hs
    obtain ⟨c, e2, hc⟩ := pool_get h ht
    obtain ⟨b', e', hb'⟩ := hu b c s t hb hc
    rw [bufM, e, ok_bind, e2, ok_bind, e', ok_bind]
    exact ⟨_, rfl, pool_push h (by exact hb')⟩

variable {E : RbEnv}

theorem bset_nil (mem : List RCell) : MSet ⟨0, mem⟩ Spec.empty := ⟨[], rholds_nil mem, trivial, fun x => by simp [bhas_nil, Spec.empty]⟩

theorem MSet.eager {b : RaBuf} {s : NSet} (h : MSet b s) : EagerSet b s := by
  obtain ⟨r, h1, h2, h3⟩ := h
  exact ⟨r, h1, h2, funext h3⟩

theorem EagerSet.mset {b : RaBuf} {s : NSet} (h : EagerSet b s) : MSet b s := by
  obtain ⟨r, h1, h2, rfl⟩ := h
  exact ⟨r, h1, h2, fun _ => rfl⟩

theorem pool_gets {q : BufPool} {p : History.Pool} (h : PoolInv q p) (is : List Nat) : ∀ {l : List NSet}, History.gets p is = some l →
    ∃ xs, bufGets q is = .ok xs ∧ EagerSets xs l := by
  induction is with
  | nil => intro l hl; cases hl; exact ⟨[], rfl, .nil⟩
  | cons i is ih =>
    intro l hl
    rw [History.gets] at hl
    cases hs : History.get p i with
    | none => rw [hs] at hl; cases hl
    | some s =>
    cases ht : History.gets p is with
    | none => rw [hs, ht] at hl; cases hl
    | some t =>
      rw [hs, ht] at hl
      cases hl
      obtain ⟨b, e, hb⟩ := pool_get h hs
      obtain ⟨xs, e2, hx⟩ := ih ht
      rw [bufGets, e, ok_bind, e2, ok_bind]
      exact ⟨_, rfl, .cons hb.eager hx⟩

theorem bufL_spec {q : BufPool} {p p' : History.Pool} (h : PoolInv q p) {is : List Nat} {u : List RaBuf → Out RaBuf} {f : List NSet → NSet}
    (hp : History.newMany p is f = some p') (hu : ∀ xs l, EagerSets xs l → GivesSet (u xs) (f l)) : StepOK (bufL u q is) p' := by
  rw [History.newMany] at hp
  cases hs : History.gets p is with
  | none => rw [hs] at hp; cases hp
  | some l =>
    rw [hs] at hp
    cases hp
    obtain ⟨xs, e, hx⟩ := pool_gets h is hs
    obtain ⟨b', e', hb'⟩ := hu xs l hx
    rw [bufL, e, ok_bind, e', ok_bind]
    exact ⟨_, rfl, pool_push h (by exact hb')⟩

theorem unionL_eq (l : List NSet) : unionL l = History.unionAll l := by
  induction l with
  | nil => rfl
  | cons s l ih => funext v; simp only [unionL, ih, Spec.union, History.unionAll, List.any_cons]

theorem symmL_eq (l : List NSet) : symmL l = History.symmAll l := by
  induction l with
  | nil => rfl
  | cons s l ih =>
    funext v
    simp only [symmL, ih, Spec.symm, History.symmAll]
    cases h : s v
    · rw [List.filter_cons_of_neg (by simp [h])]
      simp
    · rw [List.filter_cons_of_pos (p := fun s : NSet => s v) h, List.length_cons]
      by_cases h2 : (l.filter (fun s => s v)).length % 2 = 1
      · rw [decide_eq_true h2, decide_eq_false (by omega)]; rfl
      · rw [decide_eq_false h2, decide_eq_true (by omega)]; rfl

theorem shifted_eq (s : NSet) (d : Int) (v : Nat) : shifted s d v = History.shift s d v := by
  simp only [shifted, History.shift, Bool.decide_and]

theorem range_eq (a b v : Nat) : decide (a ≤ v ∧ v ≤ b) = Spec.range a (b + 1) v := by
  rw [Spec.range, Bool.decide_and]
  simp only [Nat.lt_succ_iff]

theorem bufStep_spec (hE : RbEnvOK E) {q : BufPool} {p p' : History.Pool} (h : PoolInv q p) (op : Op)
    (hp : History.step false p op = some p') : StepOK (bufStep E q op) p' := by
  cases op <;> simp only [History.step] at hp <;> simp only [bufStep]
  case create =>
    cases hp
    exact ⟨_, rfl, pool_push h (show MSet _ _ from ⟨[], (raInitBuf_spec hE 0).1, trivial, fun x => by simp [bhas_nil, Spec.empty]⟩)⟩
  case copy i =>
    exact bufN_spec h hp fun b s ⟨r, hb, hr, e⟩ => givesSet (rbCopyBuf_spec hE hb) ⟨hr, e⟩
  case overwrite i j =>
    exact bufB_spec h hp fun b c s t ⟨r, hb, hr, e⟩ ⟨r2, hc, hr2, e2⟩ => givesSet (rbOverwriteBuf_spec hE hb hc) ⟨hr2, e2⟩
  case clear i =>
    exact bufU_spec h hp fun b s _ => givesSet (rbClearBuf_spec hE b) ⟨trivial, fun x => by simp [bhas_nil, Spec.empty]⟩
  case free i =>
    cases hs : History.get p i with
    | none => rw [hs] at hp; cases hp
    | some s =>
      rw [hs] at hp
      cases hp
      obtain ⟨b, e, hb⟩ := pool_get h hs
      rw [e, ok_bind]
      exact ⟨_, rfl, pool_set h (by exact trivial) i⟩
  case add i v =>
    rw [History.u32] at hp
    split at hp
    · rename_i hv
      exact bufU_spec h hp fun b s ⟨r, hb, hr, e⟩ => givesSet (rbAddBuf_spec hE hb hr hv) (bhas_ext e ▸ rbAdd_spec hr hv)
    · cases hp
  case remove i v =>
    rw [History.u32] at hp
    split at hp
    · rename_i hv
      exact bufU_spec h hp fun b s ⟨r, hb, hr, e⟩ => givesSet (rbRemoveBuf_spec hE hb hr v) (bhas_ext e ▸ rbRemove_spec hr hv)
    · cases hp
  case and i j =>
    exact bufM_spec h hp fun b c s t ⟨r, hb, hr, e⟩ ⟨r2, hc, hr2, e2⟩ =>
      givesSet (rbAndBuf_spec hE hb hr hc hr2) (bhas_ext e ▸ bhas_ext e2 ▸ rbAnd_spec hr hr2)
  case or i j =>
    exact bufM_spec h hp fun b c s t ⟨r, hb, hr, e⟩ ⟨r2, hc, hr2, e2⟩ =>
      givesSet (rbOrBuf_spec hE hb hr hc hr2) (bhas_ext e ▸ bhas_ext e2 ▸ rbOr_spec hr hr2)
  case xor i j =>
    exact bufM_spec h hp fun b c s t ⟨r, hb, hr, e⟩ ⟨r2, hc, hr2, e2⟩ =>
      givesSet (rbXorBuf_spec hE hb hr hc hr2) (bhas_ext e ▸ bhas_ext e2 ▸ rbXor_spec hr hr2)
  case andnot i j =>
    exact bufM_spec h hp fun b c s t ⟨r, hb, hr, e⟩ ⟨r2, hc, hr2, e2⟩ =>
      givesSet (rbAndnotBuf_spec hE hb hr hc hr2) (bhas_ext e ▸ bhas_ext e2 ▸ rbAndnot_spec hr hr2)
  case andInplace i j =>
    split at hp
    · rename_i hij
      rw [if_pos hij]
      exact bufU_spec h hp fun b s hb => ⟨b, rfl, hb⟩
    · rename_i hij
      rw [if_neg hij]
      exact bufB_spec h hp fun b c s t ⟨r, hb, hr, e⟩ ⟨r2, hc, hr2, e2⟩ =>
        givesSet (rbAndInplaceBuf_spec hE hb hr hc hr2) (bhas_ext e ▸ bhas_ext e2 ▸ rbAndInplace_spec false (fun _ => false) hr hr2 (by simp))
  case orInplace i j =>
    exact bufB_spec h hp fun b c s t ⟨r, hb, hr, e⟩ ⟨r2, hc, hr2, e2⟩ => by
      obtain ⟨caps, hg⟩ := rbOrInplaceBuf_spec hE hb hr hc hr2
      exact givesSet hg (bhas_ext e ▸ bhas_ext e2 ▸ rbOrInplace_spec (fun _ => false) caps hr hr2)
  case xorInplace i j =>
    exact bufB_spec h hp fun b c s t ⟨r, hb, hr, e⟩ ⟨r2, hc, hr2, e2⟩ =>
      givesSet (rbXorInplaceBuf_spec hE hb hr hc hr2) (bhas_ext e ▸ bhas_ext e2 ▸ rbXorInplace_spec (fun _ => false) hr hr2)
  case andnotInplace i j =>
    exact bufB_spec h hp fun b c s t ⟨r, hb, hr, e⟩ ⟨r2, hc, hr2, e2⟩ =>
      givesSet (rbAndnotInplaceBuf_spec hE hb hr hc hr2) (bhas_ext e ▸ bhas_ext e2 ▸ rbAndnotInplace_spec (fun _ => false) hr hr2)
  case addMany i vs =>
    split at hp
    · rename_i hv
      exact bufU_spec h hp fun b s ⟨r, hb, hr, e⟩ => givesSet (rbAddManyBuf_spec hE hb hr hv)
        ⟨(rbAddMany_spec hr hv).1, fun x => by rw [(rbAddMany_spec hr hv).2, e]; rfl⟩
    · cases hp
  case removeMany i vs =>
    split at hp
    · rename_i hv
      exact bufU_spec h hp fun b s ⟨r, hb, hr, e⟩ => givesSet (rbRemoveManyBuf_spec hE hb hr hv.2)
        ⟨(rbRemoveMany_spec hr hv.2).1, fun x => by rw [(rbRemoveMany_spec hr hv.2).2, e, Bool.and_comm]; rfl⟩
    · cases hp
  case addRange i a m =>
    rw [History.u32] at hp
    split at hp
    · rename_i hv
      exact bufU_spec h hp fun b s ⟨r, hb, hr, e⟩ => givesSet (rbAddRangeClosedBuf_spec hE hb hr hv)
        ⟨(rbAddRangeClosed_spec hr hv).1, fun x => by rw [(rbAddRangeClosed_spec hr hv).2, e, Bool.or_comm, range_eq]; rfl⟩
    · cases hp
  case removeRange i a m =>
    rw [History.u32] at hp
    split at hp
    · rename_i hv
      exact bufU_spec h hp fun b s ⟨r, hb, hr, e⟩ => givesSet (rbRemoveRangeClosedBuf_spec hE hb hr a m)
        ⟨(rbRemoveRangeClosed_spec hr a m).1, fun x => by rw [(rbRemoveRangeClosed_spec hr a m).2, e, range_eq]; rfl⟩
    · cases hp
  case flip i a m =>
    rw [History.u32] at hp
    split at hp
    · rename_i hv
      exact bufN_spec h hp fun b s ⟨r, hb, hr, e⟩ => givesSet (rbFlipClosedBuf_spec hE hb hr hv)
        ⟨(rbFlipClosed_spec hr hv).1, fun x => by rw [(rbFlipClosed_spec hr hv).2, e, range_eq, bne_comm]; rfl⟩
    · cases hp
  case flipInplace i a m =>
    rw [History.u32] at hp
    split at hp
    · rename_i hv
      exact bufU_spec h hp fun b s ⟨r, hb, hr, e⟩ => givesSet (rbFlipInplaceClosedBuf_spec hE hb hr hv)
        ⟨(rbFlipInplaceClosed_spec hr hv).1, fun x => by rw [(rbFlipInplaceClosed_spec hr hv).2, e, range_eq, bne_comm]; rfl⟩
    · cases hp
  case runOptimize i =>
    exact bufU_spec h hp fun b s ⟨r, hb, hr, e⟩ => givesSet (rbRunOptimizeBuf_spec hE hb hr) (bhas_ext e ▸ rbRunOptimize_spec hr)
  case removeRunCompression i =>
    exact bufU_spec h hp fun b s ⟨r, hb, hr, e⟩ => givesSet (rbRemoveRunCompressionBuf_spec hE hb hr) (bhas_ext e ▸ rbRemoveRunCompression_spec hr)
  case rangeArray i off lim =>
    rw [if_pos trivial] at hp
    exact bufU_spec h hp fun b s ⟨r, hb, hr, e⟩ =>
      ⟨b, by rw [rbRangeArrayBuf_spec hb hr off lim _ (Nat.le_of_eq (hE.m.vals lim).symm), ok_bind], r, hb, hr, e⟩
  case addOffset i d =>
    exact bufN_spec h hp fun b s ⟨r, hb, hr, e⟩ => by
      obtain ⟨r', h1, h2, h3⟩ := rbAddOffsetBuf_spec hE hb hr d
      exact givesSet h1 ⟨h2, fun v => by rw [h3, bhas_ext e, shifted_eq]⟩
  case orMany is =>
    rw [if_pos (Or.inl trivial)] at hp
    exact bufL_spec h hp fun xs l hx => by
      obtain ⟨b, e, hb⟩ := rbOrManyBuf_spec hE hx
      exact ⟨b, e, unionL_eq l ▸ hb.mset⟩
  case xorMany is =>
    rw [if_pos (Or.inl trivial)] at hp
    exact bufL_spec h hp fun xs l hx => by
      obtain ⟨b, e, hb⟩ := rbXorManyBuf_spec hE hx
      exact ⟨b, e, symmL_eq l ▸ hb.mset⟩
  case orManyHeap is =>
    rw [if_pos trivial] at hp
    exact bufL_spec h hp fun xs l hx => by
      obtain ⟨b, e, hb⟩ := rbOrManyHeapBuf_spec hE hx
      exact ⟨b, e, unionL_eq l ▸ hb.mset⟩

theorem bufRun_spec (calls : List (Op × RbEnv)) : ∀ {q : BufPool} {p p' : History.Pool}, PoolInv q p → (∀ c ∈ calls, RbEnvOK c.2) →
    History.run false p (calls.map (·.1)) = some p' → StepOK (bufRun q calls) p' := by
  induction calls with
  | nil =>
    intro q p p' h _ hp
    simp only [List.map_nil, History.run, Option.some.injEq] at hp
    subst hp
    exact ⟨q, rfl, h⟩
  | cons c t ih =>
    intro q p p' h hc hp
    obtain ⟨op, E⟩ := c
    simp only [List.map_cons, History.run] at hp
    cases hs : History.step false p op with
    | none => rw [hs] at hp; cases hp
    | some p1 =>
      rw [hs] at hp
      obtain ⟨q1, e1, h1⟩ := bufStep_spec (hc (op, E) (by simp)) h op hs
      rw [bufRun, e1, ok_bind]
      exact ih h1 (fun c hc' => hc c (by simp [hc'])) hp

end CRoaring
