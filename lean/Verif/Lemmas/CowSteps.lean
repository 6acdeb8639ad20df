import Verif.Lemmas.CowMany3

set_option linter.unusedSimpArgs false
set_option linter.unusedVariables false

namespace CRoaring
open Spec

variable {g : Bool}

theorem step_ok (o : Nat → Bool) (caps : Nat → Nat) {w : World} {sp sp' : History.Pool} {op : Op} (a : WInv g w sp)
    (hs : History.step g sp op = some sp') : ∃ w', step g o caps w op = some w' ∧ WInv g w' sp' := by
  cases op with
  | create =>
    simp only [History.step, Option.some.injEq] at hs
    subst hs
    refine ⟨_, rfl, ?_, a.2.append ⟨rfl, trivial, fun _ => rfl⟩⟩
    simpa [prefs_append, prefs, hCreate] using a.1
  | copy i => exact stepN_ok hCopy_ok a hs
  | overwrite i j => exact stepB_ok hOverwrite_ok a hs
  | clear i => exact stepU_ok hClear_ok a hs
  | free i =>
    simp only [History.step, Option.bind_eq_bind, Option.bind_eq_some_iff, Option.some.injEq] at hs
    obtain ⟨S, hS, rfl⟩ := hs
    obtain ⟨x, e, ep, b⟩ := a.2.get (get_some hS)
    obtain ⟨h', e2, i2, q⟩ := freeSlots_spec (s := x.slots) (l := prefs (w.pool.set i none))
      (a.1.perm (fun r => by rw [List.count_append, prefs_take ep r]))
    exact ⟨⟨h', w.pool.set i none⟩, by simp [step, e, hFree, e2], i2, (a.2.clear i).keep q⟩
  | add i v => obtain ⟨hv, hs⟩ := u32_some hs; exact stepU_ok (hAdd_ok o hv) a hs
  | remove i v => obtain ⟨hv, hs⟩ := u32_some hs; exact stepU_ok (hRemove_ok o hv) a hs
  | addMany i vs =>
    simp only [History.step] at hs
    split at hs
    · rename_i hv; exact stepU_ok (hAddMany_ok o hv) a hs
    · simp at hs
  | removeMany i vs =>
    simp only [History.step] at hs
    split at hs
    · rename_i hv
      obtain ⟨rfl, hv⟩ := hv
      exact stepU_ok (hRemoveMany_ok o hv) a hs
    · simp at hs
  | addRange i m n => obtain ⟨hv, hs⟩ := u32_some hs; exact stepU_ok (hAddRange_ok o hv) a hs
  | removeRange i m n => obtain ⟨hv, hs⟩ := u32_some hs; exact stepU_ok (hRemoveRange_ok o) a hs
  | flip i m n => obtain ⟨hv, hs⟩ := u32_some hs; exact stepN_ok (hFlip_ok hv) a hs
  | flipInplace i m n => obtain ⟨hv, hs⟩ := u32_some hs; exact stepU_ok (hFlipInplace_ok o hv) a hs
  | and i j => exact stepM_ok hAnd_ok hAnd_self a hs
  | or i j => exact stepM_ok hOr_ok hOr_self a hs
  | xor i j => exact stepM_ok hXor_ok hXor_self a hs
  | andnot i j => exact stepM_ok hAndnot_ok hAndnot_self a hs
  | andInplace i j =>
    simp only [History.step] at hs
    simp only [step]
    split at hs
    · rename_i h; rw [if_pos h]; exact stepU_ok id_ok a hs
    · rename_i h; rw [if_neg h]; exact stepB_ok (hAndInplace_ok o) a hs
  | orInplace i j => exact stepB_ok (hOrInplace_ok o caps) a hs
  | xorInplace i j => exact stepB_ok (hXorInplace_ok o) a hs
  | andnotInplace i j => exact stepB_ok (hAndnotInplace_ok o) a hs
  | runOptimize i => exact stepU_ok (hRunOptimize_ok o) a hs
  | removeRunCompression i => exact stepU_ok hRemoveRun_ok a hs
  | rangeArray i off lim =>
    simp only [History.step] at hs
    split at hs
    · rename_i hg; subst hg; exact stepU_ok (hRangeArray_ok off lim) a hs
    · simp at hs
  | addOffset i d => exact stepN_ok (hAddOffset_ok o caps d) a hs
  | orMany is =>
    simp only [History.step] at hs
    split at hs
    · rename_i hg
      exact stepMany_ok a (fun l hl => hOrMany_ok o caps (by simpa using a.1) a.2 hl hg) hs
    · simp at hs
  | xorMany is =>
    simp only [History.step] at hs
    split at hs
    · rename_i hg
      exact stepMany_ok a (fun l hl => hXorMany_ok o (by simpa using a.1) a.2 hl hg) hs
    · simp at hs
  | orManyHeap is =>
    simp only [History.step] at hs
    split at hs
    · rename_i hg
      subst hg
      refine stepMany_ok a (fun l hl => ?_) hs
      obtain ⟨n, p', h', e, i', a', ⟨f, hf, c, _⟩, q⟩ := hOrManyHeap_ok o caps (L := []) (by simpa using a.1) a.2 hl
      obtain rfl : f = false := by simpa using hf
      exact ⟨n, p', h', e, i', a', c, q⟩
    · simp at hs

theorem run_ok : ∀ (ops : List (Op × (Nat → Bool) × (Nat → Nat))) {w : World} {sp sp' : History.Pool}, WInv g w sp →
    History.run g sp (ops.map (·.1)) = some sp' → ∃ w', run g w ops = some w' ∧ WInv g w' sp' := by
  intro ops
  induction ops with
  | nil =>
    intro w sp sp' a hs
    simp only [List.map_nil, History.run, Option.some.injEq] at hs
    subst hs
    exact ⟨w, rfl, a⟩
  | cons p t ih =>
    obtain ⟨op, o, caps⟩ := p
    intro w sp sp' a hs
    simp only [List.map_cons, History.run, Option.bind_eq_bind, Option.bind_eq_some_iff] at hs
    obtain ⟨sp1, h1, h2⟩ := hs
    obtain ⟨w1, e1, a1⟩ := step_ok o caps a h1
    obtain ⟨w2, e2, a2⟩ := ih a1 h2
    exact ⟨w2, by simp [run, e1, e2], a2⟩

theorem init_ok : WInv g World.init [] :=
  ⟨⟨fun _ _ => rfl, fun _ _ => ⟨rfl, rfl⟩, fun _ _ h => by simp [World.init, Heap.init] at h,
    fun _ _ _ h => by simp [World.init, Heap.init] at h, fun _ r hr => by simp [prefs, World.init] at hr⟩,
    fun k => by simp [World.init, ERel]⟩

/-- Every container is reached from a bitmap of the pool. -/
theorem WInv.reach {w : World} {sp : History.Pool} (a : WInv g w sp) {k : Nat} (hk : w.heap.cell k ≠ none) :
    ∃ i x, w.get i = some x ∧ ∃ p ∈ x.slots, p.2.addr = k := by
  have : ∃ sh, (⟨sh, k⟩ : Ref) ∈ prefs w.pool := by
    cases hc : w.heap.cell k with
    | none => exact (hk hc).elim
    | some c =>
      cases c with
      | plain c => exact ⟨false, List.count_pos_iff.1 (by have := a.1.own k c hc; omega)⟩
      | shared c n => exact ⟨true, List.count_pos_iff.1 (by have := a.1.cnt k c n hc; omega)⟩
  obtain ⟨sh, hm⟩ := this
  obtain ⟨i, x, h1, h2⟩ := mem_prefs_inv hm
  obtain ⟨p, hp, e⟩ := List.mem_map.1 h2
  exact ⟨i, x, by simp [World.get, h1], p, hp, by rw [e]⟩

end CRoaring
