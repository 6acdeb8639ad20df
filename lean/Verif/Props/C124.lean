import Verif.Props.C122
/-
C124: calls with a bulk context on a 64-bit bitmap in memory.
-/
namespace CRoaring.Props
open CRoaring CRoaring.Pool64

/-- C124: on a bitmap that is there after any allowed history, bulk calls with one context, in any order, and `roaring64_bitmap_remove_many`, either are safe
(see `BulkSafe`), and then they answer and change the bitmap as the calls without a context do, or the code reads memory that it does not own. -/
theorem C124_bulk (os : List Op) (ho : Sets.AllAllowed [] os) (i : Nat) (hi : (Sets.run [] os).1.Has i) :
    ∃ p r, Mem.run [] os = .ok (p, (Sets.run [] os).2) ∧ p.get i = .ok r ∧
      (∀ bs : List Bulk, (∀ o ∈ bs, o.val < 2 ^ 64) →
        (BulkSafe ((Sets.run [] os).1.get i) none bs →
          ∃ r', bulkRun r Bulk64M.zero bs = .ok (r', (bulkSets ((Sets.run [] os).1.get i) bs).2) ∧ Owned r' (bulkSets ((Sets.run [] os).1.get i) bs).1) ∧
        (¬ BulkSafe ((Sets.run [] os).1.get i) none bs → bulkRun r Bulk64M.zero bs = .oob)) ∧
      (∀ vs : List Nat, (∀ v ∈ vs, v < 2 ^ 64) →
        (BulkSafe ((Sets.run [] os).1.get i) none (vs.map .remove) →
          ∃ r', r.removeMany vs = .ok r' ∧ Owned r' (Spec.diff ((Sets.run [] os).1.get i) (Spec.ofList vs))) ∧
        (¬ BulkSafe ((Sets.run [] os).1.get i) none (vs.map .remove) → r.removeMany vs = .oob)) := by
  obtain ⟨p, h1, h2⟩ := pool_is ho
  obtain ⟨r, g1, L, R, g2, g3⟩ := fit_get h2 hi
  refine ⟨p, r, h1, g1, fun bs hv => ?_, fun vs hv => ?_⟩
  · obtain ⟨k1, k2⟩ := bulk_run bs (brel_zero g2 g3) hv
    refine ⟨fun hb => ?_, k2⟩
    obtain ⟨r', R', w1, w2, w3⟩ := k1 hb
    exact ⟨r', w1, owned_of_sim w2 w3⟩
  · obtain ⟨k1, k2⟩ := removeMany_ok g2 g3 hv
    refine ⟨fun hb => ?_, k2⟩
    obtain ⟨r', R', w1, w2, w3⟩ := k1 hb
    exact ⟨r', w1, owned_of_sim w2 w3⟩

theorem safe_no_remove : ∀ (bs : List Bulk) (s : NSet) (K : Option Nat), (∀ o ∈ bs, ∀ v, o ≠ .remove v) →
    (∀ k, K = some k → ∃ y, y / 65536 = k ∧ s y = true) → BulkSafe s K bs
  | [], _, _, _, _ => trivial
  | o :: bs, s, K, h, hK => by
    refine ⟨fun e => hK _ e, safe_no_remove bs _ _ (fun o ho => h o (List.mem_cons_of_mem _ ho)) ?_⟩
    cases o with
    | add v =>
      intro k e
      cases e
      exact ⟨v, rfl, by simp [Bulk.set, Spec.insert]⟩
    | contains v =>
      intro k e
      simp only [Bulk.mark] at e
      split at e
      · next hn => cases e; exact hn
      · exact hK k e
    | remove v => exact absurd rfl (h _ (List.mem_cons_self ..) v)

/-- Bulk calls that add and ask are safe. -/
theorem C124_no_remove (bs : List Bulk) (s : NSet) (h : ∀ o ∈ bs, ∀ v, o ≠ .remove v) : BulkSafe s none bs :=
  safe_no_remove bs s none h fun _ e => by cases e

/-- The defect, for any bitmap: when `v` is the only number with its upper 48 bits, its removal and a second call with the same context and the same upper 48
bits read memory that the bitmap does not own. -/
theorem C124_unsafe (s : NSet) (v : Nat) (hs : s v = true) (h1 : ∀ y, y / 65536 = v / 65536 → s y = true → y = v) (o : Bulk) (ho : o.val / 65536 = v / 65536)
    (bs : List Bulk) : ¬ BulkSafe s none (.remove v :: o :: bs) := by
  rintro ⟨-, h2, -⟩
  have hn : Near s v := ⟨v, rfl, hs⟩
  have hm : Bulk.mark s none (.remove v) = some (o.val / 65536) := by
    simp only [Bulk.mark, if_pos hn, ho]
  obtain ⟨y, e1, e2⟩ := h2 hm
  simp only [Bulk.set, Spec.erase, Bool.and_eq_true, bne_iff_ne] at e2
  have := h1 y (e1.trans ho) e2.2
  exact e2.1 this

/-! The hypotheses are met. -/

/-- A set whose numbers are in two leaves. -/
def c124ops : List Op := [.create, .call 0 (.add 5), .call 0 (.add 6), .call 0 (.add 70000)]

example : Sets.AllAllowed [] c124ops ∧ (Sets.run [] c124ops).1.Has 0 := by
  simp [c124ops, Sets.AllAllowed, Sets.Allowed, Sets.step, Sets.run, Sets.Has, Req64.Ok]

/-- Calls that are safe: the last number of a leaf is removed, and the next call is about another leaf. -/
example : BulkSafe (Spec.ofList [5, 6, 70000]) none [.remove 5, .contains 6, .remove 6, .add 70001, .contains 5] := by
  simp only [BulkSafe, Bulk.val]
  refine ⟨nofun, fun _ => ⟨6, rfl, by decide⟩, fun _ => ⟨6, rfl, by decide⟩, fun e => ?_, fun e => ?_, trivial⟩
  · exact ⟨70000, rfl, by decide⟩
  · simp [Bulk.mark] at e

/-- In memory. -/
example : (do let x ← Mem.run [] c124ops
              let r ← x.1.get 0
              let y ← bulkRun r Bulk64M.zero [.remove 5, .contains 6, .remove 6, .add 70001, .contains 5, .contains 70001]
              Out.ok (y.2, y.1.containers)) = .ok ([none, some true, none, none, some false, some true], [none, some 1]) := by decide +kernel

/-- Calls that are not safe. -/
example : ¬ BulkSafe (Spec.ofList [5, 70000]) none [.remove 5, .contains 6] :=
  C124_unsafe _ 5 (by decide) (fun y e hy => by
    simp only [Spec.ofList, List.mem_cons, List.not_mem_nil, or_false, decide_eq_true_eq] at hy
    rcases hy with rfl | rfl
    · rfl
    · simp at e) _ rfl _

/-- In memory: a question after the last number of a leaf was removed. -/
example : (do let x ← Mem.run [] c124ops
              let r ← x.1.get 0
              let y ← bulkRun r Bulk64M.zero [.remove 5, .remove 6, .contains 7]
              Out.ok y.2) = .oob := by decide +kernel

/-- And `roaring64_bitmap_remove_many`. -/
example : (do let x ← Mem.run [] c124ops
              let r ← x.1.get 0
              let y ← r.removeMany [5, 6, 7]
              Out.ok y.containers) = .oob := by decide +kernel

end CRoaring.Props
