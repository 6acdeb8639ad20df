import Verif.Lemmas.Store64More
import Verif.Lemmas.R64h
import Verif.Store64PoolSpec
/-
Sequences of bulk calls with one context on a 64-bit bitmap in memory.
-/
set_option linter.unusedSimpArgs false
set_option linter.unusedVariables false
namespace CRoaring
open Spec Pool64

/-- The bitmap, its set, and what the context remembers. -/
structure BRel (r : R64M) (L : ArtRef → Prop) (R : R64) (s : NSet) (ctx : Bulk64M) (K : Option Nat) : Prop where
  sim : BSim r L R ctx
  rep : Rep64 R s
  mark : ctx.abs.map keyNum = K
  key : ∀ k, ctx.abs = some k → IsKey k

theorem BSim.keys {r : R64M} {L : ArtRef → Prop} {R : R64} {ctx : Bulk64M} (h : BSim r L R ctx) : ∀ k, ctx.abs = some k → IsKey k := by
  obtain ⟨F, m, -, h⟩ := h
  intro k hk
  unfold Bulk64M.abs at hk
  cases hl : ctx.leaf with
  | none => rw [hl] at hk; cases hk
  | some p => rw [hl] at hk; cases hk; exact (h p hl).1

theorem near_iff {R : R64} {s : NSet} (h : Rep64 R s) {v : Nat} (hv : v < TOP64) : Near s v ↔ artFind R (splitKey v).1 ≠ none := by
  rw [h.find_iff (splitKey_isKey v), keyNum_split hv]
  exact Iff.rfl

/-- A context, seen from a value. -/
theorem ctx_cases {R : R64} {s : NSet} (h : Rep64 R s) {ctx : BulkCtx64} (hk : ∀ k, ctx = some k → IsKey k) {v : Nat} (hv : v < TOP64) :
    ((ctx = none ∨ ∃ k, ctx = some k ∧ artCompareKeys k (splitKey v).1 ≠ 0) ∧ ctx.map keyNum ≠ some (v / 65536)) ∨
    (CtxOk64 R ctx ∧ ctx = some (splitKey v).1 ∧ Near s v) ∨
    (ctx = some (splitKey v).1 ∧ ctx.map keyNum = some (v / 65536) ∧ ¬ Near s v) := by
  have hkn := keyNum_split hv
  cases ctx with
  | none => exact Or.inl ⟨Or.inl rfl, by simp⟩
  | some k =>
    have hk' := hk k rfl
    by_cases e : k = (splitKey v).1
    · subst e
      by_cases hn : Near s v
      · exact Or.inr (Or.inl ⟨fun k e => by cases e; exact ⟨hk', (near_iff h hv).1 hn⟩, rfl, hn⟩)
      · exact Or.inr (Or.inr ⟨rfl, by simp only [Option.map_some, hkn], hn⟩)
    · refine Or.inl ⟨Or.inr ⟨k, rfl, fun e2 => e (same_key64 hk' e2)⟩, fun e2 => e ?_⟩
      refine key_inj hk' (splitKey_isKey v) ?_
      rw [hkn]
      exact Option.some.inj e2

/-- One call that is safe. -/
theorem bulk_step {r : R64M} {L : ArtRef → Prop} {R : R64} {s : NSet} {ctx : Bulk64M} {K : Option Nat} (h : BRel r L R s ctx K) (o : Bulk) (hv : o.val < TOP64) :
    ((K = some (o.val / 65536) → Near s o.val) → ∃ r' R' ctx', o.call r ctx = .ok (r', ctx', (o.set s).2) ∧ BRel r' L R' (o.set s).1 ctx' (o.mark s K)) ∧
    (¬ (K = some (o.val / 65536) → Near s o.val) → o.call r ctx = .oob) := by
  have hkn := keyNum_split hv
  have hR := h.rep.inv.1
  have hn := near_iff h.rep hv
  have hm := h.mark
  have hcs := ctx_cases h.rep h.key hv
  cases o with
  | add v =>
    simp only [Bulk.val] at hv hkn hn hcs ⊢
    have hs := addBulk_sim h.sim hR v
    have good : r64AddBulk R ctx.abs v = some (r64Add R v, some (splitKey v).1) → ∃ r' R' ctx', (Bulk.add v).call r ctx = .ok (r', ctx', ((Bulk.add v).set s).2) ∧
        BRel r' L R' ((Bulk.add v).set s).1 ctx' ((Bulk.add v).mark s K) := by
      intro e
      rw [e] at hs
      obtain ⟨r', ctx', g1, g2, g3⟩ := hs
      exact ⟨r', _, ctx', by simp only [Bulk.call, g1, ok_bind]; rfl, g3, r64Add_spec h.rep hv, by rw [g2]; simp only [Option.map_some, hkn]; rfl, g3.keys⟩
    rcases hcs with ⟨c1, c2⟩ | ⟨c1, c2, c3⟩ | ⟨c1, c2, c3⟩
    · refine ⟨fun _ => good ?_, fun hne => absurd (fun e => absurd (hm.trans e) c2) hne⟩
      unfold r64AddBulk
      rcases c1 with c1 | ⟨k, c1, c3⟩
      · rw [c1]; rfl
      · rw [c1]; simp only [if_neg c3]; rfl
    · exact ⟨fun _ => good (r64AddBulk_spec h.rep c1 hv), fun hne => absurd (fun _ => c3) hne⟩
    · refine ⟨fun hsafe => absurd (hsafe (hm.symm.trans c2)) c3, fun _ => ?_⟩
      have hf : artFind R (splitKey v).1 = none := Classical.not_not.1 (fun e => c3 (hn.2 e))
      have e : r64AddBulk R ctx.abs v = none := by
        unfold r64AddBulk
        rw [c1]; simp only [if_pos (cmp_self v), hf]
      rw [e] at hs
      simp only [Bulk.call, hs]; rfl
  | contains v =>
    simp only [Bulk.val] at hv hkn hn hcs ⊢
    have hs := containsBulk_sim h.sim v
    have hcont : r64Contains R v = s v := h.rep.contains hv
    have good : r64ContainsBulk R ctx.abs v = some (r64Contains R v, if artFind R (splitKey v).1 = none then ctx.abs else some (splitKey v).1) →
        ∃ r' R' ctx', (Bulk.contains v).call r ctx = .ok (r', ctx', ((Bulk.contains v).set s).2) ∧
        BRel r' L R' ((Bulk.contains v).set s).1 ctx' ((Bulk.contains v).mark s K) := by
      intro e
      rw [e] at hs
      obtain ⟨ctx', g1, g2, g3⟩ := hs
      refine ⟨r, R, ctx', by simp only [Bulk.call, g1, ok_bind, hcont]; rfl, g3, h.rep, ?_, g3.keys⟩
      rw [g2]
      simp only [Bulk.mark]
      by_cases hf : artFind R (splitKey v).1 = none
      · rw [if_pos hf, if_neg (fun e => hn.1 e hf)]; exact hm
      · rw [if_neg hf, if_pos (hn.2 hf)]; simp only [Option.map_some, hkn]
    rcases hcs with ⟨c1, c2⟩ | ⟨c1, c2, c3⟩ | ⟨c1, c2, c3⟩
    · refine ⟨fun _ => good ?_, fun hne => absurd (fun e => absurd (hm.trans e) c2) hne⟩
      have e : r64ContainsBulk R ctx.abs v = (match artFind R (splitKey v).1 with
          | none => some (false, ctx.abs)
          | some c => some (containerContains (splitKey v).2 c, some (splitKey v).1)) := by
        unfold r64ContainsBulk
        rcases c1 with c1 | ⟨k, c1, c3⟩
        · rw [c1]; rfl
        · rw [c1]; simp only [if_pos c3]; rfl
      rw [e]
      unfold r64Contains
      cases hf : artFind R (splitKey v).1 with
      | none => simp [hf]
      | some c => simp [hf]
    · obtain ⟨ctx', e1, e2⟩ := r64ContainsBulk_spec c1 v
      refine ⟨fun _ => good ?_, fun hne => absurd (fun _ => c3) hne⟩
      rw [if_neg (hn.1 c3)]
      have : r64ContainsBulk R ctx.abs v = some (r64Contains R v, ctx.abs) := by
        obtain ⟨c, hc⟩ := Option.ne_none_iff_exists'.1 (hn.1 c3)
        unfold r64ContainsBulk r64Contains
        rw [c2]
        simp only [cmp_self v, ne_eq, not_true_eq_false, if_false, hc]
      rw [this, c2]
    · refine ⟨fun hsafe => absurd (hsafe (hm.symm.trans c2)) c3, fun _ => ?_⟩
      have hf : artFind R (splitKey v).1 = none := Classical.not_not.1 (fun e => c3 (hn.2 e))
      have e : r64ContainsBulk R ctx.abs v = none := by
        unfold r64ContainsBulk
        rw [c1]; simp only [cmp_self v, ne_eq, not_true_eq_false, if_false, hf]
      rw [e] at hs
      simp only [Bulk.call, hs]; rfl
  | remove v =>
    simp only [Bulk.val] at hv hkn hn hcs ⊢
    have hs := removeBulk_sim h.sim hR v
    have good : r64RemoveBulk R ctx.abs v = some (r64Remove R v, (artFind R (splitKey v).1).map fun _ => (splitKey v).1) →
        ∃ r' R' ctx', (Bulk.remove v).call r ctx = .ok (r', ctx', ((Bulk.remove v).set s).2) ∧
        BRel r' L R' ((Bulk.remove v).set s).1 ctx' ((Bulk.remove v).mark s K) := by
      intro e
      rw [e] at hs
      obtain ⟨r', ctx', g1, g2, g3⟩ := hs
      refine ⟨r', _, ctx', by simp only [Bulk.call, g1, ok_bind]; rfl, g3, r64Remove_spec h.rep hv, ?_, g3.keys⟩
      rw [g2]
      simp only [Bulk.mark]
      cases hf : artFind R (splitKey v).1 with
      | none => rw [if_neg (fun e => hn.1 e hf)]; rfl
      | some c => rw [if_pos (hn.2 (by rw [hf]; simp))]; simp only [Option.map_some, hkn]
    rcases hcs with ⟨c1, c2⟩ | ⟨c1, c2, c3⟩ | ⟨c1, c2, c3⟩
    · refine ⟨fun _ => good ?_, fun hne => absurd (fun e => absurd (hm.trans e) c2) hne⟩
      unfold r64RemoveBulk
      rcases c1 with c1 | ⟨k, c1, c3⟩
      · rw [c1]; rfl
      · rw [c1]; simp only [if_neg c3]; rfl
    · exact ⟨fun _ => good (r64RemoveBulk_spec c1 v), fun hne => absurd (fun _ => c3) hne⟩
    · refine ⟨fun hsafe => absurd (hsafe (hm.symm.trans c2)) c3, fun _ => ?_⟩
      have hf : artFind R (splitKey v).1 = none := Classical.not_not.1 (fun e => c3 (hn.2 e))
      have e : r64RemoveBulk R ctx.abs v = none := by
        unfold r64RemoveBulk
        rw [c1]; simp only [if_pos (cmp_self v), hf]
      rw [e] at hs
      simp only [Bulk.call, hs]; rfl

theorem bulk_run : ∀ (os : List Bulk) {r : R64M} {L : ArtRef → Prop} {R : R64} {s : NSet} {ctx : Bulk64M} {K : Option Nat}, BRel r L R s ctx K →
    (∀ o ∈ os, o.val < TOP64) →
    (BulkSafe s K os → ∃ r' R', bulkRun r ctx os = .ok (r', (bulkSets s os).2) ∧ Sim64 r' L R' ∧ Rep64 R' (bulkSets s os).1) ∧
    (¬ BulkSafe s K os → bulkRun r ctx os = .oob)
  | [], r, L, R, s, ctx, K, h, _ => ⟨fun _ => ⟨r, R, rfl, h.sim.sim, h.rep⟩, fun hn => absurd trivial hn⟩
  | o :: os, r, L, R, s, ctx, K, h, hv => by
    obtain ⟨h1, h2⟩ := bulk_step h o (hv o (List.mem_cons_self ..))
    by_cases hsafe : K = some (o.val / 65536) → Near s o.val
    · obtain ⟨r1, R1, ctx1, g1, g2⟩ := h1 hsafe
      obtain ⟨k1, k2⟩ := bulk_run os g2 (fun o ho => hv o (List.mem_cons_of_mem _ ho))
      constructor
      · intro hb
        obtain ⟨r', R', w1, w2, w3⟩ := k1 hb.2
        exact ⟨r', R', by simp only [bulkRun, g1, ok_bind, w1]; rfl, w2, w3⟩
      · intro hb
        have := k2 (fun e => hb ⟨hsafe, e⟩)
        simp only [bulkRun, g1, ok_bind, this]; rfl
    · refine ⟨fun hb => absurd hb.1 hsafe, fun _ => ?_⟩
      simp only [bulkRun, h2 hsafe]; rfl

theorem brel_zero {r : R64M} {L : ArtRef → Prop} {R : R64} {s : NSet} (h : Sim64 r L R) (hR : Rep64 R s) : BRel r L R s Bulk64M.zero none :=
  ⟨h.bulk, hR, rfl, h.bulk.keys⟩

/-! ### `add_many` and `remove_many` -/

theorem addManyLoop_run : ∀ (vs : List Nat) (r : R64M) (ctx : Bulk64M), (do
      let x ← bulkRun r ctx (vs.map .add)
      Out.ok x.1) = R64M.addManyLoop r ctx vs
  | [], r, ctx => rfl
  | v :: vs, r, ctx => by
    simp only [List.map_cons, bulkRun, R64M.addManyLoop, Bulk.call]
    cases r.addBulk ctx v with
    | oob => rfl
    | fail => rfl
    | ok x =>
      simp only [ok_bind]
      rw [← addManyLoop_run vs x.1 x.2]
      cases bulkRun x.1 x.2 (vs.map .add) <;> rfl

theorem removeManyLoop_run : ∀ (vs : List Nat) (r : R64M) (ctx : Bulk64M), (do
      let x ← bulkRun r ctx (vs.map .remove)
      Out.ok x.1) = R64M.removeManyLoop r ctx vs
  | [], r, ctx => rfl
  | v :: vs, r, ctx => by
    simp only [List.map_cons, bulkRun, R64M.removeManyLoop, Bulk.call]
    cases r.removeBulk ctx v with
    | oob => rfl
    | fail => rfl
    | ok x =>
      simp only [ok_bind]
      rw [← removeManyLoop_run vs x.1 x.2]
      cases bulkRun x.1 x.2 (vs.map .remove) <;> rfl

theorem bulkSets_add : ∀ (vs : List Nat) (s : NSet) (x : Nat), (bulkSets s (vs.map .add)).1 x = Spec.union s (ofList vs) x
  | [], s, x => by simp [bulkSets, Spec.union, ofList]
  | v :: vs, s, x => by
    rw [List.map_cons, bulkSets, bulkSets_add vs]
    simp only [Bulk.set, Spec.union, ofList, Spec.insert, List.mem_cons]
    by_cases e : x = v
    · subst e; simp
    · simp [beq_eq_false_iff_ne.2 e, e]

theorem bulkSets_remove : ∀ (vs : List Nat) (s : NSet) (x : Nat), (bulkSets s (vs.map .remove)).1 x = Spec.diff s (ofList vs) x
  | [], s, x => by simp [bulkSets, Spec.diff, ofList]
  | v :: vs, s, x => by
    rw [List.map_cons, bulkSets, bulkSets_remove vs]
    simp only [Bulk.set, Spec.diff, ofList, Spec.erase, List.mem_cons]
    by_cases e : x = v
    · subst e; simp
    · simp [bne_iff_ne.2 e, e]

/-- Additions are safe. -/
theorem safe_add : ∀ (vs : List Nat) (s : NSet) (K : Option Nat), (∀ k, K = some k → ∃ y, y / 65536 = k ∧ s y = true) → BulkSafe s K (vs.map .add)
  | [], s, K, h => trivial
  | v :: vs, s, K, h => by
    refine ⟨fun e => h _ e, safe_add vs _ _ fun k e => ?_⟩
    cases e
    exact ⟨v, rfl, by simp [Bulk.set, Spec.insert]⟩

theorem addMany_ok {r : R64M} {L : ArtRef → Prop} {R : R64} {s : NSet} (h : Sim64 r L R) (hR : Rep64 R s) {vs : List Nat} (hv : ∀ v ∈ vs, v < TOP64) :
    ∃ r' R', r.addMany vs = .ok r' ∧ Sim64 r' L R' ∧ Rep64 R' (Spec.union s (ofList vs)) := by
  have hv' : ∀ o ∈ vs.map Bulk.add, o.val < TOP64 := by
    intro o ho
    obtain ⟨v, h1, rfl⟩ := List.mem_map.1 ho
    exact hv v h1
  obtain ⟨r', R', g1, g2, g3⟩ := (bulk_run (vs.map .add) (brel_zero h hR) hv').1 (safe_add vs s none (fun k e => by cases e))
  have e := addManyLoop_run vs r Bulk64M.zero
  rw [g1, ok_bind] at e
  refine ⟨r', R', ?_, g2, g3.congr (bulkSets_add vs s)⟩
  unfold R64M.addMany
  split
  · next hl =>
    rw [List.length_eq_zero_iff.1 hl] at e
    exact e.symm
  · exact e.symm

theorem removeMany_ok {r : R64M} {L : ArtRef → Prop} {R : R64} {s : NSet} (h : Sim64 r L R) (hR : Rep64 R s) {vs : List Nat} (hv : ∀ v ∈ vs, v < TOP64)
    : (BulkSafe s none (vs.map .remove) → ∃ r' R', r.removeMany vs = .ok r' ∧ Sim64 r' L R' ∧ Rep64 R' (Spec.diff s (ofList vs))) ∧
      (¬ BulkSafe s none (vs.map .remove) → r.removeMany vs = .oob) := by
  have hv' : ∀ o ∈ vs.map Bulk.remove, o.val < TOP64 := by
    intro o ho
    obtain ⟨v, h1, rfl⟩ := List.mem_map.1 ho
    exact hv v h1
  obtain ⟨k1, k2⟩ := bulk_run (vs.map .remove) (brel_zero h hR) hv'
  have e := removeManyLoop_run vs r Bulk64M.zero
  have e2 : r.removeMany vs = R64M.removeManyLoop r Bulk64M.zero vs := by
    unfold R64M.removeMany
    split
    · next hl => rw [List.length_eq_zero_iff.1 hl]; rfl
    · rfl
  constructor
  · intro hs
    obtain ⟨r', R', g1, g2, g3⟩ := k1 hs
    rw [g1, ok_bind] at e
    exact ⟨r', R', e2.trans e.symm, g2, g3.congr (bulkSets_remove vs s)⟩
  · intro hs
    rw [k2 hs] at e
    exact e2.trans e.symm

theorem ofPtr_ok {vs : List Nat} (hv : ∀ v ∈ vs, v < TOP64) :
    ∃ r' L' R', R64M.ofPtr vs = .ok r' ∧ Sim64 r' L' R' ∧ Rep64 R' (ofList vs) := by
  obtain ⟨r', R', h1, h2, h3⟩ := addMany_ok sim64_create rep64_empty hv
  exact ⟨r', _, R', h1, h2, h3.congr fun x => by simp [Spec.union, Spec.empty]⟩

theorem clear_ok {r : R64M} {L : ArtRef → Prop} {R : R64} {s : NSet} (h : Sim64 r L R) (hR : Rep64 R s) :
    ∃ r' R', r.clear = .ok r' ∧ Sim64 r' L R' ∧ Rep64 R' Spec.empty := by
  have ht : (18446744073709551615 : Nat) < TOP64 := by unfold TOP64; omega
  obtain ⟨r', R', h1, h2, h3⟩ := removeRangeClosed_ok h hR (min := 0) ht
  refine ⟨r', R', h1, h2, h3.congr fun x => ?_⟩
  by_cases hx : x < TOP64
  · have h0 : Spec.range 0 (18446744073709551615 + 1) x = true := by
      rw [range_dec]; exact decide_eq_true (by unfold TOP64 at hx; omega)
    rw [Spec.diff, h0]
    simp [Spec.empty]
  · rw [Spec.diff, hR.zero (by omega)]
    rfl

end CRoaring
