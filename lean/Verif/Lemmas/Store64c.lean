import Verif.Lemmas.Store64Ops2
import Verif.Lemmas.ArtHeapCalls
/-
Functions of a 64-bit bitmap in memory that visit all its leaves.
-/
set_option linter.unusedSimpArgs false
set_option linter.unusedVariables false
namespace CRoaring
open Spec

/-! ### Ranges -/

theorem addRange_fold {L : ArtRef → Prop} (n : Nat) : ∀ (K : Nat) {r : R64M} {R : R64} {s : NSet}, Sim64 r L R → Rep64 R s → K + n ≤ P48 →
    ∃ r', (List.range' K n).foldlM (fun r current => R64M.addRangeAt r (splitKey (current <<< 16)).1 0 65535) r = .ok r' ∧
      Sim64 r' L ((List.range' K n).foldl (fun r current => addRangeClosedAt r (splitKey (current <<< 16)).1 0 65535) R) := by
  induction n with
  | zero => intro K r R s h _ _; exact ⟨r, rfl, h⟩
  | succ n ih =>
    intro K r R s h hR hK
    obtain ⟨r1, h1, h2⟩ := addRangeAt_ok h hR.inv.1 (splitKey_isKey (K <<< 16)) 0 65535
    have h3 := addRangeClosedAt_spec hR (splitKey_isKey (K <<< 16)) (a := 0) (b := 65535) (by omega) (by omega)
    obtain ⟨r2, h4, h5⟩ := ih (K + 1) h2 h3 (by omega)
    refine ⟨r2, ?_, ?_⟩
    · rw [List.range'_succ, List.foldlM_cons, h1, ok_bind]; exact h4
    · rw [List.range'_succ, List.foldl_cons]; exact h5

theorem addRangeClosed_ok {r : R64M} {L : ArtRef → Prop} {R : R64} {s : NSet} (h : Sim64 r L R) (hR : Rep64 R s) {min max : Nat} (hmax : max < TOP64) :
    ∃ r', r.addRangeClosed min max = .ok r' ∧ Sim64 r' L (r64AddRangeClosed R min max) := by
  unfold R64M.addRangeClosed r64AddRangeClosed
  by_cases hlt : min > max
  · rw [if_pos hlt, if_pos hlt]; exact ⟨r, rfl, h⟩
  · rw [if_neg hlt, if_neg hlt]
    simp only
    have hlow : ∀ x, (splitKey x).2 < 65536 := fun x => Nat.mod_lt _ (by omega)
    by_cases hc : artCompareKeys (splitKey min).1 (splitKey max).1 = 0
    · rw [if_pos hc, if_pos hc]
      exact addRangeAt_ok h hR.inv.1 (splitKey_isKey min) _ _
    · rw [if_neg hc, if_neg hc]
      obtain ⟨r1, h1, h2⟩ := addRangeAt_ok h hR.inv.1 (splitKey_isKey min) (splitKey min).2 65535
      have h3 := addRangeClosedAt_spec hR (splitKey_isKey min) (a := (splitKey min).2) (b := 65535) (by have := hlow min; omega) (by omega)
      have hb : max / 65536 < P48 := by unfold P48; unfold TOP64 at hmax; omega
      obtain ⟨r2, h4, h5⟩ := addRange_fold (max / 65536 - (min / 65536 + 1)) (min / 65536 + 1) h2 h3 (by
        have : min / 65536 ≤ max / 65536 := Nat.div_le_div_right (by omega)
        have : min / 65536 ≠ max / 65536 := fun e => hc ((key_cmp (by omega) hmax).mpr e)
        omega)
      have h6 := addRange64_fold h3 (min / 65536 + 1) (max / 65536 - (min / 65536 + 1)) (by
        have : min / 65536 ≤ max / 65536 := Nat.div_le_div_right (by omega)
        have : min / 65536 ≠ max / 65536 := fun e => hc ((key_cmp (by omega) hmax).mpr e)
        omega)
      obtain ⟨r3, h7, h8⟩ := addRangeAt_ok h5 h6.inv.1 (splitKey_isKey max) 0 (splitKey max).2
      exact ⟨r3, by rw [h1, ok_bind, h4, ok_bind, h7], h8⟩

/-! ### Leaves -/

theorem LeafOf.key_eq {V : Type} {a : ArtT V} {F : ArtRef → Prop} {k k' : List Nat} {x : ArtRef} (h : LeafOf a F k x) (h' : LeafOf a F k' x) : k = k' := by
  obtain ⟨_, v, e⟩ := h
  obtain ⟨_, v', e'⟩ := h'
  rw [e] at e'; cases e'; rfl

theorem LeafOf.ref_eq {V : Type} {a : ArtT V} {L F : ArtRef → Prop} {m : List Nat → Option V} (hm : AMapF a L F m) {k : List Nat} {x y : ArtRef}
    (hx : LeafOf a F k x) (hy : LeafOf a F k y) : x = y := by
  have h1 := (hm.ptr hx).find
  have h2 := (hm.ptr hy).find
  rw [h1] at h2
  have : a.heap.deref x = a.heap.deref y := by injection h2 with h2; injection h2
  unfold ArtHeap.deref at this
  injection this

/-! ### Steps of the loops over one bitmap -/

theorem From.congr {C D : Conts} {X : Nat} {o : Option (List Nat)} (h : From C X o) (e : ∀ k, IsKey k → C k = D k) : From D X o := by
  cases o with
  | none => exact fun k hk hd => h k hk (by rw [e k hk]; exact hd)
  | some k =>
    obtain ⟨h1, h2, h3, h4⟩ := h
    exact ⟨h1, by rw [← e k h1]; exact h2, h3, fun k' hk' hd => h4 k' hk' (by rw [e k' hk']; exact hd)⟩

theorem FUEL_keys : P48 < FUEL + 0 ∧ 0 ≤ P48 := by unfold P48 FUEL; omega

theorem CS.next {r : R64M} {L : ArtRef → Prop} {C : Conts} {B : Prop} {it : HIt} {k : List Nat} {root : Option (Art Nat)}
    (h : CS r L C B it (some k) root) : ∃ it' o, r.art.itNext it = .ok it' ∧ CS r L C True it' o root ∧ From C (keyNum k + 1) o := by
  obtain ⟨p, l, a, c, F, h1, h2, h3, h4, h5⟩ := h.see
  obtain ⟨it', e, g1, g2, g3⟩ := it_next h.rep h.ok h3
  exact ⟨it', _, g1, ⟨h.rep, h.ok, h.slots, h.first, e, g2, rfl⟩, from_first h.slots h.ok g3⟩

/-- The iterator after a key. -/
theorem St.after {r : R64M} {L F : ArtRef → Prop} {m : List Nat → Option Nat} {C : Conts} (h : St r L F m C) {k : List Nat} (hk : IsKey k) :
    ∃ it o, r.art.upperBound k = .ok it ∧ Cs r L C False it o ∧ From C (keyNum k + 1) o := by
  obtain ⟨⟨root, h1, h2, h3⟩, h4, h5⟩ := h
  have hs := h4.congrM (m' := artFind root) (fun k hk => (h3 k hk).symm)
  obtain ⟨hit, e, g1, g2, g3⟩ := it_upper h1.rep h2 hk
  exact ⟨hit, _, g1, ⟨root, h1.rep, h2, hs, h5, e, g2, rfl⟩, from_first hs h2 g3⟩

/-! ### Run optimisation -/

/-- The leaf below the iterator gets an object, which may be the old one. -/
theorem CS.replace {r : R64M} {L F : ArtRef → Prop} {C : Conts} {it : HIt} {k : List Nat} {root : Option (Art Nat)} {p : ArtPtr} {l a : Nat}
    {c : Container} (hrep : ARep r.art L root) (hok : ArtOk root) (hst : St r L F (artFind root) C) (hc : HCur r.art root it k l) (hp : it.value = some p)
    (hA : Leads r L F (artFind root) C k p l a c) {mem' : List (Option Container)} {a' : Nat} {c2 : Container} (m1 : mem'[a']? = some (some c2))
    (m2 : ∀ x, x ≠ a → x ≠ a' → mem'[x]? = r.mem[x]?) (m3 : a' = a ∨ (mem'[a]? = some none ∧ r.mem[a']? = none)) :
    ∃ r', R64M.replaceContainer { r with mem := mem' } p a' (typecode c2) = .ok r' ∧ Cs r' L (updKey C k (some c2)) True it (some k) := by
  have hk := hA.ptr.key
  obtain ⟨p', b, s0, s1, s2, s3⟩ := it_store hrep hok hc (createLeaf (leafIndex l) (typecode c2))
  rw [hp] at s0
  cases s0
  obtain ⟨d1, d2⟩ := leaf_index (l / 256) (typecode_byte c2)
  obtain ⟨j1, -⟩ := artStore_has hok hk hA.leaf (createLeaf (leafIndex l) (typecode c2))
  refine ⟨{ art := b, containers := r.containers.set (l / 256) (some a'), first := r.first, mem := mem' }, ?_,
    artStore root k (createLeaf (leafIndex l) (typecode c2)), s2, j1, ?_, hst.first.set_some hA.slot, some (k, _), s3, rfl⟩
  · have e : R64M.setSlot { r with mem := mem' } (leafIndex l) (some a') =
        .ok { r with mem := mem', containers := r.containers.set (l / 256) (some a') } :=
      setSlot_ok (r := { r with mem := mem' }) (slot_lt hA.slot) _
    simp only [R64M.replaceContainer, hA.load, ok_bind, e, s1]
  · exact Slots.congrM (hst.slots.change hk hA.leaf hA.slot m1 m2 m3 d1 d2.symm) (find_store hok hk hA.leaf _)

theorem Cs.runOptimize {r : R64M} {L : ArtRef → Prop} {C : Conts} {B : Prop} {it : HIt} {k : List Nat} (h : Cs r L C B it (some k)) :
    ∃ p c r', it.value = some p ∧ C k = some c ∧ r.runOptimizeLeaf p = .ok (r', isRun (convertRunOptimize c)) ∧
      Cs r' L (updKey C k (some (convertRunOptimize c))) True it (some k) := by
  obtain ⟨root, h⟩ := h
  obtain ⟨p, l, a, c, F, g1, g2, g3, g4, hA⟩ := h.see
  have halt := slot_lt hA.obj
  generalize hc2 : convertRunOptimize c = c2
  by_cases ht : typecode c2 = typecode c
  · obtain ⟨r', q1, q2⟩ := CS.replace h.rep h.ok g4 g3 g1 hA (mem' := r.mem.set a (some c2)) (a' := a) (c2 := c2) (List.getElem?_set_self halt)
      (fun x hx _ => List.getElem?_set_ne (Ne.symm hx)) (Or.inl rfl)
    refine ⟨p, c, r', g1, hA.here, ?_, by rw [hc2]; exact q2⟩
    simp only [R64M.runOptimizeLeaf, hA.look, ok_bind, hc2, if_pos ht, R64M.write]
    rw [q1]; rfl
  · obtain ⟨r', q1, q2⟩ := CS.replace h.rep h.ok g4 g3 g1 hA (mem' := (r.mem ++ [some c2]).set a none) (a' := r.mem.length) (c2 := c2)
      (by rw [List.getElem?_set_ne (by omega)]; simp)
      (fun x hx hx' => by
        rw [List.getElem?_set_ne (Ne.symm hx)]
        by_cases hlt : x < r.mem.length
        · rw [List.getElem?_append_left hlt]
        · rw [List.getElem?_eq_none (by simp; omega), List.getElem?_eq_none (by omega)])
      (Or.inr ⟨List.getElem?_set_self (by simp; omega), List.getElem?_eq_none (by omega)⟩)
    refine ⟨p, c, r', g1, hA.here, ?_, by rw [hc2]; exact q2⟩
    have hd : R64M.deref { r with mem := r.mem ++ [some c2] } a (leafType l) = .ok c := by
      simp only [R64M.deref]
      rw [List.getElem?_append_left halt, hA.obj]
      exact if_pos hA.type
    simp only [R64M.runOptimizeLeaf, hA.look, ok_bind, hc2, if_neg ht, R64M.new, R64M.freeContainer, hd]
    rw [q1]; rfl

theorem runOptimize_loop {L : ArtRef → Prop} (n : Nat) : ∀ {r : R64M} {C : Conts} {it : HIt} {o : Option (List Nat)} {X : Nat} (b : Bool),
    Cs r L C True it o → From C X o → X ≤ P48 → P48 < n + X →
    ∃ r' F m b', R64M.runOptimizeLoop n r it b = .ok (r', b') ∧ St r' L F m (Fin (fun _ d _ => d.map convertRunOptimize) C (fun _ => none) X) ∧
      (b' = true ↔ b = true ∨ ∃ k c, IsKey k ∧ X ≤ keyNum k ∧ C k = some c ∧ isRun (convertRunOptimize c) = true) := by
  induction n with
  | zero => intro r C it o X b _ _ h1 h2; omega
  | succ n ih =>
    intro r C it o X b h hf hX hn
    unfold R64M.runOptimizeLoop
    cases o with
    | none =>
      obtain ⟨F, m, hs⟩ := Fin.stop (G := fun _ d _ => d.map convertRunOptimize) (C2 := fun _ => none) (X := X)
        (fun k hk hx => by rw [hf.off hk hx]; rfl) h
      refine ⟨r, F, m, b, by rw [h.ended], hs, ⟨Or.inl, ?_⟩⟩
      rintro (hb | ⟨k, c, hk, hx, hc, -⟩)
      · exact hb
      · rw [hf.off hk hx] at hc; cases hc
    | some k =>
      obtain ⟨hk, hxk, hkl⟩ := hf.isKey
      obtain ⟨p, c, r1, h1, h2, h3, h4⟩ := h.runOptimize
      obtain ⟨it', o', n1, n2, n3⟩ := h4.next
      obtain ⟨r', F, m, b', g1, g2, g3⟩ := ih (b || isRun (convertRunOptimize c)) n2 n3 hkl (by omega)
      refine ⟨r', F, m, b', ?_, Fin.step (by omega) (fun k' hk' hor => ?_) (fun k' hk' hx hx' => ?_) g2, ?_⟩
      · simp only [h1, h3, ok_bind, n1]; exact g1
      · exact upd_num _ (by omega)
      · by_cases e : k' = k
        · subst e; rw [upd_same, h2]; rfl
        · have : keyNum k' ≠ keyNum k := fun e2 => e (key_inj hk' hk e2)
          rw [upd_ne _ _ e, hf.gap hk' hx (by omega)]; rfl
      · rw [g3, Bool.or_eq_true]
        constructor
        · rintro ((hb | hb) | ⟨k', c', hk', hx, hc, hr⟩)
          · exact Or.inl hb
          · exact Or.inr ⟨k, c, hk, hxk, h2, hb⟩
          · rw [upd_num _ (by omega)] at hc
            exact Or.inr ⟨k', c', hk', by omega, hc, hr⟩
        · rintro (hb | ⟨k', c', hk', hx, hc, hr⟩)
          · exact Or.inl (Or.inl hb)
          · by_cases e : k' = k
            · subst e
              rw [h2] at hc; cases hc
              exact Or.inl (Or.inr hr)
            · have h5 : keyNum k' ≠ keyNum k := fun e2 => e (key_inj hk' hk e2)
              have h6 : keyNum k ≤ keyNum k' := hf.2.2.2 k' hk' (by rw [hc]; simp) hx
              exact Or.inr ⟨k', c', hk', by omega, by rw [upd_ne _ _ e]; exact hc, hr⟩

theorem find_runOptimize {R : R64} {s : NSet} (h : Rep64 R s) {k : List Nat} (hk : IsKey k) :
    artFind (r64RunOptimize R).1 k = (artFind R k).map convertRunOptimize := by
  obtain ⟨l, hl, rfl⟩ := h.elim
  obtain ⟨h1, -⟩ := runOptimize64_loop (A := []) FUEL hl.rl hl.rl.init hl.rl.fuel false
  rw [List.nil_append] at h1
  cases e : artFind R k with
  | none =>
    rw [hl.rl.find_none hk] at e
    rw [Option.map_none]
    show artFind (runOptimize64Loop FUEL R (artInitIterator R true) false).1 k = none
    rw [h1.find_none hk]
    intro p hp
    obtain ⟨q, hq, rfl⟩ := List.mem_map.1 hp
    exact e q hq
  | some c =>
    rw [hl.rl.find hk] at e
    show artFind (runOptimize64Loop FUEL R (artInitIterator R true) false).1 k = some (convertRunOptimize c)
    rw [h1.find hk]
    exact List.mem_map.2 ⟨_, e, rfl⟩

theorem runOptimize_ok {r : R64M} {L : ArtRef → Prop} {R : R64} {s : NSet} (h : Sim64 r L R) (hR : Rep64 R s) :
    ∃ r', r.runOptimize = .ok (r', (r64RunOptimize R).2) ∧ Sim64 r' L (r64RunOptimize R).1 := by
  obtain ⟨F, m, h⟩ := h
  obtain ⟨it, o, i1, i2, i3⟩ := h.start
  obtain ⟨r', F', m', b', g1, g2, g3⟩ := runOptimize_loop FUEL false i2 i3 FUEL_keys.2 FUEL_keys.1
  have hb : b' = (r64RunOptimize R).2 := by
    rw [Bool.eq_iff_iff, g3, (r64RunOptimize_spec hR).2]
    have hok := (r64RunOptimize_spec hR).1.inv.1
    constructor
    · rintro (hb | ⟨k, c, hik, -, hc, hr⟩)
      · cases hb
      · have := find_runOptimize hR hik
        rw [hc] at this
        cases e : convertRunOptimize c with
        | run rs => exact ⟨k, rs, (artFind_iff hok hik _).1 (by rw [this, Option.map_some, e])⟩
        | array l => rw [e] at hr; cases hr
        | bitset l => rw [e] at hr; cases hr
    · rintro ⟨k, rs, hk⟩
      have hik : IsKey k := by
        obtain ⟨t, hroot, hk⟩ := hk
        exact ((hok t hroot).key hk).1
      have e := (artFind_iff hok hik _).2 hk
      rw [find_runOptimize hR hik] at e
      cases e2 : artFind R k with
      | none => rw [e2] at e; cases e
      | some c =>
        rw [e2, Option.map_some] at e
        injection e with e
        exact Or.inr ⟨k, c, hik, Nat.zero_le _, e2, by rw [e]; rfl⟩
  refine ⟨r', ?_, F', m', g2.congr fun k hk => ?_⟩
  · unfold R64M.runOptimize
    rw [i1, ok_bind, ← hb]
    exact g1
  · rw [find_runOptimize hR hk]
    exact if_neg (Nat.not_lt_zero _)

/-! ### Shrinking -/

theorem store_total {a b : ArtT Nat} {p : ArtPtr} {v : Nat} (h : a.store p v = .ok b) : b.heap.total = a.heap.total := by
  unfold ArtT.store at h
  obtain ⟨l, _, h⟩ := out_bind h
  obtain ⟨H, hp, h⟩ := out_bind h
  cases h
  unfold ArtHeap.poke at hp
  split at hp
  · cases hp
    unfold ArtHeap.total
    congr 1
    apply List.map_congr_left
    intro t _
    unfold updTy
    simp only
    split
    · next e => rw [e]; simp
    · rfl
  · cases hp

theorem CS.moveToShrink {r : R64M} {L : ArtRef → Prop} {C : Conts} {B : Prop} {it : HIt} {k : List Nat} {root : Option (Art Nat)}
    (h : CS r L C B it (some k) root) :
    ∃ p y r' root', it.value = some p ∧ r.look p = .ok y ∧ r.moveToShrink p = .ok r' ∧ CS r' L C False it (some k) root' ∧
      r.first ≤ r'.first ∧ (∀ l, artFind root' k = some l → l / 256 < r'.first) ∧ (∀ k', IsKey k' → k' ≠ k → artFind root' k' = artFind root k') ∧
      r'.containers.length = r.containers.length ∧ (r'.art.heap.isShrunken = r.art.heap.isShrunken) ∧ r'.mem = r.mem ∧ r'.art.heap.total = r.art.heap.total := by
  obtain ⟨p, l, a, c, F, g1, g2, g3, g4, hA⟩ := h.see
  have hk := hA.ptr.key
  obtain ⟨w, w1, w2⟩ := h.cur
  refine ⟨p, (l, a, c), ?_⟩
  unfold R64M.moveToShrink
  simp only [hA.load, ok_bind]
  by_cases hl : leafIndex l < r.first
  · rw [if_pos hl]
    refine ⟨r, root, g1, hA.look, rfl, ⟨h.rep, h.ok, h.slots, h.first, w, w1.imp (fun f => f.elim), w2⟩, Nat.le_refl _, ?_, fun _ _ _ => rfl, rfl, rfl, rfl, rfl⟩
    intro l' hl'
    rw [hA.leaf] at hl'; cases hl'
    exact hl
  · rw [if_neg hl]
    have hlen := slot_lt hA.slot
    have hfl : r.first < r.containers.length := by
      have : r.first ≤ l / 256 := Nat.le_of_not_lt hl
      omega
    have hff := h.first.here hfl
    have hlt : r.first < leafIndex l := Nat.lt_of_le_of_ne (Nat.le_of_not_lt hl) (by intro e; unfold leafIndex at e; rw [e, hA.slot] at hff; cases hff)
    have hne : r.first ≠ l / 256 := by intro e; rw [e, hA.slot] at hff; cases hff
    obtain ⟨b, s1, s2, s3, s4, s5, s6, s7⟩ := hA.ptr.store (createLeaf r.first (leafType l))
    obtain ⟨p', b', t0, t1, t2, t3⟩ := it_store h.rep h.ok g3 (createLeaf r.first (leafType l))
    rw [g1] at t0; cases t0
    rw [s1] at t1; cases t1
    obtain ⟨j1, -⟩ := artStore_has h.ok hk hA.leaf (createLeaf r.first (leafType l))
    have hfs := find_store h.ok hk hA.leaf (createLeaf r.first (leafType l))
    have hgc : r.getContainer l = .ok a := by simp only [R64M.getContainer, leafIndex, hA.slot]
    have hs1 := setSlot_ok (r := r) hfl (some a)
    have hs2 := setSlot_ok (r := { r with containers := r.containers.set r.first (some a) }) (i := leafIndex l) (by simp only [List.length_set]; exact hlen) none
    have hle : r.first < R64M.nextFree { r with containers := (r.containers.set r.first (some a)).set (leafIndex l) none } ∧
        FirstFree ((r.containers.set r.first (some a)).set (leafIndex l) none)
          (R64M.nextFree { r with containers := (r.containers.set r.first (some a)).set (leafIndex l) none }) := by
      have h2 := slotNext_ok (r := { r with containers := (r.containers.set r.first (some a)).set (leafIndex l) none })
        (cs := (r.containers.set r.first (some a)).set (leafIndex l) none) rfl (fun i hi => by
          simp only at hi
          rw [List.getElem?_set_ne (by omega), get_set]
          split
          · simp
          · next hn => exact h.first.before i (Nat.lt_of_le_of_ne hi (fun e => hn ⟨e.symm, hfl⟩))) (fun i hi => rfl) (by simpa using hfl)
      refine ⟨?_, h2⟩
      rcases Nat.lt_or_ge r.first (R64M.nextFree { r with containers := (r.containers.set r.first (some a)).set (leafIndex l) none }) with g | g
      · exact g
      · have := h2.here (by simp; omega)
        rw [List.getElem?_set_ne (by omega), get_set] at this
        split at this
        · cases this
        · next hn => exact absurd this (h.first.before _ (Nat.lt_of_le_of_ne g (fun e => hn ⟨e.symm, hfl⟩)))
    refine ⟨{ r with containers := (r.containers.set r.first (some a)).set (leafIndex l) none, art := b,
                      first := R64M.nextFree { r with containers := (r.containers.set r.first (some a)).set (leafIndex l) none } },
      artStore root k (createLeaf r.first (leafType l)), g1, hA.look, ?_,
      ⟨t2, j1, (h.slots.moveSlot hk hA.leaf hA.slot hff).congrM hfs, hle.2, some (k, _), t3, rfl⟩, Nat.le_of_lt hle.1,
      fun l' hl' => ?_, fun k' hk' hne => by rw [← hfs k' hk', upd_ne _ _ hne], by simp, s4, rfl, store_total s1⟩
    · simp only [hgc, ok_bind, hs1, hs2, s1]
    · rw [← hfs k hk, upd_same] at hl'
      cases hl'
      simp only [createLeaf, leafType]
      rw [(leaf_index r.first (Nat.mod_lt l (by decide : 0 < 256))).1]
      exact hle.1

theorem shrink_loop {L : ArtRef → Prop} {C : Conts} (n : Nat) : ∀ {r : R64M} {it : HIt} {o : Option (List Nat)} {X : Nat} {root : Option (Art Nat)},
    CS r L C False it o root → From C X o → X ≤ P48 → P48 < n + X → (∀ k l, IsKey k → keyNum k < X → artFind root k = some l → l / 256 < r.first) →
    ∃ r' F m, R64M.shrinkLoop n r it = .ok r' ∧ St r' L F m C ∧ (∀ k l, IsKey k → m k = some l → l / 256 < r'.first) ∧
      r'.containers.length = r.containers.length ∧ (r'.art.heap.isShrunken = r.art.heap.isShrunken) ∧ r'.mem = r.mem ∧ r'.art.heap.total = r.art.heap.total := by
  induction n with
  | zero => intro r it o X root _ _ h1 h2; omega
  | succ n ih =>
    intro r it o X root h hf hX hn hlow
    unfold R64M.shrinkLoop
    cases o with
    | none =>
      obtain ⟨F, hs⟩ := h.st
      refine ⟨r, F, _, by rw [Cs.ended ⟨root, h⟩], hs, fun k l hk hm => hlow k l hk ?_ hm, rfl, rfl, rfl, rfl⟩
      refine hf k hk ?_
      rw [Ne, slots_none h.slots hk, hm]; simp
    | some k =>
      obtain ⟨hk, hxk, hkl⟩ := hf.isKey
      obtain ⟨p, y, r1, root1, h1, h2, h3, h4, h5, h6, h7, h8, h9, h10, h11⟩ := h.moveToShrink
      obtain ⟨it', o', n1, n2, n3⟩ := h4.next
      obtain ⟨w, w1, w2⟩ := n2.cur
      obtain ⟨r', F, m, g1, g2, g3, g4, g5, g6, g7⟩ := ih ⟨n2.rep, n2.ok, n2.slots, n2.first, w, w1.imp (fun f => f.elim), w2⟩ n3 hkl (by omega)
        (fun k' l hk' hx hm => by
          by_cases e : k' = k
          · subst e; exact h6 l hm
          · have hne : keyNum k' ≠ keyNum k := fun e2 => e (key_inj hk' hk e2)
            rw [h7 k' hk' e] at hm
            refine Nat.lt_of_lt_of_le (hlow k' l hk' ?_ hm) h5
            by_cases hx2 : keyNum k' < X
            · exact hx2
            · have := hf.gap hk' (by omega) (by omega)
              rw [slots_none h.slots hk', hm] at this
              cases this)
      exact ⟨r', F, m, by simp only [h1, h2, h3, ok_bind, n1]; exact g1, g2, g3, g4.trans h8, g5.trans h9, g6.trans h10, g7.trans h11⟩

/-- The loop of `R64M.shrinkToFit`, from the start. -/
theorem St.shrink {r : R64M} {L F : ArtRef → Prop} {m : List Nat → Option Nat} {C : Conts} (h : St r L F m C) :
    ∃ it r' F' m', r.art.initIterator true = .ok it ∧ R64M.shrinkLoop FUEL r it = .ok r' ∧ St r' L F' m' C ∧ (∀ k l, IsKey k → m' k = some l → l / 256 < r'.first) ∧
      r'.containers.length = r.containers.length ∧ (r'.art.heap.isShrunken = r.art.heap.isShrunken) ∧ r'.mem = r.mem ∧ r'.art.heap.total = r.art.heap.total := by
  obtain ⟨it, o, i1, ⟨root, i2⟩, i3⟩ := h.start
  obtain ⟨w, w1, w2⟩ := i2.cur
  obtain ⟨r', F', m', g⟩ := shrink_loop FUEL (X := 0) ⟨i2.rep, i2.ok, i2.slots, i2.first, w, w1.imp (fun f => f.elim), w2⟩ i3 FUEL_keys.2 FUEL_keys.1
    (fun k l _ hx => absurd hx (Nat.not_lt_zero _))
  exact ⟨it, r', F', m', i1, g⟩

theorem shrinkToFit_ok {r : R64M} {L : ArtRef → Prop} {R : R64} (h : Sim64 r L R) :
    ∃ r' f a, r.shrinkToFit = .ok (r', f + (r.containers.length - r'.containers.length) * 8) ∧ r.art.shrinkToFit = .ok (a, f) ∧
      (∃ L', Sim64 r' L' R ∧ ((∀ x, ¬ L x) → (∃ k, IsKey k ∧ artFind R k ≠ none) → ∀ x, ¬ L' x)) ∧ r'.containers.length ≤ r.containers.length ∧
      (∀ i, i < r'.containers.length → ∃ a, r'.containers[i]? = some (some a)) ∧ r'.mem = r.mem ∧ r.art.heap.total = r'.art.heap.total + f := by
  obtain ⟨F, m, h⟩ := h
  obtain ⟨b, f, s1, s2, s3, L', s4, s5⟩ := amap_shrink h.map.map
  obtain ⟨F', s6⟩ := s4.withF
  have hst : St { r with art := b } L' F' m (artFind R) := ⟨s6, h.slots, h.first⟩
  obtain ⟨it, r', F2, m', h1, g1, g2, g4, g6, g7, g8, g9⟩ := hst.shrink
  have hlow : ∀ i a : Nat, r'.containers[i]? = some (some a) → i < r'.first := by
    intro i a hi
    obtain ⟨k, j, e1, e2, e3⟩ := g2.slots.used i a hi
    rw [← e3]
    exact g4 k j e1 e2
  have hfull : ∀ i, i < r'.first → ∃ a, r'.containers[i]? = some (some a) := by
    intro i hi
    have hlt : i < r'.containers.length := Nat.lt_of_lt_of_le hi g2.first.le
    have e := g2.first.before i hi
    rw [List.getElem?_eq_getElem hlt] at e ⊢
    cases hv : r'.containers[i] with
    | none => rw [hv] at e; exact absurd rfl e
    | some a => exact ⟨a, rfl⟩
  have hcut : r'.cutContainers f = ({ r' with containers := r'.containers.take r'.first }, f + (r.containers.length - (r'.containers.take r'.first).length) * 8) := by
    have hle := g2.first.le
    have hlen : (r'.containers.take r'.first).length = r'.first := by rw [List.length_take]; omega
    have g6' : r'.containers.length = r.containers.length := g6
    unfold R64M.cutContainers
    rw [hlen]
    have hsame : r'.first = r'.containers.length → ({ r' with containers := r'.containers.take r'.first } : R64M) = r' := by
      intro e; rw [e, List.take_length, ← e]
    split
    · next e =>
      rw [hsame e.2, ← g6', e.2]
      simp
    · split
      · rw [g6']
      · have : r'.first = r'.containers.length := by omega
        rw [hsame this, ← g6', this]
        simp
  have hlen : (r'.containers.take r'.first).length = r'.first := by have := g2.first.le; rw [List.length_take]; omega
  refine ⟨{ r' with containers := r'.containers.take r'.first }, f, b, ?_, s1, ⟨L', ⟨F2, m', g2.map, g2.slots.take hlow, ?_⟩, ?_⟩, ?_, ?_, g8, by rw [s3]; exact congrArg (· + f) g9.symm⟩
  · unfold R64M.shrinkToFit
    rw [s1, ok_bind]
    simp only at h1 ⊢
    rw [h1, ok_bind, g1, ok_bind, hcut]
  · refine ⟨by rw [hlen]; exact Nat.le_refl _, fun i hi e => ?_, fun hi => ?_⟩
    · simp only [List.getElem?_take, if_pos hi] at e
      exact g2.first.before i hi e
    · simp only [hlen] at hi; omega
  · intro hL hne
    refine s5 hL ?_
    obtain ⟨k, hk, hne⟩ := hne
    refine ⟨k, ⟨hk.len, hk.byte⟩, fun e => hne (h.slots.absent k hk e)⟩
  · simp only [hlen]
    have := g2.first.le
    have g6' : r'.containers.length = r.containers.length := g6
    omega
  · intro i hi
    simp only [hlen] at hi
    obtain ⟨a, ha⟩ := hfull i hi
    exact ⟨a, by simp only [List.getElem?_take, if_pos hi, ha]⟩

/-! ### The end -/

theorem free_loop {r : R64M} {L : ArtRef → Prop} {C : Conts} {root : Option (Art Nat)} (n : Nat) : ∀ {it : HIt} {o : Option (List Nat)} {X : Nat}
    {mem : List (Option Container)}, CS r L C True it o root → From C X o → X ≤ P48 → P48 < n + X → mem.length = r.mem.length →
    (∀ k j a, IsKey k → X ≤ keyNum k → artFind root k = some j → r.containers[j / 256]? = some (some a) → mem[a]? = r.mem[a]?) →
    (∀ a c, mem[a]? = some (some c) → r.mem[a]? = some (some c) ∧
      ∀ k j, IsKey k → keyNum k < X → artFind root k = some j → r.containers[j / 256]? ≠ some (some a)) →
    ∃ mem', R64M.freeLoop n { r with mem := mem } it = .ok { r with mem := mem' } ∧ mem'.length = r.mem.length ∧
      ∀ a c, mem'[a]? = some (some c) → r.mem[a]? = some (some c) ∧ ∀ k j, IsKey k → artFind root k = some j → r.containers[j / 256]? ≠ some (some a) := by
  induction n with
  | zero => intro it o X mem _ _ h1 h2; omega
  | succ n ih =>
    intro it o X mem h hf hX hn hlen hin hout
    unfold R64M.freeLoop
    cases o with
    | none =>
      refine ⟨mem, by rw [Cs.ended ⟨root, h⟩], hlen, fun a c ha => ⟨(hout a c ha).1, fun k j hk hj => (hout a c ha).2 k j hk ?_ hj⟩⟩
      refine hf k hk ?_
      rw [Ne, slots_none h.slots hk, hj]; simp
    | some k =>
      obtain ⟨hk, hxk, hkl⟩ := hf.isKey
      obtain ⟨p, l, a, c, F, h1, h2, h3, h4, hA⟩ := h.see
      obtain ⟨it', o', n1, n2, n3⟩ := h.next
      have hobj : mem[a]? = some (some c) := by rw [hin k l a hk hxk hA.leaf hA.slot]; exact hA.obj
      obtain ⟨mem', g1, g2, g3⟩ := ih (mem := mem.set a none) n2 n3 hkl (by omega) (by simpa using hlen)
        (fun k' j' a' hk' hx hj' hs' => by
          rw [List.getElem?_set_ne, hin k' j' a' hk' (by omega) hj' hs']
          rintro rfl
          have e := h.slots.inj k' k j' l hk' hk hj' hA.leaf (h.slots.one _ _ a hs' hA.slot)
          rw [e] at hx; omega)
        (fun b d hb => by
          have hne : a ≠ b := by
            rintro rfl
            rw [List.getElem?_set_self (slot_lt hobj)] at hb; cases hb
          rw [List.getElem?_set_ne hne] at hb
          obtain ⟨q1, q2⟩ := hout b d hb
          refine ⟨q1, fun k' j' hk' hx hj' => ?_⟩
          by_cases e : k' = k
          · subst e
            rw [hA.leaf] at hj'; cases hj'
            rw [hA.slot]; simp [hne]
          · have hne' : keyNum k' ≠ keyNum k := fun e2 => e (key_inj hk' hk e2)
            refine q2 k' j' hk' ?_ hj'
            by_cases hx2 : keyNum k' < X
            · exact hx2
            · have := hf.gap hk' (by omega) (by omega)
              rw [slots_none h.slots hk', hj'] at this
              cases this)
      refine ⟨mem', ?_, g2, g3⟩
      have e1 : R64M.getContainer { r with mem := mem } l = .ok a := by simp only [R64M.getContainer, leafIndex, hA.slot]
      have e2 : R64M.freeContainer { r with mem := mem } a (leafType l) = .ok { r with mem := mem.set a none } := by
        simp only [R64M.freeContainer, R64M.deref, hobj, leafType, hA.type, if_true, ok_bind]
      simp only [h1, hA.load, ok_bind, e1, e2, n1]
      exact g1

theorem free_ok {r : R64M} {L : ArtRef → Prop} {R : R64} (h : Sim64 r L R) :
    ∃ mem, r.free = .ok mem ∧ mem.length = r.mem.length ∧ ∀ x ∈ mem, x = none := by
  obtain ⟨F, m, h⟩ := h
  obtain ⟨it, o, i1, ⟨root, i2⟩, i3⟩ := h.start
  obtain ⟨mem', g1, g2, g3⟩ := free_loop FUEL (X := 0) (mem := r.mem) i2 i3 FUEL_keys.2 FUEL_keys.1 rfl (fun _ _ _ _ _ _ _ => rfl)
    (fun a c ha => ⟨ha, fun k j _ hx => absurd hx (Nat.not_lt_zero _)⟩)
  refine ⟨mem', ?_, g2, fun x hx => ?_⟩
  · unfold R64M.free
    rw [i1, ok_bind]
    have g1 : R64M.freeLoop FUEL r it = .ok { r with mem := mem' } := g1
    rw [g1]; rfl
  · cases x with
    | none => rfl
    | some c =>
      obtain ⟨a, ha⟩ := List.mem_iff_getElem?.1 hx
      obtain ⟨q1, q2⟩ := g3 a c ha
      obtain ⟨i, hi⟩ := i2.slots.kept a c q1
      obtain ⟨k, j, e1, e2, e3⟩ := i2.slots.used i a hi
      exact absurd (by rw [e3]; exact hi) (q2 k j e1 e2)

end CRoaring
