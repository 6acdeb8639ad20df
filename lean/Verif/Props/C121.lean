import Verif.Lemmas.Store64Ops5
import Verif.Lemmas.Store64Flip
import Verif.Lemmas.Store64Bulk
import Verif.Lemmas.Store64Serial
import Verif.Store64PoolSpec
import Verif.Props.C108
import Verif.Props.C53
import Verif.Props.C75
/-
C121: several 64-bit bitmaps in memory, and the operations on two of them.
-/
namespace CRoaring.Props
open CRoaring CRoaring.Pool64

/-- A bitmap in memory with a set. -/
def Is64 (r : R64M) (s : NSet) : Prop := ∃ L R, Sim64 r L R ∧ Rep64 R s

theorem fit_get {P : R64M → NSet → Prop} {p : Mem} {q : Sets} (h : Fit P p q) {i : Nat} (hi : q.Has i) : ∃ r, p.get i = .ok r ∧ P r (q.get i) := by
  obtain ⟨s, hs⟩ := hi
  obtain ⟨r, h1, h2⟩ := (h.2 i).1 s hs
  exact ⟨r, by simp only [Mem.get, h1], by simpa [Sets.get, hs] using h2⟩

theorem fit_set {P : R64M → NSet → Prop} {p : Mem} {q : Sets} (h : Fit P p q) (i : Nat) {r : R64M} {s : NSet} (hr : P r s) : Fit P (p.set i (some r)) (q.set i (some s)) := by
  refine ⟨by simp [h.1], fun j => ?_⟩
  rw [List.getElem?_set, List.getElem?_set, h.1]
  by_cases e : i = j
  · subst e
    by_cases hl : i < q.length
    · simp only [if_true, hl]
      exact ⟨fun t ht => by cases ht; exact ⟨r, rfl, hr⟩, fun h => by cases h⟩
    · simp only [if_true, hl, if_false]
      exact ⟨fun t ht => (by cases ht), fun h => by cases h⟩
  · simp only [if_neg e]
    exact h.2 j

theorem fit_free {P : R64M → NSet → Prop} {p : Mem} {q : Sets} (h : Fit P p q) (i : Nat) : Fit P (p.set i none) (q.set i none) := by
  refine ⟨by simp [h.1], fun j => ?_⟩
  rw [List.getElem?_set, List.getElem?_set, h.1]
  by_cases e : i = j
  · subst e
    by_cases hl : i < q.length
    · simp only [if_true, hl]
      exact ⟨fun t ht => (by cases ht), fun _ => trivial⟩
    · simp only [if_true, hl, if_false]
      exact ⟨fun t ht => (by cases ht), fun h => by cases h⟩
  · simp only [if_neg e]
    exact h.2 j

theorem fit_add {P : R64M → NSet → Prop} {p : Mem} {q : Sets} (h : Fit P p q) {r : R64M} {s : NSet} (hr : P r s) : Fit P (p ++ [some r]) (q ++ [some s]) := by
  refine ⟨by simp [h.1], fun j => ?_⟩
  have hpq : List.length p = List.length q := h.1
  rcases Nat.lt_trichotomy j (List.length q) with hl | hl | hl
  · rw [List.getElem?_append_left (l₁ := p) (by omega), List.getElem?_append_left (l₁ := q) hl]
    exact h.2 j
  · rw [List.getElem?_append_right (by omega), List.getElem?_append_right (by omega), hpq, hl]
    simp only [Nat.sub_self, List.getElem?_cons_zero]
    exact ⟨fun t ht => by cases ht; exact ⟨r, rfl, hr⟩, fun h => by cases h⟩
  · rw [List.getElem?_eq_none (l := q ++ [some s]) (by rw [List.length_append, List.length_singleton]; omega)]
    exact ⟨fun t ht => (by cases ht), fun h => by cases h⟩

theorem fit_same {P : R64M → NSet → Prop} {p : Mem} {q : Sets} (h : Fit P p q) {i : Nat} {s : NSet} (hi : q.Has i) (e : ∀ x, s x = q.get i x) : Fit P p (q.set i (some s)) := by
  have e : s = q.get i := funext e
  obtain ⟨t, ht⟩ := hi
  have : q.get i = t := by simp [Sets.get, ht]
  rw [e, this]
  refine ⟨by simp [h.1], fun j => ?_⟩
  have : (q.set i (some t))[j]? = q[j]? := by
    rw [List.getElem?_set]
    split
    · next hh =>
      subst hh
      split
      · exact ht.symm
      · next hl => rw [List.getElem?_eq_none (by omega)]
    · rfl
  rw [this]
  exact h.2 j

theorem fit_imp {P Q : R64M → NSet → Prop} {p : Mem} {q : Sets} (h : Fit P p q) (hi : ∀ r s, P r s → Q r s) : Fit Q p q :=
  ⟨h.1, fun i => ⟨fun s hs => by obtain ⟨r, h1, h2⟩ := (h.2 i).1 s hs; exact ⟨r, h1, hi r s h2⟩, (h.2 i).2⟩⟩

theorem num64_eq (s : NSet) : Spec.card TOP64 s % TOP64 = num64 s := rfl

theorem bool_of {b : Bool} {P : Prop} (inst : Decidable P) (h : b = true ↔ P) : b = decide P := by
  by_cases hp : P
  · simp [hp, h.2 hp]
  · simp only [hp, decide_false]
    cases b
    · rfl
    · exact absurd (h.1 rfl) hp

theorem flipR_symm (s : NSet) (a b x : Nat) : flipR s a b x = Spec.symm s (Spec.range a b) x := by
  simp only [flipR, Spec.symm, Spec.range]
  by_cases h1 : a ≤ x <;> by_cases h2 : x < b <;> cases s x <;> simp [h1, h2]

/-- Bytes of a bitmap that lacks a block are read back, with anything behind them and under any limit that covers them. -/
theorem read_back {r : R64M} {s : NSet} (h : Is64 r s) (hl : ∃ h, h < 2 ^ 32 ∧ ∀ y, y / 2 ^ 32 = h → s y = false) :
    ∃ bytes : List UInt8, r.portableSize = .ok bytes.length ∧
      (∀ mem, bytes.length ≤ mem.length → r.portableSerialize mem = .ok (bytes ++ mem.drop bytes.length, bytes.length)) ∧
      (∀ tail maxbytes, bytes.length ≤ maxbytes → maxbytes ≤ (bytes ++ tail).length →
        ∃ r', R64M.portableDeserialize (bytes ++ tail) maxbytes = .ok (.inr (r', bytes.length)) ∧ Is64 r' s) ∧
      ∀ tail maxbytes, maxbytes < bytes.length → ∃ m, R64M.portableDeserialize (bytes ++ tail) maxbytes = .ok (.inl m) ∧ ∀ x ∈ m, x = none := by
  obtain ⟨L, R, g2, l, hb, hl'⟩ := h
  have hR : Rep64 R s := ⟨l, hb, hl'⟩
  have hla : LacksBlock R := by
    obtain ⟨k, hk, hk'⟩ := hl
    exact ⟨k, hk, fun y hy e => by rw [(fin64 hR).2 y hy]; exact hk' y e⟩
  have hc := lacks_count hb hla
  have hg := groups_none hb.rl.ks (fun p hp => ⟨hb.rl.lt hp, hb.ne p hp⟩)
  have hlen : (ser64Bytes (groups none l)).length = r64PortableSize R := by
    rw [ser64Bytes, List.length_append, leBytes_length, bucketBytes_length hg.1.weak, r64PortableSize_eq hb.rl]
  refine ⟨ser64Bytes (groups none l), ?_, fun mem hm => ?_, fun tail maxbytes h1 h2 => ?_, fun tail maxbytes h1 => ?_⟩
  · rw [hlen, portableSize_sim hb.rl.ok g2]
  · rw [portableSerialize_sim hb.rl.ok g2, hlen, r64PortableSerialize_eq hb (hlen ▸ hm)]
  · obtain ⟨-, R', e1, e2⟩ := r64PortableDeserialize_at hb hc (at_append _ tail) (hlen ▸ h1) h2
    rcases portableDeserialize_ok h2 with ⟨a, -⟩ | ⟨r', L', R'', m, a1, a2, a3⟩
    · rw [e1] at a; cases a
    · rw [e1] at a1; cases a1
      exact ⟨r', by rw [a2, hlen], L', R', a3, l, e2, hl'⟩
  · have hm : maxbytes ≤ (ser64Bytes (groups none l) ++ tail).length := by simp; omega
    obtain ⟨t1, -⟩ := truncated64 hb hc (at_append _ tail) (by rw [List.length_append]; omega) (hlen ▸ h1)
    rcases portableDeserialize_ok hm with ⟨-, a⟩ | ⟨r', L', R'', m, a1, a2, a3⟩
    · exact a
    · rw [t1] at a1; cases a1

theorem roundTrip_ok {r : R64M} {s : NSet} (h : Is64 r s) (hl : ∃ h, h < 2 ^ 32 ∧ ∀ y, y / 2 ^ 32 = h → s y = false) : ∃ r', r.roundTrip = .ok r' ∧ Is64 r' s := by
  obtain ⟨bytes, h1, h2, h3, -⟩ := read_back h hl
  obtain ⟨r', h4, h5⟩ := h3 [] bytes.length (Nat.le_refl _) (by simp)
  refine ⟨r', ?_, h5⟩
  unfold R64M.roundTrip
  rw [h1, ok_bind, h2 _ (by simp), ok_bind]
  simp only [List.drop_replicate, Nat.sub_self, List.replicate_zero]
  rw [h4, ok_bind]

/-- One call. -/
theorem pool_step_ok {p : Mem} {q : Sets} (h : Fit Is64 p q) (o : Op) (ho : q.Allowed o) : ∃ p', p.step o = .ok (p', (q.step o).2) ∧ Fit Is64 p' (q.step o).1 := by
  have hT : ∀ {x : Nat}, x < 2 ^ 64 → x < TOP64 := fun h => h
  cases o with
  | create => exact ⟨_, rfl, fit_add h ⟨_, _, sim64_create, rep64_empty⟩⟩
  | free i =>
    obtain ⟨r, g1, L, R, g2, g3⟩ := fit_get h ho
    obtain ⟨mem, m1, -, m2⟩ := free_ok g2
    refine ⟨p.set i none, ?_, fit_free h i⟩
    have : mem.all Option.isNone = true := by
      rw [List.all_eq_true]
      intro x hx
      rw [m2 x hx]; rfl
    simp only [Mem.step, g1, ok_bind, m1, this, if_true]
    rfl
  | call i c =>
    obtain ⟨r, g1, L, R, g2, g3⟩ := fit_get h ho.1
    obtain ⟨r', L', R', k1, k2, k3⟩ := req_ok g2 g3 c ho.2
    exact ⟨_, by simp only [Mem.step, g1, ok_bind, k1]; rfl, fit_set h i ⟨L', R', k2, k3⟩⟩
  | copy i =>
    obtain ⟨r, g1, L, R, g2, g3⟩ := fit_get h ho
    obtain ⟨d, k1, k2⟩ := copy_ok g2
    exact ⟨_, by simp only [Mem.step, Mem.made, g1, ok_bind, k1]; rfl, fit_add h ⟨_, R, k2, g3⟩⟩
  | and i j =>
    obtain ⟨r1, g1, L1, R1, g2, g3⟩ := fit_get h ho.1
    obtain ⟨r2, k1, L2, R2, k2, k3⟩ := fit_get h ho.2
    obtain ⟨r', L', R', e1, e2, e3⟩ := and_ok g2 k2 g3 k3
    exact ⟨_, by simp only [Mem.step, Mem.made, Mem.two, g1, k1, ok_bind, e1]; rfl, fit_add h ⟨L', R', e2, e3⟩⟩
  | or i j =>
    obtain ⟨r1, g1, L1, R1, g2, g3⟩ := fit_get h ho.1
    obtain ⟨r2, k1, L2, R2, k2, k3⟩ := fit_get h ho.2
    obtain ⟨r', L', R', e1, e2, e3⟩ := or_ok g2 k2 g3 k3
    exact ⟨_, by simp only [Mem.step, Mem.made, Mem.two, g1, k1, ok_bind, e1]; rfl, fit_add h ⟨L', R', e2, e3⟩⟩
  | xor i j =>
    obtain ⟨r1, g1, L1, R1, g2, g3⟩ := fit_get h ho.1
    obtain ⟨r2, k1, L2, R2, k2, k3⟩ := fit_get h ho.2
    obtain ⟨r', L', R', e1, e2, e3⟩ := xor_ok g2 k2 g3 k3
    exact ⟨_, by simp only [Mem.step, Mem.made, Mem.two, g1, k1, ok_bind, e1]; rfl, fit_add h ⟨L', R', e2, e3⟩⟩
  | andnot i j =>
    obtain ⟨r1, g1, L1, R1, g2, g3⟩ := fit_get h ho.1
    obtain ⟨r2, k1, L2, R2, k2, k3⟩ := fit_get h ho.2
    obtain ⟨r', L', R', e1, e2, e3⟩ := andnot_ok g2 k2 g3 k3
    exact ⟨_, by simp only [Mem.step, Mem.made, Mem.two, g1, k1, ok_bind, e1]; rfl, fit_add h ⟨L', R', e2, e3⟩⟩
  | andInplace E i j =>
    by_cases hij : i = j
    · subst hij
      exact ⟨p, by simp only [Mem.step, if_true]; rfl, fit_same h ho.1 fun x => by simp [Spec.inter]⟩
    · obtain ⟨r1, g1, L1, R1, g2, g3⟩ := fit_get h ho.1
      obtain ⟨r2, k1, L2, R2, k2, k3⟩ := fit_get h ho.2
      obtain ⟨r', R', e1, e2, e3⟩ := andInplace_ok E g2 k2 g3 k3
      exact ⟨_, by simp only [Mem.step, if_neg hij, Mem.changed, Mem.two, g1, k1, ok_bind, e1]; rfl, fit_set h i ⟨_, R', e2, e3⟩⟩
  | orInplace E i j =>
    by_cases hij : i = j
    · subst hij
      exact ⟨p, by simp only [Mem.step, if_true]; rfl, fit_same h ho.1 fun x => by simp [Spec.union]⟩
    · obtain ⟨r1, g1, L1, R1, g2, g3⟩ := fit_get h ho.1
      obtain ⟨r2, k1, L2, R2, k2, k3⟩ := fit_get h ho.2
      obtain ⟨r', R', e1, e2, e3⟩ := orInplace_ok E g2 k2 g3 k3
      exact ⟨_, by simp only [Mem.step, if_neg hij, Mem.changed, Mem.two, g1, k1, ok_bind, e1]; rfl, fit_set h i ⟨_, R', e2, e3⟩⟩
  | xorInplace E i j =>
    obtain ⟨r1, g1, L1, R1, g2, g3⟩ := fit_get h ho.1
    obtain ⟨r2, k1, L2, R2, k2, k3⟩ := fit_get h ho.2.1
    obtain ⟨r', R', e1, e2, e3⟩ := xorInplace_ok E g2 k2 g3 k3
    exact ⟨_, by simp only [Mem.step, Mem.changed, Mem.two, g1, k1, ok_bind, e1]; rfl, fit_set h i ⟨_, R', e2, e3⟩⟩
  | andnotInplace E i j =>
    obtain ⟨r1, g1, L1, R1, g2, g3⟩ := fit_get h ho.1
    obtain ⟨r2, k1, L2, R2, k2, k3⟩ := fit_get h ho.2.1
    obtain ⟨r', R', e1, e2, e3⟩ := andnotInplace_ok E g2 k2 g3 k3
    exact ⟨_, by simp only [Mem.step, Mem.changed, Mem.two, g1, k1, ok_bind, e1]; rfl, fit_set h i ⟨_, R', e2, e3⟩⟩
  | equals i j =>
    obtain ⟨r1, g1, L1, R1, g2, g3⟩ := fit_get h ho.1
    obtain ⟨r2, k1, L2, R2, k2, k3⟩ := fit_get h ho.2
    obtain ⟨b, e1, e2⟩ := equals_ok g2 k2 g3 k3
    refine ⟨p, ?_, h⟩
    simp only [Mem.step, Mem.asked, Mem.two, g1, k1, ok_bind, e1, Sets.step]
    exact congrArg (fun b => Out.ok (p, Ans.bool b)) (bool_of _ e2)
  | isSubset i j =>
    obtain ⟨r1, g1, L1, R1, g2, g3⟩ := fit_get h ho.1
    obtain ⟨r2, k1, L2, R2, k2, k3⟩ := fit_get h ho.2
    obtain ⟨b, e1, e2⟩ := isSubset_ok g2 k2 g3 k3
    refine ⟨p, ?_, h⟩
    simp only [Mem.step, Mem.asked, Mem.two, g1, k1, ok_bind, e1, Sets.step]
    exact congrArg (fun b => Out.ok (p, Ans.bool b)) (bool_of _ e2)
  | isStrictSubset i j =>
    obtain ⟨r1, g1, L1, R1, g2, g3⟩ := fit_get h ho.1
    obtain ⟨r2, k1, L2, R2, k2, k3⟩ := fit_get h ho.2.1
    obtain ⟨z, hz, hz'⟩ := ho.2.2
    have hc : Spec.card TOP64 (q.get j) < TOP64 := card_lacks (y := z) (by unfold TOP64; omega) hz'
    obtain ⟨b, e1, e2⟩ := isStrictSubset_ok g2 k2 g3 k3 hc
    refine ⟨p, ?_, h⟩
    simp only [Mem.step, Mem.asked, Mem.two, g1, k1, ok_bind, e1, Sets.step]
    exact congrArg (fun b => Out.ok (p, Ans.bool b)) (bool_of _ e2)
  | intersect i j =>
    obtain ⟨r1, g1, L1, R1, g2, g3⟩ := fit_get h ho.1
    obtain ⟨r2, k1, L2, R2, k2, k3⟩ := fit_get h ho.2
    obtain ⟨b, e1, e2⟩ := intersect_ok g2 k2 g3 k3
    refine ⟨p, ?_, h⟩
    simp only [Mem.step, Mem.asked, Mem.two, g1, k1, ok_bind, e1, Sets.step]
    exact congrArg (fun b => Out.ok (p, Ans.bool b)) (bool_of _ e2)
  | cardinality i =>
    obtain ⟨r, g1, L, R, g2, g3⟩ := fit_get h ho
    refine ⟨p, ?_, h⟩
    rw [Mem.step, Mem.asked, g1, ok_bind, cardinality_ok g2 g3, ok_bind, num64_eq]
    rfl
  | andCardinality i j =>
    obtain ⟨r1, g1, L1, R1, g2, g3⟩ := fit_get h ho.1
    obtain ⟨r2, k1, L2, R2, k2, k3⟩ := fit_get h ho.2
    refine ⟨p, ?_, h⟩
    rw [Mem.step, Mem.asked, Mem.two, g1, ok_bind, k1, ok_bind, andCardinality_ok g2 k2 g3 k3, ok_bind, num64_eq]
    rfl
  | orCardinality i j =>
    obtain ⟨r1, g1, L1, R1, g2, g3⟩ := fit_get h ho.1
    obtain ⟨r2, k1, L2, R2, k2, k3⟩ := fit_get h ho.2
    refine ⟨p, ?_, h⟩
    rw [Mem.step, Mem.asked, Mem.two, g1, ok_bind, k1, ok_bind, orCardinality_ok g2 k2 g3 k3, ok_bind, num64_eq]
    rfl
  | xorCardinality i j =>
    obtain ⟨r1, g1, L1, R1, g2, g3⟩ := fit_get h ho.1
    obtain ⟨r2, k1, L2, R2, k2, k3⟩ := fit_get h ho.2
    refine ⟨p, ?_, h⟩
    rw [Mem.step, Mem.asked, Mem.two, g1, ok_bind, k1, ok_bind, xorCardinality_ok g2 k2 g3 k3, ok_bind, num64_eq]
    rfl
  | andnotCardinality i j =>
    obtain ⟨r1, g1, L1, R1, g2, g3⟩ := fit_get h ho.1
    obtain ⟨r2, k1, L2, R2, k2, k3⟩ := fit_get h ho.2
    refine ⟨p, ?_, h⟩
    rw [Mem.step, Mem.asked, Mem.two, g1, ok_bind, k1, ok_bind, andnotCardinality_ok g2 k2 g3 k3, ok_bind, num64_eq]
    rfl
  | flip i min max =>
    obtain ⟨r, g1, L, R, g2, g3⟩ := fit_get h ho.1
    obtain ⟨r', L', R', e1, e2, e3⟩ := flip_ok g2 g3 (min := min) (hT ho.2)
    exact ⟨_, by simp only [Mem.step, Mem.made, Mem.one, g1, ok_bind, e1]; rfl, fit_add h ⟨L', R', e2, e3.congr (flipR_symm _ _ _)⟩⟩
  | flipClosed i min max =>
    obtain ⟨r, g1, L, R, g2, g3⟩ := fit_get h ho.1
    obtain ⟨r', L', R', e1, e2, e3⟩ := flipClosed_ok g2 g3 (min := min) (hT ho.2)
    exact ⟨_, by simp only [Mem.step, Mem.made, Mem.one, g1, ok_bind, e1]; rfl, fit_add h ⟨L', R', e2, e3.congr (flipR_symm _ _ _)⟩⟩
  | flipInplace E i min max =>
    obtain ⟨r, g1, L, R, g2, g3⟩ := fit_get h ho.1
    obtain ⟨r', e1, e2⟩ := flipInplace_ok E g2 g3 (min := min) (hT ho.2)
    exact ⟨_, by simp only [Mem.step, Mem.changed, Mem.one, g1, ok_bind, e1]; rfl,
      fit_set h i ⟨L, _, e2, (r64FlipInplace_spec g3 (hT ho.2)).congr (flipR_symm _ _ _)⟩⟩
  | flipClosedInplace E i min max =>
    obtain ⟨r, g1, L, R, g2, g3⟩ := fit_get h ho.1
    obtain ⟨r', e1, e2⟩ := flipClosedInplace_ok E g2 g3 (min := min) (hT ho.2)
    exact ⟨_, by simp only [Mem.step, Mem.changed, Mem.one, g1, ok_bind, e1]; rfl,
      fit_set h i ⟨L, _, e2, (r64FlipClosedInplace_spec g3 (hT ho.2)).congr (flipR_symm _ _ _)⟩⟩
  | clear i =>
    obtain ⟨r, g1, L, R, g2, g3⟩ := fit_get h ho
    obtain ⟨r', R', e1, e2, e3⟩ := clear_ok g2 g3
    exact ⟨_, by simp only [Mem.step, Mem.changed, Mem.one, g1, ok_bind, e1]; rfl, fit_set h i ⟨L, R', e2, e3⟩⟩
  | ofPtr vs =>
    obtain ⟨r', L', R', e1, e2, e3⟩ := ofPtr_ok (vs := vs) (fun v hv => hT (ho v hv))
    exact ⟨_, by simp only [Mem.step, Mem.made, ok_bind, e1]; rfl, fit_add h ⟨L', R', e2, e3⟩⟩
  | addMany i vs =>
    obtain ⟨r, g1, L, R, g2, g3⟩ := fit_get h ho.1
    obtain ⟨r', R', e1, e2, e3⟩ := addMany_ok g2 g3 (vs := vs) (fun v hv => hT (ho.2 v hv))
    exact ⟨_, by simp only [Mem.step, Mem.changed, Mem.one, g1, ok_bind, e1]; rfl, fit_set h i ⟨L, R', e2, e3⟩⟩
  | removeMany i vs =>
    obtain ⟨r, g1, L, R, g2, g3⟩ := fit_get h ho.1
    obtain ⟨r', R', e1, e2, e3⟩ := (removeMany_ok g2 g3 (vs := vs) (fun v hv => hT (ho.2.1 v hv))).1 ho.2.2
    exact ⟨_, by simp only [Mem.step, Mem.changed, Mem.one, g1, ok_bind, e1]; rfl, fit_set h i ⟨L, R', e2, e3⟩⟩
  | bulk i os =>
    obtain ⟨r, g1, L, R, g2, g3⟩ := fit_get h ho.1
    obtain ⟨r', R', e1, e2, e3⟩ := (bulk_run os (brel_zero g2 g3) (fun o hv => hT (ho.2.1 o hv))).1 ho.2.2
    exact ⟨_, by simp only [Mem.step, g1, ok_bind, e1]; rfl, fit_set h i ⟨L, R', e2, e3⟩⟩
  | fromRange min max step =>
    obtain ⟨a1, a2, a3, a4⟩ := ho
    obtain ⟨r', L', R', e1, e2, e3⟩ := (fromRange_ok (min := min) (hT a1) (hT a2)).2 a3 a4
    exact ⟨_, by simp only [Mem.step, Mem.made, ok_bind, e1]; rfl, fit_add h ⟨L', R', e2, e3⟩⟩
  | moveFrom32 b =>
    have hb := Valid.inv ho
    obtain ⟨r', L', e1, e2⟩ := moveFrom32_ok hb
    refine ⟨_, by simp only [Mem.step, Mem.made, ok_bind, e1]; rfl, fit_add h ⟨L', _, e2, ?_⟩⟩
    have := r64MoveFrom32_spec hb
    rwa [show bhas b = rbContains b from funext fun v => (rbContains_eq hb v).symm] at this
  | roundTrip i =>
    obtain ⟨r, g1, g2⟩ := fit_get h ho.1
    obtain ⟨r', e1, e2⟩ := roundTrip_ok g2 ho.2
    exact ⟨_, by simp only [Mem.step, Mem.made, Mem.one, g1, ok_bind, e1]; rfl, fit_add h e2⟩

theorem pool_run_ok : ∀ (os : List Op) {p : Mem} {q : Sets}, Fit Is64 p q → q.AllAllowed os → ∃ p', p.run os = .ok (p', (q.run os).2) ∧ Fit Is64 p' (q.run os).1
  | [], p, q, h, _ => ⟨p, rfl, h⟩
  | o :: os, p, q, h, ho => by
    obtain ⟨p1, h1, h2⟩ := pool_step_ok h o ho.1
    obtain ⟨p2, h3, h4⟩ := pool_run_ok os h2 ho.2
    exact ⟨p2, by simp only [Mem.run, h1, ok_bind, h3, Sets.run], h4⟩

/-- C121: any history of calls that make, change, combine, flip, clear, compare, count and free any number of 64-bit bitmaps runs without a use of memory that is not
allocated, or of another type than allocated, or through a pointer that has become invalid (other than the one read of a leaf that the code makes right after it
freed it), and frees all containers of a bitmap with it; the answers are those of sets; and afterwards each bitmap that is there has the set that it should
have, and owns each of its containers once.  This holds whichever of the container functions reuse their objects. -/
theorem C121_history (os : List Op) (ho : Sets.AllAllowed [] os) :
    ∃ p, Mem.run [] os = .ok (p, (Sets.run [] os).2) ∧ Fit Owned p (Sets.run [] os).1 := by
  have h0 : Fit Is64 [] [] := ⟨rfl, fun i => ⟨fun s hs => (by simp at hs), fun hs => (by simp at hs)⟩⟩
  obtain ⟨p, h1, h2⟩ := pool_run_ok os h0 ho
  exact ⟨p, h1, fit_imp h2 fun r s ⟨L, R, h3, h4⟩ => owned_of_sim h3 h4⟩

/-- What happens to objects: the first keys keep theirs, the others do not. -/
def c121keep : Reuse := fun k => (decide (keyNum k < 1000), 0)

/-- Two bitmaps with values in common and values of their own, in leaves of the same and of different nodes of the tree. -/
def c121ops : List Op :=
  [.create, .call 0 (.add 5), .call 0 (.add 70000), .call 0 (.add 1099511627776), .create, .call 1 (.add 5), .call 1 (.add 6), .call 1 (.add 70001), .call 1 (.add 4294967296),
   .and 0 1, .or 0 1, .copy 0, .xorInplace c121keep 4 1, .copy 0, .andnotInplace c121keep 5 1, .xor 0 1, .andnot 0 1, .isSubset 2 0, .isSubset 0 3, .isSubset 1 0,
   .equals 4 6, .equals 5 7, .equals 4 5, .intersect 0 1, .intersect 5 1, .cardinality 3, .andCardinality 0 1, .xorCardinality 0 1,
   .orInplace c121keep 0 1, .equals 0 3, .andInplace c121keep 0 1, .equals 0 1, .isStrictSubset 2 1, .free 1, .free 0, .cardinality 4]

example : Sets.AllAllowed [] c121ops := by
  simp [c121ops, Sets.AllAllowed, Sets.Allowed, Sets.step, Sets.Has, Req64.Ok]
  exact ⟨7, by decide, by simp [Sets.get, setReq, Spec.insert, Spec.empty]⟩

/-- An answer as a number. -/
def Ans.code : Ans → Nat
  | .nothing => 100
  | .bool b => if b then 1 else 0
  | .num n => 10 + n
  | .bools l => 1000 + (l.filter (· == some true)).length

/-- The answers from the first question on. -/
example : (do let x ← Mem.run [] c121ops
              Out.ok ((x.2.drop 17).map Ans.code)) = .ok [1, 1, 0, 1, 1, 0, 1, 0, 16, 11, 15, 100, 1, 100, 1, 1, 100, 100, 15] := by decide +kernel

/-- The arrays of containers of the bitmaps that are left. -/
example : (do let x ← Mem.run [] c121ops
              Out.ok (x.1.map (Option.map R64M.containers))) =
    .ok [none, none, some [some 0, none], some [some 0, some 1, some 2, some 3], some [some 0, some 1, some 2, some 3], some [none, some 1, some 2, none],
      some [some 0, some 1, some 2, some 3], some [some 1, some 2]] := by decide +kernel

/-- Which of their objects are allocated. -/
example : (do let x ← Mem.run [] c121ops
              Out.ok (x.1.map (Option.map fun (r : R64M) => r.mem.map Option.isSome))) =
    .ok [none, none, some [true, false], some [true, true, true, true], some [true, true, true, true], some [false, true, true], some [true, true, true, true],
      some [false, true, true]] := by decide +kernel

/-- Flips, bulk calls and the functions of many values. -/
def c121more : List Op :=
  [.ofPtr [5, 70000, 6, 1099511627776], .flipClosed 0 4 6, .flip 0 70000 70001, .flipClosedInplace c121keep 0 6 65537, .addMany 1 [70000, 9, 4],
   .removeMany 1 [9, 4, 70000], .bulk 2 [.add 7, .contains 7, .contains 6, .contains 70000, .remove 7, .contains 8, .remove 1099511627776, .contains 1099511627777],
   .cardinality 0, .cardinality 1, .cardinality 2, .flipInplace c121keep 1 4 5, .clear 2, .cardinality 1, .cardinality 2]

/-- The last call of the bulk calls has the upper 48 bits of a leaf that was just removed: the code reads a container that is not there. -/
example : (do let x ← Mem.run [] c121more
              Out.ok (x.2.map Ans.code)) = .oob := by decide +kernel

/-- Without that call. -/
def c121more2 : List Op := c121more.map fun
  | .bulk i os => .bulk i (os.take 7)
  | o => o


example : (do let x ← Mem.run [] c121more2
              Out.ok (x.2.map Ans.code)) = .ok [100, 100, 100, 100, 100, 100, 1002, 65544, 11, 12, 100, 100, 12, 10] := by decide +kernel

end CRoaring.Props
