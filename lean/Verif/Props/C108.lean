import Verif.Lemmas.Store64d
import Verif.Store64Spec
import Verif.Props.C107
/-
C108: the memory of a 64-bit bitmap.
-/
namespace CRoaring.Props
open CRoaring

theorem six_of_isKey {k : List Nat} (h : IsKey k) : SixBytes k := ⟨h.len, h.byte⟩

theorem hasLeaf_iff {r : R64M} {L F : ArtRef → Prop} {m : List Nat → Option Nat} {C : List Nat → Option Container} (h : St r L F m C) {k : List Nat} (hk : IsKey k)
    (leaf : Nat) : r.HasLeaf k leaf ↔ m k = some leaf := by
  rcases h.find hk with ⟨h1, h2, h3⟩ | ⟨p, l, a, c, h1, hA⟩
  · constructor
    · rintro ⟨p, e, _⟩; rw [h3] at e; cases e
    · intro e; rw [h1] at e; cases e
  · rw [hA.leaf]
    constructor
    · rintro ⟨q, e1, e2⟩
      rw [h1] at e1; cases e1
      rw [hA.load] at e2; cases e2; rfl
    · intro e; cases e; exact ⟨p, h1, hA.load⟩

theorem owned_of_sim {r : R64M} {L : ArtRef → Prop} {R : R64} {s : NSet} (h : Sim64 r L R) (hR : Rep64 R s) : Owned r s := by
  obtain ⟨F, m, h⟩ := h
  constructor
  · intro a c ha
    obtain ⟨i, hi⟩ := h.slots.kept a c ha
    exact ⟨i, hi, fun j hj => h.slots.one j i a hj hi⟩
  · intro i a hi
    obtain ⟨k, l, hk, hm, hl⟩ := h.slots.used i a hi
    refine ⟨k, l, six_of_isKey hk, (hasLeaf_iff h hk l).2 hm, hl, fun k' l' hk' hm' hl' => ?_⟩
    have hk' := isKey_of_six hk'
    rw [hasLeaf_iff h hk'] at hm'
    have e := h.slots.inj k' k l' l hk' hk hm' hm (hl'.trans hl.symm)
    subst e
    rw [hm] at hm'; cases hm'
    exact ⟨rfl, rfl⟩
  · intro k l hk hm
    have hk := isKey_of_six hk
    rw [hasLeaf_iff h hk] at hm
    obtain ⟨a, c, e1, e2, e3, e4⟩ := h.slots.found k l hk hm
    refine ⟨a, c, e1, e2, e3, fun v hv hvk => ?_, ?_⟩
    · have hc := hR.contains (v := v) (by unfold TOP64; omega)
      rw [← hc]
      simp only [r64Contains, hvk, e4]
    · rcases hR.at_key hk with ⟨c', f1, ⟨_, y, hy⟩, f3, -⟩ | ⟨f1, -⟩
      · rw [e4] at f1; cases f1
        have hy2 : y < 65536 := by
          have hs := f3 (keyNum k * 65536 + y % 65536) (by omega)
          rcases Nat.lt_or_ge y 65536 with hlt | hge
          · exact hlt
          · have hc := chas_lt ‹_› hy
            omega
        have hlt := key_lt hk
        unfold P48 at hlt
        refine ⟨keyNum k * 65536 + y, by omega, ?_, ?_⟩
        · refine key_inj (splitKey_isKey _) hk ?_
          rw [keyNum_split (by unfold TOP64; omega)]
          omega
        · rw [f3 _ (by omega), show (keyNum k * 65536 + y) % 65536 = y by omega]; exact hy
      · rw [e4] at f1; cases f1
  · intro v hv
    have hlt : v < TOP64 := by
      rcases Nat.lt_or_ge v TOP64 with h | h
      · exact h
      · rw [hR.zero h] at hv; cases hv
    refine ⟨by unfold TOP64 at hlt; omega, ?_⟩
    have hk := splitKey_isKey v
    cases e : m (splitKey v).1 with
    | some l => exact ⟨l, (hasLeaf_iff h hk l).2 e⟩
    | none =>
      exfalso
      rcases hR.at_key hk with ⟨c', f1, _⟩ | ⟨f1, f2, _⟩
      · rw [h.slots.absent _ hk e] at f1; cases f1
      · rw [f2 v (keyNum_split hlt).symm] at hv; cases hv
  · exact ⟨h.first.le, h.first.before, h.first.here⟩

theorem req_ok {r : R64M} {L : ArtRef → Prop} {R : R64} {s : NSet} (h : Sim64 r L R) (hR : Rep64 R s) (q : Req64) (hq : q.Ok) :
    ∃ r' L' R', r.req q = .ok (r', (setReq s q).2) ∧ Sim64 r' L' R' ∧ Rep64 R' (setReq s q).1 := by
  have T : TOP64 = 2 ^ 64 := rfl
  cases q with
  | add v =>
    obtain ⟨r', h1, h2⟩ := add_ok h hR.inv.1 v
    exact ⟨r', L, _, by simp only [R64M.req, h1, ok_bind, setReq], h2, r64Add_spec hR (by rw [T]; exact hq)⟩
  | addChecked v =>
    obtain ⟨r', h1, h2⟩ := addChecked_ok h hR.inv.1 v
    obtain ⟨g1, g2⟩ := r64AddChecked_spec hR (v := v) (by rw [T]; exact hq)
    exact ⟨r', L, _, by simp only [R64M.req, h1, ok_bind, setReq, g2], h2, by rw [g1]; exact r64Add_spec hR (by rw [T]; exact hq)⟩
  | remove v =>
    obtain ⟨r', h1, h2⟩ := remove_ok h hR.inv.1 v
    exact ⟨r', L, _, by simp only [R64M.req, h1, ok_bind, setReq], h2, r64Remove_spec hR (by rw [T]; exact hq)⟩
  | removeChecked v =>
    obtain ⟨r', h1, h2⟩ := removeChecked_ok h hR.inv.1 v
    obtain ⟨g1, g2⟩ := r64RemoveChecked_spec hR (v := v) (by rw [T]; exact hq)
    exact ⟨r', L, _, by simp only [R64M.req, h1, ok_bind, setReq, g2], h2, by rw [g1]; exact r64Remove_spec hR (by rw [T]; exact hq)⟩
  | contains v =>
    have h1 := contains_ok h v
    rw [hR.contains (by rw [T]; exact hq)] at h1
    exact ⟨r, L, R, by simp only [R64M.req, h1, ok_bind, setReq], h, hR⟩
  | addRange min max =>
    obtain ⟨r', h1, h2⟩ := addRangeClosed_ok h hR (min := min) (max := max) (by rw [T]; exact hq)
    exact ⟨r', L, _, by simp only [R64M.req, h1, ok_bind, setReq], h2, r64AddRangeClosed_spec hR (by rw [T]; exact hq)⟩
  | removeRange min max =>
    obtain ⟨r', R', h1, h2, h3⟩ := removeRangeClosed_ok h hR (min := min) (max := max) (by rw [T]; exact hq)
    exact ⟨r', L, _, by simp only [R64M.req, h1, ok_bind, setReq], h2, h3⟩
  | runOptimize =>
    obtain ⟨r', h1, h2⟩ := runOptimize_ok h hR
    exact ⟨r', L, _, by simp only [R64M.req, h1, ok_bind, setReq], h2, (r64RunOptimize_spec hR).1⟩
  | shrink =>
    obtain ⟨r', f, a, h1, h2, ⟨L', h3, _⟩, _⟩ := shrinkToFit_ok h
    exact ⟨r', L', R, by simp only [R64M.req, h1, ok_bind, setReq], h3, hR⟩

theorem reqs_ok : ∀ (qs : List Req64) {r : R64M} {L : ArtRef → Prop} {R : R64} {s : NSet}, Sim64 r L R → Rep64 R s → (∀ q ∈ qs, q.Ok) →
    ∃ r' L' R', r.reqs qs = .ok (r', (setReqs s qs).2) ∧ Sim64 r' L' R' ∧ Rep64 R' (setReqs s qs).1
  | [], r, L, R, s, h, hR, _ => ⟨r, L, R, rfl, h, hR⟩
  | q :: qs, r, L, R, s, h, hR, hq => by
    obtain ⟨r1, L1, R1, h1, h2, h3⟩ := req_ok h hR q (hq q (List.mem_cons_self ..))
    obtain ⟨r2, L2, R2, h4, h5, h6⟩ := reqs_ok qs h2 h3 (fun o ho => hq o (List.mem_cons_of_mem _ ho))
    exact ⟨r2, L2, R2, by simp only [R64M.reqs, h1, ok_bind, h4, setReqs], h5, h6⟩

theorem reached {qs : List Req64} (hq : ∀ q ∈ qs, q.Ok) {r : R64M} {outs : List (Option Bool)} (h : R64M.create.reqs qs = .ok (r, outs)) :
    ∃ L R, Sim64 r L R ∧ Rep64 R (setReqs Spec.empty qs).1 := by
  obtain ⟨r', L, R, h1, h2, h3⟩ := reqs_ok qs sim64_create rep64_empty hq
  rw [h] at h1
  cases h1
  exact ⟨L, R, h2, h3⟩

/-- C108: any history of calls on a new bitmap runs without a use of memory that is not allocated, or of another type than allocated, or through a
pointer that has become invalid; the answers are those of a set; and afterwards every allocated container is owned by one leaf. -/
theorem C108_history (qs : List Req64) (hq : ∀ q ∈ qs, q.Ok) :
    ∃ r, R64M.create.reqs qs = .ok (r, (setReqs Spec.empty qs).2) ∧ Owned r (setReqs Spec.empty qs).1 := by
  obtain ⟨r, L, R, h1, h2, h3⟩ := reqs_ok qs sim64_create rep64_empty hq
  exact ⟨r, h1, owned_of_sim h2 h3⟩

/-- C108: after any history, `roaring64_bitmap_free` frees every container that is still allocated, and none twice. -/
theorem C108_free (qs : List Req64) (hq : ∀ q ∈ qs, q.Ok) {r : R64M} {outs : List (Option Bool)} (h : R64M.create.reqs qs = .ok (r, outs)) :
    ∃ mem, r.free = .ok mem ∧ mem.length = r.mem.length ∧ ∀ x ∈ mem, x = none := by
  obtain ⟨L, R, h1, h2⟩ := reached hq h
  exact free_ok h1

/-- C108: after any history, `roaring64_bitmap_copy` makes a bitmap with the same values that owns its containers, and that may be used further. -/
theorem C108_copy (qs : List Req64) (hq : ∀ q ∈ qs, q.Ok) {r : R64M} {outs : List (Option Bool)} (h : R64M.create.reqs qs = .ok (r, outs)) (more : List Req64)
    (hm : ∀ q ∈ more, q.Ok) :
    ∃ d, r.copy = .ok d ∧ Owned d (setReqs Spec.empty qs).1 ∧
      ∃ e, d.reqs more = .ok (e, (setReqs (setReqs Spec.empty qs).1 more).2) ∧ Owned e (setReqs (setReqs Spec.empty qs).1 more).1 := by
  obtain ⟨L, R, h1, h2⟩ := reached hq h
  obtain ⟨d, g1, g2⟩ := copy_ok h1
  obtain ⟨e, L', R', g3, g4, g5⟩ := reqs_ok more g2 h2 hm
  exact ⟨d, g1, owned_of_sim g2 h2, e, g3, owned_of_sim g4 g5⟩

/-- C108: after `roaring64_bitmap_shrink_to_fit` no place of the array of containers is unused, the result is the number of bytes by which the arrays have
become smaller (the model leaves out what `container_shrink_to_fit` adds), and the containers are the same objects as before. -/
theorem C108_shrink (qs : List Req64) (hq : ∀ q ∈ qs, q.Ok) {r : R64M} {outs : List (Option Bool)} (h : R64M.create.reqs qs = .ok (r, outs)) :
    ∃ d freed, r.shrinkToFit = .ok (d, freed) ∧ Owned d (setReqs Spec.empty qs).1 ∧ d.mem = r.mem ∧
      (∀ i, i < d.containers.length → ∃ a, d.containers[i]? = some (some a)) ∧ r.bytes = d.bytes + freed := by
  obtain ⟨L, R, h1, h2⟩ := reached hq h
  obtain ⟨d, f, a, g1, g2, ⟨L', g3, _⟩, g4, g5, g6, g7⟩ := shrinkToFit_ok h1
  refine ⟨d, _, g1, owned_of_sim g3 h2, g6, g5, ?_⟩
  unfold R64M.bytes
  rw [← total_bytes, ← total_bytes, g7]
  omega

/-- Values in three leaves; one of them is emptied, and its place in the array of containers used again; then the array is shrunk. -/
def c108calls : List Req64 :=
  [.add 5, .add 70000, .addChecked 5, .add 1099511627776, .removeChecked 70000, .contains 70000, .addChecked 4294967296, .remove 5, .shrink, .contains 4294967296]

example : ∀ q ∈ c108calls, q.Ok := by simp [c108calls, Req64.Ok]

/-- The state at the end: two places, two objects of the four that were made, a full array. -/
example : (do let x ← R64M.create.reqs c108calls
              Out.ok (x.1.containers, x.1.first, x.1.mem.map Option.isSome, x.2)) =
    .ok ([some 3, some 2], 2, [false, false, true, true],
      [none, none, some false, none, some true, some false, some true, none, none, some true]) := by decide +kernel

/-- The bytes that `roaring64_bitmap_shrink_to_fit` reports in this state are 0; before the last shrinking they were not. -/
example : (do let x ← R64M.create.reqs (c108calls.take 8)
              let y ← x.1.shrinkToFit
              let z ← y.1.shrinkToFit
              Out.ok (x.1.containers, y.1.containers, x.1.bytes, y.1.bytes, y.2, z.2)) =
    .ok ([none, some 3, some 2, none], [some 3, some 2], 192, 96, 96, 0) := by decide +kernel

/-- Freed twice would be an error: the model has that outcome. -/
example : (do let x ← R64M.create.reqs [.add 5]
              let y ← x.1.freeContainer 0 2
              let z ← y.freeContainer 0 2
              Out.ok z.first) = .oob := by decide +kernel

end CRoaring.Props
