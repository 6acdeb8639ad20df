import Verif.Lemmas.BitmapMem9
set_option linter.unusedSimpArgs false
set_option linter.unusedVariables false

/-! Unions and symmetric differences of many bitmaps in memory. -/

namespace CRoaring
open Spec

variable {E : RbEnv}

/-! ### Two temporary bitmaps -/

theorem raMoveLoop_spec {sa : RaBuf} (B : Bitmap) : ∀ {A C acc : Bitmap} {b : RaBuf}, RHolds sa (A ++ (B ++ C)) → RHolds b acc →
    acc.length + B.length ≤ b.mem.length → RGives (raMoveLoop sa B.length A.length b) (acc ++ B) := by
  induction B with
  | nil => intro A C acc b hs h hl; exact ⟨b, rfl, by simpa using h⟩
  | cons p t ih =>
    intro A C acc b hs h hl
    obtain ⟨_, h2⟩ := cellsAt_append.1 hs.cells
    rw [List.cons_append] at h2
    obtain ⟨⟨c, h3, h4⟩, _⟩ := cellsAt_cons.1 h2
    rw [Nat.zero_add] at h3
    rw [List.length_cons] at hl
    have hz := h.size
    rw [List.length_cons, raMoveLoop, cellAt_eq h3, ok_bind, setCell_eq (by omega), ok_bind]
    have := ih (A := A ++ [p]) (C := C) (acc := acc ++ [p]) (b := ⟨b.size + 1, b.mem.set b.size (p.1, c)⟩) (by simpa using hs) ?_ (by simp; omega)
    · simpa using this
    · refine ⟨by simp [hz], by simp; omega, cellsAt_append.2 ⟨h.cells.set_ne (by omega) _, ?_⟩⟩
      rw [hz, Nat.zero_add]
      exact CellsAt.set_here (by omega) (cellsAt_nil _ _) h4 rfl

/-- The rest of `sa` from `i` on. -/
theorem moveRest (hE : RbEnvOK E) {sa b : RaBuf} {A B acc : Bitmap} (hs : RHolds sa (A ++ B)) (h : RHolds b acc)
    (hl : (acc ++ B).length ≤ 65536) {i : Nat} (hi : i = A.length) :
    RGives (raAppendMoveRangeBuf E b sa i sa.size) (acc ++ B) := by
  subst hi
  rw [List.length_append] at hl
  obtain ⟨b1, e1, h1, h2⟩ := h.extend hE (k := B.length) hl
  rw [raAppendMoveRangeBuf, hs.size, List.length_append, show A.length + B.length - A.length = B.length by omega, e1, ok_bind]
  exact raMoveLoop_spec B (C := []) (by simpa using hs) h1 h2

theorem cLazyLazyBuf_spec (hE : RbEnvOK E) {o1 o2 : CBuf} {c1 c2 : Container} (h1 : CHolds o1 c1) (h2 : CHolds o2 c2) (n1 : LNe c1) (n2 : LNe c2) :
    Gives (cLazyLazyBuf E o1 o2) (chooseLazyLazy o1.capacity o2.capacity c1 c2) := by
  rw [cLazyLazyBuf, chooseLazyLazy, h1.isBitset, h2.isBitset]
  split
  · exact cLazyIorBuf_spec hE.m h2 h1 n2.1 n1.1 n2.run n1.run
  · exact cLazyIorBuf_spec hE.m h1 h2 n1.1 n2.1 n1.run n2.run

theorem lt_snoc {acc : Bitmap} {p : Nat × Container} {t : Bitmap} (h : ∀ p ∈ acc, ∀ q ∈ t, p.1 < q.1) (hp : ∀ q ∈ t, p.1 < q.1) :
    ∀ p' ∈ acc ++ [p], ∀ q ∈ t, p'.1 < q.1 := by
  intro p' hp' q hq
  rcases List.mem_append.1 hp' with hp' | hp'
  · exact h p' hp' q hq
  · rw [List.mem_singleton.1 hp']
    exact hp q hq

theorem lt_tail {acc : Bitmap} {p : Nat × Container} {t : Bitmap} (h : ∀ p' ∈ acc, ∀ q ∈ p :: t, p'.1 < q.1) : ∀ p' ∈ acc, ∀ q ∈ t, p'.1 < q.1 :=
  fun p' hp q hq => h p' hp q (List.mem_cons_of_mem _ hq)

theorem bk_snoc {acc : Bitmap} {k : Nat} (hk : k < 65536) (c : Container) (h : BK acc) (hl : ∀ p ∈ acc, p.1 < k) : BK (acc ++ [(k, c)]) :=
  bp_append.2 ⟨h, ⟨hk, trivial, by simp, trivial⟩, fun p hp q hq => by rw [List.mem_singleton.1 hq]; exact hl p hp⟩

theorem bk_snoc_len {acc : Bitmap} {k : Nat} {c : Container} (h : BK (acc ++ [(k, c)])) : acc.length < 65536 := by
  have := h.length_le
  rw [List.length_append, List.length_singleton] at this
  omega

theorem rbLazyLazyLoopBuf_spec (hE : RbEnvOK E) {x1 x2 : RaBuf} (fuel : Nat) : ∀ {A1 t1 A2 t2 acc : Bitmap} {s1 s2 : Nat} {c1 c2 : Container} {ans : RaBuf},
    RHolds x1 (A1 ++ (s1, c1) :: t1) → LBInv (A1 ++ (s1, c1) :: t1) → RHolds x2 (A2 ++ (s2, c2) :: t2) → LBInv (A2 ++ (s2, c2) :: t2) →
    RHolds ans acc → BK acc → (∀ p ∈ acc, ∀ q ∈ (s1, c1) :: t1, p.1 < q.1) → (∀ p ∈ acc, ∀ q ∈ (s2, c2) :: t2, p.1 < q.1) →
    t1.length + t2.length < fuel →
    ∃ caps1 caps2 : Nat → Nat, RGives (rbLazyLazyLoopBuf E x1 x2 fuel A1.length A2.length s1 s2 ans)
      (acc ++ merge (fun k c1 c2 => some (chooseLazyLazy (caps1 k) (caps2 k) c1 c2)) true true ((s1, c1) :: t1) ((s2, c2) :: t2)) := by
  induction fuel with
  | zero => intros; omega
  | succ fuel ih =>
    intro A1 t1 A2 t2 acc s1 s2 c1 c2 ans h1 i1 h2 i2 ha hk k1 k2 hf
    have b1 := (bp_append.1 i1).2.1
    have b2 := (bp_append.1 i2).2.1
    have lc1 := bp_split_lt i1
    have lc2 := bp_split_lt i2
    have hm1 := fun p hp => k1 p hp (s1, c1) (by simp)
    have hm2 := fun p hp => k2 p hp (s2, c2) (by simp)
    rw [rbLazyLazyLoopBuf]
    split
    · rename_i hs
      subst hs
      obtain ⟨o1, e1, g1⟩ := h1.cont lc1
      obtain ⟨o2, e2, g2⟩ := h2.cont lc2
      obtain ⟨o, e, g⟩ := cLazyLazyBuf_spec hE g1 g2 b1.2.1 b2.2.1
      have hk3 := bk_snoc b1.1 (chooseLazyLazy o1.capacity o2.capacity c1 c2) hk hm1
      obtain ⟨a', e3, h3⟩ := ha.append hE (k := s1) (bk_snoc_len hk3) g
      have k3 := lt_snoc (p := (s1, chooseLazyLazy o1.capacity o2.capacity c1 c2)) (lt_tail k1) b1.2.2.1
      have k4 := lt_snoc (p := (s1, chooseLazyLazy o1.capacity o2.capacity c1 c2)) (lt_tail k2) b2.2.2.1
      rw [e1, ok_bind, e2, ok_bind, e, ok_bind, e3, ok_bind]
      simp only [tail_eq h1, tail_eq h2]
      cases t1 with
      | nil =>
        refine ⟨fun _ => o1.capacity, fun _ => o2.capacity, ?_⟩
        rw [if_pos rfl, merge_same, ← List.append_assoc, merge_end1, keep_true]
        exact moveRest hE h2.next h3 (bk_len hk3 b2.2.2.2.bk k4) (next_length _ _)
      | cons q1 u1 =>
      rw [if_neg (by simp)]
      cases t2 with
      | nil =>
        refine ⟨fun _ => o1.capacity, fun _ => o2.capacity, ?_⟩
        rw [if_pos rfl, merge_same, ← List.append_assoc, merge_end2, keep_true]
        exact moveRest hE h1.next h3 (bk_len hk3 b1.2.2.2.bk k3) (next_length _ _)
      | cons q2 u2 =>
      rw [if_neg (by simp), next_length, next_length A2, h1.next.key (bp_split_lt i1.next), ok_bind, h2.next.key (bp_split_lt i2.next), ok_bind]
      simp only [List.length_cons] at hf
      obtain ⟨caps1, caps2, h⟩ := ih h1.next i1.next h2.next i2.next h3 hk3 k3 k4 (by omega)
      refine ⟨fun k => if k = s1 then o1.capacity else caps1 k, fun k => if k = s1 then o2.capacity else caps2 k, ?_⟩
      rw [merge_same, ← List.append_assoc]
      simp only [if_true]
      rw [merge_congr (g := fun k c1 c2 => some (chooseLazyLazy (caps1 k) (caps2 k) c1 c2))]
      · exact h
      · intro p hp c1 c2
        have := b1.2.2.1 p hp
        rw [if_neg (by omega), if_neg (by omega)]
    · rename_i hs
      split
      · rename_i hlt
        obtain ⟨o1, e1, g1⟩ := h1.cont lc1
        have hk3 := bk_snoc b1.1 c1 hk hm1
        obtain ⟨a', e3, h3⟩ := ha.append hE (k := s1) (bk_snoc_len hk3) g1
        have k3 := lt_snoc (p := (s1, c1)) (lt_tail k1) b1.2.2.1
        have k4 := lt_snoc (p := (s1, c1)) k2 (fun q hq => by
          rcases List.mem_cons.1 hq with rfl | hq
          · exact hlt
          · have := b2.2.2.1 q hq
            simp only
            omega)
        rw [e1, ok_bind, e3, ok_bind]
        simp only [tail_eq h1]
        cases t1 with
        | nil =>
          refine ⟨fun _ => 0, fun _ => 0, ?_⟩
          rw [if_pos rfl, merge_lt hlt, ← List.append_assoc, keep_true, merge_end1, keep_true]
          exact moveRest hE h2 h3 (bk_len hk3 b2.bk k4) rfl
        | cons q1 u1 =>
        rw [if_neg (by simp), next_length, h1.next.key (bp_split_lt i1.next), ok_bind]
        simp only [List.length_cons] at hf
        obtain ⟨caps1, caps2, h⟩ := ih h1.next i1.next h2 i2 h3 hk3 k3 k4 (by omega)
        refine ⟨caps1, caps2, ?_⟩
        rw [merge_lt hlt, ← List.append_assoc, keep_true]
        exact h
      · rename_i hlt
        obtain ⟨o1, e1, g1⟩ := h2.cont lc2
        have hk3 := bk_snoc b2.1 c2 hk hm2
        obtain ⟨a', e3, h3⟩ := ha.append hE (k := s2) (bk_snoc_len hk3) g1
        have k4 := lt_snoc (p := (s2, c2)) (lt_tail k2) b2.2.2.1
        have k3 := lt_snoc (p := (s2, c2)) k1 (fun q hq => by
          rcases List.mem_cons.1 hq with rfl | hq
          · simp only; omega
          · have := b1.2.2.1 q hq
            simp only
            omega)
        rw [e1, ok_bind, e3, ok_bind]
        simp only [tail_eq h2]
        cases t2 with
        | nil =>
          refine ⟨fun _ => 0, fun _ => 0, ?_⟩
          rw [if_pos rfl, merge_more (by omega), ← List.append_assoc, keep_true, merge_end2, keep_true]
          exact moveRest hE h1 h3 (bk_len hk3 b1.bk k3) rfl
        | cons q2 u2 =>
        rw [if_neg (by simp), next_length A2, h2.next.key (bp_split_lt i2.next), ok_bind]
        simp only [List.length_cons] at hf
        obtain ⟨caps1, caps2, h⟩ := ih h1 i1 h2.next i2.next h3 hk3 k3 k4 (by omega)
        refine ⟨caps1, caps2, ?_⟩
        rw [merge_more (by omega), ← List.append_assoc, keep_true]
        exact h

theorem lazyOrFromLazyInputsBuf_spec (hE : RbEnvOK E) {x1 x2 : RaBuf} {r1 r2 : Bitmap} (h1 : RHolds x1 r1) (i1 : LBInv r1) (h2 : RHolds x2 r2) (i2 : LBInv r2) :
    ∃ caps1 caps2, RGives (lazyOrFromLazyInputsBuf E x1 x2) (lazyOrFromLazyInputs caps1 caps2 r1 r2) := by
  rw [lazyOrFromLazyInputsBuf, h1.size, h2.size]
  simp only [lazyOrFromLazyInputs]
  split
  · exact ⟨fun _ => 0, fun _ => 0, x2, rfl, h2⟩
  · rename_i n1
    split
    · exact ⟨fun _ => 0, fun _ => 0, x1, rfl, h1⟩
    · rename_i n2
      cases r1 with
      | nil => simp at n1
      | cons p1 t1 =>
      cases r2 with
      | nil => simp at n2
      | cons p2 t2 =>
      rw [rquery_head h1, ok_bind, rquery_head h2, ok_bind]
      obtain ⟨caps1, caps2, h⟩ := rbLazyLazyLoopBuf_spec hE ((p1 :: t1).length + (p2 :: t2).length) (A1 := []) (A2 := []) (acc := []) h1 i1 h2 i2
        (raInitBuf_spec hE (Nat.min (p1 :: t1).length (p2 :: t2).length)).1 trivial (by simp) (by simp) (by simp; omega)
      refine ⟨caps1, caps2, ?_⟩
      rw [rbLazyLazyLoop_eq]
      exact h

/-! ### Lazy bitmaps and their sets -/

/-- The bitmap in memory is a lazy one and holds the set `s`. -/
def LSet (b : RaBuf) (s : NSet) : Prop := ∃ r, RHolds b r ∧ LBInv r ∧ bhas r = s

/-- The bitmap in memory is well formed and holds the set `s`. -/
def EagerSet (b : RaBuf) (s : NSet) : Prop := ∃ r, RHolds b r ∧ BInv r ∧ bhas r = s

theorem EagerSet.lazy {b : RaBuf} {s : NSet} (h : EagerSet b s) : LSet b s := by
  obtain ⟨r, h1, h2, h3⟩ := h
  exact ⟨r, h1, h2.lazy, h3⟩

theorem lset_of {x : Out RaBuf} {r : Bitmap} {s : NSet} (h : RGives x r) (hr : LBInv r ∧ ∀ v, bhas r v = s v) : ∃ b, x = .ok b ∧ LSet b s := by
  obtain ⟨b, e, h⟩ := h
  exact ⟨b, e, r, h, hr.1, funext hr.2⟩

theorem lset_or (hE : RbEnvOK E) (conv : Bool) {x1 x2 : RaBuf} {s t : NSet} (h1 : LSet x1 s) (h2 : LSet x2 t) :
    ∃ b, rbLazyOrBuf E conv x1 x2 = .ok b ∧ LSet b (Spec.union s t) := by
  obtain ⟨r1, a1, b1, rfl⟩ := h1
  obtain ⟨r2, a2, b2, rfl⟩ := h2
  exact lset_of (rbLazyOrBuf_spec hE conv a1 b1 a2 b2) (rbLazyOr_spec conv b1 b2)

theorem lset_ior (hE : RbEnvOK E) (conv : Bool) {x1 x2 : RaBuf} {s t : NSet} (h1 : LSet x1 s) (h2 : LSet x2 t) :
    ∃ b, rbLazyOrInplaceBuf E conv x1 x2 = .ok b ∧ LSet b (Spec.union s t) := by
  obtain ⟨r1, a1, b1, rfl⟩ := h1
  obtain ⟨r2, a2, b2, rfl⟩ := h2
  obtain ⟨caps, h⟩ := rbLazyOrInplaceBuf_spec hE conv a1 b1 a2 b2
  exact lset_of h (rbLazyOrInplace_spec conv caps b1 b2)

theorem lset_lazy (hE : RbEnvOK E) {x1 x2 : RaBuf} {s t : NSet} (h1 : LSet x1 s) (h2 : LSet x2 t) :
    ∃ b, lazyOrFromLazyInputsBuf E x1 x2 = .ok b ∧ LSet b (Spec.union s t) := by
  obtain ⟨r1, a1, b1, rfl⟩ := h1
  obtain ⟨r2, a2, b2, rfl⟩ := h2
  obtain ⟨caps1, caps2, h⟩ := lazyOrFromLazyInputsBuf_spec hE a1 b1 a2 b2
  exact lset_of h (lazyOrFromLazyInputs_spec caps1 caps2 b1 b2)

theorem lset_xor (hE : RbEnvOK E) {x1 x2 : RaBuf} {s t : NSet} (h1 : LSet x1 s) (h2 : LSet x2 t) :
    ∃ b, rbLazyXorBuf E x1 x2 = .ok b ∧ LSet b (Spec.symm s t) := by
  obtain ⟨r1, a1, b1, rfl⟩ := h1
  obtain ⟨r2, a2, b2, rfl⟩ := h2
  exact lset_of (rbLazyXorBuf_spec hE a1 b1 a2 b2) (rbLazyXor_spec b1 b2)

theorem lset_ixor (hE : RbEnvOK E) {x1 x2 : RaBuf} {s t : NSet} (h1 : LSet x1 s) (h2 : EagerSet x2 t) :
    ∃ b, rbLazyXorInplaceBuf E x1 x2 = .ok b ∧ LSet b (Spec.symm s t) := by
  obtain ⟨r1, a1, b1, rfl⟩ := h1
  obtain ⟨r2, a2, b2, rfl⟩ := h2
  exact lset_of (rbLazyXorInplaceBuf_spec hE a1 b1 a2 b2) (rbLazyXorInplace_spec _ b1 b2)

theorem lset_repair (hE : RbEnvOK E) {x : RaBuf} {s : NSet} (h : LSet x s) : ∃ b, rbRepairBuf E x = .ok b ∧ EagerSet b s := by
  obtain ⟨r, a, b, rfl⟩ := h
  obtain ⟨b', e, h⟩ := rbRepairBuf_spec hE a b
  exact ⟨b', e, _, h, (rbRepair_spec b).1, funext (rbRepair_spec b).2⟩

theorem bset_copy (hE : RbEnvOK E) {x : RaBuf} {s : NSet} (h : EagerSet x s) : ∃ b, rbCopyBuf E x = .ok b ∧ EagerSet b s := by
  obtain ⟨r, a, b, rfl⟩ := h
  obtain ⟨b', e, h⟩ := rbCopyBuf_spec hE a
  exact ⟨b', e, _, h, b, rfl⟩

theorem bset_create (hE : RbEnvOK E) (n : Nat) : EagerSet (rbCreateBuf E n) Spec.empty :=
  ⟨[], (raInitBuf_spec hE n).1, trivial, funext fun x => by simp [bhas_nil, Spec.empty]⟩

/-! ### Many bitmaps -/

/-- The bitmaps hold the sets. -/
abbrev EagerSets (xs : List RaBuf) (l : List NSet) : Prop := List.Forall₂ EagerSet xs l

/-- The union of a list of sets. -/
def unionL : List NSet → NSet
  | [] => Spec.empty
  | s :: l => Spec.union s (unionL l)

/-- The symmetric difference of a list of sets. -/
def symmL : List NSet → NSet
  | [] => Spec.empty
  | s :: l => Spec.symm s (symmL l)

theorem union_assoc (s t u : NSet) : Spec.union (Spec.union s t) u = Spec.union s (Spec.union t u) := by
  funext v; simp [Spec.union, Bool.or_assoc]

theorem union_comm (s t : NSet) : Spec.union s t = Spec.union t s := by
  funext v; simp [Spec.union, Bool.or_comm]

theorem union_empty (s : NSet) : Spec.union s Spec.empty = s := by
  funext v; simp [Spec.union, Spec.empty]

theorem symm_assoc (s t u : NSet) : Spec.symm (Spec.symm s t) u = Spec.symm s (Spec.symm t u) := by
  funext v; simp only [Spec.symm]; cases s v <;> cases t v <;> cases u v <;> rfl

theorem symm_empty (s : NSet) : Spec.symm s Spec.empty = s := by
  funext v; simp [Spec.symm, Spec.empty]

theorem rbOrManyLoopBuf_spec (hE : RbEnvOK E) {xs : List RaBuf} {l : List NSet} (h : EagerSets xs l) : ∀ {a : RaBuf} {s : NSet}, LSet a s →
    ∃ b, rbOrManyLoopBuf E a xs = .ok b ∧ LSet b (Spec.union s (unionL l)) := by
  induction h with
  | nil => intro a s ha; exact ⟨a, rfl, by rw [unionL, union_empty]; exact ha⟩
  | cons h1 h2 ih =>
    intro a s ha
    obtain ⟨b, e, hb⟩ := lset_ior hE true ha h1.lazy
    obtain ⟨b', e', hb'⟩ := ih hb
    rw [rbOrManyLoopBuf, e, ok_bind]
    exact ⟨b', e', by rw [unionL, ← union_assoc]; exact hb'⟩

theorem rbOrManyBuf_spec (hE : RbEnvOK E) {xs : List RaBuf} {l : List NSet} (h : EagerSets xs l) : ∃ b, rbOrManyBuf E xs = .ok b ∧ EagerSet b (unionL l) := by
  match h with
  | .nil => exact ⟨_, rfl, bset_create hE 0⟩
  | .cons h1 .nil =>
    rw [rbOrManyBuf]
    obtain ⟨b, e, hb⟩ := bset_copy hE h1
    exact ⟨b, e, by rw [unionL, unionL, union_empty]; exact hb⟩
  | .cons h1 (.cons h2 h3) =>
    obtain ⟨b, e, hb⟩ := lset_or hE true h1.lazy h2.lazy
    obtain ⟨b', e', hb'⟩ := rbOrManyLoopBuf_spec hE h3 hb
    rw [rbOrManyBuf, e, ok_bind, e', ok_bind]
    rw [unionL, unionL, ← union_assoc]
    exact lset_repair hE hb'

theorem rbXorManyLoopBuf_spec (hE : RbEnvOK E) {xs : List RaBuf} {l : List NSet} (h : EagerSets xs l) : ∀ {a : RaBuf} {s : NSet}, LSet a s →
    ∃ b, rbXorManyLoopBuf E a xs = .ok b ∧ LSet b (Spec.symm s (symmL l)) := by
  induction h with
  | nil => intro a s ha; exact ⟨a, rfl, by rw [symmL, symm_empty]; exact ha⟩
  | cons h1 h2 ih =>
    intro a s ha
    obtain ⟨b, e, hb⟩ := lset_ixor hE ha h1
    obtain ⟨b', e', hb'⟩ := ih hb
    rw [rbXorManyLoopBuf, e, ok_bind]
    exact ⟨b', e', by rw [symmL, ← symm_assoc]; exact hb'⟩

theorem rbXorManyBuf_spec (hE : RbEnvOK E) {xs : List RaBuf} {l : List NSet} (h : EagerSets xs l) : ∃ b, rbXorManyBuf E xs = .ok b ∧ EagerSet b (symmL l) := by
  match h with
  | .nil => exact ⟨_, rfl, bset_create hE 0⟩
  | .cons h1 .nil =>
    rw [rbXorManyBuf]
    obtain ⟨b, e, hb⟩ := bset_copy hE h1
    exact ⟨b, e, by rw [symmL, symmL, symm_empty]; exact hb⟩
  | .cons h1 (.cons h2 h3) =>
    obtain ⟨b, e, hb⟩ := lset_xor hE h1.lazy h2.lazy
    obtain ⟨b', e', hb'⟩ := rbXorManyLoopBuf_spec hE h3 hb
    rw [rbXorManyBuf, e, ok_bind, e', ok_bind]
    rw [symmL, symmL, ← symm_assoc]
    exact lset_repair hE hb'

/-! ### The queue -/

theorem raLoadLoop_spec (B : Bitmap) : ∀ {A : Bitmap} {b : RaBuf}, RHolds b (A ++ B) → raLoadLoop b.mem B.length A.length = .ok B := by
  induction B with
  | nil => intro A b h; rfl
  | cons p t ih =>
    intro A b h
    obtain ⟨⟨o, h3, h4⟩, _⟩ := cellsAt_cons.1 (cellsAt_append.1 h.cells).2
    rw [Nat.zero_add] at h3
    have := ih (A := A ++ [p]) (by simpa using h)
    rw [List.length_append, List.length_singleton] at this
    rw [List.length_cons, raLoadLoop, cellAt_eq h3, ok_bind, CHolds.load h4, ok_bind, this, ok_bind]

theorem rbPortableSizeBuf_spec {b : RaBuf} {r : Bitmap} (h : RHolds b r) : rbPortableSizeBuf b = .ok (rbPortableSize r) := by
  have e : raLoadLoop b.mem r.length 0 = .ok r := raLoadLoop_spec r (A := []) (by simpa using h)
  rw [rbPortableSizeBuf, h.size, e, ok_bind]

theorem LSet.size {b : RaBuf} {s : NSet} (h : LSet b s) : ∃ n, rbPortableSizeBuf b = .ok n := by
  obtain ⟨r, h, _⟩ := h
  exact ⟨_, rbPortableSizeBuf_spec h⟩

/-- The queue holds lazy bitmaps whose union is `s`. -/
def QSet (pq : PQOf RaBuf) (s : NSet) : Prop := ∃ l, List.Forall₂ (fun (e : PQElemOf RaBuf) t => LSet e.bitmap t) pq l ∧ unionL l = s

theorem unionL_perm {l l' : List NSet} (h : l.Perm l') : unionL l = unionL l' := by
  induction h with
  | nil => rfl
  | cons x _ ih => rw [unionL, unionL, ih]
  | swap x y l => rw [unionL, unionL, unionL, unionL, ← union_assoc, union_comm y x, union_assoc]
  | trans _ _ h1 h2 => exact h1.trans h2

theorem QSet.perm {a b : PQOf RaBuf} {s : NSet} (h : QSet a s) (hp : b.Perm a) : QSet b s := by
  obtain ⟨l, h1, rfl⟩ := h
  obtain ⟨l', h2, h3⟩ := List.perm_comp_forall₂ hp h1
  exact ⟨l', h2, unionL_perm h3⟩

theorem qset_cons {e : PQElemOf RaBuf} {pq : PQOf RaBuf} {s : NSet} (h : QSet (e :: pq) s) :
    ∃ t u, LSet e.bitmap t ∧ QSet pq u ∧ s = Spec.union t u := by
  obtain ⟨l, h1, rfl⟩ := h
  cases h1 with
  | cons a b => exact ⟨_, _, a, ⟨_, b, rfl⟩, rfl⟩

theorem QSet.cons {e : PQElemOf RaBuf} {pq : PQOf RaBuf} {t u : NSet} (h1 : LSet e.bitmap t) (h2 : QSet pq u) : QSet (e :: pq) (Spec.union t u) := by
  obtain ⟨l, h2, rfl⟩ := h2
  exact ⟨t :: l, .cons h1 h2, rfl⟩

theorem pqUnionBuf_spec (hE : RbEnvOK E) {x1 x2 : PQElemOf RaBuf} {s t : NSet} (h1 : LSet x1.bitmap s) (h2 : LSet x2.bitmap t) :
    ∃ b, pqUnionBuf E x1 x2 = .ok b ∧ LSet b (Spec.union s t) := by
  rw [pqUnionBuf]
  split
  · exact lset_lazy hE h1 h2
  split
  · rw [union_comm]; exact lset_ior hE false h2 h1
  split
  · exact lset_ior hE false h1 h2
  · exact lset_or hE false h1 h2

theorem pqLoopBuf_spec (hE : RbEnvOK E) (n : Nat) : ∀ {pq : PQOf RaBuf} {s : NSet}, 0 < pq.length → pq.length ≤ n + 1 → QSet pq s →
    ∃ e, pqLoopBuf E n pq = .ok [e] ∧ LSet e.bitmap s := by
  have done : ∀ {pq : PQOf RaBuf} {s : NSet}, pq.length = 1 → QSet pq s → ∃ e, pq = [e] ∧ LSet e.bitmap s := by
    intro pq s hl h
    obtain ⟨e, rfl⟩ := List.length_eq_one_iff.1 hl
    obtain ⟨l, h1, rfl⟩ := h
    cases h1 with
    | cons a b =>
      cases b
      exact ⟨e, rfl, by rw [unionL, unionL, union_empty]; exact a⟩
  induction n with
  | zero =>
    intro pq s h0 h1 h
    obtain ⟨e, rfl, he⟩ := done (by omega) h
    exact ⟨e, rfl, he⟩
  | succ n ih =>
    intro pq s h0 hn h
    rw [pqLoopBuf]
    split
    · have p1 := pqPoll_perm pq h0
      generalize pqPoll pq = r1 at p1 ⊢
      obtain ⟨x1, pq1⟩ := r1
      simp only at p1 ⊢
      have l1 := p1.length_eq
      simp only [List.length_cons] at l1
      have p2 := pqPoll_perm pq1 (by omega)
      generalize pqPoll pq1 = r2 at p2 ⊢
      obtain ⟨x2, pq2⟩ := r2
      simp only at p2 ⊢
      have l2 := p2.length_eq
      simp only [List.length_cons] at l2
      obtain ⟨t1, u1, a1, a2, rfl⟩ := qset_cons (h.perm p1)
      obtain ⟨t2, u2, b1, b2, rfl⟩ := qset_cons (a2.perm p2)
      obtain ⟨b, e, hb⟩ := pqUnionBuf_spec hE a1 b1
      obtain ⟨m, em⟩ := hb.size
      rw [e, ok_bind, em, ok_bind]
      have p3 := pqAdd_perm pq2 ⟨m, true, b⟩
      have l3 := p3.length_eq
      simp only [List.length_cons] at l3
      refine ih (by omega) (by omega) (QSet.perm ?_ p3)
      rw [← union_assoc]
      exact QSet.cons hb b2
    · obtain ⟨e, rfl, he⟩ := done (by omega) h
      exact ⟨e, rfl, he⟩

theorem pqElemsBuf_spec {xs : List RaBuf} {l : List NSet} (h : EagerSets xs l) :
    ∃ pq, pqElemsBuf xs = .ok pq ∧ QSet pq (unionL l) ∧ pq.length = xs.length := by
  induction h with
  | nil => exact ⟨[], rfl, ⟨[], .nil, rfl⟩, rfl⟩
  | cons h1 h2 ih =>
    obtain ⟨pq, e, hq, hl⟩ := ih
    obtain ⟨n, en⟩ := h1.lazy.size
    rw [pqElemsBuf, en, ok_bind, e, ok_bind]
    exact ⟨_, rfl, QSet.cons h1.lazy hq, by simp [hl]⟩

theorem rbOrManyHeapBuf_spec (hE : RbEnvOK E) {xs : List RaBuf} {l : List NSet} (h : EagerSets xs l) :
    ∃ b, rbOrManyHeapBuf E xs = .ok b ∧ EagerSet b (unionL l) := by
  match h with
  | .nil => exact ⟨_, rfl, bset_create hE 0⟩
  | .cons h1 .nil =>
    rw [rbOrManyHeapBuf]
    obtain ⟨b, e, hb⟩ := bset_copy hE h1
    exact ⟨b, e, by rw [unionL, unionL, union_empty]; exact hb⟩
  | @List.Forall₂.cons _ _ _ x0 s0 _ _ h1 (@List.Forall₂.cons _ _ _ x1 s1 xs l h2 h3) =>
    have h := List.Forall₂.cons h1 (List.Forall₂.cons h2 h3)
    rw [rbOrManyHeapBuf]
    obtain ⟨pq, e, hq, hl⟩ := pqElemsBuf_spec h
    simp only [List.length_cons] at hl
    have p := pqHeapify_perm ((x0 :: x1 :: xs).length / 2) pq (by simp only [List.length_cons]; omega)
    have hl2 := p.length_eq
    rw [createPqBuf, e, ok_bind, ok_bind]
    obtain ⟨z, e2, hz⟩ := pqLoopBuf_spec hE (pqHeapify pq ((x0 :: x1 :: xs).length / 2)).length (by omega) (by omega) (hq.perm p)
    rw [e2, ok_bind]
    exact lset_repair hE hz

end CRoaring
