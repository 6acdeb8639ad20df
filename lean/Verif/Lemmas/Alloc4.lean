import Verif.Lemmas.Alloc3
import Verif.Lemmas.Serial4

set_option linter.unusedSimpArgs false
set_option linter.unusedVariables false

/-! Reading a bitmap when requests for memory may be refused. -/

namespace CRoaring

variable {F : Nat → Option MBlk} {m m1 m2 m' : Mem} {own own' : List Nat} {ok : Nat → Bool}

theorem rd_ok {α : Type} (a : α) : rd (.ok a) = some a := rfl

/-- The outcome of a request for a container and of the reading of its contents. -/
def ReadC (F : Nat → Option MBlk) (ok : Nat → Bool) (m : Mem) (own : List Nat) (c : Container) (bad : Prop)
    (cr : Option (Option Nat × Mem)) (read : Nat → Mem → Option Mem) : Prop :=
  (∃ m1, cr = some (none, m1) ∧ Owns F m1 own ∧ Same own m m1 ∧ Refused ok m m1) ∨
  (∃ r m1, cr = some (some r.addr, m1) ∧ ((read r.addr m1 = none ∧ bad) ∨
    ∃ m2, read r.addr m1 = some m2 ∧ Owns F m2 (CRec.blocks r ++ own) ∧ Same own m m2 ∧ Granted ok m m2 ∧ HoldsC m2 r c))

theorem blocks_ne {a d : Nat} (h : Owns F m ((⟨a, some d⟩ : CRec).blocks ++ own)) : (∀ x ∈ own, x ≠ a) ∧ (∀ x ∈ own, x ≠ d) ∧ d ≠ a := by
  have h1 := h.nodup
  simp [CRec.blocks] at h1
  exact ⟨fun x hx e => h1.1.2 (e ▸ hx), fun x hx e => h1.2.1 (e ▸ hx), fun e => h1.1.1 e.symm⟩

theorem bitsetRead_spec (hi : Owns F m own) (ok : Nat → Bool) {buf : List UInt8} {off card : Nat} {ws : List Word}
    (hw : readWords buf off NWORDS = .ok ws) (hl : ws.length = NWORDS) :
    ReadC F ok m own (.bitset ⟨card, ws⟩) False (bitsetCreateA ok m) (fun a => bitsetReadA card a buf off) := by
  rcases bitsetAllocA_spec hi ok 0 (List.replicate NWORDS (some (.w 0#64))) with ⟨m1, e1, i1, s1, r1⟩ | ⟨a, d, m1, e1, i1, s1, g1, l1, hne, l2⟩
  · exact Or.inl ⟨m1, e1, i1, s1, r1⟩
  · right
    refine ⟨⟨a, some d⟩, m1, e1, Or.inr ?_⟩
    obtain ⟨n1, n2, n3⟩ := blocks_ne i1
    have i2 := i1.set (a := a) (by simp [CRec.blocks]) (some (.cont BITSET_TYPE (card : Int) NWORDS (some d)))
    have ld : (m1.set a (some (.cont BITSET_TYPE (card : Int) NWORDS (some d)))).live d = some (.data (List.replicate NWORDS (some (.w 0#64)))) := by
      rw [set_live_ne _ _ n3, l2]
    obtain ⟨m3, e3, l3, o3, c3, i3⟩ := storeVals_some (vals := ws.map (fun w => some (Val.w w))) ld (by simp [hl])
    refine ⟨m3, ?_, i3 _ _ i2 (by simp [CRec.blocks]), ?_, (g1.congr (by rw [c3]; rfl)), ?_⟩
    · simp only [bitsetReadA, setCountA, l1, Option.bind_eq_bind, Option.bind_some, hw, rd_ok, capA, set_live_eq, e3]
    · intro x hx
      rw [o3 x (n2 x hx), set_live_ne _ _ (n1 x hx)]
      exact s1 x hx
    · refine ⟨NWORDS, [], ?_, by simp [payload, hl], ?_, by simp, ?_⟩
      · rw [o3 a (Ne.symm n3), set_live_eq]
        rfl
      · intro d' hd'
        cases hd'
        rw [l3]
        simp [payload, hl]
      · intro b hb
        cases hb
        exact hl

theorem arrayRead_spec (hi : Owns F m own) (ok : Nat → Bool) {buf : List UInt8} {off card : Nat} {l : List Nat}
    (hw : readU16s buf off card = .ok l) (hl : l.length = card) (h0 : card ≠ 0) :
    ReadC F ok m own (.array l) False (arrayCreateA ok card m) (fun a => arrayReadA ok card a buf off) := by
  rcases contCreate_spec hi ok ARRAY_TYPE card with ⟨m1, e1, i1, s1, r1⟩ | ⟨a, d, m1, e1, i1, s1, g1, l1, _, hd⟩
  · exact Or.inl ⟨m1, e1, i1, s1, r1⟩
  · obtain ⟨d, rfl, hne, l2⟩ := hd h0
    right
    refine ⟨⟨a, some d⟩, m1, e1, Or.inr ?_⟩
    obtain ⟨n1, n2, n3⟩ := blocks_ne i1
    have i2 := i1.set (a := a) (by simp [CRec.blocks]) (some (.cont ARRAY_TYPE (card : Int) card (some d)))
    have ld : (m1.set a (some (.cont ARRAY_TYPE (card : Int) card (some d)))).live d = some (.data (List.replicate card none)) := by
      rw [set_live_ne _ _ n3, l2]
      rfl
    obtain ⟨m3, e3, l3, o3, c3, i3⟩ := storeVals_some (vals := l.map (fun w => some (Val.u w))) ld (by simp [hl])
    refine ⟨m3, ?_, i3 _ _ i2 (by simp [CRec.blocks]), ?_, (g1.congr (by rw [c3]; rfl)), ?_⟩
    · simp only [arrayReadA, capA, l1, Option.bind_eq_bind, Option.bind_some, Nat.lt_irrefl, if_false, setCountA, hw, rd_ok, set_live_eq, e3]
    · intro x hx
      rw [o3 x (n2 x hx), set_live_ne _ _ (n1 x hx)]
      exact s1 x hx
    · refine ⟨card, [], ?_, by simp [payload, hl], ?_, by simp, by simp⟩
      · rw [o3 a (Ne.symm n3), set_live_eq, ← hl]
        rfl
      · intro d' hd'
        cases hd'
        rw [l3]
        simp [payload, hl]

theorem runNewCapacity_zero (n : Nat) : runNewCapacity 0 n = n := by
  simp only [runNewCapacity, if_true]
  split <;> omega

theorem runRead_spec (hi : Owns F m own) (ok : Nat → Bool) {buf : List UInt8} {off n : Nat} {rs : List Rle}
    (hn : readLE buf off 2 = .ok n) (hw : readRles buf (off + 2) n = .ok rs) (hl : rs.length = n) :
    ReadC F ok m own (.run rs) (∃ j, m.calls ≤ j ∧ ok j = false) (runCreateA ok 0 m) (fun a => runReadA ok a buf off) := by
  rcases contCreate_spec hi ok RUN_TYPE 0 with ⟨m1, e1, i1, s1, r1⟩ | ⟨a, d, m1, e1, i1, s1, g1, l1, hd, _⟩
  · exact Or.inl ⟨m1, e1, i1, s1, r1⟩
  · cases hd rfl
    right
    have n1 : ∀ x ∈ own, x ≠ a := by
      intro x hx e
      have := i1.nodup
      simp [CRec.blocks] at this
      exact this.1 (e ▸ hx)
    have i1' : Owns F m1 (a :: own) := by simpa [CRec.blocks] using i1
    have i2 := i1'.set (a := a) (by simp) (some (.cont RUN_TYPE (n : Int) 0 none))
    have s2 : Same own m (m1.set a (some (.cont RUN_TYPE (n : Int) 0 none))) := fun x hx => by
      rw [set_live_ne _ _ (n1 x hx)]
      exact s1 x hx
    by_cases h0 : n = 0
    · subst h0
      have hrs : rs = [] := List.eq_nil_of_length_eq_zero hl
      subst hrs
      refine ⟨⟨a, none⟩, m1, e1, Or.inr ⟨m1.set a (some (.cont RUN_TYPE (0 : Nat) 0 none)), ?_, ?_, s2, g1.congr rfl, ?_⟩⟩
      · simp [runReadA, hn, hw, rd_ok, setCountA, l1, capA, set_live_eq, storeVals]
      · simpa [CRec.blocks] using i2
      · exact ⟨0, [], set_live_eq _ _ _, by simp [payload], by simp, by simp, by simp⟩
    · have hpos : n > 0 := by omega
      have hrs : rs.map (fun p => some (Val.r p)) ≠ [] := by
        intro e
        have := congrArg List.length e
        simp [hl] at this
        exact h0 this
      rcases malloc_cases i2 ok (freshData n) with ⟨m3, e3, i3, l3, r3⟩ | ⟨m3, e3, i3, l3, o3, s3, g3⟩
      · refine ⟨⟨a, none⟩, m1, e1, Or.inl ⟨?_, ?_⟩⟩
        · simp [runReadA, hn, hw, rd_ok, setCountA, l1, capA, set_live_eq, hpos, growA, mfree, runNewCapacity_zero, e3, storeVals]
          simpa using hrs
        · obtain ⟨j, j1, j2, j3⟩ := r3
          refine ⟨j, ?_, j3⟩
          have := g1.1
          have h3 : (m1.set a (some (.cont RUN_TYPE (n : Int) 0 none))).calls = m1.calls := rfl
          omega
      · have hne : (m1.set a (some (.cont RUN_TYPE (n : Int) 0 none))).next ≠ a := fun e => i2.next_notMem (by rw [e]; simp)
        have hno : ∀ x ∈ own, x ≠ (m1.set a (some (.cont RUN_TYPE (n : Int) 0 none))).next := fun x hx e => i2.next_notMem (by rw [← e]; simp [hx])
        generalize (m1.set a (some (.cont RUN_TYPE (n : Int) 0 none))).next = d at *
        have i4 := i3.set (a := a) (by simp) (some (.cont RUN_TYPE (n : Int) n (some d)))
        have ld : (m3.set a (some (.cont RUN_TYPE (n : Int) n (some d)))).live d = some (.data (List.replicate n none)) := by
          rw [set_live_ne _ _ hne, l3]
          rfl
        obtain ⟨m5, e5, l5, o5, c5, i5⟩ := storeVals_some (vals := rs.map (fun p => some (Val.r p))) ld (by simp [hl])
        refine ⟨⟨a, some d⟩, m1, e1, Or.inr ⟨m5, ?_, ?_, ?_, ?_, ?_⟩⟩
        · simp [runReadA, hn, hw, rd_ok, setCountA, l1, capA, set_live_eq, hpos, growA, mfree, runNewCapacity_zero, e3, e5]
        · exact (i5 _ _ i4 (by simp)).perm (by perm_tac)
        · intro x hx
          rw [o5 x (hno x hx), set_live_ne _ _ (n1 x hx), s3 x (by simp [hx])]
          exact s2 x hx
        · exact ((g1.congr rfl : Granted ok m (m1.set a _)).trans g3).congr (by rw [c5]; rfl)
        · refine ⟨n, [], ?_, by simp [payload, hl], ?_, by simp, by simp⟩
          · rw [o5 a (Ne.symm hne), set_live_eq, ← hl]
            rfl
          · intro d' hd'
            cases hd'
            rw [l5]
            simp [payload, hl]

/-! ### Putting the containers into the array -/

theorem zip_fst {α β : Type} : ∀ (ks : List α) (cs : List β), cs.length ≤ ks.length → (ks.zip cs).map (·.1) = ks.take cs.length
  | ks, [], _ => by simp
  | [], c :: cs, h => by simp at h
  | k :: ks, c :: cs, h => by simp [zip_fst ks cs (by simpa using h)]

theorem zip_snd {α β : Type} : ∀ (ks : List α) (cs : List β), cs.length ≤ ks.length → (ks.zip cs).map (·.2) = cs
  | ks, [], _ => by simp
  | [], c :: cs, h => by simp at h
  | k :: ks, c :: cs, h => by simp [zip_snd ks cs (by simpa using h)]

/-- The state of the loop: the containers `cs` have been read, and all keys. -/
structure Part (F : Nat → Option MBlk) (m : Mem) (p q A : Nat) (keys : List Nat) (own : List Nat) (rs : List CRec) (cs : List Container) : Prop where
  hb : HoldsB m p (keys.zip cs) false A (some q) rs
  ks : ∃ s, m.live q = some (.slots s) ∧ s.keys.take keys.length = keys.map some
  inv : Owns F m (bmBlocks p (some q) rs ++ own)
  len : keys.length ≤ A

theorem pushA_spec {p q A : Nat} {keys : List Nat} {rs : List CRec} {cs : List Container} (h : Part F m p q A keys own rs cs)
    (hk : cs.length < keys.length) {r : CRec} {c : Container} (hi : Owns F m2 (CRec.blocks r ++ (bmBlocks p (some q) rs ++ own)))
    (hs : Same (bmBlocks p (some q) rs ++ own) m m2) (hc : HoldsC m2 r c) :
    ∃ m', pushA p cs.length r.addr (typecode c) m2 = some m' ∧ Part F m' p q A keys own (rs ++ [r]) (cs ++ [c]) ∧ Same own m m' ∧ m'.calls = m2.calls := by
  obtain ⟨s, hq, k1, k2, k3, k4, k5, k6⟩ := h.hb.slots q rfl
  obtain ⟨s', hq', kk⟩ := h.ks
  rw [hq] at hq'
  cases hq'
  have hA := h.len
  have hlen : (keys.zip cs).length = cs.length := by simp; omega
  have hrs : rs.length = cs.length := by have := h.hb.conts.length_eq; simp at this; omega
  have hp2 : m2.live p = some (.bitmap ⟨cs.length, A, some q, false⟩) := by rw [hs p (by simp [bmBlocks]), h.hb.hdr, hlen]
  have hq2 : m2.live q = some (.slots s) := by rw [hs q (by simp [bmBlocks]), hq]
  rw [hlen] at k4 k5 k6
  have hpq : q ≠ p := fun e => (List.nodup_cons.1 h.hb.nodup).1 (by simp [e])
  refine ⟨(m2.set q (some (.slots { s with conts := s.conts.set cs.length (some (some r.addr)), types := s.types.set cs.length (some (typecode c)) }))).set p
    (some (.bitmap ⟨cs.length + 1, A, some q, false⟩)), ?_, ?_, ?_, rfl⟩
  · simp only [pushA, hdrA_eq hp2, Option.bind_eq_bind, Option.bind_some, slotsA_eq (h := ⟨cs.length, A, some q, false⟩) rfl hq2,
      putAt_eq (some (some r.addr)) (show cs.length < s.conts.length by omega), putAt_eq (some (typecode c)) (show cs.length < s.types.length by omega),
      putSlotsA_eq (h := ⟨cs.length, A, some q, false⟩) rfl]
  · have hnd := hi.nodup
    have hperm : (CRec.blocks r ++ (bmBlocks p (some q) rs ++ own)).Perm (bmBlocks p (some q) (rs ++ [r]) ++ own) := by
      simp only [bmBlocks]
      perm_tac
    have hnd2 := hperm.nodup hnd
    have hnd3 : (bmBlocks p (some q) (rs ++ [r])).Nodup := (List.nodup_append.1 hnd2).1
    have hl2 : (keys.zip (cs ++ [c])).length = cs.length + 1 := by simp; omega
    have hne : ∀ x ∈ (rs ++ [r]).flatMap CRec.blocks, x ≠ p ∧ x ≠ q := by
      intro x hx
      rw [bmBlocks] at hnd3
      refine ⟨fun e => (List.nodup_cons.1 hnd3).1 ?_, fun e => (List.nodup_cons.1 (List.nodup_cons.1 hnd3).2).1 ?_⟩
      · simp only [List.mem_append]; exact Or.inr (e ▸ hx)
      · exact e ▸ hx
    have sm : ∀ x ∈ (rs ++ [r]).flatMap CRec.blocks, ((m2.set q (some (.slots { s with conts := s.conts.set cs.length (some (some r.addr)), types := s.types.set cs.length (some (typecode c)) }))).set p
      (some (.bitmap ⟨cs.length + 1, A, some q, false⟩))).live x = m2.live x := fun x hx => by
      rw [set_live_ne _ _ (hne x hx).1, set_live_ne _ _ (hne x hx).2]
    refine ⟨⟨?_, ?_, ?_, by simp, ?_, hnd3⟩, ⟨{ s with conts := s.conts.set cs.length (some (some r.addr)), types := s.types.set cs.length (some (typecode c)) }, ?_, kk⟩, ?_, h.len⟩
    · rw [set_live_eq, hl2]
    · rw [hl2]; omega
    · intro q' hq'
      cases hq'
      refine ⟨{ s with conts := s.conts.set cs.length (some (some r.addr)), types := s.types.set cs.length (some (typecode c)) }, by rw [set_live_ne _ _ hpq, set_live_eq], by simpa using k1, k2, by simpa using k3, ?_, ?_, ?_⟩
      · rw [hl2]
        exact take_succ_set (f := fun r : CRec => some (some r.addr)) k4 (by omega)
      · rw [hl2]
        have e1 := congrArg (List.take (cs.length + 1)) kk
        rw [List.take_take, Nat.min_eq_left (by omega)] at e1
        rw [e1, ← List.map_take]
        have e2 := zip_fst keys (cs ++ [c]) (by simp; omega)
        rw [show (cs ++ [c]).length = cs.length + 1 by simp] at e2
        rw [← e2, List.map_map]
        rfl
      · rw [hl2]
        have e2 : (keys.zip (cs ++ [c])).map (fun e => some (typecode e.2)) = (cs ++ [c]).map (fun c => some (typecode c)) := by
          have := congrArg (List.map (fun c => some (typecode c))) (zip_snd keys (cs ++ [c]) (by simp; omega))
          rw [List.map_map] at this
          exact this
        have e3 : (keys.zip cs).map (fun e => some (typecode e.2)) = cs.map (fun c => some (typecode c)) := by
          have := congrArg (List.map (fun c => some (typecode c))) (zip_snd keys cs (by omega))
          rw [List.map_map] at this
          exact this
        rw [e2]
        rw [e3] at k6
        exact take_succ_set (f := fun c : Container => some (typecode c)) k6 (by omega)
    · rw [zip_snd _ _ (by simp; omega)]
      refine forall₂_append (holdsC_blocks_same (m := m) ?_ ?_) ?_
      · have := h.hb.conts
        rwa [zip_snd _ _ (by omega)] at this
      · intro x hx
        rw [sm x (by simp only [List.flatMap_append, List.mem_append]; exact Or.inl hx)]
        exact hs x (by rw [bmBlocks]; simp only [List.mem_append, List.mem_cons]; exact Or.inl (Or.inr (Or.inr hx)))
      · refine .cons (holdsC_congr hc fun x hx => sm x ?_) .nil
        simp only [List.flatMap_append, List.mem_append]
        exact Or.inr (by simpa using hx)
    · rw [set_live_ne _ _ hpq, set_live_eq]
    · exact ((hi.set (a := q) (by simp [bmBlocks]) _).set (a := p) (by simp [bmBlocks]) _).perm hperm
  · intro x hx
    have hnd := (List.nodup_append.1 h.inv.nodup).2.2
    rw [set_live_ne _ _ (fun e => hnd p (by simp [bmBlocks]) x hx e.symm), set_live_ne _ _ (fun e => hnd q (by simp [bmBlocks]) x hx e.symm)]
    exact hs x (by simp [hx])

/-- Nothing of the bitmap is left but its struct. -/
def Gone (F : Nat → Option MBlk) (m : Mem) (p : Nat) (own : List Nat) (m' : Mem) : Prop :=
  Owns F m' (p :: own) ∧ Same own m m' ∧ ∃ b, m'.live p = some b

theorem step_spec {p q A : Nat} {keys : List Nat} {rs : List CRec} {cs : List Container} (h : Part F m p q A keys own rs cs)
    (hk : cs.length < keys.length) {c : Container} {bad : Prop} {cr : Option (Option Nat × Mem)} {read : Nat → Mem → Option Mem} {type : Nat}
    (ht : type = typecode c) (hr : ReadC F ok m (bmBlocks p (some q) rs ++ own) c bad cr read) (K : Mem → Option (Bool × Mem))
    (x : Option (Bool × Mem)) (hx : x = (do
      let (r, m) ← cr
      let (b, m) ← deserStepA p cs.length type r read m
      if b then K m else some (false, m))) :
    (x = none ∧ bad) ∨ (∃ m', x = some (false, m') ∧ Gone F m p own m' ∧ Refused ok m m') ∨
    (∃ m' r, x = K m' ∧ Part F m' p q A keys own (rs ++ [r]) (cs ++ [c]) ∧ Same own m m' ∧ Granted ok m m') := by
  subst ht
  rcases hr with ⟨m1, e1, i1, s1, r1⟩ | ⟨r, m1, e1, ⟨e2, hbad⟩ | ⟨m2, e2, i2, s2, g2, h2⟩⟩
  · right; left
    have hb1 : HoldsB m1 p (keys.zip cs) false A (some q) rs := by
      obtain ⟨s, hq, hh⟩ := h.hb.slots q rfl
      refine ⟨by rw [s1 p (by simp [bmBlocks]), h.hb.hdr], h.hb.room, fun q' hq' => ?_, h.hb.nobuf, holdsC_blocks_same h.hb.conts (s1.mono ?_), h.hb.nodup⟩
      · cases hq'
        exact ⟨s, by rw [s1 q (by simp [bmBlocks]), hq], hh⟩
      · intro x hx
        rw [bmBlocks]
        simp only [List.mem_append, List.mem_cons]
        exact Or.inl (Or.inr (Or.inr hx))
    obtain ⟨m3, e3, i3, s3, l3, c3⟩ := raClearA_spec hb1 i1
    refine ⟨m3, ?_, ⟨i3, (s1.mono (by simp; tauto)).trans s3, _, l3⟩, r1.congr c3⟩
    rw [hx, e1]
    simp [deserStepA, e3]
  · left
    refine ⟨?_, hbad⟩
    rw [hx, e1]
    simp [deserStepA, e2]
  · right; right
    obtain ⟨m3, e3, p3, s3, c3⟩ := pushA_spec h hk i2 s2 h2
    refine ⟨m3, r, ?_, p3, s3, g2.congr c3⟩
    rw [hx, e1]
    simp [deserStepA, e2, e3]

/-- The outcome of reading, given the outcome `y` without a memory. -/
def ReadRes (F : Nat → Option MBlk) (ok : Nat → Bool) (m : Mem) (p q A : Nat) (keys : List Nat) (own : List Nat) (cs : List Container) (hasrun : Prop)
    (x : Option (Bool × Mem)) (y : Out (List Container × Nat)) : Prop :=
  (x = none ∧ hasrun ∧ ∃ j, m.calls ≤ j ∧ ok j = false) ∨
  (∃ m', x = some (false, m') ∧ Gone F m p own m' ∧ (Refused ok m m' ∨ (Granted ok m m' ∧ y = .fail))) ∨
  (∃ m' rs cs' n, x = some (true, m') ∧ y = .ok (cs', n) ∧ Part F m' p q A keys own rs (cs ++ cs') ∧ Same own m m' ∧ Granted ok m m')

theorem clear_res {p q A : Nat} {keys : List Nat} {rs : List CRec} {cs : List Container} (h : Part F m p q A keys own rs cs) (hasrun : Prop)
    {x : Option (Bool × Mem)} (hx : x = (do let m ← raClearA p m; some (false, m))) :
    ReadRes F ok m p q A keys own cs hasrun x .fail := by
  obtain ⟨m1, e1, i1, s1, l1, c1⟩ := raClearA_spec h.hb h.inv
  refine Or.inr (Or.inl ⟨m1, ?_, ⟨i1, s1, _, l1⟩, Or.inr ⟨(Granted.refl ok m).congr c1, rfl⟩⟩)
  rw [hx, e1]
  rfl

/-- One container, then the rest. -/
theorem read_cons {p q A : Nat} {keys : List Nat} {cs : List Container} {hasrun bad : Prop} {c : Container}
    {x : Option (Bool × Mem)} {K : Mem → Option (Bool × Mem)} {y : Out (List Container × Nat)} (hbad : bad → hasrun ∧ ∃ j, m.calls ≤ j ∧ ok j = false)
    (hx : (x = none ∧ bad) ∨ (∃ m', x = some (false, m') ∧ Gone F m p own m' ∧ Refused ok m m') ∨
      (∃ m' r, x = K m' ∧ Part F m' p q A keys own r (cs ++ [c]) ∧ Same own m m' ∧ Granted ok m m'))
    (hK : ∀ m' r, Part F m' p q A keys own r (cs ++ [c]) → ReadRes F ok m' p q A keys own (cs ++ [c]) hasrun (K m') y) :
    ReadRes F ok m p q A keys own cs hasrun x (do let z ← y; pure (c :: z.1, z.2)) := by
  rcases hx with ⟨h1, h2⟩ | ⟨m1, h1, h2, h3⟩ | ⟨m1, r, h1, h2, h3, h4⟩
  · exact Or.inl ⟨h1, hbad h2⟩
  · exact Or.inr (Or.inl ⟨m1, h1, h2, Or.inl h3⟩)
  · rcases hK m1 r h2 with ⟨g1, g2, j, g3, g4⟩ | ⟨m2, g1, ⟨g2, g3, g4⟩, g5⟩ | ⟨m2, rs, cs', n, g1, g2, g3, g4, g5⟩
    · exact Or.inl ⟨h1.trans g1, g2, j, Nat.le_trans h4.1 g3, g4⟩
    · refine Or.inr (Or.inl ⟨m2, h1.trans g1, ⟨g2, h3.trans g3, g4⟩, ?_⟩)
      rcases g5 with g5 | ⟨g5, g6⟩
      · exact Or.inl (h4.refused g5)
      · exact Or.inr ⟨h4.trans g5, by rw [g6]; rfl⟩
    · exact Or.inr (Or.inr ⟨m2, rs, c :: cs', n, h1.trans g1, by rw [g2]; rfl, by simpa using g3, h3.trans g4, h4.trans g5⟩)

theorem deserLoopA_spec {buf : List UInt8} {runs : Option Nat} {base maxbytes kc p q A : Nat} {keys : List Nat}
    (hm : base + maxbytes ≤ buf.length) (hkc : kc + 4 * keys.length ≤ buf.length)
    (hr : ∀ o, runs = some o → o + (keys.length + 7) / 8 ≤ buf.length) (ok : Nat → Bool) (n : Nat) :
    ∀ {k off rb : Nat} {m : Mem} {rs : List CRec} {cs : List Container}, k + n = keys.length → off = base + rb → rb ≤ maxbytes →
      cs.length = k → Part F m p q A keys own rs cs →
      ReadRes F ok m p q A keys own cs (runs ≠ none) (deserLoopA ok buf maxbytes runs kc p n k off rb m)
        (deserLoop buf maxbytes runs kc n k off rb) := by
  induction n with
  | zero =>
    intro k off rb m rs cs hk ho hle hcs h
    exact Or.inr (Or.inr ⟨m, rs, [], rb, rfl, rfl, by simpa using h, Same.refl _ _, Granted.refl _ _⟩)
  | succ n ih =>
    intro k off rb m rs cs hk ho hle hcs h
    subst hcs
    obtain ⟨tmp, ht, ht2⟩ := readLE_ok (buf := buf) (off := kc + 2 * (2 * cs.length + 1)) (k := 2) (by omega)
    obtain ⟨b, hb⟩ := isRunAt_ok (k := cs.length) hr (by omega)
    have hrun : b = true → runs ≠ none := by
      intro e e'
      rw [e'] at hb
      cases hb
      cases e
    have next : ∀ (c : Container) (m' : Mem) (r : List CRec), Part F m' p q A keys own r (cs ++ [c]) → ∀ off' rb', off' = base + rb' → rb' ≤ maxbytes →
        ReadRes F ok m' p q A keys own (cs ++ [c]) (runs ≠ none) (deserLoopA ok buf maxbytes runs kc p n (cs.length + 1) off' rb' m')
          (deserLoop buf maxbytes runs kc n (cs.length + 1) off' rb') := by
      intro c m' r hp off' rb' h1 h2
      exact ih (by omega) h1 h2 (by simp) hp
    rw [deserLoopA, deserLoop, ht, hb]
    simp only [ok_bind, rd_ok, Option.bind_eq_bind, Option.bind_some]
    by_cases h1 : (!b && decide (tmp + 1 > DEFAULT_MAX_SIZE)) = true
    · rw [if_pos h1, if_pos h1]
      by_cases h2 : rb + NWORDS * 8 > maxbytes
      · rw [if_pos h2, if_pos h2]
        exact clear_res h _ rfl
      · rw [if_neg h2, if_neg h2]
        obtain ⟨ws, hw, hw2⟩ := readWords_ok (buf := buf) NWORDS (off := off) (by omega)
        rw [bitsetRead, hw, ok_bind, pure_ok, ok_bind]
        simp only [containerSizeInBytes]
        exact read_cons (bad := False) (fun w => w.elim) (by
            rcases step_spec h (by omega) rfl (bitsetRead_spec h.inv ok hw hw2)
              (fun m => deserLoopA ok buf maxbytes runs kc p n (cs.length + 1) (off + NWORDS * 8) (rb + NWORDS * 8) m) _ rfl with w | w | ⟨m', r, w1, w2⟩
            · exact Or.inl w
            · exact Or.inr (Or.inl w)
            · exact Or.inr (Or.inr ⟨m', _, w1, w2⟩))
          (fun m' r hp => next _ m' r hp _ _ (by omega) (by omega))
    · rw [if_neg h1, if_neg h1]
      by_cases h3 : b = true
      · rw [if_pos h3, if_pos h3]
        by_cases h2 : rb + 2 > maxbytes
        · rw [if_pos h2, if_pos h2]
          exact clear_res h _ rfl
        · rw [if_neg h2, if_neg h2]
          obtain ⟨nr, hnr, hnr2⟩ := readLE_ok (buf := buf) (off := off) (k := 2) (by omega)
          rw [hnr]
          simp only [ok_bind, rd_ok, Option.bind_some]
          by_cases h4 : rb + 2 + nr * 4 > maxbytes
          · rw [if_pos h4, if_pos h4]
            exact clear_res h _ rfl
          · rw [if_neg h4, if_neg h4]
            obtain ⟨l, hw, hw2, hw3⟩ := readRles_ok (buf := buf) nr (off := off + 2) (by omega)
            rw [runRead, hnr, ok_bind, hw, ok_bind, pure_ok, ok_bind]
            simp only [containerSizeInBytes, runSerializedSize, hw2]
            rw [show off + (2 + 4 * nr) = off + (2 + nr * 4) by omega]
            exact read_cons (fun w => ⟨hrun h3, w⟩) (by
                rcases step_spec h (by omega) rfl (runRead_spec h.inv ok hnr hw hw2)
                  (fun m => deserLoopA ok buf maxbytes runs kc p n (cs.length + 1) (off + (2 + nr * 4)) (rb + 2 + nr * 4) m) _ rfl with w | w | ⟨m', r, w1, w2⟩
                · exact Or.inl w
                · exact Or.inr (Or.inl w)
                · exact Or.inr (Or.inr ⟨m', _, w1, w2⟩))
              (fun m' r hp => next _ m' r hp _ _ (by omega) (by omega))
      · rw [if_neg h3, if_neg h3]
        by_cases h2 : rb + (tmp + 1) * 2 > maxbytes
        · rw [if_pos h2, if_pos h2]
          exact clear_res h _ rfl
        · rw [if_neg h2, if_neg h2]
          obtain ⟨l, hw, hw2, hw3⟩ := readU16s_ok (buf := buf) (tmp + 1) (off := off) (by omega)
          rw [arrayRead, hw, ok_bind, pure_ok, ok_bind]
          simp only [containerSizeInBytes, hw2]
          exact read_cons (bad := False) (fun w => w.elim) (by
              rcases step_spec h (by omega) rfl (arrayRead_spec h.inv ok hw hw2 (by omega))
                (fun m => deserLoopA ok buf maxbytes runs kc p n (cs.length + 1) (off + (tmp + 1) * 2) (rb + (tmp + 1) * 2) m) _ rfl with w | w | ⟨m', r, w1, w2⟩
              · exact Or.inl w
              · exact Or.inr (Or.inl w)
              · exact Or.inr (Or.inr ⟨m', _, w1, w2⟩))
            (fun m' r hp => next _ m' r hp _ _ (by omega) (by omega))

end CRoaring
