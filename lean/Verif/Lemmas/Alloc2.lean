import Verif.Lemmas.Alloc

set_option linter.unusedSimpArgs false
set_option linter.unusedVariables false

/-! Creating, copying, overwriting and releasing bitmaps when requests for memory may be refused. -/

namespace CRoaring

variable {F : Nat → Option MBlk} {m m1 m2 m' base : Mem} {own own' : List Nat} {ok : Nat → Bool}

/-- Two lists with the same elements, in another order. -/
macro "perm_tac" : tactic =>
  `(tactic| (rw [List.perm_iff_count]; intro x; simp only [List.count_append, List.count_cons, List.flatMap_append, List.flatMap_cons, List.flatMap_nil, List.count_nil, CRec.blocks, List.cons_append, List.nil_append, List.append_nil, Option.toList_some, Option.toList_none]; omega))

theorem Owns.keep (h : Owns F m own) {x : Nat} (hx : F x ≠ none) : m.live x = F x :=
  h.frame x (fun q => hx (h.priv x q).1)

theorem Owns.base_holdsC (h : Owns base.live m own) {r : CRec} {c : Container} (hc : HoldsC base r c) : HoldsC m r c :=
  holdsC_congr hc (fun x hx => h.keep (holdsC_live hc x hx))

theorem hdrA_eq {p : Nat} {h : RaHdr} (e : m.live p = some (.bitmap h)) : hdrA m p = some h := by simp [hdrA, e]

theorem slotsA_eq {h : RaHdr} {q : Nat} {s : SlotBuf} (e : h.buf = some q) (e' : m.live q = some (.slots s)) :
    slotsA m h = some s := by simp [slotsA, e, e']

theorem putSlotsA_eq {h : RaHdr} {q : Nat} (e : h.buf = some q) (s : SlotBuf) :
    putSlotsA m h s = some (m.set q (some (.slots s))) := by simp [putSlotsA, e]

theorem slotAtA_eq {p q i t : Nat} {h : RaHdr} {s : SlotBuf} {c : Option Nat} (e1 : m.live p = some (.bitmap h)) (e2 : h.buf = some q)
    (e3 : m.live q = some (.slots s)) (e4 : s.conts[i]? = some (some c)) (e5 : s.types[i]? = some (some t)) :
    slotAtA m p i = some (c, t) := by
  simp [slotAtA, hdrA_eq e1, slotsA_eq e2 e3, List.getD_eq_getElem?_getD, e4, e5]

theorem take_getA {α : Type} {l l' : List α} {n i : Nat} {a : α} (h : l.take n = l') (e : l'[i]? = some a) : l[i]? = some a := by
  rw [← h, List.getElem?_take] at e
  split at e
  · exact e
  · cases e

theorem clearLoopA_spec (p : Nat) : ∀ (rs : List CRec) (cs : List Container) (i : Nat) (m : Mem),
    Owns F m (rs.flatMap CRec.blocks ++ own) → List.Forall₂ (HoldsC m) rs cs →
    (∀ j r c, rs[j]? = some r → cs[j]? = some c → ∀ m', Same own m m' → slotAtA m' p (i + j) = some (some r.addr, typecode c)) →
    ∃ m', clearLoopA p rs.length i m = some m' ∧ Owns F m' own ∧ Same own m m' ∧ m'.calls = m.calls
  | [], cs, i, m, hi, hh, hs => ⟨m, rfl, by simpa using hi, Same.refl _ _, rfl⟩
  | r :: rs, [], i, m, hi, hh, hs => by cases hh
  | r :: rs, c :: cs, i, m, hi, hh, hs => by
    rw [List.forall₂_cons] at hh
    have hi' : Owns F m (r.blocks ++ (rs.flatMap CRec.blocks ++ own)) := by simpa using hi
    obtain ⟨m1, e1, i1, s1, c1⟩ := freeA_spec hi' hh.1
    have s1' : Same own m m1 := s1.mono (fun x hx => by simp [hx])
    obtain ⟨m2, e2, i2, s2, c2⟩ := clearLoopA_spec p rs cs (i + 1) m1 i1
      (by
        have h2 := hh.2
        refine (List.forall₂_iff_get.2 ⟨h2.length_eq, fun j h3 h4 => ?_⟩)
        refine holdsC_congr ((List.forall₂_iff_get.1 h2).2 j h3 h4) (s1.mono fun x hx => ?_)
        simp only [List.mem_append, List.mem_flatMap]
        exact Or.inl ⟨_, List.getElem_mem h3, hx⟩)
      (fun j r' c' hr hc' m' hm' => by
        have := hs (j + 1) r' c' (by simpa using hr) (by simpa using hc') m' (s1'.trans hm')
        rw [show i + 1 + j = i + (j + 1) by omega]
        exact this)
    refine ⟨m2, ?_, i2, s1'.trans s2, c2.trans c1⟩
    have e0 := hs 0 r c rfl rfl m (Same.refl _ _)
    rw [Nat.add_zero] at e0
    rw [List.length_cons, clearLoopA, e0]
    simp [e1, e2]

theorem holdsB_slot {p : Nat} {b : Bitmap} {cow : Bool} {alloc : Nat} {buf : Option Nat} {rs : List CRec}
    (h : HoldsB m p b cow alloc buf rs) (hs : Same (p :: buf.toList) m m') {j : Nat} {r : CRec} {c : Container}
    (hr : rs[j]? = some r) (hc : (b.map (·.2))[j]? = some c) : slotAtA m' p j = some (some r.addr, typecode c) := by
  cases hb : buf with
  | none =>
    have := h.nobuf hb
    have h2 := h.room
    have : b = [] := List.eq_nil_of_length_eq_zero (by omega)
    subst this
    simp at hc
  | some q =>
    obtain ⟨s, h1, h2, h3, h4, h5, h6, h7⟩ := h.slots q hb
    refine slotAtA_eq (h := ⟨b.length, alloc, buf, cow⟩) (q := q) (s := s) ?_ hb ?_ (take_getA h5 ?_) (take_getA h7 ?_)
    · rw [hs p (by simp), h.hdr]
    · rw [hs q (by simp [hb]), h1]
    · simp [hr]
    · rw [List.getElem?_map] at hc ⊢
      cases e : b[j]? with
      | none => simp [e] at hc
      | some x => simp [e] at hc; simp [hc]

theorem raClearA_spec {p : Nat} {b : Bitmap} {cow : Bool} {alloc : Nat} {buf : Option Nat} {rs : List CRec}
    (h : HoldsB m p b cow alloc buf rs) (hi : Owns F m (bmBlocks p buf rs ++ own)) :
    ∃ m', raClearA p m = some m' ∧ Owns F m' (p :: own) ∧ Same own m m' ∧ m'.live p = some (.bitmap ⟨0, 0, none, cow⟩) ∧
      m'.calls = m.calls := by
  have hi1 : Owns F m (rs.flatMap CRec.blocks ++ (p :: (buf.toList ++ own))) := hi.perm (by rw [bmBlocks]; perm_tac)
  obtain ⟨m1, e1, i1, s1, c1⟩ := clearLoopA_spec p rs (b.map (·.2)) 0 m hi1 h.conts
    (fun j r c hr hc m' hm' => by
      rw [Nat.zero_add]
      exact holdsB_slot h (hm'.mono (by simp; tauto)) hr hc)
  have hlen : rs.length = b.length := by have := h.conts.length_eq; simpa using this
  have hp1 : m1.live p = some (.bitmap ⟨b.length, alloc, buf, cow⟩) := by rw [s1 p (by simp), h.hdr]
  have e2 : clearContainersA p m = some m1 := by
    rw [clearContainersA, hdrA_eq h.hdr]
    simp only [Option.bind_eq_bind, Option.bind_some]
    rw [← hlen, e1]
  cases hb : buf with
  | none =>
    subst hb
    have i1' : Owns F m1 (p :: own) := by simpa using i1
    refine ⟨m1.set p (some (.bitmap ⟨0, 0, none, cow⟩)), ?_, i1'.set (by simp) _, ?_, set_live_eq _ _ _, c1⟩
    · rw [raClearA, e2]
      simp [clearWithoutA, hdrA_eq hp1, mfree]
    · intro x hx
      rw [set_live_ne _ _ (show x ≠ p from fun q => (List.nodup_cons.1 i1'.nodup).1 (q ▸ hx))]
      exact s1 x (by simp [hx])
  | some q =>
    subst hb
    have i1' : Owns F m1 (q :: p :: own) := i1.perm (by perm_tac)
    have hnd := List.nodup_cons.1 i1'.nodup
    have hnd2 := List.nodup_cons.1 hnd.2
    obtain ⟨s, h1, _⟩ := h.slots q rfl
    have hq1 : m1.live q = some (.slots s) := by rw [s1 q (by simp), h1]
    refine ⟨(m1.set q none).set p (some (.bitmap ⟨0, 0, none, cow⟩)), ?_, i1'.free.set (by simp) _, ?_, set_live_eq _ _ _, c1⟩
    · rw [raClearA, e2]
      simp [clearWithoutA, hdrA_eq hp1, mfree, hq1]
    · intro x hx
      rw [set_live_ne _ _ (show x ≠ p from fun e => hnd2.1 (e ▸ hx)), set_live_ne _ _ (show x ≠ q from fun e => hnd.1 (by simp [← e, hx]))]
      exact s1 x (by simp [hx])

theorem freeBitmapA_spec {p : Nat} {b : Bitmap} {cow : Bool} {alloc : Nat} {buf : Option Nat} {rs : List CRec}
    (h : HoldsB m p b cow alloc buf rs) (hi : Owns F m (bmBlocks p buf rs ++ own)) :
    ∃ m', freeBitmapA p m = some m' ∧ Owns F m' own ∧ Same own m m' ∧ m'.calls = m.calls := by
  obtain ⟨m1, e1, i1, s1, l1, c1⟩ := raClearA_spec h hi
  refine ⟨m1.set p none, by rw [freeBitmapA, e1]; simp [mfree_some l1], i1.free, ?_, c1⟩
  intro x hx
  rw [set_live_ne _ _ (show x ≠ p from fun e => (List.nodup_cons.1 i1.nodup).1 (e ▸ hx))]
  exact s1 x hx

/-- The empty bitmap with room for `alloc` containers. -/
theorem holdsB_empty {p : Nat} {cow : Bool} {alloc : Nat} {buf : Option Nat} (h1 : m.live p = some (.bitmap ⟨0, alloc, buf, cow⟩))
    (h2 : buf = none → alloc = 0) (h3 : ∀ q, buf = some q → q ≠ p ∧ m.live q = some (.slots (freshSlots alloc))) :
    HoldsB m p [] cow alloc buf [] where
  hdr := h1
  room := by simp
  slots := by
    intro q hq
    exact ⟨_, (h3 q hq).2, by simp [freshSlots], by simp [freshSlots], by simp [freshSlots], by simp, by simp, by simp⟩
  nobuf := h2
  conts := List.Forall₂.nil
  nodup := by
    cases buf with
    | none => simp
    | some q => simpa using (h3 q rfl).1.symm

theorem raInitCapA_spec {p : Nat} (cap : Nat) (hi : Owns F m (p :: own)) (ok : Nat → Bool) :
    (∃ m', raInitCapA ok p cap m = some (false, m') ∧ Owns F m' (p :: own) ∧ Same own m m' ∧ Refused ok m m' ∧
      ∃ b, m'.live p = some b) ∨
    (∃ m' buf, raInitCapA ok p cap m = some (true, m') ∧ Owns F m' (p :: (buf.toList ++ own)) ∧ Same own m m' ∧ Granted ok m m' ∧
      HoldsB m' p [] false (min cap 65536) buf []) := by
  have i0 := hi.set (a := p) (by simp) (some (.bitmap ⟨0, 0, none, false⟩))
  have s0 : Same own m (m.set p (some (.bitmap ⟨0, 0, none, false⟩))) := by
    intro x hx
    exact set_live_ne _ _ (fun e => (List.nodup_cons.1 hi.nodup).1 (e ▸ hx))
  have hcap : (if cap > 0x10000 then 0x10000 else cap) = min cap 65536 := by split <;> omega
  rw [raInitCapA]
  simp only [hcap]
  by_cases hz : min cap 65536 > 0
  · rw [if_pos hz]
    rcases malloc_cases i0 ok (.slots (freshSlots (min cap 65536))) with ⟨m1, e1, i1, l1, r1⟩ | ⟨m1, e1, i1, l1, o1, s1, g1⟩
    · left
      refine ⟨m1, by rw [e1], i1, fun x hx => by rw [l1]; exact s0 x hx, r1, _, by rw [l1]; exact set_live_eq _ _ _⟩
    · right
      generalize hq : (m.set p (some (.bitmap ⟨0, 0, none, false⟩))).next = q at *
      have hqp : q ≠ p := fun e => (List.nodup_cons.1 i1.nodup).1 (by simp [e])
      refine ⟨m1.set p (some (.bitmap ⟨0, min cap 65536, some q, false⟩)), some q, by rw [e1],
        (i1.set (a := p) (by simp) _).perm (by perm_tac), ?_, g1.congr rfl, holdsB_empty (set_live_eq _ _ _) (by simp) ?_⟩
      · intro x hx
        rw [set_live_ne _ _ (show x ≠ p from fun e => (List.nodup_cons.1 hi.nodup).1 (e ▸ hx)), s1 x (by simp [hx])]
        exact s0 x hx
      · intro q' hq'
        cases hq'
        exact ⟨hqp, by rw [set_live_ne _ _ hqp, l1]⟩
  · rw [if_neg hz]
    right
    refine ⟨_, none, rfl, i0, s0, (Granted.refl ok m).congr rfl, ?_⟩
    rw [show min cap 65536 = 0 by omega]
    exact holdsB_empty (set_live_eq _ _ _) (by simp) (by simp)

/-- What a call that makes a bitmap does: nothing if a request was refused. -/
def MadeB (F : Nat → Option MBlk) (ok : Nat → Bool) (m : Mem) (own : List Nat) (b : Bitmap) (cow : Bool) (x : Option (Option Nat × Mem)) : Prop :=
  (∃ m', x = some (none, m') ∧ Owns F m' own ∧ Same own m m' ∧ Refused ok m m') ∨
  (∃ p alloc buf rs m', x = some (some p, m') ∧ Owns F m' (bmBlocks p buf rs ++ own) ∧ Same own m m' ∧ Granted ok m m' ∧
    HoldsB m' p b cow alloc buf rs)

theorem createA_spec (cap : Nat) (hi : Owns F m own) (ok : Nat → Bool) : MadeB F ok m own [] false (createA ok cap m) := by
  rcases malloc_cases hi ok (.bitmap ⟨0, 0, none, false⟩) with ⟨m1, e1, i1, l1, r1⟩ | ⟨m1, e1, i1, l1, o1, s1, g1⟩
  · left
    exact ⟨m1, by rw [createA, e1], i1, fun x _ => by rw [l1], r1⟩
  · rcases raInitCapA_spec cap i1 ok with ⟨m2, e2, i2, s2, r2, b, l2⟩ | ⟨m2, buf, e2, i2, s2, g2, h2⟩
    · left
      refine ⟨m2.set m.next none, by rw [createA, e1]; simp [e2, mfree_some l2], i2.free, ?_, (g1.refused r2).congr rfl⟩
      intro x hx
      rw [set_live_ne _ _ (show x ≠ m.next from fun e => hi.next_notMem (e ▸ hx)), s2 x hx]
      exact s1 x hx
    · right
      exact ⟨m.next, _, buf, [], m2, by rw [createA, e1]; simp [e2], by simpa [bmBlocks] using i2, s1.trans s2, g1.trans g2, h2⟩

theorem putAt_eq {α : Type} {xs : List α} {i : Nat} (v : α) (h : i < xs.length) : putAt xs i v = some (xs.set i v) := by
  simp [putAt, h]

theorem copyN_eq {α : Type} {dst src : List α} {n : Nat} (h1 : n ≤ src.length) (h2 : n ≤ dst.length) :
    copyN dst src n = some (src.take n ++ dst.drop n) := by simp [copyN, h1, h2]

theorem forall₂_take {α β : Type} {R : α → β → Prop} : ∀ {l : List α} {l' : List β}, List.Forall₂ R l l' → ∀ n, List.Forall₂ R (l.take n) (l'.take n)
  | _, _, .nil, n => by simp
  | _, _, .cons h t, 0 => by simp
  | _, _, .cons h t, n + 1 => by simpa using ⟨h, forall₂_take t n⟩

theorem forall₂_append {α β : Type} {R : α → β → Prop} : ∀ {l l2 : List α} {l' l2' : List β}, List.Forall₂ R l l' → List.Forall₂ R l2 l2' →
    List.Forall₂ R (l ++ l2) (l' ++ l2')
  | _, _, _, _, .nil, h => by simpa using h
  | _, _, _, _, .cons h t, h' => by simpa using ⟨h, forall₂_append t h'⟩

theorem forall₂_mono {α β : Type} {R R' : α → β → Prop} : ∀ {l : List α} {l' : List β}, List.Forall₂ R l l' →
    (∀ a ∈ l, ∀ b, R a b → R' a b) → List.Forall₂ R' l l'
  | _, _, .nil, h => by simp
  | _, _, .cons h t, h' => List.Forall₂.cons (h' _ (by simp) _ h) (forall₂_mono t (fun a ha => h' a (by simp [ha])))

theorem holdsC_blocks_same {rs : List CRec} {cs : List Container} (h : List.Forall₂ (HoldsC m) rs cs)
    (hs : Same (rs.flatMap CRec.blocks) m m') : List.Forall₂ (HoldsC m') rs cs :=
  forall₂_mono h (fun r hr c hc => holdsC_congr hc (hs.mono (fun x hx => List.mem_flatMap.2 ⟨r, hr, hx⟩)))

theorem take_succ_set {α β : Type} {xs : List α} {ys : List β} {f : β → α} {i : Nat} {v : β} (h : xs.take i = ys.map f) (hi : i < xs.length) :
    (xs.set i (f v)).take (i + 1) = (ys ++ [v]).map f := by
  rw [List.take_add_one, List.take_set, List.getElem?_set_self hi, List.set_eq_of_length_le (by simp; omega), h]
  simp

/-- The loop that clones the containers: the first `i` of them are at `rs1`. -/
theorem cloneLoopA_spec {src dest q : Nat} {b : Bitmap} {cowS : Bool} {allocS : Nat} {bufS : Option Nat} {rsS : List CRec}
    (hsrc : HoldsB base src b cowS allocS bufS rsS) (ok : Nat → Bool) (hd : RaHdr) (hq : hd.buf = some q) :
    ∀ (n i : Nat) (m : Mem) (rs1 : List CRec) (s : SlotBuf), i + n = b.length →
    Owns base.live m (dest :: q :: rs1.flatMap CRec.blocks ++ own) → m.live dest = some (.bitmap hd) → m.live q = some (.slots s) →
    b.length ≤ s.conts.length → s.types.take b.length = b.map (fun e => some (typecode e.2)) →
    s.conts.take i = rs1.map (fun r => some (some r.addr)) → List.Forall₂ (HoldsC m) rs1 ((b.map (·.2)).take i) →
    (∃ m', cloneLoopA ok src dest n i m = some (false, m') ∧ Owns base.live m' (dest :: own) ∧ Same own m m' ∧
      m'.live dest = some (.bitmap { hd with size := 0, alloc := 0, buf := none }) ∧ Refused ok m m') ∨
    (∃ m' rs s', cloneLoopA ok src dest n i m = some (true, m') ∧ Owns base.live m' (dest :: q :: rs.flatMap CRec.blocks ++ own) ∧
      Same own m m' ∧ Granted ok m m' ∧ m'.live dest = some (.bitmap hd) ∧ m'.live q = some (.slots s') ∧ s'.keys = s.keys ∧
      s'.types = s.types ∧ s'.conts.length = s.conts.length ∧ s'.conts.take b.length = rs.map (fun r => some (some r.addr)) ∧
      List.Forall₂ (HoldsC m') rs (b.map (·.2)))
  | 0, i, m, rs1, s, hn, hi, h1, h2, h3, h4, h5, h6 => by
    right
    have : i = b.length := by omega
    subst this
    rw [List.take_of_length_le (by simp)] at h6
    exact ⟨m, rs1, s, rfl, hi, Same.refl _ _, Granted.refl _ _, h1, h2, rfl, rfl, rfl, h5, h6⟩
  | n + 1, i, m, rs1, s, hn, hi, h1, h2, h3, h4, h5, h6 => by
    have hib : i < b.length := by omega
    have hlenS : rsS.length = b.length := by have := hsrc.conts.length_eq; simpa using this
    have hlen1 : rs1.length = i := by have := h6.length_eq; simp at this; omega
    -- the container of the source
    obtain ⟨r, hr⟩ : ∃ r, rsS[i]? = some r := ⟨rsS[i]'(by omega), by simp [hlenS, hib]⟩
    obtain ⟨c, hcc⟩ : ∃ c, (b.map (·.2))[i]? = some c := ⟨(b[i]).2, by simp [hib]⟩
    have hslot : slotAtA m src i = some (some r.addr, typecode c) := by
      refine holdsB_slot hsrc (fun x hx => hi.keep ?_) hr hcc
      simp only [List.mem_cons, Option.mem_toList, Option.mem_def] at hx
      rcases hx with rfl | hx
      · rw [hsrc.hdr]; simp
      · obtain ⟨s', hs', _⟩ := hsrc.slots x hx
        rw [hs']; simp
    have hrc : HoldsC base r c := by
      have := (List.forall₂_iff_get.1 hsrc.conts).2 i (by omega) (by simp [hib])
      rw [List.getElem?_eq_getElem (by omega)] at hr
      rw [List.getElem?_eq_getElem (by simp [hib])] at hcc
      cases hr; cases hcc
      exact this
    have hdm : dest ∈ dest :: q :: rs1.flatMap CRec.blocks ++ own := by simp
    have hqm : q ∈ dest :: q :: rs1.flatMap CRec.blocks ++ own := by simp
    have hdq : dest ≠ q := fun e => by
      have := List.nodup_cons.1 (List.nodup_append.1 hi.nodup).1
      exact this.1 (by simp [e])
    rcases cloneA_spec hi ok (hi.base_holdsC hrc) with ⟨m1, e1, i1, s1, r1⟩ | ⟨r', m1, e1, i1, s1, g1, hc1⟩
    · left
      have l1 : m1.live dest = some (.bitmap hd) := by rw [s1 dest hdm, h1]
      have l2 : m1.live q = some (.slots s) := by rw [s1 q hqm, h2]
      have ep := putAt_eq (some (none : Option Nat)) (show i < s.conts.length by omega)
      have i2 := i1.set hqm (some (.slots { s with conts := s.conts.set i (some none) }))
      have i2' : Owns base.live (m1.set q (some (.slots { s with conts := s.conts.set i (some none) })))
          (rs1.flatMap CRec.blocks ++ (dest :: q :: own)) := i2.perm (by perm_tac)
      have hnotq : ∀ x ∈ rs1.flatMap CRec.blocks ++ own, x ≠ q := by
        intro x hx e
        subst e
        have := (List.nodup_cons.1 (hi.perm (own' := x :: (dest :: rs1.flatMap CRec.blocks ++ own)) (by perm_tac)).nodup).1
        exact this (by simp only [List.mem_append, List.mem_cons] at hx ⊢; exact hx.elim (fun w => Or.inl (Or.inr w)) Or.inr)
      have hh : List.Forall₂ (HoldsC (m1.set q (some (.slots { s with conts := s.conts.set i (some none) })))) rs1 ((b.map (·.2)).take i) := by
        refine holdsC_blocks_same h6 (fun x hx => ?_)
        rw [set_live_ne _ _ (hnotq x (by simp only [List.mem_append]; exact Or.inl hx))]
        exact s1 x (by simp only [List.mem_append, List.mem_cons]; tauto)
      obtain ⟨m3, e3, i3, s3, c3⟩ := clearLoopA_spec dest rs1 ((b.map (·.2)).take i) 0 _ i2' hh
        (fun j r2 c2 hr2 hc2 m4 hm4 => by
          have hji : j < i := by
            rcases Nat.lt_or_ge j rs1.length with w | w
            · omega
            · rw [List.getElem?_eq_none w] at hr2; cases hr2
          rw [Nat.zero_add]
          refine slotAtA_eq (h := hd) (q := q) (s := { s with conts := s.conts.set i (some none) }) ?_ hq ?_ ?_ ?_
          · rw [hm4 dest (by simp), set_live_ne _ _ hdq, l1]
          · rw [hm4 q (by simp), set_live_eq]
          · simp only
            rw [List.getElem?_set_ne (by omega)]
            exact take_getA h5 (by simp [hr2])
          · simp only
            refine take_getA h4 ?_
            rw [List.getElem?_take_of_lt hji, List.getElem?_map] at hc2
            rw [List.getElem?_map]
            cases e : b[j]? with
            | none => simp [e] at hc2
            | some x => simp [e] at hc2; simp [hc2])
      have l3 : m3.live dest = some (.bitmap hd) := by rw [s3 dest (by simp), set_live_ne _ _ hdq, l1]
      have l4 : m3.live q = some (.slots { s with conts := s.conts.set i (some none) }) := by rw [s3 q (by simp), set_live_eq]
      have i4 := (i3.perm (own' := q :: dest :: own) (by perm_tac)).free
      refine ⟨(m3.set q none).set dest (some (.bitmap { hd with size := 0, alloc := 0, buf := none })), ?_, i4.set (by simp) _, ?_,
        set_live_eq _ _ _, (r1.congr c3).congr rfl⟩
      · rw [cloneLoopA, hslot]
        simp only [Option.bind_eq_bind, Option.bind_some, e1, hdrA_eq l1, slotsA_eq hq l2, ep, putSlotsA_eq hq, if_true]
        rw [hlen1] at e3
        rw [e3]
        simp [clearWithoutA, hdrA_eq l3, hq, mfree_some l4]
      · intro x hx
        have hxq := hnotq x (by simp [hx])
        have hxd : x ≠ dest := fun e => (List.nodup_cons.1 i4.nodup).1 (e ▸ hx)
        rw [set_live_ne _ _ hxd, set_live_ne _ _ hxq, s3 x (by simp [hx]), set_live_ne _ _ hxq]
        exact s1 x (by simp [hx])
    · have l1 : m1.live dest = some (.bitmap hd) := by rw [s1 dest hdm, h1]
      have l2 : m1.live q = some (.slots s) := by rw [s1 q hqm, h2]
      have hil : i < s.conts.length := by omega
      have ep := putAt_eq (some (some r'.addr)) hil
      have i2 := (i1.set (a := q) (by simp) (some (.slots { s with conts := s.conts.set i (some (some r'.addr)) }))).perm
        (own' := dest :: q :: (rs1 ++ [r']).flatMap CRec.blocks ++ own) (by perm_tac)
      have hnotq : ∀ x ∈ (rs1 ++ [r']).flatMap CRec.blocks ++ own, x ≠ q := by
        intro x hx e
        subst e
        have := (List.nodup_cons.1 (i2.perm (own' := x :: (dest :: (rs1 ++ [r']).flatMap CRec.blocks ++ own)) (by perm_tac)).nodup).1
        exact this (by simp only [List.mem_append, List.mem_cons] at hx ⊢; exact hx.elim (fun w => Or.inl (Or.inr w)) Or.inr)
      have hblk : ∀ x ∈ (rs1 ++ [r']).flatMap CRec.blocks, (m1.set q (some (.slots { s with conts := s.conts.set i (some (some r'.addr)) }))).live x = m1.live x :=
        fun x hx => set_live_ne _ _ (hnotq x (by simp only [List.mem_append]; exact Or.inl hx))
      have sA : Same own m (m1.set q (some (.slots { s with conts := s.conts.set i (some (some r'.addr)) }))) := by
        intro x hx
        rw [set_live_ne _ _ (hnotq x (by simp [hx]))]
        exact s1 x (by simp [hx])
      have := cloneLoopA_spec hsrc ok hd hq n (i + 1) (m1.set q (some (.slots { s with conts := s.conts.set i (some (some r'.addr)) })))
        (rs1 ++ [r']) { s with conts := s.conts.set i (some (some r'.addr)) } (by omega) i2
        (by rw [set_live_ne _ _ hdq, l1]) (set_live_eq _ _ _) (by simpa using h3) h4 (take_succ_set h5 hil)
        (by
          rw [List.take_add_one, hcc]
          refine forall₂_append (holdsC_blocks_same h6 (fun x hx => ?_)) (List.Forall₂.cons (holdsC_congr hc1 (fun x hx => ?_)) .nil)
          · rw [hblk x (by simp only [List.flatMap_append, List.mem_append]; exact Or.inl hx)]
            exact s1 x (by simp only [List.mem_append, List.mem_cons]; tauto)
          · exact hblk x (by simp [hx]))
      have e0 : cloneLoopA ok src dest (n + 1) i m = cloneLoopA ok src dest n (i + 1)
          (m1.set q (some (.slots { s with conts := s.conts.set i (some (some r'.addr)) }))) := by
        rw [cloneLoopA, hslot]
        simp only [Option.bind_eq_bind, Option.bind_some, e1, hdrA_eq l1, slotsA_eq hq l2, ep, putSlotsA_eq hq]
        simp
      rw [e0]
      rcases this with ⟨m', a1, a2, a3, a4, a5⟩ | ⟨m', rs, s', a1, a2, a3, a4, a5, a6, a7, a8, a9, a10, a11⟩
      · exact Or.inl ⟨m', a1, a2, sA.trans a3, a4, g1.refused a5⟩
      · refine Or.inr ⟨m', rs, s', a1, a2, sA.trans a3, g1.trans a4, a5, a6, a7, a8, ?_, a10, a11⟩
        simpa using a9

end CRoaring
