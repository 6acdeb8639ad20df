import Verif.Lemmas.Store64Ops5
import Verif.Model.Store64Ask
/-
The functions that only read a 64-bit bitmap: what they do on memory is what they do on the tree of containers.
-/
set_option linter.unusedSimpArgs false
set_option linter.unusedVariables false
namespace CRoaring

/-- The iterator over the tree of containers stands at `o`. -/
def SameAs (R : R64) (ait : AIt) : Option (List Nat) → Prop
  | none => ait.value = none
  | some k => ait.key = k ∧ ∃ c, RAt R ait c

/-- Two iterators at the same place: one over the memory, one over the tree of containers. -/
def Bi (r : R64M) (L : ArtRef → Prop) (R : R64) (B : Prop) (it : HIt) (ait : AIt) : Prop := ∃ o, Cs r L (artFind R) B it o ∧ SameAs R ait o

/-- The counter of a loop suffices. -/
def Gas (n : Nat) (ait : AIt) : Prop := 0 < n ∧ (ait.value ≠ none → P48 < n + keyNum ait.key)

theorem key_eq {k k' : List Nat} (h : IsKey k) (h' : IsKey k') (e : keyNum k = keyNum k') : k = k' := keyNum_inj h.byte h'.byte (by rw [h.len, h'.len]) e

theorem has_find {R : R64} (hR : ArtOk R) {k : List Nat} (hk : IsKey k) : artFind R k ≠ none ↔ ∃ c, RHas R k c := by
  rw [Option.ne_none_iff_exists']
  exact ⟨fun ⟨c, h⟩ => ⟨c, (artFind_iff hR hk c).1 h⟩, fun ⟨c, h⟩ => ⟨c, (artFind_iff hR hk c).2 h⟩⟩

theorem first_same {R : R64} (hR : ArtOk R) {X : Nat} {o : Option (List Nat)} {ait : AIt} (h : From (artFind R) X o) (ha : RFirst R X ait) :
    SameAs R ait o ∧ (ait.value ≠ none → X ≤ keyNum ait.key) := by
  unfold RFirst at ha
  cases hv : ait.value with
  | none =>
    rw [hv] at ha
    simp only at ha
    cases o with
    | none => exact ⟨hv, fun h => absurd rfl h⟩
    | some k =>
      obtain ⟨h1, h2, h3, h4⟩ := h
      obtain ⟨c, hc⟩ := (has_find hR h1).1 h2
      have := ha k c hc
      omega
  | some c =>
    rw [hv] at ha
    simp only at ha
    obtain ⟨h1, h2, h3⟩ := ha
    have hk := hR.key (h1.has hR)
    have hf : artFind R ait.key ≠ none := (has_find hR hk).2 ⟨c, h1.has hR⟩
    refine ⟨?_, fun _ => h2⟩
    cases o with
    | none =>
      have := h _ hk hf
      omega
    | some k =>
      obtain ⟨g1, g2, g3, g4⟩ := h
      obtain ⟨d, hd⟩ := (has_find hR g1).1 g2
      have e1 := g4 _ hk hf h2
      have e2 := h3 _ _ hd g3
      exact ⟨key_eq hk g1 (by omega), c, h1⟩

theorem last_same {R : R64} (hR : ArtOk R) {X : Nat} {r : R64M} {root : Option (Art Nat)} (hs : Slots r.containers r.mem (artFind root) (artFind R)) (ho : ArtOk root)
    {e : Option (List Nat × Nat)} {ait : AIt} (h : LastO root X e) (ha : RLast R X ait) : SameAs R ait (e.map Prod.fst) := by
  have both : ∀ k, IsKey k → ((∃ c, RHas R k c) ↔ ∃ v, RHas root k v) := by
    intro k hk
    rw [← has_find hR hk, Ne, slots_none hs hk, ← Ne, Option.ne_none_iff_exists']
    exact ⟨fun ⟨c, h⟩ => ⟨c, (artFind_iff ho hk c).1 h⟩, fun ⟨c, h⟩ => ⟨c, (artFind_iff ho hk c).2 h⟩⟩
  unfold RLast at ha
  cases hv : ait.value with
  | none =>
    rw [hv] at ha
    simp only at ha
    cases e with
    | none => exact hv
    | some e =>
      obtain ⟨h1, h2, h3⟩ := h
      obtain ⟨c, hc⟩ := (both _ (ho.key h1)).2 ⟨_, h1⟩
      have := ha _ c hc
      omega
  | some c =>
    rw [hv] at ha
    simp only at ha
    obtain ⟨h1, h2, h3⟩ := ha
    have hk := hR.key (h1.has hR)
    obtain ⟨v, hv'⟩ := (both _ hk).1 ⟨c, h1.has hR⟩
    cases e with
    | none =>
      have := h _ _ hv'
      omega
    | some e =>
      obtain ⟨g1, g2, g3⟩ := h
      obtain ⟨d, hd⟩ := (both _ (ho.key g1)).2 ⟨_, g1⟩
      have e1 := g3 _ _ hv' h2
      have e2 := h3 _ _ hd g2
      exact ⟨key_eq hk (ho.key g1) (by omega), c, h1⟩

theorem gas_start {R : R64} (hR : ArtOk R) {X : Nat} {ait : AIt} : Gas FUEL ait := by
  have := FUEL_keys
  exact ⟨by omega, fun _ => by omega⟩

/-- What an iterator sees, and the next step. -/
theorem Bi.see {r : R64M} {L : ArtRef → Prop} {R : R64} {B : Prop} {it : HIt} {ait : AIt} (hR : ArtOk R) (h : Bi r L R B it ait) :
    (it.value = none ∧ ait.value = none) ∨ ∃ p l a c it', it.value = some p ∧ ait.value = some c ∧ it.key = ait.key ∧ r.art.load p = .ok l ∧
      r.look p = .ok (l, a, c) ∧ IsKey ait.key ∧ r.art.itNext it = .ok it' ∧ Bi r L R True it' (itNext R ait) ∧
      ∀ n, Gas (n + 1) ait → Gas n (itNext R ait) := by
  obtain ⟨o, h1, h2⟩ := h
  cases o with
  | none => exact .inl ⟨h1.ended, h2⟩
  | some k =>
    obtain ⟨hk, p, l, a, c, e1, e2, e3, e4⟩ := h1.key
    obtain ⟨rfl, c', hc'⟩ := h2
    obtain ⟨it', o', g1, g2, g3⟩ := h1.next
    have hcc : c = c' := by
      have := (artFind_iff hR hk c').2 (hc'.has hR)
      rw [e3] at this
      exact Option.some.inj this
    subst hcc
    have hld : r.art.load p = .ok l := by
      unfold R64M.look at e4
      cases hl : r.art.load p with
      | ok l' =>
        rw [hl, ok_bind] at e4
        cases hg : r.getContainer l' with
        | ok a' =>
          rw [hg, ok_bind] at e4
          cases hd : r.deref a' (leafType l') with
          | ok d =>
            rw [hd, ok_bind] at e4
            injection e4 with e4
            injection e4 with e4 _
            rw [e4]
          | oob => rw [hd] at e4; cases e4
          | fail => rw [hd] at e4; cases e4
        | oob => rw [hg] at e4; cases e4
        | fail => rw [hg] at e4; cases e4
      | oob => rw [hl] at e4; cases e4
      | fail => rw [hl] at e4; cases e4
    obtain ⟨s1, s2⟩ := first_same hR g3 (itNext_first hR hc')
    refine .inr ⟨p, l, a, c, it', e1, hc'.value, e2, hld, e4, hk, g1, ⟨o', g2, s1⟩, fun n ⟨_, hg⟩ => ?_⟩
    have h3 := hg (by rw [hc'.value]; simp)
    have h4 := key_lt hk
    exact ⟨by omega, fun hne => by have := s2 hne; omega⟩

theorem Bi.start {r : R64M} {L : ArtRef → Prop} {R : R64} (hR : ArtOk R) (h : Sim64 r L R) :
    ∃ it, r.art.initIterator true = .ok it ∧ Bi r L R True it (artInitIterator R true) := by
  obtain ⟨F, m, h⟩ := h
  obtain ⟨it, o, g1, g2, g3⟩ := h.start
  exact ⟨it, g1, o, g2, (first_same hR g3 (artInit_first hR)).1⟩

theorem Bi.startLast {r : R64M} {L : ArtRef → Prop} {R : R64} (hR : ArtOk R) (h : Sim64 r L R) :
    ∃ it, r.art.initIterator false = .ok it ∧ Bi r L R True it (artInitIterator R false) := by
  obtain ⟨F, m, ⟨root, h1, h2, h3⟩, h4, h5⟩ := h
  have hs := h4.congrM (m' := artFind root) (fun k hk => (h3 k hk).symm)
  obtain ⟨hit, e, g1, g2, -, g3⟩ := it_init h1.rep h2 false
  exact ⟨hit, g1, _, ⟨root, h1.rep, h2, hs, h5, e, g2, rfl⟩, last_same hR hs h2 (g3 rfl) (artInit_last hR)⟩

theorem Bi.lower {r : R64M} {L : ArtRef → Prop} {R : R64} (hR : ArtOk R) (h : Sim64 r L R) {k : List Nat} (hk : IsKey k) :
    ∃ it, r.art.lowerBound k = .ok it ∧ Bi r L R False it (artLowerBound R k) := by
  obtain ⟨F, m, ⟨root, h1, h2, h3⟩, h4, h5⟩ := h
  have hs := h4.congrM (m' := artFind root) (fun k hk => (h3 k hk).symm)
  obtain ⟨hit, e, g1, g2, g3⟩ := it_lower h1.rep h2 hk
  exact ⟨hit, g1, _, ⟨root, h1.rep, h2, hs, h5, e, g2, rfl⟩, (first_same hR (from_first hs h2 g3) (artLowerBound_first hR hk)).1⟩

theorem Bi.prev {r : R64M} {L : ArtRef → Prop} {R : R64} {B : Prop} {it : HIt} {ait : AIt} (hR : ArtOk R) (h : Bi r L R B it ait) (hv : ait.value ≠ none) :
    ∃ it', r.art.itPrev it = .ok it' ∧ Bi r L R True it' (itPrev R ait) := by
  obtain ⟨o, ⟨root, h1⟩, h2⟩ := h
  cases o with
  | none => exact absurd h2 hv
  | some k =>
    obtain ⟨rfl, c, hc⟩ := h2
    obtain ⟨p, l, a, c, F, g1, g2, g3, g4, g5⟩ := h1.see
    obtain ⟨it', e, e1, e2, e3⟩ := it_prev h1.rep h1.ok g3
    exact ⟨it', e1, _, ⟨root, h1.rep, h1.ok, h1.slots, h1.first, e, e2, rfl⟩, last_same hR h1.slots h1.ok e3 (itPrev_last hR hc)⟩

theorem Bi.seek {r : R64M} {L : ArtRef → Prop} {R : R64} {it : HIt} {ait : AIt} (hR : ArtOk R) (h : Bi r L R True it ait) {k : List Nat} (hk : IsKey k) :
    ∃ it', r.art.itLowerBound it k = .ok it' ∧ Bi r L R True it' (itLowerBound R ait k) := by
  obtain ⟨o, h1, h2⟩ := h
  obtain ⟨it', o', g1, g2, g3⟩ := h1.seek hk
  have hf : RFirst R (keyNum k) (itLowerBound R ait k) := by
    cases o with
    | none => exact itLowerBound_none hR hk h2
    | some k' =>
      obtain ⟨-, c, hc⟩ := h2
      exact itLowerBound_first hR hk hc
  exact ⟨it', g1, o', g2, (first_same hR g3 hf).1⟩

/-! ### The loops -/

section
variable {r : R64M} {L : ArtRef → Prop} {R : R64} (hR : ArtOk R)
include hR

theorem rank_loop (k : List Nat × Nat) : ∀ (n : Nat) {B : Prop} {it : HIt} {ait : AIt} (rank : Nat), Bi r L R B it ait → Gas n ait →
    R64M.rankLoop r k n it rank = .ok (rank64Loop R k n ait rank)
  | 0, _, _, _, _, _, hg => absurd hg.1 (by omega)
  | n + 1, B, it, ait, rank, h, hg => by
    rcases h.see hR with ⟨e1, e2⟩ | ⟨p, l, a, c, it', e1, e2, e3, e4, e5, e6, e7, e8, e9⟩
    · simp only [R64M.rankLoop, rank64Loop, e1, e2]
    · have ih := fun rank => rank_loop k n rank e8 (e9 n hg)
      simp only [R64M.rankLoop, rank64Loop, e1, e2, e3, e4, e5, e7, ok_bind, ih]
      split
      · rfl
      · split <;> rfl

theorem index_loop (k : List Nat × Nat) : ∀ (n : Nat) {B : Prop} {it : HIt} {ait : AIt} (rank : Nat), Bi r L R B it ait → Gas n ait →
    R64M.getIndexLoop r k n it rank = .ok (getIndex64Loop R k n ait rank)
  | 0, _, _, _, _, _, hg => absurd hg.1 (by omega)
  | n + 1, B, it, ait, rank, h, hg => by
    rcases h.see hR with ⟨e1, e2⟩ | ⟨p, l, a, c, it', e1, e2, e3, e4, e5, e6, e7, e8, e9⟩
    · simp only [R64M.getIndexLoop, getIndex64Loop, e1, e2]
    · have ih := fun rank => index_loop k n rank e8 (e9 n hg)
      simp only [R64M.getIndexLoop, getIndex64Loop, e1, e2, e3, e4, e5, e7, ok_bind, ih]
      split
      · rfl
      · split
        · split <;> rfl
        · rfl

theorem select_loop (k : Nat) : ∀ (n : Nat) {B : Prop} {it : HIt} {ait : AIt} (rank : Nat), Bi r L R B it ait → Gas n ait →
    R64M.selectLoop r k n it rank = .ok (select64Loop R k n ait rank)
  | 0, _, _, _, _, _, hg => absurd hg.1 (by omega)
  | n + 1, B, it, ait, rank, h, hg => by
    rcases h.see hR with ⟨e1, e2⟩ | ⟨p, l, a, c, it', e1, e2, e3, e4, e5, e6, e7, e8, e9⟩
    · simp only [R64M.selectLoop, select64Loop, e1, e2]
    · have ih := fun rank => select_loop k n rank e8 (e9 n hg)
      simp only [R64M.selectLoop, select64Loop, e1, e2, e3, e4, e5, e7, ok_bind, ih]
      split
      · generalize containerSelect 0 (u32 ((k : Int) - rank)) c = q
        cases q with
        | none => rfl
        | some x => cases x <;> rfl
      · rfl

theorem rangeCard_loop (kmin kmax : List Nat × Nat) : ∀ (n : Nat) {B : Prop} {it : HIt} {ait : AIt} (rank : Nat), Bi r L R B it ait → Gas n ait →
    R64M.rangeCardLoop r kmin kmax n it rank = .ok (rangeCard64Loop R kmin kmax n ait rank)
  | 0, _, _, _, _, _, hg => absurd hg.1 (by omega)
  | n + 1, B, it, ait, rank, h, hg => by
    rcases h.see hR with ⟨e1, e2⟩ | ⟨p, l, a, c, it', e1, e2, e3, e4, e5, e6, e7, e8, e9⟩
    · simp only [R64M.rangeCardLoop, rangeCard64Loop, e1, e2]
    · have ih := fun rank => rangeCard_loop kmin kmax n rank e8 (e9 n hg)
      simp only [R64M.rangeCardLoop, rangeCard64Loop, e1, e2, e3, e4, e5, e7, ok_bind, ih]
      split <;> rfl

theorem stat_loop : ∀ (n : Nat) {B : Prop} {it : HIt} {ait : AIt} (st : Stats), Bi r L R B it ait → Gas n ait →
    R64M.statLoop r n it st = .ok (stat64Loop R n ait st)
  | 0, _, _, _, _, _, hg => absurd hg.1 (by omega)
  | n + 1, B, it, ait, st, h, hg => by
    rcases h.see hR with ⟨e1, e2⟩ | ⟨p, l, a, c, it', e1, e2, e3, e4, e5, e6, e7, e8, e9⟩
    · simp only [R64M.statLoop, stat64Loop, e1, e2]
    · have ih := fun st => stat_loop n st e8 (e9 n hg)
      simp only [R64M.statLoop, stat64Loop, e1, e2, e3, e4, e5, e7, ok_bind, ih]

theorem containsRange_loop (kmin kmax : List Nat × Nat) (m : Nat) : ∀ (n : Nat) {B : Prop} {it : HIt} {ait : AIt} (prev : Nat), Bi r L R B it ait → Gas n ait →
    R64M.containsRangeLoop r kmin kmax m n it prev = .ok (containsRange64Loop R kmin kmax m n ait prev)
  | 0, _, _, _, _, _, hg => absurd hg.1 (by omega)
  | n + 1, B, it, ait, prev, h, hg => by
    rcases h.see hR with ⟨e1, e2⟩ | ⟨p, l, a, c, it', e1, e2, e3, e4, e5, e6, e7, e8, e9⟩
    · simp only [R64M.containsRangeLoop, containsRange64Loop, e1, e2]
    · have ih := fun st => containsRange_loop kmin kmax m n st e8 (e9 n hg)
      simp only [R64M.containsRangeLoop, containsRange64Loop, e1, e2, e3, e4, e5, e7, ok_bind, ih]
      split
      · rfl
      · split
        · rfl
        · generalize (if artCompareKeys ait.key kmin.1 = 0 then kmin.2 else 0) = x
          generalize (if artCompareKeys ait.key kmax.1 = 0 then kmax.2 else 65536) = y
          split <;> split <;> rfl

theorem iterate_loop {σ : Type} (f : σ → Nat → σ × Bool) : ∀ (n : Nat) {B : Prop} {it : HIt} {ait : AIt} (s : σ), Bi r L R B it ait → Gas n ait →
    R64M.iterateLoop f r n it s = .ok (iterate64Loop f R n ait s)
  | 0, _, _, _, _, _, hg => absurd hg.1 (by omega)
  | n + 1, B, it, ait, s, h, hg => by
    rcases h.see hR with ⟨e1, e2⟩ | ⟨p, l, a, c, it', e1, e2, e3, e4, e5, e6, e7, e8, e9⟩
    · simp only [R64M.iterateLoop, iterate64Loop, e1, e2]
    · have ih := fun s => iterate_loop f n s e8 (e9 n hg)
      simp only [R64M.iterateLoop, iterate64Loop, e1, e2, e3, e4, e5, e7, ok_bind, ih]
      split <;> rfl

/-! ### The functions -/

variable (h : Sim64 r L R)
include h

theorem rank_sim (v : Nat) : r.rank v = .ok (r64Rank R v) := by
  obtain ⟨it, g1, g2⟩ := Bi.start hR h
  rw [R64M.rank, g1, ok_bind, rank_loop hR _ _ _ g2 (gas_start hR (X := 0))]; rfl

theorem getIndex_sim (v : Nat) : r.getIndex v = .ok (r64GetIndex R v) := by
  obtain ⟨it, g1, g2⟩ := Bi.start hR h
  rw [R64M.getIndex, g1, ok_bind, index_loop hR _ _ _ g2 (gas_start hR (X := 0))]; rfl

theorem select_sim (v : Nat) : r.select v = .ok (r64Select R v) := by
  obtain ⟨it, g1, g2⟩ := Bi.start hR h
  rw [R64M.select, g1, ok_bind, select_loop hR _ _ _ g2 (gas_start hR (X := 0))]; rfl

theorem iterate_sim {σ : Type} (f : σ → Nat → σ × Bool) (s : σ) : R64M.iterate f s r = .ok (r64Iterate f s R) := by
  obtain ⟨it, g1, g2⟩ := Bi.start hR h
  rw [R64M.iterate, g1, ok_bind, iterate_loop hR _ _ _ g2 (gas_start hR (X := 0))]; rfl

theorem minimum_sim : r.minimum = .ok (r64Minimum R) := by
  obtain ⟨it, g1, g2⟩ := Bi.start hR h
  rcases g2.see hR with ⟨e1, e2⟩ | ⟨p, l, a, c, it', e1, e2, e3, e4, e5, e6, e7, e8, e9⟩
  · simp only [R64M.minimum, r64Minimum, g1, e1, e2, ok_bind]
  · simp only [R64M.minimum, r64Minimum, g1, e1, e2, e3, e5, ok_bind]

theorem maximum_sim : r.maximum = .ok (r64Maximum R) := by
  obtain ⟨it, g1, g2⟩ := Bi.startLast hR h
  rcases g2.see hR with ⟨e1, e2⟩ | ⟨p, l, a, c, it', e1, e2, e3, e4, e5, e6, e7, e8, e9⟩
  · simp only [R64M.maximum, r64Maximum, g1, e1, e2, ok_bind]
  · simp only [R64M.maximum, r64Maximum, g1, e1, e2, e3, e5, ok_bind]

theorem statistics_sim : r.statistics = .ok (r64Statistics R) := by
  obtain ⟨it, g1, g2⟩ := Bi.start hR h
  simp only [R64M.statistics, minimum_sim hR h, maximum_sim hR h, g1, ok_bind, stat_loop hR _ _ g2 (gas_start hR (X := 0)), r64Statistics]

theorem isEmpty_sim : r.isEmpty = r64IsEmpty R := by
  obtain ⟨F, m, ⟨root, h1, h2, h3⟩, h4, h5⟩ := h
  have hs := h4.congrM (m' := artFind root) (fun k hk => (h3 k hk).symm)
  unfold R64M.isEmpty r64IsEmpty artIsEmpty
  cases har : r.art.root with
  | none =>
    have := arep_none h1.rep har
    subst this
    cases R with
    | none => rfl
    | some t =>
      obtain ⟨k, v, hv⟩ := (hR t rfl).nonempty
      have hv : RHas (some t) k v := ⟨t, rfl, hv⟩
      have := (slots_none hs (hR.key hv)).2 rfl
      rw [(artFind_iff hR (hR.key hv) v).2 hv] at this
      cases this
  | some x =>
    obtain ⟨t, F, rfl, -⟩ := arep_some h1.rep har
    cases R with
    | none =>
      obtain ⟨k, v, hv⟩ := (h2 t rfl).nonempty
      have hv : RHas (some t) k v := ⟨t, rfl, hv⟩
      have := (slots_none hs (h2.key hv)).1 rfl
      rw [(artFind_iff h2 (h2.key hv) v).2 hv] at this
      cases this
    | some t => rfl

theorem rangeClosed_sim (min max : Nat) : r.rangeClosedCardinality min max = .ok (r64RangeCardinalityClosed R min max) := by
  unfold R64M.rangeClosedCardinality r64RangeCardinalityClosed
  by_cases hc : min > max
  · rw [if_pos hc, if_pos hc]
  · rw [if_neg hc, if_neg hc]
    obtain ⟨it, g1, g2⟩ := Bi.lower hR h (splitKey_isKey min)
    rw [g1, ok_bind, rangeCard_loop hR _ _ _ _ g2 (gas_start hR (X := 0))]

theorem range_sim (min max : Nat) : r.rangeCardinality min max = .ok (r64RangeCardinality R min max) := by
  unfold R64M.rangeCardinality r64RangeCardinality
  split
  · rfl
  · exact rangeClosed_sim hR h _ _

theorem containsRange_sim (min max : Nat) : r.containsRange min max = .ok (r64ContainsRange R min max) := by
  unfold R64M.containsRange r64ContainsRange
  by_cases hc : min ≥ max
  · rw [if_pos hc, if_pos hc]
  · rw [if_neg hc, if_neg hc]
    obtain ⟨it, g1, g2⟩ := Bi.lower hR h (splitKey_isKey min)
    rw [g1, ok_bind]
    rcases g2.see hR with ⟨e1, e2⟩ | ⟨p, l, a, c, it', e1, e2, e3, e4, e5, e6, e7, e8, e9⟩
    · simp [e1, e2]
    · simp only [e1, e2, e3, Option.isNone_some]
      split
      · rfl
      · exact containsRange_loop hR _ _ _ _ _ g2 (gas_start hR (X := 0))

end

end CRoaring
