import Verif.AllocSpec
import Verif.Lemmas.Serial
import Mathlib.Data.List.Basic
import Mathlib.Data.List.Forall2

set_option linter.unusedSimpArgs false
set_option linter.unusedVariables false

/-! Lemmas about memory with requests that may be refused. -/

namespace CRoaring

/-- The memory is `F` outside of the blocks `own`, which `F` does not have. -/
structure Owns (F : Nat → Option MBlk) (m : Mem) (own : List Nat) : Prop where
  frame : ∀ x, x ∉ own → m.live x = F x
  priv : ∀ x ∈ own, F x = none ∧ x < m.next
  bnd : m.Bounded
  nodup : own.Nodup

/-- All requests between `m` and `m'` were granted. -/
def Granted (ok : Nat → Bool) (m m' : Mem) : Prop := m.calls ≤ m'.calls ∧ ∀ n, m.calls ≤ n → n < m'.calls → ok n = true

/-- The blocks `own` are the same in both. -/
def Same (own : List Nat) (m m' : Mem) : Prop := ∀ x ∈ own, m'.live x = m.live x

variable {F : Nat → Option MBlk} {m m1 m2 m' : Mem} {own own' : List Nat} {ok : Nat → Bool}

theorem Owns.perm (h : Owns F m own) (p : own.Perm own') : Owns F m own' :=
  ⟨fun x hx => h.frame x (fun q => hx (p.mem_iff.1 q)), fun x hx => h.priv x (p.mem_iff.2 hx), h.bnd,
    p.nodup_iff.1 h.nodup⟩

theorem Owns.nil (h : Owns F m []) : m.live = F := by
  funext x
  exact h.frame x (by simp)

theorem Owns.init (h : m.Bounded) : Owns m.live m [] :=
  ⟨fun _ _ => rfl, fun _ hx => by simp at hx, h, List.nodup_nil⟩

theorem Owns.next_notMem (h : Owns F m own) : m.next ∉ own := fun q => by have := (h.priv _ q).2; omega

theorem Owns.next_frame (h : Owns F m own) : F m.next = none := by
  rw [← h.frame _ h.next_notMem]
  exact h.bnd _ (Nat.le_refl _)

theorem Owns.set (h : Owns F m own) {a : Nat} (ha : a ∈ own) (b : Option MBlk) : Owns F (m.set a b) own :=
  ⟨fun x hx => by
      have : x ≠ a := fun q => hx (q ▸ ha)
      simp only [Mem.set, this, if_false]
      exact h.frame x hx,
    h.priv, fun x hx => by
      have : x ≠ a := fun q => by have := (h.priv a ha).2; simp only [Mem.set] at hx; omega
      simp only [Mem.set, this, if_false]
      exact h.bnd x hx, h.nodup⟩

theorem Owns.free (h : Owns F m (a :: own)) : Owns F (m.set a none) own := by
  have h1 := h.set (a := a) (by simp) none
  have hnd := List.nodup_cons.1 h.nodup
  refine ⟨fun x hx => ?_, fun x hx => h.priv x (by simp [hx]), h1.bnd, hnd.2⟩
  by_cases e : x = a
  · subst e
    simp only [Mem.set, if_true]
    exact (h.priv x (by simp)).1.symm
  · exact h1.frame x (by simp [e, hx])

theorem set_live_eq (m : Mem) (a : Nat) (b : Option MBlk) : (m.set a b).live a = b := by simp [Mem.set]

theorem set_live_ne (m : Mem) {a x : Nat} (b : Option MBlk) (h : x ≠ a) : (m.set a b).live x = m.live x := by
  simp [Mem.set, h]

theorem set_calls (m : Mem) (a : Nat) (b : Option MBlk) : (m.set a b).calls = m.calls := rfl

theorem mfree_some {a : Nat} {b : MBlk} (h : m.live a = some b) : mfree (some a) m = some (m.set a none) := by
  simp [mfree, h]

theorem Granted.refl (ok : Nat → Bool) (m : Mem) : Granted ok m m := ⟨Nat.le_refl _, fun n h1 h2 => by omega⟩

theorem Granted.trans (h : Granted ok m m1) (h' : Granted ok m1 m2) : Granted ok m m2 :=
  ⟨Nat.le_trans h.1 h'.1, fun n h1 h2 => by
    by_cases e : n < m1.calls
    · exact h.2 n h1 e
    · exact h'.2 n (by omega) h2⟩

theorem Granted.refused (h : Granted ok m m1) (h' : Refused ok m1 m2) : Refused ok m m2 := by
  obtain ⟨n, h1, h2, h3⟩ := h'
  exact ⟨n, Nat.le_trans h.1 h1, h2, h3⟩

theorem Granted.congr (h : Granted ok m m1) (e : m2.calls = m1.calls) : Granted ok m m2 := by
  rw [Granted, e]; exact h

theorem Refused.congr (h : Refused ok m m1) (e : m2.calls = m1.calls) : Refused ok m m2 := by
  rw [Refused, e]; exact h

theorem Granted.not_refused (h : Granted ok m m1) : ¬ Refused ok m m1 := by
  rintro ⟨n, h1, h2, h3⟩
  rw [h.2 n h1 h2] at h3
  cases h3

theorem Same.refl (own : List Nat) (m : Mem) : Same own m m := fun _ _ => rfl

theorem Same.trans (h : Same own m m1) (h' : Same own m1 m2) : Same own m m2 := fun x hx => (h' x hx).trans (h x hx)

theorem Same.mono (h : Same own m m1) (hs : ∀ x ∈ own', x ∈ own) : Same own' m m1 := fun x hx => h x (hs x hx)

theorem malloc_cases (h : Owns F m own) (ok : Nat → Bool) (b : MBlk) :
    (∃ m', malloc ok b m = (none, m') ∧ Owns F m' own ∧ m'.live = m.live ∧ Refused ok m m') ∨
    (∃ m', malloc ok b m = (some m.next, m') ∧ Owns F m' (m.next :: own) ∧ m'.live m.next = some b ∧
      (∀ x, x ≠ m.next → m'.live x = m.live x) ∧ Same own m m' ∧ Granted ok m m') := by
  by_cases e : ok m.calls = true
  · right
    refine ⟨_, by rw [malloc, if_pos e], ⟨?_, ?_, ?_, ?_⟩, by simp, fun x hx => by simp [hx], ?_, ?_, ?_⟩
    · intro x hx
      simp only [List.mem_cons, not_or] at hx
      simp only [hx.1, if_false]
      exact h.frame x hx.2
    · intro x hx
      rcases List.mem_cons.1 hx with rfl | hx
      · exact ⟨h.next_frame, by simp⟩
      · exact ⟨(h.priv x hx).1, by have := (h.priv x hx).2; simp; omega⟩
    · intro x hx
      simp only at hx
      simp only [show x ≠ m.next by omega, if_false]
      exact h.bnd x (by omega)
    · exact List.nodup_cons.2 ⟨h.next_notMem, h.nodup⟩
    · intro x hx
      have : x ≠ m.next := fun q => h.next_notMem (q ▸ hx)
      simp [this]
    · simp
    · intro n h1 h2
      simp only at h2
      rw [show n = m.calls by omega]
      exact e
  · left
    refine ⟨{ m with calls := m.calls + 1 }, by rw [malloc, if_neg e], ⟨h.frame, h.priv, h.bnd, h.nodup⟩, rfl, m.calls, Nat.le_refl _, by simp, ?_⟩
    simpa using e

theorem malloc_ok (hm : m.Bounded) (b : MBlk) (e : ok m.calls = true) :
    malloc ok b m = (some m.next, ⟨m.next + 1, m.calls + 1, fun x => if x = m.next then some b else m.live x⟩) := by
  rw [malloc, if_pos e]

/-! ### Containers -/

theorem holdsC_congr {r : CRec} {c : Container} (h : HoldsC m r c) (he : Same r.blocks m m') : HoldsC m' r c := by
  obtain ⟨cap, rest, h1, h2, h3, h4, h5⟩ := h
  refine ⟨cap, rest, ?_, h2, fun d hd => ?_, h4, h5⟩
  · rw [he _ (by simp [CRec.blocks]), h1]
  · rw [he _ (by simp [CRec.blocks, hd]), h3 d hd]

theorem contCreate_spec (h : Owns F m own) (ok : Nat → Bool) (type size : Nat) :
    (∃ m', contCreate ok type size m = some (none, m') ∧ Owns F m' own ∧ Same own m m' ∧ Refused ok m m') ∨
    (∃ a d m', contCreate ok type size m = some (some a, m') ∧ Owns F m' ((⟨a, d⟩ : CRec).blocks ++ own) ∧ Same own m m' ∧
      Granted ok m m' ∧ m'.live a = some (.cont type 0 size d) ∧ (size = 0 → d = none) ∧
      (size ≠ 0 → ∃ e, d = some e ∧ e ≠ a ∧ m'.live e = some (freshData size))) := by
  rcases malloc_cases h ok (.cont type 0 0 none) with ⟨m1, e1, i1, l1, r1⟩ | ⟨m1, e1, i1, l1, o1, s1, g1⟩
  · left
    exact ⟨m1, by rw [contCreate, e1], i1, fun x _ => by rw [l1], r1⟩
  · have hne : ∀ x ∈ own, x ≠ m.next := fun x hx q => h.next_notMem (q ▸ hx)
    by_cases hs : size = 0
    · right
      refine ⟨m.next, none, _, by rw [contCreate, e1]; dsimp only; rw [if_pos hs], i1.set (by simp) _, ?_, g1, ?_, fun _ => rfl,
        fun q => absurd hs q⟩
      · intro x hx
        rw [set_live_ne _ _ (hne x hx)]
        exact s1 x hx
      · rw [set_live_eq]
    · rcases malloc_cases i1 ok (freshData size) with ⟨m2, e2, i2, l2, r2⟩ | ⟨m2, e2, i2, l2, o2, s2, g2⟩
      · left
        have ha : m2.live m.next = some (.cont type 0 0 none) := by rw [l2, l1]
        refine ⟨m2.set m.next none, by rw [contCreate, e1]; dsimp only; rw [if_neg hs, e2]; dsimp only; rw [mfree_some ha]; rfl, i2.free, ?_,
          (g1.refused r2).congr rfl⟩
        intro x hx
        rw [set_live_ne _ _ (hne x hx), l2]
        exact s1 x hx
      · right
        have hn : m1.next ≠ m.next := fun q => i1.next_notMem (by rw [q]; simp)
        refine ⟨m.next, some m1.next, _, by rw [contCreate, e1]; dsimp only; rw [if_neg hs, e2],
          (i2.set (a := m.next) (by simp) _).perm (List.Perm.swap _ _ _), ?_, (g1.trans g2).congr rfl, ?_,
          fun q => absurd q hs, fun _ => ⟨_, rfl, hn, ?_⟩⟩
        · intro x hx
          rw [set_live_ne _ _ (hne x hx), s2 x (by simp [hx])]
          exact s1 x hx
        · rw [set_live_eq]
        · rw [set_live_ne _ _ hn, l2]

theorem bitsetAllocA_spec (h : Owns F m own) (ok : Nat → Bool) (card : Int) (l : List (Option Val)) :
    (∃ m', bitsetAllocA ok card l m = some (none, m') ∧ Owns F m' own ∧ Same own m m' ∧ Refused ok m m') ∨
    (∃ a d m', bitsetAllocA ok card l m = some (some a, m') ∧ Owns F m' ((⟨a, some d⟩ : CRec).blocks ++ own) ∧ Same own m m' ∧
      Granted ok m m' ∧ m'.live a = some (.cont BITSET_TYPE card NWORDS (some d)) ∧ d ≠ a ∧ m'.live d = some (.data l)) := by
  rcases malloc_cases h ok (.cont BITSET_TYPE card NWORDS none) with ⟨m1, e1, i1, l1, r1⟩ | ⟨m1, e1, i1, l1, o1, s1, g1⟩
  · left
    exact ⟨m1, by rw [bitsetAllocA, e1], i1, fun x _ => by rw [l1], r1⟩
  · have hne : ∀ x ∈ own, x ≠ m.next := fun x hx q => h.next_notMem (q ▸ hx)
    rcases malloc_cases i1 ok (.data l) with ⟨m2, e2, i2, l2, r2⟩ | ⟨m2, e2, i2, l2, o2, s2, g2⟩
    · left
      have ha : m2.live m.next = some (.cont BITSET_TYPE card NWORDS none) := by rw [l2, l1]
      refine ⟨m2.set m.next none, by rw [bitsetAllocA, e1]; dsimp only; rw [e2]; dsimp only; rw [mfree_some ha]; rfl, i2.free, ?_,
        (g1.refused r2).congr rfl⟩
      intro x hx
      rw [set_live_ne _ _ (hne x hx), l2]
      exact s1 x hx
    · right
      have hn : m1.next ≠ m.next := fun q => i1.next_notMem (by rw [q]; simp)
      refine ⟨m.next, m1.next, _, by rw [bitsetAllocA, e1]; dsimp only; rw [e2],
        (i2.set (a := m.next) (by simp) _).perm (List.Perm.swap _ _ _), ?_, (g1.trans g2).congr rfl, ?_, hn, ?_⟩
      · intro x hx
        rw [set_live_ne _ _ (hne x hx), s2 x (by simp [hx])]
        exact s1 x hx
      · rw [set_live_eq]
      · rw [set_live_ne _ _ hn, l2]

/-- What a call that makes a container `c` does: nothing if a request was refused. -/
def MadeC (F : Nat → Option MBlk) (ok : Nat → Bool) (m : Mem) (own : List Nat) (c : Container) (x : Option (Option Nat × Mem)) : Prop :=
  (∃ m', x = some (none, m') ∧ Owns F m' own ∧ Same own m m' ∧ Refused ok m m') ∨
  (∃ r m', x = some (some r.addr, m') ∧ Owns F m' (CRec.blocks r ++ own) ∧ Same own m m' ∧ Granted ok m m' ∧ HoldsC m' r c)

theorem storeVals_some {d : Nat} {vals l : List (Option Val)} (h : m.live d = some (.data l)) (hl : vals.length ≤ l.length) :
    ∃ m', storeVals (some d) vals m = some m' ∧ m'.live d = some (.data (vals ++ l.drop vals.length)) ∧
      (∀ x, x ≠ d → m'.live x = m.live x) ∧ m'.calls = m.calls ∧ (∀ F own, Owns F m own → d ∈ own → Owns F m' own) := by
  by_cases e : vals = []
  · subst e
    exact ⟨m, by simp [storeVals], by simpa using h, fun _ _ => rfl, rfl, fun _ _ i _ => i⟩
  · refine ⟨m.set d (some (.data (vals ++ l.drop vals.length))), by simp [storeVals, e, h, hl], set_live_eq _ _ _,
      fun x hx => set_live_ne _ _ hx, rfl, fun F own i hd => i.set hd _⟩

theorem loadVals_spec {d : Option Nat} {n : Nat} {l : List (Option Val)} (h : ∀ a, d = some a → m.live a = some (.data l))
    (hn : d = none → n = 0) (hl : n ≤ l.length) : ∃ v, loadVals d n m = some v ∧ v = l.take n := by
  by_cases e : n = 0
  · subst e
    exact ⟨[], by simp [loadVals], by simp⟩
  · cases d with
    | none => exact absurd (hn rfl) e
    | some a => exact ⟨l.take n, by simp [loadVals, e, h a rfl, hl], rfl⟩

theorem holds_lt {r : CRec} {c : Container} (hm : m.Bounded) (h : HoldsC m r c) : ∀ x ∈ r.blocks, x < m.next := by
  obtain ⟨cap, rest, h1, h2, h3, h4, h5⟩ := h
  intro x hx
  rcases Nat.lt_or_ge x m.next with q | q
  · exact q
  · have := hm x q
    simp only [CRec.blocks, List.mem_cons, Option.mem_toList, Option.mem_def] at hx
    rcases hx with rfl | hx
    · rw [h1] at this; cases this
    · rw [h3 x hx] at this; cases this

theorem live_keep {new : List Nat} (h : Owns F m own) (h' : Owns F m' (new ++ own)) (hs : Same own m m') {x : Nat}
    (hx : m.live x ≠ none) : m'.live x = m.live x := by
  by_cases e : x ∈ own
  · exact hs x e
  · have h1 := h.frame x e
    have h2 : x ∉ new ++ own := by
      intro q
      have := (h'.priv x q).1
      rw [h1] at hx
      exact hx this
    rw [h'.frame x h2, h1]

theorem holdsC_live {r : CRec} {c : Container} (h : HoldsC m r c) : ∀ x ∈ r.blocks, m.live x ≠ none := by
  obtain ⟨cap, rest, h1, h2, h3, h4, h5⟩ := h
  intro x hx
  simp only [CRec.blocks, List.mem_cons, Option.mem_toList, Option.mem_def] at hx
  rcases hx with rfl | hx
  · rw [h1]; simp
  · rw [h3 x hx]; simp

theorem holdsC_keep {new : List Nat} (h : Owns F m own) (h' : Owns F m' (new ++ own)) (hs : Same own m m') {r : CRec} {c : Container}
    (hc : HoldsC m r c) : HoldsC m' r c :=
  holdsC_congr hc (fun x hx => live_keep h h' hs (holdsC_live hc x hx))

theorem new_ne {new : List Nat} (h : Owns F m own) (h' : Owns F m' (new ++ own)) {x y : Nat}
    (hx : m.live x ≠ none) (hy : y ∈ new) : x ≠ y := by
  rintro rfl
  have hn := h'.nodup
  by_cases e : x ∈ own
  · exact (List.nodup_append.1 hn).2.2 _ hy _ e rfl
  · rw [h.frame x e] at hx
    exact hx (h'.priv x (by simp [hy])).1

theorem mem_own_ne {new : List Nat} (h' : Owns F m' (new ++ own)) {x y : Nat} (hx : x ∈ own) (hy : y ∈ new) : x ≠ y := by
  rintro rfl
  exact (List.nodup_append.1 h'.nodup).2.2 _ hy _ hx rfl

theorem contCloneA_spec (h : Owns F m own) (ok : Nat → Bool) {r : CRec} {c : Container} (hc : HoldsC m r c)
    (hb : ∀ b, c ≠ .bitset b) : MadeC F ok m own c (contCloneA ok (typecode c) r.addr m) := by
  obtain ⟨cap, rest, h1, h2, h3, h4, h5⟩ := hc
  have hcount : (ccountOf c).toNat = (payload c).length := by
    cases c with
    | bitset b => exact absurd rfl (hb b)
    | array l => simp [ccountOf, payload]
    | run rs => simp [ccountOf, payload]
  rcases contCreate_spec h ok (typecode c) cap with ⟨m1, e1, i1, s1, r1⟩ | ⟨a, d', m1, e1, i1, s1, g1, l1, z1, n1⟩
  · left
    refine ⟨m1, ?_, i1, s1, r1⟩
    rw [contCloneA, h1]
    simp [e1]
  · right
    have ha : a ∈ (⟨a, d'⟩ : CRec).blocks := by simp [CRec.blocks]
    have i2 := i1.set (a := a) (by simp [ha]) (some (MBlk.cont (typecode c) (ccountOf c) cap d'))
    have s2 : Same own m (m1.set a (some (MBlk.cont (typecode c) (ccountOf c) cap d'))) := by
      intro x hx
      rw [set_live_ne _ _ (mem_own_ne i1 hx ha)]
      exact s1 x hx
    have hload : ∀ e, r.data = some e →
        (m1.set a (some (MBlk.cont (typecode c) (ccountOf c) cap d'))).live e = some (.data ((payload c).map some ++ rest)) := by
      intro e he
      rw [live_keep h i2 s2 (by rw [h3 e he]; simp), h3 e he]
    obtain ⟨v, ev, hv⟩ := loadVals_spec (d := r.data) (n := (ccountOf c).toNat) hload
      (fun q => by rw [hcount]; have := h4 q; omega) (by rw [hcount]; simp)
    rw [hcount, List.take_left' (by simp)] at hv
    have e0 : contCloneA ok (typecode c) r.addr m =
        (storeVals d' v (m1.set a (some (MBlk.cont (typecode c) (ccountOf c) cap d')))).bind (fun m => some (some a, m)) := by
      rw [contCloneA, h1]
      simp only [ne_eq, not_true_eq_false, if_false, e1, l1, ev]
      simp [l1, ev]
    by_cases hz : cap = 0
    · have hd := z1 hz
      have hp : payload c = [] := List.eq_nil_of_length_eq_zero (by omega)
      have hr : rest = [] := List.eq_nil_of_length_eq_zero (by omega)
      subst hd
      refine ⟨⟨a, none⟩, _, ?_, i2, s2, g1.congr rfl, cap, [], set_live_eq _ _ _, by simp [hp, hz], by simp, fun _ => hz, fun b q => absurd q (hb b)⟩
      rw [e0, hv, hp]
      simp [storeVals]
    · obtain ⟨e, rfl, hea, l2⟩ := n1 hz
      have l3 : (m1.set a (some (MBlk.cont (typecode c) (ccountOf c) cap (some e)))).live e = some (freshData cap) := by
        rw [set_live_ne _ _ hea, l2]
      obtain ⟨m3, e3, l4, o3, c3, i3⟩ := storeVals_some (vals := v) l3 (by rw [hv]; simp [h2])
      have he : e ∈ (⟨a, some e⟩ : CRec).blocks := by simp [CRec.blocks]
      refine ⟨⟨a, some e⟩, m3, ?_, i3 _ _ i2 (by simp [he]), ?_, g1.congr c3, cap, List.replicate (List.length rest) none, ?_, ?_, ?_, by simp, fun b q => absurd q (hb b)⟩
      · rw [e0, e3]; rfl
      · intro x hx
        rw [o3 x (mem_own_ne i1 hx he)]
        exact s2 x hx
      · rw [o3 a (Ne.symm hea), set_live_eq]
      · simp [h2]
      · intro d hd
        cases hd
        rw [l4, hv]
        simp [h2]

theorem bitsetCloneA_spec (h : Owns F m own) (ok : Nat → Bool) {r : CRec} {b : Bitset} (hc : HoldsC m r (.bitset b)) :
    MadeC F ok m own (.bitset b) (bitsetCloneA ok r.addr m) := by
  obtain ⟨cap, rest, h1, h2, h3, h4, h5⟩ := hc
  have hlen : (payload (.bitset b)).length = NWORDS := by simp [payload, h5 b rfl]
  have h1' : m.live r.addr = some (.cont 1 b.card cap r.data) := h1
  rcases bitsetAllocA_spec h ok b.card (List.replicate NWORDS none) with ⟨m1, e1, i1, s1, r1⟩ | ⟨a, e, m1, e1, i1, s1, g1, l1, hea, l2⟩
  · left
    refine ⟨m1, ?_, i1, s1, r1⟩
    rw [bitsetCloneA, h1']
    simp [e1]
  · right
    have he : e ∈ (⟨a, some e⟩ : CRec).blocks := by simp [CRec.blocks]
    have hload : ∀ d, r.data = some d → m1.live d = some (.data ((payload (.bitset b)).map some ++ rest)) := by
      intro d hd
      rw [live_keep h i1 s1 (by rw [h3 d hd]; simp), h3 d hd]
    obtain ⟨v, ev, hv⟩ := loadVals_spec (d := r.data) (n := NWORDS) hload
      (fun q => by have := h4 q; rw [hlen] at h2; have : NWORDS = 1024 := rfl; omega) (by simp [hlen])
    rw [List.take_left' (by simp [hlen])] at hv
    obtain ⟨m3, e3, l4, o3, c3, i3⟩ := storeVals_some (vals := v) l2 (by rw [hv]; simp [hlen])
    refine ⟨⟨a, some e⟩, m3, ?_, i3 _ _ i1 (by simp [he]), ?_, g1.congr c3, NWORDS, [], ?_, ?_, ?_, by simp, h5⟩
    · rw [bitsetCloneA, h1']
      simp [e1, l1, ev, e3]
    · intro x hx
      rw [o3 x (mem_own_ne i1 hx he)]
      exact s1 x hx
    · rw [o3 a (Ne.symm hea), l1]
      rfl
    · simp [hlen]
    · intro d hd
      cases hd
      rw [l4, hv]
      simp [hlen]

theorem cloneA_spec (h : Owns F m own) (ok : Nat → Bool) {r : CRec} {c : Container} (hc : HoldsC m r c) :
    MadeC F ok m own c (cloneA ok (some r.addr) (typecode c) m) := by
  cases c with
  | bitset b => exact bitsetCloneA_spec h ok hc
  | array l => exact contCloneA_spec h ok hc (by simp)
  | run rs => exact contCloneA_spec h ok hc (by simp)

/-- Releasing a container takes its blocks away. -/
theorem freeA_spec {r : CRec} {c : Container} (h : Owns F m (r.blocks ++ own)) (hc : HoldsC m r c) :
    ∃ m', freeA (some r.addr) (typecode c) m = some m' ∧ Owns F m' own ∧ Same own m m' ∧ m'.calls = m.calls := by
  obtain ⟨cap, rest, h1, h2, h3, h4, h5⟩ := hc
  have ht : freeA (some r.addr) (typecode c) m = freeOwnA (some r.addr) (typecode c) m := by
    cases c <;> simp [freeA, typecode, BITSET_TYPE, ARRAY_TYPE, RUN_TYPE]
  rw [ht, freeOwnA, h1]
  simp only [ne_eq, not_true_eq_false, if_false]
  cases hd : r.data with
  | none =>
    have h' : Owns F m (r.addr :: own) := by simpa [CRec.blocks, hd] using h
    refine ⟨m.set r.addr none, by simp [mfree, h1], h'.free, ?_, rfl⟩
    intro x hx
    exact set_live_ne _ _ (fun q => (List.nodup_cons.1 h'.nodup).1 (q ▸ hx))
  | some d =>
    have h' : Owns F m (r.addr :: d :: own) := by simpa [CRec.blocks, hd] using h
    have hnd := List.nodup_cons.1 h'.nodup
    have hnd2 := List.nodup_cons.1 hnd.2
    have hne : r.addr ≠ d := fun q => hnd.1 (by simp [q])
    have i1 := (h'.perm (List.Perm.swap _ _ _)).free
    have e1 := mfree_some (h3 d hd)
    have e2 : (m.set d none).live r.addr = some (.cont (typecode c) (ccountOf c) cap r.data) := by
      rw [set_live_ne _ _ hne, h1]
    refine ⟨(m.set d none).set r.addr none, by rw [e1]; simp only [Option.bind_eq_bind, Option.bind_some]; rw [mfree_some e2], i1.free, ?_, rfl⟩
    intro x hx
    rw [set_live_ne _ _ (fun q => hnd.1 (by simp [← q, hx])), set_live_ne _ _ (show x ≠ d from fun q => hnd2.1 (q ▸ hx))]

end CRoaring
