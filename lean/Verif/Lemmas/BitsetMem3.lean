import Verif.Lemmas.BitsetMem2
set_option linter.unusedSimpArgs false
set_option linter.unusedVariables false
/-
Lemmas about Model/BitsetMem.lean, for C129: who owns which block, in histories of calls.
-/
namespace CRoaring
open BitsetHist

/-- A bitset of the program: the addresses of the struct and of the array, and the value. -/
abbrev BG := Nat × Option Nat × BSet

/-- Is `k` one of the two blocks of a bitset? -/
def bOwns (g : BG) (k : Nat) : Prop := k = g.1 ∨ g.2.1 = some k

/-- The values of the bitsets. -/
def bPool (G : List (Option BG)) : Pool := G.map (Option.map fun g => ⟨g.2.2.size, bsGet g.2.2⟩)

/-- Every bitset is well formed, no two share a block, and every block belongs to one. -/
structure BMInv (h : BHeap) (G : List (Option BG)) : Prop where
  ok : ∀ (i p : Nat) (a : Option Nat) (b : BSet), G[i]? = some (some (p, a, b)) → BAt h p a b ∧ BSOK b
  sep : ∀ (i j : Nat) (gi gj : BG) (k : Nat), G[i]? = some (some gi) → G[j]? = some (some gj) → bOwns gi k → bOwns gj k →
    i = j
  live : ∀ k blk, h.blocks[k]? = some (some blk) → ∃ (i : Nat) (g : BG), G[i]? = some (some g) ∧ bOwns g k

theorem BMInv.lt {h : BHeap} {G : List (Option BG)} (hI : BMInv h G) {i : Nat} {g : BG} (hg : G[i]? = some (some g)) {k : Nat}
    (hk : bOwns g k) : k < h.blocks.length := by
  obtain ⟨p, a, b⟩ := g
  have hb := (hI.ok i p a b hg).1
  rcases hk with e | e
  · rw [e]; exact hb.lt
  · have e' : a = some k := e
    subst e'
    exact hb.arr_lt

theorem BMInv.sepOf {h : BHeap} {G : List (Option BG)} (hI : BMInv h G) {i j : Nat} {p1 p2 : Nat} {a1 a2 : Option Nat} {b1 b2 : BSet}
    (h1 : G[i]? = some (some (p1, a1, b1))) (h2 : G[j]? = some (some (p2, a2, b2))) (hij : i ≠ j) : BSep p1 a1 p2 a2 where
  pp := fun e => hij (hI.sep i j _ _ p1 h1 h2 (Or.inl rfl) (Or.inl e.symm))
  ap := fun e => hij (hI.sep i j _ _ p2 h1 h2 (Or.inr e) (Or.inl rfl))
  pa := fun e => hij (hI.sep i j _ _ p1 h1 h2 (Or.inl rfl) (Or.inr e))
  aa := by
    cases a2 with
    | none => exact Or.inl rfl
    | some q => exact Or.inr fun e => hij (hI.sep i j _ _ q h1 h2 (Or.inr e.symm) (Or.inr rfl))

theorem getElem?_set_cases {α : Type _} {l : List α} {i j : Nat} {x y : α} (h : (l.set i x)[j]? = some y) :
    (i = j ∧ x = y) ∨ (i ≠ j ∧ l[j]? = some y) := by
  rw [List.getElem?_set] at h
  by_cases e : i = j
  · rw [if_pos e] at h
    by_cases hl : i < l.length
    · rw [if_pos hl] at h; injection h with h; exact Or.inl ⟨e, h⟩
    · rw [if_neg hl] at h; cases h
  · rw [if_neg e] at h; exact Or.inr ⟨e, h⟩

theorem BMInv.upd {h h' : BHeap} {G : List (Option BG)} (hI : BMInv h G) {i p : Nat} {a a' : Option Nat} {b b' : BSet}
    (hi : G[i]? = some (some (p, a, b))) (hb : BAt h' p a' b') (hk : BSOK b') (hf : BFr h p a h' a') :
    BMInv h' (G.set i (some (p, a', b'))) := by
  have hil := getElem?_lt hi
  have hget : (G.set i (some (p, a', b')))[i]? = some (some (p, a', b')) := by
    rw [List.getElem?_set, if_pos rfl, if_pos hil]
  -- a block of the changed bitset is one it had, or a new one
  have hown : ∀ k, bOwns (p, a', b') k → bOwns (p, a, b) k ∨ h.blocks.length ≤ k := by
    intro k hk
    rcases hk with e | e
    · exact Or.inl (Or.inl e)
    · rcases hf.arr with e2 | ⟨q, e2, hq⟩
      · exact Or.inl (Or.inr (by rw [← e2]; exact e))
      · have e' : a' = some k := e
        rw [e2] at e'
        injection e' with e'
        exact Or.inr (by omega)
  refine ⟨?_, ?_, ?_⟩
  · intro j p2 a2 b2 hj
    rcases getElem?_set_cases hj with ⟨_, e⟩ | ⟨hne, hj⟩
    · injection e with e
      injection e with e1 e
      injection e with e2 e3
      subst e1; subst e2; subst e3
      exact ⟨hb, hk⟩
    · obtain ⟨h2, k2⟩ := hI.ok j p2 a2 b2 hj
      have hs := hI.sepOf hi hj hne
      exact ⟨h2.frame hf hs.pp hs.ap hs.pa hs.aa, k2⟩
  · intro j1 j2 g1 g2 k e1 e2 o1 o2
    rcases getElem?_set_cases e1 with ⟨hj1, x1⟩ | ⟨hj1, e1⟩ <;> rcases getElem?_set_cases e2 with ⟨hj2, x2⟩ | ⟨hj2, e2⟩
    · omega
    · injection x1 with x1
      subst x1
      rcases hown k o1 with o | o
      · rw [← hj1]; exact hI.sep i j2 _ _ k hi e2 o o2
      · have := hI.lt e2 o2; omega
    · injection x2 with x2
      subst x2
      rcases hown k o2 with o | o
      · rw [← hj2]; exact hI.sep j1 i _ _ k e1 hi o1 o
      · have := hI.lt e1 o1; omega
    · exact hI.sep j1 j2 _ _ k e1 e2 o1 o2
  · intro k blk hkb
    by_cases hkp : k = p
    · exact ⟨i, _, hget, Or.inl hkp⟩
    · by_cases hlt : k < h.blocks.length
      · by_cases hak : a = some k
        · by_cases ea : a' = a
          · exact ⟨i, _, hget, Or.inr (ea.trans hak)⟩
          · rw [hf.freed k hak ea] at hkb; cases hkb
        · rw [hf.old k hkp hak hlt] at hkb
          obtain ⟨j, g, hj, ho⟩ := hI.live k blk hkb
          have hne : i ≠ j := by
            intro e
            subst e
            rw [hi] at hj
            injection hj with hj
            injection hj with hj
            subst hj
            rcases ho with e | e
            · exact hkp e
            · exact hak e
          exact ⟨j, g, by rw [List.getElem?_set, if_neg hne]; exact hj, ho⟩
      · exact ⟨i, _, hget, Or.inr (hf.new k blk (by omega) hkb)⟩

theorem BAt.same {h h' : BHeap} {p : Nat} {a : Option Nat} {b : BSet} (hb : BAt h p a b)
    (hs : ∀ k, k < h.blocks.length → h'.blocks[k]? = h.blocks[k]?) : BAt h' p a b := by
  refine ⟨by rw [hs p hb.lt]; exact hb.obj, ?_⟩
  cases a with
  | none => exact hb.arr
  | some q =>
    show h'.blocks[q]? = _
    rw [hs q hb.arr_lt]; exact hb.arr

/-- A new bitset. -/
theorem BMInv.app {h h' : BHeap} {G : List (Option BG)} (hI : BMInv h G) {p : Nat} {a : Option Nat} {b : BSet}
    (hs : ∀ k, k < h.blocks.length → h'.blocks[k]? = h.blocks[k]?) (hb : BAt h' p a b) (hk : BSOK b)
    (hp : h.blocks.length ≤ p) (ha : ∀ q, a = some q → h.blocks.length ≤ q)
    (hn : ∀ k blk, h.blocks.length ≤ k → h'.blocks[k]? = some (some blk) → bOwns (p, a, b) k) :
    BMInv h' (G ++ [some (p, a, b)]) := by
  have hcase : ∀ {j : Nat} {g : BG}, (G ++ [some (p, a, b)])[j]? = some (some g) →
      G[j]? = some (some g) ∨ (j = G.length ∧ g = (p, a, b)) := by
    intro j g hj
    rcases Nat.lt_or_ge j G.length with hl | hl
    · rw [List.getElem?_append_left hl] at hj; exact Or.inl hj
    · have := getElem?_lt hj
      simp only [List.length_append, List.length_singleton] at this
      have e : j = G.length := by omega
      subst e
      simp at hj
      exact Or.inr ⟨rfl, hj.symm⟩
  have hnew : ∀ k, bOwns (p, a, b) k → h.blocks.length ≤ k := by
    intro k ho
    rcases ho with e | e
    · rw [e]; exact hp
    · exact ha k e
  refine ⟨?_, ?_, ?_⟩
  · intro j p2 a2 b2 hj
    rcases hcase hj with hj | ⟨_, e⟩
    · obtain ⟨h2, k2⟩ := hI.ok j p2 a2 b2 hj
      exact ⟨h2.same hs, k2⟩
    · injection e with e1 e
      injection e with e2 e3
      subst e1; subst e2; subst e3
      exact ⟨hb, hk⟩
  · intro j1 j2 g1 g2 k e1 e2 o1 o2
    rcases hcase e1 with e1 | ⟨j1e, x1⟩ <;> rcases hcase e2 with e2 | ⟨j2e, x2⟩
    · exact hI.sep j1 j2 _ _ k e1 e2 o1 o2
    · subst x2
      have := hI.lt e1 o1
      have := hnew k o2
      omega
    · subst x1
      have := hI.lt e2 o2
      have := hnew k o1
      omega
    · omega
  · intro k blk hkb
    rcases Nat.lt_or_ge k h.blocks.length with hl | hl
    · rw [hs k hl] at hkb
      obtain ⟨j, g, hj, ho⟩ := hI.live k blk hkb
      exact ⟨j, g, by rw [List.getElem?_append_left (getElem?_lt hj)]; exact hj, ho⟩
    · exact ⟨G.length, (p, a, b), by simp, hn k blk hl hkb⟩

/-- A null pointer more. -/
theorem BMInv.appNone {h h' : BHeap} {G : List (Option BG)} (hI : BMInv h G)
    (hs : ∀ k, k < h.blocks.length → h'.blocks[k]? = h.blocks[k]?)
    (hn : ∀ k blk, h.blocks.length ≤ k → h'.blocks[k]? ≠ some (some blk)) : BMInv h' (G ++ [none]) := by
  have hcase : ∀ {j : Nat} {g : BG}, (G ++ [none])[j]? = some (some g) → G[j]? = some (some g) := by
    intro j g hj
    rcases Nat.lt_or_ge j G.length with hl | hl
    · rw [List.getElem?_append_left hl] at hj; exact hj
    · have := getElem?_lt hj
      simp only [List.length_append, List.length_singleton] at this
      have e : j = G.length := by omega
      subst e
      simp at hj
  refine ⟨?_, fun j1 j2 g1 g2 k e1 e2 => hI.sep j1 j2 _ _ k (hcase e1) (hcase e2), ?_⟩
  · intro j p2 a2 b2 hj
    obtain ⟨h2, k2⟩ := hI.ok j p2 a2 b2 (hcase hj)
    exact ⟨h2.same hs, k2⟩
  · intro k blk hkb
    rcases Nat.lt_or_ge k h.blocks.length with hl | hl
    · rw [hs k hl] at hkb
      obtain ⟨j, g, hj, ho⟩ := hI.live k blk hkb
      exact ⟨j, g, by rw [List.getElem?_append_left (getElem?_lt hj)]; exact hj, ho⟩
    · exact absurd hkb (hn k blk hl)

/-- A bitset freed. -/
theorem bsetFree_ok {h : BHeap} {G : List (Option BG)} (hI : BMInv h G) {i p : Nat} {a : Option Nat} {b : BSet}
    (hi : G[i]? = some (some (p, a, b))) : ∃ h', bmFreeSet h (some p) = some h' ∧ BMInv h' (G.set i none) := by
  obtain ⟨hb, hk⟩ := hI.ok i p a b hi
  have hne := hb.ne
  have hlt := hb.lt
  have key : ∃ h', bmFreeSet h (some p) = some h' ∧ h'.blocks.length = h.blocks.length ∧ h'.blocks[p]? = some none ∧
      (∀ q, a = some q → h'.blocks[q]? = some none) ∧ ∀ k, k ≠ p → a ≠ some k → h'.blocks[k]? = h.blocks[k]? := by
    cases a with
    | none =>
      refine ⟨⟨h.blocks.set p none, h.reqs⟩, by simp [bmFreeSet, bmObj_eq hb, bmFree, hb.obj], by simp, ?_, fun q e => (by cases e), ?_⟩
      · show (h.blocks.set p none)[p]? = _
        rw [List.getElem?_set, if_pos rfl, if_pos hlt]
      · intro k hk _
        show (h.blocks.set p none)[k]? = _
        rw [List.getElem?_set, if_neg (Ne.symm hk)]
    | some q =>
      have hq : h.blocks[q]? = some (some (.words b.mem)) := hb.arr
      have hqp : q ≠ p := fun e => hne (by rw [e])
      have hp2 : (h.blocks.set q none)[p]? = some (some (.obj (some q) b.size b.mem.length)) := by
        rw [List.getElem?_set, if_neg hqp]; exact hb.obj
      refine ⟨⟨(h.blocks.set q none).set p none, h.reqs⟩, by simp [bmFreeSet, bmObj_eq hb, bmFree, hq, hp2], by simp, ?_, ?_, ?_⟩
      · show ((h.blocks.set q none).set p none)[p]? = _
        rw [List.getElem?_set, if_pos rfl, if_pos (by simpa using hlt)]
      · intro q' e
        injection e with e
        subst e
        show ((h.blocks.set q none).set p none)[q]? = _
        rw [List.getElem?_set, if_neg (Ne.symm hqp), List.getElem?_set, if_pos rfl, if_pos (getElem?_lt hq)]
      · intro k hk hak
        show ((h.blocks.set q none).set p none)[k]? = _
        rw [List.getElem?_set, if_neg (Ne.symm hk), List.getElem?_set, if_neg (fun e => hak (by rw [e]))]
  obtain ⟨h', e, hl, hp0, hq0, hold⟩ := key
  refine ⟨h', e, ?_, ?_, ?_⟩
  · intro j p2 a2 b2 hj
    rcases getElem?_set_cases hj with ⟨_, e⟩ | ⟨hne2, hj⟩
    · cases e
    · obtain ⟨h2, k2⟩ := hI.ok j p2 a2 b2 hj
      have hs := hI.sepOf hi hj hne2
      refine ⟨⟨by rw [hold p2 hs.pp hs.ap]; exact h2.obj, ?_⟩, k2⟩
      cases a2 with
      | none => exact h2.arr
      | some q2 =>
        show h'.blocks[q2]? = _
        rw [hold q2 (fun e => hs.pa (by rw [e])) ?_]
        · exact h2.arr
        · intro e
          rcases hs.aa with e2 | e2
          · cases e2
          · exact e2 e.symm
  · intro j1 j2 g1 g2 k e1 e2 o1 o2
    rcases getElem?_set_cases e1 with ⟨hj1, x1⟩ | ⟨hj1, e1⟩
    · cases x1
    rcases getElem?_set_cases e2 with ⟨hj2, x2⟩ | ⟨hj2, e2⟩
    · cases x2
    exact hI.sep j1 j2 _ _ k e1 e2 o1 o2
  · intro k blk hkb
    have hkp : k ≠ p := by intro e; rw [e, hp0] at hkb; cases hkb
    have hak : a ≠ some k := by intro e; rw [hq0 k e] at hkb; cases hkb
    rw [hold k hkp hak] at hkb
    obtain ⟨j, g, hj, ho⟩ := hI.live k blk hkb
    have hne2 : i ≠ j := by
      intro e
      subst e
      rw [hi] at hj
      injection hj with hj
      injection hj with hj
      subst hj
      rcases ho with e | e
      · exact hkp e
      · exact hak e
    exact ⟨j, g, by rw [List.getElem?_set, if_neg hne2]; exact hj, ho⟩

theorem granted_two (al : BAlloc) {h h' : BHeap} (e : h'.reqs = h.reqs + 2) :
    al.granted h h' = (al.grants h.reqs && al.grants (h.reqs + 1)) := by
  simp [BAlloc.granted, e, List.range'_succ, List.range'_one]

theorem bsetCreate_ok (al : BAlloc) {h : BHeap} {G : List (Option BG)} (hI : BMInv h G) :
    ∃ h' v g, bmCreate al h = (h', v) ∧ BMInv h' (G ++ [g]) ∧ v = g.map (·.1) ∧
      (if al.granted h h' = true then ∃ p a b, g = some (p, a, b) ∧ b.size = 0 ∧ ∀ x, bsGet b x = false else g = none) := by
  unfold bmCreate bmMalloc
  cases hg : al.grants h.reqs with
  | false =>
    have hgr : al.granted h ⟨h.blocks, h.reqs + 1⟩ = false := by rw [granted_one al rfl, hg]
    refine ⟨_, _, none, rfl, hI.appNone (fun _ _ => rfl) ?_, rfl, by simp [hgr]⟩
    intro k blk hk e
    have := getElem?_lt e
    simp only [Bool.false_eq_true, if_false] at this
    omega
  | true =>
    have hgr : al.granted h ⟨h.blocks ++ [some (.obj none 0 0)], h.reqs + 1⟩ = true := by rw [granted_one al rfl, hg]
    refine ⟨_, _, some (h.blocks.length, none, bsCreate), rfl, hI.app (fun k hk => ?_) ?_ bsCreate_spec.1 (Nat.le_refl _)
      (fun q e => (by cases e)) ?_, rfl, ?_⟩
    · simp only [if_true]
      exact List.getElem?_append_left hk
    · exact ⟨by simp [bsCreate], rfl⟩
    · intro k blk hk e
      simp only [if_true] at e
      have := getElem?_lt e
      simp only [List.length_append, List.length_singleton] at this
      exact Or.inl (by show k = h.blocks.length; omega)
    · rw [if_pos hgr]
      exact ⟨_, _, _, rfl, rfl, bsCreate_spec.2⟩

/-- Two blocks more: a struct and its array. -/
theorem BMInv.app2 {h h' : BHeap} {G : List (Option BG)} (hI : BMInv h G) {ws : List Word} {n : Nat}
    (hb : h'.blocks = h.blocks ++ [some (.obj (some (h.blocks.length + 1)) n ws.length), some (.words ws)])
    (hk : BSOK ⟨ws, n⟩) : BMInv h' (G ++ [some (h.blocks.length, some (h.blocks.length + 1), ⟨ws, n⟩)]) := by
  refine hI.app (fun k hk => ?_) ⟨?_, ?_⟩ hk (Nat.le_refl _) (fun q e => by injection e; omega) ?_
  · rw [hb]; exact List.getElem?_append_left hk
  · rw [hb]; simp
  · show h'.blocks[h.blocks.length + 1]? = _
    rw [hb, List.getElem?_append_right (by omega)]; simp
  · intro k blk hk e
    have := getElem?_lt e
    rw [hb] at this
    simp only [List.length_append, List.length_cons, List.length_nil] at this
    by_cases e2 : k = h.blocks.length
    · exact Or.inl e2
    · exact Or.inr (by show some (h.blocks.length + 1) = some k; congr 1; omega)

theorem bsetCreateCap_ok (al : BAlloc) {h : BHeap} {G : List (Option BG)} (hI : BMInv h G) (n : Nat) :
    ∃ h' v g, bmCreateCap al h n = some (h', v) ∧ BMInv h' (G ++ [g]) ∧ v = g.map (·.1) ∧
      (if al.granted h h' = true then ∃ p a b, g = some (p, a, b) ∧ b = bsCreateWithCapacity n else g = none) := by
  unfold bmCreateCap bmMalloc
  cases hg : al.grants h.reqs with
  | false =>
    have hgr : al.granted h ⟨h.blocks, h.reqs + 1⟩ = false := by rw [granted_one al rfl, hg]
    refine ⟨_, _, none, rfl, hI.appNone (fun _ _ => rfl) ?_, rfl, by simp [hgr]⟩
    intro k blk hk e
    have := getElem?_lt e
    simp only [Bool.false_eq_true, if_false] at this
    omega
  | true =>
    simp only [if_true]
    cases hg2 : al.grants (h.reqs + 1) with
    | false =>
      simp only [Bool.false_eq_true, if_false]
      have hfree : bmFree ⟨h.blocks ++ [some (.obj none 0 0)], h.reqs + 1 + 1⟩ (some h.blocks.length) =
          some ⟨h.blocks ++ [none], h.reqs + 1 + 1⟩ := by
        simp [bmFree]
      rw [hfree]
      have hgr : al.granted h ⟨h.blocks ++ [none], h.reqs + 1 + 1⟩ = false := by rw [granted_two al rfl, hg, hg2]; rfl
      refine ⟨_, _, none, rfl, hI.appNone (fun k hk => List.getElem?_append_left hk) ?_, rfl, by simp [hgr]⟩
      intro k blk hk e
      have := getElem?_lt e
      simp only [List.length_append, List.length_singleton] at this
      have e2 : k = h.blocks.length := by omega
      subst e2
      simp at e
    | true =>
      simp only [if_true]
      have hput : bmPut ⟨h.blocks ++ [some (.obj none 0 0)] ++ [some (.words (List.replicate ((n + 63) % 18446744073709551616 / 64) 0#64))], h.reqs + 1 + 1⟩ h.blocks.length
          (some (h.blocks ++ [some (BBlk.obj none 0 0)]).length) ((n + 63) % 18446744073709551616 / 64)
          ((n + 63) % 18446744073709551616 / 64) =
          some ⟨h.blocks ++ [some (.obj (some (h.blocks.length + 1)) ((n + 63) % 18446744073709551616 / 64)
            (List.replicate ((n + 63) % 18446744073709551616 / 64) 0#64).length), some (.words (List.replicate ((n + 63) % 18446744073709551616 / 64) 0#64))], h.reqs + 1 + 1⟩ := by
        simp [bmPut, bmObj]
      rw [hput]
      have hgr : ∀ bl, al.granted h ⟨bl, h.reqs + 1 + 1⟩ = true := fun bl => by rw [granted_two al rfl, hg, hg2]; rfl
      refine ⟨_, _, _, rfl, hI.app2 rfl (bsCreateWithCapacity_spec n).1, rfl, ?_⟩
      rw [if_pos (hgr _)]
      exact ⟨_, _, _, rfl, rfl⟩

theorem bsetCopy_ok (al : BAlloc) {h : BHeap} {G : List (Option BG)} (hI : BMInv h G) {i p : Nat} {a : Option Nat} {b : BSet}
    (hi : G[i]? = some (some (p, a, b))) :
    ∃ h' v g, bmCopy al h p = some (h', v) ∧ BMInv h' (G ++ [g]) ∧ v = g.map (·.1) ∧
      (if al.granted h h' = true then ∃ p' a' b', g = some (p', a', b') ∧ b'.size = b.size ∧ ∀ x, bsGet b' x = bsGet b x
        else g = none) := by
  obtain ⟨hb, hk⟩ := hI.ok i p a b hi
  unfold bmCopy
  rw [bmObj_eq hb]
  simp only [bmMalloc]
  cases hg : al.grants h.reqs with
  | false =>
    have hgr : al.granted h ⟨h.blocks, h.reqs + 1⟩ = false := by rw [granted_one al rfl, hg]
    refine ⟨_, _, none, rfl, hI.appNone (fun _ _ => rfl) ?_, rfl, by simp [hgr]⟩
    intro k blk hk e
    have := getElem?_lt e
    simp only [Bool.false_eq_true, if_false] at this
    omega
  | true =>
    simp only [if_true]
    cases hg2 : al.grants (h.reqs + 1) with
    | false =>
      simp only [Bool.false_eq_true, if_false]
      have hfree : bmFree ⟨h.blocks ++ [some (.obj a b.size b.size)], h.reqs + 1 + 1⟩ (some h.blocks.length) =
          some ⟨h.blocks ++ [none], h.reqs + 1 + 1⟩ := by
        simp [bmFree]
      rw [hfree]
      have hgr : al.granted h ⟨h.blocks ++ [none], h.reqs + 1 + 1⟩ = false := by rw [granted_two al rfl, hg, hg2]; rfl
      refine ⟨_, _, none, rfl, hI.appNone (fun k hk => List.getElem?_append_left hk) ?_, rfl, by simp [hgr]⟩
      intro k blk hk e
      have := getElem?_lt e
      simp only [List.length_append, List.length_singleton] at this
      have e2 : k = h.blocks.length := by omega
      subst e2
      simp at e
    | true =>
      simp only [if_true]
      generalize hws : reallocWords (al.junk (h.reqs + 1)) [] b.size = ws
      have hwl : ws.length = b.size := by rw [← hws, reallocWords_length]
      have hput : bmPut ⟨h.blocks ++ [some (.obj a b.size b.size)] ++ [some (.words ws)], h.reqs + 1 + 1⟩ h.blocks.length
          (some (h.blocks ++ [some (BBlk.obj a b.size b.size)]).length) b.size b.size =
          some ⟨h.blocks ++ [some (.obj (some (h.blocks.length + 1)) b.size b.size), some (.words ws)], h.reqs + 1 + 1⟩ := by
        simp [bmPut, bmObj]
      rw [hput]
      simp only []
      have hlen : (h.blocks ++ [some (BBlk.obj a b.size b.size)]).length = h.blocks.length + 1 := by simp
      rw [hlen]
      generalize hh2 : (⟨h.blocks ++ [some (.obj (some (h.blocks.length + 1)) b.size b.size), some (.words ws)], h.reqs + 1 + 1⟩ : BHeap) = h2
      have ha2 : BArr h2 (some (h.blocks.length + 1)) ws := by
        rw [← hh2]
        show (h.blocks ++ _)[h.blocks.length + 1]? = _
        rw [List.getElem?_append_right (by omega)]; simp
      have hsrc : BArr h2 a b.mem := by
        have := (hb.same (h' := h2) (fun k hk => by rw [← hh2]; exact List.getElem?_append_left hk)).arr
        exact this
      have hne : a = none ∨ a ≠ some (h.blocks.length + 1) := by
        cases a with
        | none => exact Or.inl rfl
        | some q =>
          refine Or.inr fun e => ?_
          injection e with e
          have := hb.arr_lt
          omega
      have hkl := hk.le
      rw [bmUpd_eq _ ha2 hsrc hne (by omega) (by omega)]
      simp only [Option.map_some]
      have hul := updWords_length (fun k w => wd b.mem k) ws 0 b.size
      have hwu : ∀ j, wd (updWords (fun k w => wd b.mem k) ws 0 b.size) j =
          if 0 ≤ j ∧ j < 0 + b.size then wd b.mem j else wd ws j := fun j => wd_updWords _ _ _ _ _ (by omega)
      generalize updWords (fun k w => wd b.mem k) ws 0 b.size = us at *
      have hus : us.length = b.size := by omega
      have hblk : (wset h2 (some (h.blocks.length + 1)) us).blocks =
          h.blocks ++ [some (.obj (some (h.blocks.length + 1)) b.size us.length), some (.words us)] := by
        rw [← hh2, hus]
        simp [wset, List.set_append]
      have hr : (wset h2 (some (h.blocks.length + 1)) us).reqs = h.reqs + 2 := by rw [wset_reqs, ← hh2]
      have hgr : al.granted h (wset h2 (some (h.blocks.length + 1)) us) = true := by rw [granted_two al hr, hg, hg2]; rfl
      refine ⟨_, _, _, rfl, hI.app2 hblk ⟨by show b.size ≤ us.length; omega, hk.max⟩, rfl, ?_⟩
      rw [if_pos hgr]
      refine ⟨_, _, _, rfl, rfl, fun x => ?_⟩
      rw [bsGet_eq, bsGet_eq]
      congr 1
      unfold bword
      simp only []
      by_cases hx : x / 64 < b.size
      · rw [if_pos hx, if_pos hx, hwu, if_pos (by omega)]
      · rw [if_neg hx, if_neg hx]

end CRoaring
