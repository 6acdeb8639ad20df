import Verif.Model.BitsetMem
import Verif.Lemmas.BitsetT3
set_option linter.unusedSimpArgs false
set_option linter.unusedVariables false
/-
Lemmas about Model/BitsetMem.lean, for C129: one call on one bitset.
-/
namespace CRoaring

/-- The array at `a` holds the words `ws`. -/
def BArr (h : BHeap) (a : Option Nat) (ws : List Word) : Prop :=
  match a with
  | none => ws = []
  | some q => h.blocks[q]? = some (some (.words ws))

/-- The struct at `p`, with the array at `a`, is the bitset `b`. -/
structure BAt (h : BHeap) (p : Nat) (a : Option Nat) (b : BSet) : Prop where
  obj : h.blocks[p]? = some (some (.obj a b.size b.mem.length))
  arr : BArr h a b.mem

/-- What a call on the bitset at `p` leaves alone. -/
structure BFr (h : BHeap) (p : Nat) (a : Option Nat) (h' : BHeap) (a' : Option Nat) : Prop where
  len : h.blocks.length ≤ h'.blocks.length
  old : ∀ k, k ≠ p → a ≠ some k → k < h.blocks.length → h'.blocks[k]? = h.blocks[k]?
  new : ∀ k blk, h.blocks.length ≤ k → h'.blocks[k]? = some (some blk) → a' = some k
  arr : a' = a ∨ ∃ q, a' = some q ∧ h.blocks.length ≤ q
  freed : ∀ q, a = some q → a' ≠ a → h'.blocks[q]? = some none
  reqs : h.reqs ≤ h'.reqs

theorem BAt.ne {h : BHeap} {p : Nat} {a : Option Nat} {b : BSet} (hb : BAt h p a b) : a ≠ some p := by
  intro e
  have h1 := hb.arr
  rw [e] at h1
  have h2 : h.blocks[p]? = some (some (.words b.mem)) := h1
  rw [hb.obj] at h2
  cases h2

theorem getElem?_lt {α : Type _} {l : List α} {k : Nat} {x : α} (h : l[k]? = some x) : k < l.length := by
  rcases Nat.lt_or_ge k l.length with h1 | h1
  · exact h1
  · rw [List.getElem?_eq_none h1] at h; cases h

theorem BAt.lt {h : BHeap} {p : Nat} {a : Option Nat} {b : BSet} (hb : BAt h p a b) : p < h.blocks.length :=
  getElem?_lt hb.obj

theorem BAt.arr_lt {h : BHeap} {p q : Nat} {b : BSet} (hb : BAt h p (some q) b) : q < h.blocks.length :=
  getElem?_lt hb.arr

theorem BFr.refl (h : BHeap) (p : Nat) (a : Option Nat) : BFr h p a h a where
  len := Nat.le_refl _
  old := fun _ _ _ _ => rfl
  new := fun k blk hk e => absurd (getElem?_lt e) (by omega)
  arr := Or.inl rfl
  freed := fun _ _ hn => absurd rfl hn
  reqs := Nat.le_refl _

theorem BFr.trans {h h1 h2 : BHeap} {p : Nat} {a a1 a2 : Option Nat} (hp : p < h.blocks.length) (ha : a ≠ some p)
    (hl : ∀ q, a = some q → q < h.blocks.length)
    (f1 : BFr h p a h1 a1) (f2 : BFr h1 p a1 h2 a2) : BFr h p a h2 a2 where
  len := Nat.le_trans f1.len f2.len
  reqs := Nat.le_trans f1.reqs f2.reqs
  old := by
    intro k hk hak hlt
    rw [f2.old k hk ?_ (Nat.lt_of_lt_of_le hlt f1.len), f1.old k hk hak hlt]
    rcases f1.arr with e | ⟨q, e, hq⟩
    · rw [e]; exact hak
    · rw [e]; intro h; injection h with h; omega
  new := by
    intro k blk hk e
    rcases Nat.lt_or_ge k h1.blocks.length with hlt | hge
    · by_cases hak : a1 = some k
      · by_cases e2 : a2 = a1
        · rw [e2, hak]
        · rw [f2.freed k hak e2] at e; cases e
      · rw [f2.old k (by omega) hak hlt] at e
        exact absurd (f1.new k blk hk e) hak
    · exact f2.new k blk hge e
  arr := by
    rcases f2.arr with e | ⟨q, e, hq⟩
    · rw [e]; exact f1.arr
    · exact Or.inr ⟨q, e, Nat.le_trans f1.len hq⟩
  freed := by
    intro q hq hne
    have hql := hl q hq
    by_cases e1 : a1 = a
    · exact f2.freed q (e1.trans hq) (by rw [e1]; exact hne)
    · have h3 := f1.freed q hq e1
      rw [f2.old q ?_ ?_ (Nat.lt_of_lt_of_le hql f1.len), h3]
      · intro h; rw [hq, h] at ha; exact ha rfl
      · rcases f1.arr with e | ⟨q', e, hq'⟩
        · exact absurd e e1
        · rw [e]; intro h; injection h with h; omega

theorem BFr.transAt {h h1 h2 : BHeap} {p : Nat} {a a1 a2 : Option Nat} {b : BSet} (hb : BAt h p a b)
    (f1 : BFr h p a h1 a1) (f2 : BFr h1 p a1 h2 a2) : BFr h p a h2 a2 :=
  f1.trans hb.lt hb.ne (fun q e => by subst e; exact hb.arr_lt) f2

/-- Another bitset is not touched. -/
theorem BAt.frame {h h' : BHeap} {p p2 : Nat} {a a' a2 : Option Nat} {b2 : BSet} (hb : BAt h p2 a2 b2)
    (hf : BFr h p a h' a') (h1 : p2 ≠ p) (h2 : a ≠ some p2) (h3 : a2 ≠ some p) (h4 : a2 = none ∨ a2 ≠ a) :
    BAt h' p2 a2 b2 := by
  refine ⟨by rw [hf.old p2 h1 h2 hb.lt]; exact hb.obj, ?_⟩
  cases a2 with
  | none => exact hb.arr
  | some q =>
    show h'.blocks[q]? = _
    rw [hf.old q (fun e => h3 (by rw [e])) ?_ hb.arr_lt]
    · exact hb.arr
    · intro e
      rcases h4 with e4 | e4
      · cases e4
      · exact e4 e.symm

/-- The heap with other words in the array at `a`. -/
def wset (h : BHeap) (a : Option Nat) (ws : List Word) : BHeap :=
  match a with
  | none => h
  | some q => ⟨h.blocks.set q (some (.words ws)), h.reqs⟩

theorem wset_reqs (h : BHeap) (a : Option Nat) (ws : List Word) : (wset h a ws).reqs = h.reqs := by
  cases a <;> rfl

theorem set_self' {α : Type _} {l : List α} {q : Nat} {x : α} (h : l[q]? = some x) : l.set q x = l := by
  apply List.ext_getElem?
  intro i
  rw [List.getElem?_set]
  by_cases hq : q = i
  · subst hq; rw [if_pos rfl, if_pos (getElem?_lt h), h]
  · rw [if_neg hq]

theorem wset_self {h : BHeap} {a : Option Nat} {ws : List Word} (ha : BArr h a ws) : wset h a ws = h := by
  cases a with
  | none => rfl
  | some q =>
    have ha' : h.blocks[q]? = some (some (.words ws)) := ha
    show (⟨h.blocks.set q _, h.reqs⟩ : BHeap) = h
    rw [set_self' ha']

theorem wset_wset (h : BHeap) (a : Option Nat) (w1 w2 : List Word) : wset (wset h a w1) a w2 = wset h a w2 := by
  cases a with
  | none => rfl
  | some q => simp [wset]

theorem arr_wset {h : BHeap} {a : Option Nat} {ws ws' : List Word} (ha : BArr h a ws) (hl : ws'.length = ws.length) :
    BArr (wset h a ws') a ws' := by
  cases a with
  | none =>
    have : ws = [] := ha
    rw [this] at hl
    exact List.length_eq_zero_iff.1 hl
  | some q =>
    show (h.blocks.set q _)[q]? = _
    rw [List.getElem?_set, if_pos rfl, if_pos (getElem?_lt (show h.blocks[q]? = some (some (.words ws)) from ha))]

theorem arr_wset_ne {h : BHeap} {a a2 : Option Nat} {ws ws2 : List Word} (ha : BArr h a2 ws2) (hn : a2 = none ∨ a2 ≠ a) :
    BArr (wset h a ws) a2 ws2 := by
  cases a with
  | none => exact ha
  | some q =>
    cases a2 with
    | none => exact ha
    | some q2 =>
      show (h.blocks.set q _)[q2]? = _
      rw [List.getElem?_set, if_neg]
      · exact ha
      · intro e
        rcases hn with e2 | e2
        · cases e2
        · exact e2 (by rw [e])

theorem frame_wset (h : BHeap) (p : Nat) (a : Option Nat) (ws : List Word) : BFr h p a (wset h a ws) a := by
  cases a with
  | none => exact BFr.refl _ _ _
  | some q =>
    have hlen : (wset h (some q) ws).blocks.length = h.blocks.length := by simp [wset]
    refine ⟨by omega, ?_, ?_, Or.inl rfl, fun _ _ hn => absurd rfl hn, Nat.le_refl _⟩
    · intro k hk ha hl
      show (h.blocks.set q _)[k]? = _
      rw [List.getElem?_set, if_neg (fun e => ha (by rw [e]))]
    · intro k blk hk e
      have := getElem?_lt e
      omega

theorem BAt.wset {h : BHeap} {p : Nat} {a : Option Nat} {b : BSet} (hb : BAt h p a b) {ws : List Word}
    (hl : ws.length = b.mem.length) : BAt (wset h a ws) p a ⟨ws, b.size⟩ := by
  refine ⟨?_, arr_wset hb.arr hl⟩
  show (CRoaring.wset h a ws).blocks[p]? = some (some (.obj a b.size ws.length))
  rw [hl, ← hb.obj]
  cases a with
  | none => rfl
  | some q =>
    show (h.blocks.set q _)[p]? = _
    rw [List.getElem?_set, if_neg (fun e => hb.ne (by rw [e]))]

theorem bmLd_eq {h : BHeap} {a : Option Nat} {ws : List Word} (ha : BArr h a ws) {i : Nat} (hi : i < ws.length) :
    bmLd h a i = some (wd ws i) := by
  cases a with
  | none => have : ws = [] := ha; rw [this] at hi; simp at hi
  | some q =>
    have ha' : h.blocks[q]? = some (some (.words ws)) := ha
    simp only [bmLd, ha', wd]
    rw [List.getElem?_eq_getElem hi, List.getD_eq_getElem?_getD, List.getElem?_eq_getElem hi]
    rfl

theorem bmSt_eq {h : BHeap} {a : Option Nat} {ws : List Word} (ha : BArr h a ws) {i : Nat} (hi : i < ws.length) (w : Word) :
    bmSt h a i w = some (wset h a (ws.set i w)) := by
  cases a with
  | none => have : ws = [] := ha; rw [this] at hi; simp at hi
  | some q =>
    have ha' : h.blocks[q]? = some (some (.words ws)) := ha
    simp only [bmSt, ha', if_pos hi]
    rfl

theorem bmFill_eq {h : BHeap} {a : Option Nat} {ws : List Word} (ha : BArr h a ws) (v : Word) {k n : Nat}
    (hn : k + n ≤ ws.length) : bmFill h a v k n = some (wset h a (fillWords ws v k n)) := by
  induction n generalizing h ws k with
  | zero => rw [bmFill, fillWords, wset_self ha]
  | succ n ih =>
    rw [bmFill, bmSt_eq ha (by omega)]
    simp only []
    rw [ih (arr_wset ha (by simp)) (by simp; omega), wset_wset, fillWords]

theorem bmUpd_eq (f : Word → Word → Word) {h : BHeap} {a1 a2 : Option Nat} {w1 w2 : List Word} (h1 : BArr h a1 w1)
    (h2 : BArr h a2 w2) (hne : a2 = none ∨ a2 ≠ a1) {k n : Nat} (hn1 : k + n ≤ w1.length) (hn2 : k + n ≤ w2.length) :
    bmUpd f h a1 a2 k n = some (wset h a1 (updWords (fun k w => f w (wd w2 k)) w1 k n)) := by
  induction n generalizing h w1 k with
  | zero => rw [bmUpd, updWords, wset_self h1]
  | succ n ih =>
    rw [bmUpd, bmLd_eq h1 (by omega), bmLd_eq h2 (by omega)]
    simp only []
    rw [bmSt_eq h1 (by omega)]
    simp only []
    rw [ih (arr_wset h1 (by simp)) (arr_wset_ne h2 hne) (by simp; omega) (by omega), wset_wset, updWords]

theorem bmObj_eq {h : BHeap} {p : Nat} {a : Option Nat} {b : BSet} (hb : BAt h p a b) :
    bmObj h p = some (a, b.size, b.mem.length) := by
  simp only [bmObj, hb.obj]

theorem bmWords_eq {h : BHeap} {a : Option Nat} {ws : List Word} (ha : BArr h a ws) : bmWords h a = some ws := by
  cases a with
  | none => have : ws = [] := ha; rw [this]; rfl
  | some q =>
    have ha' : h.blocks[q]? = some (some (.words ws)) := ha
    simp only [bmWords, ha']

/-- Writing the struct at `p`. -/
def oset (h : BHeap) (p : Nat) (a : Option Nat) (s c : Nat) : BHeap := ⟨h.blocks.set p (some (.obj a s c)), h.reqs⟩

theorem bmPut_eq {h : BHeap} {p : Nat} {a0 : Option Nat} {s0 c0 : Nat} (hp : bmObj h p = some (a0, s0, c0)) (a : Option Nat)
    (s c : Nat) : bmPut h p a s c = some (oset h p a s c) := by
  simp only [bmPut, hp, oset]

theorem oset_frame {h : BHeap} {p : Nat} (a a' : Option Nat) (s c : Nat) : BFr h p a (oset h p a' s c) a := by
  have hlen : (oset h p a' s c).blocks.length = h.blocks.length := by simp [oset]
  refine ⟨by omega, ?_, ?_, Or.inl rfl, fun _ _ hn => absurd rfl hn, Nat.le_refl _⟩
  · intro k hk ha hl
    show (h.blocks.set p _)[k]? = _
    rw [List.getElem?_set, if_neg (Ne.symm hk)]
  · intro k blk hk e
    have := getElem?_lt e
    omega

theorem oset_arr {h : BHeap} {p : Nat} {a : Option Nat} {ws : List Word} (ha : BArr h a ws) (hn : a ≠ some p)
    (a' : Option Nat) (s c : Nat) : BArr (oset h p a' s c) a ws := by
  cases a with
  | none => exact ha
  | some q =>
    show (h.blocks.set p _)[q]? = _
    rw [List.getElem?_set, if_neg (fun e => hn (by rw [e]))]
    exact ha

theorem oset_obj {h : BHeap} {p : Nat} (hp : p < h.blocks.length) (a : Option Nat) (s c : Nat) :
    (oset h p a s c).blocks[p]? = some (some (.obj a s c)) := by
  show (h.blocks.set p _)[p]? = _
  rw [List.getElem?_set, if_pos rfl, if_pos hp]

theorem BAt.oset {h : BHeap} {p : Nat} {a : Option Nat} {b : BSet} (hb : BAt h p a b) (n : Nat) :
    BAt (oset h p a n b.mem.length) p a ⟨b.mem, n⟩ :=
  ⟨oset_obj hb.lt _ _ _, oset_arr hb.arr hb.ne _ _ _⟩

/-- Reallocation, with the write of the struct that follows it. -/
theorem realloc_ok (al : BAlloc) {h : BHeap} {p : Nat} {a : Option Nat} {b : BSet} (hb : BAt h p a b) {n : Nat} (hn : n ≠ 0) :
    (al.grants h.reqs = false ∧ bmRealloc al h a n = some (⟨h.blocks, h.reqs + 1⟩, none)) ∨
    (al.grants h.reqs = true ∧ ∃ h1 q, bmRealloc al h a n = some (h1, some q) ∧ h1.reqs = h.reqs + 1 ∧
      BFr h p a h1 (some q) ∧ bmObj h1 p = some (a, b.size, b.mem.length) ∧ q ≠ p ∧
      BArr h1 (some q) (reallocWords (al.junk h.reqs) b.mem n)) := by
  rw [bmRealloc, bmWords_eq hb.arr]
  simp only [hn, if_false]
  cases hg : al.grants h.reqs with
  | false => exact Or.inl ⟨rfl, by simp⟩
  | true =>
    refine Or.inr ⟨rfl, ?_⟩
    simp only [if_true]
    have key : ∀ h1 : BHeap, bmFree h a = some h1 → h1.blocks.length = h.blocks.length →
        (∀ k, a ≠ some k → h1.blocks[k]? = h.blocks[k]?) → (∀ q, a = some q → h1.blocks[q]? = some none) →
        ∃ h2 q, (match bmFree h a with
          | none => none
          | some h1 => some ((⟨h1.blocks ++ [some (.words (reallocWords (al.junk h.reqs) b.mem n))], h.reqs + 1⟩ : BHeap), some h1.blocks.length)) = some (h2, some q) ∧ h2.reqs = h.reqs + 1 ∧
          BFr h p a h2 (some q) ∧ bmObj h2 p = some (a, b.size, b.mem.length) ∧ q ≠ p ∧
          BArr h2 (some q) (reallocWords (al.junk h.reqs) b.mem n) := by
      intro h1 e hl ho hf
      have hlt := hb.lt
      have hold : ∀ k, k < h.blocks.length →
          (h1.blocks ++ [some (BBlk.words (reallocWords (al.junk h.reqs) b.mem n))])[k]? = h1.blocks[k]? := fun k hk =>
        List.getElem?_append_left (by omega)
      refine ⟨_, _, by rw [e], rfl, ⟨by simp; omega, ?_, ?_, Or.inr ⟨_, rfl, by omega⟩, ?_, by simp⟩, ?_, by omega, ?_⟩
      · intro k hk ha hl2
        show (h1.blocks ++ [_])[k]? = _
        rw [hold k hl2, ho k ha]
      · intro k blk hk e2
        have := getElem?_lt e2
        simp only [List.length_append, List.length_singleton] at this
        have : k = h1.blocks.length := by omega
        rw [this]
      · intro q hq _
        have hql : q < h.blocks.length := by subst hq; exact hb.arr_lt
        show (h1.blocks ++ [_])[q]? = _
        rw [hold q hql, hf q hq]
      · simp only [bmObj]
        rw [hold p hlt, ho p hb.ne, hb.obj]
      · show (h1.blocks ++ [_])[h1.blocks.length]? = _
        simp
    cases a with
    | none => exact key h rfl rfl (fun _ _ => rfl) (fun q e => by cases e)
    | some q =>
      have hq : h.blocks[q]? = some (some (.words b.mem)) := hb.arr
      refine key ⟨h.blocks.set q none, h.reqs⟩ (by simp only [bmFree, hq]) (by simp) ?_ ?_
      · intro k hk
        show (h.blocks.set q none)[k]? = _
        rw [List.getElem?_set, if_neg (fun e => hk (by rw [e]))]
      · intro q' e
        injection e with e
        subst e
        show (h.blocks.set q none)[q]? = _
        rw [List.getElem?_set, if_pos rfl, if_pos (getElem?_lt hq)]

theorem granted_zero (al : BAlloc) {h h' : BHeap} (e : h'.reqs = h.reqs) : al.granted h h' = true := by
  simp [BAlloc.granted, e]

theorem granted_one (al : BAlloc) {h h' : BHeap} (e : h'.reqs = h.reqs + 1) : al.granted h h' = al.grants h.reqs := by
  simp [BAlloc.granted, e, List.range'_one]

end CRoaring
