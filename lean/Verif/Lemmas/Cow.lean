import Verif.Model.Cow
import Verif.Lemmas.Bitmap3

set_option linter.unusedSimpArgs false
set_option linter.unusedVariables false

/-! The heap invariant of the copy-on-write model and the primitives. -/

namespace CRoaring
open Spec

/-- The container behind a pointer. -/
def valC (h : Heap) (r : Ref) : Container := (readC h r).getD (.array [])

/-- The pointers of an array of cells. -/
def refs (s : List Slot) : List Ref := s.map (·.2)

/-- The bitmap stored in an array of cells. -/
def vw (h : Heap) (s : List Slot) : Bitmap := s.map (fun p => (p.1, valC h p.2))

/-- The blocks of `h` are exactly accounted for by the pointers `l`; without copy-on-write (`g = false`) no
pointer is shared. -/
structure HInv (g : Bool) (h : Heap) (l : List Ref) : Prop where
  fresh : ∀ a, h.next ≤ a → h.cell a = none
  dead : ∀ a, h.cell a = none → l.count ⟨false, a⟩ = 0 ∧ l.count ⟨true, a⟩ = 0
  own : ∀ a c, h.cell a = some (.plain c) → l.count ⟨false, a⟩ = 1 ∧ l.count ⟨true, a⟩ = 0
  cnt : ∀ a c n, h.cell a = some (.shared c n) → l.count ⟨false, a⟩ = 0 ∧ l.count ⟨true, a⟩ = n ∧ 0 < n
  uni : g = false → ∀ r ∈ l, r.sh = false

/-- The containers behind the pointers `l` are the same in `h` and `h'`. -/
def Keep (h h' : Heap) (l : List Ref) : Prop := ∀ r ∈ l, valC h' r = valC h r

theorem Keep.refl (h : Heap) (l : List Ref) : Keep h h l := fun _ _ => rfl

theorem Keep.trans {h h1 h2 : Heap} {l l' l'' : List Ref} (a : Keep h h1 l') (b : Keep h1 h2 l'')
    (s1 : l ⊆ l') (s2 : l ⊆ l'') : Keep h h2 l := fun r hr => (b r (s2 hr)).trans (a r (s1 hr))

theorem Keep.mono {h h' : Heap} {l l' : List Ref} (a : Keep h h' l') (s : l ⊆ l') : Keep h h' l :=
  fun r hr => a r (s hr)

theorem Keep.vw {h h' : Heap} {s : List Slot} (a : Keep h h' (refs s)) : vw h' s = vw h s := by
  simp only [CRoaring.vw]
  apply List.map_congr_left
  intro p hp
  rw [a p.2 (List.mem_map.2 ⟨p, hp, rfl⟩)]

@[simp] theorem refs_nil : refs [] = [] := rfl
@[simp] theorem refs_cons (p : Slot) (s : List Slot) : refs (p :: s) = p.2 :: refs s := rfl
@[simp] theorem refs_append (s t : List Slot) : refs (s ++ t) = refs s ++ refs t := List.map_append
@[simp] theorem vw_nil (h : Heap) : vw h [] = [] := rfl
@[simp] theorem vw_cons (h : Heap) (p : Slot) (s : List Slot) : vw h (p :: s) = (p.1, valC h p.2) :: vw h s := rfl
@[simp] theorem vw_append (h : Heap) (s t : List Slot) : vw h (s ++ t) = vw h s ++ vw h t := List.map_append

theorem HInv.perm {g : Bool} {h : Heap} {l l' : List Ref} (i : HInv g h l)
    (e : ∀ r, l'.count r = l.count r) : HInv g h l' where
  fresh := i.fresh
  dead a ha := by rw [e, e]; exact i.dead a ha
  own a c ha := by rw [e, e]; exact i.own a c ha
  cnt a c n ha := by rw [e, e]; exact i.cnt a c n ha
  uni hg r hr := by
    apply i.uni hg r
    have := List.count_pos_iff.2 hr
    rw [e] at this
    exact List.count_pos_iff.1 this

/-- Equality of counts of concatenations of lists of pointers. -/
macro "count_tac" : tactic => `(tactic| (
  intro r
  simp only [refs_append, refs_cons, refs_nil, List.count_append, List.count_cons, List.count_nil, List.append_nil,
    List.nil_append, List.cons_append] at *
  try omega))

/-- Inclusions of concatenations of lists of pointers. -/
macro "sub_tac" : tactic => `(tactic| (
  intro r hr
  try simp only [refs_append, refs_cons, refs_nil, List.mem_append, List.mem_cons, List.not_mem_nil, List.append_nil,
    List.nil_append, List.cons_append, or_false, false_or] at hr ⊢
  first | exact hr | grind))

theorem HInv.live {g : Bool} {h : Heap} {l : List Ref} (i : HInv g h l) {r : Ref} (hr : r ∈ l) :
    readC h r = some (valC h r) := by
  have hp := List.count_pos_iff.2 hr
  obtain ⟨sh, a⟩ := r
  cases hc : h.cell a with
  | none => have := i.dead a hc; cases sh <;> omega
  | some c =>
    cases c with
    | plain c =>
      have := i.own a c hc
      cases sh
      · simp [valC, readC, hc]
      · omega
    | shared c n =>
      have := i.cnt a c n hc
      cases sh
      · omega
      · simp [valC, readC, hc]

/-- The cell behind a pointer that is accounted for. -/
theorem HInv.cell_plain {g : Bool} {h : Heap} {l : List Ref} (i : HInv g h l) {a : Nat} (hr : ⟨false, a⟩ ∈ l) :
    h.cell a = some (.plain (valC h ⟨false, a⟩)) := by
  have := i.live hr
  cases hc : h.cell a with
  | none => simp [readC, hc] at this
  | some c => cases c <;> simp_all [readC, valC]

theorem HInv.cell_shared {g : Bool} {h : Heap} {l : List Ref} (i : HInv g h l) {a : Nat} (hr : ⟨true, a⟩ ∈ l) :
    ∃ n, h.cell a = some (.shared (valC h ⟨true, a⟩) n) ∧ n = l.count ⟨true, a⟩ ∧ 0 < n := by
  have := i.live hr
  cases hc : h.cell a with
  | none => simp [readC, hc] at this
  | some c =>
    cases c with
    | plain c => simp_all [readC, valC]
    | shared c n => have h2 := i.cnt a c n hc; exact ⟨n, by simp_all [readC, valC], h2.2.1.symm, h2.2.2⟩

theorem HInv.addr_lt {g : Bool} {h : Heap} {l : List Ref} (i : HInv g h l) {r : Ref} (hr : r ∈ l) :
    r.addr < h.next := by
  apply Classical.byContradiction
  intro hn
  have hp := List.count_pos_iff.2 hr
  obtain ⟨sh, a⟩ := r
  have h1 := i.fresh a (Nat.le_of_not_lt hn)
  have h2 := i.dead _ h1
  cases sh <;> omega

theorem valC_congr {h h' : Heap} {r : Ref} (e : h'.cell r.addr = h.cell r.addr) : valC h' r = valC h r := by
  simp [valC, readC, e]

theorem valC_shared {h : Heap} {a n : Nat} {c : Container} (e : h.cell a = some (.shared c n)) :
    valC h ⟨true, a⟩ = c := by simp [valC, readC, e]

theorem valC_plain {h : Heap} {a : Nat} {c : Container} (e : h.cell a = some (.plain c)) :
    valC h ⟨false, a⟩ = c := by simp [valC, readC, e]

theorem newC_spec {g : Bool} {h : Heap} {l : List Ref} (i : HInv g h l) (c : Container) :
    HInv g (newC h c).2 ((newC h c).1 :: l) ∧ valC (newC h c).2 (newC h c).1 = c ∧
      (newC h c).1.sh = false ∧ Keep h (newC h c).2 l := by
  have hd := i.dead h.next (i.fresh h.next (Nat.le_refl _))
  refine ⟨⟨?_, ?_, ?_, ?_, ?_⟩, ?_, rfl, ?_⟩
  · intro a ha
    simp only [newC, Heap.alloc] at ha ⊢
    rw [if_neg (by omega)]
    exact i.fresh a (by omega)
  · intro a ha
    simp only [newC, Heap.alloc] at ha ⊢
    by_cases e : a = h.next
    · simp [e] at ha
    · rw [if_neg e] at ha
      have := i.dead a ha
      simp only [List.count_cons]
      grind
  · intro a c' ha
    simp only [newC, Heap.alloc] at ha ⊢
    by_cases e : a = h.next
    · subst e
      simp only [List.count_cons]
      grind
    · rw [if_neg e] at ha
      have := i.own a c' ha
      simp only [List.count_cons]
      grind
  · intro a c' n ha
    simp only [newC, Heap.alloc] at ha ⊢
    by_cases e : a = h.next
    · simp [e] at ha
    · rw [if_neg e] at ha
      have := i.cnt a c' n ha
      simp only [List.count_cons]
      grind
  · intro hg r hr
    rcases List.mem_cons.1 hr with hr | hr
    · rw [hr]; rfl
    · exact i.uni hg r hr
  · simp [valC, readC, newC, Heap.alloc]
  · intro r hr
    apply valC_congr
    have := i.addr_lt hr
    simp only [newC, Heap.alloc]
    rw [if_neg (by omega)]

/-- Changing the cell of an address for which the new account is right. -/
theorem HInv.put {g : Bool} {h : Heap} {l l' : List Ref} (i : HInv g h l) {a : Nat} (ha : a < h.next)
    {v : Option Cell} (e : ∀ sh b, b ≠ a → l'.count ⟨sh, b⟩ = l.count ⟨sh, b⟩)
    (hv : match v with
      | none => l'.count ⟨false, a⟩ = 0 ∧ l'.count ⟨true, a⟩ = 0
      | some (.plain _) => l'.count ⟨false, a⟩ = 1 ∧ l'.count ⟨true, a⟩ = 0
      | some (.shared _ n) => l'.count ⟨false, a⟩ = 0 ∧ l'.count ⟨true, a⟩ = n ∧ 0 < n)
    (hu : g = false → ∀ r ∈ l', r.sh = false) : HInv g (h.put a v) l' := by
  refine ⟨?_, ?_, ?_, ?_, hu⟩
  · intro b hb
    simp only [Heap.put] at hb ⊢
    rw [if_neg (by omega)]
    exact i.fresh b hb
  · intro b hb
    simp only [Heap.put] at hb
    by_cases eb : b = a
    · subst eb; simp only [if_true] at hb; subst hb; exact hv
    · rw [if_neg eb] at hb; rw [e _ _ eb, e _ _ eb]; exact i.dead b hb
  · intro b c hb
    simp only [Heap.put] at hb
    by_cases eb : b = a
    · subst eb; simp only [if_true] at hb; subst hb; exact hv
    · rw [if_neg eb] at hb; rw [e _ _ eb, e _ _ eb]; exact i.own b c hb
  · intro b c n hb
    simp only [Heap.put] at hb
    by_cases eb : b = a
    · subst eb; simp only [if_true] at hb; subst hb; exact hv
    · rw [if_neg eb] at hb; rw [e _ _ eb, e _ _ eb]; exact i.cnt b c n hb

theorem count_cons_ne {l : List Ref} {r : Ref} {sh : Bool} {b : Nat} (h : b ≠ r.addr) :
    (r :: l).count ⟨sh, b⟩ = l.count ⟨sh, b⟩ := by
  rw [List.count_cons, if_neg, Nat.add_zero]
  intro e
  have := beq_iff_eq.1 e
  subst this
  exact h rfl

theorem freeC_spec {g : Bool} {h : Heap} {r : Ref} {l : List Ref} (i : HInv g h (r :: l)) :
    ∃ h', freeC h r = some h' ∧ HInv g h' l ∧ Keep h h' l := by
  have hlt := i.addr_lt (List.mem_cons_self (a := r) (l := l))
  have hu : g = false → ∀ r ∈ l, r.sh = false := fun hg x hx => i.uni hg x (List.mem_cons_of_mem _ hx)
  obtain ⟨sh, a⟩ := r
  cases sh with
  | false =>
    have hc := i.cell_plain (List.mem_cons_self)
    have ho := i.own a _ hc
    simp only [List.count_cons] at ho
    have ho1 : l.count ⟨false, a⟩ = 0 := by simpa using ho.1
    have ho2 : l.count ⟨true, a⟩ = 0 := by simpa using ho.2
    refine ⟨h.put a none, by simp [freeC, hc], i.put (a := a) hlt (fun sh b hb => (count_cons_ne hb).symm) ⟨ho1, ho2⟩ hu, ?_⟩
    intro x hx
    apply valC_congr
    simp only [Heap.put]
    rw [if_neg]
    intro e
    have hp := List.count_pos_iff.2 hx
    obtain ⟨xs, xa⟩ := x
    simp only at e; subst e
    cases xs <;> omega
  | true =>
    obtain ⟨n, hc, hn, hn0⟩ := i.cell_shared (List.mem_cons_self)
    have ho := i.cnt a _ n hc
    simp only [List.count_cons] at ho
    have ho1 : l.count ⟨false, a⟩ = 0 := by simpa using ho.1
    have ho2 : l.count ⟨true, a⟩ + 1 = n := by simpa using ho.2.1
    by_cases e1 : n - 1 = 0
    · refine ⟨h.put a none, by simp only [freeC, hc]; rw [if_neg (by omega), if_pos e1],
        i.put (a := a) hlt (fun sh b hb => (count_cons_ne hb).symm) ⟨ho1, by omega⟩ hu, ?_⟩
      intro x hx
      apply valC_congr
      simp only [Heap.put]
      rw [if_neg]
      intro e
      have hp := List.count_pos_iff.2 hx
      obtain ⟨xs, xa⟩ := x
      simp only at e; subst e
      cases xs <;> omega
    · refine ⟨h.put a (some (.shared _ (n - 1))), by simp only [freeC, hc]; rw [if_neg (by omega), if_neg e1],
        i.put (a := a) hlt (fun sh b hb => (count_cons_ne hb).symm) ⟨ho1, by omega, by omega⟩ hu, ?_⟩
      intro x hx
      obtain ⟨xs, xa⟩ := x
      by_cases e : xa = a
      · subst e
        have hp := List.count_pos_iff.2 hx
        cases xs
        · omega
        · rw [valC_shared (h := h.put xa _) (n := n - 1) (c := valC h ⟨true, xa⟩) (by simp [Heap.put])]
      · apply valC_congr; simp [Heap.put, e]

theorem unshareC_spec {g : Bool} {h : Heap} {r : Ref} {l : List Ref} (i : HInv g h (r :: l)) :
    ∃ r' h', unshareC h r = some (r', h') ∧ HInv g h' (r' :: l) ∧ valC h' r' = valC h r ∧ r'.sh = false ∧
      Keep h h' l := by
  obtain ⟨sh, a⟩ := r
  cases sh with
  | false => exact ⟨⟨false, a⟩, h, rfl, i, rfl, rfl, Keep.refl _ _⟩
  | true =>
    obtain ⟨h1, e1, i1, k1⟩ := freeC_spec i
    obtain ⟨n, hc, hn, hn0⟩ := i.cell_shared (List.mem_cons_self)
    obtain ⟨i2, v2, s2, k2⟩ := newC_spec i1 (valC h ⟨true, a⟩)
    refine ⟨(newC h1 (valC h ⟨true, a⟩)).1, (newC h1 (valC h ⟨true, a⟩)).2, ?_, i2, v2, s2,
      k1.trans k2 (List.Subset.refl _) (List.Subset.refl _)⟩
    simp only [freeC, hc] at e1
    rw [if_neg (by omega)] at e1
    simp only [unshareC, if_true, extractCopy, hc]
    rw [if_neg (by omega)]
    split <;> rename_i he <;> simp only [he, if_true, if_false, Option.some.injEq] at e1 <;> rw [e1]

theorem replaceC_spec {g : Bool} {h : Heap} {r : Ref} {l : List Ref} (i : HInv g h (r :: l)) {o : Bool}
    (ho : o = true → r.sh = false) (c : Container) :
    ∃ r' h', replaceC o h r c = some (r', h') ∧ HInv g h' (r' :: l) ∧ valC h' r' = c ∧ Keep h h' l := by
  cases o with
  | false =>
    obtain ⟨i1, v1, s1, k1⟩ := newC_spec i c
    have i2 : HInv g (newC h c).2 (r :: (newC h c).1 :: l) := i1.perm (by count_tac)
    obtain ⟨h2, e2, i3, k3⟩ := freeC_spec i2
    refine ⟨(newC h c).1, h2, by simp [replaceC, e2], i3, ?_, ?_⟩
    · rw [k3 _ List.mem_cons_self, v1]
    · exact k1.trans k3 (by sub_tac) (by sub_tac)
  | true =>
    have hlt := i.addr_lt (List.mem_cons_self (a := r) (l := l))
    have hsh := ho rfl
    obtain ⟨sh, a⟩ := r
    simp only at hsh; subst hsh
    have hc := i.cell_plain (List.mem_cons_self)
    have hown := i.own a _ hc
    refine ⟨⟨false, a⟩, h.put a (some (.plain c)), by simp [replaceC, writeC, hc], ?_, ?_, ?_⟩
    · exact i.put hlt (fun _ _ _ => rfl) hown i.uni
    · exact valC_plain (by simp [Heap.put])
    · intro x hx
      apply valC_congr
      simp only [Heap.put]
      rw [if_neg]
      intro e
      have hp := List.count_pos_iff.2 hx
      obtain ⟨xs, xa⟩ := x
      simp only at e; subst e
      simp only [List.count_cons] at hown
      have h1 : l.count ⟨false, xa⟩ = 0 := by simpa using hown.1
      have h2 : l.count ⟨true, xa⟩ = 0 := by simpa using hown.2
      cases xs <;> omega

theorem replaceShared_spec {g : Bool} {h : Heap} {r : Ref} {l : List Ref} (i : HInv g h (r :: l)) (o : Bool)
    (c : Container) :
    ∃ r' h', replaceShared o h r c = some (r', h') ∧ HInv g h' (r' :: l) ∧ valC h' r' = c ∧ Keep h h' l :=
  replaceC_spec i (by intro e; simp at e; exact e.2) c

theorem getCopyOf_spec {g : Bool} {h : Heap} {r : Ref} {l : List Ref} (i : HInv g h (r :: l)) :
    ∃ r1 r2 h', getCopyOf g h r = some (r1, r2, h') ∧ HInv g h' (r1 :: r2 :: l) ∧ valC h' r1 = valC h r ∧
      valC h' r2 = valC h r ∧ Keep h h' l := by
  cases g with
  | false =>
    obtain ⟨i1, v1, s1, k1⟩ := newC_spec i (valC h r)
    refine ⟨(newC h (valC h r)).1, r, (newC h (valC h r)).2, ?_, i1, v1, k1 r List.mem_cons_self, k1.mono (by sub_tac)⟩
    simp [getCopyOf, i.live List.mem_cons_self]
  | true =>
    have hlt := i.addr_lt (List.mem_cons_self (a := r) (l := l))
    obtain ⟨sh, a⟩ := r
    cases sh with
    | true =>
      obtain ⟨n, hc, hn, hn0⟩ := i.cell_shared (List.mem_cons_self)
      have ho := i.cnt a _ n hc
      have k : ∀ x : Ref, x ∈ (⟨true, a⟩ :: l : List Ref) →
          valC (h.put a (some (.shared (valC h ⟨true, a⟩) (n + 1)))) x = valC h x := by
        intro x hx
        obtain ⟨xs, xa⟩ := x
        by_cases e : xa = a
        · subst e
          cases xs
          · have hp := List.count_pos_iff.2 hx; omega
          · rw [valC_shared (h := h.put xa _) (by simp [Heap.put]; exact ⟨rfl, rfl⟩)]
        · apply valC_congr; simp [Heap.put, e]
      refine ⟨⟨true, a⟩, ⟨true, a⟩, h.put a (some (.shared (valC h ⟨true, a⟩) (n + 1))), ?_, ?_,
        k _ List.mem_cons_self, k _ List.mem_cons_self, fun x hx => k x (List.mem_cons_of_mem _ hx)⟩
      · simp [getCopyOf, hc]
      · refine i.put hlt (fun sh b hb => count_cons_ne hb) ?_ (by simp)
        simp only
        rw [List.count_cons (l := _ :: l), List.count_cons (l := _ :: l), ho.1, ho.2.1]
        simp
    | false =>
      obtain ⟨h1, e1, i1, k1⟩ := freeC_spec i
      have hc := i.cell_plain (List.mem_cons_self)
      have eh : h1 = h.put a none := by simp [freeC, hc] at e1; exact e1.symm
      subst eh
      refine ⟨⟨true, h.next⟩, ⟨true, h.next⟩, ((h.put a none).alloc (.shared (valC h ⟨false, a⟩) 2)).2, ?_, ?_,
        ?_, ?_, ?_⟩
      · simp only [getCopyOf, hc, if_true]; rfl
      · have hd := i1.dead h.next (i1.fresh _ (Nat.le_refl _))
        refine ⟨?_, ?_, ?_, ?_, by simp⟩
        · intro b hb
          simp only [Heap.alloc] at hb ⊢
          rw [if_neg (by simp only [Heap.put] at hb ⊢; omega)]
          exact i1.fresh b (by omega)
        · intro b hb
          simp only [Heap.alloc] at hb
          have e : b ≠ h.next := by intro e; rw [if_pos (by rw [e]; rfl)] at hb; cases hb
          rw [if_neg (show ¬ b = (h.put a none).next from e)] at hb
          rw [count_cons_ne (l := _ :: l) e, count_cons_ne e, count_cons_ne (l := _ :: l) e, count_cons_ne e]
          exact i1.dead b hb
        · intro b c hb
          simp only [Heap.alloc] at hb
          have e : b ≠ h.next := by intro e; rw [if_pos (by rw [e]; rfl)] at hb; cases hb
          rw [if_neg (show ¬ b = (h.put a none).next from e)] at hb
          rw [count_cons_ne (l := _ :: l) e, count_cons_ne e, count_cons_ne (l := _ :: l) e, count_cons_ne e]
          exact i1.own b c hb
        · intro b c n hb
          simp only [Heap.alloc] at hb
          by_cases e : b = h.next
          · rw [if_pos (by rw [e]; rfl)] at hb
            injection hb with hb; injection hb with hb1 hb2
            subst e hb2
            simp only [List.count_cons, hd.1, hd.2]
            simp
          · rw [if_neg (show ¬ b = (h.put a none).next from e)] at hb
            rw [count_cons_ne (l := _ :: l) e, count_cons_ne e, count_cons_ne (l := _ :: l) e, count_cons_ne e]
            exact i1.cnt b c n hb
      · exact valC_shared (n := 2) (by simp [Heap.alloc, Heap.put])
      · exact valC_shared (n := 2) (by simp [Heap.alloc, Heap.put])
      · intro x hx
        have hx2 := i1.addr_lt hx
        rw [← k1 x hx]
        apply valC_congr
        simp only [Heap.alloc]
        rw [if_neg (by omega)]

theorem appendCopy_spec {g : Bool} {h : Heap} {r : Ref} {l : List Ref} (i : HInv g h (r :: l)) :
    ∃ r1 r2 h', appendCopy g h r = some (r1, r2, h') ∧ HInv g h' (r1 :: r2 :: l) ∧ valC h' r1 = valC h r ∧
      valC h' r2 = valC h r ∧ Keep h h' l := by
  cases g with
  | true => simpa [appendCopy] using getCopyOf_spec i
  | false =>
    have hs := i.uni rfl r List.mem_cons_self
    obtain ⟨r1, r2, h', e, rest⟩ := getCopyOf_spec i
    refine ⟨r1, r2, h', ?_, rest⟩
    obtain ⟨sh, a⟩ := r
    simp only at hs; subst hs
    have hc := i.cell_plain (List.mem_cons_self)
    simp only [getCopyOf, readC, hc] at e
    simp only [appendCopy, cloneC, hc]
    simpa using e

theorem copySlots_spec {g : Bool} {h : Heap} {s : List Slot} {l : List Ref} (i : HInv g h (refs s ++ l)) :
    ∃ a s' h', copySlots g h s = some (a, s', h') ∧ HInv g h' (refs a ++ (refs s' ++ l)) ∧ vw h' a = vw h s ∧
      vw h' s' = vw h s ∧ Keep h h' l := by
  induction s generalizing h l with
  | nil => exact ⟨[], [], h, rfl, i, rfl, rfl, Keep.refl _ _⟩
  | cons p t ih =>
    obtain ⟨k, r⟩ := p
    obtain ⟨r1, r2, h1, e1, i1, v1, v2, k1⟩ := appendCopy_spec (r := r) (l := refs t ++ l) (i.perm (by count_tac))
    obtain ⟨a, s', h2, e2, i2, w1, w2, k2⟩ := ih (h := h1) (l := r1 :: r2 :: l) (i1.perm (by count_tac))
    refine ⟨(k, r1) :: a, (k, r2) :: s', h2, by simp [copySlots, e1, e2], i2.perm (by count_tac), ?_, ?_,
      k1.trans k2 (by sub_tac) (by sub_tac)⟩
    · simp only [vw_cons]
      rw [w1, k2 r1 (by simp), v1, Keep.vw (k1.mono (by sub_tac))]
    · simp only [vw_cons]
      rw [w2, k2 r2 (by simp), v2, Keep.vw (k1.mono (by sub_tac))]

theorem freeSlots_spec {g : Bool} {h : Heap} {s : List Slot} {l : List Ref} (i : HInv g h (refs s ++ l)) :
    ∃ h', freeSlots h s = some h' ∧ HInv g h' l ∧ Keep h h' l := by
  induction s generalizing h with
  | nil => exact ⟨h, rfl, i, Keep.refl _ _⟩
  | cons p t ih =>
    obtain ⟨k, r⟩ := p
    obtain ⟨h1, e1, i1, k1⟩ := freeC_spec (r := r) (l := refs t ++ l) (i.perm (by count_tac))
    obtain ⟨h2, e2, i2, k2⟩ := ih i1
    exact ⟨h2, by simp [freeSlots, e1, e2], i2, k1.trans k2 (by sub_tac) (by sub_tac)⟩

end CRoaring
