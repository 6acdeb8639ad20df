import Verif.Model.MapIter
import Verif.Lemmas.Map64d
import Verif.Lemmas.Iter2
import Verif.Lemmas.Serial2
set_option linter.unusedSimpArgs false
set_option linter.unusedVariables false
/-
Proofs about the iterators of the C++ classes.
-/
namespace CRoaring
open Spec

theorem toU32_enum {b : Bitmap} (hb : Valid b) : rbToUint32 b = enum 4294967296 (bhas b) := by
  refine sorted_eq_enum (Props.C22_to_uint32_array hb).1 fun x => ?_
  rw [toU32_mem hb, rbContains_eq hb.inv]
  exact ⟨fun h => ⟨bhas_lt hb.inv h, h⟩, fun h => h.2⟩

/-- The number of values of a bitmap. -/
def cnt32 (b : Bitmap) : Nat := (rbToUint32 b).length

theorem cnt32_card {b : Bitmap} (hb : Valid b) : cnt32 b = card 4294967296 (bhas b) := by
  unfold cnt32 card; rw [toU32_enum hb]

theorem rel_has {b : Bitmap} (hb : Valid b) {it : Iter} {i : Nat} (hr : RelI b it i) :
    it.hasValue = decide (1 ≤ i ∧ i ≤ cnt32 b) := by
  have h := rel_seen hb.inv hr
  rw [← toU32_enum hb] at h
  by_cases h1 : 1 ≤ i
  · rw [if_pos h1] at h
    by_cases h2 : i ≤ cnt32 b
    · rw [List.getElem?_eq_getElem (show i - 1 < (rbToUint32 b).length by unfold cnt32 at h2; omega)] at h
      have := (Prod.mk.inj h).1
      rw [this]; simp [h1, h2]
    · rw [List.getElem?_eq_none (by unfold cnt32 at h2; omega)] at h
      rw [(Prod.mk.inj h).1]; simp [h2]
  · rw [if_neg h1] at h
    rw [(Prod.mk.inj h).1]; simp [h1]

theorem rel_val {b : Bitmap} (hb : Valid b) {it : Iter} {j : Nat} (hr : RelI b it (j + 1)) {v : Nat}
    (hv : (rbToUint32 b)[j]? = some v) : it.currentValue = v := by
  have h := rel_seen hb.inv hr
  rw [← toU32_enum hb, if_pos (by omega), Nat.add_sub_cancel, hv] at h
  exact (Prod.mk.inj h).2

theorem rel_none {b : Bitmap} (hb : Valid b) {it : Iter} {i : Nat} (hr : RelI b it i) (h : ¬ (1 ≤ i ∧ i ≤ cnt32 b)) :
    it.currentValue = 4294967295 := by
  have h' := rel_seen hb.inv hr
  rw [← toU32_enum hb] at h'
  by_cases h1 : 1 ≤ i
  · rw [if_pos h1, List.getElem?_eq_none (by unfold cnt32 at h; omega)] at h'
    exact (Prod.mk.inj h').2
  · rw [if_neg h1] at h'
    exact (Prod.mk.inj h').2

/-! ### Positions in a map -/

/-- The number of values of a map. -/
def cntM (m : Map64) : Nat := (m64ToUint64 m).length

theorem toU_append (a b : Map64) : m64ToUint64 (a ++ b) = m64ToUint64 a ++ m64ToUint64 b := by
  unfold m64ToUint64; rw [List.flatMap_append]

theorem cntM_append (a b : Map64) : cntM (a ++ b) = cntM a + cntM b := by
  unfold cntM; rw [toU_append, List.length_append]

theorem cntM_cons (k : Nat) (b : Bitmap) (t : Map64) : cntM ((k, b) :: t) = cnt32 b + cntM t := by
  unfold cntM cnt32; rw [toU_cons, List.length_append, List.length_map]

theorem cntM_nil : cntM [] = 0 := rfl

/-- The iterator points into the entry `(k, b)` of the map, with index `i` of the inner iterator. -/
structure AtM (m : Map64) (it : MIter) (A : Map64) (k : Nat) (b : Bitmap) (B : Map64) (i : Nat) : Prop where
  eq : m = A ++ (k, b) :: B
  pos : it.pos = A.length
  par : it.parent = some b
  rel : RelI b it.i i

theorem AtM.valid {m : Map64} (hm : ValidM m) {it : MIter} {A k b B i} (h : AtM m it A k b B i) : Valid b := by
  have := h.eq ▸ hm
  exact (this.2 (k, b) (by simp)).2

/-- The iterator is at position `p` of the increasing list of all values; the position behind the last is `end()`. -/
def RelM (m : Map64) (it : MIter) (p : Nat) : Prop :=
  (p = cntM m ∧ it.pos = m.length) ∨ ∃ A k b B i, AtM m it A k b B (i + 1) ∧ i < cnt32 b ∧ p = cntM A + i

theorem forward_spec {m : Map64} (hm : ValidM m) (B : Map64) : ∀ {it : MIter} {A k b i}, AtM m it A k b B (i + 1) → i ≤ cnt32 b →
    RelM m (miForward B it) (cntM A + i) := by
  induction B with
  | nil =>
    intro it A k b i h hi
    have hb := h.valid hm
    unfold miForward
    rw [rel_has hb h.rel]
    by_cases hc : i < cnt32 b
    · rw [if_pos (by simp; omega)]
      exact Or.inr ⟨A, k, b, [], i, h, hc, rfl⟩
    · rw [if_neg (by simp; omega)]
      left
      constructor
      · rw [h.eq, cntM_append, cntM_cons, cntM_nil]; omega
      · simp only [h.eq, h.pos, List.length_append, List.length_cons, List.length_nil]
  | cons e t ih =>
    intro it A k b i h hi
    have hb := h.valid hm
    unfold miForward
    rw [rel_has hb h.rel]
    by_cases hc : i < cnt32 b
    · rw [if_pos (by simp; omega)]
      exact Or.inr ⟨A, k, b, e :: t, i, h, hc, rfl⟩
    · rw [if_neg (by simp; omega)]
      have he : Valid e.2 := by
        have := h.eq ▸ hm
        exact (this.2 e (by simp)).2
      have hat : AtM m (miInit (it.pos + 1) e.2 it.i) (A ++ [(k, b)]) e.1 e.2 t (0 + 1) := by
        refine ⟨by rw [h.eq]; simp, by simp [miInit, h.pos], rfl, rel_init he.inv _⟩
      have := ih hat (by omega)
      rw [cntM_append, cntM_cons, cntM_nil] at this
      rw [show cntM A + i = cntM A + (cnt32 b + 0) + 0 by omega]
      exact this

theorem backward_spec {m : Map64} (hm : ValidM m) (R : Map64) : ∀ {it : MIter} {A k b B i}, AtM m it A k b B i → A = R.reverse →
    i ≤ cnt32 b → 0 < cntM A + i → RelM m (miBackward R it) (cntM A + i - 1) := by
  induction R with
  | nil =>
    intro it A k b B i h hA hi hp
    subst hA
    have : cntM ([] : Map64).reverse = 0 := rfl
    unfold miBackward
    refine Or.inr ⟨[], k, b, B, i - 1, ?_, by omega, by rw [this]; rw [cntM_nil]; omega⟩
    rw [show i - 1 + 1 = i by omega]
    exact h
  | cons e t ih =>
    intro it A k b B i h hA hi hp
    have hb := h.valid hm
    unfold miBackward
    rw [rel_has hb h.rel]
    by_cases hc : 1 ≤ i
    · rw [if_pos (by simp; omega)]
      refine Or.inr ⟨A, k, b, B, i - 1, ?_, by omega, by omega⟩
      rw [show i - 1 + 1 = i by omega]
      exact h
    · rw [if_neg (by simp; omega)]
      rw [List.reverse_cons] at hA
      have he : Valid e.2 := by
        have := h.eq ▸ hm
        exact (this.2 e (by rw [hA]; simp)).2
      have hat : AtM m (miInitLast (it.pos - 1) e.2 it.i) t.reverse e.1 e.2 ((k, b) :: B) (cnt32 e.2) := by
        refine ⟨by rw [h.eq, hA]; simp, ?_, rfl, by rw [cnt32_card he]; exact rel_init_last he.inv _⟩
        simp only [miInitLast, h.pos, hA, List.length_append, List.length_reverse, List.length_cons, List.length_nil]
        omega
      have hA' : cntM A = cntM t.reverse + cnt32 e.2 := by
        rw [hA, cntM_append, show [e] = [(e.1, e.2)] from rfl, cntM_cons, cntM_nil]; rfl
      have := ih hat rfl (Nat.le_refl _) (by omega)
      rw [show cntM A + i - 1 = cntM t.reverse + cnt32 e.2 - 1 by omega]
      exact this

theorem begin_rel {m : Map64} (hm : ValidM m) : RelM m (miBegin m) 0 := by
  cases m with
  | nil => exact Or.inl ⟨rfl, rfl⟩
  | cons e t =>
    have he : Valid e.2 := (hm.2 e (by simp)).2
    have := forward_spec hm t (it := miInit 0 e.2 zeroIter) (A := []) (k := e.1) (b := e.2) (i := 0)
      ⟨rfl, rfl, rfl, rel_init he.inv _⟩ (by omega)
    rwa [cntM_nil] at this

theorem end_rel (m : Map64) : RelM m (miEnd m) (cntM m) := Or.inl ⟨rfl, rfl⟩

theorem skip_spec {m : Map64} (hm : ValidM m) {it : MIter} {A k b B i} (h : AtM m it A k b B (i + 1)) (hi : i ≤ cnt32 b) :
    ∃ it', miSkip m it = some it' ∧ RelM m it' (cntM A + i) := by
  have hb := h.valid hm
  have hd : m.drop (it.pos + 1) = B := by
    rw [h.eq, h.pos, show A ++ (k, b) :: B = (A ++ [(k, b)]) ++ B by simp, List.drop_left' (by simp)]
  have hl : it.pos < m.length := by rw [h.eq, h.pos]; simp
  unfold miSkip
  by_cases hv : it.i.hasValue = true
  · rw [if_pos hv]
    refine ⟨it, rfl, Or.inr ⟨A, k, b, B, i, h, ?_, rfl⟩⟩
    rw [rel_has hb h.rel] at hv
    have := (of_decide_eq_true hv).2
    omega
  · rw [if_neg hv, if_pos hl, hd]
    exact ⟨_, rfl, forward_spec hm B h hi⟩

theorem relM_le {m : Map64} {it : MIter} {p : Nat} (h : RelM m it p) : p ≤ cntM m := by
  rcases h with ⟨h, _⟩ | ⟨A, k, b, B, i, h, hi, hp⟩
  · omega
  · rw [h.eq, cntM_append, cntM_cons]; omega

/-- Behind the last value: `end()`; otherwise in an entry. -/
theorem relM_cases {m : Map64} {it : MIter} {p : Nat} (h : RelM m it p) :
    (p = cntM m ∧ it.pos = m.length) ∨ (p < cntM m ∧ it.pos < m.length ∧
      ∃ A k b B i, AtM m it A k b B (i + 1) ∧ i < cnt32 b ∧ p = cntM A + i) := by
  rcases h with h | ⟨A, k, b, B, i, h, hi, hp⟩
  · exact Or.inl h
  · refine Or.inr ⟨?_, ?_, A, k, b, B, i, h, hi, hp⟩
    · rw [h.eq, cntM_append, cntM_cons]; omega
    · rw [h.eq, h.pos]; simp

theorem inc_rel {m : Map64} (hm : ValidM m) {it : MIter} {p : Nat} (h : RelM m it p) (hp : p < cntM m) :
    (∃ it', miInc m it = some it' ∧ RelM m it' (p + 1)) ∧ ∃ it', miPostInc m it = some it' ∧ RelM m it' (p + 1) := by
  rcases relM_cases h with ⟨h1, _⟩ | ⟨_, _, A, k, b, B, i, hat, hi, hpe⟩
  · omega
  · have hb := hat.valid hm
    have hv : it.i.hasValue = true := by rw [rel_has hb hat.rel]; simp; omega
    have hat' : AtM m { it with i := iterAdvance b it.i } A k b B (i + 1 + 1) := by
      refine ⟨hat.eq, hat.pos, hat.par, ?_⟩
      have := rel_advance hb.inv hat.rel
      rw [← cnt32_card hb, Nat.min_eq_left (by omega)] at this
      exact this
    have hs := skip_spec hm hat' (by omega)
    rw [show p + 1 = cntM A + (i + 1) by omega]
    have e1 : miPostInc m it = miSkip m { it with i := iterAdvance b it.i } := by
      unfold miPostInc; rw [hat.par]
    have e2 : miInc m it = miPostInc m it := by unfold miInc miPostInc; rw [if_pos hv]
    rw [e2, e1]
    exact ⟨hs, hs⟩

theorem back_spec {m : Map64} (hm : ValidM m) {it : MIter} {A k b B i} (h : AtM m it A k b B i) (hi : i ≤ cnt32 b + 1)
    (hp : 0 < cntM A + (i - 1)) :
    ∃ it', miBack m it = some it' ∧ RelM m it' (cntM A + (i - 1) - 1) := by
  have hb := h.valid hm
  have ht : m.take it.pos = A := by rw [h.eq, h.pos, List.take_left' rfl]
  have e1 : miBack m it = some (miBackward A.reverse { it with i := iterPrevious b it.i }) := by
    unfold miBack; rw [h.par, ht]
  rw [e1]
  refine ⟨_, rfl, backward_spec hm A.reverse (b := b) (k := k) (B := B) ⟨h.eq, h.pos, h.par, ?_⟩
    (by rw [List.reverse_reverse]) (by omega) hp⟩
  exact rel_previous hb.inv h.rel

theorem dec_rel {m : Map64} (hm : ValidM m) {it : MIter} {p : Nat} (h : RelM m it p) (hp : 0 < p) :
    (∃ it', miDec m it = some it' ∧ RelM m it' (p - 1)) ∧
    ((p < cntM m ∨ ∀ e, m.getLast? = some e → 0 < cnt32 e.2) → ∃ it', miPostDec m it = some it' ∧ RelM m it' (p - 1)) := by
  rcases relM_cases h with ⟨h1, h2⟩ | ⟨h0, h2, A, k, b, B, i, hat, hi, hpe⟩
  · have hae : miAtEnd m it = true := by simp [miAtEnd, h2]
    have hne : m ≠ [] := by
      rintro rfl
      rw [cntM_nil] at h1; omega
    obtain ⟨e, he⟩ : ∃ e, m.getLast? = some e := ⟨_, List.getLast?_eq_some_getLast hne⟩
    obtain ⟨A, hA⟩ : ∃ A, m = A ++ [e] := by
      obtain ⟨ys, rfl⟩ := List.getLast?_eq_some_iff.1 he
      exact ⟨ys, rfl⟩
    have hv : Valid e.2 := (hm.2 e (by rw [hA]; simp)).2
    have hat : AtM m (miInitLast (m.length - 1) e.2 it.i) A e.1 e.2 [] (cnt32 e.2) := by
      refine ⟨hA, ?_, rfl, by rw [cnt32_card hv]; exact rel_init_last hv.inv _⟩
      rw [hA]; simp [miInitLast]
    have hpA : p = cntM A + cnt32 e.2 := by
      rw [h1, hA, cntM_append, show [e] = [(e.1, e.2)] from rfl, cntM_cons, cntM_nil]; rfl
    have hgood : 0 < cnt32 e.2 → RelM m (miInitLast (m.length - 1) e.2 it.i) (p - 1) := fun hc =>
      Or.inr ⟨A, e.1, e.2, [], cnt32 e.2 - 1, by rw [show cnt32 e.2 - 1 + 1 = cnt32 e.2 by omega]; exact hat, by omega, by omega⟩
    unfold miDec miPostDec
    rw [if_pos hae, he, if_pos hae]
    refine ⟨?_, fun hc => ⟨_, rfl, hgood ?_⟩⟩
    · by_cases hc : 0 < cnt32 e.2
      · dsimp only
        rw [if_pos (by rw [rel_has hv hat.rel]; simp; omega)]
        exact ⟨_, rfl, hgood hc⟩
      · dsimp only
        rw [if_neg (by rw [rel_has hv hat.rel]; simp; omega)]
        have := back_spec hm hat (by omega) (by omega)
        rw [show cntM A + (cnt32 e.2 - 1) - 1 = p - 1 by omega] at this
        exact this
    · rcases hc with hc | hc
      · omega
      · exact hc e rfl
  · have hae : ¬ miAtEnd m it = true := by simp [miAtEnd]; omega
    have := back_spec hm hat (by omega) (by omega)
    rw [show cntM A + (i + 1 - 1) - 1 = p - 1 by omega] at this
    unfold miDec miPostDec
    rw [if_neg hae, if_neg hae]
    exact ⟨this, fun _ => this⟩

/-- The value the iterator is on. -/
theorem deref_rel {m : Map64} (hm : ValidM m) {it : MIter} {p : Nat} (h : RelM m it p) :
    miDeref m it = (m64ToUint64 m)[p]? := by
  unfold miDeref
  rcases relM_cases h with ⟨h1, h2⟩ | ⟨_, _, A, k, b, B, i, hat, hi, hpe⟩
  · rw [h2, List.getElem?_eq_none (Nat.le_refl _), List.getElem?_eq_none (by rw [h1]; exact Nat.le_refl _)]; rfl
  · have hb := hat.valid hm
    have hv : (rbToUint32 b)[i]? = some (rbToUint32 b)[i] := List.getElem?_eq_getElem hi
    have hc := rel_val hb hat.rel hv
    have h1 : m[it.pos]? = some (k, b) := by
      rw [hat.pos]
      conv => lhs; rw [hat.eq]
      rw [List.getElem?_append_right (Nat.le_refl _), Nat.sub_self]; rfl
    have h2 : (m64ToUint64 m)[p]? = ((rbToUint32 b).map (uniteBytes k))[i]? := by
      conv => lhs; rw [hat.eq]
      rw [toU_append, toU_cons, List.getElem?_append_right (by rw [hpe]; unfold cntM; omega)]
      rw [show p - (m64ToUint64 A).length = i by rw [hpe]; unfold cntM; omega]
      rw [List.getElem?_append_left (by rw [List.length_map]; exact hi)]
    rw [h1, h2, List.getElem?_map, hv, hc]; rfl

/-! ### `move_equalorlarger` -/

theorem filter_lt_all {A : Map64} (hA : ValidM A) {x : Nat} (hx : x < 18446744073709551616) (h : ∀ p ∈ A, p.1 < highBytes x) :
    ((m64ToUint64 A).filter (fun y => decide (y < x))).length = cntM A := by
  unfold cntM
  rw [List.filter_eq_self.2]
  intro y hy
  obtain ⟨b1, b2⟩ := ((toU_spec hA).2 y).1 hy
  have h1 : highBytes y < highBytes x := bound_of_mhas (P := fun j => j < highBytes x) h b2
  rw [highBytes_eq b1, highBytes_eq hx] at h1
  rw [decide_eq_true_eq]; omega

theorem filter_lt_none {B : Map64} (hB : ValidM B) {x : Nat} (hx : x < 18446744073709551616) (h : ∀ p ∈ B, highBytes x < p.1) :
    ((m64ToUint64 B).filter (fun y => decide (y < x))).length = 0 := by
  rw [List.length_eq_zero_iff]
  refine filter_none _ _ fun y hy => ?_
  obtain ⟨b1, b2⟩ := ((toU_spec hB).2 y).1 hy
  have h1 : highBytes x < highBytes y := bound_of_mhas (P := fun j => highBytes x < j) h b2
  rw [highBytes_eq b1, highBytes_eq hx] at h1
  rw [decide_eq_false_iff_not]; omega

theorem filter_lt_card {v n : Nat} (hv : v ≤ n) (s : NSet) :
    ((enum n s).filter (fun x => decide (x < v))).length = card v s := by
  unfold card
  congr 1
  apply sorted_ext ((enum_sorted _ _).filter _) (enum_sorted _ _)
  intro x
  rw [List.mem_filter, mem_enum, mem_enum, decide_eq_true_eq]
  exact ⟨fun h => ⟨h.2, h.1.2⟩, fun h => ⟨⟨by omega, h.2⟩, h.1⟩⟩

theorem filter_lt_mid {b : Bitmap} (hb : Valid b) {x : Nat} (hx : x < 18446744073709551616) :
    (((rbToUint32 b).map (uniteBytes (highBytes x))).filter (fun y => decide (y < x))).length = card (lowBytes x) (bhas b) := by
  have hxe : x = highBytes x * 4294967296 + lowBytes x := by
    have := unite_halves hx; rw [unite_eq (lowBytes_lt x)] at this; exact this.symm
  rw [List.filter_map, List.length_map]
  have : (rbToUint32 b).filter ((fun y => decide (y < x)) ∘ uniteBytes (highBytes x)) =
      (rbToUint32 b).filter (fun v => decide (v < lowBytes x)) := by
    refine List.filter_congr fun v hv => ?_
    have hv' := contains_lt32 hb ((toU32_mem hb).1 hv)
    simp only [Function.comp]
    rw [unite_eq hv']
    by_cases h3 : v < lowBytes x
    · rw [decide_eq_true (by omega), decide_eq_true h3]
    · rw [decide_eq_false (by omega), decide_eq_false h3]
  rw [this, toU32_enum hb]
  exact filter_lt_card (Nat.le_of_lt (lowBytes_lt x)) _

theorem move_rel {m : Map64} (hm : ValidM m) (hne : ∀ e ∈ m, 0 < e.1 → 0 < cnt32 e.2) (it : MIter) {x : Nat}
    (hx : x < 18446744073709551616) :
    let p := ((m64ToUint64 m).filter (fun y => decide (y < x))).length
    RelM m (miMove m it x).1 p ∧ (miMove m it x).2 = decide (p < cntM m) := by
  intro p
  have hpdef : p = ((m64ToUint64 m).filter (fun y => decide (y < x))).length := rfl
  have hsplit : m = m.takeWhile (fun p => decide (p.1 < highBytes x)) ++ m.dropWhile (fun p => decide (p.1 < highBytes x)) :=
    (List.takeWhile_append_dropWhile).symm
  have hdrop : m.drop (m.takeWhile (fun p => decide (p.1 < highBytes x))).length =
      m.dropWhile (fun p => decide (p.1 < highBytes x)) := by
    generalize hA : m.takeWhile (fun p => decide (p.1 < highBytes x)) = A at hsplit ⊢
    rw [hsplit, List.drop_left' rfl, ← hsplit]
  have hAlt : ∀ q ∈ m.takeWhile (fun p => decide (p.1 < highBytes x)), q.1 < highBytes x := fun q hq => takeWhile_lt hq
  have hhd := dropWhile_hd (k := highBytes x) m
  revert hsplit hdrop hAlt hhd
  unfold miMove
  generalize m.takeWhile (fun p => decide (p.1 < highBytes x)) = A
  generalize m.dropWhile (fun p => decide (p.1 < highBytes x)) = D
  intro hsplit hdrop hAlt hhd
  have hv' := hsplit ▸ hm
  obtain ⟨hA, hD, hAD⟩ := validM_of_append hv'
  have hp : p = cntM A + ((m64ToUint64 D).filter (fun y => decide (y < x))).length := by
    rw [hpdef]
    conv => lhs; rw [hsplit]
    rw [toU_append, List.filter_append, List.length_append, filter_lt_all hA hx hAlt]
  dsimp only
  rw [hdrop]
  cases D with
  | nil =>
    rw [List.append_nil] at hsplit
    have hp' : p = cntM m := by rw [hp, hsplit]; rfl
    dsimp only
    refine ⟨Or.inl ⟨hp', by rw [hsplit]⟩, ?_⟩
    rw [hp']; simp
  | cons e t =>
    obtain ⟨k, b⟩ := e
    obtain ⟨c1, c2, c3, c4⟩ := minv_cons.1 hD
    rw [toU_cons, List.filter_append, List.length_append] at hp
    have hcm : cntM m = cntM A + (cnt32 b + cntM t) := by rw [hsplit, cntM_append, cntM_cons]
    dsimp only
    by_cases hk : k = highBytes x
    · rw [if_pos hk]
      have hmv := rel_move c2.inv (miInit A.length b it.i).i (lowBytes_lt x)
      have hmid : (List.filter (fun y => decide (y < x)) ((rbToUint32 b).map (uniteBytes k))).length = card (lowBytes x) (bhas b) := by
        rw [hk]; exact filter_lt_mid c2 hx
      rw [hmid, filter_lt_none c4 hx (fun q hq => by have := c3 q hq; omega), Nat.add_zero] at hp
      have hle : card (lowBytes x) (bhas b) ≤ cnt32 b := by
        rw [cnt32_card c2, card_from (Nat.le_of_lt (lowBytes_lt x))]; exact Nat.le_add_right _ _
      rw [rel_has c2 hmv]
      by_cases hc : card (lowBytes x) (bhas b) < cnt32 b
      · rw [if_pos (by simp; omega)]
        refine ⟨Or.inr ⟨A, k, b, t, card (lowBytes x) (bhas b), ⟨hsplit, rfl, rfl, hmv⟩, hc, hp⟩, ?_⟩
        symm; rw [decide_eq_true_eq]; omega
      · rw [if_neg (by simp; omega)]
        cases t with
        | nil =>
          have : cntM ([] : Map64) = 0 := rfl
          refine ⟨Or.inl ⟨by omega, by rw [hsplit]; simp⟩, ?_⟩
          symm; rw [decide_eq_false_iff_not]; omega
        | cons e' t' =>
          have he' : Valid e'.2 := (c4.2 e' (by simp)).2
          have hce : 0 < cnt32 e'.2 := hne e' (by rw [hsplit]; simp) (by have := c3 e' (by simp); omega)
          have hc' := cntM_cons e'.1 e'.2 t'
          refine ⟨Or.inr ⟨A ++ [(k, b)], e'.1, e'.2, t', 0, ⟨by rw [hsplit]; simp, by simp [miInit], rfl, rel_init he'.inv _⟩, hce, ?_⟩, ?_⟩
          · rw [cntM_append, cntM_cons, cntM_nil]; omega
          · symm; rw [decide_eq_true_eq, hcm]
            rw [show cntM (e' :: t') = cnt32 e'.2 + cntM t' from hc']; omega
    · rw [if_neg hk]
      have hgt : highBytes x < k := by
        have : highBytes x ≤ k := hhd
        omega
      have hcb : 0 < cnt32 b := hne (k, b) (by rw [hsplit]; simp) (by show 0 < k; omega)
      have h0 := filter_lt_none hD hx (by
        intro q hq
        rcases List.mem_cons.1 hq with rfl | hq
        · exact hgt
        · have := c3 q hq; omega)
      rw [toU_cons, List.filter_append, List.length_append] at h0
      refine ⟨Or.inr ⟨A, k, b, t, 0, ⟨hsplit, rfl, rfl, rel_init c2.inv _⟩, hcb, by omega⟩, ?_⟩
      symm; rw [decide_eq_true_eq]; omega

/-! ### Comparisons -/

theorem atEnd_rel {m : Map64} {it : MIter} {p : Nat} (h : RelM m it p) : miAtEnd m it = decide (p = cntM m) := by
  unfold miAtEnd
  rcases relM_cases h with ⟨h1, h2⟩ | ⟨h0, h2, _⟩
  · simp [h1, h2]
  · rw [decide_eq_false (by omega), beq_eq_false_iff_ne]; omega

theorem toU_lt {m : Map64} (hm : ValidM m) {p q : Nat} (hp : p < cntM m) (hq : q < cntM m) :
    ((m64ToUint64 m)[p]'hp < (m64ToUint64 m)[q]'hq ↔ p < q) := by
  have h := List.pairwise_iff_getElem.1 (toU_spec hm).1
  constructor
  · intro hlt
    rcases Nat.lt_trichotomy p q with h1 | h1 | h1
    · exact h1
    · subst h1; omega
    · have := h q p hq hp h1; omega
  · exact fun h1 => h p q hp hq h1

theorem cmp_rel {m : Map64} (hm : ValidM m) {a b : MIter} {p q : Nat} (ha : RelM m a p) (hb : RelM m b q) :
    miLt m m a b = some (decide (p < q)) ∧ miLe m m a b = some (decide (p ≤ q)) ∧ miGt m m a b = some (decide (p > q)) ∧
    miGe m m a b = some (decide (p ≥ q)) ∧
    ((p < cntM m ∨ q = cntM m) → miEq m m a b = some (decide (p = q)) ∧ miNe m m a b = some (decide (p ≠ q))) ∧
    ((p = cntM m ∧ q < cntM m) → miEq m m a b = none ∧ miNe m m a b = none) := by
  have hpn := relM_le ha
  have hqn := relM_le hb
  unfold miLt miLe miGt miGe miEq miNe
  rw [atEnd_rel ha, atEnd_rel hb, deref_rel hm ha, deref_rel hm hb]
  by_cases h1 : p = cntM m
  · by_cases h2 : q = cntM m
    · subst h1; simp [h2]
    · have h3 : ¬ q ≥ cntM m := by omega
      have hn : (m64ToUint64 m)[p]? = none := List.getElem?_eq_none (by unfold cntM at h1; omega)
      rw [hn]
      refine ⟨?_, ?_, ?_, ?_, ?_, ?_⟩
      · simp [h1]; omega
      · simp [h1, h2]; omega
      · simp [h1, h2]; omega
      · simp [h1]; omega
      · rintro (h | h) <;> omega
      · intro _; simp [h2, both]
  · have hp : p < cntM m := by omega
    by_cases h2 : q = cntM m
    · refine ⟨?_, ?_, ?_, ?_, ?_, ?_⟩
      · simp [h1, h2]; omega
      · simp [h2]; omega
      · simp [h2]; omega
      · simp [h1, h2]; omega
      · intro _; simp [h1, h2]
      · rintro ⟨h, _⟩; omega
    · have hq : q < cntM m := by omega
      rw [List.getElem?_eq_getElem (show p < (m64ToUint64 m).length from hp),
        List.getElem?_eq_getElem (show q < (m64ToUint64 m).length from hq)]
      have hlt := toU_lt hm hp hq
      have hgt := toU_lt hm hq hp
      simp only [decide_eq_false h1, decide_eq_false h2, Bool.false_eq_true, if_false, both, Bool.and_false, Option.some_inj,
        decide_eq_decide]
      generalize (m64ToUint64 m)[p]'hp = y at hlt hgt
      generalize (m64ToUint64 m)[q]'hq = z at hlt hgt
      refine ⟨hlt, by omega, hgt, by omega, ?_, by omega⟩
      intro _
      constructor
      · rw [Bool.eq_iff_iff, beq_iff_eq, decide_eq_true_eq]; omega
      · rw [Bool.eq_iff_iff, bne_iff_ne, decide_eq_true_eq]; omega

theorem loop_rel {m : Map64} (hm : ValidM m) (fuel : Nat) : ∀ {it : MIter} {p : Nat}, RelM m it p → cntM m < fuel + p →
    miLoop m fuel it = some ((m64ToUint64 m).drop p) := by
  induction fuel with
  | zero => intro it p h hf; have := relM_le h; omega
  | succ f ih =>
    intro it p h hf
    have hc := (cmp_rel hm h (end_rel m)).2.2.2.2.1 (Or.inr rfl)
    unfold miLoop
    rw [hc.2]
    by_cases hp : p = cntM m
    · rw [decide_eq_false (by omega)]
      dsimp only
      rw [List.drop_eq_nil_of_le (by rw [hp]; exact Nat.le_refl _)]
    · have hp' : p < cntM m := by have := relM_le h; omega
      rw [decide_eq_true hp]
      obtain ⟨it', h1, h2⟩ := (inc_rel hm h hp').1
      dsimp only
      rw [deref_rel hm h, List.getElem?_eq_getElem (show p < (m64ToUint64 m).length from hp'), h1]
      dsimp only
      rw [ih h2 (by omega), List.drop_eq_getElem_cons (show p < (m64ToUint64 m).length from hp')]; rfl

/-! ### Iterators of `Roaring` -/

/-- The iterator is at position `p` of the increasing list of the values of `r`; the position behind the last is `end()`. -/
def RelC (r : Bitmap) (it : CIter) (p : Nat) : Prop :=
  it.parent = r ∧ ((p ≤ cnt32 r ∧ RelI r it.i (p + 1)) ∨ (p = cnt32 r ∧ it.i = (ciExhausted r).i))

theorem ci_begin {r : Bitmap} (hr : Valid r) : RelC r (ciBegin r) 0 := ⟨rfl, Or.inl ⟨by omega, rel_init hr.inv _⟩⟩

theorem ci_end (r : Bitmap) : RelC r (ciExhausted r) (cnt32 r) := ⟨rfl, Or.inr ⟨rfl, rfl⟩⟩

theorem relC_le {r : Bitmap} {it : CIter} {p : Nat} (h : RelC r it p) : p ≤ cnt32 r := by
  rcases h.2 with h | h
  · exact h.1
  · omega

theorem ci_inc {r : Bitmap} (hr : Valid r) {it : CIter} {p : Nat} (h : RelC r it p) (hp : p < cnt32 r) :
    RelC r (ciInc it) (p + 1) := by
  obtain ⟨h1, ⟨h2, h3⟩ | ⟨h2, _⟩⟩ := h
  · refine ⟨h1, Or.inl ⟨by omega, ?_⟩⟩
    have := rel_advance hr.inv h3
    rw [← cnt32_card hr, Nat.min_eq_left (by omega)] at this
    unfold ciInc
    rw [h1]
    exact this
  · omega

theorem ci_dec {r : Bitmap} (hr : Valid r) {it : CIter} {p : Nat} (h : RelC r it p) (hp : 0 < p) : RelC r (ciDec it) (p - 1) := by
  have hle := relC_le h
  obtain ⟨h1, ⟨h2, h3⟩ | ⟨h2, h3⟩⟩ := h
  · refine ⟨h1, Or.inl ⟨by omega, ?_⟩⟩
    have := rel_previous hr.inv h3
    unfold ciDec
    rw [h1, show p - 1 + 1 = p + 1 - 1 by omega]
    exact this
  · refine ⟨h1, Or.inl ⟨by omega, ?_⟩⟩
    have hl : r.length ≤ 65536 := hr.inv.length_le
    have : (ciDec it).i = iterInitLast r it.i := by
      unfold ciDec iterPrevious
      dsimp only
      rw [h1, h3, if_neg (by simp [ciExhausted]), if_pos (by simp only [ciExhausted]; omega)]
      rfl
    rw [this, show p - 1 + 1 = cnt32 r by omega, cnt32_card hr]
    exact rel_init_last hr.inv _

theorem ci_move {r : Bitmap} (hr : Valid r) {it : CIter} {p : Nat} (h : RelC r it p) {v : Nat} (hv : v < 4294967296) :
    RelC r (ciMove it v).1 (card v (bhas r)) ∧ (ciMove it v).2 = decide (card v (bhas r) < cnt32 r) := by
  have h1 := h.1
  have hm := rel_move hr.inv it.i hv
  have hle : card v (bhas r) ≤ cnt32 r := by
    rw [cnt32_card hr, card_from (Nat.le_of_lt hv)]; exact Nat.le_add_right _ _
  unfold ciMove
  dsimp only
  rw [h1]
  refine ⟨⟨rfl, Or.inl ⟨hle, hm⟩⟩, ?_⟩
  rw [rel_has hr hm, decide_eq_decide]; omega

theorem ci_sees {r : Bitmap} (hr : Valid r) {it : CIter} {p : Nat} (h : RelC r it p) :
    it.i.hasValue = decide (p < cnt32 r) ∧ it.i.currentValue = ((rbToUint32 r)[p]?).getD 4294967295 := by
  obtain ⟨h1, ⟨h2, h3⟩ | ⟨h2, h3⟩⟩ := h
  · refine ⟨by rw [rel_has hr h3, decide_eq_decide]; omega, ?_⟩
    by_cases hp : p < cnt32 r
    · have e : (rbToUint32 r)[p]? = some (rbToUint32 r)[p] := List.getElem?_eq_getElem hp
      rw [rel_val hr h3 e, e]; rfl
    · rw [rel_none hr h3 (by omega), List.getElem?_eq_none (by unfold cnt32 at hp; omega)]; rfl
  · rw [h3, h2, decide_eq_false (by omega), List.getElem?_eq_none (show (rbToUint32 r).length ≤ cnt32 r from Nat.le_refl _)]
    exact ⟨rfl, rfl⟩

theorem toU32_lt {r : Bitmap} (hr : Valid r) {p q : Nat} (hp : p < cnt32 r) (hq : q < cnt32 r) :
    ((rbToUint32 r)[p]'hp < (rbToUint32 r)[q]'hq ↔ p < q) := by
  have h := List.pairwise_iff_getElem.1 (Props.C22_to_uint32_array hr).1
  constructor
  · intro hlt
    rcases Nat.lt_trichotomy p q with h1 | h1 | h1
    · exact h1
    · subst h1; omega
    · have := h q p hq hp h1; omega
  · exact fun h1 => h p q hp hq h1

theorem ci_cmp {r : Bitmap} (hr : Valid r) {a b : CIter} {p q : Nat} (ha : RelC r a p) (hb : RelC r b q) :
    ciLt a b = decide (p < q) ∧ ciLe a b = decide (p ≤ q) ∧ ciGt a b = decide (p > q) ∧ ciGe a b = decide (p ≥ q) ∧
    ciEq a b = decide (p = q) ∧ ciNe a b = decide (p ≠ q) := by
  have hpn := relC_le ha
  have hqn := relC_le hb
  obtain ⟨a1, a2⟩ := ci_sees hr ha
  obtain ⟨b1, b2⟩ := ci_sees hr hb
  unfold ciLt ciLe ciGt ciGe ciEq ciNe
  rw [a1, a2, b1, b2]
  by_cases h1 : p < cnt32 r
  · by_cases h2 : q < cnt32 r
    · rw [List.getElem?_eq_getElem (show p < (rbToUint32 r).length from h1),
        List.getElem?_eq_getElem (show q < (rbToUint32 r).length from h2)]
      have hlt := toU32_lt hr h1 h2
      have hgt := toU32_lt hr h2 h1
      simp only [Option.getD_some, decide_eq_true h1, decide_eq_true h2, Bool.not_true, Bool.false_eq_true, if_false]
      generalize (rbToUint32 r)[p]'h1 = y at hlt hgt
      generalize (rbToUint32 r)[q]'h2 = z at hlt hgt
      refine ⟨decide_eq_decide.2 hlt, decide_eq_decide.2 (by omega), decide_eq_decide.2 hgt, decide_eq_decide.2 (by omega), ?_, ?_⟩
      · rw [Bool.eq_iff_iff, Bool.and_eq_true, beq_iff_eq, decide_eq_true_eq]
        simp only [beq_self_eq_true, and_true]; omega
      · rw [Bool.eq_iff_iff, Bool.or_eq_true, bne_iff_ne, decide_eq_true_eq]
        simp only [bne_self_eq_false, Bool.false_eq_true, or_false]; omega
    · have hq : q = cnt32 r := by omega
      simp only [decide_eq_true h1, decide_eq_false h2, Bool.not_true, Bool.not_false, Bool.false_eq_true, if_false, if_true]
      refine ⟨?_, ?_, ?_, ?_, ?_, ?_⟩ <;> simp <;> omega
  · have hp : p = cnt32 r := by omega
    by_cases h2 : q < cnt32 r
    · simp only [decide_eq_false h1, decide_eq_true h2, Bool.not_true, Bool.not_false, Bool.false_eq_true, if_false, if_true]
      refine ⟨?_, ?_, ?_, ?_, ?_, ?_⟩ <;> simp <;> omega
    · have hq : q = cnt32 r := by omega
      simp only [hp, hq]
      simp

/-- A loop from a position to an iterator that shows the end. -/
theorem ciLoop_rel {r : Bitmap} (hr : Valid r) {e : CIter} (he : e.i.hasValue = false) (hc : e.i.currentValue = 4294967295)
    (fuel : Nat) : ∀ {it : CIter} {p : Nat}, RelC r it p → cnt32 r < fuel + p → ciLoop e fuel it = some ((rbToUint32 r).drop p) := by
  induction fuel with
  | zero => intro it p h hf; have := relC_le h; omega
  | succ f ih =>
    intro it p h hf
    have hs := ci_sees hr h
    unfold ciLoop ciNe
    rw [hs.1, hs.2, he, hc]
    by_cases hp : p < cnt32 r
    · rw [if_pos (by simp [hp]), ih (ci_inc hr h hp) (by omega),
        List.drop_eq_getElem_cons (show p < (rbToUint32 r).length from hp)]
      unfold ciDeref
      rw [hs.2, List.getElem?_eq_getElem (show p < (rbToUint32 r).length from hp)]; rfl
    · rw [List.getElem?_eq_none (by unfold cnt32 at hp; omega), if_neg (by simp [hp]),
        List.drop_eq_nil_of_le (by unfold cnt32 at hp; omega)]

theorem cnt32_le {r : Bitmap} (hr : Valid r) : cnt32 r ≤ 4294967296 := by
  rw [cnt32_card hr]; exact card_le _ _

theorem ciLoop_begin {r : Bitmap} (hr : Valid r) {e : CIter} (he : e.i.hasValue = false) (hc : e.i.currentValue = 4294967295) :
    ciLoop e FUEL (ciBegin r) = some (rbToUint32 r) :=
  ciLoop_rel hr he hc FUEL (ci_begin hr) (by have := cnt32_le hr; unfold FUEL; omega)

/-! ### Text -/

theorem foldl_append (l : List String) (a b : String) : l.foldl (· ++ ·) (a ++ b) = a ++ l.foldl (· ++ ·) b := by
  induction l generalizing b with
  | nil => rfl
  | cons x t ih => simp only [List.foldl_cons]; rw [String.append_assoc, ih]

/-- The strings for a list of values, with a separator before the first and commas before the others. -/
def pieces : List Nat → String → List String
  | [], _ => []
  | v :: t, sep => (sep ++ Nat.repr v) :: pieces t ","

theorem sinkLow_eq (k : Nat) (l : List Nat) : ∀ sep, sinkLow k l sep = (pieces (l.map (uniteBytes k)) sep, if l = [] then sep else ",") := by
  induction l with
  | nil => intro sep; rfl
  | cons v t ih =>
    intro sep
    simp only [sinkLow, ih, List.map_cons, pieces]
    by_cases h : t = [] <;> simp [h]

theorem pieces_append (a b : List Nat) : ∀ sep, pieces (a ++ b) sep = pieces a sep ++ pieces b (if a = [] then sep else ",") := by
  induction a with
  | nil => intro sep; rfl
  | cons v t ih =>
    intro sep
    simp only [List.cons_append, pieces, ih]
    by_cases h : t = [] <;> simp [h]

theorem sinkLoop_eq {static : Option CIter} (hs : ∀ e, static = some e → e.i.hasValue = false ∧ e.i.currentValue = 4294967295) :
    ∀ {m : Map64} (hm : ValidM m) (sep : String), sinkLoop static m sep = some (pieces (m64ToUint64 m) sep) := by
  intro m
  induction m with
  | nil => intro _ sep; rfl
  | cons p t ih =>
    obtain ⟨k, b⟩ := p
    intro hm sep
    obtain ⟨c1, c2, c3, c4⟩ := minv_cons.1 hm
    have he : (ciEnd static b).i.hasValue = false ∧ (ciEnd static b).i.currentValue = 4294967295 := by
      cases static with
      | none => exact ⟨rfl, rfl⟩
      | some e => exact hs e rfl
    unfold sinkLoop
    rw [ciLoop_begin c2 he.1 he.2]
    dsimp only
    rw [sinkLow_eq, ih c4, Option.map_some, toU_cons, pieces_append]
    simp only [List.map_eq_nil_iff]

theorem pieces_comma (l : List Nat) : ∀ a : String, (pieces l ",").foldl (· ++ ·) a = (l.map Nat.repr).foldl (fun r s => r ++ "," ++ s) a := by
  induction l with
  | nil => intro a; rfl
  | cons v t ih =>
    intro a
    simp only [pieces, List.foldl_cons, List.map_cons]
    rw [ih, String.append_assoc]

end CRoaring
