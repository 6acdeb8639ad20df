import Verif.Props.C85
import Verif.Lemmas.MapIter
import Verif.Lemmas.MapKeys
/-
C87 (loops and text), C88, C93: the iterators of the C++ classes `Roaring64Map` and `Roaring`, and their textual output.
-/
namespace CRoaring.Props
open CRoaring

/-- The values of a map in increasing order. -/
def valuesM (m : Map64) : List Nat := Spec.enum (2 ^ 64) (fun y => m64Contains m y)

/-- The values of a 32-bit bitmap in increasing order. -/
def values32 (r : Bitmap) : List Nat := Spec.enum (2 ^ 32) (fun v => rbContains r v)

theorem toU_valuesM {m : Map64} (hm : ValidM m) : m64ToUint64 m = valuesM m := toU_enum hm

theorem cntM_values {m : Map64} (hm : ValidM m) : cntM m = (valuesM m).length := by
  unfold cntM; rw [toU_valuesM hm]

theorem toU_values32 {r : Bitmap} (hr : Valid r) : rbToUint32 r = values32 r := by
  rw [toU32_enum hr, ← enum_contains hr.inv]; rfl

theorem cnt32_values {r : Bitmap} (hr : Valid r) : cnt32 r = (values32 r).length := by
  unfold cnt32; rw [toU_values32 hr]

theorem cnt32_nonempty {b : Bitmap} (hb : Valid b) (h : rbIsEmpty b = false) : 0 < cnt32 b := by
  obtain ⟨v, hv⟩ := nonempty_has hb (by rw [h]; simp)
  exact List.length_pos_of_mem ((toU32_mem hb).2 hv)

/-! ### C88: iterators of `Roaring64Map` -/

/-- `MapIt m it p`: calls have brought the iterator `it` of the map `m` to position `p` of the increasing list of the values, where
the position behind the last value is the end.  The rules are those of bidirectional iterators: an iterator at the end
must not be incremented, and one at the beginning must not be decremented. -/
inductive MapIt (m : Map64) : MIter → Nat → Prop
  | begin : MapIt m (miBegin m) 0
  | end : MapIt m (miEnd m) (valuesM m).length
  | inc {it it' p} : MapIt m it p → p < (valuesM m).length → miInc m it = some it' → MapIt m it' (p + 1)
  | postInc {it it' p} : MapIt m it p → p < (valuesM m).length → miPostInc m it = some it' → MapIt m it' (p + 1)
  | dec {it it' p} : MapIt m it p → 0 < p → miDec m it = some it' → MapIt m it' (p - 1)
  | postDec {it it' p} : MapIt m it p → 0 < p → miPostDec m it = some it' → MapIt m it' (p - 1)
  | move {it p} {x : Nat} : MapIt m it p → x < 2 ^ 64 →
      MapIt m (miMove m it x).1 ((valuesM m).filter (fun y => decide (y < x))).length

/-- No inner bitmap but the first, of the values below 2^32, is empty.  The calls of the class only make such maps
(`C91_no_empty_parts`); others come from serialized data. -/
def NoEmptyParts (m : Map64) : Prop := ∀ e ∈ m, 0 < e.1 → rbIsEmpty e.2 = false

theorem noEmpty_iff {m : Map64} (hm : ValidM m) : NoEmptyParts m ↔ Tight m := by
  constructor
  · intro h j hj hh
    have := h (j, []) ((hollow_mem hm).1 hh) hj
    cases this
  · intro h e he hk
    obtain ⟨k, b⟩ := e
    cases hb : rbIsEmpty b with
    | false => rfl
    | true =>
      have := isEmpty_iff.1 hb
      subst this
      exact absurd ((hollow_mem hm).2 he) (h k hk)

theorem tight_add {m : Map64} (hm : ValidM m) (ht : Tight m) (x : Nat) : Tight (m64Add m x) := by
  refine tight_of_grow ht hm (fun j => j = highBytes x) (fun j h => ?_) (fun j _ h => ⟨lowBytes x, ?_⟩) fun j v h => ?_
  · unfold m64Add at h
    rw [mapStore_hasKey, lookup_hasKey] at h
    exact h.symm
  · have := (add_spec hm (highBytes_lt x) (lowBytes_lt x)).2 j (lowBytes x)
    exact this.2 (Or.inl ⟨h, rfl⟩)
  · have := (add_spec hm (highBytes_lt x) (lowBytes_lt x)).2 j v
    exact this.2 (Or.inr h)

theorem tight_zero {m m' : Map64} (ht : Tight m) (hk : ∀ j, 0 < j → (HasKey m' j → HasKey m j))
    (hs : ∀ j, 0 < j → mapAt m' j = mapAt m j) : Tight m' :=
  fun j hj h => ht j hj ⟨hk j hj h.1, by rw [← hs j hj]; exact h.2⟩

theorem hollow_zero_store {m : Map64} (ht : Tight m) (b : Bitmap) : Tight (mapStore m 0 b) := fun j hj h => by
  rcases hollow_store h with h | h
  · omega
  · exact ht j hj h.2

theorem tight_lookup_zero {m : Map64} (hm : ValidM m) (ht : Tight m) : Tight (lookupOrCreate m 0) :=
  tight_zero ht (fun j hj h => by rcases lookup_hasKey.1 h with h | h; omega; exact h)
    fun j _ => (lookupOrCreate_spec hm (k := 0) (by omega)).2.1 j

theorem tight_mapVals {m : Map64} (hm : ValidM m) (ht : Tight m) (f : Bitmap → Bitmap)
    (hf : ∀ b, Valid b → Valid (f b) ∧ ∀ y, rbContains (f b) y = rbContains b y) : Tight (m.map (fun p => (p.1, f p.2))) := by
  have hv := (mapVals_spec hm f hf).1
  intro j hj h
  obtain ⟨q, hq, e⟩ := List.mem_map.1 ((hollow_mem hv).1 h)
  obtain ⟨k, b⟩ := q
  simp only [Prod.mk.injEq] at e
  have hb := (hm.2 _ hq).2
  have : b = [] := isEmpty_iff.1 ((rbIsEmpty_spec hb).2 fun v => by rw [← (hf b hb).2 v, e.2]; exact contains_nil v)
  rw [this, e.1] at hq
  exact ht j hj ((hollow_mem hm).2 hq)

/-- C91: in a map that the class builds no part but that of the values below 2^32 is empty. -/
theorem C91_no_empty_parts {m : Map64} {s : Nat → Prop} (h : BuiltM m s) : NoEmptyParts m := by
  rw [noEmpty_iff (C91_history h).1]
  have nil : Tight [] := fun j _ h => hasKey_nil j h.1
  have range : ∀ {m m' : Map64} {lo hi : Nat}, ValidM m → Tight m → lo < 18446744073709551616 → hi < 18446744073709551616 →
      m64AddRangeClosed m lo hi = some m' → Tight m' := by
    intro m m' lo hi hm ht hlo hhi e
    obtain ⟨m'', e', _, h3⟩ := addRange_spec hm hlo hhi
    rw [e] at e'; cases e'
    refine tight_of_grow ht hm _ (fun j h => addRange_keys hm hlo hhi e h) (fun j _ hj => ?_) fun j v h => (h3 j v).2 (Or.inr h)
    have hl1 : lo = highBytes lo * 4294967296 + lowBytes lo := by unfold highBytes lowBytes; omega
    have hh1 : hi = highBytes hi * 4294967296 + lowBytes hi := by unfold highBytes lowBytes; omega
    have a1 := lowBytes_lt lo
    have a2 := lowBytes_lt hi
    by_cases c : j = highBytes lo
    · exact ⟨lowBytes lo, (h3 _ _).2 (Or.inl (by subst c; omega))⟩
    · exact ⟨0, (h3 _ _).2 (Or.inl (by omega))⟩
  induction h with
  | create => exact nil
  | ofRoaring hb =>
    intro j hj h
    have := h.1
    rcases mapInsert_hasKey.1 this with h | h
    · omega
    · exact hasKey_nil j h
  | @bitmapOf xs hx =>
    have : ∀ (xs : List Nat) {m : Map64}, (∀ x ∈ xs, x < 2 ^ 64) → ValidM m → Tight m → Tight (xs.foldl m64Add m) := by
      intro xs
      induction xs with
      | nil => intro m _ _ h; exact h
      | cons x t ih =>
        intro m hx hm ht
        exact ih (fun y h => hx y (List.mem_cons_of_mem _ h)) ((C81_add hm (hx x List.mem_cons_self)).1).1
          (tight_add hm ht x)
    exact this xs hx ValidM.nil nil
  | clear _ _ => exact nil
  | add h hx ih => exact tight_add (C91_history h).1 ih _
  | add32 h hx ih => exact hollow_zero_store (tight_lookup_zero (C91_history h).1 ih) _
  | @addChecked m s x h hx ih =>
    have hm := (C91_history h).1
    refine tight_of_grow ih hm (fun j => j = highBytes x) (fun j h => ?_) (fun j _ h => ⟨lowBytes x, ?_⟩) fun j v h => ?_
    · unfold m64AddChecked at h
      rw [mapStore_hasKey, lookup_hasKey] at h
      exact h.symm
    · exact ((addChecked_spec hm (highBytes_lt x) (lowBytes_lt x)).2.2 j (lowBytes x)).2 (Or.inl ⟨h, rfl⟩)
    · exact ((addChecked_spec hm (highBytes_lt x) (lowBytes_lt x)).2.2 j v).2 (Or.inr h)
  | remove h hx ih =>
    intro j hj hh
    unfold m64Remove at hh
    split at hh
    · exact ih j hj hh
    · exact ih j hj (hollow_shrink hh).2
  | remove32 h hx ih =>
    intro j hj hh
    unfold m64Remove32 at hh
    split at hh
    · exact ih j hj hh
    · exact ih j hj (hollow_shrink hh).2
  | @removeChecked m s x h hx ih =>
    have hm := (C91_history h).1
    intro j hj hh
    unfold m64RemoveChecked at hh
    split at hh
    · exact ih j hj hh
    · rename_i b e
      simp only at hh
      split at hh
      · rename_i hn
        rcases hollow_store hh with h | h
        · have hk : HasKey m (highBytes x) := List.mem_map_of_mem (f := (·.1)) (mapFind_mem e)
          have hb : Valid b := (hm.2 _ (mapFind_mem e)).2
          have hc := C02_remove_checked hb (x := lowBytes x) (by have := lowBytes_lt x; omega)
          refine ih (highBytes x) (h.1 ▸ hj) (hollow_of_no hm hk fun v => ?_)
          unfold mhas
          rw [mapAt_some e]
          cases ev : rbContains b v with
          | false => rfl
          | true =>
            by_cases hvx : v = lowBytes x
            · have := hc.1.2 (hvx ▸ ev)
              rw [this] at hn; cases hn
            · have := (hc.2.2 v).2 ⟨hvx, ev⟩
              rw [h.2, contains_nil] at this; cases this
        · exact ih j hj h.2
      · exact ih j hj (hollow_shrink hh).2
  | @addMany m s xs h hx ih =>
    have hm := (C91_history h).1
    refine tight_of_grow ih hm _ (fun j h => addMany_keys xs h) (fun j _ ⟨x, h1, h2⟩ => ⟨lowBytes x, ?_⟩) fun j v h => ?_
    · exact ((addMany_spec hm xs).2 j _).2 (Or.inl ⟨x, h1, h2, rfl⟩)
    · exact ((addMany_spec hm xs).2 j v).2 (Or.inr h)
  | addMany32 h hx ih => exact hollow_zero_store (tight_lookup_zero (C91_history h).1 ih) _
  | addRangeClosed h hlo hhi e ih => exact range (C91_history h).1 ih hlo hhi e
  | @addRange m s lo hi m' h hlo hhi e ih =>
    unfold m64AddRange at e
    split at e
    · cases e; exact ih
    · exact range (C91_history h).1 ih hlo (by omega) e
  | removeRangeClosed h hlo hhi e ih => exact fun j hj hh => ih j hj (removeRange_hollow e hh)
  | removeRange h hlo hhi e ih =>
    unfold m64RemoveRange at e
    split at e
    · cases e; exact ih
    · exact fun j hj hh => ih j hj (removeRange_hollow e hh)
  | flipClosed h hlo hhi e ih => exact fun j hj hh => ih j hj (flip_hollow (C91_history h).1 hlo hhi e hh)
  | @flip m s lo hi m' h hlo hhi e ih =>
    unfold m64Flip at e
    split at e
    · cases e; exact ih
    · exact fun j hj hh => ih j hj (flip_hollow (C91_history h).1 hlo (by omega) e hh)
  | @and a b s t same shared h1 h2 hs iha ihb =>
    intro j hj hh
    have hv := (C84_and (C91_history h1).1 (C91_history h2).1 same hs shared).1
    unfold m64And at hv hh
    cases same with
    | true => exact iha j hj hh
    | false => exact and_hollow _ ((hollow_mem hv).1 hh) rfl
  | @or a b s t same shared caps h1 h2 hs iha ihb =>
    have hma := (C91_history h1).1
    have hmb := (C91_history h2).1
    have hsp := or_spec hma hmb same hs shared caps
    intro j hj hh
    have hno : ∀ v, mhas a j v = false ∧ mhas b j v = false := fun v => by
      have := hsp.2 j v
      rw [hh.no v] at this
      simpa using this.symm
    have hk : HasKey a j ∨ HasKey b j := by
      have := hh.1
      unfold m64Or at this
      split at this
      · exact Or.inl this
      · exact or_keys _ this
    rcases hk with hk | hk
    · exact iha j hj (hollow_of_no hma hk fun v => (hno v).1)
    · exact ihb j hj (hollow_of_no hmb hk fun v => (hno v).2)
  | @andnot a b s t same shared h1 h2 hs iha ihb =>
    intro j hj hh
    have hv := (C84_andnot (C91_history h1).1 (C91_history h2).1 same hs shared).1
    unfold m64Andnot at hv hh
    cases same with
    | true => exact hasKey_nil j hh.1
    | false =>
      rcases andnot_hollow _ (Nat.le_refl _) _ ((hollow_mem hv).1 hh) with h | h
      · exact iha j hj ((hollow_mem (C91_history h1).1).2 h)
      · exact h rfl
  | @xor a b s t same shared h1 h2 hs iha ihb =>
    intro j hj hh
    unfold m64Xor at hh
    cases same with
    | true => exact hasKey_nil j hh.1
    | false =>
      rcases xor_hollow (C91_history h2).1 (C91_history h1).1 hh with h | h
      · exact iha j hj h
      · exact ihb j hj h
  | @fastunion2 a b s t pick caps hp h1 h2 iha ihb =>
    have hma := (C91_history h1).1
    have hmb := (C91_history h2).1
    have hsp := fastUnion_spec hp caps (inputs := [a, b]) (by
      intro m hm
      simp only [List.mem_cons, List.not_mem_nil, or_false] at hm
      rcases hm with rfl | rfl
      · exact hma
      · exact hmb)
    intro j hj hh
    obtain ⟨q, hq, hk⟩ := fastUnion_keys hh.1
    have hno : ∀ m ∈ [a, b], ∀ v, mhas m j v = false := fun m hm v => by
      cases e : mhas m j v with
      | false => rfl
      | true => have := (hsp.2 j v).2 ⟨m, hm, e⟩; rw [hh.no v] at this; cases this
    simp only [List.mem_cons, List.not_mem_nil, or_false] at hq
    rcases hq with rfl | rfl
    · exact iha j hj (hollow_of_no hma hk (hno _ (by simp)))
    · exact ihb j hj (hollow_of_no hmb hk (hno _ (by simp)))
  | runOptimize h ih =>
    exact tight_mapVals (C91_history h).1 ih _ fun b hb => ⟨(C27_run_optimize hb).1, (C27_run_optimize hb).2.1⟩
  | removeRunCompression h ih =>
    exact tight_mapVals (C91_history h).1 ih _ fun b hb => ⟨(C27_remove_run_compression hb).1, (C27_remove_run_compression hb).2.1⟩
  | shrinkToFit h ih =>
    intro j hj hh
    have := (hollow_mem (filter_inv (C91_history h).1 _)).1 hh
    exact absurd (List.mem_filter.1 this).2 (by simp [rbIsEmpty])

theorem NoEmptyParts.cnt {m : Map64} (hm : ValidM m) (hn : NoEmptyParts m) : ∀ e ∈ m, 0 < e.1 → 0 < cnt32 e.2 :=
  fun e he hk => cnt32_nonempty (hm.2 e he).2 (hn e he hk)

theorem postDec_ok {m : Map64} (hm : ValidM m) (hn : NoEmptyParts m) {p : Nat} (hp : 0 < p) (hle : p ≤ cntM m) :
    p < cntM m ∨ ∀ e, m.getLast? = some e → 0 < cnt32 e.2 := by
  right
  intro e he
  obtain ⟨ys, rfl⟩ := List.getLast?_eq_some_iff.1 he
  by_cases hk : 0 < e.1
  · exact hn.cnt hm e (by simp) hk
  · have hys : ys = [] := by
      cases ys with
      | nil => rfl
      | cons y t => have := (validM_of_append hm).2.2 y (by simp) e (by simp); omega
    subst hys
    rw [List.nil_append, show [e] = [(e.1, e.2)] from rfl, cntM_cons, cntM_nil] at hle
    omega

theorem MapIt.rel {m : Map64} (hm : ValidM m) (hne : NoEmptyParts m) {it : MIter} {p : Nat} (h : MapIt m it p) : RelM m it p := by
  have hn := cntM_values hm
  induction h with
  | begin => exact begin_rel hm
  | «end» => rw [← hn]; exact end_rel m
  | inc _ hp e ih =>
    obtain ⟨it', h1, h2⟩ := (inc_rel hm ih (by omega)).1
    rw [e] at h1; cases h1; exact h2
  | postInc _ hp e ih =>
    obtain ⟨it', h1, h2⟩ := (inc_rel hm ih (by omega)).2
    rw [e] at h1; cases h1; exact h2
  | dec _ hp e ih =>
    obtain ⟨it', h1, h2⟩ := (dec_rel hm ih hp).1
    rw [e] at h1; cases h1; exact h2
  | postDec _ hp e ih =>
    obtain ⟨it', h1, h2⟩ := (dec_rel hm ih hp).2 (postDec_ok hm hne hp (relM_le ih))
    rw [e] at h1; cases h1; exact h2
  | @move it p x _ hx ih =>
    have := (move_rel hm (hne.cnt hm) it hx).1
    rwa [toU_valuesM hm] at this

/-- C88: an iterator at a position shows the value there, can be incremented unless it is at the end and decremented unless it is at
the beginning.  Missing: maps read from data with empty parts (`C88_post_decrement_false`, `C88_move_false`). -/
theorem C88_position_partial {m : Map64} (hm : ValidM m) (hne : NoEmptyParts m) {it : MIter} {p : Nat} (h : MapIt m it p) :
    p ≤ (valuesM m).length ∧ miDeref m it = (valuesM m)[p]? ∧
    (p < (valuesM m).length → (∃ it', miInc m it = some it') ∧ ∃ it', miPostInc m it = some it') ∧
    (0 < p → (∃ it', miDec m it = some it') ∧ ∃ it', miPostDec m it = some it') := by
  have hr := h.rel hm hne
  have hn := cntM_values hm
  refine ⟨by rw [← hn]; exact relM_le hr, by rw [deref_rel hm hr, toU_valuesM hm], fun hp => ?_, fun hp => ?_⟩
  · obtain ⟨⟨a, ha, _⟩, b, hb, _⟩ := inc_rel hm hr (by omega)
    exact ⟨⟨a, ha⟩, b, hb⟩
  · obtain ⟨⟨a, ha, _⟩, hb⟩ := dec_rel hm hr hp
    obtain ⟨b, hb, _⟩ := hb (postDec_ok hm hne hp (relM_le hr))
    exact ⟨⟨a, ha⟩, b, hb⟩

/-- C88: `move_equalorlarger(x)` goes to the first value that is at least `x` and answers whether there is one.  Missing: maps
read from data with empty parts, where the answer can be wrong (`C88_move_false`). -/
theorem C88_move_partial {m : Map64} (hm : ValidM m) (hne : NoEmptyParts m) (it : MIter) {x : Nat}
    (hx : x < 2 ^ 64) :
    ((miMove m it x).2 = true ↔ ∃ y, y < 2 ^ 64 ∧ m64Contains m y = true ∧ x ≤ y) ∧
    ((miMove m it x).2 = true → ∃ y, miDeref m (miMove m it x).1 = some y ∧ x ≤ y ∧ m64Contains m y = true ∧
      ∀ z, z < 2 ^ 64 → m64Contains m z = true → x ≤ z → y ≤ z) := by
  obtain ⟨h1, h2⟩ := move_rel hm (hne.cnt hm) it hx
  have hd := deref_rel hm h1
  rw [h2]
  have hs := (toU_spec hm).1
  have hmem := (C87_to_uint64_array hm).2.1
  have hcnt : cntM m = (m64ToUint64 m).length := rfl
  rw [hd, hcnt]
  have hsplit : ∀ l : List Nat, l.Pairwise (· < ·) → l = l.filter (fun y => decide (y < x)) ++ l.filter (fun y => !decide (y < x)) := by
    intro l
    induction l with
    | nil => intro _; rfl
    | cons a t ih =>
      intro hp
      obtain ⟨ha, ht⟩ := List.pairwise_cons.1 hp
      by_cases hax : a < x
      · simp only [List.filter_cons, hax, decide_true, if_true, Bool.not_true, Bool.false_eq_true, if_false, List.cons_append]
        rw [← ih ht]
      · have : t.filter (fun y => decide (y < x)) = [] := filter_none _ _ fun y hy => by
          have := ha y hy; simp; omega
        have h' : t.filter (fun y => !decide (y < x)) = t := List.filter_eq_self.2 fun y hy => by
          have := ha y hy; simp; omega
        simp [hax, this, h']
  have hsp := hsplit _ hs
  generalize hF : (m64ToUint64 m).filter (fun y => decide (y < x)) = F at hsp ⊢
  generalize hG : (m64ToUint64 m).filter (fun y => !decide (y < x)) = G at hsp
  have hGm : ∀ z, z ∈ G ↔ (z < 2 ^ 64 ∧ m64Contains m z = true) ∧ x ≤ z := by
    intro z
    rw [← hG, List.mem_filter, hmem]; simp
  have hGs : G.Pairwise (· < ·) := by rw [← hG]; exact hs.filter _
  rw [hsp, List.length_append, decide_eq_true_eq]
  cases G with
  | nil =>
    rw [List.length_nil]
    constructor
    · refine ⟨fun h => by omega, ?_⟩
      rintro ⟨y, a, b, c⟩
      exact absurd ((hGm y).2 ⟨⟨a, b⟩, c⟩) (by simp)
    · intro h; omega
  | cons y t =>
    have hy := (hGm y).1 List.mem_cons_self
    refine ⟨⟨fun _ => ⟨y, hy.1.1, hy.1.2, hy.2⟩, fun _ => by rw [List.length_cons]; omega⟩, fun _ => ⟨y, ?_, hy.2, hy.1.2, ?_⟩⟩
    · rw [List.getElem?_append_right (Nat.le_refl _), Nat.sub_self]; rfl
    · intro z h1 h2 h3
      rcases List.mem_cons.1 ((hGm z).2 ⟨⟨h1, h2⟩, h3⟩) with rfl | hz
      · exact Nat.le_refl _
      · exact Nat.le_of_lt ((List.pairwise_cons.1 hGs).1 z hz)

/-- C88 is false without that restriction: on a map whose only part is empty (and not that of the values below 2^32), the call answers
that there is a value, and the iterator is not at the end. -/
theorem C88_move_false : ∃ m, ValidM m ∧ valuesM m = [] ∧
    ∀ it, (miMove m it 0).2 = true ∧ miAtEnd m (miMove m it 0).1 = false := by
  have hv : ValidM [(1, [])] := minv_cons.2 ⟨by omega, valid_nil, by simp, ValidM.nil⟩
  refine ⟨_, hv, by rw [← toU_valuesM hv]; rfl, fun it => ⟨rfl, rfl⟩⟩

/-- C88 is false for `operator--(int)` of the end iterator when the last part is empty: the iterator ends up on no
value, where `operator--()` finds the last value. -/
theorem C88_post_decrement_false : ∃ m, ValidM m ∧ valuesM m = [5] ∧
    (miDec m (miEnd m)).bind (miDeref m) = some 5 ∧ (miPostDec m (miEnd m)).bind (miDeref m) = some (2 ^ 33 - 1) := by
  have hv : ValidM [(0, rbAdd [] 5), (1, [])] := minv_cons.2 ⟨by omega, (C01_add valid_nil (by omega)).1, by simp, minv_cons.2
      ⟨by omega, valid_nil, by simp, ValidM.nil⟩⟩
  refine ⟨_, hv, ?_, by decide +kernel, by decide +kernel⟩
  rw [← toU_valuesM hv]; decide +kernel

/-- C88: two iterators of one map compare like their positions.  Missing: `==` and `!=` when the first iterator is at the end
and the second is not, where the end is dereferenced (`C88_equality_false`). -/
theorem C88_compare_partial {m : Map64} (hm : ValidM m) (hne : NoEmptyParts m) {a b : MIter} {p q : Nat} (ha : MapIt m a p) (hb : MapIt m b q) :
    miLt m m a b = some (decide (p < q)) ∧ miLe m m a b = some (decide (p ≤ q)) ∧
    miGt m m a b = some (decide (p > q)) ∧ miGe m m a b = some (decide (p ≥ q)) ∧
    ((p < (valuesM m).length ∨ q = (valuesM m).length) →
      miEq m m a b = some (decide (p = q)) ∧ miNe m m a b = some (decide (p ≠ q))) := by
  have h := cmp_rel hm (ha.rel hm hne) (hb.rel hm hne)
  rw [cntM_values hm] at h
  exact ⟨h.1, h.2.1, h.2.2.1, h.2.2.2.1, h.2.2.2.2.1⟩

/-- C88 is false otherwise: `end() == it` is undefined for every iterator that is on a value. -/
theorem C88_equality_false {m : Map64} (hm : ValidM m) (hne : NoEmptyParts m) {b : MIter} {q : Nat} (hb : MapIt m b q) (hq : q < (valuesM m).length) :
    miEq m m (miEnd m) b = none ∧ miNe m m (miEnd m) b = none :=
  (cmp_rel hm (end_rel m) (hb.rel hm hne)).2.2.2.2.2 ⟨rfl, by rw [cntM_values hm]; exact hq⟩

/-- C88 for the maps that the class builds, without the restriction: positions, moves and order. -/
theorem C88_built {m : Map64} {s : Nat → Prop} (hb : BuiltM m s) {a : MIter} {p : Nat} (ha : MapIt m a p) :
    (∀ y, y ∈ valuesM m ↔ y < 2 ^ 64 ∧ s y) ∧ miDeref m a = (valuesM m)[p]? ∧
    (∀ x, x < 2 ^ 64 → ((miMove m a x).2 = true ↔ ∃ y, y < 2 ^ 64 ∧ s y ∧ x ≤ y) ∧
      ((miMove m a x).2 = true → ∃ y, miDeref m (miMove m a x).1 = some y ∧ x ≤ y ∧ s y ∧
        ∀ z, z < 2 ^ 64 → s z → x ≤ z → y ≤ z)) ∧
    ∀ b q, MapIt m b q → miLt m m a b = some (decide (p < q)) ∧ miLe m m a b = some (decide (p ≤ q)) := by
  obtain ⟨hm, hs⟩ := C91_history hb
  have hne := C91_no_empty_parts hb
  refine ⟨fun y => ?_, (C88_position_partial hm hne ha).2.1, fun x hx => ?_, fun b q hq => ?_⟩
  · rw [← toU_valuesM hm, (C87_to_uint64_array hm).2.1]
    constructor
    · rintro ⟨h1, h2⟩; exact ⟨h1, (hs y h1).1 h2⟩
    · rintro ⟨h1, h2⟩; exact ⟨h1, (hs y h1).2 h2⟩
  · obtain ⟨h1, h2⟩ := C88_move_partial hm hne a hx
    have hin : ∀ y, m64Contains m y = true → y < 2 ^ 64 → s y := fun y h hy => (hs y hy).1 h
    constructor
    · rw [h1]
      constructor
      · rintro ⟨y, a1, a2, a3⟩; exact ⟨y, a1, (hs y a1).1 a2, a3⟩
      · rintro ⟨y, a1, a2, a3⟩; exact ⟨y, a1, (hs y a1).2 a2, a3⟩
    · intro h
      obtain ⟨y, a1, a2, a3, a4⟩ := h2 h
      have hy : y < 2 ^ 64 := by
        obtain ⟨w, w1, w2, w3⟩ := h1.1 h
        have := a4 w w1 w2 w3; omega
      exact ⟨y, a1, a2, (hs y hy).1 a3, fun z hz h3 h4 => a4 z hz ((hs z hz).2 h3) h4⟩
  · have := C88_compare_partial hm hne ha hq
    exact ⟨this.1, this.2.1⟩

/-- Beside the hypotheses: an iterator of a map with two inner bitmaps, moved and decremented into the first. -/
example : ValidM (m64BitmapOf [5, 99999999999]) ∧ NoEmptyParts (m64BitmapOf [5, 99999999999]) ∧
    (miDec (m64BitmapOf [5, 99999999999]) (miMove (m64BitmapOf [5, 99999999999]) (miBegin (m64BitmapOf [5, 99999999999])) 6).1).bind
      (miDeref (m64BitmapOf [5, 99999999999])) = some 5 :=
  ⟨(C81_bitmap_of (by decide)).1, by unfold NoEmptyParts; decide +kernel, by decide +kernel⟩
example : MapIt [(0, [])] (miBegin [(0, [])]) 0 := .begin

theorem enum_length_le (n : Nat) (s : Nat → Bool) : (Spec.enum n s).length ≤ n := card_le n s

/-- C87: a range-based `for` loop visits every value once, in increasing order, and ends. -/
theorem C87_range_for {m : Map64} (hm : ValidM m) : miLoop m FUEL (miBegin m) = some (valuesM m) := by
  rw [loop_rel hm FUEL (begin_rel hm) ?_, List.drop_zero, toU_valuesM hm]
  have : cntM m ≤ 2 ^ 64 := by rw [cntM_values hm]; unfold valuesM; exact enum_length_le _ _
  unfold FUEL; omega

theorem intercalate_fold (s : String) (l : List String) : ∀ a, s.intercalate (a :: l) = l.foldl (fun r x => r ++ s ++ x) a := by
  induction l with
  | nil => intro a; rfl
  | cons x t ih => intro a; rw [List.foldl_cons, ← ih]; rfl

theorem fold_close (l : List String) (a : String) : (l ++ ["}"]).foldl (· ++ ·) a = l.foldl (· ++ ·) a ++ "}" := by
  rw [List.foldl_append]; rfl

/-- C87: `toString` is the comma-separated list of the values in braces; `printf` writes it and a newline.  `static` is the variable
behind `Roaring::end()`; it is not set, or set and left at the end. -/
theorem C87_to_string {m : Map64} (hm : ValidM m) (static : Option CIter)
    (hs : ∀ e, static = some e → e.i.hasValue = false ∧ e.i.currentValue = 2 ^ 32 - 1) :
    m64ToString static m = some ("{" ++ ",".intercalate ((valuesM m).map Nat.repr) ++ "}") ∧
    m64Printf static m = some ("{" ++ ",".intercalate ((valuesM m).map Nat.repr) ++ "}" ++ "\n") := by
  have key : m64ToString static m = some ("{" ++ ",".intercalate ((valuesM m).map Nat.repr) ++ "}") := by
    unfold m64ToString printToSink
    rw [sinkLoop_eq hs hm, toU_valuesM hm]
    simp only [Option.map_some, Option.some_inj]
    generalize valuesM m = l
    rw [fold_close]
    cases l with
    | nil => rfl
    | cons v t =>
      simp only [pieces, List.foldl_cons, List.map_cons]
      rw [pieces_comma, intercalate_fold]
      congr 1
      rw [← pieces_comma, ← pieces_comma]
      rw [show ("" ++ "{" ++ ("" ++ v.repr)) = "{" ++ v.repr by simp, foldl_append]
  exact ⟨key, by unfold m64Printf; rw [key]; rfl⟩

example : m64ToString none (m64BitmapOf [99999999999, 5]) = some "{5,99999999999}" := by
  have h := (C81_bitmap_of (xs := [99999999999, 5]) (by decide)).1
  rw [(C87_to_string h none (by simp)).1, ← toU_valuesM h]; decide +kernel

/-! ### C93: iterators of `Roaring` -/

/-- `RoarIt r it p`: calls have brought the iterator `it` of the bitmap `r` to position `p` of the increasing list of the values. -/
inductive RoarIt (r : Bitmap) : CIter → Nat → Prop
  | begin : RoarIt r (ciBegin r) 0
  | end (static : Option CIter) : (static = none ∨ static = some (ciExhausted r)) → RoarIt r (ciEnd static r) (values32 r).length
  | inc {it p} : RoarIt r it p → p < (values32 r).length → RoarIt r (ciInc it) (p + 1)
  | dec {it p} : RoarIt r it p → 0 < p → RoarIt r (ciDec it) (p - 1)
  | move {it p} {v : Nat} : RoarIt r it p → v < 2 ^ 32 →
      RoarIt r (ciMove it v).1 (Spec.card v (fun y => rbContains r y))

theorem RoarIt.rel {r : Bitmap} (hr : Valid r) {it : CIter} {p : Nat} (h : RoarIt r it p) : RelC r it p := by
  have hn := cnt32_values hr
  induction h with
  | begin => exact ci_begin hr
  | «end» static hs =>
    rw [← hn]
    rcases hs with rfl | rfl
    · exact ci_end r
    · exact ci_end r
  | inc _ hp ih => exact ci_inc hr ih (by omega)
  | dec _ hp ih => exact ci_dec hr ih hp
  | @move it p v _ hv ih =>
    have := (ci_move hr ih hv).1
    rwa [show bhas r = (fun y => rbContains r y) from funext fun y => (rbContains_eq hr.inv y).symm] at this

/-- C93: iterators of one bitmap show the value of their position and compare like their positions; `move_equalorlarger` answers
whether there is a value that is not smaller.  Missing: `end()` after `end()` was called on another bitmap
(`C93_end_false`). -/
theorem C93_iterator_partial {r : Bitmap} (hr : Valid r) {a b : CIter} {p q : Nat} (ha : RoarIt r a p) (hb : RoarIt r b q) :
    p ≤ (values32 r).length ∧ (∀ v, (values32 r)[p]? = some v → ciDeref a = v) ∧
    ciLt a b = decide (p < q) ∧ ciLe a b = decide (p ≤ q) ∧ ciGt a b = decide (p > q) ∧ ciGe a b = decide (p ≥ q) ∧
    ciEq a b = decide (p = q) ∧ ciNe a b = decide (p ≠ q) ∧
    ∀ v, v < 2 ^ 32 → (ciMove a v).2 = decide (Spec.card v (fun y => rbContains r y) < (values32 r).length) := by
  have h := ci_cmp hr (ha.rel hr) (hb.rel hr)
  refine ⟨by rw [← cnt32_values hr]; exact relC_le (ha.rel hr), fun v hv => ?_, h.1, h.2.1, h.2.2.1, h.2.2.2.1, h.2.2.2.2.1, h.2.2.2.2.2,
    fun v hv => ?_⟩
  · unfold ciDeref
    rw [(ci_sees hr (ha.rel hr)).2, toU_values32 hr, hv]; rfl
  · rw [(ci_move hr (ha.rel hr) hv).2, cnt32_values hr,
      show bhas r = (fun y => rbContains r y) from funext fun y => (rbContains_eq hr.inv y).symm]

/-- C93 is false in general: `end()` is one static object.  After `end()` was called on the bitmap {1}, the iterator `end()`
of the bitmap {2}, decremented, is on the value 1. -/
theorem C93_end_false : ∃ r1 r2, Valid r1 ∧ Valid r2 ∧ values32 r2 = [2] ∧
    ciDeref (ciDec (ciEnd (some (ciEnd none r1)) r2)) = 1 := by
  have h2 := (C01_add valid_nil (x := 2) (by omega)).1
  refine ⟨rbAdd [] 1, rbAdd [] 2, (C01_add valid_nil (by omega)).1, h2, ?_, by decide +kernel⟩
  rw [← toU_values32 h2]; decide +kernel

/-- C93: a range-based `for` loop over a bitmap visits every value once, in increasing order, and ends, whatever bitmap the static
end iterator was made for. -/
theorem C93_range_for {r : Bitmap} (hr : Valid r) (static : Option CIter)
    (hs : ∀ e, static = some e → e.i.hasValue = false ∧ e.i.currentValue = 2 ^ 32 - 1) :
    ciLoop (ciEnd static r) FUEL (ciBegin r) = some (values32 r) := by
  have he : (ciEnd static r).i.hasValue = false ∧ (ciEnd static r).i.currentValue = 4294967295 := by
    cases static with
    | none => exact ⟨rfl, rfl⟩
    | some e => exact hs e rfl
  rw [ciLoop_begin hr he.1 he.2, toU_values32 hr]

/-- C93: `toString` of a bitmap is the comma-separated list of the values in braces. -/
theorem C93_to_string {r : Bitmap} (hr : Valid r) :
    rbToString r = "{" ++ ",".intercalate ((values32 r).map Nat.repr) ++ "}" := by
  have hl : ∀ (l : List Nat) (a sep : String),
      (callUntil (fun (s : String × String) v => ((s.1 ++ s.2 ++ Nat.repr v, ","), true)) (a, sep) l).1.1 =
        (pieces l sep).foldl (· ++ ·) a := by
    intro l
    induction l with
    | nil => intro a sep; rfl
    | cons v t ih =>
      intro a sep
      simp only [callUntil, if_true, pieces, List.foldl_cons]
      rw [ih, String.append_assoc]
  unfold rbToString
  by_cases he : rbIsEmpty r = true
  · have : values32 r = [] := by
      rw [← toU_values32 hr]
      apply List.eq_nil_iff_forall_not_mem.2
      intro v hv
      rw [toU32_mem hr, (rbIsEmpty_spec hr).1 he] at hv; cases hv
    rw [this, he]; rfl
  · simp only [Bool.eq_false_iff.2 he, Bool.not_false, if_true]
    rw [rbIterate_eq _ _ hr.inv, ← rbToUint32_eq hr.inv, toU_values32 hr, hl]
    have hne : values32 r ≠ [] := by
      obtain ⟨v, hv⟩ := nonempty_has hr he
      rw [← toU_values32 hr]
      exact List.ne_nil_of_mem ((toU32_mem hr).2 hv)
    revert hne
    generalize values32 r = l
    cases l with
    | nil => intro h; exact absurd rfl h
    | cons v t =>
      intro _
      simp only [pieces, List.foldl_cons, List.map_cons]
      rw [pieces_comma, intercalate_fold, ← pieces_comma, ← pieces_comma]
      rw [show ("" ++ ("{" ++ v.repr)) = "{" ++ v.repr by simp, foldl_append]

example : rbToString exS = "{" ++ ",".intercalate ((rbToUint32 exS).map Nat.repr) ++ "}" := by decide +kernel
example : RoarIt exS (ciDec (ciEnd none exS)) ((values32 exS).length - 1) :=
  .dec (.end none (Or.inl rfl)) (by rw [← cnt32_values exS_valid]; decide +kernel)

end CRoaring.Props
