import Verif.Model.ArrOps
import Verif.Lemmas.ArrayBuf
import Verif.Lemmas.RunMem
/-! Array containers on memory: single accesses, single values, ranges, copies. -/
set_option linter.unusedSimpArgs false
set_option linter.unusedVariables false
namespace CRoaring

/-- The buffer has the contents `v`. -/
def AHolds (b : ArrBuf) (v : List Nat) : Prop := ∃ rest, b = ⟨v.length, v ++ rest⟩

theorem aholds_iff {b : ArrBuf} {v : List Nat} : AHolds b v ↔ b.card ≤ b.mem.length ∧ b.vals = v := by
  constructor
  · rintro ⟨rest, rfl⟩
    simp [ArrBuf.vals]
  · rintro ⟨h1, rfl⟩
    refine ⟨b.mem.drop b.card, ?_⟩
    cases b
    simp [ArrBuf.vals] at *
    omega

theorem AHolds.card {b : ArrBuf} {v : List Nat} (h : AHolds b v) : b.card = v.length := by obtain ⟨_, rfl⟩ := h; rfl
theorem AHolds.vals {b : ArrBuf} {v : List Nat} (h : AHolds b v) : b.vals = v := (aholds_iff.1 h).2
theorem AHolds.le {b : ArrBuf} {v : List Nat} (h : AHolds b v) : v.length ≤ b.mem.length := by obtain ⟨_, rfl⟩ := h; simp

theorem AHolds.bufOK {b : ArrBuf} {v : List Nat} (h : AHolds b v) (hv : ArrOK v) (hs : v.length ≤ 4096) : BufOK b :=
  ⟨by rw [h.card]; exact hs, by rw [h.card]; exact h.le, by rw [h.vals]; exact hv.sorted, by rw [h.vals]; exact hv.lt⟩

theorem aholds_nil (m : List Nat) : AHolds ⟨0, m⟩ [] := ⟨m, rfl⟩

theorem rdVal_lt {l : List Nat} {i : Nat} (h : i < l.length) : rdVal l i = .ok (l[i]) := by simp [rdVal, h]
theorem rdVal_rdL {l : List Nat} {i : Nat} (h : i < l.length) : rdVal l i = .ok (rdL l i) := by simp [rdVal, h, rdL]

theorem rdVal_append {v rest : List Nat} {i : Nat} (h : i < v.length) : rdVal (v ++ rest) i = .ok (rdL v i) := by
  rw [rdVal_lt (by simp; omega), rdL]
  simp [List.getElem_append_left h, h]

theorem AHolds.rd {b : ArrBuf} {v : List Nat} (h : AHolds b v) {i : Nat} (hi : i < v.length) : rdVal b.mem i = .ok (rdL v i) := by
  obtain ⟨rest, rfl⟩ := h
  exact rdVal_append hi

theorem write16_lt {l : List Nat} {i : Nat} (h : i < l.length) (x : Nat) : write16 l i x = .ok (l.set i x) := by simp [write16, h]

theorem apush_eq {b : ArrBuf} (h : b.card < b.mem.length) (x : Nat) : b.push x = .ok ⟨b.card + 1, b.mem.set b.card x⟩ := by
  simp [ArrBuf.push, write16_lt h, ok_bind]

theorem astore_eq {b : ArrBuf} (h : b.card < b.mem.length) (x : Nat) (k : Bool) :
    b.store x k = .ok ⟨b.card + k.toNat, b.mem.set b.card x⟩ := by simp [ArrBuf.store, write16_lt h, ok_bind]

theorem AHolds.push {b : ArrBuf} {v : List Nat} (h : AHolds b v) (hi : v.length < b.mem.length) (x : Nat) :
    ∃ b', b.push x = .ok b' ∧ AHolds b' (v ++ [x]) ∧ b'.mem.length = b.mem.length := by
  refine ⟨_, apush_eq (by rw [h.card]; exact hi) x, ?_, by simp⟩
  obtain ⟨rest, rfl⟩ := h
  cases rest with
  | nil => simp at hi
  | cons y t => exact ⟨t, by simp [List.set_append_right]⟩

theorem AHolds.store {b : ArrBuf} {v : List Nat} (h : AHolds b v) (hi : v.length < b.mem.length) (x : Nat) (k : Bool) :
    ∃ b', b.store x k = .ok b' ∧ AHolds b' (v ++ if k then [x] else []) ∧ b'.mem.length = b.mem.length := by
  refine ⟨_, astore_eq (by rw [h.card]; exact hi) x k, ?_, by simp⟩
  obtain ⟨rest, rfl⟩ := h
  cases rest with
  | nil => simp at hi
  | cons y t =>
    cases k with
    | true => exact ⟨t, by simp [List.set_append_right]⟩
    | false => exact ⟨x :: t, by simp [List.set_append_right]⟩

theorem readN_le {l : List Nat} {i n : Nat} (h : i + n ≤ l.length) : readN l i n = .ok ((l.drop i).take n) := by simp [readN, h]

theorem storeu_ok {m v : List Nat} {i : Nat} (h : i + v.length ≤ m.length) :
    storeu m i v = .ok (m.take i ++ v ++ m.drop (i + v.length)) := by simp [storeu, h]

theorem AHolds.readN {b : ArrBuf} {v : List Nat} (h : AHolds b v) {i n : Nat} (hi : i + n ≤ v.length) :
    CRoaring.readN b.mem i n = .ok ((v.drop i).take n) := by
  obtain ⟨rest, rfl⟩ := h
  rw [readN_le (by simp; omega), List.drop_append_of_le_length (by omega), List.take_append_of_le_length (by simp; omega)]

theorem AHolds.readAll {b : ArrBuf} {v : List Nat} (h : AHolds b v) : CRoaring.readN b.mem 0 b.card = .ok v := by
  rw [h.card, h.readN (by omega)]; simp

theorem mvVals_eq {mem : List Nat} {dst src count : Nat} (h1 : src + count ≤ mem.length) (h2 : dst + count ≤ mem.length) :
    mvVals mem dst src count = .ok (mem.take dst ++ (mem.drop src).take count ++ mem.drop (dst + count)) := by
  have hl : ((mem.drop src).take count).length = count := by simp; omega
  rw [mvVals, readN_le h1, ok_bind, storeu_ok (by rw [hl]; exact h2), hl]

theorem fillVals_eq : ∀ (n : Nat) (mem : List Nat) (pos v : Nat), pos + n ≤ mem.length →
    fillVals mem pos v n = .ok (mem.take pos ++ (List.range' v n).map (· % 65536) ++ mem.drop (pos + n)) := by
  intro n
  induction n with
  | zero => intro mem pos v h; simp [fillVals]
  | succ n ih =>
    intro mem pos v h
    rw [fillVals, write16_lt (by omega), ok_bind, ih _ _ _ (by simp; omega), List.range'_succ, List.map_cons]
    congr 1
    rw [List.take_set, List.drop_set_of_lt (by omega), List.take_add_one, List.getElem?_eq_getElem (by omega),
      List.set_append_right _ _ (by simp; omega)]
    simp [Nat.min_eq_left (show pos ≤ mem.length by omega)]
    congr 1; omega

theorem clampNat_ge {c m : Nat} (h : m ≤ 65536) : m ≤ clampNat c m (if m ≤ DEFAULT_MAX_SIZE then DEFAULT_MAX_SIZE else 65536) := by
  unfold clampNat
  repeat' split
  all_goals omega

theorem arrayGrowKeep_length {fresh : Nat → List Nat} (hf : Mallocs fresh) (b : ArrBuf) {m : Nat} (hm : m ≤ 65536) :
    m ≤ (arrayGrowKeep fresh b m).mem.length := by
  have := clampNat_ge (c := growCapacity b.mem.length) hm
  simp only [arrayGrowKeep, List.length_append, List.length_take, List.length_drop, hf _]
  omega

theorem AHolds.growKeep {fresh : Nat → List Nat} {b : ArrBuf} {v : List Nat} (h : AHolds b v) {m : Nat} (hm : m ≤ 65536)
    (hb : b.mem.length ≤ m) : AHolds (arrayGrowKeep fresh b m) v := by
  have := clampNat_ge (c := growCapacity b.mem.length) hm
  obtain ⟨rest, rfl⟩ := h
  simp only [arrayGrowKeep]
  rw [List.take_of_length_le (by simp only at *; omega), List.append_assoc]
  exact ⟨_, rfl⟩

theorem arrayRoom_spec {fresh : Nat → List Nat} (hf : Mallocs fresh) {b : ArrBuf} {v : List Nat} (h : AHolds b v) (hv : v.length < 65536) :
    AHolds (arrayRoom fresh b) v ∧ v.length < (arrayRoom fresh b).mem.length := by
  have hl := h.le
  rw [arrayRoom]
  split
  · rename_i e
    rw [h.card] at e
    refine ⟨h.growKeep (by omega) (by omega), ?_⟩
    have := arrayGrowKeep_length hf b (m := b.mem.length + 1) (by omega)
    omega
  · rename_i e
    rw [h.card] at e
    exact ⟨h, by omega⟩

variable {fresh : Nat → List Nat}

theorem arrayAppendBuf_spec (hf : Mallocs fresh) {b : ArrBuf} {v : List Nat} (h : AHolds b v) (hv : v.length < 65536) (x : Nat) :
    ∃ b', arrayAppendBuf fresh b x = .ok b' ∧ AHolds b' (arrayAppend v x) := by
  obtain ⟨h1, h2⟩ := arrayRoom_spec hf h hv
  obtain ⟨b', e1, e2, _⟩ := h1.push h2 x
  exact ⟨b', e1, e2⟩

theorem lastBelow_spec {b : ArrBuf} {v : List Nat} (h : AHolds b v) (x : Nat) :
    lastBelow b x = .ok (decide (v.length = 0 ∨ rdL v (v.length - 1) < x)) := by
  rw [lastBelow, h.card]
  by_cases c : v.length = 0
  · simp [c]
  · rw [if_neg c, h.rd (by omega), ok_bind]
    simp [c]

theorem arrayTryAddBuf_spec (hf : Mallocs fresh) {b : ArrBuf} {v : List Nat} (h : AHolds b v) (hs : SSorted v) (hv : v.length < 65536)
    (x : Nat) (m : Int) :
    ∃ b', arrayTryAddBuf fresh b x m = .ok (b', (arrayTryAdd v x m).2) ∧ AHolds b' (arrayTryAdd v x m).1 := by
  rw [arrayTryAddBuf, lastBelow_spec h, ok_bind, h.card, h.vals, arrayTryAdd]
  simp only [decide_eq_true_eq]
  by_cases c : (v.length = 0 ∨ rdL v (v.length - 1) < x) ∧ (v.length : Int) < m
  · rw [if_pos c, if_pos c]
    obtain ⟨b', e1, e2⟩ := arrayAppendBuf_spec hf h hv x
    rw [e1, ok_bind]
    exact ⟨b', rfl, e2⟩
  · rw [if_neg c, if_neg c]
    by_cases c1 : binarySearch (rdL v) v.length x ≥ 0
    · rw [if_pos c1, if_pos c1]; exact ⟨b, rfl, h⟩
    · rw [if_neg c1, if_neg c1]
      by_cases c2 : (v.length : Int) < m
      · rw [if_pos c2, if_pos c2]
        rw [binarySearch_list hs] at c1 ⊢
        have hn : x ∉ v := by intro hm; rw [if_pos hm] at c1; omega
        rw [if_neg hn, show (-(-((lb v x : Int) + 1)) - 1).toNat = lb v x by omega]
        have hle := lb_le v x
        generalize lb v x = k at *
        obtain ⟨h1, h2⟩ := arrayRoom_spec hf h hv
        obtain ⟨rest, e⟩ := h1
        rw [e] at h2 ⊢
        cases rest with
        | nil => simp at h2
        | cons y t =>
          dsimp only
          rw [mvVals_eq (by simp; omega) (by simp; omega), ok_bind, write16_lt (by simp; omega), ok_bind]
          refine ⟨_, rfl, t, ?_⟩
          congr 1
          · simp; omega
          · have e2 : List.take (v.length - k) (List.drop k (v ++ y :: t)) = v.drop k := by
              rw [List.drop_append_of_le_length hle, List.take_append_of_le_length (by simp), List.take_of_length_le (by simp)]
            have e3 : List.take (k + 1) (v ++ y :: t) = v.take k ++ [(v ++ y :: t)[k]'(by simp; omega)] := by
              rw [List.take_add_one, List.getElem?_eq_getElem (by simp; omega), List.take_append_of_le_length hle]
              rfl
            rw [show k + 1 + (v.length - k) = v.length + 1 by omega, e2, e3]
            simp [List.set_append_left, List.set_append_right, Nat.min_eq_left hle, List.drop_append]
      · rw [if_neg c2, if_neg c2]; exact ⟨b, rfl, h⟩

theorem arrayAddBuf_spec (hf : Mallocs fresh) {b : ArrBuf} {v : List Nat} (h : AHolds b v) (hs : SSorted v) (hv : v.length < 65536) (x : Nat) :
    ∃ b', arrayAddBuf fresh b x = .ok (b', (arrayAdd v x).2) ∧ AHolds b' (arrayAdd v x).1 := by
  obtain ⟨b', e1, e2⟩ := arrayTryAddBuf_spec hf h hs hv x INT32_MAX
  exact ⟨b', by rw [arrayAddBuf, e1, ok_bind, arrayAdd], e2⟩

theorem arrayRemoveBuf_spec {b : ArrBuf} {v : List Nat} (h : AHolds b v) (hs : SSorted v) (x : Nat) :
    ∃ b', arrayRemoveBuf b x = .ok (b', (arrayRemove v x).2) ∧ AHolds b' (arrayRemove v x).1 ∧ b'.mem.length = b.mem.length := by
  rw [arrayRemoveBuf, arrayRemove, h.vals, h.card]
  by_cases c : binarySearch (rdL v) v.length x ≥ 0
  · rw [if_pos c, if_pos c]
    have hlt : (binarySearch (rdL v) v.length x).toNat < v.length := by
      rw [binarySearch_list hs] at c ⊢
      by_cases hm : x ∈ v
      · rw [if_pos hm]; have := (mem_iff_rdL_lb hs x).1 hm; omega
      · rw [if_neg hm] at c; omega
    generalize (binarySearch (rdL v) v.length x).toNat = k at hlt
    obtain ⟨rest, rfl⟩ := h
    dsimp only
    rw [mvVals_eq (by simp; omega) (by simp; omega), ok_bind]
    refine ⟨_, rfl, ⟨(v ++ rest).drop (k + (v.length - k - 1)), ?_⟩, by simp; omega⟩
    congr 1
    · simp; omega
    · rw [List.take_append_of_le_length (by omega), List.drop_append_of_le_length (by omega),
        List.take_append_of_le_length (by simp; omega), List.take_of_length_le (l := v.drop (k + 1)) (by simp; omega)]
  · rw [if_neg c, if_neg c]; exact ⟨b, rfl, h, rfl⟩

theorem arrayAddRangeNvalsBuf_spec (hf : Mallocs fresh) {b : ArrBuf} {v : List Nat} (h : AHolds b v) {lo hi nl ng : Nat} (hlg : nl + ng ≤ v.length)
    (hu : nl + (hi - lo + 1) + ng ≤ 65536) (hc : v.length ≤ nl + (hi - lo + 1) + ng) :
    ∃ b', arrayAddRangeNvalsBuf fresh b lo hi nl ng = .ok b' ∧ AHolds b' (arrayAddRangeNvals v lo hi nl ng) := by
  rw [arrayAddRangeNvalsBuf, h.card]
  have h1 : ∃ b1, (if nl + (hi - lo + 1) + ng > b.mem.length then arrayGrowKeep fresh b (nl + (hi - lo + 1) + ng) else b) = b1 ∧ AHolds b1 v ∧
      nl + (hi - lo + 1) + ng ≤ b1.mem.length := by
    refine ⟨_, rfl, ?_, ?_⟩
    · split
      · exact h.growKeep hu (by omega)
      · exact h
    · split
      · exact arrayGrowKeep_length hf b hu
      · omega
  obtain ⟨b1, e1, ⟨rest, e2⟩, g2⟩ := h1
  rw [e1, e2]
  rw [e2] at g2
  simp only at g2 ⊢
  rw [mvVals_eq (by simp; omega) (by omega), ok_bind, fillVals_eq _ _ _ _ (by simp at *; omega), ok_bind]
  simp only [List.length_append] at g2
  refine ⟨_, rfl, (v ++ rest).drop (nl + (hi - lo + 1) + ng), ?_⟩
  rw [arrayAddRangeNvals]
  have el : nl + (hi - lo + 1) + ng - ng = nl + (hi - lo + 1) := by omega
  rw [el]
  generalize hi - lo + 1 = n at *
  congr 1
  · simp; omega
  · rw [List.take_append_of_le_length (by simp; omega), List.append_assoc, List.append_assoc (List.take (nl + n) _), List.take_append_of_le_length (by simp; omega),
      List.take_take, Nat.min_eq_left (by omega), List.take_append_of_le_length (by omega),
      List.drop_append, List.drop_eq_nil_of_le (by simp; omega), List.nil_append]
    have e3 : nl + n - (List.take (nl + n) (v ++ rest)).length = 0 := by simp; omega
    rw [e3, List.drop_zero, List.drop_append_of_le_length (by omega), List.take_append_of_le_length (by simp; omega),
      List.take_of_length_le (l := List.drop (v.length - ng) v) (by simp; omega)]
    simp

theorem arrayRemoveRangeBuf_spec {b : ArrBuf} {v : List Nat} (h : AHolds b v) {pos count : Nat} (hp : pos + count ≤ v.length) :
    ∃ b', arrayRemoveRangeBuf b pos count = .ok b' ∧ AHolds b' (arrayRemoveRange v pos count) ∧ b'.mem.length = b.mem.length := by
  rw [arrayRemoveRangeBuf, arrayRemoveRange]
  split
  · rw [h.card]
    obtain ⟨rest, rfl⟩ := h
    dsimp only
    rw [mvVals_eq (by simp; omega) (by simp; omega), ok_bind]
    refine ⟨_, rfl, ⟨(v ++ rest).drop (pos + (v.length - pos - count)), ?_⟩, by simp; omega⟩
    congr 1
    · simp; omega
    · rw [List.take_append_of_le_length (by omega), List.drop_append_of_le_length (by omega),
        List.take_append_of_le_length (by simp; omega), List.take_of_length_le (l := v.drop (pos + count)) (by simp; omega)]
  · exact ⟨b, rfl, h, rfl⟩

theorem arrayCreateBuf_holds (n : Nat) : AHolds (arrayCreateBuf fresh n) [] := aholds_nil _
theorem arrayCreateBuf_len (hf : Mallocs fresh) (n : Nat) : (arrayCreateBuf fresh n).mem.length = n := hf n

theorem storeu_holds {m v : List Nat} (h : v.length ≤ m.length) : ∃ m', storeu m 0 v = .ok m' ∧ AHolds ⟨v.length, m'⟩ v ∧ m'.length = m.length := by
  refine ⟨_, storeu_ok (by omega), ⟨m.drop v.length, by simp⟩, by simp; omega⟩

theorem arrayCloneBuf_spec (hf : Mallocs fresh) {b : ArrBuf} {v : List Nat} (h : AHolds b v) :
    ∃ b', arrayCloneBuf fresh b = .ok b' ∧ AHolds b' v ∧ b'.mem.length = b.mem.length := by
  obtain ⟨m', e1, e2, e3⟩ := storeu_holds (m := fresh b.mem.length) (v := v) (by rw [hf]; exact h.le)
  refine ⟨_, by rw [arrayCloneBuf, h.readAll, ok_bind, e1, ok_bind, h.card], e2, ?_⟩
  rw [e3, hf]

theorem arrayCopyBuf_spec (hf : Mallocs fresh) {b : ArrBuf} {v : List Nat} (h : AHolds b v) (hv : v.length ≤ 65536) (dst : ArrBuf) :
    ∃ b', arrayCopyBuf fresh b dst = .ok b' ∧ AHolds b' v := by
  have hl := (arrayReserve_len hf dst b.card b.card (Nat.le_refl _) (by rw [h.card]; exact hv)).1
  obtain ⟨m', e1, e2, e3⟩ := storeu_holds (m := (arrayReserve fresh dst b.card b.card).mem) (v := v) (by rw [h.card] at hl; rw [h.card]; exact hl)
  exact ⟨_, by rw [arrayCopyBuf, h.readAll, ok_bind, e1, ok_bind, h.card], e2⟩

theorem arrayShrinkBuf_spec {b : ArrBuf} {v : List Nat} (h : AHolds b v) :
    AHolds (arrayShrinkBuf b).1 v ∧ (arrayShrinkBuf b).1.mem.length = v.length ∧ (arrayShrinkBuf b).2 = b.mem.length - v.length := by
  have hc := h.card
  rw [arrayShrinkBuf]
  split
  · rename_i e; exact ⟨h, by simp only; omega, by simp only; omega⟩
  · obtain ⟨rest, rfl⟩ := h
    exact ⟨⟨[], by simp⟩, by simp, by simp⟩

theorem pushRange_spec : ∀ (n : Nat) {b : ArrBuf} {v : List Nat} (x : Nat), AHolds b v → v.length + n ≤ b.mem.length →
    ∃ b', pushRange b x n = .ok b' ∧ AHolds b' (v ++ (List.range' x n).map (· % 65536)) ∧ b'.mem.length = b.mem.length := by
  intro n
  induction n with
  | zero => intro b v x h hl; exact ⟨b, rfl, by simpa using h, rfl⟩
  | succ n ih =>
    intro b v x h hl
    obtain ⟨b1, e1, h1, l1⟩ := h.push (by omega) (x % 65536)
    obtain ⟨b2, e2, h2, l2⟩ := ih (x + 1) h1 (by simp; omega)
    refine ⟨b2, by rw [pushRange, e1, ok_bind, e2], ?_, by omega⟩
    rw [List.range'_succ, List.map_cons]
    simpa using h2

theorem pushRangeIf_spec (g : Nat → Bool) : ∀ (n : Nat) {b : ArrBuf} {v : List Nat} (x : Nat), AHolds b v → v.length + n ≤ b.mem.length →
    ∃ b', pushRangeIf g b x n = .ok b' ∧ AHolds b' (v ++ ((List.range' x n).filter g).map (· % 65536)) ∧ b'.mem.length = b.mem.length := by
  intro n
  induction n with
  | zero => intro b v x h hl; exact ⟨b, rfl, by simpa using h, rfl⟩
  | succ n ih =>
    intro b v x h hl
    rw [pushRangeIf, List.range'_succ]
    by_cases c : g x = true
    · obtain ⟨b1, e1, h1, l1⟩ := h.push (by omega) (x % 65536)
      obtain ⟨b2, e2, h2, l2⟩ := ih (x + 1) h1 (by simp; omega)
      refine ⟨b2, by rw [if_pos c, e1, ok_bind, e2], ?_, by omega⟩
      rw [List.filter_cons_of_pos c]
      simpa using h2
    · obtain ⟨b2, e2, h2, l2⟩ := ih (x + 1) h (by omega)
      refine ⟨b2, by rw [if_neg c, e2], ?_, by omega⟩
      rw [List.filter_cons_of_neg c]
      exact h2

theorem storeRange_spec (g : Nat → Bool) : ∀ (n : Nat) {b : ArrBuf} {v : List Nat} (x : Nat), AHolds b v → v.length + n ≤ b.mem.length →
    ∃ b', storeRange g b x n = .ok b' ∧ AHolds b' (v ++ ((List.range' x n).filter g).map (· % 65536)) ∧ b'.mem.length = b.mem.length := by
  intro n
  induction n with
  | zero => intro b v x h hl; exact ⟨b, rfl, by simpa using h, rfl⟩
  | succ n ih =>
    intro b v x h hl
    rw [storeRange, List.range'_succ]
    obtain ⟨b1, e1, h1, l1⟩ := h.store (by omega) (x % 65536) (g x)
    obtain ⟨b2, e2, h2, l2⟩ := ih (x + 1) h1 (by split <;> simp <;> omega)
    refine ⟨b2, by rw [e1, ok_bind, e2], ?_, by omega⟩
    by_cases c : g x = true
    · rw [List.filter_cons_of_pos c]
      rw [if_pos c] at h2
      simpa using h2
    · rw [List.filter_cons_of_neg c]
      rw [if_neg c] at h2
      simpa using h2

theorem arrayCreateRangeBuf_spec (hf : Mallocs fresh) (lo hi : Nat) :
    ∃ b', arrayCreateRangeBuf fresh lo hi = .ok b' ∧ AHolds b' (arrayCreateRange lo hi) := by
  obtain ⟨b', e, h, _⟩ := pushRange_spec (hi - lo) lo (arrayCreateBuf_holds (fresh := fresh) (hi - lo + 1))
    (by rw [arrayCreateBuf_len hf]; simp)
  exact ⟨b', e, by simpa [arrayCreateRange] using h⟩

theorem arrayAddFromRangeBuf_spec (hf : Mallocs fresh) (hi step : Nat) (lo : Nat) (b : ArrBuf) (v : List Nat) (h : AHolds b v)
    (hv : v.length + (hi - lo) ≤ 65536) :
    ∃ b', arrayAddFromRangeBuf fresh b lo hi step = .ok b' ∧ AHolds b' (arrayAddFromRange v lo hi step) := by
  rw [arrayAddFromRangeBuf, arrayAddFromRange]
  by_cases c : lo < hi ∧ 0 < step
  · rw [if_pos c, if_pos c]
    obtain ⟨b1, e1, h1⟩ := arrayAppendBuf_spec hf h (by omega) (lo % 65536)
    simp only [e1]
    exact arrayAddFromRangeBuf_spec hf hi step (lo + step) b1 _ h1 (by simp [arrayAppend]; omega)
  · rw [if_neg c, if_neg c]; exact ⟨b, rfl, h⟩
termination_by hi - lo
decreasing_by omega

theorem offsetLoopBuf_spec (hf : Mallocs fresh) {mem : List Nat} {l : List Nat} (offset : Nat) (hl : ∃ rest, mem = l ++ rest) :
    ∀ (n i : Nat) {b : ArrBuf} {v : List Nat}, i + n ≤ l.length → AHolds b v → ArrOK v → v.length + n ≤ 65536 →
    ∃ b', offsetLoopBuf fresh mem offset n i b = .ok b' ∧
      AHolds b' (((l.drop i).take n).foldl (fun acc v => (arrayAdd acc ((v + offset) % 65536)).1) v) := by
  obtain ⟨rest, rfl⟩ := hl
  intro n
  induction n with
  | zero => intro i b v hi h ho hv; exact ⟨b, rfl, by simpa using h⟩
  | succ n ih =>
    intro i b v hi h ho hv
    have e0 : (l.drop i).take (n + 1) = rdL l i :: (l.drop (i + 1)).take n := by
      rw [List.drop_eq_getElem_cons (by omega), List.take_succ_cons, rdL]
      simp [show i < l.length by omega]
    obtain ⟨b1, e1, h1⟩ := arrayAddBuf_spec hf h ho.sorted (by omega) ((rdL l i + offset) % 65536)
    have hs := arrayAdd_spec ho (v := (rdL l i + offset) % 65536) (Nat.mod_lt _ (by omega))
    obtain ⟨b2, e2, h2⟩ := ih (i + 1) (by omega) h1 hs.1 (by rw [hs.2.2.2]; split <;> omega)
    refine ⟨b2, by rw [offsetLoopBuf, rdVal_append (by omega), ok_bind, e1, ok_bind, e2], ?_⟩
    rw [e0, List.foldl_cons]
    exact h2

/-- A container that is there holds the values of the other, or neither is there. -/
def OptHolds : Option ArrBuf → Option (List Nat) → Prop
  | some b, some v => AHolds b v
  | none, none => True
  | _, _ => False

theorem arrayOffsetBuf_spec (hf : Mallocs fresh) {b : ArrBuf} {v : List Nat} (h : AHolds b v) (ho : ArrOK v) (off : Nat) :
    ∃ lo hi, arrayOffsetBuf fresh b off = .ok (lo, hi) ∧ OptHolds lo (arrayOffset v off).1 ∧ OptHolds hi (arrayOffset v off).2 := by
  rw [arrayOffsetBuf, arrayOffset, h.vals, h.card, countLess_list ho.sorted]
  have hle := lb_le v (65536 - off)
  have hlen := ho.length_le
  simp only [Int.toNat_natCast]
  generalize lb v (65536 - off) = k at *
  have hm : ∃ rest, b.mem = v ++ rest := by obtain ⟨rest, rfl⟩ := h; exact ⟨rest, rfl⟩
  obtain ⟨b1, e1, h1⟩ := offsetLoopBuf_spec hf off hm k 0 (by omega) (arrayCreateBuf_holds (fresh := fresh) k) ArrOK.nil (by simp; omega)
  obtain ⟨b2, e2, h2⟩ := offsetLoopBuf_spec hf off hm (v.length - k) k (by omega) (arrayCreateBuf_holds (fresh := fresh) (v.length - k)) ArrOK.nil
    (by simp; omega)
  rw [List.drop_zero] at h1
  rw [List.take_of_length_le (by simp)] at h2
  by_cases c1 : k ≠ 0 <;> by_cases c2 : v.length - k ≠ 0
  · simp only [if_pos c1, if_pos c2, e1, e2, ok_bind]; exact ⟨_, _, rfl, h1, h2⟩
  · simp only [if_pos c1, if_neg c2, e1, e2, ok_bind]; exact ⟨_, _, rfl, h1, trivial⟩
  · simp only [if_neg c1, if_pos c2, e1, e2, ok_bind]; exact ⟨_, _, rfl, trivial, h2⟩
  · simp only [if_neg c1, if_neg c2, e1, e2, ok_bind]; exact ⟨_, _, rfl, trivial, trivial⟩

end CRoaring
