import Verif.Model.RunMem
import Verif.Lemmas.Run4
import Verif.Lemmas.Serial
/-! Run containers on memory: single accesses, insertion and removal of runs, additions and removals of values and ranges. -/
set_option linter.unusedSimpArgs false
set_option linter.unusedVariables false
namespace CRoaring

/-- New memory has the size asked for. -/
def Fresh (fresh : Nat → List Rle) : Prop := ∀ n, (fresh n).length = n

/-- The buffer has the contents `v`. -/
def Holds (b : RunBuf) (v : List Rle) : Prop := ∃ rest, b = ⟨v.length, v ++ rest⟩

theorem holds_iff {b : RunBuf} {v : List Rle} : Holds b v ↔ b.n ≤ b.mem.length ∧ b.vals = v := by
  constructor
  · rintro ⟨rest, rfl⟩
    simp [RunBuf.vals]
  · rintro ⟨h1, rfl⟩
    refine ⟨b.mem.drop b.n, ?_⟩
    cases b
    simp [RunBuf.vals] at *
    omega

theorem Holds.n {b : RunBuf} {v : List Rle} (h : Holds b v) : b.n = v.length := by obtain ⟨_, rfl⟩ := h; rfl
theorem Holds.vals {b : RunBuf} {v : List Rle} (h : Holds b v) : b.vals = v := (holds_iff.1 h).2
theorem Holds.le {b : RunBuf} {v : List Rle} (h : Holds b v) : v.length ≤ b.mem.length := by obtain ⟨_, rfl⟩ := h; simp

theorem rdRun_lt {mem : List Rle} {i : Nat} (h : i < mem.length) : rdRun mem i = .ok (mem[i]) := by simp [rdRun, h]

theorem Holds.rd {b : RunBuf} {v : List Rle} (h : Holds b v) {i : Nat} (hi : i < v.length) : rdRun b.mem i = .ok (rdR v i) := by
  obtain ⟨rest, rfl⟩ := h
  rw [rdRun_lt (by simp; omega), rdR_eq hi]
  simp [List.getElem_append_left hi]

theorem wrRun_lt {mem : List Rle} {i : Nat} (h : i < mem.length) (r : Rle) : wrRun mem i r = .ok (mem.set i r) := by simp [wrRun, h]

theorem put_eq {b : RunBuf} {i : Nat} (h : i < b.mem.length) (r : Rle) : b.put i r = .ok ⟨b.n, b.mem.set i r⟩ := by
  simp [RunBuf.put, wrRun_lt h, ok_bind]

theorem push_eq {b : RunBuf} (h : b.n < b.mem.length) (r : Rle) : b.push r = .ok ⟨b.n + 1, b.mem.set b.n r⟩ := by
  simp [RunBuf.push, wrRun_lt h, ok_bind]

theorem Holds.put {b : RunBuf} {v : List Rle} (h : Holds b v) {i : Nat} (hi : i < v.length) (r : Rle) :
    ∃ b', b.put i r = .ok b' ∧ Holds b' (v.set i r) ∧ b'.mem.length = b.mem.length := by
  have hl := h.le
  refine ⟨_, put_eq (by omega) r, ?_, by simp⟩
  obtain ⟨rest, rfl⟩ := h
  exact ⟨rest, by simp [List.set_append_left _ _ hi]⟩

theorem Holds.push {b : RunBuf} {v : List Rle} (h : Holds b v) (hi : v.length < b.mem.length) (r : Rle) :
    ∃ b', b.push r = .ok b' ∧ Holds b' (v ++ [r]) ∧ b'.mem.length = b.mem.length := by
  refine ⟨_, push_eq (by rw [h.n]; exact hi) r, ?_, by simp⟩
  obtain ⟨rest, rfl⟩ := h
  cases rest with
  | nil => simp at hi
  | cons x t => exact ⟨t, by simp [List.set_append_right]⟩

theorem cpRuns_eq {mem : List Rle} {i : Nat} {v : List Rle} (h : i + v.length ≤ mem.length) :
    cpRuns mem i v = .ok (mem.take i ++ v ++ mem.drop (i + v.length)) := by simp [cpRuns, h]

theorem getRuns_eq {mem : List Rle} {i count : Nat} (h : i + count ≤ mem.length) : getRuns mem i count = .ok ((mem.drop i).take count) := by
  simp [getRuns, h]

theorem mvRuns_eq {mem : List Rle} {dst src count : Nat} (h1 : src + count ≤ mem.length) (h2 : dst + count ≤ mem.length) :
    mvRuns mem dst src count = .ok (mem.take dst ++ (mem.drop src).take count ++ mem.drop (dst + count)) := by
  have hl : ((mem.drop src).take count).length = count := by simp; omega
  rw [mvRuns, getRuns_eq h1, ok_bind, cpRuns_eq (by rw [hl]; exact h2), hl]

theorem Holds.recover {b : RunBuf} {v : List Rle} (h : Holds b v) {i : Nat} (hi : i < v.length) :
    ∃ b', recoverRoomBuf b i = .ok b' ∧ Holds b' (recoverRoomAtIndex v i) ∧ b'.mem.length = b.mem.length := by
  obtain ⟨rest, rfl⟩ := h
  rw [recoverRoomBuf, mvRuns_eq (by simp; omega) (by simp; omega), ok_bind]
  refine ⟨_, rfl, ?_, by simp; omega⟩
  refine ⟨(v ++ rest).drop (i + (v.length - i - 1)), ?_⟩
  simp only [recoverRoomAtIndex]
  congr 1
  · simp; omega
  · rw [List.take_append_of_le_length (by omega), List.drop_append_of_le_length (by omega),
      List.take_append_of_le_length (by simp; omega), show 1 + i = i + 1 by omega,
      List.take_of_length_le (l := v.drop (i + 1)) (by simp; omega)]

theorem runNewCapacity_ge (c m : Nat) : m ≤ runNewCapacity c m ∧ c ≤ runNewCapacity c m := by
  unfold runNewCapacity
  dsimp only
  repeat' split
  all_goals constructor <;> omega

theorem runGrow_length {fresh : Nat → List Rle} (hf : Fresh fresh) (b : RunBuf) (m : Nat) (c : Bool) :
    (runGrow fresh b m c).mem.length = runNewCapacity b.mem.length m := by
  have := (runNewCapacity_ge b.mem.length m).2
  cases c <;> simp [runGrow, hf _] <;> omega

theorem Holds.grow {fresh : Nat → List Rle} {b : RunBuf} {v : List Rle} (h : Holds b v) (m : Nat) : Holds (runGrow fresh b m true) v := by
  obtain ⟨rest, rfl⟩ := h
  have := (runNewCapacity_ge (v ++ rest).length m).2
  simp only [runGrow, if_true]
  rw [List.take_of_length_le this, List.append_assoc]
  exact ⟨_, rfl⟩

theorem runReserve_length {fresh : Nat → List Rle} (hf : Fresh fresh) (b : RunBuf) (m : Nat) (c : Bool) :
    m ≤ (runReserve fresh b m c).mem.length := by
  rw [runReserve]
  split
  · rw [runGrow_length hf]; exact (runNewCapacity_ge _ m).1
  · omega

theorem Holds.reserve {fresh : Nat → List Rle} {b : RunBuf} {v : List Rle} (h : Holds b v) (m : Nat) : Holds (runReserve fresh b m true) v := by
  rw [runReserve]
  split
  · exact h.grow m
  · exact h

theorem Holds.insert {fresh : Nat → List Rle} (hf : Fresh fresh) {b : RunBuf} {v : List Rle} (h : Holds b v) {i : Nat} (hi : i ≤ v.length)
    (hv : v.length < 65536) (r : Rle) :
    ∃ b', insertRunBuf fresh b i r = .ok b' ∧ Holds b' (insertRunAt v i r) := by
  have h1 : ∃ b1, (if b.n + 1 > b.mem.length then runGrow fresh b (b.n + 1) true else b) = b1 ∧ Holds b1 v ∧ v.length + 1 ≤ b1.mem.length := by
    refine ⟨_, rfl, ?_, ?_⟩
    · split
      · exact h.grow _
      · exact h
    · rw [← h.n]
      split
      · rw [runGrow_length hf]; exact (runNewCapacity_ge _ _).1
      · omega
  obtain ⟨b1, e1, g1, g2⟩ := h1
  rw [insertRunBuf, makeRoomBuf, e1, Nat.mod_eq_of_lt (by omega)]
  obtain ⟨rest, rfl⟩ := g1
  cases rest with
  | nil => simp at g2; omega
  | cons x t =>
    dsimp only
    rw [mvRuns_eq (by simp; omega) (by simp; omega), ok_bind, ok_bind, put_eq (by simp; omega)]
    refine ⟨_, rfl, t, ?_⟩
    simp only [insertRunAt]
    congr 1
    · simp; omega
    · have e2 : List.take (1 + i) (v ++ x :: t) = v.take i ++ [(v ++ x :: t)[i]'(by simp; omega)] := by
        rw [show 1 + i = i + 1 by omega, List.take_add_one, List.take_append_of_le_length hi]
        simp [List.getElem?_eq_getElem (show i < (v ++ x :: t).length by simp; omega)]
      rw [e2, List.drop_append_of_le_length hi, List.take_append_of_le_length (by simp),
        List.take_of_length_le (l := v.drop i) (by simp), show 1 + i + (v.length - i) = v.length + 1 by omega]
      have e3 : List.drop (v.length + 1) (v ++ x :: t) = t := by simp [List.drop_append]
      rw [e3]
      simp only [List.append_assoc, List.cons_append, List.nil_append]
      rw [List.set_append_right _ _ (by simp; omega), show i - (v.take i).length = 0 by simp; omega]
      simp

theorem holds_create (fresh : Nat → List Rle) (size : Nat) : Holds (runCreateBuf fresh size) [] := ⟨fresh size, rfl⟩

theorem Holds.copy {fresh : Nat → List Rle} (hf : Fresh fresh) {src : RunBuf} {v : List Rle} (h : Holds src v) (dst : RunBuf) :
    ∃ b', runCopyBuf fresh src dst = .ok b' ∧ Holds b' v := by
  have h1 : ∃ d, (if src.n > dst.mem.length then runGrow fresh dst src.n false else dst) = d ∧ v.length ≤ d.mem.length := by
    refine ⟨_, rfl, ?_⟩
    rw [← h.n]
    split
    · rw [runGrow_length hf]; exact (runNewCapacity_ge _ _).1
    · omega
  obtain ⟨d, e, hd⟩ := h1
  obtain ⟨rest, rfl⟩ := h
  rw [runCopyBuf, e, getRuns_eq (by simp)]
  simp only [ok_bind, List.drop_zero, List.take_left']
  rw [cpRuns_eq (by simpa using hd)]
  exact ⟨_, rfl, _, by simp; rfl⟩

theorem Holds.clone {fresh : Nat → List Rle} (hf : Fresh fresh) {src : RunBuf} {v : List Rle} (h : Holds src v) :
    ∃ b', runCloneBuf fresh src = .ok b' ∧ Holds b' v := by
  obtain ⟨rest, rfl⟩ := h
  rw [runCloneBuf, getRuns_eq (by simp)]
  simp only [ok_bind, List.drop_zero, List.take_left']
  rw [cpRuns_eq (by simp [hf _])]
  exact ⟨_, rfl, _, by simp; rfl⟩

theorem Holds.shrink {b : RunBuf} {v : List Rle} (h : Holds b v) :
    Holds (runShrinkBuf b).1 v ∧ (runShrinkBuf b).1.mem.length = v.length ∧ (runShrinkBuf b).2 = b.mem.length - v.length := by
  obtain ⟨rest, rfl⟩ := h
  simp only [runShrinkBuf]
  split
  · rename_i hc
    have : rest = [] := by simpa using hc
    subst this
    exact ⟨⟨[], rfl⟩, by simp, by simp⟩
  · exact ⟨⟨[], by simp⟩, by simp, by simp⟩

/-! ### Values -/

theorem run_length_le {rs : List Rle} (h : RunOK rs) : rs.length ≤ 32768 := by
  have key : ∀ (l : List Rle) (lo : Nat), RunOK l → (∀ r ∈ l, lo ≤ r.1) → l ≠ [] → 2 * l.length + lo ≤ 65537 := by
    intro l
    induction l with
    | nil => intro _ _ _ hn; exact absurd rfl hn
    | cons a t ih =>
      intro lo ho hlo _
      obtain ⟨h1, h2, h3⟩ := runOK_cons.1 ho
      have ha := hlo a (by simp)
      cases t with
      | nil => simp; omega
      | cons c t =>
        have := ih (a.1 + a.2 + 2) h3 (fun r hr => by have := h2 r hr; omega) (by simp)
        simp at this ⊢
        omega
  rcases rs with _ | ⟨a, t⟩
  · simp
  · have := key (a :: t) 0 h (by simp) (by simp); omega

theorem Holds.next {b : RunBuf} {v : List Rle} (h : Holds b v) (i : Nat) :
    nextRun b i = .ok (if i < v.length then some (rdR v i) else none) := by
  rw [nextRun, h.n]
  split
  · rename_i hi
    rw [h.rd hi, ok_bind]
  · rfl

theorem ibs_bounds {v : List Rle} (h : RunOK v) (x : Nat) :
    (0 ≤ interleavedBinarySearch v x → (interleavedBinarySearch v x).toNat < v.length) ∧
    (interleavedBinarySearch v x < 0 → 0 ≤ - interleavedBinarySearch v x - 1 ∧ (- interleavedBinarySearch v x - 1).toNat ≤ v.length) := by
  rcases run_split h x with ⟨pre, l, post, e, e2⟩ | ⟨h1, e2⟩ | ⟨pre, r, post, e, h1, h2, e2⟩
  all_goals rw [e2]
  · subst e; simp; omega
  · simp
  · subst e; simp; omega

theorem runAddBuf_spec {fresh : Nat → List Rle} (hf : Fresh fresh) {b : RunBuf} {v : List Rle} (h : Holds b v) (hv : RunOK v) (pos : Nat) :
    ∃ b', runAddBuf fresh b pos = .ok (b', (runAdd v pos).2) ∧ Holds b' (runAdd v pos).1 := by
  have hlen := run_length_le hv
  obtain ⟨hb1, hb2⟩ := ibs_bounds hv pos
  unfold runAddBuf runAdd
  rw [h.vals]
  generalize interleavedBinarySearch v pos = z at *
  dsimp only
  by_cases hz : z ≥ 0
  · rw [if_pos hz, if_pos hz]; exact ⟨b, rfl, h⟩
  · rw [if_neg hz, if_neg hz]
    obtain ⟨hb3, hb4⟩ := hb2 (by omega)
    by_cases hz2 : -z - 2 ≥ 0
    · rw [if_pos hz2, if_pos hz2]
      have hi : (-z - 2).toNat < v.length := by omega
      rw [show (-z - 2 + 1).toNat = (-z - 2).toNat + 1 by omega]
      generalize (-z - 2).toNat = i at *
      rw [h.rd hi, ok_bind, h.next]
      by_cases c1 : (pos : Int) - (rdR v i).1 ≤ (rdR v i).2
      · rw [if_pos c1, if_pos c1]; exact ⟨b, rfl, h⟩
      · rw [if_neg c1, if_neg c1, ok_bind]
        by_cases c3 : i + 1 < v.length
        · rw [if_pos c3]
          by_cases c2 : (pos : Int) - (rdR v i).1 = (rdR v i).2 + 1
          · rw [if_pos c2, if_pos c2]
            dsimp only
            by_cases c4 : (rdR v (i + 1)).1 = pos + 1
            · rw [if_pos c4, if_pos ⟨c3, c4⟩]
              obtain ⟨b1, e1, g1, _⟩ := h.put hi ((rdR v i).1, u16 (((rdR v (i + 1)).1 : Int) + (rdR v (i + 1)).2 - (rdR v i).1))
              rw [e1, ok_bind, Nat.mod_eq_of_lt (by omega)]
              obtain ⟨b2, e2, g2, _⟩ := g1.recover (i := i + 1) (by simpa using c3)
              rw [e2, ok_bind]
              exact ⟨b2, rfl, g2⟩
            · rw [if_neg c4, if_neg (fun q => c4 q.2)]
              obtain ⟨b1, e1, g1, _⟩ := h.put hi ((rdR v i).1, ((rdR v i).2 + 1) % 65536)
              rw [e1, ok_bind]
              exact ⟨b1, rfl, g1⟩
          · rw [if_neg c2, if_neg c2]
            dsimp only
            by_cases c4 : (rdR v (i + 1)).1 = pos + 1
            · rw [if_pos c4, if_pos ⟨c3, c4⟩]
              obtain ⟨b1, e1, g1, _⟩ := h.put c3 (pos, ((rdR v (i + 1)).2 + 1) % 65536)
              rw [e1, ok_bind]
              exact ⟨b1, rfl, g1⟩
            · rw [if_neg c4, if_neg (fun q => c4 q.2)]
              obtain ⟨b1, e1, g1⟩ := h.insert hf (i := i + 1) (by omega) (by omega) (pos, 0)
              rw [e1, ok_bind]
              exact ⟨b1, rfl, g1⟩
        · rw [if_neg c3]
          by_cases c2 : (pos : Int) - (rdR v i).1 = (rdR v i).2 + 1
          · rw [if_pos c2, if_pos c2, if_neg (fun q => c3 q.1)]
            dsimp only
            obtain ⟨b1, e1, g1, _⟩ := h.put hi ((rdR v i).1, ((rdR v i).2 + 1) % 65536)
            rw [e1, ok_bind]
            exact ⟨b1, rfl, g1⟩
          · rw [if_neg c2, if_neg c2, if_neg (fun q => c3 q.1)]
            dsimp only
            obtain ⟨b1, e1, g1⟩ := h.insert hf (i := i + 1) (by omega) (by omega) (pos, 0)
            rw [e1, ok_bind]
            exact ⟨b1, rfl, g1⟩
    · rw [if_neg hz2, if_neg hz2, h.next, ok_bind]
      by_cases c3 : 0 < v.length
      · rw [if_pos c3]
        dsimp only
        by_cases c4 : (rdR v 0).1 = pos + 1
        · rw [if_pos c4, if_pos ⟨c3, c4⟩]
          obtain ⟨b1, e1, g1, _⟩ := h.put c3 (u16 (((rdR v 0).1 : Int) - 1), ((rdR v 0).2 + 1) % 65536)
          rw [e1, ok_bind]
          exact ⟨b1, rfl, g1⟩
        · rw [if_neg c4, if_neg (fun q => c4 q.2)]
          obtain ⟨b1, e1, g1⟩ := h.insert hf (i := (-z - 2 + 1).toNat) (by omega) (by omega) (pos, 0)
          rw [e1, ok_bind]
          exact ⟨b1, rfl, g1⟩
      · rw [if_neg c3, if_neg (fun q => c3 q.1)]
        dsimp only
        obtain ⟨b1, e1, g1⟩ := h.insert hf (i := (-z - 2 + 1).toNat) (by omega) (by omega) (pos, 0)
        rw [e1, ok_bind]
        exact ⟨b1, rfl, g1⟩

theorem runRemoveBuf_spec {fresh : Nat → List Rle} (hf : Fresh fresh) {b : RunBuf} {v : List Rle} (h : Holds b v) (hv : RunOK v) (pos : Nat) :
    ∃ b', runRemoveBuf fresh b pos = .ok (b', (runRemove v pos).2) ∧ Holds b' (runRemove v pos).1 := by
  have hlen := run_length_le hv
  obtain ⟨hb1, hb2⟩ := ibs_bounds hv pos
  unfold runRemoveBuf runRemove
  rw [h.vals]
  generalize interleavedBinarySearch v pos = z at *
  dsimp only
  by_cases hz : z ≥ 0
  · rw [if_pos hz, if_pos hz]
    have hi := hb1 hz
    generalize z.toNat = i at *
    rw [h.rd hi, ok_bind]
    by_cases c1 : (rdR v i).2 = 0
    · rw [if_pos c1, if_pos c1, Nat.mod_eq_of_lt (by omega)]
      obtain ⟨b1, e1, g1, _⟩ := h.recover hi
      rw [e1, ok_bind]
      exact ⟨b1, rfl, g1⟩
    · rw [if_neg c1, if_neg c1]
      obtain ⟨b1, e1, g1, _⟩ := h.put hi (((rdR v i).1 + 1) % 65536, u16 (((rdR v i).2 : Int) - 1))
      rw [e1, ok_bind]
      exact ⟨b1, rfl, g1⟩
  · rw [if_neg hz, if_neg hz]
    obtain ⟨hb3, hb4⟩ := hb2 (by omega)
    by_cases hz2 : -z - 2 ≥ 0
    · rw [if_pos hz2, if_pos hz2]
      have hi : (-z - 2).toNat < v.length := by omega
      generalize (-z - 2).toNat = i at *
      rw [h.rd hi, ok_bind]
      by_cases c1 : (pos : Int) - (rdR v i).1 < (rdR v i).2
      · rw [if_pos c1, if_pos c1]
        obtain ⟨b1, e1, g1, _⟩ := h.put hi ((rdR v i).1, u16 ((pos : Int) - (rdR v i).1 - 1))
        rw [e1, ok_bind]
        obtain ⟨b2, e2, g2⟩ := g1.insert hf (i := i + 1) (by simp; omega) (by simp; omega)
          ((pos + 1) % 65536, u16 (((rdR v i).2 : Int) - ((pos : Int) - (rdR v i).1) - 1))
        rw [e2, ok_bind]
        exact ⟨b2, rfl, g2⟩
      · rw [if_neg c1, if_neg c1]
        by_cases c2 : (pos : Int) - (rdR v i).1 = (rdR v i).2
        · rw [if_pos c2, if_pos c2]
          obtain ⟨b1, e1, g1, _⟩ := h.put hi ((rdR v i).1, u16 (((rdR v i).2 : Int) - 1))
          rw [e1, ok_bind]
          exact ⟨b1, rfl, g1⟩
        · rw [if_neg c2, if_neg c2]; exact ⟨b, rfl, h⟩
    · rw [if_neg hz2, if_neg hz2]; exact ⟨b, rfl, h⟩

/-! ### Ranges -/

theorem runAddRangeBuf_spec {fresh : Nat → List Rle} (hf : Fresh fresh) {b : RunBuf} {v : List Rle} (h : Holds b v) (hv : v.length < 65536)
    (mn mx nl ng : Nat) (hn : nl + ng ≤ v.length) :
    ∃ b', runAddRangeBuf fresh b mn mx nl ng = .ok b' ∧ Holds b' (runAddRangeNruns v mn mx nl ng) := by
  unfold runAddRangeBuf runAddRangeNruns
  rw [h.n]
  dsimp only
  by_cases c : v.length - nl - ng = 0
  · rw [if_pos c, if_pos c]
    exact h.insert hf (by omega) hv _
  · rw [if_neg c, if_neg c, h.rd (by omega), ok_bind, h.rd (by omega), ok_bind]
    generalize ((if (rdR v nl).1 < mn then (rdR v nl).1 else mn) % 65536, u16 (((if (rdR v (nl + (v.length - nl - ng) - 1)).1 +
      (rdR v (nl + (v.length - nl - ng) - 1)).2 > mx then (rdR v (nl + (v.length - nl - ng) - 1)).1 + (rdR v (nl + (v.length - nl - ng) - 1)).2
      else mx : Nat) : Int) - ((if (rdR v nl).1 < mn then (rdR v nl).1 else mn : Nat) : Int))) = q
    obtain ⟨b1, e1, g1, _⟩ := h.put (i := nl) (by omega) q
    rw [e1, ok_bind, g1.n, List.length_set]
    have hl := g1.le
    rw [List.length_set] at hl
    rw [mvRuns_eq (by omega) (by omega), ok_bind]
    refine ⟨_, rfl, ?_⟩
    obtain ⟨rest, rfl⟩ := g1
    refine ⟨(v.set nl q ++ rest).drop (nl + 1 + ng), ?_⟩
    congr 1
    · simp; omega
    · dsimp only
      rw [List.take_append_of_le_length (by simp; omega), List.drop_append_of_le_length (by simp),
        List.take_append_of_le_length (by simp; omega), List.take_of_length_le (l := List.drop _ _) (by simp; omega)]
      have e2 : List.take (nl + 1) (v.set nl q) = v.take nl ++ [q] := by
        rw [List.take_add_one, List.take_set_of_le (by omega)]
        simp [List.getElem?_set, show nl < v.length by omega]
      have e3 : List.drop (v.length - ng) (v.set nl q) = v.drop (v.length - ng) := by
        rw [List.drop_set_of_lt (by omega)]
      rw [e2, e3]
      simp

theorem Holds.between {b : RunBuf} {v : List Rle} (h : Holds b v) {first last : Int} (h0 : 0 ≤ first) (hl : last < v.length) :
    ∃ b', removeBetween b first last = .ok b' ∧ Holds b' (if first ≤ last then v.take first.toNat ++ v.drop (last + 1).toNat else v) := by
  unfold removeBetween
  split
  · rename_i hle
    obtain ⟨rest, rfl⟩ := h
    rw [shiftTailBuf]
    dsimp only
    rw [mvRuns_eq (by simp <;> omega) (by simp <;> omega), ok_bind]
    refine ⟨_, rfl, (v ++ rest).drop (v.length - (v.length - (last + 1).toNat) - (last - first + 1).toNat + (v.length - (last + 1).toNat)), ?_⟩
    congr 1
    · simp; omega
    · rw [show v.length - (v.length - (last + 1).toNat) - (last - first + 1).toNat = first.toNat by omega,
        show v.length - (v.length - (last + 1).toNat) = (last + 1).toNat by omega,
        List.take_append_of_le_length (by omega), List.drop_append_of_le_length (by omega),
        List.take_append_of_le_length (by simp), List.take_of_length_le (l := List.drop _ _) (by simp)]
  · exact ⟨b, rfl, h⟩

theorem Holds.right {b : RunBuf} {v : List Rle} (h : Holds b v) (mx : Nat) {last : Int} (hl : last < v.length) :
    ∃ b', removeRight b mx last = .ok (b', if last ≥ 0 then
        (if ((rdR v last.toNat).1 + (rdR v last.toNat).2) % 65536 > mx then last - 1 else last) else (-last - 1) - 1) ∧
      Holds b' (if last ≥ 0 ∧ ((rdR v last.toNat).1 + (rdR v last.toNat).2) % 65536 > mx then
        v.set last.toNat ((mx + 1) % 65536, u16 (((((rdR v last.toNat).1 + (rdR v last.toNat).2) % 65536 : Nat) : Int) - (mx + 1))) else v) := by
  unfold removeRight
  by_cases c : last ≥ 0
  · rw [if_pos c, if_pos c, h.rd (by omega), ok_bind]
    by_cases c2 : ((rdR v last.toNat).1 + (rdR v last.toNat).2) % 65536 > mx
    · dsimp only
      rw [if_pos c2, if_pos c2, if_pos ⟨c, c2⟩]
      obtain ⟨b1, e1, g1, _⟩ := h.put (i := last.toNat) (by omega)
        ((mx + 1) % 65536, u16 (((((rdR v last.toNat).1 + (rdR v last.toNat).2) % 65536 : Nat) : Int) - (mx + 1)))
      rw [e1, ok_bind]
      exact ⟨b1, rfl, g1⟩
    · dsimp only
      rw [if_neg c2, if_neg c2, if_neg (fun q => c2 q.2)]
      exact ⟨b, rfl, h⟩
  · rw [if_neg c, if_neg c, if_neg (fun q => c q.1)]
    exact ⟨b, rfl, h⟩

theorem findRun_bounds {v : List Rle} (h : RunOK v) (k : Nat) :
    (0 ≤ rle16FindRun v k → (rle16FindRun v k).toNat < v.length) ∧
    (rle16FindRun v k < 0 → 0 ≤ - rle16FindRun v k - 1 ∧ (- rle16FindRun v k - 1).toNat ≤ v.length) := by
  obtain ⟨A, B, rfl, hA, hB⟩ := split_end h k
  rw [findRun_eq h hA hB]
  simp only [List.length_append]
  split <;> constructor <;> intro hh <;> omega

theorem runRemoveRangeBuf_spec {fresh : Nat → List Rle} (hf : Fresh fresh) {b : RunBuf} {v : List Rle} (h : Holds b v) (hv : RunOK v)
    (mn mx : Nat) : ∃ b', runRemoveRangeBuf fresh b mn mx = .ok b' ∧ Holds b' (runRemoveRange v mn mx) := by
  have hlen := run_length_le hv
  obtain ⟨f1, f2⟩ := findRun_bounds hv (mn % 65536)
  obtain ⟨l1, l2⟩ := findRun_bounds hv (mx % 65536)
  unfold runRemoveRangeBuf runRemoveRange
  rw [h.vals]
  generalize rle16FindRun v (mn % 65536) = first at *
  generalize rle16FindRun v (mx % 65536) = last at *
  dsimp only
  have hlast : last < v.length := by omega
  have hlast2 : ∀ (P : Prop) [Decidable P], (if last ≥ 0 then (if P then last - 1 else last) else (-last - 1) - 1) < (v.length : Int) := by
    intro P _; split
    · split <;> omega
    · omega
  by_cases c : first ≥ 0
  · have hi := f1 c
    rw [if_pos c, h.rd hi, ok_bind]
    by_cases c2 : mn > (rdR v first.toNat).1 ∧ mx < (rdR v first.toNat).1 + (rdR v first.toNat).2
    · rw [if_pos c2, if_pos ⟨c, c2⟩]
      obtain ⟨b1, e1, g1⟩ := h.insert hf (i := first.toNat + 1) (by omega) (by omega)
        ((mx + 1) % 65536, u16 (((rdR v first.toNat).1 : Int) + (rdR v first.toNat).2 - (mx + 1)))
      rw [e1, ok_bind]
      obtain ⟨b2, e2, g2, _⟩ := g1.put (i := first.toNat) (by simp [insertRunAt]; omega)
        ((rdR v first.toNat).1, u16 ((mn : Int) - 1 - (rdR v first.toNat).1))
      refine ⟨b2, e2, ?_⟩
      have e3 : ∀ (i : Nat) (a q : Rle), i < v.length → (insertRunAt v (i + 1) q).set i a = insertRunAt (v.set i a) (i + 1) q := by
        intro i a q hi
        simp only [insertRunAt]
        rw [List.set_append_left _ _ (by simp; omega), List.take_set, List.drop_set_of_lt (by omega)]
      rw [← e3 _ _ _ hi]
      exact g2
    · have n1 : ¬ (first ≥ 0 ∧ mn > (rdR v first.toNat).1 ∧ mx < (rdR v first.toNat).1 + (rdR v first.toNat).2) := fun q => c2 q.2
      rw [if_neg c2, if_neg n1, if_pos c]
      by_cases c3 : mn > (rdR v first.toNat).1
      · have n2 : first ≥ 0 ∧ mn > (rdR v first.toNat).1 := ⟨c, c3⟩
        rw [if_pos c3, if_pos n2, if_pos c3]
        obtain ⟨b1, e1, g1, _⟩ := h.put hi ((rdR v first.toNat).1, u16 ((mn : Int) - 1 - (rdR v first.toNat).1))
        rw [e1, ok_bind]
        obtain ⟨b2, e2, g2⟩ := g1.right mx (last := last) (by simpa using hlast)
        rw [e2, ok_bind]
        exact g2.between (by omega) (by
          refine Int.lt_of_lt_of_le (hlast2 _) ?_
          split <;> simp)
      · have n2 : ¬ (first ≥ 0 ∧ mn > (rdR v first.toNat).1) := fun q => c3 q.2
        rw [if_neg c3, if_neg n2, if_neg c3]
        obtain ⟨b2, e2, g2⟩ := h.right mx (last := last) hlast
        rw [e2, ok_bind]
        exact g2.between c (by
          refine Int.lt_of_lt_of_le (hlast2 _) ?_
          split <;> simp)
  · have n1 : ¬ (first ≥ 0 ∧ mn > (rdR v first.toNat).1 ∧ mx < (rdR v first.toNat).1 + (rdR v first.toNat).2) := fun q => c q.1
    have n2 : ¬ (first ≥ 0 ∧ mn > (rdR v first.toNat).1) := fun q => c q.1
    rw [if_neg c, if_neg n1, if_neg c, if_neg n2]
    obtain ⟨b2, e2, g2⟩ := h.right mx (last := last) hlast
    rw [e2, ok_bind]
    exact g2.between (f2 (by omega)).1 (by
      refine Int.lt_of_lt_of_le (hlast2 _) ?_
      split <;> simp)

end CRoaring
