import Verif.Lemmas.RunMem3
/-! Run containers on memory: negation, also in place, and conversions. -/
set_option linter.unusedSimpArgs false
set_option linter.unusedVariables false
namespace CRoaring
open Spec

/-! ### The number of runs after a range is flipped -/

/-- Whether membership changes at `x`, where nothing comes before 0. -/
def change (s : NSet) : Nat → Nat
  | 0 => if s 0 then 1 else 0
  | x + 1 => if s x = s (x + 1) then 0 else 1

/-- The number of changes below `m`. -/
def changes (s : NSet) : Nat → Nat
  | 0 => 0
  | m + 1 => changes s m + change s m

theorem runEnds_succ (s : NSet) (m : Nat) : runEnds (m + 1) s = runEnds m s + if s m && !s (m + 1) then 1 else 0 := by
  rw [runEnds, runEnds, card_succ]

theorem changes_ends (s : NSet) (m : Nat) : changes s (m + 1) = 2 * runEnds m s + if s m then 1 else 0 := by
  induction m with
  | zero =>
    have : runEnds 0 s = 0 := rfl
    rw [this]; simp [changes, change]
  | succ m ih =>
    rw [changes, ih, runEnds_succ, change]
    cases s m <;> cases s (m + 1) <;> simp <;> omega

theorem change_le (s : NSet) (x : Nat) : change s x ≤ 1 := by
  cases x <;> simp only [change] <;> split <;> omega

theorem change_flip {s t : NSet} {a b : Nat} (hab : a < b) (ht : ∀ x, t x = (s x != decide (a ≤ x ∧ x < b))) (x : Nat) :
    change t x = if x = a ∨ x = b then 1 - change s x else change s x := by
  cases x with
  | zero =>
    by_cases h : a = 0
    · have e : t 0 = !s 0 := by rw [ht, decide_eq_true (by omega)]; cases s 0 <;> rfl
      rw [if_pos (by omega), change, change, e]
      cases s 0 <;> simp
    · have e : t 0 = s 0 := by rw [ht, decide_eq_false (by omega)]; cases s 0 <;> rfl
      have hn : ¬ (0 = a ∨ 0 = b) := by omega
      rw [if_neg hn, change, change, e]
  | succ x =>
    rw [change, change]
    by_cases h1 : x + 1 = a
    · have e1 : t x = s x := by rw [ht, decide_eq_false (by omega)]; cases s x <;> rfl
      have e2 : t (x + 1) = !s (x + 1) := by rw [ht, decide_eq_true (by omega)]; cases s (x + 1) <;> rfl
      rw [if_pos (Or.inl h1), e1, e2]
      cases s x <;> cases s (x + 1) <;> simp
    · by_cases h2 : x + 1 = b
      · have e1 : t x = !s x := by rw [ht, decide_eq_true (by omega)]; cases s x <;> rfl
        have e2 : t (x + 1) = s (x + 1) := by rw [ht, decide_eq_false (by omega)]; cases s (x + 1) <;> rfl
        rw [if_pos (Or.inr h2), e1, e2]
        cases s x <;> cases s (x + 1) <;> simp
      · have hn : ¬ (x + 1 = a ∨ x + 1 = b) := by omega
        rw [if_neg hn, ht, ht, show decide (a ≤ x ∧ x < b) = decide (a ≤ x + 1 ∧ x + 1 < b) from decide_eq_decide.2 (by omega)]
        cases decide (a ≤ x + 1 ∧ x + 1 < b) <;> cases s x <;> cases s (x + 1) <;> simp

theorem changes_flip {s t : NSet} {a b : Nat} (hab : a < b) (ht : ∀ x, t x = (s x != decide (a ≤ x ∧ x < b))) (m : Nat) :
    changes t m + (if a < m then 2 * change s a else 0) + (if b < m then 2 * change s b else 0) =
      changes s m + (if a < m then 1 else 0) + (if b < m then 1 else 0) := by
  induction m with
  | zero => simp [changes]
  | succ m ih =>
    have h1 := change_le s m
    rw [changes, changes, change_flip hab ht]
    by_cases ca : m = a
    · subst ca
      rw [if_pos (Or.inl rfl), if_pos (by omega), if_neg (by omega), if_pos (by omega), if_neg (by omega)]
      rw [if_neg (by omega), if_neg (by omega), if_neg (by omega), if_neg (by omega)] at ih
      omega
    · by_cases cb : m = b
      · subst cb
        rw [if_pos (Or.inr rfl), if_pos (by omega), if_pos (by omega), if_pos (by omega), if_pos (by omega)]
        rw [if_pos (by omega), if_neg (by omega), if_pos (by omega), if_neg (by omega)] at ih
        omega
      · rw [if_neg (by omega)]
        have ea : (a < m + 1) = (a < m) := propext (by omega)
        have eb : (b < m + 1) = (b < m) := propext (by omega)
        simp only [ea, eb]
        omega

/-- Flipping a range that begins or ends where membership changes does not add a run. -/
theorem flip_runs {rs os : List Rle} (h : RunOK rs) (ho : RunOK os) {a b : Nat} (hab : a < b) (hb : b ≤ 65536)
    (ht : ∀ x, runHas os x = (runHas rs x != decide (a ≤ x ∧ x < b))) (hch : change (runHas rs) a = 1 ∨ change (runHas rs) b = 1) :
    os.length ≤ rs.length := by
  have h1 := changes_flip hab ht 65537
  rw [if_pos (by omega), if_pos (by omega), if_pos (by omega), if_pos (by omega), changes_ends, changes_ends, ← runLength_eq h,
    ← runLength_eq ho] at h1
  have n1 : runHas rs 65536 = false := by
    cases e : runHas rs 65536 with
    | false => rfl
    | true => have := h.has_lt e; omega
  have n2 : runHas os 65536 = false := by
    cases e : runHas os 65536 with
    | false => rfl
    | true => have := ho.has_lt e; omega
  rw [n1, n2] at h1
  simp at h1
  have := change_le (runHas rs) a
  have := change_le (runHas rs) b
  omega

/-! ### Negation -/

theorem negationSkip_spec {b : RunBuf} {rs : List Rle} (h : Holds b rs) (a : Nat) :
    ∀ fuel k, rs.length - k < fuel → k ≤ rs.length →
      negationSkip b.mem b.n a fuel k = .ok (k + ((rs.drop k).takeWhile fun (r : Rle) => decide (r.1 < a)).length) := by
  intro fuel
  induction fuel with
  | zero => intro k hk; omega
  | succ fuel ih =>
    intro k hk hle
    rw [negationSkip, h.n]
    by_cases c : k < rs.length
    · rw [if_pos c, h.rd c, ok_bind, drop_rdR c]
      by_cases c2 : (rdR rs k).1 < a
      · rw [if_pos c2, ← h.n, ih _ (by omega) (by omega), List.takeWhile_cons_of_pos (by simpa using c2)]
        simp; omega
      · rw [if_neg c2, List.takeWhile_cons_of_neg (by simpa using c2)]
        simp
    · rw [if_neg c, List.drop_eq_nil_of_le (by omega)]; simp

theorem takeWhile_take (p : Rle → Bool) (rs : List Rle) : rs.takeWhile p = rs.take (rs.takeWhile p).length := by
  induction rs with
  | nil => rfl
  | cons r rs ih =>
    by_cases h : p r = true
    · rw [List.takeWhile_cons_of_pos h]; simpa using ih
    · rw [List.takeWhile_cons_of_neg h]; simp

theorem dropWhile_drop (p : Rle → Bool) (rs : List Rle) : rs.dropWhile p = rs.drop (rs.takeWhile p).length := by
  induction rs with
  | nil => rfl
  | cons r rs ih =>
    by_cases h : p r = true
    · rw [List.takeWhile_cons_of_pos h, List.dropWhile_cons_of_pos h]; simpa using ih
    · rw [List.takeWhile_cons_of_neg h, List.dropWhile_cons_of_neg h]; simp

/-- The runs `run_container_negation_range` produces. -/
def runNegL (rs : List Rle) (a b : Nat) : List Rle :=
  ((rs.dropWhile fun (r : Rle) => decide (r.1 < a)).foldl (fun acc (r : Rle) => smartAppend acc r.1 r.2)
    (smartAppend (rs.takeWhile fun (r : Rle) => decide (r.1 < a)).reverse (a % 65536) (u16 ((b : Int) - a - 1)))).reverse

theorem runNegL_ok {rs : List Rle} (h : RunOK rs) {a b : Nat} (hab : a < b) (hb : b ≤ 65536) :
    RunOK (runNegL rs a b) ∧ ∀ x, runHas (runNegL rs a b) x = (runHas rs x != decide (a ≤ x ∧ x < b)) := by
  unfold runNegL
  rw [Nat.mod_eq_of_lt (show a < 65536 by omega), u16_eq (n := b - a - 1) (by omega) (by omega)]
  have he := runNeg_eq (a, b - a - 1) rs [] (by simpa using h)
  rw [List.append_nil] at he
  simp only at he
  rw [he]
  have hsp := runXorLoop_spec [(a, b - a - 1)] rs [] 0 0 (runOK_cons.2 ⟨by simp; omega, by simp, RunOK.nil⟩) h.wrun
    RunOK.nil (by simp) (by simp) (by simp) (by simp)
  refine ⟨hsp.1, fun x => ?_⟩
  rw [runHas_reverse, hsp.2]
  simp only [runHas_cons]
  have e : decide (a ≤ x ∧ x ≤ a + (b - a - 1)) = decide (a ≤ x ∧ x < b) := by
    apply decide_eq_decide.2; omega
  rw [e, show runHas [] x = false from rfl]
  cases runHas rs x <;> cases decide (a ≤ x ∧ x < b) <;> rfl

theorem negationAppend_spec {src : RunBuf} {rs : List Rle} (h : Holds src rs) {M : Nat} {R : List Rle} :
    ∀ fuel k b acc, rs.length - k < fuel → k ≤ rs.length → Acc b acc (rs.length - k) M R →
      ∃ b', negationAppend src fuel k b = .ok b' ∧
        Holds b' ((rs.drop k).foldl (fun acc (r : Rle) => smartAppend acc r.1 r.2) acc).reverse := by
  intro fuel
  induction fuel with
  | zero => intro k b acc hk; omega
  | succ fuel ih =>
    intro k b acc hk hle hb
    rw [negationAppend, h.n]
    by_cases c : k < rs.length
    · rw [if_pos c, h.rd c, ok_bind, drop_rdR c, List.foldl_cons]
      obtain ⟨b', e, g⟩ := smartAppendBuf_spec (m := rs.length - (k + 1)) (by rwa [show rs.length - (k + 1) + 1 = rs.length - k by omega])
        (rdR rs k).1 (rdR rs k).2
      rw [e, ok_bind]
      exact ih _ _ _ (by omega) (by omega) g
    · rw [if_neg c, List.drop_eq_nil_of_le (by omega)]
      exact ⟨b, rfl, hb.holds⟩

theorem runNegationBuf_spec {fresh : Nat → List Rle} (hf : Fresh fresh) {src : RunBuf} {rs : List Rle} (h : Holds src rs) (a b : Nat) :
    ∃ o, runNegationBuf fresh src a b = .ok o ∧ Holds o (runNegL rs a b) := by
  have htl : (rs.takeWhile fun (r : Rle) => decide (r.1 < a)).length ≤ rs.length := (List.takeWhile_sublist _).length_le
  have hle := h.le
  rw [runNegationBuf, negationSkip_spec h a _ _ (by rw [h.n]; omega) (by omega), ok_bind, Nat.zero_add, List.drop_zero]
  rw [getRuns_eq (by omega), ok_bind]
  have e1 : List.take (rs.takeWhile fun (r : Rle) => decide (r.1 < a)).length (List.drop 0 src.mem) =
      rs.takeWhile fun (r : Rle) => decide (r.1 < a) := by
    obtain ⟨rest, rfl⟩ := h
    rw [List.drop_zero, List.take_append_of_le_length htl, ← takeWhile_take]
  have hcap : (runCreateBuf fresh (src.n + 1)).mem.length = rs.length + 1 := by
    show (fresh (src.n + 1)).length = _
    rw [hf, h.n]
  rw [e1, cpRuns_eq (by omega), ok_bind]
  simp only [List.take_zero, List.nil_append, Nat.zero_add]
  generalize (runCreateBuf fresh (src.n + 1)).mem = mem at *
  have hacc : Acc ⟨(rs.takeWhile fun (r : Rle) => decide (r.1 < a)).length,
      (rs.takeWhile fun (r : Rle) => decide (r.1 < a)) ++ mem.drop (rs.takeWhile fun (r : Rle) => decide (r.1 < a)).length⟩
      (rs.takeWhile fun (r : Rle) => decide (r.1 < a)).reverse
      (rs.length - (rs.takeWhile fun (r : Rle) => decide (r.1 < a)).length + 1) (rs.length + 1) [] := by
    refine ⟨⟨mem.drop (rs.takeWhile fun (r : Rle) => decide (r.1 < a)).length, by simp⟩, by simp; omega, by simp; omega, ?_⟩
    apply List.drop_eq_nil_of_le
    simp; omega
  obtain ⟨b', e, g⟩ := smartAppendBuf_spec hacc (a % 65536) (u16 ((b : Int) - a - 1))
  rw [e, ok_bind]
  obtain ⟨o, e2, g2⟩ := negationAppend_spec h (src.n + 1) _ b' _ (by rw [h.n]; omega) htl g
  refine ⟨o, e2, ?_⟩
  rw [← dropWhile_drop] at g2
  exact g2

/-- `smartAppendBuf` writes at most one place behind the runs, and only when the result needs it. -/
theorem smartAppendBuf_fit {b : RunBuf} {acc : List Rle} (h : Holds b acc.reverse) (s l : Nat)
    (hfit : (smartAppend acc s l).length ≤ b.mem.length) :
    ∃ b', smartAppendBuf b s l = .ok b' ∧ Holds b' (smartAppend acc s l).reverse ∧
      b'.mem.drop (acc.length + 1) = b.mem.drop (acc.length + 1) ∧ b'.mem.length = b.mem.length := by
  have hn : b.n = acc.length := by rw [h.n]; simp
  have hle := h.le
  rw [List.length_reverse] at hle
  have hpush : ∀ (b : RunBuf) (acc : List Rle) r, Holds b acc.reverse → acc.length < b.mem.length →
      ∃ b', b.push r = .ok b' ∧ Holds b' (r :: acc).reverse ∧ b'.mem.drop (acc.length + 1) = b.mem.drop (acc.length + 1) ∧
        b'.mem.length = b.mem.length := by
    intro b acc r h hlt
    have hn : b.n = acc.length := by rw [h.n]; simp
    obtain ⟨b', e, g, l⟩ := h.push (by simpa using hlt) r
    refine ⟨b', e, by simpa using g, ?_, l⟩
    rw [push_eq (by omega)] at e
    injection e with e
    rw [← e]
    exact List.drop_set_of_lt (by omega)
  have hset : ∀ (b : RunBuf) p acc r, Holds b (p :: acc).reverse →
      ∃ b', b.put (b.n - 1) r = .ok b' ∧ Holds b' (r :: acc).reverse ∧ b'.mem.drop (acc.length + 1) = b.mem.drop (acc.length + 1) ∧
        b'.mem.length = b.mem.length := by
    intro b p acc r h
    have hn : b.n = acc.length + 1 := by rw [h.n]; simp
    have hle := h.le
    simp at hle
    obtain ⟨b', e, g, l⟩ := h.put (i := acc.length) (by simp) r
    rw [hn, Nat.add_sub_cancel]
    refine ⟨b', e, ?_, ?_, l⟩
    · have : (p :: acc).reverse.set acc.length r = (r :: acc).reverse := by
        simp [List.set_append_right]
      rwa [this] at g
    · rw [put_eq (by omega)] at e
      injection e with e
      rw [← e]
      exact List.drop_set_of_lt (by omega)
  have hdrop : ∀ {x y : List Rle} {k : Nat}, x.drop k = y.drop k → x.drop (k + 1) = y.drop (k + 1) := by
    intro x y k e
    rw [← List.drop_drop, ← List.drop_drop, e]
  rw [smartAppend.eq_def] at hfit ⊢
  rw [smartAppendBuf]
  cases acc with
  | nil =>
    rw [if_pos (by simpa using hn)]
    exact hpush b [] _ h (by simp at hfit ⊢; omega)
  | cons p acc =>
    have hrd : rdRun b.mem (b.n - 1) = .ok p := by
      rw [hn, List.length_cons, Nat.add_sub_cancel, h.rd (by simp)]
      simp [rdR, List.getD]
    have hkeep : ∀ r, ∃ b', b.put (b.n - 1) r = .ok b' ∧ Holds b' (r :: acc).reverse ∧
        b'.mem.drop ((p :: acc).length + 1) = b.mem.drop ((p :: acc).length + 1) ∧ b'.mem.length = b.mem.length := by
      intro r
      obtain ⟨b', e, g, d, l⟩ := hset b p acc r h
      exact ⟨b', e, g, hdrop d, l⟩
    rw [if_neg (by simp at hn; omega), hrd, ok_bind]
    dsimp only at hfit ⊢
    split
    · rename_i c
      rw [if_pos c] at hfit
      exact hpush b (p :: acc) _ h (by simp at hfit ⊢; omega)
    · rename_i c
      rw [if_neg c] at hfit
      split
      · exact hkeep _
      · rename_i c2
        rw [if_neg c2] at hfit
        split
        · split
          · exact hkeep _
          · split
            · exact hkeep _
            · refine ⟨_, rfl, ?_, rfl, rfl⟩
              obtain ⟨rest, e⟩ := h
              subst e
              exact ⟨p :: rest, by simp⟩
        · rename_i c3
          rw [if_neg c3] at hfit
          obtain ⟨b1, e1, g1, d1, l1⟩ := hset b p acc (p.1, u16 ((s : Int) - p.1 - 1)) h
          rw [e1, ok_bind]
          split
          · rename_i c4
            rw [if_pos c4] at hfit
            obtain ⟨b2, e2, g2, d2, l2⟩ := hpush b1 _ (u16 ((s + l + 1 : Nat) : Int), u16 (((p.1 + p.2 + 1 : Nat) : Int) - ((s + l + 1 : Nat) : Int) - 1)) g1
              (by simp at hfit ⊢; omega)
            exact ⟨b2, e2, g2, by rw [show (p :: acc).length = ((p.1, u16 ((s : Int) - p.1 - 1)) :: acc).length from rfl, d2]; exact hdrop d1, by omega⟩
          · rename_i c4
            rw [if_neg c4] at hfit
            split
            · rename_i c5
              rw [if_pos c5] at hfit
              obtain ⟨b2, e2, g2, d2, l2⟩ := hpush b1 _ (u16 ((p.1 + p.2 + 1 : Nat) : Int), u16 (((s + l + 1 : Nat) : Int) - ((p.1 + p.2 + 1 : Nat) : Int) - 1)) g1
                (by simp at hfit ⊢; omega)
              exact ⟨b2, e2, g2, by rw [show (p :: acc).length = ((p.1, u16 ((s : Int) - p.1 - 1)) :: acc).length from rfl, d2]; exact hdrop d1, by omega⟩
            · exact ⟨b1, rfl, g1, hdrop d1, l1⟩

theorem foldl_smart_length (rs acc : List Rle) : (rs.foldl (fun acc (r : Rle) => smartAppend acc r.1 r.2) acc).length ≤ acc.length + rs.length := by
  induction rs generalizing acc with
  | nil => simp
  | cons r rs ih =>
    rw [List.foldl_cons]
    have := ih (smartAppend acc r.1 r.2)
    have := smartAppend_length acc r.1 r.2
    simp; omega

theorem negationShift_spec {rs : List Rle} {rest : List Rle} :
    ∀ fuel k buffered b acc, rs.length - k < fuel → k ≤ rs.length → Holds b acc.reverse → acc.length ≤ k + 1 →
      (k < rs.length → buffered = rdR rs k) → b.mem.drop (k + 1) = (rs ++ rest).drop (k + 1) → b.mem.length = (rs ++ rest).length →
      ((rs.drop k).foldl (fun acc (r : Rle) => smartAppend acc r.1 r.2) acc).length ≤ b.mem.length →
      ∃ b', negationShift rs.length fuel k buffered b = .ok b' ∧
        Holds b' ((rs.drop k).foldl (fun acc (r : Rle) => smartAppend acc r.1 r.2) acc).reverse := by
  intro fuel
  induction fuel with
  | zero => intro k buffered b acc hk; omega
  | succ fuel ih =>
    intro k buffered b acc hk hle h hacc hbuf hmem hlen hfin
    rw [negationShift]
    by_cases c : k < rs.length
    · rw [if_pos c]
      rw [drop_rdR c, List.foldl_cons] at hfin ⊢
      have hb := hbuf c
      have hl2 : b.mem.length = rs.length + rest.length := by rw [hlen]; simp
      have hlen1 := smartAppend_length acc (rdR rs k).1 (rdR rs k).2
      have hfit : (smartAppend acc (rdR rs k).1 (rdR rs k).2).length ≤ b.mem.length := by
        by_cases c2 : k + 1 < rs.length
        · omega
        · rw [List.drop_eq_nil_of_le (by omega)] at hfin
          exact hfin
      rw [hb]
      obtain ⟨b', e, g, d, l⟩ := smartAppendBuf_fit h (rdR rs k).1 (rdR rs k).2 hfit
      have hmem' : b'.mem.drop (k + 1 + 1) = (rs ++ rest).drop (k + 1 + 1) := by
        have e1 : b'.mem.drop (k + 1 + 1) = b.mem.drop (k + 1 + 1) := by
          have : k + 1 + 1 = (acc.length + 1) + (k + 1 - acc.length) := by omega
          rw [this, ← List.drop_drop (i := k + 1 - acc.length), ← List.drop_drop (i := k + 1 - acc.length), d]
        rw [e1, ← List.drop_drop, hmem, List.drop_drop]
      by_cases c2 : k + 1 < rs.length
      · rw [if_pos c2]
        have hrd : rdRun b.mem (k + 1) = .ok (rdR rs (k + 1)) := by
          have : b.mem[k + 1]? = (rs ++ rest)[k + 1]? := by
            have := congrArg (fun l => l[0]?) hmem
            simpa [List.getElem?_drop] using this
          rw [List.getElem?_append_left c2] at this
          simp [rdRun, this, rdR, List.getD, c2]
        rw [hrd, ok_bind, e, ok_bind]
        exact ih _ _ _ _ (by omega) (by omega) g (by omega) (fun _ => rfl) hmem' (by omega) (by rw [l]; exact hfin)
      · rw [if_neg c2, e, ok_bind]
        exact ih _ _ _ _ (by omega) (by omega) g (by omega) (fun q => absurd q c2) hmem' (by omega) (by rw [l]; exact hfin)
    · rw [if_neg c, List.drop_eq_nil_of_le (by omega)]
      exact ⟨b, rfl, h⟩

theorem change_contains {rs : List Rle} (h : RunOK rs) {x : Nat} (hx : x ≤ 65536) :
    change (runHas rs) x = if (decide (x > 0) && runContains rs ((x - 1) % 65536)) = (decide (x ≠ 65536) && runContains rs (x % 65536)) then 0 else 1 := by
  have n1 : runHas rs 65536 = false := by
    cases e : runHas rs 65536 with
    | false => rfl
    | true => have := h.has_lt e; omega
  cases x with
  | zero =>
    rw [runContains_eq h]
    simp [change]
    cases runHas rs 0 <;> simp
  | succ x =>
    rw [change, runContains_eq h, runContains_eq h, Nat.add_sub_cancel, Nat.mod_eq_of_lt (show x < 65536 by omega)]
    simp only [Nat.zero_lt_succ, gt_iff_lt, decide_true, Bool.true_and]
    by_cases c : x + 1 = 65536
    · rw [c, n1]; simp
    · rw [Nat.mod_eq_of_lt (by omega)]
      simp [c]

theorem negationNoRoom_false {src : RunBuf} {rs : List Rle} (h : Holds src rs) (hr : RunOK rs) {a b : Nat} (hab : a < b) (hb : b ≤ 65536)
    (hn : ¬ negationNoRoom src a b = true) : change (runHas rs) a = 1 ∨ change (runHas rs) b = 1 := by
  rw [negationNoRoom, h.vals] at hn
  rw [change_contains hr (show a ≤ 65536 by omega), change_contains hr hb]
  rw [decide_eq_true (show a ≠ 65536 by omega), decide_eq_true (show b > 0 by omega)]
  simp only [Bool.true_and, Bool.and_eq_true, beq_iff_eq] at hn ⊢
  rw [Classical.not_and_iff_not_or_not] at hn
  rcases hn with hn | hn
  · left; rw [if_neg hn]
  · right; rw [if_neg hn]

theorem runNegationInplaceBuf_spec {fresh : Nat → List Rle} (hf : Fresh fresh) {src : RunBuf} {rs : List Rle} (h : Holds src rs)
    (hr : RunOK rs) {a b : Nat} (hab : a < b) (hb : b ≤ 65536) :
    ∃ o, runNegationInplaceBuf fresh src a b = .ok o ∧ Holds o (runNegL rs a b) := by
  rw [runNegationInplaceBuf]
  split
  · exact runNegationBuf_spec hf h a b
  · rename_i hc
    have hle := h.le
    have htl : (rs.takeWhile fun (r : Rle) => decide (r.1 < a)).length ≤ rs.length := (List.takeWhile_sublist _).length_le
    obtain ⟨ho, hset⟩ := runNegL_ok hr hab hb
    have htake := takeWhile_take (fun (r : Rle) => decide (r.1 < a)) rs
    -- the result fits
    have hfin : (runNegL rs a b).length ≤ src.mem.length := by
      by_cases c : src.mem.length = src.n
      · have := flip_runs hr ho hab hb hset (negationNoRoom_false h hr hab hb (fun q => hc ⟨c, q⟩))
        omega
      · have h1 : (runNegL rs a b).length ≤ rs.length + 1 := by
          unfold runNegL
          rw [List.length_reverse, dropWhile_drop]
          refine Nat.le_trans (foldl_smart_length _ _) ?_
          have := smartAppend_length (rs.takeWhile fun (r : Rle) => decide (r.1 < a)).reverse (a % 65536) (u16 ((b : Int) - a - 1))
          simp at this ⊢; omega
        rw [h.n] at c
        omega
    rw [negationSkip_spec h a _ _ (by rw [h.n]; omega) (by omega), ok_bind, Nat.zero_add, List.drop_zero]
    rw [runNegL, List.length_reverse, dropWhile_drop] at hfin
    rw [runNegL, dropWhile_drop]
    generalize (rs.takeWhile fun (r : Rle) => decide (r.1 < a)) = pre at *
    have hbuf : (if pre.length < src.n then rdRun src.mem pre.length else .ok (0, 0)) =
        .ok (if pre.length < rs.length then rdR rs pre.length else (0, 0)) := by
      rw [h.n]
      split
      · rename_i c; exact h.rd c
      · rfl
    have hpre : Holds ⟨pre.length, src.mem⟩ pre.reverse.reverse := by
      obtain ⟨rest, rfl⟩ := h
      refine ⟨rs.drop pre.length ++ rest, ?_⟩
      rw [List.reverse_reverse, ← List.append_assoc]
      have : pre ++ rs.drop pre.length = rs := by
        have := List.take_append_drop pre.length rs
        rwa [← htake] at this
      rw [this]
    have hlen1 := smartAppend_length pre.reverse (a % 65536) (u16 ((b : Int) - a - 1))
    rw [List.length_reverse] at hlen1
    have hfit : (smartAppend pre.reverse (a % 65536) (u16 ((b : Int) - a - 1))).length ≤ src.mem.length := by
      by_cases c : pre.length < rs.length
      · omega
      · rw [List.drop_eq_nil_of_le (by omega)] at hfin
        exact hfin
    obtain ⟨b1, e1, g1, d1, l1⟩ := smartAppendBuf_fit hpre (a % 65536) (u16 ((b : Int) - a - 1)) hfit
    obtain ⟨rest, hsrc⟩ := h
    obtain ⟨o, e2, g2⟩ := negationShift_spec (rs := rs) (rest := rest) (rs.length + 1) pre.length
      (if pre.length < rs.length then rdR rs pre.length else (0, 0)) b1 _ (by omega) htl g1 (by omega) (fun c => if_pos c)
      (by rw [List.length_reverse] at d1; rw [d1, hsrc]) (by rw [l1, hsrc]) (by rw [l1]; exact hfin)
    refine ⟨o, ?_, g2⟩
    rw [show src.n = rs.length by rw [hsrc]] at hbuf ⊢
    by_cases c : pre.length < rs.length
    · rw [if_pos c] at hbuf ⊢
      rw [if_pos c] at hbuf e2
      rw [hbuf, ok_bind, e1]
      exact e2
    · rw [if_neg c] at hbuf e2 ⊢
      rw [e1]
      exact e2

/-! ### Conversion -/

theorem fromArrayBufLoop_spec (l : List Nat) : ∀ (prev run_start : Int) b acc,
    Room b acc (runFromArrayLoop prev run_start l).length →
    ∃ o, fromArrayBufLoop prev run_start b l = .ok o ∧ Holds o (acc ++ runFromArrayLoop prev run_start l) := by
  induction l with
  | nil =>
    intro prev run_start b acc h
    obtain ⟨b', e, g⟩ := h.push (by simp [runFromArrayLoop]) (mkRun run_start prev)
    exact ⟨b', e, g.1⟩
  | cons v l ih =>
    intro prev run_start b acc h
    rw [fromArrayBufLoop]
    rw [runFromArrayLoop] at h ⊢
    by_cases c : (v : Int) ≠ prev + 1
    · rw [if_pos c] at h ⊢
      rw [if_pos c]
      by_cases c2 : run_start ≠ -1
      · rw [if_pos c2] at h ⊢
        rw [if_pos c2]
        obtain ⟨b', e, g⟩ := h.push (by simp) (mkRun run_start prev)
        rw [addRunBuf, e, ok_bind, List.append_cons]
        exact ih _ _ _ _ g
      · rw [if_neg c2] at h ⊢
        rw [if_neg c2]
        exact ih _ _ _ _ h
    · rw [if_neg c] at h ⊢
      rw [if_neg c]
      exact ih _ _ _ _ h

theorem fromBitsetBufLoop_spec : ∀ fuel cur ctr rest b acc, (bitsetToRunLoop fuel cur ctr rest).length < fuel →
    Room b acc (bitsetToRunLoop fuel cur ctr rest).length →
    ∃ o, fromBitsetBufLoop fuel cur ctr rest b = .ok o ∧ Holds o (acc ++ bitsetToRunLoop fuel cur ctr rest) := by
  intro fuel
  induction fuel with
  | zero => intro cur ctr rest b acc h; omega
  | succ fuel ih =>
    intro cur ctr rest b acc hf h
    rw [fromBitsetBufLoop]
    rw [bitsetToRunLoop] at hf h ⊢
    dsimp only at hf h ⊢
    split
    · rename_i c
      rw [if_pos c] at h
      rw [List.append_nil]
      exact ⟨b, rfl, h.1⟩
    · rename_i c
      rw [if_neg c] at h hf
      split
      · rename_i c2
        rw [if_pos c2] at h
        obtain ⟨b', e, g⟩ := h.push (by simp) _
        exact ⟨b', e, g.1⟩
      · rename_i c2
        rw [if_neg c2] at h hf
        obtain ⟨b', e, g⟩ := h.push (by simp) _
        rw [addRunBuf, e, ok_bind, List.append_cons]
        exact ih _ _ _ _ _ (by simp at hf; omega) g

end CRoaring
