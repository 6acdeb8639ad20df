import Verif.Model.Run
import Verif.Lemmas.Array
set_option linter.unusedSimpArgs false
set_option linter.unusedVariables false

namespace CRoaring
open Spec

/-- Membership in a list of runs. -/
def runHas (rs : List Rle) (x : Nat) : Bool := rs.any (fun r => decide (r.1 ≤ x ∧ x ≤ r.1 + r.2))

/-- Runs in increasing order, not touching, inside the 16-bit range. -/
structure RunOK (rs : List Rle) : Prop where
  gap : rs.Pairwise (fun a b => a.1 + a.2 + 1 < b.1)
  lt : ∀ r ∈ rs, r.1 + r.2 < 65536

@[simp] theorem runHas_nil (x : Nat) : runHas [] x = false := rfl

theorem runHas_cons (r : Rle) (rs : List Rle) (x : Nat) :
    runHas (r :: rs) x = (decide (r.1 ≤ x ∧ x ≤ r.1 + r.2) || runHas rs x) := rfl

theorem runHas_append (a b : List Rle) (x : Nat) : runHas (a ++ b) x = (runHas a x || runHas b x) := by
  simp [runHas]

theorem runHas_reverse (a : List Rle) (x : Nat) : runHas a.reverse x = runHas a x := by
  simp [runHas]

theorem runHas_iff {rs : List Rle} {x : Nat} : runHas rs x = true ↔ ∃ r ∈ rs, r.1 ≤ x ∧ x ≤ r.1 + r.2 := by
  simp [runHas]

theorem RunOK.nil : RunOK [] := ⟨List.Pairwise.nil, by simp⟩

theorem runOK_cons {r : Rle} {rs : List Rle} :
    RunOK (r :: rs) ↔ r.1 + r.2 < 65536 ∧ (∀ b ∈ rs, r.1 + r.2 + 1 < b.1) ∧ RunOK rs := by
  constructor
  · rintro ⟨h1, h2⟩
    have h3 := List.pairwise_cons.1 h1
    exact ⟨h2 r (by simp), h3.1, ⟨h3.2, fun q hq => h2 q (by simp [hq])⟩⟩
  · rintro ⟨h1, h2, h3⟩
    refine ⟨List.pairwise_cons.2 ⟨h2, h3.gap⟩, fun q hq => ?_⟩
    rcases List.mem_cons.1 hq with rfl | hq
    · exact h1
    · exact h3.lt q hq

theorem RunOK.tail {r : Rle} {rs : List Rle} (h : RunOK (r :: rs)) : RunOK rs := (runOK_cons.1 h).2.2

theorem runOK_append {a b : List Rle} :
    RunOK (a ++ b) ↔ RunOK a ∧ RunOK b ∧ ∀ x ∈ a, ∀ y ∈ b, x.1 + x.2 + 1 < y.1 := by
  constructor
  · rintro ⟨h1, h2⟩
    have h3 := List.pairwise_append.1 h1
    exact ⟨⟨h3.1, fun r hr => h2 r (by simp [hr])⟩, ⟨h3.2.1, fun r hr => h2 r (by simp [hr])⟩, h3.2.2⟩
  · rintro ⟨h1, h2, h3⟩
    refine ⟨List.pairwise_append.2 ⟨h1.gap, h2.gap, h3⟩, fun r hr => ?_⟩
    rcases List.mem_append.1 hr with h | h
    · exact h1.lt r h
    · exact h2.lt r h

theorem runOK_mid {pre post : List Rle} {r : Rle} :
    RunOK (pre ++ r :: post) ↔ RunOK pre ∧ RunOK post ∧ r.1 + r.2 < 65536 ∧
      (∀ a ∈ pre, a.1 + a.2 + 1 < r.1) ∧ ∀ b ∈ post, r.1 + r.2 + 1 < b.1 := by
  rw [runOK_append, runOK_cons]
  constructor
  · rintro ⟨h1, ⟨h2, h3, h4⟩, h5⟩
    exact ⟨h1, h4, h2, fun a ha => h5 a ha r (by simp), h3⟩
  · rintro ⟨h1, h2, h3, h4, h5⟩
    refine ⟨h1, ⟨h3, h5, h2⟩, fun a ha b hb => ?_⟩
    have := h4 a ha
    rcases List.mem_cons.1 hb with rfl | hb
    · exact this
    · have := h5 b hb; omega

theorem has_lt {pre : List Rle} {v y : Nat} (h : ∀ a ∈ pre, a.1 + a.2 + 1 < v) (hy : runHas pre y = true) : y + 1 < v := by
  obtain ⟨r, hr, h1⟩ := runHas_iff.1 hy
  have := h r hr; omega

theorem has_gt {post : List Rle} {v y : Nat} (h : ∀ a ∈ post, v < a.1) (hy : runHas post y = true) : v < y := by
  obtain ⟨r, hr, h1⟩ := runHas_iff.1 hy
  have := h r hr; omega

theorem RunOK.has_lt {rs : List Rle} (h : RunOK rs) {x : Nat} (hx : runHas rs x = true) : x < 65536 := by
  obtain ⟨r, hr, h1⟩ := runHas_iff.1 hx
  have := h.lt r hr; omega

theorem runHas_head {r : Rle} {rs : List Rle} : runHas (r :: rs) r.1 = true := by
  simp [runHas_cons]

theorem RunOK.starts_sorted {rs : List Rle} (h : RunOK rs) : SSorted (rs.map (·.1)) := by
  unfold SSorted
  rw [List.pairwise_map]
  exact h.gap.imp (fun hh => by omega)

theorem rdR_fst (rs : List Rle) (i : Nat) : (rdR rs i).1 = rdL (rs.map (·.1)) i := by
  unfold rdR rdL
  simp only [List.getD, List.getElem?_map]
  cases rs[i]? <;> rfl

theorem ibs_eq {rs : List Rle} (h : RunOK rs) (x : Nat) :
    interleavedBinarySearch rs x =
      if x ∈ rs.map (·.1) then (lb (rs.map (·.1)) x : Int) else -((lb (rs.map (·.1)) x : Int) + 1) := by
  unfold interleavedBinarySearch
  have : (fun i => (rdR rs i).1) = rdL (rs.map (·.1)) := funext (rdR_fst rs)
  rw [this, ← binarySearch_list h.starts_sorted x, List.length_map]

theorem lb_mid {pre post : List Nat} {x : Nat} (h1 : ∀ a ∈ pre, a < x) (h2 : ∀ a ∈ post, x ≤ a) :
    lb (pre ++ post) x = pre.length := by
  unfold lb
  rw [List.countP_append, List.countP_eq_length.2 (by simpa using h1), List.countP_eq_zero.2 (by simpa using h2)]
  rfl

/-- Where the search for `x` among the runs ends up. -/
theorem run_split {rs : List Rle} (h : RunOK rs) (x : Nat) :
    (∃ pre l post, rs = pre ++ (x, l) :: post ∧ interleavedBinarySearch rs x = pre.length) ∨
    ((∀ r ∈ rs, x < r.1) ∧ interleavedBinarySearch rs x = -1) ∨
    (∃ pre r post, rs = pre ++ r :: post ∧ r.1 < x ∧ (∀ q ∈ post, x < q.1) ∧
      interleavedBinarySearch rs x = -((pre.length : Int) + 2)) := by
  have hs := h.starts_sorted
  by_cases hm : x ∈ rs.map (·.1)
  · left
    obtain ⟨r, hr, rfl⟩ := List.mem_map.1 hm
    obtain ⟨pre, post, rfl⟩ := List.append_of_mem hr
    refine ⟨pre, r.2, post, rfl, ?_⟩
    have hk := runOK_mid.1 h
    rw [ibs_eq h, if_pos hm, List.map_append, List.map_cons, lb_mid]
    · simp
    · simp only [List.mem_map]; rintro a ⟨q, hq, rfl⟩; have := hk.2.2.2.1 q hq; omega
    · simp only [List.mem_cons, List.mem_map]
      rintro a (rfl | ⟨q, hq, rfl⟩)
      · omega
      · have := hk.2.2.2.2 q hq; omega
  · right
    rw [ibs_eq h, if_neg hm]
    rcases Nat.eq_zero_or_pos (lb (rs.map (·.1)) x) with h0 | h0
    · left
      refine ⟨fun r hr => ?_, by omega⟩
      have h1 : r.1 ∈ (rs.map (·.1)).drop (lb (rs.map (·.1)) x) := by
        rw [h0, List.drop_zero]; exact List.mem_map.2 ⟨r, hr, rfl⟩
      have h2 := ((mem_drop_lb hs x r.1).1 h1).2
      have h3 : r.1 ≠ x := fun e => hm (List.mem_map.2 ⟨r, hr, e⟩)
      omega
    · right
      have hle := lb_le (rs.map (·.1)) x
      rw [List.length_map] at hle
      have hk : lb (rs.map (·.1)) x - 1 < rs.length := by omega
      refine ⟨rs.take (lb (rs.map (·.1)) x - 1), rs[lb (rs.map (·.1)) x - 1], rs.drop (lb (rs.map (·.1)) x), ?_, ?_, ?_, ?_⟩
      · have := List.drop_eq_getElem_cons hk
        rw [show lb (rs.map (·.1)) x - 1 + 1 = lb (rs.map (·.1)) x by omega] at this
        rw [← this, List.take_append_drop]
      · have := (rdL_lt_iff hs x (i := lb (rs.map (·.1)) x - 1) (by simpa using hk)).2 (by omega)
        rw [rdL_eq (by simpa using hk)] at this
        simpa using this
      · intro q hq
        have h1 : q.1 ∈ (rs.map (·.1)).drop (lb (rs.map (·.1)) x) := by
          rw [← List.map_drop]; exact List.mem_map.2 ⟨q, hq, rfl⟩
        have h2 := ((mem_drop_lb hs x q.1).1 h1)
        have h3 : q.1 ≠ x := fun e => hm (e ▸ h2.1)
        omega
      · simp; omega

theorem rdR_mid (pre : List Rle) (r : Rle) (post : List Rle) : rdR (pre ++ r :: post) pre.length = r := by
  simp [rdR, List.getD]

theorem rdR_mid_succ (pre : List Rle) (r s : Rle) (post : List Rle) :
    rdR (pre ++ r :: s :: post) (pre.length + 1) = s := by
  simp [rdR, List.getD]

theorem set_mid (pre : List Rle) (r s : Rle) (post : List Rle) :
    (pre ++ r :: post).set pre.length s = pre ++ s :: post := by
  simp [List.set_append]

theorem set_mid_succ (pre : List Rle) (r s t : Rle) (post : List Rle) :
    (pre ++ r :: s :: post).set (pre.length + 1) t = pre ++ r :: t :: post := by
  simp [List.set_append]

theorem insertRunAt_mid (pre : List Rle) (r s : Rle) (post : List Rle) :
    insertRunAt (pre ++ r :: post) (pre.length + 1) s = pre ++ r :: s :: post := by
  have e1 : pre.take (pre.length + 1) = pre := List.take_of_length_le (by omega)
  have e2 : pre.drop (pre.length + 1) = [] := List.drop_eq_nil_of_le (by omega)
  simp [insertRunAt, List.take_append, List.drop_append, e1, e2]

theorem recover_mid (pre : List Rle) (r : Rle) (post : List Rle) :
    recoverRoomAtIndex (pre ++ r :: post) pre.length = pre ++ post := by
  simp [recoverRoomAtIndex]

theorem recover_mid_succ (pre : List Rle) (r s : Rle) (post : List Rle) :
    recoverRoomAtIndex (pre ++ r :: s :: post) (pre.length + 1) = pre ++ r :: post := by
  have e1 : pre.take (pre.length + 1) = pre := List.take_of_length_le (by omega)
  have e2 : pre.drop (pre.length + 1 + 1) = [] := List.drop_eq_nil_of_le (by omega)
  have e3 : pre.length + 1 + 1 - pre.length = 2 := by omega
  simp [recoverRoomAtIndex, List.take_append, List.drop_append, e1, e2, e3]

theorem u16_nat {n : Nat} (h : n < 65536) : u16 (n : Int) = n := by unfold u16; omega
theorem u16_eq {z : Int} {n : Nat} (h : z = n) (hn : n < 65536) : u16 z = n := by unfold u16; omega
theorem u32_eq {z : Int} {n : Nat} (h : z = n) (hn : n < 4294967296) : u32 z = n := by unfold u32; omega

/-! ### Point operations -/

theorem runContains_eq {rs : List Rle} (h : RunOK rs) (x : Nat) : runContains rs x = runHas rs x := by
  unfold runContains
  rcases run_split h x with ⟨pre, l, post, rfl, hi⟩ | ⟨hlt, hi⟩ | ⟨pre, r, post, rfl, h1, h2, hi⟩
  · simp only [hi]
    rw [if_pos (by omega), runHas_append, runHas_cons]
    simp
  · simp only [hi]
    rw [if_neg (by omega), if_neg (by omega)]
    symm
    rw [Bool.eq_false_iff]
    intro hh
    have := has_gt hlt hh; omega
  · simp only [hi]
    rw [if_neg (by omega), if_pos (by omega), show (-(-((pre.length : Int) + 2)) - 2).toNat = pre.length by omega, rdR_mid]
    rw [runHas_append, runHas_cons]
    have hm := runOK_mid.1 h
    have hp : runHas pre x = false := by
      rw [Bool.eq_false_iff]; intro hh; have := has_lt hm.2.2.2.1 hh; omega
    have hq : runHas post x = false := by
      rw [Bool.eq_false_iff]; intro hh; have := has_gt h2 hh; omega
    rw [hp, hq, Bool.false_or, Bool.or_false]
    apply decide_eq_decide.2; omega

theorem runAdd_spec {rs : List Rle} (h : RunOK rs) {v : Nat} (hv : v < 65536) :
    RunOK (runAdd rs v).1 ∧ (∀ x, runHas (runAdd rs v).1 x = (decide (x = v) || runHas rs x)) ∧
      (runAdd rs v).2 = !runHas rs v := by
  unfold runAdd
  rcases run_split h v with ⟨pre, l, post, rfl, hi⟩ | ⟨hlt, hi⟩ | ⟨pre, r, post, rfl, h1, h2, hi⟩
  · simp only [hi]
    rw [if_pos (by omega)]
    have hh : runHas (pre ++ (v, l) :: post) v = true := by simp [runHas_append, runHas_cons]
    refine ⟨h, fun x => ?_, by simp [hh]⟩
    by_cases hx : x = v
    · subst hx; simp [hh]
    · simp [hx]
  · have hno : runHas rs v = false := by
      rw [Bool.eq_false_iff]; intro hh; have := has_gt hlt hh; omega
    simp only [hi]
    rw [if_neg (by omega), if_neg (by omega), hno]
    cases rs with
    | nil =>
      simp only [List.length_nil, Nat.lt_irrefl, false_and, if_false]
      refine ⟨?_, fun x => ?_, rfl⟩
      · simp [insertRunAt, runOK_cons, RunOK.nil]; omega
      · simp only [insertRunAt, List.take_nil, List.drop_nil, List.nil_append, runHas_cons]; grind [runHas_nil]
    | cons r rs =>
      have hr := runOK_cons.1 h
      have hlt1 := hlt r (by simp)
      have e0 : rdR (r :: rs) 0 = r := rfl
      rw [e0]
      simp only [List.length_cons, Nat.zero_lt_succ, true_and]
      split
      · rename_i he
        simp only [List.set_cons_zero]
        rw [u16_eq (n := v) (by omega) hv, Nat.mod_eq_of_lt (by omega)]
        refine ⟨runOK_cons.2 ⟨by simp; omega, fun b hb => by have := hr.2.1 b hb; simp; omega, hr.2.2⟩, fun x => ?_, rfl⟩
        rw [runHas_cons, runHas_cons]
        grind
      · rename_i he
        refine ⟨?_, fun x => ?_, rfl⟩
        · simp only [insertRunAt]
          simp
          refine runOK_cons.2 ⟨by simp; omega, fun b hb => ?_, h⟩
          simp
          rcases List.mem_cons.1 hb with rfl | hb
          · omega
          · have := hr.2.1 b hb; omega
        · simp only [insertRunAt]
          simp
          rw [runHas_cons]
          grind
  · have hm := runOK_mid.1 h
    have hno : runHas pre v = false ∧ runHas post v = false := by
      constructor
      · rw [Bool.eq_false_iff]; intro hh; have := has_lt hm.2.2.2.1 hh; omega
      · rw [Bool.eq_false_iff]; intro hh; have := has_gt h2 hh; omega
    have hhas : runHas (pre ++ r :: post) v = decide (v ≤ r.1 + r.2) := by
      rw [runHas_append, runHas_cons, hno.1, hno.2]
      simp; omega
    simp only [hi]
    have e1 : (-(-((pre.length : Int) + 2)) - 2).toNat = pre.length := by omega
    have e2 : (-(-((pre.length : Int) + 2)) - 2 + 1).toNat = pre.length + 1 := by omega
    rw [if_neg (by omega), if_pos (by omega), e1, e2, rdR_mid, hhas]
    split
    · rename_i hle
      have : v ≤ r.1 + r.2 := by omega
      refine ⟨h, fun x => ?_, by simp [this]⟩
      by_cases hx : x = v
      · subst hx; simp [hhas, this]
      · simp [hx]
    · rename_i hgt
      have hnle : ¬ v ≤ r.1 + r.2 := by omega
      have hret : true = !decide (v ≤ r.1 + r.2) := by simp [hnle]
      cases post with
      | nil =>
        have hl : ¬ (pre.length + 1 < (pre ++ [r]).length) := by simp
        simp only [hl, false_and, if_false]
        split
        · rename_i he
          rw [set_mid, Nat.mod_eq_of_lt (by omega)]
          refine ⟨runOK_mid.2 ⟨hm.1, RunOK.nil, by simp; omega, hm.2.2.2.1, by simp⟩, fun x => ?_, hret⟩
          simp only [runHas_append, runHas_cons]
          grind [runHas_nil]
        · rename_i he
          rw [insertRunAt_mid]
          refine ⟨runOK_mid.2 ⟨hm.1, runOK_cons.2 ⟨by simp; omega, by simp, RunOK.nil⟩, hm.2.2.1, hm.2.2.2.1, by simp; omega⟩, fun x => ?_, hret⟩
          simp only [runHas_append, runHas_cons]
          grind [runHas_nil]
      | cons s post =>
        have hl : (pre.length + 1 < (pre ++ r :: s :: post).length) := by simp
        have hs := runOK_cons.1 hm.2.1
        have hs1 := hm.2.2.2.2 s (by simp)
        have hs2 := h2 s (by simp)
        simp only [hl, true_and]
        rw [rdR_mid_succ]
        split
        · rename_i he
          split
          · rename_i hf
            rw [set_mid, recover_mid_succ, u16_eq (n := s.1 + s.2 - r.1) (by omega) (by omega)]
            refine ⟨runOK_mid.2 ⟨hm.1, hs.2.2, by simp; omega, hm.2.2.2.1, fun b hb => by have := hs.2.1 b hb; simp; omega⟩, fun x => ?_, hret⟩
            simp only [runHas_append, runHas_cons]
            grind
          · rename_i hf
            rw [set_mid, Nat.mod_eq_of_lt (by omega)]
            refine ⟨runOK_mid.2 ⟨hm.1, hm.2.1, by simp; omega, hm.2.2.2.1, fun b hb => ?_⟩, fun x => ?_, hret⟩
            · simp
              rcases List.mem_cons.1 hb with rfl | hb
              · omega
              · have := hs.2.1 b hb; omega
            · simp only [runHas_append, runHas_cons]
              grind
        · rename_i he
          split
          · rename_i hf
            rw [set_mid_succ, Nat.mod_eq_of_lt (by omega)]
            refine ⟨runOK_mid.2 ⟨hm.1, runOK_cons.2 ⟨by simp; omega, fun b hb => by have := hs.2.1 b hb; simp; omega, hs.2.2⟩,
              hm.2.2.1, hm.2.2.2.1, fun b hb => ?_⟩, fun x => ?_, hret⟩
            · rcases List.mem_cons.1 hb with rfl | hb
              · simp; omega
              · have := hs.2.1 b hb; omega
            · simp only [runHas_append, runHas_cons]
              grind
          · rename_i hf
            rw [insertRunAt_mid]
            refine ⟨runOK_mid.2 ⟨hm.1, runOK_cons.2 ⟨by simp; omega, fun b hb => ?_, hm.2.1⟩,
              hm.2.2.1, hm.2.2.2.1, fun b hb => ?_⟩, fun x => ?_, hret⟩
            · simp
              rcases List.mem_cons.1 hb with rfl | hb
              · omega
              · have := hs.2.1 b hb; omega
            · rcases List.mem_cons.1 hb with rfl | hb
              · simp; omega
              · exact hm.2.2.2.2 b hb
            · simp only [runHas_append, runHas_cons]
              grind

theorem runRemove_spec {rs : List Rle} (h : RunOK rs) {v : Nat} (hv : v < 65536) :
    RunOK (runRemove rs v).1 ∧ (∀ x, runHas (runRemove rs v).1 x = (decide (x ≠ v) && runHas rs x)) ∧
      (runRemove rs v).2 = runHas rs v := by
  unfold runRemove
  rcases run_split h v with ⟨pre, l, post, rfl, hi⟩ | ⟨hlt, hi⟩ | ⟨pre, r, post, rfl, h1, h2, hi⟩
  · have hm := runOK_mid.1 h
    simp only at hm
    have hh : runHas (pre ++ (v, l) :: post) v = true := by simp [runHas_append, runHas_cons]
    have hpre : ∀ x, runHas pre x = true → x + 1 < v := fun x => has_lt hm.2.2.2.1
    have hpost : ∀ x, runHas post x = true → v + l + 1 < x := fun x => has_gt hm.2.2.2.2
    simp only [hi]
    rw [if_pos (by omega), show ((pre.length : Int)).toNat = pre.length by omega, rdR_mid, hh]
    simp only
    split
    · rename_i h0
      rw [recover_mid]
      refine ⟨runOK_append.2 ⟨hm.1, hm.2.1, fun a ha b hb => ?_⟩, fun x => ?_, rfl⟩
      · have := hm.2.2.2.1 a ha; have := hm.2.2.2.2 b hb; omega
      · simp only [runHas_append, runHas_cons]
        have := hpre x; have := hpost x
        grind
    · rename_i h0
      rw [set_mid, Nat.mod_eq_of_lt (by omega), u16_eq (n := l - 1) (by omega) (by omega)]
      refine ⟨runOK_mid.2 ⟨hm.1, hm.2.1, by simp; omega, fun a ha => by have := hm.2.2.2.1 a ha; simp; omega,
        fun b hb => by have := hm.2.2.2.2 b hb; simp; omega⟩, fun x => ?_, rfl⟩
      simp only [runHas_append, runHas_cons]
      have := hpre x; have := hpost x
      grind
  · have hno : runHas rs v = false := by
      rw [Bool.eq_false_iff]; intro hh; have := has_gt hlt hh; omega
    simp only [hi]
    rw [if_neg (by omega), if_neg (by omega), hno]
    refine ⟨h, fun x => ?_, rfl⟩
    by_cases hx : x = v
    · subst hx; simp [hno]
    · simp [hx]
  · have hm := runOK_mid.1 h
    have hno : runHas pre v = false ∧ runHas post v = false := by
      constructor
      · rw [Bool.eq_false_iff]; intro hh; have := has_lt hm.2.2.2.1 hh; omega
      · rw [Bool.eq_false_iff]; intro hh; have := has_gt h2 hh; omega
    have hhas : runHas (pre ++ r :: post) v = decide (v ≤ r.1 + r.2) := by
      rw [runHas_append, runHas_cons, hno.1, hno.2]
      simp; omega
    have hpre : ∀ x, runHas pre x = true → x + 1 < r.1 := fun x => has_lt hm.2.2.2.1
    have hpost : ∀ x, runHas post x = true → v < x := fun x => has_gt h2
    simp only [hi]
    have e1 : (-(-((pre.length : Int) + 2)) - 2).toNat = pre.length := by omega
    rw [if_neg (by omega), if_pos (by omega), e1, rdR_mid, hhas]
    split
    · rename_i hlt
      have hle : v ≤ r.1 + r.2 := by omega
      rw [set_mid, insertRunAt_mid, Nat.mod_eq_of_lt (by omega), u16_eq (n := v - r.1 - 1) (by omega) (by omega),
        u16_eq (n := r.2 - (v - r.1) - 1) (by omega) (by omega)]
      refine ⟨runOK_mid.2 ⟨hm.1, runOK_cons.2 ⟨by simp; omega, fun b hb => by have := hm.2.2.2.2 b hb; simp; omega, hm.2.1⟩,
        by simp; omega, hm.2.2.2.1, fun b hb => ?_⟩, fun x => ?_, by simp [hle]⟩
      · rcases List.mem_cons.1 hb with rfl | hb
        · simp; omega
        · have := hm.2.2.2.2 b hb; simp; omega
      · simp only [runHas_append, runHas_cons]
        have := hpre x; have := hpost x
        grind
    · split
      · rename_i hlt heq
        have hle : v ≤ r.1 + r.2 := by omega
        rw [set_mid, u16_eq (n := r.2 - 1) (by omega) (by omega)]
        refine ⟨runOK_mid.2 ⟨hm.1, hm.2.1, by simp; omega, hm.2.2.2.1,
          fun b hb => by have := hm.2.2.2.2 b hb; simp; omega⟩, fun x => ?_, by simp [hle]⟩
        simp only [runHas_append, runHas_cons]
        have := hpre x; have := hpost x
        grind
      · rename_i hlt heq
        have hle : ¬ v ≤ r.1 + r.2 := by omega
        refine ⟨h, fun x => ?_, by simp [hle]⟩
        by_cases hx : x = v
        · subst hx; simp [hhas, hle]
        · simp [hx]

end CRoaring
