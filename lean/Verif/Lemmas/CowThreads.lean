import Verif.Model.CowThreads
import Verif.Lemmas.Serial
set_option linter.unusedSimpArgs false
set_option linter.unusedVariables false
/-
Threads with references to one shared container.
-/
namespace CRoaring

def refsSum (ths : List Th) : Nat := (ths.map (·.refs)).sum

theorem refsSum_set : ∀ {ths : List Th} {t : Nat} {th th' : Th}, ths[t]? = some th → refsSum (ths.set t th') + th.refs = refsSum ths + th'.refs
  | [], t, th, th', h => by simp at h
  | x :: ths, 0, th, th', h => by
    simp only [List.getElem?_cons_zero, Option.some.injEq] at h
    subst h
    simp only [List.set_cons_zero, refsSum, List.map_cons, List.sum_cons]
    omega
  | x :: ths, t + 1, th, th', h => by
    rw [List.getElem?_cons_succ] at h
    have := refsSum_set (th' := th') h
    simp only [List.set_cons_succ, refsSum, List.map_cons, List.sum_cons] at this ⊢
    omega

theorem refs_le_sum : ∀ {ths : List Th} {t : Nat} {th : Th}, ths[t]? = some th → th.refs ≤ refsSum ths
  | [], t, th, h => by simp at h
  | x :: ths, 0, th, h => by
    simp only [List.getElem?_cons_zero, Option.some.injEq] at h
    subst h
    simp only [refsSum, List.map_cons, List.sum_cons]
    omega
  | x :: ths, t + 1, th, h => by
    rw [List.getElem?_cons_succ] at h
    have := refs_le_sum h
    simp only [refsSum, List.map_cons, List.sum_cons] at this ⊢
    omega

/-- Between the steps of schedules that do not split a modification: alive, being released by thread `t`, or gone. -/
inductive CowMode (s : ShMem × List Th) : Prop
  | alive (live : s.1.live = true) (inner : s.1.inner = .shared) (count : s.1.counter = refsSum s.2) (pos : 0 < refsSum s.2)
      (pcs : ∀ th ∈ s.2, th.pc = .idle ∨ (th.pc = .visit ∧ 0 < th.refs))
  | releasing (t : Nat) (ht : s.2[t]? = some ⟨0, .release⟩) (live : s.1.live = true) (inner : s.1.inner = .shared) (count : s.1.counter = 0)
      (others : ∀ (j : Nat) (th : Th), s.2[j]? = some th → th.refs = 0 ∧ (j = t ∨ th.pc = .idle))
  | dead (live : s.1.live = false) (inner : s.1.inner ≠ .shared) (pcs : ∀ th ∈ s.2, th = ⟨0, .idle⟩)

theorem refsSum_zero {ths : List Th} (h : refsSum ths = 0) {j : Nat} {th : Th} (hj : ths[j]? = some th) : th.refs = 0 := by
  have := refs_le_sum hj
  omega

theorem set_get_self {ths : List Th} {t : Nat} {th x : Th} (h : ths[t]? = some th) : (ths.set t x)[t]? = some x :=
  List.getElem?_set_self (List.getElem?_eq_some_iff.1 h).1

theorem thSet_same {ths : List Th} {t : Nat} {th : Th} (h : ths[t]? = some th) : ths.set t th = ths := by
  apply List.ext_getElem?
  intro i
  by_cases hi : t = i
  · subst hi; rw [set_get_self h, h]
  · rw [List.getElem?_set_ne hi]

theorem thStepAt_some {dec : Nat → Bool} {s : ShMem × List Th} {t : Nat} {a : Act} {th : Th} (h : s.2[t]? = some th) {r : ShMem × Th}
    (hr : thStep dec s.1 th a = .ok r) : thStepAt dec s (t, a) = .ok (r.1, s.2.set t r.2) := by
  unfold thStepAt
  simp only
  rw [h]
  simp only
  rw [hr, ok_bind]

theorem thStepAt_skip {dec : Nat → Bool} {s : ShMem × List Th} {t : Nat} {a : Act} {th : Th} (h : s.2[t]? = some th) (hi : th.pc = .idle)
    (hz : th.refs = 0 ∨ a = .go) : thStepAt dec s (t, a) = .ok s := by
  have hr : thStep dec s.1 th a = .ok (s.1, th) := by
    unfold thStep
    rw [hi]
    simp only
    rw [if_pos hz]
  rw [thStepAt_some h hr]
  simp only
  rw [thSet_same h]

theorem thStepAt_none {dec : Nat → Bool} {s : ShMem × List Th} {t : Nat} {a : Act} (h : s.2[t]? = none) : thStepAt dec s (t, a) = .ok s := by
  unfold thStepAt
  simp only
  rw [h]

theorem pred_counter {n : Nat} (h0 : 0 < n) (h : n < 2 ^ 32) : decRef n = n - 1 := by unfold decRef; omega

theorem succ_counter {n : Nat} (h : n + 1 < 2 ^ 32) : incRef n = n + 1 := Nat.mod_eq_of_lt h

/-- From `dead`, nothing happens. -/
theorem dead_step {s : ShMem × List Th} (live : s.1.live = false) (inner : s.1.inner ≠ .shared) (pcs : ∀ th ∈ s.2, th = ⟨0, .idle⟩) (e : Nat × Act) :
    thStepAt decAtomic s e = .ok s := by
  cases h : s.2[e.1]? with
  | none => exact thStepAt_none h
  | some th =>
    have := pcs th (List.mem_of_getElem? h)
    subst this
    exact thStepAt_skip h rfl (Or.inl rfl)

/-- From `releasing`. -/
theorem releasing_step {s : ShMem × List Th} {t : Nat} (ht : s.2[t]? = some ⟨0, .release⟩) (live : s.1.live = true) (inner : s.1.inner = .shared)
    (count : s.1.counter = 0) (others : ∀ (j : Nat) (th : Th), s.2[j]? = some th → th.refs = 0 ∧ (j = t ∨ th.pc = .idle)) (e : Nat × Act) :
    ∃ s', thStepAt decAtomic s e = .ok s' ∧ CowMode s' ∧ refsSum s'.2 = refsSum s.2 := by
  cases h : s.2[e.1]? with
  | none => exact ⟨s, thStepAt_none h, .releasing t ht live inner count others, rfl⟩
  | some th =>
    by_cases he : e.1 = t
    · have : th = ⟨0, .release⟩ := by rw [he, ht] at h; exact (Option.some.inj h).symm
      subst this
      have hr : thStep decAtomic s.1 ⟨0, .release⟩ e.2 = .ok ({ s.1 with live := false, inner := .freed }, ⟨0, .idle⟩) := by
        unfold thStep
        simp only
        rw [if_pos ⟨live, inner⟩]
      refine ⟨_, thStepAt_some (a := e.2) h hr, .dead rfl (by intro h; cases h) ?_, ?_⟩
      · intro q hq
        obtain ⟨j, hj⟩ := List.mem_iff_getElem?.1 hq
        by_cases hjt : e.1 = j
        · subst hjt
          rw [set_get_self h] at hj
          exact (Option.some.inj hj).symm
        · simp only at hj
          rw [List.getElem?_set_ne hjt] at hj
          obtain ⟨h1, h2⟩ := others j q hj
          rcases h2 with h2 | h2
          · omega
          · cases q; simp only at h1 h2; rw [h1, h2]
      · have := refsSum_set (th' := ⟨0, .idle⟩) h
        simp only at this ⊢
        omega
    · obtain ⟨h1, h2⟩ := others _ _ h
      exact ⟨s, thStepAt_skip h (h2.resolve_left he) (Or.inl h1), .releasing t ht live inner count others, rfl⟩

/-- From `alive`, any operation but a modification. -/
theorem alive_step {s : ShMem × List Th} (live : s.1.live = true) (inner : s.1.inner = .shared) (count : s.1.counter = refsSum s.2)
    (pos : 0 < refsSum s.2) (pcs : ∀ th ∈ s.2, th.pc = .idle ∨ (th.pc = .visit ∧ 0 < th.refs)) (hb : refsSum s.2 + 1 < 2 ^ 32)
    {t : Nat} {a : Act} (ha : a ≠ .modify) : ∃ s', thStepAt decAtomic s (t, a) = .ok s' ∧ CowMode s' ∧ refsSum s'.2 ≤ refsSum s.2 + 1 := by
  have hA : CowMode s := .alive live inner count pos pcs
  cases h : s.2[t]? with
  | none => exact ⟨s, thStepAt_none h, hA, by omega⟩
  | some th =>
    have hmem := List.mem_of_getElem? h
    rcases pcs th hmem with hp | ⟨hp, hr⟩
    · by_cases hz : th.refs = 0 ∨ a = .go
      · exact ⟨s, thStepAt_skip h hp hz, hA, by omega⟩
      · have hz' : th.refs ≠ 0 := fun hh => hz (Or.inl hh)
        have hle := refs_le_sum h
        cases a with
        | go => exact absurd (Or.inr rfl) hz
        | modify => exact absurd rfl ha
        | query =>
          have hr : thStep decAtomic s.1 th .query = .ok (s.1, { th with pc := .visit }) := by
            unfold thStep; rw [hp]; simp only; rw [if_neg hz, if_neg (by simp [live])]
          have hs := refsSum_set (th' := { th with pc := .visit }) h
          refine ⟨_, thStepAt_some h hr, .alive live inner (by simp only at hs ⊢; omega) (by simp only at hs ⊢; omega) ?_, by simp only at hs ⊢; omega⟩
          intro q hq
          rcases List.mem_or_eq_of_mem_set hq with hq | rfl
          · exact pcs q hq
          · exact Or.inr ⟨rfl, by simp only; omega⟩
        | copy =>
          have hr : thStep decAtomic s.1 th .copy = .ok ({ s.1 with counter := incRef s.1.counter }, { th with refs := th.refs + 1 }) := by
            unfold thStep; rw [hp]; simp only; rw [if_neg hz, if_neg (by simp [live])]
          have hs := refsSum_set (th' := { th with refs := th.refs + 1 }) h
          refine ⟨_, thStepAt_some h hr, .alive live inner ?_ (by simp only at hs ⊢; omega) ?_, by simp only at hs ⊢; omega⟩
          · simp only at hs ⊢
            rw [succ_counter (by omega)]
            omega
          · intro q hq
            rcases List.mem_or_eq_of_mem_set hq with hq | rfl
            · exact pcs q hq
            · exact Or.inl hp
        | free =>
          have hr : thStep decAtomic s.1 th .free = .ok ({ s.1 with counter := decRef s.1.counter },
              { refs := th.refs - 1, pc := if decAtomic s.1.counter then .release else .idle }) := by
            unfold thStep; rw [hp]; simp only; rw [if_neg hz, if_neg (by simp [live])]
          rw [pred_counter (by omega) (by omega)] at hr
          have hs := refsSum_set (th' := { refs := th.refs - 1, pc := if decAtomic s.1.counter then .release else .idle }) h
          simp only at hs
          by_cases h1 : s.1.counter = 1
          · have hd : decAtomic s.1.counter = true := by rw [h1]; rfl
            have h0 : th.refs - 1 = 0 := by omega
            rw [hd] at hr hs
            simp only [if_true, h0] at hr hs
            refine ⟨_, thStepAt_some h hr, .releasing t (set_get_self h) live inner (by simp only; omega) ?_, by simp only; omega⟩
            intro j q hj
            simp only at hj
            by_cases hjt : t = j
            · subst hjt
              rw [set_get_self h] at hj
              have := (Option.some.inj hj).symm
              subst this
              exact ⟨rfl, Or.inl rfl⟩
            · have hz : q.refs = 0 := refsSum_zero (ths := s.2.set t ⟨0, .release⟩) (by omega) hj
              rw [List.getElem?_set_ne hjt] at hj
              rcases pcs q (List.mem_of_getElem? hj) with hq | ⟨_, hq⟩
              · exact ⟨hz, Or.inr hq⟩
              · omega
          · have hd : decAtomic s.1.counter = false := by unfold decAtomic; simpa using h1
            rw [hd] at hr hs
            simp only [Bool.false_eq_true, if_false] at hr hs
            refine ⟨_, thStepAt_some h hr, .alive live inner (by simp only; omega) (by simp only; omega) ?_, by simp only; omega⟩
            intro q hq
            rcases List.mem_or_eq_of_mem_set hq with hq | rfl
            · exact pcs q hq
            · exact Or.inl rfl
    · have hr' : thStep decAtomic s.1 th a = .ok (s.1, { th with pc := .idle }) := by
        unfold thStep; rw [hp]; simp only; rw [if_pos inner]
      have hs := refsSum_set (th' := { th with pc := .idle }) h
      refine ⟨_, thStepAt_some h hr', .alive live inner (by simp only at hs ⊢; omega) (by simp only at hs ⊢; omega) ?_, by simp only at hs ⊢; omega⟩
      intro q hq
      rcases List.mem_or_eq_of_mem_set hq with hq | rfl
      · exact pcs q hq
      · exact Or.inl rfl

/-- From `alive`, a modification whose two steps follow each other. -/
theorem alive_modify {s : ShMem × List Th} (live : s.1.live = true) (inner : s.1.inner = .shared) (count : s.1.counter = refsSum s.2)
    (pos : 0 < refsSum s.2) (pcs : ∀ th ∈ s.2, th.pc = .idle ∨ (th.pc = .visit ∧ 0 < th.refs)) (hb : refsSum s.2 + 1 < 2 ^ 32) (t : Nat) :
    ∃ s1 s2, thStepAt decAtomic s (t, .modify) = .ok s1 ∧ thStepAt decAtomic s1 (t, .go) = .ok s2 ∧ CowMode s2 ∧ refsSum s2.2 ≤ refsSum s.2 := by
  have hA : CowMode s := .alive live inner count pos pcs
  cases h : s.2[t]? with
  | none => exact ⟨s, s, thStepAt_none h, thStepAt_none h, hA, by omega⟩
  | some th =>
    have hmem := List.mem_of_getElem? h
    rcases pcs th hmem with hp | ⟨hp, hr⟩
    · by_cases hz : th.refs = 0
      · exact ⟨s, s, thStepAt_skip h hp (Or.inl hz), thStepAt_skip h hp (Or.inr rfl), hA, by omega⟩
      · have hle := refs_le_sum h
        have hr : thStep decAtomic s.1 th .modify = .ok ({ s.1 with counter := decRef s.1.counter },
            { refs := th.refs - 1, pc := if decAtomic s.1.counter then .take else .clone }) := by
          unfold thStep; rw [hp]; simp only; rw [if_neg (by simp [hz]), if_neg (by simp [live])]
        rw [pred_counter (by omega) (by omega)] at hr
        by_cases h1 : s.1.counter = 1
        · have hd : decAtomic s.1.counter = true := by rw [h1]; rfl
          have h0 : th.refs - 1 = 0 := by omega
          rw [hd] at hr
          simp only [if_true, h0] at hr
          have e1 := thStepAt_some h hr
          have h' : (s.2.set t (⟨0, .take⟩ : Th))[t]? = some ⟨0, .take⟩ := set_get_self h
          have hr2 : thStep decAtomic { s.1 with counter := s.1.counter - 1 } ⟨0, .take⟩ .go =
              .ok ({ counter := s.1.counter - 1, live := false, inner := .owned }, ⟨0, .idle⟩) := by
            unfold thStep; simp only; rw [if_pos ⟨live, inner⟩]
          have e2 := thStepAt_some (s := ({ s.1 with counter := s.1.counter - 1 }, s.2.set t ⟨0, .take⟩)) h' hr2
          have hs := refsSum_set (th' := ⟨0, .idle⟩) h
          rw [List.set_set] at e2
          simp only at hs
          refine ⟨_, _, e1, e2, .dead rfl (by intro hh; cases hh) ?_, by simp only; omega⟩
          intro q hq
          obtain ⟨j, hj⟩ := List.mem_iff_getElem?.1 hq
          simp only at hj
          by_cases hjt : t = j
          · subst hjt
            rw [set_get_self h] at hj
            exact (Option.some.inj hj).symm
          · have hz : q.refs = 0 := refsSum_zero (ths := s.2.set t ⟨0, .idle⟩) (by omega) hj
            rw [List.getElem?_set_ne hjt] at hj
            rcases pcs q (List.mem_of_getElem? hj) with hq | ⟨_, hq⟩
            · cases q; simp only at hz hq; rw [hz, hq]
            · omega
        · have hd : decAtomic s.1.counter = false := by unfold decAtomic; simpa using h1
          rw [hd] at hr
          simp only [Bool.false_eq_true, if_false] at hr
          have e1 := thStepAt_some h hr
          have h' : (s.2.set t (⟨th.refs - 1, .clone⟩ : Th))[t]? = some ⟨th.refs - 1, .clone⟩ := set_get_self h
          have hr2 : thStep decAtomic { s.1 with counter := s.1.counter - 1 } ⟨th.refs - 1, .clone⟩ .go =
              .ok ({ s.1 with counter := s.1.counter - 1 }, ⟨th.refs - 1, .idle⟩) := by
            unfold thStep; simp only; rw [if_pos ⟨live, inner⟩]
          have e2 := thStepAt_some (s := ({ s.1 with counter := s.1.counter - 1 }, s.2.set t ⟨th.refs - 1, .clone⟩)) h' hr2
          have hs := refsSum_set (th' := ⟨th.refs - 1, .idle⟩) h
          rw [List.set_set] at e2
          simp only at hs
          refine ⟨_, _, e1, e2, .alive live inner (by simp only; omega) (by simp only; omega) ?_, by simp only; omega⟩
          intro q hq
          rcases List.mem_or_eq_of_mem_set hq with hq | rfl
          · exact pcs q hq
          · exact Or.inl rfl
    · have hr' : thStep decAtomic s.1 th .modify = .ok (s.1, { th with pc := .idle }) := by
        unfold thStep; rw [hp]; simp only; rw [if_pos inner]
      have hs := refsSum_set (th' := { th with pc := .idle }) h
      have hA' : CowMode (s.1, s.2.set t { th with pc := .idle }) := by
        refine .alive live inner (by simp only at hs ⊢; omega) (by simp only at hs ⊢; omega) ?_
        intro q hq
        rcases List.mem_or_eq_of_mem_set hq with hq | rfl
        · exact pcs q hq
        · exact Or.inl rfl
      exact ⟨_, _, thStepAt_some h hr', thStepAt_skip (set_get_self h) rfl (Or.inr rfl), hA', by simp only at hs ⊢; omega⟩

/-- In the schedule each modification is made in one go. -/
def NoSplit : List (Nat × Act) → Prop
  | [] => True
  | (t, .modify) :: (u, .go) :: rest => u = t ∧ NoSplit rest
  | (_, .modify) :: _ => False
  | _ :: rest => NoSplit rest

theorem mode_step {s : ShMem × List Th} (hm : CowMode s) (hb : refsSum s.2 + 1 < 2 ^ 32) {e : Nat × Act} (he : e.2 ≠ .modify) :
    ∃ s', thStepAt decAtomic s e = .ok s' ∧ CowMode s' ∧ refsSum s'.2 ≤ refsSum s.2 + 1 := by
  cases hm with
  | alive live inner count pos pcs => exact alive_step live inner count pos pcs hb he
  | releasing t ht live inner count others =>
    obtain ⟨s', a, b, c⟩ := releasing_step ht live inner count others e
    exact ⟨s', a, b, by omega⟩
  | dead live inner pcs => exact ⟨s, dead_step live inner pcs e, .dead live inner pcs, by omega⟩

theorem mode_modify {s : ShMem × List Th} (hm : CowMode s) (hb : refsSum s.2 + 1 < 2 ^ 32) (t : Nat) :
    ∃ s1 s2, thStepAt decAtomic s (t, .modify) = .ok s1 ∧ thStepAt decAtomic s1 (t, .go) = .ok s2 ∧ CowMode s2 ∧ refsSum s2.2 ≤ refsSum s.2 := by
  cases hm with
  | alive live inner count pos pcs => exact alive_modify live inner count pos pcs hb t
  | releasing u ht live inner count others =>
    obtain ⟨s1, a, b, c⟩ := releasing_step ht live inner count others (t, .modify)
    obtain ⟨s2, a', b', c'⟩ := (show ∃ s2, thStepAt decAtomic s1 (t, .go) = .ok s2 ∧ CowMode s2 ∧ refsSum s2.2 = refsSum s1.2 by
      cases b with
      | alive live' inner' count' pos' pcs' =>
        have h0 : refsSum s.2 = 0 := by
          have : ∀ ths : List Th, (∀ (j : Nat) (th : Th), ths[j]? = some th → th.refs = 0) → refsSum ths = 0 := by
            intro ths
            induction ths with
            | nil => intro _; rfl
            | cons x ths ih =>
              intro hh
              have h1 := hh 0 x rfl
              have h2 := ih (fun j th hj => hh (j + 1) th (by rw [List.getElem?_cons_succ]; exact hj))
              simp only [refsSum, List.map_cons, List.sum_cons] at h2 ⊢
              omega
          exact this s.2 (fun j th hj => (others j th hj).1)
        omega
      | releasing u' ht' live' inner' count' others' => exact releasing_step ht' live' inner' count' others' (t, .go)
      | dead live' inner' pcs' => exact ⟨s1, dead_step live' inner' pcs' _, .dead live' inner' pcs', rfl⟩)
    exact ⟨s1, s2, a, a', b', by omega⟩
  | dead live inner pcs => exact ⟨s, s, dead_step live inner pcs _, dead_step live inner pcs _, .dead live inner pcs, by omega⟩

theorem noSplit_run : ∀ (sched : List (Nat × Act)) (s : ShMem × List Th), NoSplit sched → CowMode s → refsSum s.2 + sched.length < 2 ^ 32 →
    ∃ s', thRun decAtomic sched s = .ok s' ∧ CowMode s' := by
  intro sched
  induction sched using NoSplit.induct with
  | case1 => intro s _ hm _; exact ⟨s, rfl, hm⟩
  | case2 t u rest ih =>
    intro s hn hm hb
    obtain ⟨rfl, hn⟩ := hn
    simp only [List.length_cons] at hb
    obtain ⟨s1, s2, e1, e2, m2, l2⟩ := mode_modify hm (by omega) u
    obtain ⟨s', e', m'⟩ := ih s2 hn m2 (by omega)
    exact ⟨s', by rw [thRun, e1, ok_bind, thRun, e2, ok_bind, e'], m'⟩
  | case3 t rest hne => intro s hn; simp [NoSplit] at hn
  | case4 e rest h1 h2 ih =>
    intro s hn hm hb
    simp only [List.length_cons] at hb
    have hne : e.2 ≠ .modify := by
      intro he
      obtain ⟨a, b⟩ := e
      simp only at he
      subst he
      exact h2 a rfl
    have hn' : NoSplit rest := by
      unfold NoSplit at hn
      split at hn
      · simp_all
      · simp_all
      · simp_all
      · rename_i heq; cases heq; exact hn
    obtain ⟨s1, e1, m1, l1⟩ := mode_step hm (by omega) hne
    obtain ⟨s', e', m'⟩ := ih s1 hn' m1 (by omega)
    exact ⟨s', by rw [thRun, e1, ok_bind, e'], m'⟩

theorem start_sum (refs : List Nat) : refsSum (thStart refs).2 = refs.sum := by
  unfold thStart refsSum
  simp only [List.map_map]
  congr 1
  exact (List.map_congr_left (fun _ _ => rfl)).trans (List.map_id refs)

theorem start_mode {refs : List Nat} (h : 0 < refs.sum) : CowMode (thStart refs) := by
  refine .alive rfl rfl (start_sum refs).symm (by rw [start_sum]; exact h) ?_
  intro th hth
  obtain ⟨n, _, rfl⟩ := List.mem_map.1 hth
  exact Or.inl rfl

/-! ### Somebody keeps a reference -/

structure Kept (k n : Nat) (s : ShMem × List Th) : Prop where
  live : s.1.live = true
  inner : s.1.inner = .shared
  count : s.1.counter = refsSum s.2
  keeper : s.2[k]? = some ⟨n, .idle⟩
  pcs : ∀ th ∈ s.2, th.pc = .idle ∨ th.pc = .visit ∨ th.pc = .clone

theorem two_refs {ths : List Th} {i j : Nat} {a b : Th} (hi : ths[i]? = some a) (hj : ths[j]? = some b) (hne : i ≠ j) : a.refs + b.refs ≤ refsSum ths := by
  have h1 := refsSum_set (th' := ⟨0, .idle⟩) hi
  have h2 : (ths.set i ⟨0, .idle⟩)[j]? = some b := by rw [List.getElem?_set_ne hne]; exact hj
  have := refs_le_sum h2
  simp only at h1
  omega

theorem kept_step {k n : Nat} (hn : 0 < n) {s : ShMem × List Th} (h : Kept k n s) (hb : refsSum s.2 + 1 < 2 ^ 32) {e : Nat × Act} (he : e.1 ≠ k) :
    ∃ s', thStepAt decAtomic s e = .ok s' ∧ Kept k n s' ∧ refsSum s'.2 ≤ refsSum s.2 + 1 := by
  obtain ⟨t, a⟩ := e
  simp only at he
  cases hg : s.2[t]? with
  | none => exact ⟨s, thStepAt_none hg, h, by omega⟩
  | some th =>
    have two := two_refs hg h.keeper he
    simp only at two
    have fin : ∀ (m : ShMem) (x : Th), thStep decAtomic s.1 th a = .ok (m, x) → m.live = true → m.inner = .shared → m.counter + th.refs = s.1.counter + x.refs →
        x.refs ≤ th.refs + 1 → (x.pc = .idle ∨ x.pc = .visit ∨ x.pc = .clone) →
        ∃ s', thStepAt decAtomic s (t, a) = .ok s' ∧ Kept k n s' ∧ refsSum s'.2 ≤ refsSum s.2 + 1 := by
      intro m x hr l i c1 c2 hp
      have hs := refsSum_set (th' := x) hg
      have hc := h.count
      refine ⟨_, thStepAt_some hg hr, ⟨l, i, by simp only; omega, ?_, ?_⟩, by simp only; omega⟩
      · simp only
        rw [List.getElem?_set_ne he]
        exact h.keeper
      · intro q hq
        rcases List.mem_or_eq_of_mem_set hq with hq | rfl
        · exact h.pcs q hq
        · exact hp
    have hc := h.count
    rcases h.pcs th (List.mem_of_getElem? hg) with hp | hp | hp
    · by_cases hz : th.refs = 0 ∨ a = .go
      · exact ⟨s, thStepAt_skip hg hp hz, h, by omega⟩
      · have hz' : th.refs ≠ 0 := fun hh => hz (Or.inl hh)
        have hd : decAtomic s.1.counter = false := by
          unfold decAtomic
          have : s.1.counter ≠ 1 := by omega
          simpa using this
        cases a with
        | go => exact absurd (Or.inr rfl) hz
        | query =>
          refine fin s.1 { th with pc := .visit } ?_ h.live h.inner rfl (by simp only; omega) (Or.inr (Or.inl rfl))
          unfold thStep; rw [hp]; simp only; rw [if_neg hz, if_neg (by simp [h.live])]
        | copy =>
          refine fin { s.1 with counter := incRef s.1.counter } { th with refs := th.refs + 1 } ?_ h.live h.inner ?_ (by simp only; omega) (Or.inl hp)
          · unfold thStep; rw [hp]; simp only; rw [if_neg hz, if_neg (by simp [h.live])]
          · simp only
            rw [succ_counter (by omega)]
            omega
        | free =>
          refine fin { s.1 with counter := decRef s.1.counter } ⟨th.refs - 1, .idle⟩ ?_ h.live h.inner ?_ (by simp only; omega) (Or.inl rfl)
          · unfold thStep; rw [hp]; simp only; rw [if_neg hz, if_neg (by simp [h.live]), hd]; rfl
          · simp only
            rw [pred_counter (by omega) (by omega)]
            omega
        | modify =>
          refine fin { s.1 with counter := decRef s.1.counter } ⟨th.refs - 1, .clone⟩ ?_ h.live h.inner ?_ (by simp only; omega) (Or.inr (Or.inr rfl))
          · unfold thStep; rw [hp]; simp only; rw [if_neg hz, if_neg (by simp [h.live]), hd]; rfl
          · simp only
            rw [pred_counter (by omega) (by omega)]
            omega
    · refine fin s.1 { th with pc := .idle } ?_ h.live h.inner rfl (by simp only; omega) (Or.inl rfl)
      unfold thStep; rw [hp]; simp only; rw [if_pos h.inner]
    · refine fin s.1 { th with pc := .idle } ?_ h.live h.inner rfl (by simp only; omega) (Or.inl rfl)
      unfold thStep; rw [hp]; simp only; rw [if_pos ⟨h.live, h.inner⟩]

theorem kept_run {k n : Nat} (hn : 0 < n) : ∀ (sched : List (Nat × Act)) (s : ShMem × List Th), Kept k n s → (∀ e ∈ sched, e.1 ≠ k) →
    refsSum s.2 + sched.length < 2 ^ 32 → ∃ s', thRun decAtomic sched s = .ok s' ∧ Kept k n s'
  | [], s, h, _, _ => ⟨s, rfl, h⟩
  | e :: sched, s, h, he, hb => by
    simp only [List.length_cons] at hb
    obtain ⟨s1, e1, k1, l1⟩ := kept_step hn h (by omega) (he e (by simp))
    obtain ⟨s', e', k'⟩ := kept_run hn sched s1 k1 (fun x hx => he x (by simp [hx])) (by omega)
    exact ⟨s', by rw [thRun, e1, ok_bind, e'], k'⟩

theorem start_kept {refs : List Nat} {k n : Nat} (h : refs[k]? = some n) : Kept k n (thStart refs) := by
  refine ⟨rfl, rfl, (start_sum refs).symm, ?_, ?_⟩
  · unfold thStart
    simp only
    rw [List.getElem?_map, h]
    rfl
  · intro th hth
    obtain ⟨m, _, rfl⟩ := List.mem_map.1 hth
    exact Or.inl rfl

/-! ### The counter without atomics -/

theorem none_step {m : ShMem} {th : Th} {a : Act} {r : ShMem × Th} (h : m.live = true) (h1 : th.pc ≠ .release) (h2 : th.pc ≠ .take)
    (hr : thStep decNone m th a = .ok r) : r.1.live = true ∧ r.2.pc ≠ .release ∧ r.2.pc ≠ .take := by
  obtain ⟨n, pc⟩ := th
  simp only at h1 h2
  unfold thStep at hr
  cases pc with
  | release => exact absurd rfl h1
  | take => exact absurd rfl h2
  | visit =>
    simp only at hr
    by_cases hi : m.inner = .shared
    · rw [if_pos hi] at hr
      have := (Out.ok.inj hr).symm
      subst this
      exact ⟨h, by simp, by simp⟩
    · rw [if_neg hi] at hr; cases hr
  | clone =>
    simp only at hr
    by_cases hi : m.live = true ∧ m.inner = .shared
    · rw [if_pos hi] at hr
      have := (Out.ok.inj hr).symm
      subst this
      exact ⟨h, by simp, by simp⟩
    · rw [if_neg hi] at hr; cases hr
  | idle =>
    simp only at hr
    by_cases hz : n = 0 ∨ a = .go
    · rw [if_pos hz] at hr
      have := (Out.ok.inj hr).symm
      subst this
      exact ⟨h, by simp, by simp⟩
    · rw [if_neg hz] at hr
      rw [if_neg (show ¬ ¬ m.live = true from fun hh => hh h)] at hr
      cases a with
      | go => exact absurd (Or.inr rfl) hz
      | query => have := (Out.ok.inj hr).symm; subst this; exact ⟨h, by simp, by simp⟩
      | copy => have := (Out.ok.inj hr).symm; subst this; exact ⟨h, by simp, by simp⟩
      | free =>
        have h1 := congrArg Prod.fst (Out.ok.inj hr)
        have h2 := congrArg Prod.snd (Out.ok.inj hr)
        simp only [decNone, Bool.false_eq_true, if_false] at h1 h2
        rw [← h1, ← h2]
        exact ⟨h, ThPc.noConfusion, ThPc.noConfusion⟩
      | modify =>
        have h1 := congrArg Prod.fst (Out.ok.inj hr)
        have h2 := congrArg Prod.snd (Out.ok.inj hr)
        simp only [decNone, Bool.false_eq_true, if_false] at h1 h2
        rw [← h1, ← h2]
        exact ⟨h, ThPc.noConfusion, ThPc.noConfusion⟩

theorem none_stepAt {s s' : ShMem × List Th} {e : Nat × Act} (h : s.1.live = true) (hp : ∀ th ∈ s.2, th.pc ≠ .release ∧ th.pc ≠ .take)
    (he : thStepAt decNone s e = .ok s') : s'.1.live = true ∧ ∀ th ∈ s'.2, th.pc ≠ .release ∧ th.pc ≠ .take := by
  cases hg : s.2[e.1]? with
  | none =>
    rw [thStepAt_none (t := e.1) (a := e.2) hg] at he
    have := Out.ok.inj he
    subst this
    exact ⟨h, hp⟩
  | some th =>
    have hpc := hp th (List.mem_of_getElem? hg)
    unfold thStepAt at he
    rw [hg] at he
    simp only at he
    cases hr : thStep decNone s.1 th e.2 with
    | oob => rw [hr, oob_bind] at he; cases he
    | fail => rw [hr, fail_bind] at he; cases he
    | ok r =>
      rw [hr, ok_bind] at he
      have := (Out.ok.inj he).symm
      subst this
      have key := none_step h hpc.1 hpc.2 hr
      refine ⟨key.1, ?_⟩
      intro q hq
      rcases List.mem_or_eq_of_mem_set hq with hq | rfl
      · exact hp q hq
      · exact key.2

theorem none_run (sched : List (Nat × Act)) : ∀ (s s' : ShMem × List Th), s.1.live = true → (∀ th ∈ s.2, th.pc ≠ .release ∧ th.pc ≠ .take) →
    thRun decNone sched s = .ok s' → s'.1.live = true := by
  induction sched with
  | nil =>
    intro s s' h _ e
    have := Out.ok.inj e
    rw [← this]
    exact h
  | cons ev sched ih =>
    intro s s' h hp e
    rw [thRun] at e
    cases hr : thStepAt decNone s ev with
    | oob => rw [hr, oob_bind] at e; cases e
    | fail => rw [hr, fail_bind] at e; cases e
    | ok r =>
      rw [hr, ok_bind] at e
      obtain ⟨a, b⟩ := none_stepAt h hp hr
      exact ih r s' a b e

end CRoaring
