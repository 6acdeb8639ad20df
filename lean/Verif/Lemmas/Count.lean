import Verif.Spec

/-! Counting and sorted-enumeration lemmas about characteristic functions. -/
namespace CRoaring
open Spec

/-- Strictly increasing list. -/
abbrev SSorted (l : List Nat) : Prop := l.Pairwise (· < ·)

theorem mem_enum {n : Nat} {s : NSet} {x : Nat} : x ∈ enum n s ↔ x < n ∧ s x = true := by
  simp [enum]

theorem enum_sorted (n : Nat) (s : NSet) : SSorted (enum n s) :=
  List.pairwise_lt_range.filter _

theorem enum_zero (s : NSet) : enum 0 s = [] := rfl

theorem enum_succ (n : Nat) (s : NSet) :
    enum (n + 1) s = enum n s ++ (if s n then [n] else []) := by
  simp only [enum, List.range_succ, List.filter_append]
  congr 1
  by_cases h : s n <;> simp [h]

@[simp] theorem card_zero (s : NSet) : card 0 s = 0 := rfl

theorem card_succ (n : Nat) (s : NSet) : card (n + 1) s = card n s + (if s n then 1 else 0) := by
  simp only [card, enum_succ, List.length_append]
  split <;> simp

theorem card_le (n : Nat) (s : NSet) : card n s ≤ n := by
  induction n with
  | zero => simp
  | succ n ih => rw [card_succ]; split <;> omega

theorem card_congr {n : Nat} {s t : NSet} (h : ∀ x, x < n → s x = t x) : card n s = card n t := by
  induction n with
  | zero => simp
  | succ n ih =>
    rw [card_succ, card_succ, ih (fun x hx => h x (by omega)), h n (by omega)]

theorem enum_congr {n : Nat} {s t : NSet} (h : ∀ x, x < n → s x = t x) : enum n s = enum n t := by
  induction n with
  | zero => simp [enum_zero]
  | succ n ih =>
    rw [enum_succ, enum_succ, ih (fun x hx => h x (by omega)), h n (by omega)]

theorem card_add (n m : Nat) (s : NSet) :
    card (n + m) s = card n s + card m (fun x => s (n + x)) := by
  induction m with
  | zero => simp
  | succ m ih => rw [← Nat.add_assoc, card_succ, card_succ, ih]; omega

theorem enum_add (n m : Nat) (s : NSet) :
    enum (n + m) s = enum n s ++ (enum m (fun x => s (n + x))).map (n + ·) := by
  induction m with
  | zero => simp [enum_zero]
  | succ m ih =>
    rw [← Nat.add_assoc, enum_succ, enum_succ, ih]
    split <;> simp_all

theorem card_mono_n {n m : Nat} (s : NSet) (h : n ≤ m) : card n s ≤ card m s := by
  obtain ⟨k, rfl⟩ := Nat.exists_eq_add_of_le h
  rw [card_add]; omega

theorem card_mono {n : Nat} {s t : NSet} (h : ∀ x, x < n → s x = true → t x = true) :
    card n s ≤ card n t := by
  induction n with
  | zero => simp
  | succ n ih =>
    rw [card_succ, card_succ]
    have := ih (fun x hx => h x (by omega))
    have h2 := h n (by omega)
    cases hs : s n <;> cases ht : t n <;> simp_all <;> omega

theorem card_incl_excl (n : Nat) (s t : NSet) :
    card n (union s t) + card n (inter s t) = card n s + card n t := by
  induction n with
  | zero => simp
  | succ n ih =>
    cases hs : s n <;> cases ht : t n <;> simp [card_succ, union, inter, hs, ht] <;> omega

theorem card_diff (n : Nat) (s t : NSet) :
    card n (diff s t) + card n (inter s t) = card n s := by
  induction n with
  | zero => simp
  | succ n ih =>
    cases hs : s n <;> cases ht : t n <;> simp [card_succ, diff, inter, hs, ht] <;> omega

theorem card_symm (n : Nat) (s t : NSet) :
    card n (symm s t) + 2 * card n (inter s t) = card n s + card n t := by
  induction n with
  | zero => simp
  | succ n ih =>
    cases hs : s n <;> cases ht : t n <;> simp [card_succ, symm, inter, hs, ht] <;> omega

theorem card_compl (n : Nat) (s : NSet) : card n (fun x => !s x) + card n s = n := by
  induction n with
  | zero => simp
  | succ n ih =>
    simp only [card_succ]
    cases s n <;> simp <;> omega

theorem card_false (n : Nat) : card n (fun _ => false) = 0 := by
  induction n with
  | zero => simp
  | succ n ih => simp [card_succ, ih]

theorem card_true (n : Nat) : card n (fun _ => true) = n := by
  induction n with
  | zero => simp
  | succ n ih => simp [card_succ, ih]

theorem card_eq_zero {n : Nat} {s : NSet} : card n s = 0 ↔ ∀ x, x < n → s x = false := by
  constructor
  · intro h x hx
    cases hs : s x with
    | false => rfl
    | true =>
      have : x ∈ enum n s := mem_enum.2 ⟨hx, hs⟩
      have h0 : enum n s = [] := List.length_eq_zero_iff.1 h
      rw [h0] at this; cases this
  · intro h
    rw [card_congr (t := fun _ => false) h, card_false]

theorem card_pos {n : Nat} {s : NSet} : 0 < card n s ↔ ∃ x, x < n ∧ s x = true := by
  constructor
  · intro h
    have : enum n s ≠ [] := by
      intro h0; simp [card, h0] at h
    obtain ⟨x, hx⟩ := List.exists_mem_of_ne_nil _ this
    exact ⟨x, mem_enum.1 hx⟩
  · rintro ⟨x, hx, hs⟩
    rcases Nat.eq_zero_or_pos (card n s) with h | h
    · rw [card_eq_zero] at h; simp [h x hx] at hs
    · exact h

theorem card_eq_n {n : Nat} {s : NSet} : card n s = n ↔ ∀ x, x < n → s x = true := by
  have := card_compl n s
  constructor
  · intro h x hx
    have h0 : card n (fun x => !s x) = 0 := by omega
    have := card_eq_zero.1 h0 x hx
    simpa using this
  · intro h
    have h0 : card n (fun x => !s x) = 0 := card_eq_zero.2 (fun x hx => by simp [h x hx])
    omega

/-- Equal cardinality and inclusion give equality. -/
theorem eq_of_card_le {n : Nat} {s t : NSet} (h : ∀ x, x < n → s x = true → t x = true)
    (hc : card n t ≤ card n s) : ∀ x, x < n → s x = t x := by
  have h1 : card n (inter t s) = card n s :=
    card_congr (fun x hx => by
      simp only [inter]
      cases hs : s x with
      | false => simp
      | true => simp [h x hx hs])
  have h2 := card_diff n t s
  have h3 : card n (diff t s) = 0 := by omega
  intro x hx
  have := card_eq_zero.1 h3 x hx
  cases hs : s x with
  | true => simp [h x hx hs]
  | false => simp [diff, hs] at this; simp [this]

/-- Counting a set that lives in the window `[a, a + n)`. -/
theorem card_window {N a n : Nat} {s t : NSet} (h : a + n ≤ N) (h0 : ∀ x, x < a → s x = false)
    (h1 : ∀ x, a + n ≤ x → x < N → s x = false) (h2 : ∀ x, x < n → s (a + x) = t x) :
    card N s = card n t := by
  obtain ⟨m, rfl⟩ := Nat.exists_eq_add_of_le h
  rw [Nat.add_assoc, card_add, card_add, card_eq_zero.2 h0,
    card_eq_zero (n := m) |>.2 (fun x hx => h1 _ (by omega) (by omega)), card_congr h2]
  omega

theorem card_range (n lo hi : Nat) : card n (range lo hi) = min hi n - lo := by
  induction n with
  | zero => simp
  | succ n ih =>
    rw [card_succ, ih]
    by_cases h : lo ≤ n ∧ n < hi
    · simp [range, h]; omega
    · have : range lo hi n = false := by
        simp only [range, Bool.and_eq_false_iff, decide_eq_false_iff_not]; omega
      simp [this]; omega

/-- Number of members strictly below a member is smaller. -/
theorem card_lt_of_mem {n x : Nat} {s : NSet} (hx : x < n) (hs : s x = true) :
    card x s < card n s := by
  have : card (x + 1) s ≤ card n s := card_mono_n s hx
  rw [card_succ, hs] at this; simp at this; omega

/-- Two strictly increasing lists with the same members are equal. -/
theorem sorted_ext {l m : List Nat} (hl : SSorted l) (hm : SSorted m)
    (h : ∀ x, x ∈ l ↔ x ∈ m) : l = m := by
  induction l generalizing m with
  | nil =>
    cases m with
    | nil => rfl
    | cons b m => exact absurd ((h b).2 List.mem_cons_self) (by simp)
  | cons a l ih =>
    cases m with
    | nil => exact absurd ((h a).1 List.mem_cons_self) (by simp)
    | cons b m =>
      have ha : a ∈ b :: m := (h a).1 List.mem_cons_self
      have hb : b ∈ a :: l := (h b).2 List.mem_cons_self
      have hla := List.pairwise_cons.1 hl
      have hmb := List.pairwise_cons.1 hm
      have hab : a = b := by
        rcases List.mem_cons.1 ha with h1 | h1
        · exact h1
        · rcases List.mem_cons.1 hb with h2 | h2
          · exact h2.symm
          · have := hla.1 b h2; have := hmb.1 a h1; omega
      subst hab
      congr 1
      refine ih hla.2 hmb.2 (fun x => ?_)
      constructor
      · intro hx
        rcases List.mem_cons.1 ((h x).1 (List.mem_cons_of_mem _ hx)) with h1 | h1
        · subst h1; exact absurd (hla.1 x hx) (by omega)
        · exact h1
      · intro hx
        rcases List.mem_cons.1 ((h x).2 (List.mem_cons_of_mem _ hx)) with h1 | h1
        · subst h1; exact absurd (hmb.1 x hx) (by omega)
        · exact h1

/-- A strictly increasing list is the enumeration of its members. -/
theorem sorted_eq_enum {l : List Nat} {n : Nat} {s : NSet} (hl : SSorted l)
    (hs : ∀ x, x ∈ l ↔ x < n ∧ s x = true) : l = enum n s :=
  sorted_ext hl (enum_sorted n s) (fun x => by rw [hs, mem_enum])

theorem sorted_length {l : List Nat} {n : Nat} {s : NSet} (hl : SSorted l)
    (hs : ∀ x, x ∈ l ↔ x < n ∧ s x = true) : l.length = card n s := by
  rw [sorted_eq_enum hl hs]; rfl

theorem sorted_length_ofList {l : List Nat} {n : Nat} (hl : SSorted l) (hb : ∀ x ∈ l, x < n) :
    card n (ofList l) = l.length :=
  (sorted_length hl (fun x => by simp only [ofList, decide_eq_true_eq]; exact ⟨fun h => ⟨hb x h, h⟩, fun h => h.2⟩)).symm

/-- `card k s` is the position of `k` in the enumeration. -/
theorem enum_getElem_card {n x : Nat} {s : NSet} (hx : x < n) (hs : s x = true) :
    (enum n s)[card x s]? = some x := by
  obtain ⟨k, rfl⟩ := Nat.exists_eq_add_of_lt hx
  rw [show x + k + 1 = (x + 1) + k by omega, enum_add, enum_succ, hs]
  simp only [card]
  rw [List.append_assoc, List.getElem?_append_right (by omega)]
  simp

theorem enum_getElem_lt {n k : Nat} {s : NSet} (h : k < card n s) :
    ∃ x, (enum n s)[k]? = some x ∧ x < n ∧ s x = true ∧ card x s = k := by
  have hk : k < (enum n s).length := h
  refine ⟨(enum n s)[k], List.getElem?_eq_getElem hk, ?_⟩
  have hm := mem_enum.1 (List.getElem_mem hk)
  refine ⟨hm.1, hm.2, ?_⟩
  have h2 := enum_getElem_card hm.1 hm.2
  have hlt := card_lt_of_mem hm.1 hm.2
  have hlt' : card (enum n s)[k] s < (enum n s).length := hlt
  rw [List.getElem?_eq_getElem hlt'] at h2
  have h3 := Option.some.inj h2
  rcases Nat.lt_trichotomy (card (enum n s)[k] s) k with h4 | h4 | h4
  · have := List.pairwise_iff_getElem.1 (enum_sorted n s) _ _ hlt' hk h4; omega
  · exact h4
  · have := List.pairwise_iff_getElem.1 (enum_sorted n s) _ _ hk hlt' h4; omega

end CRoaring
