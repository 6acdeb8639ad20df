import Verif.Model.Art
import Verif.Lemmas.Bits
import Verif.Lemmas.Count
/-
The four layouts of an inner node of the radix tree: each operation in terms of the partial function `find` from key
bytes to children.
-/
set_option linter.unusedSimpArgs false
set_option linter.unusedVariables false
namespace CRoaring
open Spec

theorem card_set_true {n v : Nat} {s t : NSet} (hv : v < n) (hs : s v = false) (ht : t v = true)
    (h : ∀ x, x ≠ v → t x = s x) : card n t = card n s + 1 := by
  induction n with
  | zero => omega
  | succ n ih =>
    rw [card_succ, card_succ]
    rcases Nat.lt_or_ge v n with hlt | hge
    · rw [ih hlt, h n (by omega)]; omega
    · have hvn : v = n := by omega
      subst hvn
      rw [card_congr (s := t) (t := s) (fun x hx => h x (by omega)), hs, ht]; simp

section
variable {α : Type}

theorem getD_ge {β : Type} {l : List β} {i : Nat} (d : β) (h : l.length ≤ i) : l.getD i d = d := by
  simp [List.getD, List.getElem?_eq_none h]

theorem getD_replicate_self {β : Type} (n i : Nat) (d : β) : (List.replicate n d).getD i d = d := by
  simp only [List.getD, List.getElem?_replicate]
  split <;> rfl

/-! ### Sorted keys -/

structure KsOk (ks : List (Nat × α)) : Prop where
  sorted : ks.Pairwise (fun p q => p.1 < q.1)
  byte : ∀ p ∈ ks, p.1 < 256

theorem findKs_eq_some {ks : List (Nat × α)} (h : KsOk ks) {c : Nat} {x : α} :
    findKs ks c = some x ↔ (c, x) ∈ ks := by
  obtain ⟨h, -⟩ := h
  induction ks with
  | nil => simp [findKs]
  | cons p t ih =>
    rw [List.pairwise_cons] at h
    have ih := ih h.2
    simp only [findKs, List.find?_cons] at ih ⊢
    by_cases hp : p.1 = c
    · have : (p.1 == c) = true := by simpa using hp
      simp only [this, Option.map_some, Option.some.injEq, List.mem_cons]
      constructor
      · intro e; left; rw [← hp, ← e]
      · rintro (e | hm)
        · rw [← e]
        · have := h.1 _ hm; simp only at this; omega
    · have : (p.1 == c) = false := by simpa using hp
      simp only [this, List.mem_cons]
      rw [ih]
      constructor
      · exact Or.inr
      · rintro (e | hm)
        · exact absurd (by rw [← e]) hp
        · exact hm

theorem findKs_eq_none {ks : List (Nat × α)} {c : Nat} : findKs ks c = none ↔ ∀ p ∈ ks, p.1 ≠ c := by
  simp [findKs, List.find?_eq_none]

theorem mem_insertKs {ks : List (Nat × α)} {x : α} {key : Nat} {p : Nat × α} :
    p ∈ insertKs ks x key ↔ p = (key, x) ∨ p ∈ ks := by
  have := List.takeWhile_append_dropWhile (p := fun p : Nat × α => decide (p.1 ≤ key)) (l := ks)
  constructor
  · intro hm
    simp only [insertKs, List.mem_append, List.mem_cons] at hm
    rw [← this, List.mem_append]
    grind
  · intro hm
    simp only [insertKs, List.mem_append, List.mem_cons]
    rw [← this, List.mem_append] at hm
    grind

theorem length_insertKs (ks : List (Nat × α)) (x : α) (key : Nat) : (insertKs ks x key).length = ks.length + 1 := by
  have := congrArg List.length (List.takeWhile_append_dropWhile (p := fun p : Nat × α => decide (p.1 ≤ key)) (l := ks))
  simp only [insertKs, List.length_append, List.length_cons] at this ⊢
  omega

theorem mem_takeWhile_prop {p : Nat × α → Bool} {l : List (Nat × α)} {x : Nat × α} (h : x ∈ l.takeWhile p) :
    p x = true := by
  induction l with
  | nil => simp at h
  | cons a t ih =>
    rw [List.takeWhile_cons] at h
    split at h
    · rcases List.mem_cons.1 h with rfl | h
      · assumption
      · exact ih h
    · simp at h

theorem insertKs_ok {ks : List (Nat × α)} (h : KsOk ks) {key : Nat} (hk : key < 256) (x : α)
    (hn : findKs ks key = none) : KsOk (insertKs ks x key) := by
  rw [findKs_eq_none] at hn
  constructor
  · obtain ⟨h, -⟩ := h
    induction ks with
    | nil => simp [insertKs]
    | cons p t ih =>
      rw [List.pairwise_cons] at h
      have ih := ih (fun q hq => hn q (List.mem_cons_of_mem _ hq)) h.2
      have hp := hn p List.mem_cons_self
      unfold insertKs
      by_cases hle : p.1 ≤ key
      · rw [List.takeWhile_cons_of_pos (by simpa using hle), List.dropWhile_cons_of_pos (by simpa using hle)]
        rw [List.cons_append, List.pairwise_cons]
        refine ⟨fun q hq => ?_, ih⟩
        rcases mem_insertKs.1 hq with rfl | hq
        · simp only; omega
        · exact h.1 q hq
      · rw [List.takeWhile_cons_of_neg (by simpa using hle), List.dropWhile_cons_of_neg (by simpa using hle)]
        rw [List.nil_append, List.pairwise_cons]
        refine ⟨fun q hq => ?_, List.pairwise_cons.2 h⟩
        rcases List.mem_cons.1 hq with rfl | hq
        · simp only; omega
        · have := h.1 q hq; simp only; omega
  · intro p hp
    rcases mem_insertKs.1 hp with rfl | hp
    · exact hk
    · exact h.byte p hp

theorem findKs_insertKs {ks : List (Nat × α)} (h : KsOk ks) {key : Nat} (hk : key < 256) (x : α)
    (hn : findKs ks key = none) (c : Nat) : findKs (insertKs ks x key) c = if c = key then some x else findKs ks c := by
  have h' := insertKs_ok h hk x hn
  by_cases hc : c = key
  · rw [if_pos hc, findKs_eq_some h', mem_insertKs, hc]; exact Or.inl rfl
  · rw [if_neg hc]
    cases e : findKs ks c with
    | none =>
      rw [findKs_eq_none] at e ⊢
      intro p hp
      rcases mem_insertKs.1 hp with rfl | hp
      · exact fun e => hc e.symm
      · exact e p hp
    | some y =>
      rw [findKs_eq_some h] at e
      rw [findKs_eq_some h', mem_insertKs]; exact Or.inr e

theorem insertKs_last {ks : List (Nat × α)} {key : Nat} (x : α) (h : ∀ p ∈ ks, p.1 < key) :
    insertKs ks x key = ks ++ [(key, x)] := by
  unfold insertKs
  have h1 : ks.takeWhile (fun p => decide (p.1 ≤ key)) = ks := by
    induction ks with
    | nil => rfl
    | cons p t ih =>
      have := h p List.mem_cons_self
      rw [List.takeWhile_cons_of_pos (by simpa using Nat.le_of_lt this),
        ih (fun q hq => h q (List.mem_cons_of_mem _ hq))]
  have h2 := List.takeWhile_append_dropWhile (p := fun p : Nat × α => decide (p.1 ≤ key)) (l := ks)
  rw [h1] at h2 ⊢
  have h3 : ks.dropWhile (fun p => decide (p.1 ≤ key)) = [] := by
    have := congrArg List.length h2; simpa using this
  rw [h3]

theorem foldl_insertKs {ks : List (Nat × α)} (h : KsOk ks) :
    ks.foldl (fun m p => insertKs m p.2 p.1) [] = ks := by
  obtain ⟨h, -⟩ := h
  have : ∀ (l m : List (Nat × α)), (m ++ l).Pairwise (fun p q => p.1 < q.1) →
      l.foldl (fun m p => insertKs m p.2 p.1) m = m ++ l := by
    intro l
    induction l with
    | nil => intro m _; simp
    | cons p t ih =>
      intro m hm
      rw [List.foldl_cons, insertKs_last p.2 (fun q hq => (List.pairwise_append.1 hm).2.2 q hq p List.mem_cons_self)]
      rw [ih]
      · simp
      · simpa using hm
  simpa using this ks [] (by simpa using h)

theorem card_findKs {ks : List (Nat × α)} (h : KsOk ks) : card 256 (fun c => (findKs ks c).isSome) = ks.length := by
  have hs : SSorted (ks.map (·.1)) := by
    rw [SSorted, List.pairwise_map]; exact h.sorted
  have := sorted_length (l := ks.map (·.1)) (n := 256) (s := fun c => (findKs ks c).isSome) hs (by
    intro x
    rw [List.mem_map]
    constructor
    · rintro ⟨p, hp, rfl⟩
      refine ⟨h.byte p hp, ?_⟩
      simp only [(findKs_eq_some h (x := p.2)).2 hp, Option.isSome_some]
    · rintro ⟨hx, hs⟩
      obtain ⟨y, hy⟩ := Option.isSome_iff_exists.1 hs
      exact ⟨_, (findKs_eq_some h).1 hy, rfl⟩)
  rw [← this, List.length_map]

/-! ### node48 -/

def N48.K (n : N48 α) (i : Nat) : Nat := n.keys.getD i NODE48_EMPTY

structure W48 (n : N48 α) : Prop where
  kl : n.keys.length = 256
  cl : n.children.length = 48
  kb : ∀ i, n.K i ≤ 48
  inj : ∀ i j, n.K i ≠ 48 → n.K i = n.K j → i = j
  av : ∀ i, n.K i ≠ 48 → n.avail.getLsbD (n.K i) = false
  hi : ∀ s, 48 ≤ s → n.avail.getLsbD s = false
  ch : ∀ i, n.K i ≠ 48 → (n.children.getD (n.K i) none).isSome = true
  cnt : card 256 (fun i => n.K i != 48) = n.count
  cntA : card 48 (fun s => !n.avail.getLsbD s) = n.count

theorem W48.find_eq {n : N48 α} (c : Nat) : n.find c = if n.K c ≠ 48 then n.children.getD (n.K c) none else none := rfl

theorem W48.K_lt {n : N48 α} (h : W48 n) {i : Nat} (hi : n.K i ≠ 48) : i < 256 := by
  rcases Nat.lt_or_ge i 256 with hl | hg
  · exact hl
  · exfalso; apply hi
    simp only [N48.K]; exact getD_ge _ (by rw [h.kl]; exact hg)

theorem W48.find_isSome {n : N48 α} (h : W48 n) (c : Nat) : (n.find c).isSome = (n.K c != 48) := by
  rw [W48.find_eq]
  by_cases hc : n.K c = 48
  · simp [hc]
  · rw [if_pos hc, h.ch c hc]; simp [hc]

theorem W48.find_none {n : N48 α} (h : W48 n) {c : Nat} : n.find c = none ↔ n.K c = 48 := by
  have := h.find_isSome c
  constructor
  · intro e; rw [e] at this; simpa using this.symm
  · intro e; rw [e] at this; simpa using this

theorem W48.card_eq {n : N48 α} (h : W48 n) : card 256 (fun c => (n.find c).isSome) = n.count := by
  rw [← h.cnt]; exact card_congr (fun x _ => h.find_isSome x)

theorem K_create (i : Nat) : (N48.create : N48 α).K i = 48 := by
  exact getD_replicate_self _ _ _

theorem mask48_bit (s : Nat) : NODE48_MASK.getLsbD s = decide (s < 48) := by
  have : NODE48_MASK = BitVec.ofNat 64 (2^48 - 1) := rfl
  rw [this, BitVec.getLsbD_ofNat, Nat.testBit_two_pow_sub_one]
  by_cases h : s < 48
  · simp [h]; omega
  · simp [h]

theorem w48_create : W48 (N48.create : N48 α) := by
  refine ⟨List.length_replicate, List.length_replicate, ?_, ?_, ?_, ?_, ?_, ?_, ?_⟩
  · intro i; rw [K_create]; exact Nat.le_refl _
  · intro i j h; exact absurd (K_create i) h
  · intro i h; exact absurd (K_create i) h
  · intro s h
    show NODE48_MASK.getLsbD s = false
    rw [mask48_bit]; simp; omega
  · intro i h; exact absurd (K_create i) h
  · rw [card_eq_zero.2]; rfl
    intro x _; rw [K_create]; rfl
  · rw [card_eq_zero.2]; rfl
    intro x hx
    show (!NODE48_MASK.getLsbD x) = false
    rw [mask48_bit]; simp; omega

theorem getD_set_eq {β : Type} (l : List β) (i j : Nat) (a d : β) :
    (l.set i a).getD j d = if j = i ∧ i < l.length then a else l.getD j d := by
  simp only [List.getD, List.getElem?_set]
  by_cases h : i = j
  · subst h
    by_cases hl : i < l.length
    · simp [hl]
    · simp [hl]
  · have h' : ¬ (j = i) := fun e => h e.symm
    simp [h, h']

theorem W48.slot {n : N48 α} (h : W48 n) (hc : n.count < 48) :
    ctz n.avail < 48 ∧ n.avail.getLsbD (ctz n.avail) = true := by
  have hne : n.avail ≠ 0#64 := by
    intro e
    have := h.cntA
    rw [card_eq_n.2 (by intro x _; rw [e]; simp)] at this
    omega
  have hs := (ctz_spec hne)
  have ht : n.avail.getLsbD (ctz n.avail) = true := hs.2.1
  refine ⟨?_, ht⟩
  rcases Nat.lt_or_ge (ctz n.avail) 48 with hl | hg
  · exact hl
  · have := h.hi _ hg; rw [ht] at this; cases this

theorem W48.put_K {n : N48 α} (h : W48 n) {key : Nat} (hk : key < 256) (x : Option α) (i : Nat) :
    (n.put x key).K i = if i = key then ctz n.avail else n.K i := by
  simp only [N48.K, N48.put]
  rw [getD_set_eq]
  simp [h.kl, hk]

theorem W48.not_slot {n : N48 α} (h : W48 n) (hc : n.count < 48) (i : Nat) : n.K i ≠ ctz n.avail := by
  intro e
  have hs := h.slot hc
  have h1 := h.av i (by rw [e]; omega)
  rw [e, hs.2] at h1; cases h1

theorem W48.put_ch {n : N48 α} (h : W48 n) (hc : n.count < 48) (x : Option α) (key i : Nat) :
    (n.put x key).children.getD (n.K i) none = n.children.getD (n.K i) none := by
  simp only [N48.put]
  rw [getD_set_eq, if_neg]
  intro ⟨e, _⟩
  exact h.not_slot hc i e

theorem W48.put_ch_slot {n : N48 α} (h : W48 n) (hc : n.count < 48) (x : Option α) (key : Nat) :
    (n.put x key).children.getD (ctz n.avail) none = x := by
  simp only [N48.put]
  rw [getD_set_eq, if_pos]
  exact ⟨rfl, by rw [h.cl]; exact (h.slot hc).1⟩

theorem W48.put_find {n : N48 α} (h : W48 n) (hc : n.count < 48) {key : Nat} (hk : key < 256) (x : α) (c : Nat) :
    (n.put (some x) key).find c = if c = key then some x else n.find c := by
  rw [W48.find_eq, h.put_K hk]
  by_cases hck : c = key
  · have := (h.slot hc).1
    rw [if_pos hck, if_pos hck, if_pos (by omega), h.put_ch_slot hc]
  · rw [if_neg hck, if_neg hck, W48.find_eq, h.put_ch hc]

theorem W48.put_avail {n : N48 α} (h : W48 n) (hc : n.count < 48) (x : Option α) (key s : Nat) :
    (n.put x key).avail.getLsbD s = (n.avail.getLsbD s && !decide (s = ctz n.avail)) := by
  have hs := h.slot hc
  simp only [N48.put, BitVec.getLsbD_and, BitVec.getLsbD_not, oneBit_getLsbD]
  by_cases h64 : s < 64
  · simp [h64]
  · have : n.avail.getLsbD s = false := h.hi s (by omega)
    simp [this]

theorem W48.put_ok {n : N48 α} (h : W48 n) (hc : n.count < 48) {key : Nat} (hk : key < 256) (x : α)
    (hn : n.find key = none) : W48 (n.put (some x) key) := by
  have hs := h.slot hc
  have hK := h.put_K hk (some x)
  have hnk := h.find_none.1 hn
  refine ⟨?_, ?_, ?_, ?_, ?_, ?_, ?_, ?_, ?_⟩
  · simp [N48.put, h.kl]
  · simp [N48.put, h.cl]
  · intro i; rw [hK]; split
    · omega
    · exact h.kb i
  · intro i j hi e
    rw [hK] at hi; rw [hK, hK] at e
    split at e <;> split at e
    · omega
    · exact absurd e.symm (h.not_slot hc j)
    · exact absurd e (h.not_slot hc i)
    · rename_i h1 _
      rw [if_neg h1] at hi
      exact h.inj i j hi e
  · intro i hi
    rw [h.put_avail hc, hK]
    rw [hK] at hi
    by_cases hik : i = key
    · rw [if_pos hik]; simp
    · rw [if_neg hik] at hi ⊢
      rw [h.av i hi]; rfl
  · intro s hs'
    rw [h.put_avail hc, h.hi s hs']; rfl
  · intro i hi
    rw [hK] at hi ⊢
    by_cases hik : i = key
    · rw [if_pos hik, h.put_ch_slot hc]; rfl
    · rw [if_neg hik] at hi ⊢
      rw [h.put_ch hc]; exact h.ch i hi
  · show _ = n.count + 1
    rw [← h.cnt]
    refine card_set_true hk ?_ ?_ ?_
    · simp [hnk]
    · simp only [hK]; simp; omega
    · intro i hi; simp only [hK, if_neg hi]
  · show _ = n.count + 1
    rw [← h.cntA]
    refine card_set_true hs.1 ?_ ?_ ?_
    · simp [hs.2]
    · simp only [h.put_avail hc]; simp
    · intro i hi; simp only [h.put_avail hc]; simp [hi]

theorem foldl_put {l : List (Nat × α)} : ∀ {n : N48 α}, W48 n → n.count + l.length ≤ 48 →
    l.Pairwise (fun p q => p.1 < q.1) → (∀ p ∈ l, p.1 < 256) → (∀ p ∈ l, n.find p.1 = none) →
    W48 (l.foldl (fun m p => m.put (some p.2) p.1) n) ∧
    (l.foldl (fun m p => m.put (some p.2) p.1) n).count = n.count + l.length ∧
    ∀ c, (l.foldl (fun m p => m.put (some p.2) p.1) n).find c = ((findKs l c).or (n.find c)) := by
  induction l with
  | nil => intro n h _ _ _ _; exact ⟨h, rfl, fun c => by simp [findKs]⟩
  | cons p t ih =>
    intro n h hlen hs hb hn
    rw [List.pairwise_cons] at hs
    simp only [List.length_cons] at hlen
    have hc : n.count < 48 := by omega
    have hp := hb p List.mem_cons_self
    obtain ⟨h1, h2, h3⟩ := ih (h.put_ok hc hp p.2 (hn p List.mem_cons_self))
      (by show n.count + 1 + _ ≤ 48; omega) hs.2 (fun q hq => hb q (List.mem_cons_of_mem _ hq))
      (fun q hq => by
        rw [h.put_find hc hp, if_neg, hn q (List.mem_cons_of_mem _ hq)]
        have := hs.1 q hq; omega)
    refine ⟨h1, ?_, fun c => ?_⟩
    · rw [List.foldl_cons, h2]; show n.count + 1 + _ = _; simp only [List.length_cons]; omega
    · rw [List.foldl_cons, h3, h.put_find hc hp]
      simp only [findKs, List.find?_cons]
      by_cases hpc : p.1 = c
      · have : (p.1 == c) = true := by simpa using hpc
        have hnone : t.find? (fun q => q.1 == c) = none := by
          rw [List.find?_eq_none]; intro q hq; have := hs.1 q hq; simp; omega
        simp only [this, hnone, if_pos hpc.symm]; rfl
      · have : (p.1 == c) = false := by simpa using hpc
        have hcp : ¬ c = p.1 := fun e => hpc e.symm
        simp only [this, if_neg hcp]

/-! ### node256 -/

structure W256 (n : N256 α) : Prop where
  cl : n.children.length = 256
  cnt : card 256 (fun c => (n.find c).isSome) = n.count

theorem N256.insert_find {n : N256 α} (h : n.children.length = 256) {key : Nat} (hk : key < 256) (x : Option α) (c : Nat) :
    (n.insert x key).find c = if c = key then x else n.find c := by
  simp only [N256.insert, N256.find]
  rw [getD_set_eq]; simp [h, hk]

theorem W256.insert_ok {n : N256 α} (h : W256 n) {key : Nat} (hk : key < 256) (x : α)
    (hn : n.find key = none) : W256 (n.insert (some x) key) := by
  refine ⟨by simp [N256.insert, h.cl], ?_⟩
  show _ = n.count + 1
  rw [← h.cnt]
  refine card_set_true hk ?_ ?_ ?_
  · simp [hn]
  · simp only [N256.insert_find h.cl hk]; simp
  · intro i hi; simp only [N256.insert_find h.cl hk, if_neg hi]

theorem N256.find_create (c : Nat) : (N256.create : N256 α).find c = none := by
  exact getD_replicate_self _ _ _

theorem grow_aux (n : N48 α) (h : W48 n) (k : Nat) (hk : k ≤ 256) :
    let m := (List.range k).foldl (fun m i => if n.keys.getD i NODE48_EMPTY ≠ NODE48_EMPTY
      then m.insert (n.children.getD (n.keys.getD i NODE48_EMPTY) none) i else m) (N256.create : N256 α)
    m.children.length = 256 ∧ (∀ c, m.find c = if c < k then n.find c else none) ∧
      m.count = card k (fun i => n.K i != 48) := by
  induction k with
  | zero => exact ⟨List.length_replicate, fun c => by simp [N256.find_create], rfl⟩
  | succ k ih =>
    obtain ⟨h1, h2, h3⟩ := ih (by omega)
    simp only [List.range_succ, List.foldl_append, List.foldl_cons, List.foldl_nil] at h1 h2 h3 ⊢
    rw [card_succ]
    show (N256.children (if n.K k ≠ 48 then _ else _)).length = 256 ∧
      (∀ c, N256.find (if n.K k ≠ 48 then _ else _) c = _) ∧ N256.count (if n.K k ≠ 48 then _ else _) = _
    by_cases hc : n.K k = 48
    · simp only [ne_eq, hc, not_true_eq_false, if_false]
      refine ⟨h1, fun c => ?_, ?_⟩
      · rw [h2]
        by_cases e : c = k
        · subst e; simp [h.find_none.2 hc]
        · have : c < k + 1 ↔ c < k := by omega
          simp [this]
      · rw [h3]; simp
    · simp only [ne_eq, hc, not_false_eq_true, if_true]
      refine ⟨(List.length_set).trans h1, fun c => ?_, ?_⟩
      · rw [N256.insert_find h1 (by omega), h2]
        by_cases e : c = k
        · subst e; simp only [if_true, Nat.lt_succ_self, W48.find_eq]
          rw [if_pos hc]; rfl
        · have : c < k + 1 ↔ c < k := by omega
          simp [e, this]
      · show _ + 1 = _
        rw [h3]; simp [hc]

theorem W48.grow_ok {n : N48 α} (h : W48 n) : W256 n.grow ∧ (∀ c, n.grow.find c = n.find c) ∧ n.grow.count = n.count := by
  obtain ⟨h1, h2, h3⟩ := grow_aux n h 256 (Nat.le_refl _)
  have h2' : ∀ c, n.grow.find c = n.find c := by
    intro c
    refine (h2 c).trans ?_
    split
    · rfl
    · symm; rw [h.find_none]
      by_cases e : n.K c = 48
      · exact e
      · exact absurd (h.K_lt e) (by assumption)
  have h3' : n.grow.count = n.count := by rw [← h.cnt]; exact h3
  refine ⟨⟨h1, ?_⟩, h2', h3'⟩
  rw [h3', ← h.card_eq]
  exact card_congr (fun x _ => by rw [h2'])

theorem shrink48_aux (n : N48 α) (h : W48 n) (k : Nat) (hk : k ≤ 256) :
    let m := (List.range k).foldl
      (fun m i => if n.keys.getD i NODE48_EMPTY ≠ NODE48_EMPTY then
        match n.children.getD (n.keys.getD i NODE48_EMPTY) none with
        | some c => insertKs m c i
        | none => m
        else m) ([] : List (Nat × α))
    KsOk m ∧ (∀ p ∈ m, p.1 < k) ∧ (∀ c, findKs m c = if c < k then n.find c else none) := by
  induction k with
  | zero => exact ⟨⟨List.Pairwise.nil, by simp⟩, by simp, fun c => by simp [findKs]⟩
  | succ k ih =>
    obtain ⟨h1, h2, h3⟩ := ih (by omega)
    simp only [List.range_succ, List.foldl_append, List.foldl_cons, List.foldl_nil] at h1 h2 h3 ⊢
    by_cases hc : n.K k = 48
    · have hc' : n.keys.getD k NODE48_EMPTY = NODE48_EMPTY := hc
      simp only [ne_eq, hc', not_true_eq_false, if_false]
      refine ⟨h1, fun p hp => Nat.lt_succ_of_lt (h2 p hp), fun c => ?_⟩
      rw [h3]
      by_cases e : c = k
      · subst e; simp [h.find_none.2 hc]
      · have : c < k + 1 ↔ c < k := by omega
        simp [this]
    · have hc' : ¬ n.keys.getD k NODE48_EMPTY = NODE48_EMPTY := hc
      obtain ⟨x, hx⟩ := Option.isSome_iff_exists.1 (h.ch k hc)
      have hx' : n.children.getD (n.keys.getD k NODE48_EMPTY) none = some x := hx
      have hn := h3 k
      simp only [Nat.lt_irrefl, if_false] at hn
      simp only [ne_eq, hc', not_false_eq_true, if_true, hx']
      refine ⟨insertKs_ok h1 (by omega) x hn, fun p hp => ?_, fun c => ?_⟩
      · rcases mem_insertKs.1 hp with rfl | hp
        · exact Nat.lt_succ_self _
        · exact Nat.lt_succ_of_lt (h2 p hp)
      · rw [findKs_insertKs h1 (by omega) x hn, h3]
        by_cases e : c = k
        · subst e; simp only [if_true, Nat.lt_succ_self, W48.find_eq]
          rw [if_pos hc, hx]
        · have : c < k + 1 ↔ c < k := by omega
          simp [e, this]

theorem W48.shrink_ok {n : N48 α} (h : W48 n) : KsOk n.shrink ∧ (∀ c, findKs n.shrink c = n.find c) ∧
    n.shrink.length = n.count := by
  obtain ⟨h1, h2, h3⟩ := shrink48_aux n h 256 (Nat.le_refl _)
  have h3' : ∀ c, findKs n.shrink c = n.find c := by
    intro c
    refine (h3 c).trans ?_
    split
    · rfl
    · symm; rw [h.find_none]
      by_cases e : n.K c = 48
      · exact e
      · exact absurd (h.K_lt e) (by assumption)
  refine ⟨h1, h3', ?_⟩
  rw [← card_findKs (ks := n.shrink) h1, ← h.card_eq]
  exact card_congr (fun x _ => by rw [h3'])

theorem shrink256_aux (n : N256 α) (h : W256 n) (h48 : n.count ≤ 48) (k : Nat) (hk : k ≤ 256) :
    let m := (List.range k).foldl
      (fun m i => match n.children.getD i none with
        | some c => m.put (some c) i
        | none => m) (N48.create : N48 α)
    W48 m ∧ m.count = card k (fun c => (n.find c).isSome) ∧ (∀ c, m.find c = if c < k then n.find c else none) := by
  induction k with
  | zero => exact ⟨w48_create, rfl, fun c => by simp [w48_create.find_none.2 (K_create c)]⟩
  | succ k ih =>
    obtain ⟨h1, h2, h3⟩ := ih (by omega)
    simp only [List.range_succ, List.foldl_append, List.foldl_cons, List.foldl_nil] at h1 h2 h3 ⊢
    rw [card_succ]
    cases hx : n.children.getD k none with
    | none =>
      have hx' : n.find k = none := hx
      simp only [hx']
      refine ⟨h1, by simpa using h2, fun c => ?_⟩
      rw [h3]
      by_cases e : c = k
      · subst e; simp [hx']
      · have : c < k + 1 ↔ c < k := by omega
        simp [this]
    | some x =>
      have hx' : n.find k = some x := hx
      have hn := h3 k
      simp only [Nat.lt_irrefl, if_false] at hn
      have hlt := h2
      have hc1 := card_succ k (fun c => (n.find c).isSome)
      have hc2 := card_mono_n (fun c => (n.find c).isSome) hk
      simp only [hx', Option.isSome_some, if_true] at hc1
      rw [hc1, h.cnt] at hc2
      rw [← h2] at hc2
      have hc : _ < 48 := Nat.lt_of_lt_of_le hc2 h48
      simp only [hx', Option.isSome_some, if_true]
      refine ⟨h1.put_ok hc (by omega) x hn, ?_, fun c => ?_⟩
      · show _ + 1 = _ + 1
        rw [h2]
      · rw [h1.put_find hc (by omega) x, h3]
        by_cases e : c = k
        · subst e; simp [hx']
        · have : c < k + 1 ↔ c < k := by omega
          simp [e, this]

theorem N256.find_ge {n : N256 α} (h : n.children.length = 256) {c : Nat} (hc : 256 ≤ c) : n.find c = none := by
  exact getD_ge _ (by omega)

theorem W256.shrink_ok {n : N256 α} (h : W256 n) (h48 : n.count ≤ 48) :
    W48 n.shrink ∧ n.shrink.count = n.count ∧ (∀ c, n.shrink.find c = n.find c) := by
  obtain ⟨h1, h2, h3⟩ := shrink256_aux n h h48 256 (Nat.le_refl _)
  refine ⟨h1, h2.trans h.cnt, fun c => (h3 c).trans ?_⟩
  split
  · rfl
  · exact (N256.find_ge h.cl (by omega)).symm

/-! ### Any layout -/

/-- The node has the shape that the code keeps: sorted keys, exact counts, and the layout for its number of children. -/
def KOk : Node α → Prop
  | .n4 ks => KsOk ks ∧ 2 ≤ ks.length ∧ ks.length ≤ 4
  | .n16 ks => KsOk ks ∧ 5 ≤ ks.length ∧ ks.length ≤ 16
  | .n48 n => W48 n ∧ 17 ≤ n.count
  | .n256 n => W256 n ∧ 49 ≤ n.count

theorem KOk.card_ge {n : Node α} (h : KOk n) : 2 ≤ card 256 (fun c => (n.find c).isSome) := by
  match n, h with
  | .n4 ks, h => simp only [Node.find]; rw [card_findKs h.1]; exact h.2.1
  | .n16 ks, h => simp only [Node.find]; rw [card_findKs h.1]; have := h.2.1; omega
  | .n48 n, h => simp only [Node.find]; rw [h.1.card_eq]; have := h.2; omega
  | .n256 n, h => simp only [Node.find]; rw [h.1.cnt]; have := h.2; omega

theorem KOk.find_lt {n : Node α} (h : KOk n) {c : Nat} {x : α} (hx : n.find c = some x) : c < 256 := by
  match n, h with
  | .n4 ks, h => exact h.1.byte _ ((findKs_eq_some h.1).1 hx)
  | .n16 ks, h => exact h.1.byte _ ((findKs_eq_some h.1).1 hx)
  | .n48 n, h =>
    have := h.1.find_isSome c
    simp only [Node.find] at hx; rw [hx] at this
    exact h.1.K_lt (by simpa using this.symm)
  | .n256 n, h =>
    rcases Nat.lt_or_ge c 256 with hl | hg
    · exact hl
    · simp only [Node.find] at hx; rw [N256.find_ge h.1.cl hg] at hx; cases hx

theorem KOk.exists {n : Node α} (h : KOk n) : ∃ c x, n.find c = some x := by
  have := h.card_ge
  obtain ⟨c, _, hc⟩ := card_pos.1 (Nat.lt_of_lt_of_le (by omega) this)
  obtain ⟨x, hx⟩ := Option.isSome_iff_exists.1 hc
  exact ⟨c, x, hx⟩

/-- Two inserts into an empty node4. -/
theorem two_kids {a b : α} {c d : Nat} (hc : c < 256) (hd : d < 256) (hcd : c ≠ d) :
    KOk (((Node.n4 []).insert a c).insert b d) ∧
    ∀ i, (((Node.n4 []).insert a c).insert b d).find i = if i = d then some b else if i = c then some a else none := by
  have h0 : KsOk ([] : List (Nat × α)) := ⟨List.Pairwise.nil, by simp⟩
  have hn0 : findKs ([] : List (Nat × α)) c = none := rfl
  have h1 := insertKs_ok h0 hc a hn0
  have hf1 := findKs_insertKs h0 hc a hn0
  have hn1 : findKs (insertKs [] a c) d = none := by rw [hf1, if_neg (fun e => hcd e.symm)]; rfl
  have e : ((Node.n4 []).insert a c).insert b d = .n4 (insertKs (insertKs [] a c) b d) := by
    simp [Node.insert, node4Insert, length_insertKs]
  rw [e]
  refine ⟨⟨insertKs_ok h1 hd b hn1, by simp [length_insertKs], by simp [length_insertKs]⟩, fun i => ?_⟩
  show findKs _ i = _
  rw [findKs_insertKs h1 hd b hn1, hf1]; rfl

theorem node16Insert_ok {ks : List (Nat × α)} (h : KsOk ks) (h4 : 4 ≤ ks.length) (h16 : ks.length ≤ 16) {c : Nat} (hc : c < 256) (x : α)
    (hn : findKs ks c = none) : KOk (node16Insert ks x c) ∧
      ∀ i, (node16Insert ks x c).find i = if i = c then some x else findKs ks i := by
  unfold node16Insert
  split
  · exact ⟨⟨insertKs_ok h hc x hn, by rw [length_insertKs]; omega, by rw [length_insertKs]; omega⟩,
      fun i => findKs_insertKs h hc x hn i⟩
  · have hl : ks.length = 16 := by omega
    have ht : ks.take 16 = ks := List.take_of_length_le (by omega)
    rw [ht]
    obtain ⟨h1, h2, h3⟩ := foldl_put (l := ks) (n := N48.create) w48_create (by show 0 + _ ≤ 48; omega) h.sorted h.byte
      (fun p _ => w48_create.find_none.2 (K_create _))
    have hc0 : (N48.create : N48 α).count = 0 := rfl
    rw [hc0, hl] at h2
    have hn' := h3 c
    rw [hn, w48_create.find_none.2 (K_create _)] at hn'
    unfold N48.insert
    rw [if_pos (by omega)]
    refine ⟨⟨h1.put_ok (by omega) hc x hn', ?_⟩, fun i => ?_⟩
    · show 17 ≤ _ + 1; omega
    · show N48.find _ i = _
      rw [h1.put_find (by omega) hc x, h3, w48_create.find_none.2 (K_create _)]; simp

theorem W48.count_le {n : N48 α} (h : W48 n) : n.count ≤ 48 := by rw [← h.cntA]; exact card_le _ _

theorem KOk.insert {n : Node α} (h : KOk n) {c : Nat} (hc : c < 256) (x : α) (hn : n.find c = none) :
    KOk (n.insert x c) ∧ ∀ i, (n.insert x c).find i = if i = c then some x else n.find i := by
  match n, h with
  | .n4 ks, h =>
    simp only [Node.insert, node4Insert]
    split
    · exact ⟨⟨insertKs_ok h.1 hc x hn, by rw [length_insertKs]; have := h.2.1; omega, by rw [length_insertKs]; omega⟩,
        fun i => findKs_insertKs h.1 hc x hn i⟩
    · have hl : ks.length = 4 := by have := h.2.2; omega
      rw [List.take_of_length_le (by omega), foldl_insertKs h.1]
      exact node16Insert_ok h.1 (by omega) (by omega) hc x hn
  | .n16 ks, h => exact node16Insert_ok h.1 (by have := h.2.1; omega) h.2.2 hc x hn
  | .n48 n, h =>
    simp only [Node.insert, N48.insert]
    split
    · rename_i hlt
      refine ⟨⟨h.1.put_ok hlt hc x hn, ?_⟩, fun i => h.1.put_find hlt hc x i⟩
      show 17 ≤ _ + 1; have := h.2; omega
    · obtain ⟨h1, h2, h3⟩ := h.1.grow_ok
      have hn' : n.grow.find c = none := by rw [h2]; exact hn
      refine ⟨⟨h1.insert_ok hc x hn', ?_⟩, fun i => ?_⟩
      · show 49 ≤ _ + 1; rw [h3]; have := h.1.count_le; omega
      · show N256.find _ i = _
        rw [N256.insert_find h1.cl hc, h2]; rfl
  | .n256 n, h =>
    refine ⟨⟨h.1.insert_ok hc x hn, ?_⟩, fun i => N256.insert_find h.1.cl hc _ i⟩
    show 49 ≤ _ + 1; have := h.2; omega

/-! ### Replacing a child -/

theorem replaceKs_map (ks : List (Nat × α)) (c : Nat) (x : α) : (replaceKs ks c x).map (·.1) = ks.map (·.1) := by
  induction ks with
  | nil => rfl
  | cons p t ih =>
    obtain ⟨k, y⟩ := p
    simp only [replaceKs]
    split
    · simp
    · simp [ih]

theorem replaceKs_ok {ks : List (Nat × α)} (h : KsOk ks) (c : Nat) (x : α) : KsOk (replaceKs ks c x) := by
  have hm := replaceKs_map ks c x
  constructor
  · have h1 := h.sorted
    rw [← List.pairwise_map (f := fun p : Nat × α => p.1) (R := (· < ·))] at h1 ⊢
    rw [hm]; exact h1
  · intro p hp
    have : p.1 ∈ (replaceKs ks c x).map (·.1) := List.mem_map_of_mem hp
    rw [hm, List.mem_map] at this
    obtain ⟨q, hq, e⟩ := this
    rw [← e]; exact h.byte q hq

theorem findKs_replaceKs (ks : List (Nat × α)) (c : Nat) (x : α) (i : Nat) :
    findKs (replaceKs ks c x) i = if i = c then (findKs ks c).map (fun _ => x) else findKs ks i := by
  induction ks with
  | nil => simp [replaceKs, findKs]
  | cons p t ih =>
    obtain ⟨k, y⟩ := p
    simp only [replaceKs]
    by_cases hk : k = c
    · subst hk
      rw [if_pos rfl]
      simp only [findKs, List.find?_cons]
      by_cases hi : i = k
      · subst hi; simp
      · have : (k == i) = false := by simp; omega
        simp [this, hi]
    · rw [if_neg hk]
      simp only [findKs, List.find?_cons] at ih ⊢
      have hkc : (k == c) = false := by simpa using hk
      by_cases hi : i = k
      · subst hi
        rw [if_neg hk]; simp
      · have : (k == i) = false := by simp; omega
        simp only [this, hkc]
        exact ih

theorem KOk.replace {n : Node α} (h : KOk n) {c : Nat} {y : α} (hy : n.find c = some y) (x : α) :
    KOk (n.replace c x) ∧ ∀ i, (n.replace c x).find i = if i = c then some x else n.find i := by
  have hlen : ∀ ks : List (Nat × α), (replaceKs ks c x).length = ks.length := by
    intro ks
    have := congrArg List.length (replaceKs_map ks c x); simpa using this
  match n, h with
  | .n4 ks, h =>
    refine ⟨⟨replaceKs_ok h.1 c x, by rw [hlen]; exact h.2.1, by rw [hlen]; exact h.2.2⟩, fun i => ?_⟩
    simp only [Node.find] at hy
    simp only [Node.replace, Node.find, findKs_replaceKs, hy]; rfl
  | .n16 ks, h =>
    refine ⟨⟨replaceKs_ok h.1 c x, by rw [hlen]; exact h.2.1, by rw [hlen]; exact h.2.2⟩, fun i => ?_⟩
    simp only [Node.find] at hy
    simp only [Node.replace, Node.find, findKs_replaceKs, hy]; rfl
  | .n48 n, h =>
    obtain ⟨h, hc⟩ := h
    have hk : n.K c ≠ 48 := by
      intro e; have := h.find_none.2 e; simp only [Node.find] at hy; rw [hy] at this; cases this
    have hkb := h.kb c
    have hch : ∀ i, n.K i ≠ 48 → (n.children.set (n.K c) (some x)).getD (n.K i) none =
        if i = c then some x else n.children.getD (n.K i) none := by
      intro i hi
      rw [getD_set_eq]
      by_cases hic : i = c
      · subst hic; rw [if_pos rfl, if_pos ⟨rfl, by rw [h.cl]; omega⟩]
      · rw [if_neg hic, if_neg]
        intro ⟨e, _⟩
        exact hic (h.inj i c hi e)
    have hkey : n.K c = n.keys.getD c NODE48_EMPTY := rfl
    simp only [Node.replace]
    rw [← hkey]
    refine ⟨⟨⟨h.kl, by simpa using h.cl, h.kb, h.inj, h.av, h.hi, ?_, h.cnt, h.cntA⟩, hc⟩, fun i => ?_⟩
    · intro i hi
      have hi' : n.K i ≠ 48 := hi
      show ((n.children.set (n.K c) (some x)).getD (n.K i) none).isSome = true
      rw [hch i hi']; split
      · rfl
      · exact h.ch i hi'
    · show (if n.K i ≠ 48 then (n.children.set (n.K c) (some x)).getD (n.K i) none else none) =
        if i = c then some x else (if n.K i ≠ 48 then n.children.getD (n.K i) none else none)
      by_cases hi : n.K i = 48
      · have hic : ¬ i = c := fun e => hk (e ▸ hi)
        simp [hi, hic]
      · rw [if_pos hi, if_pos hi, hch i hi]
  | .n256 n, h =>
    have hlt : c < 256 := KOk.find_lt (n := .n256 n) h hy
    have hf : ∀ i, (Node.replace (.n256 n) c x).find i = if i = c then some x else n.find i := by
      intro i
      show N256.find { n with children := n.children.set c (some x) } i = _
      simp only [N256.find]
      rw [getD_set_eq]; simp [h.1.cl, hlt]
    refine ⟨⟨⟨by simpa using h.1.cl, ?_⟩, h.2⟩, hf⟩
    show _ = n.count
    refine Eq.trans ?_ h.1.cnt
    refine card_congr (fun i _ => ?_)
    have := hf i
    simp only [Node.replace, Node.find] at this
    rw [this]
    by_cases e : i = c
    · subst e; simp only [Node.find] at hy; simp [hy]
    · rw [if_neg e]

/-! ### Erasing a child -/

theorem eraseKs_spec {ks : List (Nat × α)} (h : KsOk ks) {c j : Nat}
    (hj : ks.findIdx? (fun p => p.1 == c) = some j) : KsOk (ks.eraseIdx j) ∧ (ks.eraseIdx j).length + 1 = ks.length ∧
      ∀ i, findKs (ks.eraseIdx j) i = if i = c then none else findKs ks i := by
  obtain ⟨hl, hp, _⟩ := List.findIdx?_eq_some_iff_getElem.1 hj
  have hsub := List.eraseIdx_sublist ks j
  have hok : KsOk (ks.eraseIdx j) := ⟨h.sorted.sublist hsub, fun p hp => h.byte p (hsub.subset hp)⟩
  have hc : ks[j].1 = c := by simpa using hp
  refine ⟨hok, ?_, fun i => ?_⟩
  · rw [List.length_eraseIdx, if_pos hl]; omega
  · have hpw := List.pairwise_iff_getElem.1 h.sorted
    by_cases hi : i = c
    · rw [if_pos hi, findKs_eq_none]
      intro p hp' e
      obtain ⟨a, ha1, haj, hne⟩ := List.mem_eraseIdx_iff_getElem.1 hp'
      have : ks[a].1 = ks[j].1 := by rw [hc, hne, e, hi]
      rcases Nat.lt_trichotomy a j with hlt | heq | hgt
      · have := hpw a j ha1 hl hlt; omega
      · grind
      · have := hpw j a hl ha1 hgt; omega
    · rw [if_neg hi]
      cases e : findKs ks i with
      | none =>
        rw [findKs_eq_none] at e ⊢
        exact fun p hp => e p (hsub.subset hp)
      | some y =>
        rw [findKs_eq_some h] at e
        rw [findKs_eq_some hok]
        obtain ⟨a, ha, hea⟩ := List.getElem_of_mem e
        rw [List.mem_eraseIdx_iff_getElem]
        refine ⟨a, ?_⟩
        grind

theorem findIdx_of_find {ks : List (Nat × α)} {c : Nat} {y : α} (hy : findKs ks c = some y) :
    ∃ j, ks.findIdx? (fun p => p.1 == c) = some j := by
  cases e : ks.findIdx? (fun p => p.1 == c) with
  | some j => exact ⟨j, rfl⟩
  | none =>
    rw [List.findIdx?_eq_none_iff] at e
    simp only [findKs] at hy
    rw [List.find?_eq_none.2 (fun x hx => by simp [e x hx])] at hy
    cases hy

theorem node16Erase_ok {ks : List (Nat × α)} (h : KsOk ks) (h5 : 5 ≤ ks.length) (h16 : ks.length ≤ 16) {c : Nat} {y : α}
    (hy : findKs ks c = some y) :
    KOk (node16Erase ks c) ∧ ∀ i, (node16Erase ks c).find i = if i = c then none else findKs ks i := by
  obtain ⟨j, hj⟩ := findIdx_of_find hy
  obtain ⟨h1, h2, h3⟩ := eraseKs_spec h hj
  unfold node16Erase
  simp only [hj]
  split
  · exact ⟨⟨h1, by omega, by omega⟩, h3⟩
  · rw [List.take_of_length_le (by omega), foldl_insertKs h1]
    exact ⟨⟨h1, by omega, by omega⟩, h3⟩

theorem N48.erase_ok {n : N48 α} (h : W48 n) (h17 : 17 ≤ n.count) {c : Nat} {y : α} (hy : n.find c = some y) :
    KOk (n.erase c) ∧ ∀ i, (n.erase c).find i = if i = c then none else n.find i := by
  have hk : n.K c ≠ 48 := by
    intro e; have := h.find_none.2 e; rw [hy] at this; cases this
  have hkb := h.kb c
  have hlt := h.K_lt hk
  let m : N48 α := ⟨n.count - 1, n.avail ||| oneBit (n.K c), n.keys.set c NODE48_EMPTY, n.children⟩
  have hK : ∀ i, m.K i = if i = c then 48 else n.K i := by
    intro i
    show (n.keys.set c NODE48_EMPTY).getD i NODE48_EMPTY = _
    rw [getD_set_eq]; simp only [h.kl, hlt, and_true]; rfl
  have hav : ∀ s, m.avail.getLsbD s = (n.avail.getLsbD s || decide (s = n.K c)) := by
    intro s
    show (n.avail ||| oneBit (n.K c)).getLsbD s = _
    rw [BitVec.getLsbD_or, oneBit_getLsbD]
    by_cases e : s = n.K c
    · simp [e]; omega
    · simp [e]
  have hm : W48 m := by
    refine ⟨by simpa [m] using h.kl, h.cl, ?_, ?_, ?_, ?_, ?_, ?_, ?_⟩
    · intro i; rw [hK]; split
      · exact Nat.le_refl _
      · exact h.kb i
    · intro i j hi e
      rw [hK] at hi; rw [hK, hK] at e
      split at e
      · rename_i hic; rw [if_pos hic] at hi; exact absurd rfl hi
      · rename_i hic; rw [if_neg hic] at hi
        split at e
        · exact absurd e hi
        · exact h.inj i j hi e
    · intro i hi
      rw [hK] at hi
      rw [hav, hK]
      by_cases hic : i = c
      · rw [if_pos hic] at hi; exact absurd rfl hi
      · rw [if_neg hic] at hi ⊢
        rw [h.av i hi]
        have : n.K i ≠ n.K c := fun e => hic (h.inj i c hi e)
        simp [this]
    · intro s hs
      rw [hav, h.hi s hs]
      have : ¬ s = n.K c := by omega
      simp [this]
    · intro i hi
      rw [hK] at hi
      by_cases hic : i = c
      · rw [if_pos hic] at hi; exact absurd rfl hi
      · rw [if_neg hic] at hi
        rw [hK, if_neg hic]
        exact h.ch i hi
    · show _ = n.count - 1
      have := card_set_true (s := fun i => m.K i != 48) (t := fun i => n.K i != 48) hlt (by simp [hK]) (by simpa using hk)
        (fun i hi => by simp only [hK, if_neg hi])
      rw [h.cnt] at this; omega
    · show _ = n.count - 1
      have := card_set_true (n := 48) (v := n.K c) (s := fun s => !m.avail.getLsbD s) (t := fun s => !n.avail.getLsbD s)
        (by omega) (by simp [hav]) (by simp [h.av c hk]) (fun s hs => by simp [hav, hs])
      rw [h.cntA] at this; omega
  have hf : ∀ i, m.find i = if i = c then none else n.find i := by
    intro i
    rw [W48.find_eq, hK]
    by_cases hic : i = c
    · simp [hic]
    · rw [if_neg hic, if_neg hic]; rfl
  have he : n.erase c = if m.count > 16 then .n48 m else .n16 m.shrink := by
    unfold N48.erase
    rw [if_neg (show ¬ n.keys.getD c NODE48_EMPTY = NODE48_EMPTY from hk)]; rfl
  have hmc : m.count = n.count - 1 := rfl
  rw [he]
  split
  · exact ⟨⟨hm, by omega⟩, hf⟩
  · obtain ⟨h1, h2, h3⟩ := hm.shrink_ok
    exact ⟨⟨h1, by omega, by omega⟩, fun i => (h2 i).trans (hf i)⟩

theorem N256.erase_ok {n : N256 α} (h : W256 n) (h49 : 49 ≤ n.count) {c : Nat} {y : α} (hy : n.find c = some y) :
    KOk (n.erase c) ∧ ∀ i, (n.erase c).find i = if i = c then none else n.find i := by
  have hlt : c < 256 := KOk.find_lt (n := .n256 n) ⟨h, h49⟩ hy
  let m : N256 α := ⟨n.count - 1, n.children.set c none⟩
  have hf : ∀ i, m.find i = if i = c then none else n.find i := by
    intro i
    show (n.children.set c none).getD i none = _
    rw [getD_set_eq]; simp only [h.cl, hlt, and_true]; rfl
  have hm : W256 m := by
    refine ⟨by simpa [m] using h.cl, ?_⟩
    show _ = n.count - 1
    have := card_set_true (s := fun i => (m.find i).isSome) (t := fun i => (n.find i).isSome) hlt (by simp [hf])
      (by simp [hy]) (fun i hi => by simp only [hf, if_neg hi])
    rw [h.cnt] at this; omega
  have he : n.erase c = if m.count > 48 then .n256 m else .n48 m.shrink := rfl
  have hmc : m.count = n.count - 1 := rfl
  rw [he]
  split
  · exact ⟨⟨hm, by omega⟩, hf⟩
  · obtain ⟨h1, h2, h3⟩ := hm.shrink_ok (by omega)
    exact ⟨⟨h1, by omega⟩, fun i => (h3 i).trans (hf i)⟩

/-! ### Moving among children -/

/-- `r` is the child with the least key byte that is at least `k`. -/
def FirstGe (n : Node α) (k : Nat) (r : Option (Indexed α)) : Prop :=
  match r with
  | none => ∀ j, k ≤ j → n.find j = none
  | some d => k ≤ d.chunk ∧ n.find d.chunk = some d.child ∧ n.childAt d.index = some d ∧
      ∀ j, k ≤ j → j < d.chunk → n.find j = none

/-- `r` is the child with the greatest key byte below `k`. -/
def LastLt (n : Node α) (k : Nat) (r : Option (Indexed α)) : Prop :=
  match r with
  | none => ∀ j, j < k → n.find j = none
  | some d => d.chunk < k ∧ n.find d.chunk = some d.child ∧ n.childAt d.index = some d ∧
      ∀ j, d.chunk < j → j < k → n.find j = none

theorem childAtKs_some {ks : List (Nat × α)} {i : Nat} {d : Indexed α} (h : childAtKs ks i = some d) :
    d.index = i ∧ ks[i]? = some (d.chunk, d.child) := by
  simp only [childAtKs, Option.map_eq_some_iff] at h
  obtain ⟨p, hp, rfl⟩ := h
  exact ⟨rfl, hp⟩

theorem ks_lt {ks : List (Nat × α)} (h : KsOk ks) {i j : Nat} {p q : Nat × α} (hi : ks[i]? = some p) (hj : ks[j]? = some q) :
    p.1 < q.1 ↔ i < j := by
  have hpw := List.pairwise_iff_getElem.1 h.sorted
  obtain ⟨hi1, hi2⟩ := List.getElem?_eq_some_iff.1 hi
  obtain ⟨hj1, hj2⟩ := List.getElem?_eq_some_iff.1 hj
  subst hi2 hj2
  constructor
  · intro hlt
    rcases Nat.lt_trichotomy i j with h1 | h1 | h1
    · exact h1
    · subst h1; omega
    · have := hpw j i hj1 hi1 h1; omega
  · intro hlt; exact hpw i j hi1 hj1 hlt

theorem findKs_idx {ks : List (Nat × α)} (h : KsOk ks) {c : Nat} {x : α} (hf : findKs ks c = some x) :
    ∃ j : Nat, ks[j]? = some (c, x) := by
  obtain ⟨j, hj, e⟩ := List.getElem_of_mem ((findKs_eq_some h).1 hf)
  exact ⟨j, by rw [List.getElem?_eq_getElem hj, e]⟩

theorem idx_findKs {ks : List (Nat × α)} (h : KsOk ks) {j : Nat} {c : Nat} {x : α} (hf : ks[j]? = some (c, x)) :
    findKs ks c = some x := (findKs_eq_some h).2 (List.mem_of_getElem? hf)

/-- The child at position `i` is the first whose key is at least `k`, if those before are smaller. -/
theorem firstGe_ks {ks : List (Nat × α)} (h : KsOk ks) (n : Node α) (hf : ∀ c, n.find c = findKs ks c)
    (hca : ∀ i, n.childAt i = childAtKs ks i) {i k : Nat} (h1 : ∀ p j, ks[j]? = some p → (k ≤ p.1 ↔ i ≤ j)) :
    FirstGe n k (childAtKs ks i) := by
  cases e : childAtKs ks i with
  | none =>
    simp only [childAtKs, Option.map_eq_none_iff] at e
    intro j hj
    rw [hf]
    cases e2 : findKs ks j with
    | none => rfl
    | some x =>
      obtain ⟨a, ha⟩ := findKs_idx h e2
      have := (h1 _ _ ha).1 hj
      have h3 := (List.getElem?_eq_some_iff.1 ha).1
      have h4 := List.getElem?_eq_none_iff.1 e
      omega
  | some d =>
    obtain ⟨hd1, hd2⟩ := childAtKs_some e
    refine ⟨(h1 _ _ hd2).2 (Nat.le_refl _), by rw [hf]; exact idx_findKs h hd2, by rw [hca, hd1]; exact e, ?_⟩
    intro j hj hlt
    rw [hf]
    cases e2 : findKs ks j with
    | none => rfl
    | some x =>
      obtain ⟨a, ha⟩ := findKs_idx h e2
      have h3 := (h1 _ _ ha).1 hj
      have h4 := (ks_lt h ha hd2).1 hlt
      omega

theorem lastLt_ks {ks : List (Nat × α)} (h : KsOk ks) (n : Node α) (hf : ∀ c, n.find c = findKs ks c)
    (hca : ∀ i, n.childAt i = childAtKs ks i) {i k : Nat} (hi : i < ks.length)
    (h1 : ∀ p j, ks[j]? = some p → (p.1 < k ↔ j ≤ i)) :
    LastLt n k (childAtKs ks i) := by
  cases e : childAtKs ks i with
  | none =>
    simp only [childAtKs, Option.map_eq_none_iff] at e
    have h4 := List.getElem?_eq_none_iff.1 e
    omega
  | some d =>
    obtain ⟨hd1, hd2⟩ := childAtKs_some e
    refine ⟨(h1 _ _ hd2).2 (Nat.le_refl _), by rw [hf]; exact idx_findKs h hd2, by rw [hca, hd1]; exact e, ?_⟩
    intro j hj hlt
    rw [hf]
    cases e2 : findKs ks j with
    | none => rfl
    | some x =>
      obtain ⟨a, ha⟩ := findKs_idx h e2
      have h3 := (h1 _ _ ha).1 hlt
      have h4 := (ks_lt h hd2 ha).1 hj
      omega

theorem lowerBoundKs_eq {key i : Nat} {ks : List (Nat × α)} (h : ks.Pairwise (fun p q => p.1 < q.1)) :
    ∃ a, lowerBoundKs key i ks = (ks[a]?).map (fun p => ⟨i + a, p.1, p.2⟩) ∧
      ∀ p j, ks[j]? = some p → (key ≤ p.1 ↔ a ≤ j) := by
  induction ks generalizing i with
  | nil => exact ⟨0, rfl, by simp⟩
  | cons p t ih =>
    obtain ⟨k, c⟩ := p
    rw [List.pairwise_cons] at h
    simp only [lowerBoundKs]
    by_cases hk : k ≥ key
    · rw [if_pos hk]
      refine ⟨0, rfl, fun p j hj => ⟨fun _ => Nat.zero_le _, fun _ => ?_⟩⟩
      cases j with
      | zero => simp only [List.getElem?_cons_zero, Option.some.injEq] at hj; rw [← hj]; exact hk
      | succ j =>
        rw [List.getElem?_cons_succ] at hj
        have := h.1 p (List.mem_of_getElem? hj); simp only at this; omega
    · rw [if_neg hk]
      obtain ⟨a, h1, h2⟩ := ih (i := i + 1) h.2
      refine ⟨a + 1, ?_, fun p j hj => ?_⟩
      · rw [h1, List.getElem?_cons_succ]
        have : i + 1 + a = i + (a + 1) := by omega
        rw [this]
      · cases j with
        | zero =>
          simp only [List.getElem?_cons_zero, Option.some.injEq] at hj; rw [← hj]
          simp only; omega
        | succ j =>
          rw [List.getElem?_cons_succ] at hj
          rw [h2 p j hj]; omega

/-- An upward scan finds the first index from `start` on which `f` is defined. -/
theorem scanUp_spec {β : Type} (f : Nat → Option β) (start : Nat) :
    match (List.range' start (256 - start)).findSome? f with
    | none => ∀ j, start ≤ j → j < 256 → f j = none
    | some b => ∃ i, start ≤ i ∧ i < 256 ∧ f i = some b ∧ ∀ j, start ≤ j → j < i → f j = none := by
  generalize hn : 256 - start = n
  induction n generalizing start with
  | zero => simp only [List.range'_zero, List.findSome?_nil]; intro j h1 h2; omega
  | succ n ih =>
    rw [List.range'_succ, List.findSome?_cons]
    cases hf : f start with
    | some b => exact ⟨start, Nat.le_refl _, by omega, hf, fun j h1 h2 => by omega⟩
    | none =>
      have := ih (start + 1) (by omega)
      simp only
      cases e : (List.range' (start + 1) n).findSome? f with
      | none =>
        rw [e] at this; simp only at this ⊢
        intro j h1 h2
        rcases Nat.lt_or_ge start j with h3 | h3
        · exact this j h3 h2
        · have : j = start := by omega
          rw [this]; exact hf
      | some b =>
        rw [e] at this; simp only at this ⊢
        obtain ⟨i, h1, h2, h3, h4⟩ := this
        refine ⟨i, by omega, h2, h3, fun j h5 h6 => ?_⟩
        rcases Nat.lt_or_ge start j with h7 | h7
        · exact h4 j h7 h6
        · have : j = start := by omega
          rw [this]; exact hf

theorem scanDown_spec {β : Type} (f : Nat → Option β) (start : Nat) :
    match (List.range start).reverse.findSome? f with
    | none => ∀ j, j < start → f j = none
    | some b => ∃ i, i < start ∧ f i = some b ∧ ∀ j, i < j → j < start → f j = none := by
  induction start with
  | zero => simp
  | succ n ih =>
    rw [List.range_succ, List.reverse_append, List.reverse_singleton, List.singleton_append, List.findSome?_cons]
    cases hf : f n with
    | some b => exact ⟨n, Nat.lt_succ_self _, hf, fun j h1 h2 => by omega⟩
    | none =>
      simp only
      cases e : (List.range n).reverse.findSome? f with
      | none =>
        rw [e] at ih; simp only at ih ⊢
        intro j h1
        rcases Nat.lt_or_ge j n with h3 | h3
        · exact ih j h3
        · have : j = n := by omega
          rw [this]; exact hf
      | some b =>
        rw [e] at ih; simp only at ih ⊢
        obtain ⟨i, h1, h3, h4⟩ := ih
        refine ⟨i, by omega, h3, fun j h5 h6 => ?_⟩
        rcases Nat.lt_or_ge j n with h7 | h7
        · exact h4 j h5 h7
        · have : j = n := by omega
          rw [this]; exact hf

/-- Nodes whose positions are the key bytes. -/
def Direct (n : Node α) : Prop := ∀ i d, n.childAt i = some d ↔ ∃ c, n.find i = some c ∧ d = ⟨i, i, c⟩

theorem N48.scan_fun (n : N48 α) (i : Nat) :
    (if n.keys.getD i NODE48_EMPTY ≠ NODE48_EMPTY
      then (n.children.getD (n.keys.getD i NODE48_EMPTY) none).map (fun c => (⟨i, i, c⟩ : Indexed α)) else none) =
    (n.find i).map (fun c => ⟨i, i, c⟩) := by
  unfold N48.find
  split <;> rfl

theorem firstGe_scan {n : Node α} (hd : ∀ i c, n.find i = some c → n.childAt i = some ⟨i, i, c⟩)
    (hlt : ∀ i c, n.find i = some c → i < 256) (start : Nat) :
    FirstGe n start ((List.range' start (256 - start)).findSome? (fun i => (n.find i).map (fun c => (⟨i, i, c⟩ : Indexed α)))) := by
  have := scanUp_spec (fun i => (n.find i).map (fun c => (⟨i, i, c⟩ : Indexed α))) start
  cases e : (List.range' start (256 - start)).findSome? (fun i => (n.find i).map (fun c => (⟨i, i, c⟩ : Indexed α))) with
  | none =>
    rw [e] at this; simp only [Option.map_eq_none_iff] at this
    intro j hj
    cases e2 : n.find j with
    | none => rfl
    | some c => have := this j hj (hlt j c e2); rw [e2] at this; cases this
  | some d =>
    rw [e] at this; simp only [Option.map_eq_none_iff, Option.map_eq_some_iff] at this
    obtain ⟨i, h1, h2, ⟨c, hc, rfl⟩, h4⟩ := this
    exact ⟨h1, hc, hd i c hc, h4⟩

theorem lastLt_scan {n : Node α} (hd : ∀ i c, n.find i = some c → n.childAt i = some ⟨i, i, c⟩) (start : Nat) :
    LastLt n start ((List.range start).reverse.findSome? (fun i => (n.find i).map (fun c => (⟨i, i, c⟩ : Indexed α)))) := by
  have := scanDown_spec (fun i => (n.find i).map (fun c => (⟨i, i, c⟩ : Indexed α))) start
  cases e : (List.range start).reverse.findSome? (fun i => (n.find i).map (fun c => (⟨i, i, c⟩ : Indexed α))) with
  | none =>
    rw [e] at this; simp only [Option.map_eq_none_iff] at this
    exact this
  | some d =>
    rw [e] at this; simp only [Option.map_eq_none_iff, Option.map_eq_some_iff] at this
    obtain ⟨i, h1, ⟨c, hc, rfl⟩, h4⟩ := this
    exact ⟨h1, hc, hd i c hc, h4⟩

theorem N48.childAt_of_find {n : N48 α} (h : W48 n) {i : Nat} {c : α} (hc : n.find i = some c) :
    n.childAt i = some ⟨i, i, c⟩ := by
  have hk : n.K i ≠ 48 := by
    intro e; have := h.find_none.2 e; rw [hc] at this; cases this
  have hlt := h.K_lt hk
  rw [W48.find_eq, if_pos hk] at hc
  unfold N48.childAt
  rw [if_neg (by omega)]
  show Option.map _ (n.children.getD (n.K i) none) = _
  rw [hc]; rfl

/-- A child that `childAt` gives is one that `find` gives, and a node has it at that position. -/
theorem KOk.childAt {n : Node α} (h : KOk n) {i : Nat} {d : Indexed α} (hd : n.childAt i = some d) :
    d.index = i ∧ n.find d.chunk = some d.child := by
  match n, h with
  | .n4 ks, h => obtain ⟨h1, h2⟩ := childAtKs_some hd; exact ⟨h1, idx_findKs h.1 h2⟩
  | .n16 ks, h => obtain ⟨h1, h2⟩ := childAtKs_some hd; exact ⟨h1, idx_findKs h.1 h2⟩
  | .n48 n, h =>
    simp only [Node.childAt, N48.childAt] at hd
    split at hd
    · cases hd
    · simp only [Option.map_eq_some_iff] at hd
      obtain ⟨c, hc, rfl⟩ := hd
      refine ⟨rfl, ?_⟩
      show n.find i = some c
      have hc' : n.children.getD (n.K i) none = some c := hc
      have hk : n.K i ≠ 48 := by
        intro e
        rw [e, getD_ge _ (by rw [h.1.cl]; exact Nat.le_refl _)] at hc'; cases hc'
      rw [W48.find_eq, if_pos hk, hc']
  | .n256 n, h =>
    simp only [Node.childAt, N256.childAt] at hd
    split at hd
    · cases hd
    · simp only [Option.map_eq_some_iff] at hd
      obtain ⟨c, hc, rfl⟩ := hd
      exact ⟨rfl, hc⟩

theorem N256.childAt_of_find {n : N256 α} (h : W256 n) {i : Nat} {c : α} (hc : n.find i = some c) :
    n.childAt i = some ⟨i, i, c⟩ := by
  rcases Nat.lt_or_ge i 256 with hl | hg
  · unfold N256.childAt
    rw [if_neg (by omega)]
    simp only [N256.find] at hc; rw [hc]; rfl
  · rw [N256.find_ge h.cl hg] at hc; cases hc

theorem N48.scanUp_eq (n : N48 α) (s : Nat) :
    n.scanUp s = (List.range' s (256 - s)).findSome? (fun i => ((Node.n48 n).find i).map (fun c => (⟨i, i, c⟩ : Indexed α))) := by
  unfold N48.scanUp
  congr 1; funext i; exact n.scan_fun i

theorem N48.scanDown_eq (n : N48 α) (s : Nat) :
    n.scanDown s = (List.range s).reverse.findSome? (fun i => ((Node.n48 n).find i).map (fun c => (⟨i, i, c⟩ : Indexed α))) := by
  unfold N48.scanDown
  congr 1; funext i; exact n.scan_fun i

/-- `art_node_lower_bound`. -/
theorem KOk.lowerBound {n : Node α} (h : KOk n) (k : Nat) : FirstGe n k (n.lowerBound k) := by
  have hlt := fun i c => h.find_lt (c := i) (x := c)
  match n, h, hlt with
  | .n4 ks, h, _ =>
    obtain ⟨a, h1, h2⟩ := lowerBoundKs_eq (key := k) (i := 0) h.1.sorted
    simp only [Nat.zero_add] at h1
    simp only [Node.lowerBound]; rw [h1]
    exact firstGe_ks h.1 _ (fun _ => rfl) (fun _ => rfl) h2
  | .n16 ks, h, _ =>
    obtain ⟨a, h1, h2⟩ := lowerBoundKs_eq (key := k) (i := 0) h.1.sorted
    simp only [Nat.zero_add] at h1
    simp only [Node.lowerBound]; rw [h1]
    exact firstGe_ks h.1 _ (fun _ => rfl) (fun _ => rfl) h2
  | .n48 n, h, hlt =>
    simp only [Node.lowerBound]; rw [n.scanUp_eq]
    exact firstGe_scan (n := .n48 n) (fun i c hc => N48.childAt_of_find h.1 hc) hlt k
  | .n256 n, h, hlt =>
    exact firstGe_scan (n := .n256 n) (fun i c hc => N256.childAt_of_find h.1 hc) hlt k

/-- `art_node_next_child` from the index -1. -/
theorem KOk.next_zero {n : Node α} (h : KOk n) : FirstGe n 0 (n.nextFrom 0) := by
  have hlt := fun i c => h.find_lt (c := i) (x := c)
  match n, h, hlt with
  | .n4 ks, h, _ =>
    have := h.2.1
    simp only [Node.nextFrom]; rw [if_neg (by omega)]
    exact firstGe_ks h.1 _ (fun _ => rfl) (fun _ => rfl) (fun p j _ => by omega)
  | .n16 ks, h, _ =>
    have := h.2.1
    simp only [Node.nextFrom]; rw [if_neg (by omega)]
    exact firstGe_ks h.1 _ (fun _ => rfl) (fun _ => rfl) (fun p j _ => by omega)
  | .n48 n, h, hlt =>
    simp only [Node.nextFrom]; rw [n.scanUp_eq]
    exact firstGe_scan (n := .n48 n) (fun i c hc => N48.childAt_of_find h.1 hc) hlt 0
  | .n256 n, h, hlt =>
    exact firstGe_scan (n := .n256 n) (fun i c hc => N256.childAt_of_find h.1 hc) hlt 0

theorem childAtKs_ge {ks : List (Nat × α)} {i : Nat} (h : ks.length ≤ i) : childAtKs ks i = none := by
  simp [childAtKs, List.getElem?_eq_none h]

/-- `art_node_next_child` from the position of a child. -/
theorem KOk.next {n : Node α} (h : KOk n) {i : Nat} {d : Indexed α} (hd : n.childAt i = some d) :
    FirstGe n (d.chunk + 1) (n.nextFrom (i + 1)) := by
  have hlt := fun i c => h.find_lt (c := i) (x := c)
  have hci := h.childAt hd
  have ks_case : ∀ (n : Node α) (ks : List (Nat × α)), KsOk ks → (∀ c, n.find c = findKs ks c) →
      (∀ i, n.childAt i = childAtKs ks i) → childAtKs ks i = some d →
      FirstGe n (d.chunk + 1) (if i + 1 ≥ ks.length then none else childAtKs ks (i + 1)) := by
    intro n ks h1 h2 h3 h4
    obtain ⟨_, h5⟩ := childAtKs_some h4
    have : (if i + 1 ≥ ks.length then none else childAtKs ks (i + 1)) = childAtKs ks (i + 1) := by
      split
      · rw [childAtKs_ge (by omega)]
      · rfl
    rw [this]
    refine firstGe_ks h1 _ h2 h3 (fun p j hj => ?_)
    have := ks_lt h1 h5 hj
    simp only at this
    omega
  match n, h, hlt, hd, hci with
  | .n4 ks, h, _, hd, _ => exact ks_case _ ks h.1 (fun _ => rfl) (fun _ => rfl) hd
  | .n16 ks, h, _, hd, _ => exact ks_case _ ks h.1 (fun _ => rfl) (fun _ => rfl) hd
  | .n48 n, h, hlt, hd, hci =>
    have : d.chunk = i := by
      simp only [Node.childAt, N48.childAt] at hd
      split at hd
      · cases hd
      · simp only [Option.map_eq_some_iff] at hd
        obtain ⟨c, hc, rfl⟩ := hd; rfl
    rw [this]
    simp only [Node.nextFrom]; rw [n.scanUp_eq]
    exact firstGe_scan (n := .n48 n) (fun i c hc => N48.childAt_of_find h.1 hc) hlt (i + 1)
  | .n256 n, h, hlt, hd, hci =>
    have : d.chunk = i := by
      simp only [Node.childAt, N256.childAt] at hd
      split at hd
      · cases hd
      · simp only [Option.map_eq_some_iff] at hd
        obtain ⟨c, hc, rfl⟩ := hd; rfl
    rw [this]
    exact firstGe_scan (n := .n256 n) (fun i c hc => N256.childAt_of_find h.1 hc) hlt (i + 1)

/-- `art_node_prev_child` from the index 256. -/
theorem KOk.prev_256 {n : Node α} (h : KOk n) : LastLt n 256 (n.prevFrom 256) := by
  have ks_case : ∀ (n : Node α) (ks : List (Nat × α)), KsOk ks → (∀ c, n.find c = findKs ks c) →
      (∀ i, n.childAt i = childAtKs ks i) → 2 ≤ ks.length → ks.length ≤ 16 →
      LastLt n 256 (let index := if 256 > ks.length then ks.length else 256
        if index = 0 then none else childAtKs ks (index - 1)) := by
    intro n ks h1 h2 h3 h4 h5
    have e0 : (if 256 > ks.length then ks.length else 256) = ks.length := if_pos (by omega)
    simp only [e0]
    rw [if_neg (by omega)]
    refine lastLt_ks h1 _ h2 h3 (by omega) (fun p j hj => ?_)
    have h6 := (List.getElem?_eq_some_iff.1 hj).1
    have h7 := h1.byte p (List.mem_of_getElem? hj)
    omega
  match n, h with
  | .n4 ks, h => exact ks_case _ ks h.1 (fun _ => rfl) (fun _ => rfl) h.2.1 (by have := h.2.2; omega)
  | .n16 ks, h => exact ks_case _ ks h.1 (fun _ => rfl) (fun _ => rfl) (by have := h.2.1; omega) h.2.2
  | .n48 n, h =>
    simp only [Node.prevFrom]; rw [n.scanDown_eq]
    exact lastLt_scan (n := .n48 n) (fun i c hc => N48.childAt_of_find h.1 hc) 256
  | .n256 n, h =>
    exact lastLt_scan (n := .n256 n) (fun i c hc => N256.childAt_of_find h.1 hc) 256

/-- `art_node_prev_child` from the position of a child. -/
theorem KOk.prev {n : Node α} (h : KOk n) {i : Nat} {d : Indexed α} (hd : n.childAt i = some d) :
    LastLt n d.chunk (n.prevFrom i) := by
  have hlt := h.find_lt (h.childAt hd).2
  have ks_case : ∀ (n : Node α) (ks : List (Nat × α)), KsOk ks → (∀ c, n.find c = findKs ks c) →
      (∀ i, n.childAt i = childAtKs ks i) → childAtKs ks i = some d →
      LastLt n d.chunk (let index := if i > ks.length then ks.length else i
        if index = 0 then none else childAtKs ks (index - 1)) := by
    intro n ks h1 h2 h3 h4
    obtain ⟨_, h5⟩ := childAtKs_some h4
    have hi := (List.getElem?_eq_some_iff.1 h5).1
    have e0 : (if i > ks.length then ks.length else i) = i := if_neg (by omega)
    simp only [e0]
    by_cases h0 : i = 0
    · rw [if_pos h0]
      intro j hj
      rw [h2]
      cases e2 : findKs ks j with
      | none => rfl
      | some x =>
        obtain ⟨a, ha⟩ := findKs_idx h1 e2
        have := (ks_lt h1 ha h5).1 hj; omega
    · rw [if_neg h0]
      refine lastLt_ks h1 _ h2 h3 (by omega) (fun p j hj => ?_)
      have := ks_lt h1 hj h5
      simp only at this
      omega
  match n, h, hd with
  | .n4 ks, h, hd => exact ks_case _ ks h.1 (fun _ => rfl) (fun _ => rfl) hd
  | .n16 ks, h, hd => exact ks_case _ ks h.1 (fun _ => rfl) (fun _ => rfl) hd
  | .n48 n, h, hd =>
    have : d.chunk = i := by
      simp only [Node.childAt, N48.childAt] at hd
      split at hd
      · cases hd
      · simp only [Option.map_eq_some_iff] at hd
        obtain ⟨c, hc, rfl⟩ := hd; rfl
    subst this
    simp only [Node.prevFrom]; rw [n.scanDown_eq, if_neg (by omega)]
    exact lastLt_scan (n := .n48 n) (fun i c hc => N48.childAt_of_find h.1 hc) _
  | .n256 n, h, hd =>
    have : d.chunk = i := by
      simp only [Node.childAt, N256.childAt] at hd
      split at hd
      · cases hd
      · simp only [Option.map_eq_some_iff] at hd
        obtain ⟨c, hc, rfl⟩ := hd; rfl
    subst this
    simp only [Node.prevFrom]; rw [if_neg (by omega)]
    exact lastLt_scan (n := .n256 n) (fun i c hc => N256.childAt_of_find h.1 hc) _

end
end CRoaring
