import Verif.Model.Roaring64
import Verif.Lemmas.ArtIter
import Verif.Lemmas.Query
import Verif.Lemmas.Stats
import Verif.Lemmas.Iter2
/-
A tree as the list of its entries in the order of the keys, and iterators as the rest of that list.
-/
set_option linter.unusedSimpArgs false
set_option linter.unusedVariables false
namespace CRoaring
open Spec

def P48 : Nat := 281474976710656

/-! ### Keys -/

theorem splitKey_eq (x : Nat) : (splitKey x).1 = [x / 72057594037927936 % 256, x / 281474976710656 % 256,
    x / 1099511627776 % 256, x / 4294967296 % 256, x / 16777216 % 256, x / 65536 % 256] := by
  rfl

theorem splitKey_isKey (x : Nat) : IsKey (splitKey x).1 := by
  rw [splitKey_eq]
  refine ⟨rfl, ?_⟩
  intro b hb
  simp only [List.mem_cons, List.not_mem_nil, or_false] at hb
  omega

theorem splitKey_low (x : Nat) : (splitKey x).2 = x % 65536 := rfl

theorem keyNum_split {x : Nat} (hx : x < TOP64) : keyNum (splitKey x).1 = x / 65536 := by
  rw [splitKey_eq]
  simp only [keyNum, List.foldl_cons, List.foldl_nil]
  unfold TOP64 at hx
  omega

theorem combineKey_eq {k : List Nat} (hk : IsKey k) {low : Nat} (hl : low < 65536) :
    combineKey k low = keyNum k * 65536 + low := by
  unfold combineKey
  rw [List.foldl_append]
  have e : List.foldl (fun a b => a * 256 + b) (List.foldl (fun a b => a * 256 + b) 0 k) [0, 0] = keyNum k * 65536 := by
    simp only [List.foldl_cons, List.foldl_nil, keyNum]; omega
  rw [e, Nat.or_comm, ← shl16, lor_shl hl, shl16]

theorem key_inj {p q : List Nat} (hp : IsKey p) (hq : IsKey q) (h : keyNum p = keyNum q) : p = q :=
  keyNum_inj hp.byte hq.byte (by rw [hp.len, hq.len]) h

theorem key_lt {k : List Nat} (hk : IsKey k) : keyNum k < P48 := by
  have := keyNum_lt_top hk
  unfold P48; omega

theorem splitKey_combine {k : List Nat} (hk : IsKey k) : (splitKey (keyNum k * 65536)).1 = k := by
  refine key_inj (splitKey_isKey _) hk ?_
  rw [keyNum_split]
  · omega
  · have := key_lt hk; unfold P48 at this; unfold TOP64; omega

/-! ### Lists of entries -/

section
variable {V : Type}

/-- Keys strictly increasing. -/
def KS (l : List (Nat × V)) : Prop := l.Pairwise (fun p q => p.1 < q.1)

theorem KS.ext {a b : List (Nat × V)} (ha : KS a) (hb : KS b) (h : ∀ n v, (n, v) ∈ a ↔ (n, v) ∈ b) : a = b := by
  induction a generalizing b with
  | nil =>
    cases b with
    | nil => rfl
    | cons q b => exact absurd ((h q.1 q.2).2 (by simp)) (by simp)
  | cons p a ih =>
    cases b with
    | nil => exact absurd ((h p.1 p.2).1 (by simp)) (by simp)
    | cons q b =>
      have ha' := List.pairwise_cons.1 ha
      have hb' := List.pairwise_cons.1 hb
      have h1 : p ∈ q :: b := (h p.1 p.2).1 (by simp)
      have h2 : q ∈ p :: a := (h q.1 q.2).2 (by simp)
      have e : p = q := by
        rcases List.mem_cons.1 h1 with e | m1
        · exact e
        · rcases List.mem_cons.1 h2 with e | m2
          · exact e.symm
          · have := ha'.1 q m2; have := hb'.1 p m1; omega
      subst e
      congr 1
      refine ih ha'.2 hb'.2 (fun n v => ?_)
      have := h n v
      simp only [List.mem_cons] at this
      constructor
      · intro m
        rcases this.1 (Or.inr m) with e | m'
        · have := ha'.1 _ m; rw [e] at this; omega
        · exact m'
      · intro m
        rcases this.2 (Or.inr m) with e | m'
        · have := hb'.1 _ m; rw [e] at this; omega
        · exact m'

theorem ks_cons {n : Nat} {v : V} {t : List (Nat × V)} : KS ((n, v) :: t) ↔ (∀ p ∈ t, n < p.1) ∧ KS t :=
  List.pairwise_cons

theorem ks_append {a b : List (Nat × V)} : KS (a ++ b) ↔ KS a ∧ KS b ∧ ∀ p ∈ a, ∀ q ∈ b, p.1 < q.1 :=
  List.pairwise_append

theorem ks_mid {a b : List (Nat × V)} {n : Nat} {v : V} :
    KS (a ++ (n, v) :: b) ↔ KS (a ++ b) ∧ (∀ p ∈ a, p.1 < n) ∧ ∀ p ∈ b, n < p.1 := by
  rw [ks_append, ks_append, ks_cons]
  simp only [List.mem_cons]
  constructor
  · rintro ⟨h1, ⟨h2, h3⟩, h4⟩
    exact ⟨⟨h1, h3, fun p hp q hq => h4 p hp q (Or.inr hq)⟩, fun p hp => h4 p hp _ (Or.inl rfl), h2⟩
  · rintro ⟨⟨h1, h3, h4⟩, h5, h2⟩
    refine ⟨h1, ⟨h2, h3⟩, fun p hp q hq => ?_⟩
    rcases hq with rfl | hq
    · exact h5 p hp
    · exact h4 p hp q hq

theorem KS.filter {l : List (Nat × V)} (h : KS l) (p : Nat × V → Bool) : KS (l.filter p) := List.Pairwise.filter p h

theorem KS.unique {l : List (Nat × V)} (h : KS l) {n : Nat} {v w : V} (h1 : (n, v) ∈ l) (h2 : (n, w) ∈ l) : v = w := by
  induction l with
  | nil => simp at h1
  | cons p t ih =>
    have h' := List.pairwise_cons.1 h
    rcases List.mem_cons.1 h1 with e1 | m1 <;> rcases List.mem_cons.1 h2 with e2 | m2
    · rw [← e1] at e2; exact (Prod.mk.inj e2).2.symm
    · have := h'.1 _ m2; rw [← e1] at this; simp only at this; omega
    · have := h'.1 _ m1; rw [← e2] at this; simp only at this; omega
    · exact ih h'.2 m1 m2

theorem KS.split {l : List (Nat × V)} (h : KS l) (n : Nat) :
    ∃ A B, l = A ++ B ∧ (∀ p ∈ A, p.1 < n) ∧ (∀ p ∈ B, n ≤ p.1) := by
  induction l with
  | nil => exact ⟨[], [], rfl, by simp, by simp⟩
  | cons p t ih =>
    have h' := List.pairwise_cons.1 h
    rcases Nat.lt_or_ge p.1 n with hl | hg
    · obtain ⟨A, B, rfl, hA, hB⟩ := ih h'.2
      refine ⟨p :: A, B, rfl, ?_, hB⟩
      intro q hq
      rcases List.mem_cons.1 hq with rfl | hq
      · exact hl
      · exact hA q hq
    · refine ⟨[], p :: t, rfl, by simp, ?_⟩
      intro q hq
      rcases List.mem_cons.1 hq with rfl | hq
      · exact hg
      · have := h'.1 q hq; omega

/-- The entries from key `X` on, in order. -/
def EFrom (root : Option (Art V)) (X : Nat) (l : List (Nat × V)) : Prop :=
  KS l ∧ ∀ n v, (n, v) ∈ l ↔ X ≤ n ∧ ∃ k, RHas root k v ∧ keyNum k = n

/-- The tree has exactly the entries of the list. -/
structure RL (root : Option (Art V)) (l : List (Nat × V)) : Prop where
  ok : ArtOk root
  ks : KS l
  mem : ∀ n v, (n, v) ∈ l ↔ ∃ k, RHas root k v ∧ keyNum k = n

/-- The iterator is before the entries of the list. -/
structure IL (root : Option (Art V)) (it : ArtIt V) (l : List (Nat × V)) : Prop where
  ok : ArtOk root
  pos : ∃ X, RFirst root X it ∧ EFrom root X l

theorem rl_none : RL (none : Option (Art V)) [] :=
  ⟨artOk_none, List.Pairwise.nil, fun n v => ⟨fun h => by simp at h, fun ⟨k, h, _⟩ => absurd h rhas_none⟩⟩

theorem RL.lt {root : Option (Art V)} {l : List (Nat × V)} (h : RL root l) {p : Nat × V} (hp : p ∈ l) : p.1 < P48 := by
  obtain ⟨k, hk, e⟩ := (h.mem p.1 p.2).1 hp
  rw [← e]; exact key_lt (h.ok.key hk)

theorem RL.unique {root : Option (Art V)} {a b : List (Nat × V)} (ha : RL root a) (hb : RL root b) : a = b :=
  ha.ks.ext hb.ks (fun n v => by rw [ha.mem, hb.mem])

theorem RL.has {root : Option (Art V)} {l : List (Nat × V)} (h : RL root l) {k : List Nat} (hk : IsKey k) (v : V) :
    (keyNum k, v) ∈ l ↔ RHas root k v := by
  rw [h.mem]
  constructor
  · rintro ⟨k', h1, h2⟩
    rwa [key_inj (h.ok.key h1) hk h2] at h1
  · intro h1; exact ⟨k, h1, rfl⟩

theorem RL.find {root : Option (Art V)} {l : List (Nat × V)} (h : RL root l) {k : List Nat} (hk : IsKey k) (v : V) :
    artFind root k = some v ↔ (keyNum k, v) ∈ l := by
  rw [artFind_iff h.ok hk, h.has hk]

theorem RL.find_none {root : Option (Art V)} {l : List (Nat × V)} (h : RL root l) {k : List Nat} (hk : IsKey k) :
    artFind root k = none ↔ ∀ p ∈ l, p.1 ≠ keyNum k := by
  rw [artFind_none_iff h.ok hk]
  constructor
  · intro h1 p hp e
    obtain ⟨n, v⟩ := p
    simp only at e; subst e
    exact h1 v ((h.has hk v).1 hp)
  · intro h1 v h2
    exact h1 _ ((h.has hk v).2 h2) rfl

theorem exists_rl {root : Option (Art V)} (h : ArtOk root) : ∃ l, RL root l := by
  refine ⟨(List.range P48).filterMap (fun n => (artFind root (splitKey (n * 65536)).1).map (fun v => (n, v))), h, ?_, ?_⟩
  · unfold KS
    rw [List.pairwise_filterMap]
    refine List.Pairwise.imp ?_ List.pairwise_lt_range
    intro a b hab p hp q hq
    simp only [Option.map_eq_some_iff] at hp hq
    obtain ⟨v, -, rfl⟩ := hp
    obtain ⟨w, -, rfl⟩ := hq
    exact hab
  · intro n v
    simp only [List.mem_filterMap, List.mem_range, Option.map_eq_some_iff, Prod.mk.injEq]
    constructor
    · rintro ⟨m, hm, w, h1, rfl, rfl⟩
      rw [artFind_iff h (splitKey_isKey _)] at h1
      refine ⟨_, h1, ?_⟩
      rw [keyNum_split]
      · omega
      · unfold P48 at hm; unfold TOP64; omega
    · rintro ⟨k, h1, rfl⟩
      have hk := h.key h1
      refine ⟨keyNum k, key_lt hk, v, ?_, rfl, rfl⟩
      rw [splitKey_combine hk, artFind_iff h hk]; exact h1

theorem RL.split {root : Option (Art V)} {l : List (Nat × V)} (h : RL root l) {k : List Nat} (hk : IsKey k) :
    (∃ A v B, l = A ++ (keyNum k, v) :: B ∧ (∀ p ∈ A, p.1 < keyNum k) ∧ (∀ p ∈ B, keyNum k < p.1) ∧
      artFind root k = some v) ∨
    (∃ A B, l = A ++ B ∧ (∀ p ∈ A, p.1 < keyNum k) ∧ (∀ p ∈ B, keyNum k < p.1) ∧ artFind root k = none) := by
  obtain ⟨A, B, rfl, hA, hB⟩ := h.ks.split (keyNum k)
  cases B with
  | nil =>
    right
    refine ⟨A, [], rfl, hA, by simp, (h.find_none hk).2 ?_⟩
    intro p hp e
    simp only [List.append_nil] at hp
    have := hA p hp; omega
  | cons q B =>
    obtain ⟨n, v⟩ := q
    have hks := ks_mid.1 h.ks
    have h1 := hB (n, v) (by simp)
    simp only at h1
    rcases Nat.eq_or_lt_of_le h1 with e | hl
    · left
      subst e
      exact ⟨A, v, B, rfl, hA, hks.2.2, (h.find hk v).2 (by simp)⟩
    · right
      refine ⟨A, (n, v) :: B, rfl, hA, ?_, (h.find_none hk).2 ?_⟩
      · intro p hp
        rcases List.mem_cons.1 hp with rfl | hp
        · exact hl
        · have := hks.2.2 p hp; omega
      · intro p hp e
        rcases List.mem_append.1 hp with hp | hp
        · have := hA p hp; omega
        · rcases List.mem_cons.1 hp with rfl | hp
          · simp only at e; omega
          · have := hks.2.2 p hp; omega

/-! ### Updates -/

theorem RL.insert {root : Option (Art V)} {A B : List (Nat × V)} (h : RL root (A ++ B)) {k : List Nat} (hk : IsKey k)
    (hA : ∀ p ∈ A, p.1 < keyNum k) (hB : ∀ p ∈ B, keyNum k < p.1) (v : V) :
    RL (artInsert root k v) (A ++ (keyNum k, v) :: B) := by
  have hn : artFind root k = none := by
    rw [h.find_none hk]
    intro p hp e
    rcases List.mem_append.1 hp with hp | hp
    · have := hA p hp; omega
    · have := hB p hp; omega
  obtain ⟨h1, h2⟩ := artInsert_has h.ok hk hn v
  refine ⟨h1, ks_mid.2 ⟨h.ks, hA, hB⟩, ?_⟩
  intro n w
  have e : (n, w) ∈ A ++ (keyNum k, v) :: B ↔ (n, w) ∈ A ++ B ∨ (n = keyNum k ∧ w = v) := by
    simp only [List.mem_append, List.mem_cons, Prod.mk.injEq]
    grind
  rw [e, h.mem]
  constructor
  · rintro (⟨k', h3, h4⟩ | ⟨rfl, rfl⟩)
    · exact ⟨k', (h2 _ _).2 (Or.inl h3), h4⟩
    · exact ⟨k, (h2 _ _).2 (Or.inr ⟨rfl, rfl⟩), rfl⟩
  · rintro ⟨k', h3, h4⟩
    rcases (h2 _ _).1 h3 with h5 | ⟨rfl, rfl⟩
    · exact Or.inl ⟨k', h5, h4⟩
    · exact Or.inr ⟨h4.symm, rfl⟩

theorem RL.snoc {root : Option (Art V)} {A : List (Nat × V)} (h : RL root A) {k : List Nat} (hk : IsKey k)
    (hA : ∀ p ∈ A, p.1 < keyNum k) (v : V) : RL (artInsert root k v) (A ++ [(keyNum k, v)]) :=
  RL.insert (B := []) (by simpa using h) hk hA (by simp) v

theorem RL.erase_of {root root' : Option (Art V)} {A B : List (Nat × V)} {k : List Nat} {v : V}
    (h : RL root (A ++ (keyNum k, v) :: B)) (hk : IsKey k) (h1 : ArtOk root')
    (h2 : ∀ k' w, RHas root' k' w ↔ k' ≠ k ∧ RHas root k' w) : RL root' (A ++ B) := by
  have hks := ks_mid.1 h.ks
  refine ⟨h1, hks.1, ?_⟩
  intro n w
  have e : (n, w) ∈ A ++ B ↔ n ≠ keyNum k ∧ (n, w) ∈ A ++ (keyNum k, v) :: B := by
    simp only [List.mem_append, List.mem_cons, Prod.mk.injEq]
    constructor
    · rintro (m | m)
      · have := hks.2.1 _ m; simp only at this; exact ⟨by omega, Or.inl m⟩
      · have := hks.2.2 _ m; simp only at this; exact ⟨by omega, Or.inr (Or.inr m)⟩
    · rintro ⟨h3, m | ⟨e, -⟩ | m⟩
      · exact Or.inl m
      · exact absurd e h3
      · exact Or.inr m
  rw [e, h.mem]
  constructor
  · rintro ⟨h3, k', h4, h5⟩
    refine ⟨k', (h2 _ _).2 ⟨?_, h4⟩, h5⟩
    rintro rfl
    exact h3 h5.symm
  · rintro ⟨k', h3, h4⟩
    obtain ⟨h5, h6⟩ := (h2 _ _).1 h3
    refine ⟨?_, k', h6, h4⟩
    intro e'
    exact h5 (key_inj (h.ok.key h6) hk (by omega))

theorem RL.erase {root : Option (Art V)} {A B : List (Nat × V)} {k : List Nat} {v : V}
    (h : RL root (A ++ (keyNum k, v) :: B)) (hk : IsKey k) : RL (artErase root k).2 (A ++ B) := by
  obtain ⟨-, h1, h2⟩ := artErase_has h.ok hk
  exact h.erase_of hk h1 h2

theorem RL.store {root : Option (Art V)} {A B : List (Nat × V)} {k : List Nat} {v : V}
    (h : RL root (A ++ (keyNum k, v) :: B)) (hk : IsKey k) (v' : V) :
    RL (artStore root k v') (A ++ (keyNum k, v') :: B) := by
  have hf : artFind root k = some v := (h.find hk v).2 (by simp)
  obtain ⟨h1, h2⟩ := artStore_has h.ok hk hf v'
  have hks := ks_mid.1 h.ks
  refine ⟨h1, ks_mid.2 hks, ?_⟩
  intro n w
  constructor
  · intro m
    rcases List.mem_append.1 m with m1 | m1
    · obtain ⟨k', h3, h4⟩ := (h.mem n w).1 (List.mem_append_left _ m1)
      refine ⟨k', (h2 _ _).2 ?_, h4⟩
      rw [if_neg]; exact h3
      rintro rfl
      have := hks.2.1 _ m1; simp only at this; omega
    · rcases List.mem_cons.1 m1 with e | m2
      · obtain ⟨rfl, rfl⟩ := Prod.mk.inj e
        exact ⟨k, (h2 _ _).2 (by rw [if_pos rfl]), rfl⟩
      · obtain ⟨k', h3, h4⟩ := (h.mem n w).1 (List.mem_append_right _ (List.mem_cons_of_mem _ m2))
        refine ⟨k', (h2 _ _).2 ?_, h4⟩
        rw [if_neg]; exact h3
        rintro rfl
        have := hks.2.2 _ m2; simp only at this; omega
  · rintro ⟨k', h3, h4⟩
    have h5 := (h2 _ _).1 h3
    by_cases e : k' = k
    · subst e
      rw [if_pos rfl] at h5
      subst h5; subst h4
      simp
    · rw [if_neg e] at h5
      have m := (h.mem n w).2 ⟨k', h5, h4⟩
      simp only [List.mem_append, List.mem_cons, Prod.mk.injEq] at m ⊢
      rcases m with m | ⟨rfl, rfl⟩ | m
      · exact Or.inl m
      · exact absurd (key_inj (h.ok.key h5) hk h4) e
      · exact Or.inr (Or.inr m)

/-! ### Iterators -/

theorem IL.nil {root : Option (Art V)} {it : ArtIt V} (h : IL root it []) : it.value = none := by
  obtain ⟨X, h1, h2⟩ := h.pos
  cases hv : it.value with
  | none => rfl
  | some v =>
    have ha := h1.next h.ok hv
    unfold RFirst at h1
    rw [hv] at h1
    exact absurd ((h2.2 (keyNum it.key) v).2 ⟨h1.2.1, it.key, ha.has h.ok, rfl⟩) (by simp)

theorem IL.none {root : Option (Art V)} {it : ArtIt V} {l : List (Nat × V)} (h : IL root it l) (hv : it.value = none) :
    l = [] := by
  obtain ⟨X, h1, h2⟩ := h.pos
  unfold RFirst at h1
  rw [hv] at h1
  cases l with
  | nil => rfl
  | cons p t =>
    obtain ⟨h3, k, h4, h5⟩ := (h2.2 p.1 p.2).1 (by simp)
    have := h1 k _ h4
    omega

/-- What an iterator that is not at the end shows. -/
structure ICons (root : Option (Art V)) (it : ArtIt V) (n : Nat) (v : V) (t : List (Nat × V)) : Prop where
  value : it.value = some v
  num : keyNum it.key = n
  key : IsKey it.key
  rat : RAt root it v
  next : IL root (itNext root it) t

theorem IL.cons {root : Option (Art V)} {it : ArtIt V} {n : Nat} {v : V} {t : List (Nat × V)}
    (h : IL root it ((n, v) :: t)) : ICons root it n v t := by
  obtain ⟨X, h1, h2⟩ := h.pos
  obtain ⟨h3, k, h4, h5⟩ := (h2.2 n v).1 (by simp)
  cases hv : it.value with
  | none =>
    unfold RFirst at h1
    rw [hv] at h1
    have := h1 k _ h4
    omega
  | some w =>
    have ha := h1.next h.ok hv
    unfold RFirst at h1
    rw [hv] at h1
    have hh := ha.has h.ok
    have m := (h2.2 (keyNum it.key) w).2 ⟨h1.2.1, it.key, hh, rfl⟩
    have hmin := h1.2.2 k _ h4 (by omega)
    have hks := ks_cons.1 h2.1
    have e : keyNum it.key = n ∧ w = v := by
      rcases List.mem_cons.1 m with e | m
      · exact ⟨(Prod.mk.inj e).1, (Prod.mk.inj e).2⟩
      · have := hks.1 _ m; simp only at this; omega
    obtain ⟨e1, rfl⟩ := e
    refine ⟨hv, e1, h.ok.key hh, ha, ⟨h.ok, keyNum it.key + 1, itNext_first h.ok ha, hks.2, ?_⟩⟩
    intro m u
    have := h2.2 m u
    simp only [List.mem_cons, Prod.mk.injEq] at this
    constructor
    · intro hm
      obtain ⟨h6, h7⟩ := this.1 (Or.inr hm)
      have := hks.1 _ hm; simp only at this
      exact ⟨by omega, h7⟩
    · rintro ⟨h6, h7⟩
      rcases this.2 ⟨by omega, h7⟩ with ⟨e, -⟩ | hm
      · omega
      · exact hm

/-- An iterator moved to the first key that is not smaller than a given one. -/
theorem il_lower {root : Option (Art V)} (h : ArtOk root) {it : ArtIt V} {l : List (Nat × V)} {X : Nat}
    (hf : RFirst root X it) (hks : KS l)
    (hl : ∀ n v, X ≤ n → ((n, v) ∈ l ↔ ∃ k, RHas root k v ∧ keyNum k = n)) :
    IL root it (l.filter (fun p => decide (X ≤ p.1))) := by
  refine ⟨h, X, hf, hks.filter _, ?_⟩
  intro n v
  simp only [List.mem_filter, decide_eq_true_eq]
  constructor
  · rintro ⟨h1, h2⟩; exact ⟨h2, (hl n v h2).1 h1⟩
  · rintro ⟨h1, h2⟩; exact ⟨(hl n v h1).2 h2, h1⟩

theorem IL.lower {root : Option (Art V)} {it : ArtIt V} {n : Nat} {v : V} {t : List (Nat × V)}
    (h : IL root it ((n, v) :: t)) {k : List Nat} (hk : IsKey k) (hn : n ≤ keyNum k) :
    IL root (itLowerBound root it k) (((n, v) :: t).filter (fun p => decide (keyNum k ≤ p.1))) := by
  have hc := h.cons
  obtain ⟨X, h1, h2⟩ := h.pos
  have hX := ((h2.2 n v).1 (by simp)).1
  refine il_lower h.ok (itLowerBound_first h.ok hk hc.rat) h2.1 ?_
  intro m w hm
  rw [h2.2]
  constructor
  · exact fun h => h.2
  · intro h; exact ⟨by omega, h⟩

theorem RL.init {root : Option (Art V)} {l : List (Nat × V)} (h : RL root l) : IL root (artInitIterator root true) l :=
  ⟨h.ok, 0, artInit_first h.ok, h.ks, fun n v => by rw [h.mem]; simp⟩

theorem RL.lower {root : Option (Art V)} {l : List (Nat × V)} (h : RL root l) {k : List Nat} (hk : IsKey k) :
    IL root (artLowerBound root k) (l.filter (fun p => decide (keyNum k ≤ p.1))) :=
  il_lower h.ok (artLowerBound_first h.ok hk) h.ks (fun n v _ => h.mem n v)

theorem RL.upper {root : Option (Art V)} {l : List (Nat × V)} (h : RL root l) {k : List Nat} (hk : IsKey k) :
    IL root (artUpperBound root k) (l.filter (fun p => decide (keyNum k + 1 ≤ p.1))) :=
  il_lower h.ok (artUpperBound_first h.ok hk) h.ks (fun n v _ => h.mem n v)

theorem filter_ge_split {A B : List (Nat × V)} {X : Nat} (hA : ∀ p ∈ A, p.1 < X) (hB : ∀ p ∈ B, X ≤ p.1) :
    (A ++ B).filter (fun p => decide (X ≤ p.1)) = B := by
  rw [List.filter_append]
  have e1 : A.filter (fun p => decide (X ≤ p.1)) = [] := by
    rw [List.filter_eq_nil_iff]
    intro p hp
    have := hA p hp
    simp only [decide_eq_true_eq]; omega
  have e2 : B.filter (fun p => decide (X ≤ p.1)) = B := by
    rw [List.filter_eq_self]
    intro p hp
    simpa using hB p hp
  rw [e1, e2, List.nil_append]

/-! ### Updates at an iterator -/

theorem RL.from {root : Option (Art V)} {A B : List (Nat × V)} (h : RL root (A ++ B)) {X : Nat}
    (hA : ∀ p ∈ A, p.1 < X) (hB : ∀ p ∈ B, X ≤ p.1) : EFrom root X B := by
  refine ⟨(ks_append.1 h.ks).2.1, fun n v => ?_⟩
  rw [← h.mem]
  constructor
  · intro m; exact ⟨hB _ m, List.mem_append_right _ m⟩
  · rintro ⟨h1, m⟩
    rcases List.mem_append.1 m with m | m
    · have := hA _ m; simp only at this; omega
    · exact m

theorem RL.store_at {root : Option (Art V)} {A t : List (Nat × V)} {n : Nat} {v : V} {it : ArtIt V}
    (h : RL root (A ++ (n, v) :: t)) (hi : IL root it ((n, v) :: t)) (v' : V) :
    RL (artStore root it.key v') (A ++ (n, v') :: t) ∧
    IL (artStore root it.key v') (itNext (artStore root it.key v') { it with value := some v' }) t := by
  have hc := hi.cons
  obtain ⟨h1, h2, h3⟩ := RAt.store h.ok hc.rat v'
  have e := hc.num
  subst e
  have hR := h.store hc.key v'
  refine ⟨hR, h1, keyNum it.key + 1, itNext_first (it := { it with value := some v' }) h1 h2, ?_⟩
  have hks := ks_mid.1 h.ks
  refine RL.from (A := A ++ [(keyNum it.key, v')]) (by simpa using hR) ?_ (fun p hp => hks.2.2 p hp)
  intro p hp
  rcases List.mem_append.1 hp with hp | hp
  · have := hks.2.1 p hp; omega
  · simp only [List.mem_singleton] at hp; subst hp; simp

theorem RL.erase_at {root : Option (Art V)} {A t : List (Nat × V)} {n : Nat} {v : V} {it : ArtIt V}
    (h : RL root (A ++ (n, v) :: t)) (hi : IL root it ((n, v) :: t)) :
    RL (itErase root it).2.1 (A ++ t) ∧ IL (itErase root it).2.1 (itErase root it).2.2 t := by
  have hc := hi.cons
  obtain ⟨-, h1, h2, h3⟩ := itErase_spec h.ok hc.rat
  have e := hc.num
  subst e
  have hR := h.erase_of hc.key h1 h2
  have hks := ks_mid.1 h.ks
  refine ⟨hR, h1, _, h3, RL.from hR ?_ (fun p hp => hks.2.2 p hp)⟩
  intro p hp
  have := hks.2.1 p hp; omega

theorem RL.insert_at {root : Option (Art V)} {A t : List (Nat × V)} (h : RL root (A ++ t)) (it : ArtIt V)
    {k : List Nat} (hk : IsKey k) (hA : ∀ p ∈ A, p.1 < keyNum k) (hB : ∀ p ∈ t, keyNum k < p.1) (v : V) :
    RL (itInsert root it k v).1 (A ++ (keyNum k, v) :: t) ∧
    IL (itInsert root it k v).1 (itInsert root it k v).2 ((keyNum k, v) :: t) := by
  have hn : artFind root k = none := by
    rw [h.find_none hk]
    intro p hp e
    rcases List.mem_append.1 hp with hp | hp
    · have := hA p hp; omega
    · have := hB p hp; omega
  obtain ⟨h1, h2, h3⟩ := itInsert_spec h.ok it hk hn v
  have hR := h.insert hk hA hB v
  rw [← h1] at hR
  refine ⟨hR, hR.ok, keyNum k, ?_, ?_⟩
  · unfold RFirst
    rw [h2.value]
    exact ⟨h2, by rw [h3]; exact Nat.le_refl _, fun k' w hh hl => by rw [h3]; exact hl⟩
  · refine RL.from hR hA ?_
    intro p hp
    rcases List.mem_cons.1 hp with rfl | hp
    · exact Nat.le_refl _
    · have := hB p hp; omega

end
end CRoaring
