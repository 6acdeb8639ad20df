import Verif.Lemmas.R64
/-
The 64-bit bitmap as the list of its containers: updates, copies and set operations.
-/
set_option linter.unusedSimpArgs false
set_option linter.unusedVariables false
namespace CRoaring
open Spec

/-! ### Lists of containers -/

/-- Keys of 48 bits, strictly increasing, and a property of every container. -/
def BQ (P : Container → Prop) : Bitmap → Prop
  | [] => True
  | (k, c) :: t => k < P48 ∧ P c ∧ (∀ p ∈ t, k < p.1) ∧ BQ P t

theorem bq_iff {P : Container → Prop} {l : Bitmap} : BQ P l ↔ KS l ∧ (∀ p ∈ l, p.1 < P48) ∧ ∀ p ∈ l, P p.2 := by
  induction l with
  | nil => simp [BQ, KS]
  | cons p t ih =>
    obtain ⟨k, c⟩ := p
    rw [ks_cons]
    simp only [BQ, ih, List.mem_cons]
    constructor
    · rintro ⟨h1, h2, h3, h4, h5, h6⟩
      refine ⟨⟨h3, h4⟩, ?_, ?_⟩
      · rintro p (rfl | hp)
        · exact h1
        · exact h5 p hp
      · rintro p (rfl | hp)
        · exact h2
        · exact h6 p hp
    · rintro ⟨⟨h3, h4⟩, h5, h6⟩
      exact ⟨h5 _ (Or.inl rfl), h6 _ (Or.inl rfl), h3, h4, fun p hp => h5 p (Or.inr hp), fun p hp => h6 p (Or.inr hp)⟩

theorem BQ.mono {P Q : Container → Prop} {l : Bitmap} (h : BQ P l) (hq : ∀ c, P c → Q c) : BQ Q l := by
  rw [bq_iff] at h ⊢
  exact ⟨h.1, h.2.1, fun p hp => hq _ (h.2.2 p hp)⟩

theorem merge64_spec {P1 P2 P : Container → Prop} {f : Nat → Container → Container → Option Container}
    {k1 k2 : Bool} {op : Bool → Bool → Bool}
    (hs : ∀ k c1 c2 c, P1 c1 → P2 c2 → f k c1 c2 = some c →
      P c ∧ ∀ x, chas c x = op (chas c1 x) (chas c2 x))
    (hn : ∀ k c1 c2, P1 c1 → P2 c2 → f k c1 c2 = none → ∀ x, op (chas c1 x) (chas c2 x) = false)
    (h1 : ∀ b, op b false = (k1 && b)) (h2 : ∀ b, op false b = (k2 && b))
    (p1 : k1 = true → ∀ c, P1 c → P c) (p2 : k2 = true → ∀ c, P2 c → P c)
    {a b : Bitmap} (ha : BQ P1 a) (hb : BQ P2 b) :
    BQ P (merge f k1 k2 a b) ∧ ∀ x, bhas (merge f k1 k2 a b) x = op (bhas a x) (bhas b x) := by
  fun_induction merge f k1 k2 a b with
  | case1 x2 =>
    refine ⟨?_, fun x => by rw [bhas_nil, h2, bhas_keep]⟩
    cases hk : k2
    · trivial
    · exact hb.mono (p2 hk)
  | case2 x1 h =>
    refine ⟨?_, fun x => by rw [bhas_nil, h1, bhas_keep]⟩
    cases hk : k1
    · trivial
    · exact ha.mono (p1 hk)
  | case3 c1 t1 s c2 t2 ih =>
    have ih := ih ha.2.2.2 hb.2.2.2
    have hg := merge_gt (f := f) (k1 := k1) (k2 := k2) ha.2.2.1 hb.2.2.1
    cases hf : f s c1 c2 with
    | some c =>
      have hc := hs s c1 c2 c ha.2.1 hb.2.1 hf
      simp only [List.cons_append, List.nil_append]
      refine ⟨⟨ha.1, hc.1, hg, ih.1⟩, fun x => ?_⟩
      simp only [bhas_cons]
      by_cases hx : s = x / 65536
      · rw [bhas_gt hg (by omega), bhas_gt ha.2.2.1 (by omega), bhas_gt hb.2.2.1 (by omega)]
        simp [hx, hc.2]
      · rw [ih.2 x, beq_eq_false_iff_ne.2 hx]
        simp
    | none =>
      have hc := hn s c1 c2 ha.2.1 hb.2.1 hf
      simp only [List.nil_append]
      refine ⟨ih.1, fun x => ?_⟩
      simp only [bhas_cons]
      by_cases hx : s = x / 65536
      · rw [bhas_gt hg (by omega), bhas_gt ha.2.2.1 (by omega), bhas_gt hb.2.2.1 (by omega)]
        simp [hx, hc]
      · rw [ih.2 x, beq_eq_false_iff_ne.2 hx]
        simp
  | case4 s1 c1 t1 s2 c2 t2 hne hlt ih =>
    have ih := ih ha.2.2.2 hb
    have hb2 : ∀ p ∈ (s2, c2) :: t2, s1 < p.1 := by
      intro p hp
      rcases List.mem_cons.1 hp with rfl | hp
      · exact hlt
      · have := hb.2.2.1 p hp; omega
    have hg := merge_gt (f := f) (k1 := k1) (k2 := k2) ha.2.2.1 hb2
    have key : ∀ x, s1 = x / 65536 →
        op (bhas ((s1, c1) :: t1) x) (bhas ((s2, c2) :: t2) x) = (k1 && chas c1 (x % 65536)) := by
      intro x hx
      rw [bhas_gt hb2 (by omega), h1, bhas_cons, bhas_gt ha.2.2.1 (by omega)]
      simp [hx]
    have other : ∀ x, s1 ≠ x / 65536 → bhas ((s1, c1) :: t1) x = bhas t1 x := by
      intro x hx; rw [bhas_cons, beq_eq_false_iff_ne.2 hx]; simp
    cases hk : k1 with
    | true =>
      rw [hk] at hg ih
      simp only [keep_true, List.cons_append, List.nil_append]
      refine ⟨⟨ha.1, p1 hk _ ha.2.1, hg, ih.1⟩, fun x => ?_⟩
      by_cases hx : s1 = x / 65536
      · rw [key x hx, bhas_cons, bhas_gt hg (by omega)]; simp [hx, hk]
      · rw [other x hx, bhas_cons, ih.2 x, beq_eq_false_iff_ne.2 hx]; simp
    | false =>
      rw [hk] at hg ih
      simp only [keep_false, List.nil_append]
      refine ⟨ih.1, fun x => ?_⟩
      by_cases hx : s1 = x / 65536
      · rw [key x hx, bhas_gt hg (by omega)]; simp [hk]
      · rw [other x hx, ih.2 x]
  | case5 s1 c1 t1 s2 c2 t2 hne hlt ih =>
    have ih := ih ha hb.2.2.2
    have ha2 : ∀ p ∈ (s1, c1) :: t1, s2 < p.1 := by
      intro p hp
      rcases List.mem_cons.1 hp with rfl | hp
      · simp only; omega
      · have := ha.2.2.1 p hp; omega
    have hg := merge_gt (f := f) (k1 := k1) (k2 := k2) ha2 hb.2.2.1
    have key : ∀ x, s2 = x / 65536 →
        op (bhas ((s1, c1) :: t1) x) (bhas ((s2, c2) :: t2) x) = (k2 && chas c2 (x % 65536)) := by
      intro x hx
      rw [bhas_gt ha2 (by omega), h2, bhas_cons, bhas_gt hb.2.2.1 (by omega)]
      simp [hx]
    have other : ∀ x, s2 ≠ x / 65536 → bhas ((s2, c2) :: t2) x = bhas t2 x := by
      intro x hx; rw [bhas_cons, beq_eq_false_iff_ne.2 hx]; simp
    cases hk : k2 with
    | true =>
      rw [hk] at hg ih
      simp only [keep_true, List.cons_append, List.nil_append]
      refine ⟨⟨hb.1, p2 hk _ hb.2.1, hg, ih.1⟩, fun x => ?_⟩
      by_cases hx : s2 = x / 65536
      · rw [key x hx, bhas_cons, bhas_gt hg (by omega)]; simp [hx, hk]
      · rw [other x hx, bhas_cons, ih.2 x, beq_eq_false_iff_ne.2 hx]; simp
    | false =>
      rw [hk] at hg ih
      simp only [keep_false, List.nil_append]
      refine ⟨ih.1, fun x => ?_⟩
      by_cases hx : s2 = x / 65536
      · rw [key x hx, bhas_gt hg (by omega)]; simp [hk]
      · rw [other x hx, ih.2 x]

/-! ### A bitmap and its list -/

/-- The tree holds the containers of the list, which are well formed and not empty. -/
structure B64 (r : R64) (l : Bitmap) : Prop where
  rl : RL r l
  ne : ∀ p ∈ l, CNe p.2

/-- The bitmap is well formed and holds the set `s`. -/
def Rep64 (r : R64) (s : NSet) : Prop := ∃ l, B64 r l ∧ ∀ x, bhas l x = s x

/-- A well-formed tree of well-formed, non-empty containers. -/
def R64Inv (r : R64) : Prop := ArtOk r ∧ ∀ k c, RHas r k c → CNe c

theorem B64.inv {r : R64} {l : Bitmap} (h : B64 r l) : R64Inv r := by
  refine ⟨h.rl.ok, fun k c hk => ?_⟩
  exact h.ne _ ((h.rl.mem (keyNum k) c).2 ⟨k, hk, rfl⟩)

theorem R64Inv.b64 {r : R64} (h : R64Inv r) : ∃ l, B64 r l := by
  obtain ⟨l, hl⟩ := exists_rl h.1
  refine ⟨l, hl, fun p hp => ?_⟩
  obtain ⟨k, hk, -⟩ := (hl.mem p.1 p.2).1 hp
  exact h.2 k _ hk

theorem B64.bq {r : R64} {l : Bitmap} (h : B64 r l) : BQ CNe l := bq_iff.2 ⟨h.rl.ks, fun _ hp => h.rl.lt hp, h.ne⟩

theorem B64.of_bq {r : R64} {l : Bitmap} (h : RL r l) (hq : BQ CNe l) : B64 r l := ⟨h, (bq_iff.1 hq).2.2⟩

theorem B64.rep {r : R64} {l : Bitmap} (h : B64 r l) : Rep64 r (bhas l) := ⟨l, h, fun _ => rfl⟩

theorem Rep64.elim {r : R64} {s : NSet} (h : Rep64 r s) : ∃ l, B64 r l ∧ s = bhas l := by
  obtain ⟨l, h, e⟩ := h
  exact ⟨l, h, funext fun x => (e x).symm⟩

/-- Replace `h : Rep64 r s` by `h : B64 r l`, and `s` by `bhas l`. -/
macro "rep64 " h:ident l:ident : tactic =>
  `(tactic| (obtain ⟨$l:ident, h', e⟩ := Rep64.elim $h; clear $h; subst e; have $h:ident := h'; clear h'))

theorem Rep64.inv {r : R64} {s : NSet} (h : Rep64 r s) : R64Inv r := by
  obtain ⟨l, h, -⟩ := h
  exact h.inv

theorem Rep64.congr {r : R64} {s t : NSet} (h : Rep64 r s) (e : ∀ x, s x = t x) : Rep64 r t := by
  obtain ⟨l, h, h'⟩ := h
  exact ⟨l, h, fun x => by rw [h', e]⟩

theorem split_low {v : Nat} : v % 65536 < 65536 := Nat.mod_lt _ (by omega)

theorem B64.contains {r : R64} {l : Bitmap} (h : B64 r l) {v : Nat} (hv : v < TOP64) : r64Contains r v = bhas l v := by
  unfold r64Contains
  simp only [splitKey_low]
  have hn := keyNum_split hv
  rcases h.rl.split (splitKey_isKey v) with ⟨A, c, B, rfl, hA, hB, hf⟩ | ⟨A, B, rfl, hA, hB, hf⟩
  · rw [hf]
    simp only
    rw [bhas_mid hA hB, if_pos hn.symm]
    exact containerContains_eq (h.ne (keyNum (splitKey v).1, c) (by simp)).1.rep.lrep _
  · rw [hf]
    simp only
    rw [bhas_gap hA hB hn.symm]

theorem Rep64.contains {r : R64} {s : NSet} (h : Rep64 r s) {v : Nat} (hv : v < TOP64) : r64Contains r v = s v := by
  obtain ⟨l, h, h'⟩ := h
  rw [h.contains hv, h']

theorem B64.zero {r : R64} {l : Bitmap} (h : B64 r l) {x : Nat} (hx : TOP64 ≤ x) : bhas l x = false := by
  refine bhas_ne fun p hp => ?_
  have := h.rl.lt hp
  unfold P48 at this
  unfold TOP64 at hx
  omega

theorem Rep64.zero {r : R64} {s : NSet} (h : Rep64 r s) {x : Nat} (hx : TOP64 ≤ x) : s x = false := by
  obtain ⟨l, h, h'⟩ := h
  rw [← h', h.zero hx]

/-- The set of the values a bitmap contains, by `roaring64_bitmap_contains`. -/
def has64 (r : R64) : NSet := fun x => decide (x < TOP64) && r64Contains r x

theorem R64Inv.rep {r : R64} (h : R64Inv r) : Rep64 r (has64 r) := by
  obtain ⟨l, hl⟩ := h.b64
  refine ⟨l, hl, fun x => ?_⟩
  unfold has64
  by_cases hx : x < TOP64
  · rw [decide_eq_true hx, Bool.true_and, hl.contains hx]
  · rw [decide_eq_false hx, Bool.false_and, hl.zero (by omega)]

theorem rep64_empty : Rep64 r64Create Spec.empty := ⟨[], ⟨rl_none, by simp⟩, fun _ => rfl⟩

/-- Put a container at a key that has none. -/
theorem B64.insert {r : R64} {A B : Bitmap} (h : B64 r (A ++ B)) {k : List Nat} (hk : IsKey k)
    (hA : ∀ p ∈ A, p.1 < keyNum k) (hB : ∀ p ∈ B, keyNum k < p.1) {c : Container} (hc : CNe c) :
    B64 (artInsert r k c) (A ++ (keyNum k, c) :: B) := by
  refine ⟨h.rl.insert hk hA hB c, fun p hp => ?_⟩
  simp only [List.mem_append, List.mem_cons] at hp
  rcases hp with hp | rfl | hp
  · exact h.ne p (by simp [hp])
  · exact hc
  · exact h.ne p (by simp [hp])

theorem B64.store {r : R64} {A B : Bitmap} {k : List Nat} {c0 : Container} (h : B64 r (A ++ (keyNum k, c0) :: B))
    (hk : IsKey k) {c : Container} (hc : CNe c) : B64 (artStore r k c) (A ++ (keyNum k, c) :: B) := by
  refine ⟨h.rl.store hk c, fun p hp => ?_⟩
  simp only [List.mem_append, List.mem_cons] at hp
  rcases hp with hp | rfl | hp
  · exact h.ne p (by simp [hp])
  · exact hc
  · exact h.ne p (by simp [hp])

theorem B64.erase {r : R64} {A B : Bitmap} {k : List Nat} {c0 : Container} (h : B64 r (A ++ (keyNum k, c0) :: B))
    (hk : IsKey k) : B64 (artErase r k).2 (A ++ B) := by
  refine ⟨h.rl.erase hk, fun p hp => ?_⟩
  rcases List.mem_append.1 hp with hp | hp
  · exact h.ne p (by simp [hp])
  · exact h.ne p (by simp [hp])

theorem rl_store_twice {r : R64} {A B : Bitmap} {k : List Nat} {c0 : Container} (h : RL r (A ++ (keyNum k, c0) :: B))
    (hk : IsKey k) (c : Container) : RL (artErase (artStore r k c) k).2 (A ++ B) := (h.store hk c).erase hk

/-! ### Single values -/

theorem add64_at {r : R64} {s : NSet} (h : Rep64 r s) {v : Nat} (hv : v < TOP64) :
    Rep64 (r64AddAt r (splitKey v).1 (splitKey v).2 (artFind r (splitKey v).1)) (Spec.insert s v) := by
  rep64 h l
  simp only [splitKey_low]
  have hk := splitKey_isKey v
  have hn := keyNum_split hv
  rcases h.rl.split hk with ⟨A, c, B, rfl, hA, hB, hf⟩ | ⟨A, B, rfl, hA, hB, hf⟩
  · rw [hf]
    simp only [r64AddAt]
    have hc := (h.ne (keyNum (splitKey v).1, c) (by simp)).1.rep
    have hr := containerAdd_spec hc (v := v % 65536) split_low
    refine ⟨_, h.store hk (hr.cne (x := v % 65536) (by simp [Spec.insert])), fun x => ?_⟩
    rw [bhas_mid hA hB]
    by_cases hx : x / 65536 = keyNum (splitKey v).1
    · rw [if_pos hx, hr.has, insert_split _ x v (by omega)]
      rw [bhas_mid hA hB, if_pos hx]
    · rw [if_neg hx, insert_other _ (by omega), bhas_mid hA hB, if_neg hx]
  · rw [hf]
    simp only [r64AddAt]
    have hr := containerAdd_spec rep_empty (v := v % 65536) split_low
    refine ⟨_, h.insert hk hA hB (hr.cne (x := v % 65536) (by simp [Spec.insert])), fun x => ?_⟩
    rw [bhas_mid hA hB]
    by_cases hx : x / 65536 = keyNum (splitKey v).1
    · rw [if_pos hx, hr.has, insert_split _ x v (by omega)]
      rw [bhas_gap hA hB hx]; rfl
    · rw [if_neg hx, insert_other _ (by omega)]


theorem r64Add_spec {r : R64} {s : NSet} (h : Rep64 r s) {v : Nat} (hv : v < TOP64) : Rep64 (r64Add r v) (Spec.insert s v) :=
  add64_at h hv

theorem remove64_at {r : R64} {s : NSet} (h : Rep64 r s) {v : Nat} (hv : v < TOP64) :
    Rep64 (r64RemoveAt r (splitKey v).1 (splitKey v).2 (artFind r (splitKey v).1)).1 (Spec.erase s v) := by
  rep64 h l
  simp only [splitKey_low]
  have hk := splitKey_isKey v
  have hn := keyNum_split hv
  rcases h.rl.split hk with ⟨A, c, B, rfl, hA, hB, hf⟩ | ⟨A, B, rfl, hA, hB, hf⟩
  · rw [hf]
    simp only [r64RemoveAt]
    have hc := (h.ne (keyNum (splitKey v).1, c) (by simp)).1.rep
    have hr := containerRemove_spec hc (v := v % 65536) split_low
    have key : ∀ x, x / 65536 = keyNum (splitKey v).1 →
        chas (containerRemove (v % 65536) c) (x % 65536) = Spec.erase (bhas (A ++ (keyNum (splitKey v).1, c) :: B)) v x := by
      intro x hx
      rw [hr.has, erase_split _ x v (by omega)]
      rw [bhas_mid hA hB, if_pos hx]
    by_cases hz : containerNonzero (containerRemove (v % 65536) c) = true
    · rw [hz]
      simp only [Bool.not_true, Bool.false_eq_true, if_false]
      obtain ⟨y, hy⟩ := (containerNonzero_iff hr.lrep).1 hz
      refine ⟨_, h.store hk (hr.cne hy), fun x => ?_⟩
      rw [bhas_mid hA hB]
      by_cases hx : x / 65536 = keyNum (splitKey v).1
      · rw [if_pos hx, key x hx]
      · rw [if_neg hx, erase_other _ (by omega), bhas_mid hA hB, if_neg hx]
    · have hz' : containerNonzero (containerRemove (v % 65536) c) = false := by simpa using hz
      rw [hz']
      simp only [Bool.not_false, if_true]
      refine ⟨A ++ B, ⟨rl_store_twice h.rl hk _, fun p hp => h.ne p ?_⟩, fun x => ?_⟩
      · rcases List.mem_append.1 hp with hp | hp <;> simp [hp]
      · by_cases hx : x / 65536 = keyNum (splitKey v).1
        · rw [bhas_gap hA hB hx, ← key x hx, hr.has]
          cases hb : Spec.erase (chas c) (v % 65536) (x % 65536) with
          | false => rfl
          | true => exact absurd ((containerNonzero_iff hr.lrep).2 ⟨_, hb⟩) hz
        · rw [erase_other _ (by omega), bhas_mid hA hB, if_neg hx]
  · rw [hf]
    simp only [r64RemoveAt]
    refine ⟨_, h, fun x => ?_⟩
    by_cases hx : x / 65536 = keyNum (splitKey v).1
    · rw [bhas_gap hA hB hx]; simp only [Spec.erase, bhas_gap hA hB hx]; simp
    · rw [erase_other _ (by omega)]

theorem r64Remove_spec {r : R64} {s : NSet} (h : Rep64 r s) {v : Nat} (hv : v < TOP64) :
    Rep64 (r64Remove r v) (Spec.erase s v) := remove64_at h hv

/-! ### Copies -/

theorem ks_length {V : Type} {l : List (Nat × V)} (h : KS l) {a N : Nat} (ha : ∀ p ∈ l, a ≤ p.1) (hN : ∀ p ∈ l, p.1 < N) (haN : a ≤ N) :
    l.length ≤ N - a := by
  induction l generalizing a with
  | nil => simp
  | cons p t ih =>
    have h' := List.pairwise_cons.1 h
    have h1 := ha p (by simp)
    have h2 := hN p (by simp)
    have := ih h'.2 (a := p.1 + 1) (fun q hq => h'.1 q hq) (fun q hq => hN q (by simp [hq])) h2
    simp only [List.length_cons]
    omega

theorem RL.length {V : Type} {root : Option (Art V)} {l : List (Nat × V)} (h : RL root l) : l.length ≤ P48 :=
  ks_length h.ks (a := 0) (by simp) (fun _ hp => h.lt hp) (Nat.zero_le _)

theorem p48_fuel {n m : Nat} (h1 : n ≤ P48) (h2 : m ≤ P48) : n + m < FUEL := by
  unfold P48 at h1 h2; unfold FUEL; omega

theorem RL.fuel {V : Type} {root : Option (Art V)} {l : List (Nat × V)} (h : RL root l) : l.length < FUEL := by
  have := p48_fuel h.length (Nat.zero_le P48); simpa using this

/-- Entries go to the end of a list of smaller keys. -/
def Below (A B : Bitmap) : Prop := ∀ p ∈ A, ∀ q ∈ B, p.1 < q.1

theorem Below.snoc {A t : Bitmap} {n : Nat} {c0 : Container} (h : Below A ((n, c0) :: t)) (hks : KS ((n, c0) :: t)) (c : Container) :
    Below (A ++ [(n, c)]) t := by
  intro p hp q hq
  rcases List.mem_append.1 hp with hp | hp
  · exact h p hp q (by simp [hq])
  · simp only [List.mem_singleton] at hp
    subst hp
    exact (ks_cons.1 hks).1 q hq

theorem Below.tail {A t : Bitmap} {p : Nat × Container} (h : Below A (p :: t)) : Below A t :=
  fun a ha q hq => h a ha q (by simp [hq])

theorem Below.head {A t : Bitmap} {n : Nat} {c : Container} (h : Below A ((n, c) :: t)) : ∀ p ∈ A, p.1 < n :=
  fun p hp => h p hp (n, c) (by simp)

theorem IL.ks {V : Type} {root : Option (Art V)} {it : ArtIt V} {l : List (Nat × V)} (h : IL root it l) : KS l := by
  obtain ⟨X, -, h⟩ := h.pos
  exact h.1

theorem RL.push {root : R64} {A : Bitmap} (h : RL root A) {r1 : R64} {it : AIt} {n : Nat} {c0 : Container} {t : Bitmap}
    (hc : ICons r1 it n c0 t) (hA : ∀ p ∈ A, p.1 < n) (c : Container) : RL (artInsert root it.key c) (A ++ [(n, c)]) := by
  have e := hc.num
  subst e
  exact h.snoc hc.key hA c

theorem copy64_loop {r : R64} (fuel : Nat) {it : AIt} {l A : Bitmap} {res : R64} (hi : IL r it l) (hr : RL res A)
    (hb : Below A l) (hf : l.length < fuel) : RL (r64CopyLoop r fuel it res) (A ++ l) := by
  induction fuel generalizing it l A res with
  | zero => omega
  | succ fuel ih =>
    unfold r64CopyLoop
    cases l with
    | nil => rw [hi.nil]; simpa using hr
    | cons p t =>
      obtain ⟨n, c⟩ := p
      have hc := hi.cons
      rw [hc.value]
      simp only
      have := ih hc.next (hr.push hc hb.head c) (hb.snoc hi.ks c) (by simp at hf; omega)
      simpa using this

theorem r64Copy_rl {r : R64} {l : Bitmap} (h : RL r l) : RL (r64Copy r) l := by
  have := copy64_loop (A := []) FUEL h.init rl_none (fun p hp => by simp at hp) h.fuel
  simpa [r64Copy, r64Create] using this

theorem r64Copy_spec {r : R64} {s : NSet} (h : Rep64 r s) : Rep64 (r64Copy r) s := by
  rep64 h l
  exact ⟨l, ⟨r64Copy_rl h.rl, h.ne⟩, fun _ => rfl⟩

/-! ### Set operations -/

theorem filter_dropLt {l : Bitmap} (h : KS l) (x : Nat) : l.filter (fun p => decide (x ≤ p.1)) = dropLt x l := by
  obtain ⟨A, B, rfl, hA, hB⟩ := h.split x
  rw [dropLt_split hA hB, filter_ge_split hA hB]

theorem dropLt_length (x : Nat) (l : Bitmap) : (dropLt x l).length ≤ l.length := by
  obtain ⟨A, e, -⟩ := dropLt_suffix x l
  have := congrArg List.length e
  simp only [List.length_append] at this
  omega

theorem dropLt_lt {x n : Nat} {c : Container} {t : Bitmap} (h : n < x) : (dropLt x ((n, c) :: t)).length < ((n, c) :: t).length := by
  have e : dropLt x ((n, c) :: t) = dropLt x t := by simp [dropLt, h]
  rw [e]
  have := dropLt_length x t
  simp; omega

theorem mem_dropLt {x : Nat} {l : Bitmap} {p : Nat × Container} (h : p ∈ dropLt x l) : p ∈ l := by
  obtain ⟨A, e, -⟩ := dropLt_suffix x l
  rw [e]; simp [h]

theorem IL.drop {r : R64} {it : AIt} {n : Nat} {c : Container} {t : Bitmap} (h : IL r it ((n, c) :: t)) {k : List Nat}
    (hk : IsKey k) (hn : n ≤ keyNum k) : IL r (itLowerBound r it k) (dropLt (keyNum k) ((n, c) :: t)) := by
  have := h.lower hk hn
  rwa [filter_dropLt h.ks] at this

/-- The comparison of the keys of two iterators is that of the numbers. -/
theorem cmp_iters {r1 r2 : R64} {it1 it2 : AIt} {n1 n2 : Nat} {c1 c2 : Container} {t1 t2 : Bitmap}
    (h1 : ICons r1 it1 n1 c1 t1) (h2 : ICons r2 it2 n2 c2 t2) :
    (artCompareKeys it1.key it2.key = 0 ↔ n1 = n2) ∧ (artCompareKeys it1.key it2.key < 0 ↔ n1 < n2) := by
  have h := artCompareKeys_spec h1.key h2.key
  have e1 := h1.num
  have e2 := h2.num
  subst e1; subst e2
  refine ⟨?_, h.2.1⟩
  rw [h.1]
  exact ⟨fun e => by rw [e], fun e => key_inj h1.key h2.key e⟩

/-- The entry of a key, if there is one. -/
@[simp] def optList (n : Nat) : Option Container → Bitmap
  | some c => [(n, c)]
  | none => []

theorem merge_cons_eq (f : Nat → Container → Container → Option Container) (k1 k2 : Bool) (n : Nat) (c1 c2 : Container)
    (t1 t2 : Bitmap) : merge f k1 k2 ((n, c1) :: t1) ((n, c2) :: t2) =
      optList n (f n c1 c2) ++ merge f k1 k2 t1 t2 := by
  rw [merge, if_pos rfl]
  cases f n c1 c2 <;> rfl

theorem merge_cons_lt (f : Nat → Container → Container → Option Container) (k1 k2 : Bool) {n m : Nat} (h : n < m) (c1 c2 : Container)
    (t1 t2 : Bitmap) : merge f k1 k2 ((n, c1) :: t1) ((m, c2) :: t2) =
      keep k1 [(n, c1)] ++ merge f k1 k2 t1 ((m, c2) :: t2) := by
  rw [merge, if_neg (by omega), if_pos h]

theorem merge_cons_gt (f : Nat → Container → Container → Option Container) (k1 k2 : Bool) {n m : Nat} (h : m < n) (c1 c2 : Container)
    (t1 t2 : Bitmap) : merge f k1 k2 ((n, c1) :: t1) ((m, c2) :: t2) =
      keep k2 [(m, c2)] ++ merge f k1 k2 ((n, c1) :: t1) t2 := by
  rw [merge, if_neg (by omega), if_neg (by omega)]

theorem and64_loop {r1 r2 : R64} (fuel : Nat) {it1 it2 : AIt} {a b A : Bitmap} {res : R64} (h1 : IL r1 it1 a) (h2 : IL r2 it2 b)
    (hr : RL res A) (hb1 : Below A a) (hf : a.length + b.length < fuel) :
    RL (and64Loop r1 r2 fuel it1 it2 res) (A ++ merge (keepNz fun _ => containerAnd) false false a b) := by
  induction fuel generalizing it1 it2 a b A res with
  | zero => omega
  | succ fuel ih =>
    unfold and64Loop
    cases a with
    | nil => rw [h1.nil, merge_nil_left]; simpa using hr
    | cons p t1 =>
      obtain ⟨n1, c1⟩ := p
      have g1 := h1.cons
      cases b with
      | nil => rw [h2.nil, merge_nil_right]; simpa [g1.value] using hr
      | cons q t2 =>
        obtain ⟨n2, c2⟩ := q
        have g2 := h2.cons
        rw [g1.value, g2.value]
        simp only
        obtain ⟨he, hl⟩ := cmp_iters g1 g2
        simp only [List.length_cons] at hf
        by_cases e : n1 = n2
        · rw [if_pos (he.2 e)]
          subst e
          rw [merge_cons_eq]
          by_cases hz : containerNonzero (containerAnd c1 c2) = true
          · have := ih g1.next g2.next (hr.push g1 hb1.head (containerAnd c1 c2)) (hb1.snoc h1.ks _) (by omega)
            simpa [keepNz, hz] using this
          · have := ih g1.next g2.next hr hb1.tail (by omega)
            simpa [keepNz, hz] using this
        · rw [if_neg (fun hh => e (he.1 hh))]
          by_cases hlt : n1 < n2
          · rw [if_pos (hl.2 hlt)]
            have e2 := g2.num
            have hd := dropLt_lt (c := c1) (t := t1) hlt
            have hb' : Below A (dropLt n2 ((n1, c1) :: t1)) := fun p hp q hq => hb1 p hp q (mem_dropLt hq)
            have h1' := h1.drop g2.key (by omega)
            rw [e2] at h1'
            have := ih h1' h2 hr hb' (by simp only [List.length_cons] at hd ⊢; omega)
            rwa [merge_drop_left] at this
          · rw [if_neg (fun hh => hlt (hl.1 hh))]
            have e1 := g1.num
            have hd := dropLt_lt (c := c2) (t := t2) (show n2 < n1 by omega)
            have h2' := h2.drop g1.key (by omega)
            rw [e1] at h2'
            have := ih h1 h2' hr hb1 (by simp only [List.length_cons] at hd ⊢; omega)
            rwa [merge_drop_right] at this

theorem r64And_spec {r1 r2 : R64} {s t : NSet} (h1 : Rep64 r1 s) (h2 : Rep64 r2 t) : Rep64 (r64And r1 r2) (Spec.inter s t) := by
  rep64 h1 a
  rep64 h2 b
  have hl := and64_loop (A := []) FUEL h1.rl.init h2.rl.init rl_none (fun p hp => by simp at hp) (p48_fuel h1.rl.length h2.rl.length)
  rw [List.nil_append] at hl
  have hm := merge64_spec (P1 := CNe) (P2 := CNe) (P := CNe) (f := keepNz fun _ => containerAnd) (k1 := false) (k2 := false)
    (op := fun a b => a && b)
    (fun k c1 c2 c h1 h2 h => keepNz_some (containerAnd_spec h1.1.rep h2.1.rep) h)
    (fun k c1 c2 h1 h2 h => keepNz_none (g := fun _ => containerAnd) (containerAnd_spec h1.1.rep h2.1.rep).lrep h)
    (by simp) (by simp) (by simp) (by simp) h1.bq h2.bq
  exact ⟨_, B64.of_bq hl hm.1, hm.2⟩

end CRoaring
