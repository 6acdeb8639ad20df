import Verif.Model.Bitmap
import Verif.Lemmas.Container3

set_option linter.unusedSimpArgs false
set_option linter.unusedVariables false

/-! Representation predicate for bitmaps, and the point operations. -/

namespace CRoaring
open Spec

/-- The members of a bitmap, read off its cells. -/
def bhas (r : Bitmap) : NSet := fun x => r.any (fun p => p.1 == x / 65536 && chas p.2 (x % 65536))

/-- Keys strictly increasing and below 2^16, every container satisfies `P`. -/
def BP (P : Container → Prop) : Bitmap → Prop
  | [] => True
  | (k, c) :: t => k < 65536 ∧ P c ∧ (∀ p ∈ t, k < p.1) ∧ BP P t

/-- A well-formed container holding at least one value. -/
def CNe (c : Container) : Prop := CInv c ∧ ∃ x, chas c x = true

/-- A container with a possibly lazy cardinality holding at least one value. -/
def LNe (c : Container) : Prop := LInv c ∧ ∃ x, chas c x = true

/-- The invariant of bitmaps between operations. -/
abbrev BInv (r : Bitmap) : Prop := BP CNe r

theorem CNe.lne {c : Container} (h : CNe c) : LNe c := ⟨h.1.linv, h.2⟩

theorem bhas_nil (x : Nat) : bhas [] x = false := rfl

theorem bhas_cons (k : Nat) (c : Container) (t : Bitmap) (x : Nat) :
    bhas ((k, c) :: t) x = ((k == x / 65536 && chas c (x % 65536)) || bhas t x) := rfl

theorem bhas_append (a b : Bitmap) (x : Nat) : bhas (a ++ b) x = (bhas a x || bhas b x) := by
  simp only [bhas, List.any_append]

theorem bhas_ne {r : Bitmap} {x : Nat} (h : ∀ p ∈ r, p.1 ≠ x / 65536) : bhas r x = false := by
  simp only [bhas, List.any_eq_false]
  intro p hp
  have := h p hp
  simp [this]

theorem BP.mono {P Q : Container → Prop} {r : Bitmap} (h : BP P r) (hq : ∀ c, P c → Q c) : BP Q r := by
  induction r with
  | nil => trivial
  | cons p t ih => exact ⟨h.1, hq _ h.2.1, h.2.2.1, ih h.2.2.2⟩

theorem BP.lt {P : Container → Prop} {r : Bitmap} (h : BP P r) : ∀ p ∈ r, p.1 < 65536 := by
  induction r with
  | nil => simp
  | cons p t ih =>
    intro q hq
    rcases List.mem_cons.1 hq with rfl | hq
    · exact h.1
    · exact ih h.2.2.2 q hq

theorem BP.all {P : Container → Prop} {r : Bitmap} (h : BP P r) : ∀ p ∈ r, P p.2 := by
  induction r with
  | nil => simp
  | cons p t ih =>
    intro q hq
    rcases List.mem_cons.1 hq with rfl | hq
    · exact h.2.1
    · exact ih h.2.2.2 q hq

theorem BP.sorted {P : Container → Prop} {r : Bitmap} (h : BP P r) : SSorted (keysOf r) := by
  induction r with
  | nil => simp [keysOf]
  | cons p t ih =>
    simp only [keysOf, List.map_cons, List.pairwise_cons, List.mem_map]
    refine ⟨?_, ih h.2.2.2⟩
    rintro k ⟨q, hq, rfl⟩
    exact h.2.2.1 q hq

theorem bp_iff {P : Container → Prop} {r : Bitmap} :
    BP P r ↔ SSorted (keysOf r) ∧ (∀ p ∈ r, p.1 < 65536) ∧ ∀ p ∈ r, P p.2 := by
  constructor
  · exact fun h => ⟨h.sorted, h.lt, h.all⟩
  · intro ⟨h1, h2, h3⟩
    induction r with
    | nil => trivial
    | cons p t ih =>
      simp only [keysOf, List.map_cons, List.pairwise_cons, List.mem_map] at h1
      refine ⟨h2 p (by simp), h3 p (by simp), fun q hq => h1.1 _ ⟨q, hq, rfl⟩, ?_⟩
      exact ih h1.2 (fun q hq => h2 q (by simp [hq])) (fun q hq => h3 q (by simp [hq]))

theorem bp_append {P : Container → Prop} {a b : Bitmap} :
    BP P (a ++ b) ↔ BP P a ∧ BP P b ∧ ∀ p ∈ a, ∀ q ∈ b, p.1 < q.1 := by
  induction a with
  | nil => simp [BP]
  | cons p t ih =>
    obtain ⟨k, c⟩ := p
    simp only [List.cons_append, BP, ih, List.mem_append, List.mem_cons, or_imp, forall_and, forall_eq]
    constructor
    · intro ⟨h1, h2, ⟨h3, h4⟩, h5, h6, h7⟩
      exact ⟨⟨h1, h2, h3, h5⟩, h6, h4, h7⟩
    · intro ⟨⟨h1, h2, h3, h5⟩, h6, h4, h7⟩
      exact ⟨h1, h2, ⟨h3, h4⟩, h5, h6, h7⟩

theorem bp_cons {P : Container → Prop} {k : Nat} {c : Container} {t : Bitmap} :
    BP P ((k, c) :: t) ↔ k < 65536 ∧ P c ∧ (∀ p ∈ t, k < p.1) ∧ BP P t := Iff.rfl

/-! ### Locating a key -/

theorem bp_exists_split {P : Container → Prop} {r : Bitmap} (h : BP P r) (k : Nat) :
    ∃ A B, r = A ++ B ∧ (∀ p ∈ A, p.1 < k) ∧ (∀ p ∈ B, k ≤ p.1) := by
  induction r with
  | nil => exact ⟨[], [], rfl, by simp, by simp⟩
  | cons p t ih =>
    obtain ⟨A, B, e, hA, hB⟩ := ih h.2.2.2
    by_cases hp : p.1 < k
    · exact ⟨p :: A, B, by rw [e]; rfl, by simpa [hp] using hA, hB⟩
    · refine ⟨[], p :: t, rfl, by simp, ?_⟩
      intro q hq
      rcases List.mem_cons.1 hq with rfl | hq
      · omega
      · have := h.2.2.1 q hq; omega

theorem lb_keys_split {A B : Bitmap} {k : Nat} (hA : ∀ p ∈ A, p.1 < k) (hB : ∀ p ∈ B, k ≤ p.1) :
    lb (keysOf (A ++ B)) k = A.length := by
  simp only [lb, keysOf, List.map_append, List.countP_append]
  have h1 : (A.map (·.1)).countP (fun x => decide (x < k)) = A.length := by
    rw [List.countP_eq_length.2]
    · simp
    · simpa using fun a b hab => hA (a, b) hab
  have h2 : (B.map (·.1)).countP (fun x => decide (x < k)) = 0 := by
    rw [List.countP_eq_zero]
    simpa using fun a b hab => hB (a, b) hab
  omega

theorem raGetIndex_eq {r : Bitmap} (h : SSorted (keysOf r)) (x : Nat) :
    raGetIndex r x = if x ∈ keysOf r then (lb (keysOf r) x : Int) else -((lb (keysOf r) x : Int) + 1) := by
  have hl : (keysOf r).length = r.length := by simp [keysOf]
  have hb := binarySearch_list h x
  rw [hl] at hb
  by_cases h0 : r.length = 0
  · have e : r = [] := List.length_eq_zero_iff.1 h0
    subst e
    simp [raGetIndex, keysOf, lb]
  · by_cases h1 : rdL (keysOf r) (r.length - 1) = x
    · have hlt : r.length - 1 < (keysOf r).length := by omega
      have hm : x ∈ keysOf r := by
        rw [← h1, rdL_eq hlt]; exact List.getElem_mem hlt
      rw [if_pos hm, raGetIndex, if_pos (Or.inr h1)]
      have h2 := (rdL_lt_iff h x hlt)
      have h3 := (mem_iff_rdL_lb h x).1 hm
      by_cases h4 : lb (keysOf r) x = r.length - 1
      · omega
      · have := rdL_strict h (i := lb (keysOf r) x) (j := r.length - 1) (by omega) hlt
        omega
    · rw [raGetIndex, if_neg (by simp [h0, h1]), hb]

/-- A key is either present, and then found, or absent, and then its insertion point is found. -/
theorem ra_split {P : Container → Prop} {r : Bitmap} (h : BP P r) (k : Nat) :
    (∃ A c B, r = A ++ (k, c) :: B ∧ (∀ p ∈ A, p.1 < k) ∧ (∀ p ∈ B, k < p.1) ∧ raGetIndex r k = A.length) ∨
    (∃ A B, r = A ++ B ∧ (∀ p ∈ A, p.1 < k) ∧ (∀ p ∈ B, k < p.1) ∧ raGetIndex r k = -((A.length : Int) + 1)) := by
  obtain ⟨A, B, e, hA, hB⟩ := bp_exists_split h k
  have hg := raGetIndex_eq h.sorted k
  have hl : lb (keysOf r) k = A.length := by rw [e]; exact lb_keys_split hA hB
  rw [hl] at hg
  have hmem : k ∈ keysOf r ↔ ∃ c, (k, c) ∈ r := by simp [keysOf]
  cases B with
  | nil =>
    right
    refine ⟨A, [], e, hA, by simp, ?_⟩
    rw [hg, if_neg]
    rw [hmem]
    rintro ⟨c, hc⟩
    have := hA (k, c) (by simpa [e] using hc)
    simp at this
  | cons p B =>
    obtain ⟨k', c⟩ := p
    have hk := hB (k', c) (by simp)
    have hs : BP P ((k', c) :: B) := (bp_append.1 (e ▸ h)).2.1
    by_cases hkk : k' = k
    · subst hkk
      left
      refine ⟨A, c, B, e, hA, hs.2.2.1, ?_⟩
      rw [hg, if_pos]
      rw [hmem]
      exact ⟨c, by simp [e]⟩
    · right
      simp only at hk
      have hB' : ∀ p ∈ (k', c) :: B, k < p.1 := by
        intro p hp
        rcases List.mem_cons.1 hp with rfl | hp
        · simp only; omega
        · have := hs.2.2.1 p hp; omega
      refine ⟨A, (k', c) :: B, e, hA, hB', ?_⟩
      rw [hg, if_neg]
      rw [hmem]
      rintro ⟨c', hc⟩
      rw [e] at hc
      rcases List.mem_append.1 hc with hc | hc
      · have := hA _ hc; simp at this
      · have := hB' _ hc; simp at this

/-! ### Cells at an index -/

theorem contAt_mid (A : Bitmap) (k : Nat) (c : Container) (B : Bitmap) :
    contAt (A ++ (k, c) :: B) A.length = c := by simp [contAt]

theorem keyAt_mid (A : Bitmap) (k : Nat) (c : Container) (B : Bitmap) :
    keyAt (A ++ (k, c) :: B) A.length = k := by simp [keyAt]

theorem raSet_mid (A : Bitmap) (k : Nat) (c c' : Container) (B : Bitmap) :
    raSet (A ++ (k, c) :: B) A.length c' = A ++ (k, c') :: B := by
  simp [raSet, keyAt_mid]

theorem raRemoveAt_mid (A : Bitmap) (k : Nat) (c : Container) (B : Bitmap) :
    raRemoveAt (A ++ (k, c) :: B) A.length = A ++ B := by
  simp only [raRemoveAt]
  rw [List.take_left, show A ++ (k, c) :: B = (A ++ [(k, c)]) ++ B by simp,
    List.drop_left' (by simp)]

theorem raInsertAt_mid (A B : Bitmap) (k : Nat) (c : Container) :
    raInsertAt (A ++ B) A.length k c = A ++ (k, c) :: B := by
  simp only [raInsertAt]
  rw [List.take_left, List.drop_left]

/-- Membership when the cell of the value's key is singled out. -/
theorem bhas_mid {A B : Bitmap} {k : Nat} {c : Container} (hA : ∀ p ∈ A, p.1 < k) (hB : ∀ p ∈ B, k < p.1)
    (x : Nat) : bhas (A ++ (k, c) :: B) x =
      if x / 65536 = k then chas c (x % 65536) else bhas (A ++ B) x := by
  simp only [bhas_append, bhas_cons]
  by_cases hx : x / 65536 = k
  · have h1 : bhas A x = false := bhas_ne fun p hp => by have := hA p hp; omega
    have h2 : bhas B x = false := bhas_ne fun p hp => by have := hB p hp; omega
    simp [hx, h1, h2]
  · have : (k == x / 65536) = false := by simpa using fun h => hx h.symm
    simp [hx, this]

theorem bhas_gap {A B : Bitmap} {k : Nat} (hA : ∀ p ∈ A, p.1 < k) (hB : ∀ p ∈ B, k < p.1)
    {x : Nat} (hx : x / 65536 = k) : bhas (A ++ B) x = false := by
  refine bhas_ne fun p hp => ?_
  rcases List.mem_append.1 hp with hp | hp
  · have := hA p hp; omega
  · have := hB p hp; omega

theorem bp_mid {P : Container → Prop} {A B : Bitmap} {k : Nat} {c : Container} :
    BP P (A ++ (k, c) :: B) ↔ BP P (A ++ B) ∧ k < 65536 ∧ P c ∧ (∀ p ∈ A, p.1 < k) ∧ (∀ p ∈ B, k < p.1) := by
  simp only [bp_append, bp_cons, List.mem_cons, or_imp, forall_and, forall_eq]
  constructor
  · intro ⟨h1, ⟨h2, h3, h4, h5⟩, h6, h7⟩
    exact ⟨⟨h1, h5, fun a ha b hb => h7 a ha b hb⟩, h2, h3, h6, h4⟩
  · intro ⟨⟨h1, h5, h7⟩, h2, h3, h6, h4⟩
    exact ⟨h1, ⟨h2, h3, h4, h5⟩, h6, h7⟩

/-! ### Validity -/

/-- The values of the fields fit their C types: keys are 16-bit, array values and run fields are 16-bit,
a bitset has 1024 words. -/
def Typed (r : Bitmap) : Prop := ∀ p ∈ r, p.1 < 65536 ∧ CTyped p.2

/-- A bitmap that passes `roaring_bitmap_internal_validate`. -/
def Valid (r : Bitmap) : Prop := Typed r ∧ rbInternalValidate r = true

theorem keysIncreasing_iff (k : Nat) (ks : List Nat) : keysIncreasing k ks = true ↔ SSorted (k :: ks) := by
  induction ks generalizing k with
  | nil => simp [keysIncreasing]
  | cons a t ih =>
    rw [keysIncreasing]
    by_cases h : a ≤ k
    · rw [if_pos h]
      simp only [Bool.false_eq_true, List.pairwise_cons, false_iff]
      intro hh
      have := hh.1 a (by simp)
      omega
    · rw [if_neg h, ih]
      simp only [List.pairwise_cons, List.mem_cons]
      constructor
      · intro ⟨h1, h2⟩
        refine ⟨?_, h1, h2⟩
        rintro b (rfl | hb)
        · omega
        · have := h1 b hb; omega
      · exact fun ⟨h1, h2⟩ => h2

theorem valid_iff {r : Bitmap} : Valid r ↔ BInv r := by
  cases r with
  | nil => simp [Valid, Typed, rbInternalValidate, BP]
  | cons p t =>
    obtain ⟨k, c⟩ := p
    simp only [Valid, rbInternalValidate, Bool.and_eq_true, keysIncreasing_iff, List.all_eq_true]
    unfold BInv
    rw [bp_iff]
    constructor
    · intro ⟨h1, h2, h3⟩
      refine ⟨h2, fun p hp => (h1 p hp).1, fun p hp => ?_⟩
      exact (containerValidate_iff (h1 p hp).2).1 (h3 p hp)
    · intro ⟨h1, h2, h3⟩
      refine ⟨fun p hp => ⟨h2 p hp, (h3 p hp).1.typed⟩, h1, fun p hp => ?_⟩
      exact (containerValidate_iff (h3 p hp).1.typed).2 (h3 p hp)

theorem Valid.inv {r : Bitmap} (h : Valid r) : BInv r := valid_iff.1 h
theorem BP.valid {r : Bitmap} (h : BInv r) : Valid r := valid_iff.2 h

/-! ### contains -/

theorem LInv.lrep {c : Container} (h : LInv c) : LRep c (chas c) := ⟨h, fun _ => rfl⟩

theorem rbContains_lazy {r : Bitmap} (h : BP LNe r) (v : Nat) : rbContains r v = bhas r v := by
  rcases ra_split h (v / 65536) with ⟨A, c, B, e, hA, hB, hi⟩ | ⟨A, B, e, hA, hB, hi⟩
  · have hc : LNe c := (bp_mid.1 (e ▸ h)).2.2.1
    simp only [rbContains, hi, Int.toNat_natCast]
    rw [if_neg (by omega), e, contAt_mid, bhas_mid hA hB, if_pos rfl]
    exact containerContains_eq hc.1.lrep _
  · simp only [rbContains, hi]
    rw [if_pos (by omega), e, bhas_gap hA hB rfl]

theorem rbContains_eq {r : Bitmap} (h : BInv r) (v : Nat) : rbContains r v = bhas r v :=
  rbContains_lazy (h.mono fun _ => CNe.lne) v

/-! ### Point updates -/

theorem rep_empty : Rep (.array []) Spec.empty := rep_array ⟨by simp, by simp⟩ (by simp [Spec.empty]) (by simp)

theorem Rep.cne {c : Container} {s : NSet} (h : Rep c s) {x : Nat} (hx : s x = true) : CNe c :=
  ⟨h.inv, x, by rw [h.has]; exact hx⟩

theorem div_mod_eq {x v : Nat} (h1 : x / 65536 = v / 65536) (h2 : x % 65536 = v % 65536) : x = v := by omega

theorem insert_split (s : NSet) (x v : Nat) (hk : x / 65536 = v / 65536) (t : NSet)
    (ht : t (x % 65536) = s x) : Spec.insert t (v % 65536) (x % 65536) = Spec.insert s v x := by
  show (x % 65536 == v % 65536 || t (x % 65536)) = (x == v || s x)
  rw [ht]
  by_cases h : x % 65536 = v % 65536
  · have e := div_mod_eq hk h
    subst e
    simp
  · have : x ≠ v := fun e => h (by rw [e])
    rw [beq_eq_false_iff_ne.2 h, beq_eq_false_iff_ne.2 this]

theorem erase_split (s : NSet) (x v : Nat) (hk : x / 65536 = v / 65536) (t : NSet)
    (ht : t (x % 65536) = s x) : Spec.erase t (v % 65536) (x % 65536) = Spec.erase s v x := by
  show (x % 65536 != v % 65536 && t (x % 65536)) = (x != v && s x)
  rw [ht]
  by_cases h : x % 65536 = v % 65536
  · have e := div_mod_eq hk h
    subst e
    simp
  · have : x ≠ v := fun e => h (by rw [e])
    rw [bne_iff_ne.2 h, bne_iff_ne.2 this]

theorem insert_other (s : NSet) {x v : Nat} (hk : x / 65536 ≠ v / 65536) : Spec.insert s v x = s x := by
  have : x ≠ v := fun e => hk (by rw [e])
  simp [Spec.insert, this]

theorem erase_other (s : NSet) {x v : Nat} (hk : x / 65536 ≠ v / 65536) : Spec.erase s v x = s x := by
  have : x ≠ v := fun e => hk (by rw [e])
  simp [Spec.erase, this]

theorem rbAdd_spec {r : Bitmap} (h : BInv r) {v : Nat} (hv : v < 4294967296) :
    BInv (rbAdd r v) ∧ ∀ x, bhas (rbAdd r v) x = Spec.insert (bhas r) v x := by
  rcases ra_split h (v / 65536) with ⟨A, c, B, e, hA, hB, hi⟩ | ⟨A, B, e, hA, hB, hi⟩
  · have hb := bp_mid.1 (e ▸ h)
    have hr := containerAdd_spec hb.2.2.1.1.rep (v := v % 65536) (by omega)
    have e2 : rbAdd r v = A ++ (v / 65536, containerAdd (v % 65536) c) :: B := by
      simp only [rbAdd, hi, Int.toNat_natCast]
      rw [if_pos (by omega), e, contAt_mid, raSet_mid]
    rw [e2]
    refine ⟨bp_mid.2 ⟨hb.1, hb.2.1, hr.cne (x := v % 65536) (by simp [Spec.insert]), hA, hB⟩, fun x => ?_⟩
    rw [bhas_mid hA hB]
    split
    · rename_i hx
      rw [hr.has, insert_split (bhas r) x v hx (chas c) (by rw [e, bhas_mid hA hB, if_pos hx])]
    · rename_i hx
      rw [insert_other _ hx, e, bhas_mid hA hB, if_neg hx]
  · have hr := containerAdd_spec rep_empty (v := v % 65536) (by omega)
    have e2 : rbAdd r v = A ++ (v / 65536, containerAdd (v % 65536) (.array [])) :: B := by
      simp only [rbAdd, hi]
      rw [if_neg (by omega), show (-(-((A.length : Int) + 1)) - 1).toNat = A.length by omega, e, raInsertAt_mid]
    rw [e2]
    refine ⟨bp_mid.2 ⟨e ▸ h, by omega, hr.cne (x := v % 65536) (by simp [Spec.insert]), hA, hB⟩, fun x => ?_⟩
    rw [bhas_mid hA hB]
    split
    · rename_i hx
      rw [hr.has, insert_split (bhas r) x v hx Spec.empty]
      rw [e, bhas_gap hA hB hx]; rfl
    · rename_i hx
      rw [insert_other _ hx, e]

theorem rbRemove_spec {r : Bitmap} (h : BInv r) {v : Nat} (hv : v < 4294967296) :
    BInv (rbRemove r v) ∧ ∀ x, bhas (rbRemove r v) x = Spec.erase (bhas r) v x := by
  rcases ra_split h (v / 65536) with ⟨A, c, B, e, hA, hB, hi⟩ | ⟨A, B, e, hA, hB, hi⟩
  · have hb := bp_mid.1 (e ▸ h)
    have hr := containerRemove_spec hb.2.2.1.1.rep (v := v % 65536) (by omega)
    by_cases hn : containerNonzero (containerRemove (v % 65536) c) = true
    · have e2 : rbRemove r v = A ++ (v / 65536, containerRemove (v % 65536) c) :: B := by
        simp only [rbRemove, hi, Int.toNat_natCast]
        rw [if_pos (by omega), e, contAt_mid, if_pos hn, raSet_mid]
      obtain ⟨y, hy⟩ := (containerNonzero_iff hr.lrep).1 hn
      rw [e2]
      refine ⟨bp_mid.2 ⟨hb.1, hb.2.1, hr.cne hy, hA, hB⟩, fun x => ?_⟩
      rw [bhas_mid hA hB]
      split
      · rename_i hx
        rw [hr.has, erase_split (bhas r) x v hx (chas c) (by rw [e, bhas_mid hA hB, if_pos hx])]
      · rename_i hx
        rw [erase_other _ hx, e, bhas_mid hA hB, if_neg hx]
    · have e2 : rbRemove r v = A ++ B := by
        simp only [rbRemove, hi, Int.toNat_natCast]
        rw [if_pos (by omega), e, contAt_mid, if_neg hn, raRemoveAt_mid]
      rw [e2]
      refine ⟨hb.1, fun x => ?_⟩
      by_cases hx : x / 65536 = v / 65536
      · rw [bhas_gap hA hB hx, ← erase_split (bhas r) x v hx (chas c) (by rw [e, bhas_mid hA hB, if_pos hx])]
        cases hh : Spec.erase (chas c) (v % 65536) (x % 65536)
        · rfl
        · exact absurd ((containerNonzero_iff hr.lrep).2 ⟨_, hh⟩) hn
      · rw [erase_other _ hx, e, bhas_mid hA hB, if_neg hx]
  · have e2 : rbRemove r v = r := by
      simp only [rbRemove, hi]
      rw [if_neg (by omega)]
    rw [e2]
    refine ⟨h, fun x => ?_⟩
    by_cases hx : x / 65536 = v / 65536
    · simp only [Spec.erase]
      rw [e, bhas_gap hA hB hx]; simp
    · rw [erase_other _ hx]

end CRoaring
