import Verif.Model.Serial64
import Verif.Lemmas.Serial4
import Verif.Lemmas.R64h
import Verif.Lemmas.Validate64
/-
The portable format of 64-bit bitmaps.
-/
set_option linter.unusedSimpArgs false
set_option linter.unusedVariables false
namespace CRoaring
open Spec

/-- The leaves, grouped by the high 32 bits. -/
def groups : Option (Nat × Bitmap) → Bitmap → List (Nat × Bitmap)
  | none, [] => []
  | some g, [] => [g]
  | none, (k, c) :: t => groups (some (k / 65536, [(k % 65536, c)])) t
  | some g, (k, c) :: t =>
    if g.1 ≠ k / 65536 then g :: groups (some (k / 65536, [(k % 65536, c)])) t
    else groups (some (g.1, g.2 ++ [(k % 65536, c)])) t

theorem groups_len_some (g g' : Nat × Bitmap) (l : Bitmap) (h : g.1 = g'.1) :
    (groups (some g) l).length = (groups (some g') l).length := by
  induction l generalizing g g' with
  | nil => rfl
  | cons p t ih =>
    obtain ⟨k, c⟩ := p
    simp only [groups, ← h]
    split
    · rfl
    · exact ih _ _ rfl

theorem countHigh32_loop {r : R64} (fuel : Nat) {it : AIt} {l : Bitmap} (hi : IL r it l) (hf : l.length < fuel) (n prev : Nat)
    (hn : 0 < n) (b : Bitmap) : countHigh32Loop r fuel it n prev + 1 = n + (groups (some (prev, b)) l).length := by
  induction fuel generalizing it l n prev b with
  | zero => omega
  | succ fuel ih =>
    unfold countHigh32Loop
    cases l with
    | nil => rw [hi.nil]; simp [groups]
    | cons p t =>
      obtain ⟨k, c⟩ := p
      have hc := hi.cons
      rw [hc.value]
      simp only
      rw [combineKey_eq hc.key (by omega), hc.num]
      have e : (k * 65536 + 0) / 4294967296 = k / 65536 := by omega
      rw [e]
      simp only [groups]
      by_cases hp : prev = k / 65536
      · rw [if_neg (by omega), if_neg (by simp [hp])]
        exact ih hc.next (by simp at hf; omega) _ _ hn _
      · rw [if_pos (by omega), if_pos (by simpa using hp), List.length_cons]
        have := ih hc.next (by simp at hf; omega) (n + 1) (k / 65536) (by omega) [(k % 65536, c)]
        omega

theorem countHigh32_eq {r : R64} {l : Bitmap} (h : RL r l) : countHigh32 r = (groups none l).length := by
  unfold countHigh32
  have hi := h.init
  have hf := h.fuel
  revert hi hf
  generalize FUEL = fuel
  intro hi hf
  cases fuel with
  | zero => omega
  | succ fuel =>
    unfold countHigh32Loop
    cases l with
    | nil => rw [hi.nil]; rfl
    | cons p t =>
      obtain ⟨k, c⟩ := p
      have hc := hi.cons
      rw [hc.value]
      simp only
      rw [combineKey_eq hc.key (by omega), hc.num, if_pos (Or.inl trivial)]
      have e : (k * 65536 + 0) / 4294967296 = k / 65536 := by omega
      rw [e]
      have := countHigh32_loop fuel hc.next (by simp at hf; omega) (0 + 1) (k / 65536) (by omega) [(k % 65536, c)]
      simp only [groups]
      omega

/-- What a bucket looks like. -/
def bucketBytes (g : Nat × Bitmap) : List UInt8 := leBytes 4 g.1 ++ serBytes g.2

/-- The size of the buckets. -/
def bucketSize (gs : List (Nat × Bitmap)) : Nat := (gs.map fun g => 4 + rbPortableSize g.2).sum

/-- The size of a serialized bitmap does not depend on the keys. -/
theorem rbPortableSize_keys {a b : Bitmap} (h : a.map (·.2) = b.map (·.2)) : rbPortableSize a = rbPortableSize b := by
  rw [rbPortableSize_eq, rbPortableSize_eq]
  have h1 : a.length = b.length := by simpa using congrArg List.length h
  have h2 : raHasRun a = raHasRun b := by
    have := congrArg (fun l => List.any l isRun) h
    simpa [raHasRun, List.any_map, Function.comp_def] using this
  have h3 : (a.map fun p => containerSizeInBytes p.2).sum = (b.map fun p => containerSizeInBytes p.2).sum := by
    have := congrArg (fun l => (List.map containerSizeInBytes l).sum) h
    simpa [List.map_map, Function.comp_def] using this
  rw [h3]
  unfold raPortableHeaderSize
  rw [h1, h2]

theorem size64_loop {r : R64} (fuel : Nat) {it : AIt} {l : Bitmap} (hi : IL r it l) (hf : l.length < fuel) (size prev : Nat)
    (b b' : Bitmap) (hb : b.map (·.2) = b'.map (·.2)) :
    size64Loop r fuel it size prev (some b) = size + bucketSize (groups (some (prev, b')) l) := by
  induction fuel generalizing it l size prev b b' with
  | zero => omega
  | succ fuel ih =>
    unfold size64Loop
    cases l with
    | nil =>
      rw [hi.nil]
      simp only [groups, bucketSize, List.map_cons, List.map_nil, List.sum_cons, List.sum_nil]
      rw [rbPortableSize_keys hb]; omega
    | cons p t =>
      obtain ⟨k, c⟩ := p
      have hc := hi.cons
      rw [hc.value]
      simp only
      rw [combineKey_eq hc.key (by omega), hc.num]
      have e : (k * 65536 + 0) / 4294967296 = k / 65536 := by omega
      rw [e]
      simp only [groups]
      by_cases hp : prev = k / 65536
      · rw [if_neg (by simp [hp]), if_neg (by simp [hp])]
        exact ih hc.next (by simp at hf; omega) _ _ _ _ (by simp [hb])
      · rw [if_pos (by simpa using hp), if_pos (by simpa using hp),
          ih hc.next (by simp at hf; omega) _ _ _ [(k % 65536, c)] (by simp)]
        simp only [bucketSize, List.map_cons, List.sum_cons]
        rw [rbPortableSize_keys hb]; omega

theorem r64PortableSize_eq {r : R64} {l : Bitmap} (h : RL r l) : r64PortableSize r = 8 + bucketSize (groups none l) := by
  unfold r64PortableSize
  have hi := h.init
  have hf := h.fuel
  revert hi hf
  generalize FUEL = fuel
  intro hi hf
  cases fuel with
  | zero => omega
  | succ fuel =>
    unfold size64Loop
    cases l with
    | nil => rw [hi.nil]; simp [groups, bucketSize]
    | cons p t =>
      obtain ⟨k, c⟩ := p
      have hc := hi.cons
      rw [hc.value]
      simp only
      rw [combineKey_eq hc.key (by omega), hc.num]
      have e : (k * 65536 + 0) / 4294967296 = k / 65536 := by omega
      rw [e]
      simp only [groups]
      exact size64_loop fuel hc.next (by simp at hf; omega) _ _ _ [(k % 65536, c)] (by simp)

theorem putBucket_wst {mem d : List UInt8} {high : Nat} {b : Bitmap} (ht : ∀ p ∈ b, CTyped p.2)
    (h : d.length + (bucketBytes (high, b)).length ≤ mem.length) :
    putBucket (wst mem 0 d) high b = .ok (wst mem 0 (d ++ bucketBytes (high, b))) := by
  unfold bucketBytes at *
  rw [List.length_append, leBytes_length, serBytes_length ht] at h
  unfold putBucket
  rw [put_wst (by rw [leBytes_length]; omega), ok_bind]
  have hl : (d ++ leBytes 4 high).length = d.length + 4 := by rw [List.length_append, leBytes_length]
  have h2 : (wst mem 0 (d ++ leBytes 4 high)).1.length = mem.length := by
    simp only [wst, List.take_zero, List.nil_append, List.length_append, List.length_drop, leBytes_length]; omega
  have h3 : (wst mem 0 (d ++ leBytes 4 high)).2 = d.length + 4 := by simp [wst, leBytes_length]
  rw [h3, rbPortableSerialize_eq ht (by rw [h2]; omega), ok_bind, pure_ok]
  simp only [wst, List.take_zero, List.nil_append, Nat.zero_add, List.length_append, leBytes_length, serBytes_length ht,
    Out.ok.injEq, Prod.mk.injEq]
  constructor
  · rw [List.take_append_of_le_length (by simp [leBytes_length]), List.take_of_length_le (by simp [leBytes_length]), List.drop_append,
      List.drop_of_length_le (by simp [leBytes_length]), hl, List.nil_append, List.drop_drop]
    simp only [List.append_assoc]
    congr 4
    omega
  · omega

/-- The groups are well formed: see `GOk`. -/
structure GOk (gs : List (Nat × Bitmap)) : Prop where
  ks : gs.Pairwise (fun a b => a.1 < b.1)
  lt : ∀ g ∈ gs, g.1 < 4294967296
  bp : ∀ g ∈ gs, BInv g.2 ∧ g.2 ≠ []

/-- The same, but parts may be empty. -/
structure GWk (gs : List (Nat × Bitmap)) : Prop where
  ks : gs.Pairwise (fun a b => a.1 < b.1)
  lt : ∀ g ∈ gs, g.1 < 4294967296
  bp : ∀ g ∈ gs, BInv g.2

theorem GOk.weak {gs : List (Nat × Bitmap)} (h : GOk gs) : GWk gs := ⟨h.ks, h.lt, fun g hg => (h.bp g hg).1⟩

theorem groups_some (l : Bitmap) : ∀ (h : Nat) (b : Bitmap), h < 4294967296 → BInv b → b ≠ [] → KS l →
    (∀ p ∈ l, p.1 < P48 ∧ CNe p.2) → (∀ q ∈ b, ∀ p ∈ l, h * 65536 + q.1 < p.1) →
    GOk (groups (some (h, b)) l) ∧ (∀ g ∈ groups (some (h, b)) l, h ≤ g.1) ∧
    (groups (some (h, b)) l).flatMap (fun g => liftBy g.1 g.2) = liftBy h b ++ l := by
  induction l with
  | nil =>
    intro h b hh hb hne _ _ _
    simp only [groups]
    refine ⟨⟨List.pairwise_singleton _ _, ?_, ?_⟩, ?_, by simp⟩
    · intro g hg; rw [List.mem_singleton] at hg; subst hg; exact hh
    · intro g hg; rw [List.mem_singleton] at hg; subst hg; exact ⟨hb, hne⟩
    · intro g hg; rw [List.mem_singleton] at hg; subst hg; exact Nat.le_refl _
  | cons p t ih =>
    obtain ⟨k, c⟩ := p
    intro h b hh hb hne hks hl hlt
    obtain ⟨hk1, hk2⟩ := ks_cons.1 hks
    obtain ⟨hkP, hc⟩ := hl (k, c) (by simp)
    have hkP : k < 281474976710656 := hkP
    have hone : BInv [(k % 65536, c)] := ⟨by omega, hc, by simp, trivial⟩
    have hlift : ∀ c', liftBy (k / 65536) [(k % 65536, c')] = [(k, c')] := by
      intro c'
      simp only [liftBy, List.map_cons, List.map_nil, List.cons.injEq, Prod.mk.injEq, and_true]
      omega
    simp only [groups]
    by_cases hp : h = k / 65536
    · subst hp
      rw [if_neg (by simp)]
      have hb' : BInv (b ++ [(k % 65536, c)]) := by
        refine bp_append.2 ⟨hb, hone, ?_⟩
        intro q hq p hp
        rw [List.mem_singleton] at hp
        subst hp
        have := hlt q hq (k, c) (by simp)
        simp only at this ⊢
        omega
      have hx : ∀ q ∈ b ++ [(k % 65536, c)], ∀ p ∈ t, k / 65536 * 65536 + q.1 < p.1 := by
        intro q hq p hp
        rcases List.mem_append.1 hq with hq | hq
        · exact hlt q hq p (by simp [hp])
        · rw [List.mem_singleton] at hq
          subst hq
          have := hk1 p hp
          simp only
          omega
      obtain ⟨i1, i2, i3⟩ := ih (k / 65536) (b ++ [(k % 65536, c)]) hh hb' (by simp) hk2 (fun p hp => hl p (by simp [hp])) hx
      refine ⟨i1, i2, ?_⟩
      rw [i3]
      have : liftBy (k / 65536) (b ++ [(k % 65536, c)]) = liftBy (k / 65536) b ++ [(k, c)] := by
        rw [← hlift]; simp [liftBy]
      rw [this]; simp
    · rw [if_pos (by simpa using hp)]
      obtain ⟨q0, hq0⟩ := List.exists_mem_of_ne_nil b hne
      have hlt0 := hlt q0 hq0 (k, c) (by simp)
      simp only at hlt0
      have hx : ∀ q ∈ [(k % 65536, c)], ∀ p ∈ t, k / 65536 * 65536 + q.1 < p.1 := by
        intro q hq p hp
        rw [List.mem_singleton] at hq
        subst hq
        show k / 65536 * 65536 + k % 65536 < p.1
        rw [Nat.div_add_mod']
        exact hk1 p hp
      obtain ⟨i1, i2, i3⟩ := ih (k / 65536) [(k % 65536, c)] (by omega) hone (by simp) hk2 (fun p hp => hl p (by simp [hp])) hx
      refine ⟨⟨List.pairwise_cons.2 ⟨fun g hg => ?_, i1.ks⟩, ?_, ?_⟩, ?_, ?_⟩
      · have h1 := i2 g hg
        show h < g.1
        have h2 : h < k / 65536 := by omega
        exact Nat.lt_of_lt_of_le h2 h1
      · intro g hg
        rcases List.mem_cons.1 hg with rfl | hg
        · exact hh
        · exact i1.lt g hg
      · intro g hg
        rcases List.mem_cons.1 hg with rfl | hg
        · exact ⟨hb, hne⟩
        · exact i1.bp g hg
      · intro g hg
        rcases List.mem_cons.1 hg with rfl | hg
        · exact Nat.le_refl _
        · have := i2 g hg
          omega
      · rw [List.flatMap_cons, i3, hlift]; simp

theorem groups_none {l : Bitmap} (hks : KS l) (hl : ∀ p ∈ l, p.1 < P48 ∧ CNe p.2) :
    GOk (groups none l) ∧ (groups none l).flatMap (fun g => liftBy g.1 g.2) = l := by
  cases l with
  | nil => exact ⟨⟨List.Pairwise.nil, by simp [groups], by simp [groups]⟩, rfl⟩
  | cons p t =>
    obtain ⟨k, c⟩ := p
    obtain ⟨hk1, hk2⟩ := ks_cons.1 hks
    obtain ⟨hkP, hc⟩ := hl (k, c) (by simp)
    have hkP : k < 281474976710656 := hkP
    simp only [groups]
    have hx : ∀ q ∈ [(k % 65536, c)], ∀ p ∈ t, k / 65536 * 65536 + q.1 < p.1 := by
      intro q hq p hp
      rw [List.mem_singleton] at hq
      subst hq
      have := hk1 p hp
      simp only
      omega
    obtain ⟨i1, i2, i3⟩ := groups_some t (k / 65536) [(k % 65536, c)] (by omega) ⟨by omega, hc, by simp, trivial⟩ (by simp)
      hk2 (fun p hp => hl p (by simp [hp])) hx
    refine ⟨i1, ?_⟩
    rw [i3]
    have : liftBy (k / 65536) [(k % 65536, c)] = [(k, c)] := by
      simp only [liftBy, List.map_cons, List.map_nil, List.cons.injEq, Prod.mk.injEq, and_true]
      omega
    rw [this]; rfl

theorem ser64_loop {r : R64} (fuel : Nat) {it : AIt} {l : Bitmap} (hi : IL r it l) (hf : l.length < fuel)
    {mem : List UInt8} (d : List UInt8) (prev : Nat) (b : Bitmap)
    (ht : ∀ g ∈ groups (some (prev, b)) l, ∀ p ∈ g.2, CTyped p.2)
    (hm : d.length + ((groups (some (prev, b)) l).flatMap bucketBytes).length ≤ mem.length) :
    ser64Loop r fuel it (wst mem 0 d) prev (some b) =
      .ok (wst mem 0 (d ++ (groups (some (prev, b)) l).flatMap bucketBytes)) := by
  induction fuel generalizing it l d prev b with
  | zero => omega
  | succ fuel ih =>
    unfold ser64Loop
    cases l with
    | nil =>
      rw [hi.nil]
      simp only [groups, List.flatMap_cons, List.flatMap_nil, List.append_nil] at *
      exact putBucket_wst (ht (prev, b) (by simp)) hm
    | cons p t =>
      obtain ⟨k, c⟩ := p
      have hc := hi.cons
      rw [hc.value]
      simp only
      rw [combineKey_eq hc.key (by omega), hc.num]
      have e : (k * 65536 + 0) / 4294967296 = k / 65536 := by omega
      have e' : (k * 65536 + 0) / 65536 % 65536 = k % 65536 := by omega
      rw [e, e']
      simp only [groups] at ht hm ⊢
      by_cases hp : prev = k / 65536
      · rw [if_neg (by simp [hp])] at ht hm ⊢
        rw [if_neg (by simp [hp])]
        exact ih hc.next (by simp at hf; omega) _ _ _ ht hm
      · rw [if_pos (by simpa using hp)] at ht hm ⊢
        rw [if_pos (by simpa using hp)]
        rw [List.flatMap_cons, List.length_append] at hm
        rw [putBucket_wst (b := b) (ht (prev, b) (by simp)) (by omega), ok_bind,
          ih hc.next (by simp at hf; omega) _ _ _ (fun g hg => ht g (by simp [hg]))
            (by rw [List.length_append]; omega), List.flatMap_cons, List.append_assoc]

/-- The bytes of a serialized 64-bit bitmap. -/
def ser64Bytes (gs : List (Nat × Bitmap)) : List UInt8 := leBytes 8 gs.length ++ gs.flatMap bucketBytes

theorem bucketBytes_length {gs : List (Nat × Bitmap)} (h : GWk gs) : (gs.flatMap bucketBytes).length = bucketSize gs := by
  have hb := h.bp
  clear h
  induction gs with
  | nil => rfl
  | cons g t ih =>
    have ht : ∀ p ∈ g.2, CTyped p.2 := fun p hp => ((bp_iff.1 (hb g (by simp))).2.2 p hp).1.typed
    have := ih (fun x hx => hb x (by simp [hx]))
    simp only [bucketSize, List.map_cons, List.sum_cons, List.flatMap_cons, List.length_append, bucketBytes, leBytes_length,
      serBytes_length ht] at this ⊢
    omega

theorem gok_typed {gs : List (Nat × Bitmap)} (h : GOk gs) : ∀ g ∈ gs, ∀ p ∈ g.2, CTyped p.2 := fun g hg p hp =>
  ((bp_iff.1 (h.bp g hg).1).2.2 p hp).1.typed

theorem r64PortableSerialize_eq {r : R64} {l : Bitmap} (h : B64 r l) {mem : List UInt8} (hm : r64PortableSize r ≤ mem.length) :
    r64PortableSerialize r mem =
      .ok (ser64Bytes (groups none l) ++ mem.drop (r64PortableSize r), r64PortableSize r) := by
  have hg := groups_none h.rl.ks (fun p hp => ⟨h.rl.lt hp, h.ne p hp⟩)
  have hbl := bucketBytes_length hg.1.weak
  have hs := r64PortableSize_eq h.rl
  have ht := gok_typed hg.1
  have h0 : (mem, 0) = wst mem 0 [] := by simp [wst]
  unfold r64PortableSerialize
  rw [countHigh32_eq h.rl, h0, put_wst (by rw [leBytes_length]; simp; omega), ok_bind, List.nil_append]
  have key : ser64Loop r FUEL (artInitIterator r true) (wst mem 0 (leBytes 8 (groups none l).length)) 0 none =
      .ok (wst mem 0 (ser64Bytes (groups none l))) := by
    have hi := h.rl.init
    have hf := h.rl.fuel
    revert hi hf
    generalize FUEL = fuel
    intro hi hf
    cases fuel with
    | zero => omega
    | succ fuel =>
      unfold ser64Loop
      cases l with
      | nil => rw [hi.nil]; simp [groups, ser64Bytes]
      | cons p t =>
        obtain ⟨k, c⟩ := p
        have hc := hi.cons
        rw [hc.value]
        simp only
        rw [combineKey_eq hc.key (by omega), hc.num]
        have e : (k * 65536 + 0) / 4294967296 = k / 65536 := by omega
        have e' : (k * 65536 + 0) / 65536 % 65536 = k % 65536 := by omega
        rw [e, e']
        simp only [groups] at ht hbl hs ⊢
        rw [ser64_loop fuel hc.next (by simp at hf; omega) _ _ _ ht (by rw [leBytes_length, hbl]; omega)]
        rfl
  rw [key]
  show Out.ok _ = _
  have hl : (ser64Bytes (groups none l)).length = r64PortableSize r := by
    rw [hs, ser64Bytes, List.length_append, leBytes_length, hbl]
  simp [wst, hl]

end CRoaring
