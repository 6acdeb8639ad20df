import Verif.Lemmas.BitsetAsk
/-!
C130: questions about standalone bitsets (`bitset_t`) after any history of calls, with an allocator that may refuse any request: every load
is within an allocated block, and the answers are those of the sets of bits.

The specification is Verif/BitsetAskSpec.lean, with Verif/BitsetHistSpec.lean for histories.
-/
namespace CRoaring.Props
open CRoaring BitsetHist

/-- The answers about one bitset: the number of its bits, whether it is empty, the least bit (or `SIZE_MAX`), the greatest bit (or 0), the
first bit from `x` on, up to `cap` bits from `x` on and where to continue, and the calls of `bitset_for_each`. -/
def AnswersOne (w : BWorld) (i : Nat) (b : Bits) : Prop :=
  w.ask i bmCount = some b.members.length ∧
  w.ask i bmEmpty = some b.members.isEmpty ∧
  w.ask i bmMinimum = some (b.members.head?.getD (2 ^ 64 - 1)) ∧
  w.ask i bmMaximum = some (b.members.getLast?.getD 0) ∧
  (∀ x, w.ask i (fun h p => bmNextSetBit h p x) = some (b.members.filter fun y => decide (x ≤ y)).head?) ∧
  (∀ cap x, w.ask i (fun h p => bmNextSetBits h p cap x) =
    some (((b.members.filter fun y => decide (x ≤ y)).take cap),
      (((b.members.filter fun y => decide (x ≤ y)).take cap).getLast?.getD x))) ∧
  ∀ (σ : Type) (f : σ → Nat → σ × Bool) (s : σ), w.ask i (fun h p => bmForEach f h p s) = some (callAll f s b.members)

/-- The answers about two bitsets, which may be the same. -/
def AnswersTwo (w : BWorld) (i j : Nat) (a b : Bits) : Prop :=
  w.ask2 i j bmIntersect = some (a.members.any b.has) ∧
  w.ask2 i j bmDisjoint = some (!a.members.any b.has) ∧
  w.ask2 i j bmContainsAll = some (b.members.all a.has) ∧
  w.ask2 i j bmUnionCount = some (howMany (max a.words b.words) (Spec.union a.has b.has)) ∧
  w.ask2 i j bmIntersectionCount = some (howMany (max a.words b.words) (Spec.inter a.has b.has)) ∧
  w.ask2 i j bmDifferenceCount = some (howMany (max a.words b.words) (Spec.diff a.has b.has)) ∧
  w.ask2 i j bmSymmetricDifferenceCount = some (howMany (max a.words b.words) (Spec.symm a.has b.has))

theorem min_head {b : BSet} : bsMinimum b = (bsBits b).members.head?.getD (2 ^ 64 - 1) := by
  have hs := bsMinLoop_spec (b := b) 0 b.size (by omega)
  rcases hs with ⟨h1, h2⟩ | ⟨_, h2, h3⟩
  · have : (bsBits b).members = [] := by
      rw [List.eq_nil_iff_forall_not_mem]
      intro x hx
      rw [mem_members, h2 x (by omega)] at hx
      cases hx
    rw [this, bsMinimum, h1]
    rfl
  · cases hl : (bsBits b).members with
    | nil => rw [← mem_members, hl] at h2; cases h2
    | cons y l =>
      have hy : bsGet b y = true := mem_members.1 (by rw [hl]; simp)
      have hso : SSorted (y :: l) := by rw [← hl, members_eq]; exact enum_sorted _ _
      have hin : bsMinLoop b.mem 0 b.size ∈ y :: l := by rw [← hl]; exact mem_members.2 h2
      show bsMinLoop b.mem 0 b.size = y
      rcases List.mem_cons.1 hin with e | e
      · exact e
      · have hlt := List.rel_of_pairwise_cons hso e
        rw [h3 y (by omega) hlt] at hy
        cases hy

theorem max_last {b : BSet} : bsMaximum b = (bsBits b).members.getLast?.getD 0 := by
  have hso : SSorted (bsBits b).members := enum_sorted _ _
  rcases bsMaxLoop_spec b b.size (Nat.le_refl _) with ⟨h1, h2⟩ | ⟨_, h2, h3⟩
  · have : (bsBits b).members = [] := by
      rw [List.eq_nil_iff_forall_not_mem]
      intro x hx
      rw [mem_members] at hx
      rw [h2 x (bsGet_lt hx)] at hx
      cases hx
    rw [this, bsMaximum, h1]
    rfl
  · have hin := mem_members.2 h2
    rcases List.eq_nil_or_concat (bsBits b).members with e | ⟨l, z, e⟩
    · rw [e] at hin; cases hin
    · have hz : bsGet b z = true := mem_members.1 (by rw [e]; simp)
      rw [e, List.concat_eq_append] at hin hso
      rw [e, List.concat_eq_append, List.getLast?_concat]
      show bsMaxLoop b.mem b.size = z
      rcases List.mem_append.1 hin with e2 | e2
      · have hlt := (List.pairwise_append.1 hso).2.2 _ e2 z (by simp)
        rw [h3 z hlt (bsGet_lt hz)] at hz
        cases hz
      · simpa using e2

theorem one_answers {h : BHeap} {G : List (Option BG)} (hI : BMInv h G) {i : Nat} {b : Bits}
    (hi : BitsetHist.get (bPool G) i = some b) : AnswersOne ⟨h, bVars G⟩ i b := by
  rcases bvar_cases G i with ⟨_, h2, _⟩ | ⟨p, a, c, hg, h1⟩
  · rw [hi] at h2; cases h2
  · obtain ⟨hb, hk⟩ := hI.ok i p a c hg
    rw [bGet_some hg] at hi
    injection hi with hi
    subst hi
    unfold AnswersOne BWorld.ask
    simp only [h1]
    refine ⟨?_, ?_, ?_, ?_, fun x => ?_, fun cap x => ?_, fun σ f s => ?_⟩
    · rw [bmCount_eq hb hk, bsCount_eq]; rfl
    · rw [bmEmpty_eq hb hk]
      congr 1
      rw [Bool.eq_iff_iff, bsEmpty_iff, List.isEmpty_iff, List.eq_nil_iff_forall_not_mem]
      constructor
      · intro e x hx
        rw [mem_members, e x] at hx
        cases hx
      · intro e x
        cases hx : bsGet c x with
        | false => rfl
        | true => exact absurd (mem_members.2 hx) (e x)
    · rw [bmMinimum_eq hb hk, min_head]
    · rw [bmMaximum_eq hb hk, max_last]
    · rw [bmNextSetBit_eq hb hk, bsNextSetBit_eq, above_eq]
    · rw [bmNextSetBits_eq hb hk, ← above_eq]
      congr 1
      exact Prod.ext (bsNextSetBits_eq c cap x).1 (bsNextSetBits_eq c cap x).2
    · rw [bmForEach_eq f hb hk, bsForEach_eq, callAll_eq, members_eq]

theorem two_answers {h : BHeap} {G : List (Option BG)} (hI : BMInv h G) {i j : Nat} {x y : Bits}
    (hi : BitsetHist.get (bPool G) i = some x) (hj : BitsetHist.get (bPool G) j = some y) : AnswersTwo ⟨h, bVars G⟩ i j x y := by
  rcases bvar_cases G i with ⟨_, h2, _⟩ | ⟨p, a, b, hg, h1⟩
  · rw [hi] at h2; cases h2
  · rcases bvar_cases G j with ⟨_, h2, _⟩ | ⟨q, c, d, hg2, h2⟩
    · rw [hj] at h2; cases h2
    · obtain ⟨hb, hk⟩ := hI.ok i p a b hg
      obtain ⟨hd, hl⟩ := hI.ok j q c d hg2
      rw [bGet_some hg] at hi
      rw [bGet_some hg2] at hj
      injection hi with hi
      injection hj with hj
      subst hi
      subst hj
      have hany : bsIntersect b d = (bsBits b).members.any (bsBits d).has := by
        rw [Bool.eq_iff_iff, bsIntersect_iff, List.any_eq_true]
        exact ⟨fun ⟨x, e1, e2⟩ => ⟨x, mem_members.2 e1, e2⟩, fun ⟨x, e1, e2⟩ => ⟨x, mem_members.1 e1, e2⟩⟩
      have hlb : ∀ x, bsGet b x = true → x < 64 * b.size := fun x e => bsGet_lt e
      have hld : ∀ x, bsGet d x = true → x < 64 * d.size := fun x e => bsGet_lt e
      unfold AnswersTwo BWorld.ask2
      simp only [h1, h2]
      refine ⟨?_, ?_, ?_, ?_, ?_, ?_, ?_⟩
      · rw [bmIntersect_eq hb hk hd hl, hany]
      · rw [bmDisjoint_eq hb hk hd hl, bsDisjoint_eq, hany]
      · rw [bmContainsAll_eq hb hk hd hl]
        congr 1
        rw [Bool.eq_iff_iff, bsContainsAll_iff, List.all_eq_true]
        exact ⟨fun e x hx => e x (mem_members.1 hx), fun e x hx => e x (mem_members.2 hx)⟩
      · rw [bmUnionCount_eq hb hk hd hl, bsUnionCount_eq]; rfl
      · rw [bmIntersectionCount_eq hb hk hd hl, bsIntersectionCount_eq]
        congr 1
        refine (card_words_pad (n := min b.size d.size) ?_ ?_).symm
        · intro x hx
          simp only [Spec.inter, Bool.and_eq_true] at hx
          have := hlb x hx.1
          have := hld x hx.2
          omega
        · show _ ≤ 64 * max b.size d.size
          omega
      · rw [bmDifferenceCount_eq hb hk hd hl, bsDifferenceCount_eq]
        congr 1
        refine (card_words_pad (n := b.size) ?_ ?_).symm
        · intro x hx
          simp only [Spec.diff, Bool.and_eq_true] at hx
          exact hlb x hx.1
        · show _ ≤ 64 * max b.size d.size
          omega
      · rw [bmSymmetricDifferenceCount_eq hb hk hd hl, bsSymmCount_eq]; rfl

/-- C130: after any history of calls with any allocator, every question about the bitsets to which the program has pointers makes only
loads within allocated blocks, and its answer is that of the bits which the specification of histories (C129) says are set. -/
theorem C130_questions (al : BAlloc) (ops : List Op) (hfit : ∀ op ∈ ops, fits op) :
    ∃ w rs, bmRun al BWorld.start ops = some (w, rs) ∧
      ∃ lucks : List Luck, lucks.length = ops.length ∧ lucks.map Luck.memory = rs.map (·.2) ∧
        (∀ i b, BitsetHist.get (BitsetHist.run [] (lucks.zip ops)).1 i = some b → AnswersOne w i b) ∧
        ∀ i j a b, BitsetHist.get (BitsetHist.run [] (lucks.zip ops)).1 i = some a →
          BitsetHist.get (BitsetHist.run [] (lucks.zip ops)).1 j = some b → AnswersTwo w i j a b := by
  obtain ⟨h, G, rs, lucks, e, hI, hl, hm, hr⟩ := bmRun_ok al BMInv.start ops hfit
  have hr' : BitsetHist.run [] (lucks.zip ops) = (bPool G, rs.map (·.1)) := hr
  refine ⟨_, rs, e, lucks, hl, hm, ?_, ?_⟩
  · rw [hr']
    exact fun i b hi => one_answers hI hi
  · rw [hr']
    exact fun i j a b hi hj => two_answers hI hi hj

/-! ## Example: the hypotheses are met -/

/-- Three bitsets: {3, 64, 200}, {3, 65} and a copy that is refused. -/
def askHistory : List Op := [.create, .set 0 200, .set 0 3, .set 0 64, .createCap 100, .set 1 65, .set 1 3, .copy 0]

/-- An allocator that refuses the fifth request, and leaves ones in fresh memory. -/
def noFifth : BAlloc := ⟨fun k => k != 4, fun _ _ => ones⟩

example : ∀ op ∈ askHistory, fits op := by simp [fits, askHistory]

/-- Numbers that the program is told. -/
def askNumbers (w : BWorld) : List (Option Nat) :=
  [w.ask 0 bmCount, w.ask 0 bmMinimum, w.ask 0 bmMaximum, w.ask2 0 1 bmUnionCount, w.ask2 0 1 bmIntersectionCount,
    w.ask2 0 1 bmDifferenceCount, w.ask2 0 1 bmSymmetricDifferenceCount, w.ask 2 bmCount]

/-- Answers that the program is told. -/
def askBools (w : BWorld) : List (Option Bool) :=
  [w.ask 0 bmEmpty, w.ask2 0 1 bmIntersect, w.ask2 0 1 bmDisjoint, w.ask2 0 1 bmContainsAll, w.ask2 0 0 bmContainsAll]

example : (bmRun noFifth BWorld.start askHistory).map (fun r => askNumbers r.1) =
    some [some 3, some 3, some 200, some 4, some 1, some 2, some 3, none] := by decide +kernel

example : (bmRun noFifth BWorld.start askHistory).map (fun r => askBools r.1) =
    some [some false, some true, some false, some false, some true] := by decide +kernel

example : (bmRun noFifth BWorld.start askHistory).map (fun r => r.1.ask 0 fun h p => bmNextSetBit h p 65) = some (some (some 200)) := by
  decide +kernel

example : (bmRun noFifth BWorld.start askHistory).map (fun r => r.1.ask 0 fun h p => bmNextSetBits h p 2 4) =
    some (some ([64, 200], 200)) := by decide +kernel

example : (bmRun noFifth BWorld.start askHistory).map (fun r => r.1.ask 0 fun h p => bmForEach (fun l v => (l ++ [v], v != 64)) h p []) =
    some (some ([3, 64], false)) := by decide +kernel

end CRoaring.Props
