import Verif.Lemmas.BitsetMem5
/-!
C129: any history of calls on standalone bitsets (`bitset_t`), with an allocator that may refuse any request: every access is within a
block that is allocated, each call does and answers what the specification says, a call that is refused memory does no more than the
specification says, and no memory is lost.

The specification is Verif/BitsetHistSpec.lean.
-/
namespace CRoaring.Props
open CRoaring BitsetHist

/-- The program sees the bitsets that the specification says: every bit, and every size in words. -/
def ShowsBits (w : BWorld) (s : Pool) : Prop :=
  w.vars.length = s.length ∧ ∀ i, (∀ x, w.get i x = (BitsetHist.get s i).map fun b => b.has x) ∧
    w.words i = (BitsetHist.get s i).map fun b => b.words

/-- No memory is lost: each block that was not released is the struct of a bitset to which the program still has a pointer, or the array
of words of that bitset. -/
def BitsTidy (w : BWorld) : Prop :=
  ∀ (k : Nat) (blk : BBlk), w.heap.blocks[k]? = some (some blk) →
    ∃ i p : Nat, w.vars[i]? = some (some p) ∧ (k = p ∨ ∃ n c, bmObj w.heap p = some (some k, n, c))

theorem shows_of {h : BHeap} {G : List (Option BG)} (hI : BMInv h G) : ShowsBits ⟨h, bVars G⟩ (bPool G) :=
  ⟨by simp [bVars, bPool], fun i => hI.sees i⟩

theorem tidy_of {h : BHeap} {G : List (Option BG)} (hI : BMInv h G) : BitsTidy ⟨h, bVars G⟩ := by
  intro k blk hk
  obtain ⟨i, g, hi, ho⟩ := hI.live k blk hk
  obtain ⟨p, a, b⟩ := g
  refine ⟨i, p, by simp [bVars, List.getElem?_map, hi], ?_⟩
  rcases ho with ho | ho
  · exact Or.inl ho
  · have ho' : a = some k := ho
    subst ho'
    exact Or.inr ⟨_, _, bmObj_eq (hI.ok i p _ b hi).1⟩

/-- C129: any history of calls, from nothing, with any allocator: no access outside a block that is allocated, no double release; the
answers and the bitsets are those of the specification, where a call has memory if all its requests were granted; nothing is lost, and
when all bitsets were released no block is left. -/
theorem C129_history (al : BAlloc) (ops : List Op) (hfit : ∀ op ∈ ops, fits op) :
    ∃ w rs, bmRun al BWorld.start ops = some (w, rs) ∧ BitsTidy w ∧
      ((∀ i : Nat, (w.vars[i]?).join = none) → ∀ (k : Nat) (blk : BBlk), w.heap.blocks[k]? ≠ some (some blk)) ∧
      ∃ lucks : List Luck, lucks.length = ops.length ∧ lucks.map Luck.memory = rs.map (·.2) ∧
        ShowsBits w (BitsetHist.run [] (lucks.zip ops)).1 ∧ (BitsetHist.run [] (lucks.zip ops)).2 = rs.map (·.1) := by
  obtain ⟨h, G, rs, lucks, e, hI, hl, hm, hr⟩ := bmRun_ok al BMInv.start ops hfit
  refine ⟨_, rs, e, tidy_of hI, ?_, lucks, hl, hm, ?_, ?_⟩
  · intro hn k blk hk
    obtain ⟨i, p, hi, _⟩ := tidy_of hI k blk hk
    have := hn i
    rw [hi] at this
    cases this
  · have hr' : BitsetHist.run [] (lucks.zip ops) = (bPool G, rs.map (·.1)) := hr
    rw [hr']
    exact shows_of hI
  · have hr' : BitsetHist.run [] (lucks.zip ops) = (bPool G, rs.map (·.1)) := hr
    rw [hr']

/-- C129, `bitset_shift_left` after any history, of a bitset that has words, when its request for memory (if it makes one) is granted: the
bits move up by `s`, all other bitsets are as before, nothing is lost.

Partial: if the request is refused this is false, see `C129_shift_left_false`. -/
theorem C129_shift_left_partial (al : BAlloc) (ops : List Op) (hfit : ∀ op ∈ ops, fits op) {w : BWorld} {rs : List (Bool × Bool)}
    (hrun : bmRun al BWorld.start ops = some (w, rs)) {i n s : Nat} (hg : al.grants w.heap.reqs = true) (hw : w.words i = some n)
    (hn : n ≠ 0) (hm : n + s / 64 + 1 ≤ maxWords) :
    ∃ w', w.shiftLeft al i s = some (w', true) ∧ BitsTidy w' ∧ w'.words i = some (n + s / 64 + (if s % 64 = 0 then 0 else 1)) ∧
      (∀ x, w'.get i x = if s ≤ x then w.get i (x - s) else some false) ∧
      ∀ j, j ≠ i → w'.words j = w.words j ∧ ∀ x, w'.get j x = w.get j x := by
  obtain ⟨h, G, rs', lucks, e, hI, _, _, _⟩ := bmRun_ok al BMInv.start ops hfit
  have e1 : bmRun al BWorld.start ops = some (⟨h, bVars G⟩, rs') := e
  rw [hrun] at e1
  injection e1 with e1
  injection e1 with e1 _
  subst e1
  obtain ⟨h', G', b, b', es, hI', hb, hp, hlt, hbw, hbw', hbx⟩ := shiftLeft_ok al hI hg hw hn hm
  have hi' : BitsetHist.get (bPool G') i = some b' := by rw [hp]; simp [BitsetHist.get, hlt]
  have hj' : ∀ j, j ≠ i → BitsetHist.get (bPool G') j = BitsetHist.get (bPool G) j := by
    intro j hj
    rw [hp, BitsetHist.get, BitsetHist.get, List.getElem?_set_ne (Ne.symm hj)]
  refine ⟨_, es, tidy_of hI', ?_, fun x => ?_, fun j hj => ⟨?_, fun x => ?_⟩⟩
  · rw [(hI'.sees i).2, hi', Option.map_some, hbw']
  · rw [(hI'.sees i).1, hi', Option.map_some, hbx, (hI.sees i).1, hb, Option.map_some]
    by_cases hx : s ≤ x
    · simp [hx]
    · simp [hx]
  · rw [(hI'.sees j).2, (hI.sees j).2, hj' j hj]
  · rw [(hI'.sees j).1, (hI.sees j).1, hj' j hj]

/-- An allocator that grants the requests in the list and refuses all others; blocks come with ones in them. -/
def pick (l : List Nat) : BAlloc := ⟨fun k => l.contains k, fun _ _ => ones⟩

/-- C129, negative: `bitset_shift_left` ignores that its request for memory is refused, and then writes outside the array: a bitset with
bit 5, shifted by 128. -/
theorem C129_shift_left_false :
    ∃ (al : BAlloc) (ops : List Op) (w : BWorld) (rs : List (Bool × Bool)), (∀ op ∈ ops, fits op) ∧
      bmRun al BWorld.start ops = some (w, rs) ∧ w.words 0 = some 1 ∧ w.shiftLeft al 0 128 = none := by
  refine ⟨pick [0, 1], [.create, .set 0 5], ⟨⟨[some (.obj (some 1) 1 2), some (.words [32#64, ones])], 2⟩, [some 0]⟩,
    [(true, true), (true, true)], ?_, ?_, ?_, ?_⟩
  · simp [fits]
  · decide +kernel
  · decide +kernel
  · decide +kernel

/-- The bitset with bit 5, and the bitset {3, 200}. -/
def lostUnion : List Op := [.create, .set 0 5, .create, .set 1 3, .set 1 200]

/-- C129, negative: a union that is refused memory answers `false`, but is not without effect: here the bitset with bit 5, united with
{3, 200}, has bits 3 and 5. -/
theorem C129_union_not_atomic :
    ∃ (al : BAlloc) (ops : List Op) (w w' : BWorld) (rs : List (Bool × Bool)), (∀ op ∈ ops, fits op) ∧
      bmRun al BWorld.start ops = some (w, rs) ∧ bmRun al BWorld.start (ops ++ [.unite 0 1]) = some (w', rs ++ [(false, false)]) ∧
      w.get 0 3 = some false ∧ w'.get 0 3 = some true ∧ w'.get 0 200 = some false := by
  refine ⟨pick [0, 1, 2, 3, 4], lostUnion, ⟨⟨[some (.obj (some 1) 1 2), some (.words [32#64, ones]), some (.obj (some 4) 4 8), none,
      some (.words [8#64, 0#64, 0#64, 256#64, ones, ones, ones, ones])], 5⟩, [some 0, some 2]⟩,
    ⟨⟨[some (.obj (some 1) 1 2), some (.words [40#64, ones]), some (.obj (some 4) 4 8), none,
      some (.words [8#64, 0#64, 0#64, 256#64, ones, ones, ones, ones])], 6⟩, [some 0, some 2]⟩, List.replicate 5 (true, true), ?_, ?_, ?_, ?_, ?_, ?_⟩
  · simp [fits, lostUnion]
  all_goals decide +kernel

/-! ## Examples: the hypotheses are met -/

/-- Two bitsets are made and filled, a copy is refused, one is shifted, all are released. -/
def longHistory : List Op :=
  [.createCap 100, .set 0 7, .set 0 130, .create, .setTo 1 3 true, .unite 1 0, .copy 0, .shiftRight 1 3, .symm 0 1, .trim 0,
    .resize 1 9 false, .grow 0 20, .fill 1, .diff 1 0, .inter 0 1, .clear 1, .free 0, .free 1, .free 2]

example : ∀ op ∈ longHistory, fits op := by simp [fits, longHistory]

/-- With memory for all calls but the copy: that call answers a null pointer, and nothing is left at the end. -/
example : (bmRun ⟨fun k => k != 6, fun _ _ => ones⟩ BWorld.start longHistory).map (fun r =>
    (r.1.heap.blocks.all (· == none), r.1.vars, r.2)) =
    some (true, [none, none, none], List.replicate 6 (true, true) ++ (false, false) :: List.replicate 12 (true, true)) := by
  decide +kernel

/-- A shift after a history, with memory: bit 5 moves to bit 133. -/
example : ∃ w rs, bmRun (pick [0, 1, 2]) BWorld.start [.create, .set 0 5] = some (w, rs) ∧ (pick [0, 1, 2]).grants w.heap.reqs = true ∧
    w.words 0 = some 1 ∧ 1 + 128 / 64 + 1 ≤ maxWords ∧ (w.shiftLeft (pick [0, 1, 2]) 0 128).bind (fun r => r.1.get 0 133) = some true :=
  ⟨⟨⟨[some (.obj (some 1) 1 2), some (.words [32#64, ones])], 2⟩, [some 0]⟩, [(true, true), (true, true)], by decide +kernel,
    by decide +kernel, by decide +kernel, by decide, by decide +kernel⟩

end CRoaring.Props
