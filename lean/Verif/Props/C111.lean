import Verif.Lemmas.RunMem5
/-!
C111: run containers stay inside their buffers.  Whatever the capacity, the unused part of the buffer and the contents of new memory,
every operation on run containers reads and writes only inside its buffers (the model answers `.oob` otherwise) and leaves a well-formed
container of exactly the values it should have; also the operations that write their result over their own input.
-/
namespace CRoaring.Props
open CRoaring.Spec (IsRunSet)

/-- Adding a value. -/
theorem C111_add {fresh : Nat → List Rle} (hf : ∀ n, (fresh n).length = n) {b : RunBuf} {s : NSet} (h : IsRunSet b s) {v : Nat}
    (hv : v < 65536) : ∃ o, runAddBuf fresh b v = .ok (o, !s v) ∧ IsRunSet o (Spec.insert s v) := by
  obtain ⟨w, hb, hw, hs⟩ := isRunSet_iff.1 h
  obtain ⟨o, e, g⟩ := runAddBuf_spec hf hb hw v
  obtain ⟨a1, a2, a3⟩ := runAdd_spec hw hv
  refine ⟨o, by rw [e, a3, hs], isRunSet_of g ⟨a1, fun x => ?_⟩⟩
  rw [a2, hs, Spec.insert]; rfl

/-- Removing a value. -/
theorem C111_remove {fresh : Nat → List Rle} (hf : ∀ n, (fresh n).length = n) {b : RunBuf} {s : NSet} (h : IsRunSet b s) {v : Nat}
    (hv : v < 65536) : ∃ o, runRemoveBuf fresh b v = .ok (o, s v) ∧ IsRunSet o (Spec.erase s v) := by
  obtain ⟨w, hb, hw, hs⟩ := isRunSet_iff.1 h
  obtain ⟨o, e, g⟩ := runRemoveBuf_spec hf hb hw v
  obtain ⟨a1, a2, a3⟩ := runRemove_spec hw hv
  refine ⟨o, by rw [e, a3, hs], isRunSet_of g ⟨a1, fun x => ?_⟩⟩
  rw [a2, hs, Spec.erase]
  by_cases c : x = v <;> simp [c]

/-- Adding the values from `lo` to `hi` inclusive. -/
theorem C111_add_range {fresh : Nat → List Rle} (hf : ∀ n, (fresh n).length = n) {b : RunBuf} {s : NSet} (h : IsRunSet b s) {lo hi : Nat}
    (hl : lo ≤ hi) (hh : hi < 65536) :
    ∃ o, runAddRangeCounted fresh b lo hi = .ok o ∧ IsRunSet o (Spec.union s (Spec.range lo (hi + 1))) := by
  obtain ⟨w, hb, hw, hs⟩ := isRunSet_iff.1 h
  obtain ⟨o, v', e, g, a1, a2⟩ := runAddRangeCounted_spec hf hb hw hl hh
  refine ⟨o, e, isRunSet_of g ⟨a1, fun x => ?_⟩⟩
  rw [a2, hs, Spec.union, Spec.range, ← Bool.decide_and]
  congr 1
  exact decide_eq_decide.2 (by omega)

/-- Removing the values from `lo` to `hi` inclusive. -/
theorem C111_remove_range {fresh : Nat → List Rle} (hf : ∀ n, (fresh n).length = n) {b : RunBuf} {s : NSet} (h : IsRunSet b s) {lo hi : Nat}
    (hl : lo ≤ hi) (hh : hi < 65536) :
    ∃ o, runRemoveRangeBuf fresh b lo hi = .ok o ∧ IsRunSet o (Spec.diff s (Spec.range lo (hi + 1))) := by
  obtain ⟨w, hb, hw, hs⟩ := isRunSet_iff.1 h
  obtain ⟨o, e, g⟩ := runRemoveRangeBuf_spec hf hb hw lo hi
  obtain ⟨a1, a2⟩ := runRemoveRange_spec hw hl hh
  refine ⟨o, e, isRunSet_of g ⟨a1, fun x => ?_⟩⟩
  rw [a2, hs, Spec.diff, Spec.range, Bool.eq_iff_iff]
  simp; omega

/-- Copying into any container, and a copy of its own. -/
theorem C111_copy {fresh : Nat → List Rle} (hf : ∀ n, (fresh n).length = n) {b : RunBuf} {s : NSet} (h : IsRunSet b s) (dst : RunBuf) :
    (∃ o, runCopyBuf fresh b dst = .ok o ∧ IsRunSet o s) ∧ ∃ o, runCloneBuf fresh b = .ok o ∧ IsRunSet o s := by
  obtain ⟨w, hb, hw, hs⟩ := isRunSet_iff.1 h
  obtain ⟨o, e, g⟩ := hb.copy hf dst
  obtain ⟨o', e', g'⟩ := hb.clone hf
  exact ⟨⟨o, e, isRunSet_of g ⟨hw, hs⟩⟩, o', e', isRunSet_of g' ⟨hw, hs⟩⟩

/-- Shrinking gives back the unused runs. -/
theorem C111_shrink {b : RunBuf} {s : NSet} (h : IsRunSet b s) :
    IsRunSet (runShrinkBuf b).1 s ∧ (runShrinkBuf b).1.mem.length = b.n ∧ (runShrinkBuf b).2 = b.mem.length - b.n := by
  obtain ⟨w, hb, hw, hs⟩ := isRunSet_iff.1 h
  obtain ⟨g, e1, e2⟩ := hb.shrink
  rw [← hb.n] at e1 e2
  exact ⟨isRunSet_of g ⟨hw, hs⟩, e1, e2⟩

/-- Union into any destination, and union into the first operand, which is moved to the end of its own buffer first. -/
theorem C111_union {fresh : Nat → List Rle} (hf : ∀ n, (fresh n).length = n) {a b : RunBuf} {s t : NSet} (ha : IsRunSet a s)
    (hb : IsRunSet b t) (hs : ∃ x, s x = true) (ht : ∃ x, t x = true) (dst : RunBuf) :
    (∃ o, runUnionBuf fresh a b dst = .ok o ∧ IsRunSet o (Spec.union s t)) ∧
      ∃ o, runUnionInplaceBuf fresh a b = .ok o ∧ IsRunSet o (Spec.union s t) := by
  obtain ⟨v, hv, ov, sv⟩ := isRunSet_iff.1 ha
  obtain ⟨w, hw, ow, sw⟩ := isRunSet_iff.1 hb
  obtain ⟨o, e, g⟩ := runUnionBuf_spec hf hv hw (ne_nil_of_has sv hs) (ne_nil_of_has sw ht) dst
  obtain ⟨o', e', g'⟩ := runUnionInplaceBuf_spec hf hv hw (ne_nil_of_has sv hs) (ne_nil_of_has sw ht)
  obtain ⟨a1, a2⟩ := runUnion_spec ov ow
  have a2' : ∀ x, runHas (runUnion v w) x = Spec.union s t x := fun x => by rw [a2, sv, sw]; rfl
  exact ⟨⟨o, e, isRunSet_of g ⟨a1, a2'⟩⟩, o', e', isRunSet_of g' ⟨a1, a2'⟩⟩

/-- Union with an array of values, into any destination and in place. -/
theorem C111_array_union {fresh : Nat → List Rle} (hf : ∀ n, (fresh n).length = n) {l : List Nat} (hl : l.Pairwise (· < ·))
    (hl2 : ∀ v ∈ l, v < 65536) {b : RunBuf} {t : NSet} (hb : IsRunSet b t) (ht : ∃ x, t x = true) (dst : RunBuf) :
    (∃ o, arrayRunUnionBuf fresh l b dst = .ok o ∧ IsRunSet o (Spec.union (Spec.ofList l) t)) ∧
      ∃ o, arrayRunInplaceUnionBuf fresh l b = .ok o ∧ IsRunSet o (Spec.union (Spec.ofList l) t) := by
  obtain ⟨w, hw, ow, sw⟩ := isRunSet_iff.1 hb
  obtain ⟨o, e, g⟩ := arrayRunUnionBuf_spec hf l hw (ne_nil_of_has sw ht) dst
  obtain ⟨o', e', g'⟩ := arrayRunInplaceUnionBuf_spec hf l hw (ne_nil_of_has sw ht)
  obtain ⟨a1, a2⟩ := arrayRunUnion_spec (l := l) ⟨hl, hl2⟩ ow
  have a2' : ∀ x, runHas (arrayRunUnion l w) x = Spec.union (Spec.ofList l) t x := fun x => by rw [a2, sw]; rfl
  exact ⟨⟨o, e, isRunSet_of g ⟨a1, a2'⟩⟩, o', e', isRunSet_of g' ⟨a1, a2'⟩⟩

/-- Symmetric difference, of two run containers and with an array. -/
theorem C111_xor {fresh : Nat → List Rle} (hf : ∀ n, (fresh n).length = n) {a b : RunBuf} {s t : NSet} (ha : IsRunSet a s)
    (hb : IsRunSet b t) (dst : RunBuf) : ∃ o, runXorBuf fresh a b dst = .ok o ∧ IsRunSet o (Spec.symm s t) := by
  obtain ⟨v, hv, ov, sv⟩ := isRunSet_iff.1 ha
  obtain ⟨w, hw, ow, sw⟩ := isRunSet_iff.1 hb
  obtain ⟨o, e, g⟩ := runXorBuf_spec hf hv hw dst
  obtain ⟨a1, a2⟩ := runXor_spec ov ow
  exact ⟨o, e, isRunSet_of g ⟨a1, fun x => by rw [a2, sv, sw]; rfl⟩⟩

theorem C111_array_xor {fresh : Nat → List Rle} (hf : ∀ n, (fresh n).length = n) {l : List Nat} (hl : l.Pairwise (· < ·))
    (hl2 : ∀ v ∈ l, v < 65536) {b : RunBuf} {t : NSet} (hb : IsRunSet b t) (dst : RunBuf) :
    ∃ o, arrayRunLazyXorBuf fresh l b dst = .ok o ∧ IsRunSet o (Spec.symm (Spec.ofList l) t) := by
  obtain ⟨w, hw, ow, sw⟩ := isRunSet_iff.1 hb
  obtain ⟨o, e, g⟩ := arrayRunLazyXorBuf_spec hf l hw dst
  obtain ⟨a1, a2⟩ := arrayRunLazyXor_ok (l := l) ⟨hl, hl2⟩ ow
  exact ⟨o, e, isRunSet_of g ⟨a1, fun x => by rw [a2, sw]; rfl⟩⟩

/-- Intersection. -/
theorem C111_intersection {fresh : Nat → List Rle} (hf : ∀ n, (fresh n).length = n) {a b : RunBuf} {s t : NSet} (ha : IsRunSet a s)
    (hb : IsRunSet b t) (hs : ∃ x, s x = true) (ht : ∃ x, t x = true) (dst : RunBuf) :
    ∃ o, runIntersectionBuf fresh a b dst = .ok o ∧ IsRunSet o (Spec.inter s t) := by
  obtain ⟨v, hv, ov, sv⟩ := isRunSet_iff.1 ha
  obtain ⟨w, hw, ow, sw⟩ := isRunSet_iff.1 hb
  obtain ⟨o, e, g⟩ := runIntersectionBuf_spec hf hv hw (ne_nil_of_has sv hs) (ne_nil_of_has sw ht) dst
  obtain ⟨a1, a2⟩ := runIntersection_spec ov ow
  exact ⟨o, e, isRunSet_of g ⟨a1, fun x => by rw [a2, sv, sw]; rfl⟩⟩

/-- Difference of two run containers. -/
theorem C111_andnot {fresh : Nat → List Rle} (hf : ∀ n, (fresh n).length = n) {a b : RunBuf} {s t : NSet} (ha : IsRunSet a s)
    (hb : IsRunSet b t) (hs : ∃ x, s x = true) (ht : ∃ x, t x = true) (dst : RunBuf) :
    ∃ o, runAndnotBuf fresh a b dst = .ok o ∧ IsRunSet o (Spec.diff s t) := by
  obtain ⟨v, hv, ov, sv⟩ := isRunSet_iff.1 ha
  obtain ⟨w, hw, ow, sw⟩ := isRunSet_iff.1 hb
  obtain ⟨o, e, g⟩ := runAndnotBuf_spec hf hv hw (ne_nil_of_has sv hs) (ne_nil_of_has sw ht) dst
  obtain ⟨a1, a2⟩ := runAndnot_spec ov ow
  exact ⟨o, e, isRunSet_of g ⟨a1, fun x => by rw [a2, sv, sw]; rfl⟩⟩

/-- Difference of a run container and an array, as long as the result stays a run container. -/
theorem C111_array_andnot {fresh : Nat → List Rle} (hf : ∀ n, (fresh n).length = n) {a : RunBuf} {s : NSet} (ha : IsRunSet a s)
    {l : List Nat} (hl : l.Pairwise (· < ·)) (hl2 : ∀ v ∈ l, v < 65536) (hs : ∃ x, s x = true) (hne : l ≠ []) :
    ∃ o, runArrayAndnotBuf fresh a l = .ok o ∧ IsRunSet o (Spec.diff s (Spec.ofList l)) := by
  obtain ⟨v, hv, ov, sv⟩ := isRunSet_iff.1 ha
  obtain ⟨o, e, g⟩ := runArrayAndnotBuf_spec hf hv (ne_nil_of_has sv hs) hne
  cases v with
  | nil => exact absurd rfl (ne_nil_of_has sv hs)
  | cons r rs =>
    have hk := runOK_cons.1 ov
    have hsp := runAndnotLoop_spec r.1 (r.1 + r.2 + 1) rs (l.map fun v => (v, 0)) hk.2.2 (wrun_of_array ⟨hl, hl2⟩) (by omega) (by omega)
      (fun q hq => by have := hk.2.1 q hq; omega)
    refine ⟨o, e, isRunSet_of g ⟨hsp.1, fun x => ?_⟩⟩
    rw [runAndnot, hsp.2.1, runHas_of_array, ← Spec.ofList.eq_def l]
    have := sv x
    rw [runHas_cons] at this
    show _ = (s x && !Spec.ofList l x)
    rw [← this]
    grind

/-- Flipping the range `[lo, hi)`, into a new container and over its own input. -/
theorem C111_flip {fresh : Nat → List Rle} (hf : ∀ n, (fresh n).length = n) {b : RunBuf} {s : NSet} (h : IsRunSet b s) {lo hi : Nat}
    (hl : lo < hi) (hh : hi ≤ 65536) :
    (∃ o, runNegationBuf fresh b lo hi = .ok o ∧ IsRunSet o (Spec.flipRange s lo hi)) ∧
      ∃ o, runNegationInplaceBuf fresh b lo hi = .ok o ∧ IsRunSet o (Spec.flipRange s lo hi) := by
  obtain ⟨w, hb, hw, hs⟩ := isRunSet_iff.1 h
  obtain ⟨o, e, g⟩ := runNegationBuf_spec hf hb lo hi
  obtain ⟨o', e', g'⟩ := runNegationInplaceBuf_spec hf hb hw hl hh
  obtain ⟨a1, a2⟩ := runNegL_ok hw hl hh
  have a2' : ∀ x, runHas (runNegL w lo hi) x = Spec.flipRange s lo hi x := fun x => by
    rw [a2, hs, Spec.flipRange, Spec.symm, Spec.range, Bool.decide_and]
  exact ⟨⟨o, e, isRunSet_of g ⟨a1, a2'⟩⟩, o', e', isRunSet_of g' ⟨a1, a2'⟩⟩

/-- Conversion of an array and of a bitset: the buffer is exactly as large as the number of runs counted before. -/
theorem C111_from_array {fresh : Nat → List Rle} (hf : ∀ n, (fresh n).length = n) {l : List Nat} (hl : l.Pairwise (· < ·))
    (hl2 : ∀ v ∈ l, v < 65536) : ∃ o, runFromArrayBuf fresh l = .ok o ∧ IsRunSet o (Spec.ofList l) := by
  obtain ⟨o, e, g⟩ := runFromArrayBuf_spec hf (l := l) ⟨hl, hl2⟩
  exact ⟨o, e, isRunSet_of g (runFromArray_spec ⟨hl, hl2⟩)⟩

theorem C111_from_bitset {fresh : Nat → List Rle} (hf : ∀ n, (fresh n).length = n) {b : Bitset} (hb : b.words.length = 1024) :
    ∃ o, runFromBitsetBuf fresh b = .ok o ∧ IsRunSet o (fun x => (b.words.getD (x / 64) 0#64).getLsbD (x % 64)) := by
  obtain ⟨o, e, g⟩ := runFromBitsetBuf_spec hf hb
  exact ⟨o, e, isRunSet_of g (bitsetToRun_spec hb)⟩

/-- A call on one run container. -/
inductive RunCall where
  | add (v : Nat)
  | remove (v : Nat)
  | addRange (lo hi : Nat)
  | removeRange (lo hi : Nat)
  | flip (lo hi : Nat)
  | shrink

/-- The arguments the callers give: 16-bit values, ranges that are not empty. -/
def RunCall.Valid : RunCall → Prop
  | .add v | .remove v => v < 65536
  | .addRange lo hi | .removeRange lo hi => lo ≤ hi ∧ hi < 65536
  | .flip lo hi => lo < hi ∧ hi ≤ 65536
  | .shrink => True

/-- What a call does to the buffer. -/
def RunCall.exec (fresh : Nat → List Rle) (b : RunBuf) : RunCall → Out RunBuf
  | .add v => do let r ← runAddBuf fresh b v; .ok r.1
  | .remove v => do let r ← runRemoveBuf fresh b v; .ok r.1
  | .addRange lo hi => runAddRangeCounted fresh b lo hi
  | .removeRange lo hi => runRemoveRangeBuf fresh b lo hi
  | .flip lo hi => runNegationInplaceBuf fresh b lo hi
  | .shrink => .ok (runShrinkBuf b).1

/-- What a call should do to the set. -/
def RunCall.effect (s : NSet) : RunCall → NSet
  | .add v => Spec.insert s v
  | .remove v => Spec.erase s v
  | .addRange lo hi => Spec.union s (Spec.range lo (hi + 1))
  | .removeRange lo hi => Spec.diff s (Spec.range lo (hi + 1))
  | .flip lo hi => Spec.flipRange s lo hi
  | .shrink => s

/-- Any sequence of calls on a new container of any capacity stays inside the buffers and gives the right set. -/
theorem C111_history (fresh : Nat → Nat → List Rle) (hf : ∀ k n, (fresh k n).length = n) (size : Nat) (calls : List RunCall)
    (hv : ∀ c ∈ calls, c.Valid) :
    ∃ o, (calls.zipIdx.foldl (fun (b : Out RunBuf) c => do let b ← b; c.1.exec (fresh (c.2 + 1)) b) (.ok (runCreateBuf (fresh 0) size))) = .ok o ∧
      IsRunSet o (calls.foldl RunCall.effect Spec.empty) := by
  have key : ∀ (calls : List RunCall) (k : Nat) (b : RunBuf) (s : NSet), IsRunSet b s → (∀ c ∈ calls, c.Valid) →
      ∃ o, ((calls.zipIdx k).foldl (fun (b : Out RunBuf) c => do let b ← b; c.1.exec (fresh (c.2 + 1)) b) (.ok b)) = .ok o ∧
        IsRunSet o (calls.foldl RunCall.effect s) := by
    intro calls
    induction calls with
    | nil => intro k b s h _; exact ⟨b, rfl, h⟩
    | cons c calls ih =>
      intro k b s h hv
      have hc := hv c (by simp)
      have step : ∃ o, c.exec (fresh (k + 1)) b = .ok o ∧ IsRunSet o (c.effect s) := by
        cases c with
        | add v => obtain ⟨o, e, g⟩ := C111_add (hf (k + 1)) h hc; exact ⟨o, by rw [RunCall.exec, e]; rfl, g⟩
        | remove v => obtain ⟨o, e, g⟩ := C111_remove (hf (k + 1)) h hc; exact ⟨o, by rw [RunCall.exec, e]; rfl, g⟩
        | addRange lo hi => exact C111_add_range (hf (k + 1)) h hc.1 hc.2
        | removeRange lo hi => exact C111_remove_range (hf (k + 1)) h hc.1 hc.2
        | flip lo hi => exact (C111_flip (hf (k + 1)) h hc.1 hc.2).2
        | shrink => exact ⟨_, rfl, (C111_shrink h).1⟩
      obtain ⟨o, e, g⟩ := step
      rw [List.zipIdx_cons, List.foldl_cons, List.foldl_cons]
      have : (do let b ← Out.ok b; (c, k).1.exec (fresh ((c, k).2 + 1)) b) = Out.ok o := e
      rw [this]
      exact ih _ _ _ g fun c hc => hv c (by simp [hc])
  refine key calls 0 _ _ ?_ hv
  exact isRunSet_of (holds_create _ _) ⟨RunOK.nil, fun x => rfl⟩

/-! ### The hypotheses are met -/

/-- A container of the runs 3..5 and 9..9 in a buffer of two runs: no spare room. -/
theorem C111_sample : IsRunSet ⟨2, [(3, 2), (9, 0)]⟩ (fun x => decide (3 ≤ x ∧ x ≤ 5) || decide (x = 9)) :=
  isRunSet_of (v := [(3, 2), (9, 0)]) ⟨[], rfl⟩ ⟨⟨by simp, by simp⟩, fun x => by
    rw [Bool.eq_iff_iff]; simp [runHas]; omega⟩

/-- `malloc` returning garbage. -/
def garbage (n : Nat) : List Rle := List.replicate n (777, 777)

example : ∀ n, (garbage n).length = n := fun n => by simp [garbage]
-- 7 needs a third run: the buffer grows
example : runAddBuf garbage ⟨2, [(3, 2), (9, 0)]⟩ 7 = .ok (⟨3, [(3, 2), (7, 0), (9, 0), (777, 777)]⟩, true) := by decide +kernel
-- flipping [5, 8) in place: the result has as many runs as the input, so the full buffer is enough
example : runNegationInplaceBuf garbage ⟨2, [(3, 2), (9, 0)]⟩ 6 8 = .ok ⟨2, [(3, 4), (9, 0)]⟩ := by decide +kernel
-- flipping [4, 5) needs a third run: a new container is made
example : (runNegationInplaceBuf garbage ⟨2, [(3, 2), (9, 0)]⟩ 4 5) = .ok ⟨3, [(3, 0), (5, 0), (9, 0)]⟩ := by decide +kernel
-- the union is written over its first operand
example : ∃ o, runUnionInplaceBuf garbage ⟨2, [(3, 2), (9, 0)]⟩ ⟨1, [(6, 2)]⟩ = .ok o ∧ o.vals = [(3, 6)] := by
  refine ⟨⟨1, [(3, 6), (9, 0), (777, 777), (3, 2), (9, 0)]⟩, ?_, rfl⟩
  decide +kernel
example : (∃ x, (fun x => decide (3 ≤ x ∧ x ≤ 5) || decide (x = 9)) x = true) := ⟨9, rfl⟩
-- without the test for spare room the in-place flip would write behind the buffer
example : smartAppendBuf ⟨2, [(3, 2), (9, 0)]⟩ 12 0 = .oob := by decide +kernel

end CRoaring.Props
