import Verif.Lemmas.Alloc8
import Verif.Props.C112
/-!
C113: no memory is lost, in any history of creating, copying, reading, shrinking and releasing bitmaps.
-/
namespace CRoaring.Props

/-- Any sequence of calls, with memory for every request: nothing that is not in use is ever touched (the outcome is not `none`), the
bitmaps are those that the calls should give, and releasing those that are left gives exactly the blocks there were at the start.  The
bytes that are read are arbitrary. -/
theorem C113_history {m : Mem} (hm : m.Bounded) (ok : Nat → Bool) (hok : ∀ n, ok n = true) (calls : List ACall) :
    ∃ hs m', runCalls ok calls ([], m) = some (hs, m') ∧
      List.Forall₂ (fun p b => Stored m' p b false) hs (calls.foldl (fun bs c => c.effect bs) []) ∧
      (∀ x, m.live x ≠ none → m'.live x = m.live x) ∧
      ∃ m'', freeAll hs m' = some m'' ∧ m''.live = m.live := by
  obtain ⟨m1, ts, bs, a1, a2, a3, a4⟩ := runCalls_spec (F := m.live) ok calls (m := m) (ts := []) (bs := []) ⟨.nil, Owns.init hm⟩ (Or.inl hok)
  refine ⟨ts.map BRec.p, m1, a1, ?_, fun x hx => a2.inv.keep hx, freeAll_spec a2⟩
  rw [← a4 hok]
  have := a2.all
  rw [List.forall₂_map_left_iff]
  exact forall₂_mono this (fun t _ b hb => ⟨_, _, _, hb.1⟩)

/-- The same if memory may run out at any request, as long as no bytes with run containers are read (see `C112_read_false`): a call that
meets a refusal has no effect on the bitmaps, and still nothing is lost. -/
theorem C113_refused {m : Mem} (hm : m.Bounded) (ok : Nat → Bool) (calls : List ACall)
    (hr : ∀ bytes, .read bytes ∈ calls → NoRunCookie bytes) :
    ∃ hs m' bs, runCalls ok calls ([], m) = some (hs, m') ∧ Did calls [] bs ∧ List.Forall₂ (fun p b => Stored m' p b false) hs bs ∧
      (∀ x, m.live x ≠ none → m'.live x = m.live x) ∧
      ∃ m'', freeAll hs m' = some m'' ∧ m''.live = m.live := by
  obtain ⟨m1, ts, bs, a1, a2, a3, _⟩ := runCalls_spec (F := m.live) ok calls (m := m) (ts := []) (bs := []) ⟨.nil, Owns.init hm⟩ (Or.inr hr)
  refine ⟨ts.map BRec.p, m1, bs, a1, a3, ?_, fun x hx => a2.inv.keep hx, freeAll_spec a2⟩
  rw [List.forall₂_map_left_iff]
  exact forall₂_mono a2.all (fun t _ b hb => ⟨_, _, _, hb.1⟩)

/-- Bytes that are refused leave nothing behind. -/
theorem C113_read {m : Mem} (hm : m.Bounded) (ok : Nat → Bool) (hok : ∀ n, ok n = true) (bytes : List UInt8) {n : Nat} (hn : n ≤ bytes.length) :
    ∃ r m', deserA ok bytes 0 n m = some (r, m') ∧ (r = none ↔ rbPortableDeserializeSafe bytes 0 n = .fail) ∧ (r = none → m'.live = m.live) ∧
      ∀ p, r = some p → ∃ b, rbPortableDeserializeSafe bytes 0 n = .ok b ∧ NewBitmap m m' p b := by
  obtain ⟨r, m', e1, e2, e3, e4⟩ := C112_read_partial hm ok bytes hn (Or.inr hok)
  refine ⟨r, m', e1, ?_, e3, e4⟩
  rw [e2]
  constructor
  · rintro (⟨j, _, _, j3⟩ | w)
    · rw [hok j] at j3; cases j3
    · exact w
  · exact Or.inr

/-- With copy-on-write: a container that `n + 1` copies were made of is still there, unchanged, after up to `n + 1` of the `n + 2` owners
released it, and the last release gives back the container and the struct with the counter: the blocks are those there were before the
copies, without those of the container. -/
theorem C113_shared {m : Mem} (hm : m.Bounded) (ok : Nat → Bool) (hok : ∀ n, ok n = true) {r : CRec} {c : Container} (hc : HoldsC m r c)
    (hd : r.blocks.Nodup) (n : Nat) :
    ∃ s m', shareTimes ok (n + 1) (some r.addr, typecode c) m = some (s, m') ∧ HoldsC m' r c ∧
      (∀ x, x ∉ r.blocks → m.live x ≠ none → m'.live x = m.live x) ∧
      (∀ k, k ≤ n + 1 → ∃ m'', freeTimes k s m' = some m'' ∧ HoldsC m'' r c) ∧
      ∃ m'', freeTimes (n + 2) s m' = some m'' ∧ ∀ x, m''.live x = if x ∈ r.blocks then none else m.live x := by
  obtain ⟨F, hF⟩ : ∃ F : Nat → Option MBlk, F = fun x => if x ∈ r.blocks then none else m.live x := ⟨_, rfl⟩
  have i0 : Owns F m r.blocks := ⟨fun x hx => by simp [hF, hx], fun x hx => ⟨by simp [hF, hx], holds_lt hm hc x hx⟩, hm, hd⟩
  have ht : typecode c ≠ 4 := by cases c <;> simp [typecode, BITSET_TYPE, ARRAY_TYPE, RUN_TYPE]
  have s0 : ∃ m1, shareA ok (some r.addr) (typecode c) m = some ((some m.next, 4), m1) ∧ SharedBy F m1 m.next r c 2 := by
    have hn := i0.next_notMem
    refine ⟨⟨m.next + 1, m.calls + 1, fun x => if x = m.next then some (.shared (some r.addr) (typecode c) 2) else m.live x⟩,
      by simp only [shareA, if_neg ht, malloc, hok, if_true], ⟨⟨?_, ?_, ?_, ?_⟩, by simp, ?_⟩⟩
    · intro x hx
      simp only [List.mem_cons, not_or] at hx
      simp only [if_neg hx.1]
      exact i0.frame x hx.2
    · intro x hx
      rcases List.mem_cons.1 hx with q | q
      · subst q
        exact ⟨i0.next_frame, by simp⟩
      · exact ⟨(i0.priv x q).1, by have := (i0.priv x q).2; simp only; omega⟩
    · intro x hx
      simp only at hx ⊢
      rw [if_neg (by omega)]
      exact hm x (by omega)
    · exact List.nodup_cons.2 ⟨hn, hd⟩
    · refine holdsC_congr hc (fun x hx => ?_)
      simp only
      rw [if_neg (fun q : x = m.next => hn (q ▸ hx))]
  obtain ⟨m1, e1, h1⟩ := s0
  obtain ⟨m2, e2, h2⟩ := shareTimes_spec ok n 2 m1 h1
  refine ⟨(some m.next, 4), m2, by simp only [shareTimes, e1, Option.bind_some, e2], h2.cont, ?_, ?_, ?_⟩
  · intro x q hx
    have hxn : x ≠ m.next := fun e => hx (hm x (by omega))
    rw [h2.inv.frame x (by simp [hxn, q]), hF]
    simp [q]
  · intro k hk
    obtain ⟨m3, e3, h3⟩ := freeTimes_spec k (n + 1 - k) m2 (by rw [show k + (n + 1 - k) + 1 = 2 + n by omega]; exact h2)
    exact ⟨m3, e3, h3.cont⟩
  · obtain ⟨m3, e3, h3⟩ := freeTimes_spec (n + 1) 0 m2 (by rw [show n + 1 + 0 + 1 = 2 + n by omega]; exact h2)
    obtain ⟨m4, e4, h4⟩ := h3.last
    refine ⟨m4, ?_, fun x => by rw [h4, hF]⟩
    rw [show n + 2 = n + 1 + 1 by omega, freeTimes_add, e3]
    simp [freeTimes, e4]

/-- {7} in an array container with room for two values meets the hypotheses of `C113_shared`. -/
example : ∃ (m : Mem) (r : CRec), m.Bounded ∧ HoldsC m r (.array [7]) ∧ r.blocks.Nodup := by
  refine ⟨⟨2, 0, fun x => if x = 0 then some (.cont 2 1 2 (some 1)) else if x = 1 then some (.data [some (.u 7), none]) else none⟩, ⟨0, some 1⟩,
    ?_, ⟨2, [none], rfl, rfl, ?_, by simp, by simp⟩, by simp [CRec.blocks]⟩
  · intro x hx
    simp only at hx ⊢
    rw [if_neg (by omega), if_neg (by omega)]
  · intro d hd
    simp only [Option.some.injEq] at hd
    subst hd
    rfl

/-- Reading {5}, copying it, releasing the first and making an empty one leaves {5} and the empty bitmap. -/
example : List.foldl (fun bs c => ACall.effect c bs) []
    [.read [58, 48, 0, 0, 1, 0, 0, 0, 0, 0, 0, 0, 16, 0, 0, 0, 5, 0], .copy 0, .free 0, .create 3] = [[(0, .array [5])], []] := by decide

end CRoaring.Props
