import Verif.Lemmas.Alloc7

set_option linter.unusedSimpArgs false
set_option linter.unusedVariables false

/-! Lemmas for C112 and C113. -/

namespace CRoaring

variable {F : Nat → Option MBlk} {m m1 m2 m' base : Mem} {own own' : List Nat} {ok : Nat → Bool}

theorem newBitmap_of {p : Nat} {b : Bitmap} {alloc : Nat} {buf : Option Nat} {rs : List CRec} (hi : Owns m.live m' (bmBlocks p buf rs ++ []))
    (h : HoldsB m' p b false alloc buf rs) : NewBitmap m m' p b := by
  refine ⟨⟨alloc, buf, rs, h⟩, fun x hx => hi.keep hx, ?_⟩
  obtain ⟨m2, e2, i2, _, _⟩ := freeBitmapA_spec h hi
  exact ⟨m2, e2, i2.nil⟩

theorem madeB_new {b : Bitmap} {x : Option (Option Nat × Mem)} (h : MadeB m.live ok m [] b false x) :
    ∃ r m', x = some (r, m') ∧ (r = none ↔ Refused ok m m') ∧ (r = none → m'.live = m.live) ∧ ∀ p, r = some p → NewBitmap m m' p b := by
  rcases h with ⟨m1, e1, i1, _, r1⟩ | ⟨p, alloc, buf, rs, m1, e1, i1, _, g1, h1⟩
  · exact ⟨none, m1, e1, ⟨fun _ => r1, fun _ => rfl⟩, fun _ => i1.nil, by simp⟩
  · refine ⟨some p, m1, e1, ⟨by simp, fun w => absurd w g1.not_refused⟩, by simp, ?_⟩
    intro p' hp
    cases hp
    exact newBitmap_of i1 h1

/-- A memory without the blocks of one bitmap. -/
def blkLess (m : Mem) (own : List Nat) : Mem := { m with live := fun x => if x ∈ own then none else m.live x }

theorem owns_blkLess {p : Nat} {b : Bitmap} {cow : Bool} {alloc : Nat} {buf : Option Nat} {rs : List CRec} (hm : m.Bounded)
    (h : HoldsB m p b cow alloc buf rs) : Owns (blkLess m (bmBlocks p buf rs)).live m (bmBlocks p buf rs ++ []) := by
  rw [List.append_nil]
  refine ⟨fun x hx => by simp [blkLess, hx], fun x hx => ⟨by simp [blkLess, hx], ?_⟩, hm, h.nodup⟩
  by_contra hn
  exact holdsB_live h x hx (hm x (by omega))

theorem holdsB_without {p : Nat} {b : Bitmap} {cow : Bool} {alloc : Nat} {buf : Option Nat} {rs : List CRec}
    (h : HoldsB m p b cow alloc buf rs) (hd : ∀ x ∈ bmBlocks p buf rs, x ∉ own) : HoldsB (blkLess m own) p b cow alloc buf rs :=
  holdsB_same h (fun x hx => by simp [blkLess, hd x hx])

/-- `roaring_bitmap_overwrite` of a bitmap without copy-on-write. -/
theorem overwriteA_spec {src dest : Nat} {b bd : Bitmap} {cow : Bool} {allocS alloc : Nat} {bufS buf : Option Nat} {rsS rsD : List CRec}
    (hm : m.Bounded) (ok : Nat → Bool) (hs : HoldsB m src b false allocS bufS rsS) (hd : HoldsB m dest bd cow alloc buf rsD)
    (hdis : ∀ x ∈ bmBlocks src bufS rsS, x ∉ bmBlocks dest buf rsD) :
    (∃ m', overwriteA ok dest src m = some (false, m') ∧ Owns (blkLess m (bmBlocks dest buf rsD)).live m' (dest :: []) ∧
      m'.live dest = some (.bitmap ⟨0, 0, none, false⟩) ∧ Refused ok m m' ∧ (alloc < b.length → ok m.calls = true)) ∨
    (∃ m' buf' alloc' rs, overwriteA ok dest src m = some (true, m') ∧ Owns (blkLess m (bmBlocks dest buf rsD)).live m' (bmBlocks dest buf' rs ++ []) ∧
      Granted ok m m' ∧ HoldsB m' dest b false alloc' buf' rs ∧ (alloc < b.length → ok m.calls = true)) ∨
    (∃ m', overwriteA ok dest src m = some (false, m') ∧ alloc < b.length ∧ Owns (blkLess m (bmBlocks dest buf rsD)).live m' (dest :: (buf.toList ++ [])) ∧
      m'.live dest = some (.bitmap ⟨bd.length, alloc, buf, false⟩) ∧ Refused ok m m' ∧ ok m.calls = false ∧ (∀ q, buf = some q → m'.live q = m.live q)) := by
  have hb := holdsB_without hs hdis
  have i1 := (owns_blkLess hm hd).set (a := dest) (by simp [bmBlocks]) (some (.bitmap ⟨bd.length, alloc, buf, false⟩))
  have hd1 := holdsB_cow (cow' := false) hd
  have e0 : overwriteA ok dest src m = raOverwriteA ok src dest false (m.set dest (some (.bitmap ⟨bd.length, alloc, buf, false⟩))) := by
    simp [overwriteA, hdrA_eq hs.hdr, setCowA, hdrA_eq hd.hdr]
  rw [e0]
  rcases raOverwriteA_spec hb ok hd1 i1 with ⟨m', a1, a2, a3, a4, a5, a6⟩ | ⟨m', buf', alloc', rs, a1, a2, a3, a4, a5, a6⟩ | ⟨m', a1, a2, a3, a4, a5, a6, a7⟩
  · exact Or.inl ⟨m', a1, a2, a4, a5, a6⟩
  · exact Or.inr (Or.inl ⟨m', buf', alloc', rs, a1, a2, a4, a5, a6⟩)
  · refine Or.inr (Or.inr ⟨m', a1, a2, a3, a5, a6, a7, ?_⟩)
    intro q hq
    -- the arrays are not touched
    obtain ⟨m1, e1, _, s1, c1⟩ := clearContainersA_spec hd1 i1
    have hqd : q ≠ dest := fun e => (List.nodup_cons.1 hd.nodup).1 (by simp [hq, e])
    have hb0 : b.length ≠ 0 := by omega
    have hs1 : m1.live src = some (.bitmap ⟨b.length, allocS, bufS, false⟩) := by
      have i2 : Owns (blkLess m (bmBlocks dest buf rsD)).live m1 (dest :: (buf.toList ++ [])) := by
        obtain ⟨m1', e1', i1', _⟩ := clearContainersA_spec hd1 i1
        rw [e1] at e1'
        cases e1'
        exact i1'
      rw [i2.keep (by rw [hb.hdr]; simp), hb.hdr]
    have hd2 : m1.live dest = some (.bitmap ⟨bd.length, alloc, buf, false⟩) := by rw [s1 dest (by simp), set_live_eq]
    rw [raOverwriteA, e1] at a1
    simp only [Option.bind_eq_bind, Option.bind_some, hdrA_eq hs1, hdrA_eq hd2, hb0, if_false, a2, if_true] at a1
    have hok1 : ok m1.calls = false := by rw [c1]; exact a7
    have hr : reallocArrayA ok dest b.length m1 = some (false, { m1 with calls := m1.calls + 1 }) := by
      simp [reallocArrayA, hdrA_eq hd2, malloc, hok1, show b ≠ [] from fun e => hb0 (by simp [e])]
    rw [hr] at a1
    simp only [Option.bind_some, Bool.not_false, if_true, Option.some.injEq, Prod.mk.injEq, true_and] at a1
    rw [← a1]
    simp only
    rw [s1 q (by simp [hq]), set_live_ne _ _ hqd]

/-- Releasing a bitmap whose first container is gone. -/
theorem freeBitmapA_dangling {p q a : Nat} {h : RaHdr} {s : SlotBuf} {t : Nat} (h1 : m.live p = some (.bitmap h)) (hz : 0 < h.size) (h2 : h.buf = some q)
    (h3 : m.live q = some (.slots s)) (h4 : s.conts[0]? = some (some (some a))) (h5 : s.types[0]? = some (some t)) (h6 : m.live a = none) :
    freeBitmapA p m = none := by
  obtain ⟨n, hn⟩ : ∃ n, h.size = n + 1 := ⟨h.size - 1, by omega⟩
  have hf : freeA (some a) t m = none := by
    rw [freeA]
    split
    · simp [h6]
    · split
      · simp [freeOwnA, h6]
      · rfl
  simp [freeBitmapA, raClearA, clearContainersA, hdrA_eq h1, hn, clearLoopA, slotAtA_eq h1 h2 h3 h4 h5, hf]

/-! ### Shared containers -/

/-- The container stored at `r`, with `k` owners, in the struct at `a`; apart from its blocks and the struct the memory is `F`. -/
structure SharedBy (F : Nat → Option MBlk) (m : Mem) (a : Nat) (r : CRec) (c : Container) (k : Nat) : Prop where
  inv : Owns F m (a :: r.blocks)
  blk : m.live a = some (.shared (some r.addr) (typecode c) k)
  cont : HoldsC m r c

theorem SharedBy.more {m : Mem} {a k : Nat} {r : CRec} {c : Container} (h : SharedBy F m a r c k) (ok : Nat → Bool) :
    ∃ m', shareA ok (some a) 4 m = some ((some a, 4), m') ∧ SharedBy F m' a r c (k + 1) := by
  refine ⟨_, by simp only [shareA, if_true, h.blk], h.inv.set (by simp) _, set_live_eq _ _ _, holdsC_congr h.cont ?_⟩
  intro x hx
  exact set_live_ne _ _ (fun q => (List.nodup_cons.1 h.inv.nodup).1 (q ▸ hx))

theorem SharedBy.fewer {m : Mem} {a k : Nat} {r : CRec} {c : Container} (h : SharedBy F m a r c (k + 2)) :
    ∃ m', freeA (some a) 4 m = some m' ∧ SharedBy F m' a r c (k + 1) := by
  refine ⟨m.set a (some (.shared (some r.addr) (typecode c) (k + 1))), by simp only [freeA, if_true, h.blk]; simp,
    h.inv.set (by simp) _, set_live_eq _ _ _, holdsC_congr h.cont ?_⟩
  intro x hx
  exact set_live_ne _ _ (fun q => (List.nodup_cons.1 h.inv.nodup).1 (q ▸ hx))

theorem SharedBy.last {m : Mem} {a : Nat} {r : CRec} {c : Container} (h : SharedBy F m a r c 1) :
    ∃ m', freeA (some a) 4 m = some m' ∧ m'.live = F := by
  have i1 : Owns F m (r.blocks ++ [a]) := h.inv.perm (by simpa using (List.perm_append_comm (l₁ := [a]) (l₂ := r.blocks)))
  obtain ⟨m1, e1, e2, e3, _⟩ := freeA_spec i1 h.cont
  have ht : freeA (some r.addr) (typecode c) m = freeOwnA (some r.addr) (typecode c) m := by
    cases c <;> simp [freeA, typecode, BITSET_TYPE, ARRAY_TYPE, RUN_TYPE]
  have hb : m1.live a = some (.shared (some r.addr) (typecode c) 1) := by rw [e3 a (by simp), h.blk]
  refine ⟨m1.set a none, ?_, e2.free.nil⟩
  simp only [freeA, if_true, h.blk]
  rw [← ht, e1]
  simp [mfree_some hb]

theorem shareTimes_spec (ok : Nat → Bool) {a : Nat} {r : CRec} {c : Container} : ∀ (n k : Nat) (m : Mem), SharedBy F m a r c k →
    ∃ m', shareTimes ok n (some a, 4) m = some ((some a, 4), m') ∧ SharedBy F m' a r c (k + n)
  | 0, k, m, h => ⟨m, rfl, h⟩
  | n + 1, k, m, h => by
    obtain ⟨m1, e1, h1⟩ := h.more ok
    obtain ⟨m2, e2, h2⟩ := shareTimes_spec ok n (k + 1) m1 h1
    exact ⟨m2, by simp only [shareTimes, e1, Option.bind_some, e2], by rw [show k + (n + 1) = k + 1 + n by omega]; exact h2⟩

theorem freeTimes_spec {a : Nat} {r : CRec} {c : Container} : ∀ (n k : Nat) (m : Mem), SharedBy F m a r c (n + k + 1) →
    ∃ m', freeTimes n (some a, 4) m = some m' ∧ SharedBy F m' a r c (k + 1)
  | 0, k, m, h => ⟨m, rfl, by simpa using h⟩
  | n + 1, k, m, h => by
    obtain ⟨m1, e1, h1⟩ := SharedBy.fewer (k := n + k) (by rw [show n + k + 2 = n + 1 + k + 1 by omega]; exact h)
    obtain ⟨m2, e2, h2⟩ := freeTimes_spec n k m1 h1
    exact ⟨m2, by simp only [freeTimes, e1, Option.bind_some, e2], h2⟩

theorem freeTimes_add : ∀ (n k : Nat) (s : Option Nat × Nat) (m : Mem), freeTimes (n + k) s m = (freeTimes n s m).bind (freeTimes k s)
  | 0, k, s, m => by simp [freeTimes]
  | n + 1, k, s, m => by
    rw [show n + 1 + k = n + k + 1 by omega]
    simp only [freeTimes]
    cases freeA s.1 s.2 m with
    | none => rfl
    | some m1 => simp only [Option.bind_some, freeTimes_add n k s m1]

end CRoaring
