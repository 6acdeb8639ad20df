import Verif.Model.BitmapMemFrozen
import Verif.Lemmas.BitmapMem12
set_option linter.unusedSimpArgs false
set_option linter.unusedVariables false

/-! The frozen format of bitmaps in memory (C135). -/

namespace CRoaring
open Spec

theorem frozenSizeLoopBuf_spec (B : Bitmap) : ∀ {A : Bitmap} {b : RaBuf} (k : Nat), RHolds b (A ++ B) →
    frozenSizeLoopBuf b.mem B.length A.length k = .ok (B.foldl (fun n p => n + frozenDataSize p.2) k) := by
  induction B with
  | nil => intro A b k h; rfl
  | cons p t ih =>
    intro A b k h
    have := ih (k + frozenDataSize p.2) h.next
    rw [List.length_append, List.length_singleton] at this
    rw [List.length_cons, frozenSizeLoopBuf, h.loadCell, ok_bind, this, List.foldl_cons]

theorem rbFrozenSizeBuf_spec {b : RaBuf} {r : Bitmap} (h : RHolds b r) : rbFrozenSizeBuf b = .ok (rbFrozenSize r) := by
  have := frozenSizeLoopBuf_spec r (A := []) (b := b) 0 (by simpa using h)
  rw [List.length_nil] at this
  rw [rbFrozenSizeBuf, h.size, this, ok_bind, rbFrozenSize]

theorem frozenZonesBuf_spec (B : Bitmap) : ∀ {A : Bitmap} {b : RaBuf} (z : Nat × Nat × Nat), RHolds b (A ++ B) →
    frozenZonesBuf b.mem B.length A.length z = .ok (B.foldl (fun z p => zoneStep z p.2) z) := by
  induction B with
  | nil => intro A b k h; rfl
  | cons p t ih =>
    intro A b z h
    have := ih (zoneStep z p.2) h.next
    rw [List.length_append, List.length_singleton] at this
    rw [List.length_cons, frozenZonesBuf, h.loadCell, ok_bind, this, List.foldl_cons]

theorem out_bind_congr {α β : Type} {x : Out α} {f g : α → Out β} (h : ∀ a, f a = g a) : (x >>= f) = (x >>= g) := by
  rw [funext h]

theorem frozenWriteBuf_spec (cz : Nat) (B : Bitmap) : ∀ {A : Bitmap} {b : RaBuf} (bz rz az : Nat) (mem : List UInt8), RHolds b (A ++ B) →
    frozenWriteBuf b.mem cz B.length A.length bz rz az mem = frozenWriteLoop cz B A.length bz rz az mem := by
  induction B with
  | nil => intro A b bz rz az mem h; rfl
  | cons p t ih =>
    intro A b bz rz az mem h
    obtain ⟨k, c⟩ := p
    have hi := fun bz rz az mem => ih bz rz az mem h.next
    simp only [List.length_append, List.length_singleton] at hi
    rw [List.length_cons, frozenWriteBuf, h.loadCell, ok_bind]
    cases c with
    | bitset x =>
      rw [frozenWriteLoop]
      exact out_bind_congr fun _ => out_bind_congr fun _ => hi ..
    | array l =>
      rw [frozenWriteLoop]
      exact out_bind_congr fun _ => out_bind_congr fun _ => hi ..
    | run rs =>
      rw [frozenWriteLoop]
      exact out_bind_congr fun _ => out_bind_congr fun _ => hi ..

theorem CHolds.typecode {o : CBuf} {c : Container} (h : CHolds o c) : o.typecode = typecode c := by
  cases o <;> cases c <;> first | rfl | exact h.elim

theorem raTypecodesBuf_spec {b : RaBuf} {r : Bitmap} (h : RHolds b r) : raTypecodesBuf b = .ok (r.map fun p => typecode p.2) := by
  have hs := h.size
  have hle := h.le
  rw [raTypecodesBuf, if_pos h.le]
  congr 1
  apply List.ext_getElem?
  intro j
  simp only [List.getElem?_map, List.getElem?_take]
  by_cases hj : j < b.size
  · rw [if_pos hj]
    have hj' : j < r.length := by omega
    obtain ⟨c, h1, h2⟩ := h.cells j r[j] (by simp [hj'])
    rw [Nat.zero_add] at h1
    simp [h1, hj', h2.typecode]
  · rw [if_neg hj, List.getElem?_eq_none (by omega)]
    rfl

theorem rbFrozenSerializeBuf_spec {b : RaBuf} {r : Bitmap} (h : RHolds b r) (mem : List UInt8) (off : Nat) :
    rbFrozenSerializeBuf b mem off = rbFrozenSerialize r mem off := by
  have h0 : RHolds b ([] ++ r) := by simpa using h
  have e1 := frozenZonesBuf_spec r (0, 0, 0) h0
  have e2 := fun cz bz rz az mem => frozenWriteBuf_spec cz r bz rz az mem h0
  rw [List.length_nil] at e1
  simp only [List.length_nil] at e2
  rw [rbFrozenSerializeBuf, rbFrozenSerialize, h.size, e1, ok_bind]
  simp only [e2, h.keys, raTypecodesBuf_spec h, ok_bind, List.map_map]
  rfl

/-! ### Too little room -/

/-- The computation wrote out of bounds, or its result is a block of `n` bytes. -/
def KeepsLen (n : Nat) (x : Out (List UInt8)) : Prop := x = .oob ∨ ∃ m, x = .ok m ∧ m.length = n

theorem KeepsLen.bind {n : Nat} {x : Out (List UInt8)} {f : List UInt8 → Out (List UInt8)} (h : KeepsLen n x)
    (hf : ∀ m : List UInt8, m.length = n → KeepsLen n (f m)) : KeepsLen n (x >>= f) := by
  rcases h with e | ⟨m, e, hm⟩
  · rw [e]; exact .inl rfl
  · rw [e, ok_bind]; exact hf m hm

theorem memWrite_keepsLen (m : List UInt8) (off : Nat) (bs : List UInt8) : KeepsLen m.length (memWrite m off bs) := by
  rw [memWrite]
  split
  · refine .inr ⟨_, rfl, ?_⟩
    simp only [List.length_append, List.length_take, List.length_drop]
    omega
  · exact .inl rfl

theorem frozenWriteLoop_keepsLen (cz : Nat) (r : Bitmap) : ∀ (i bz rz az : Nat) (m : List UInt8), KeepsLen m.length (frozenWriteLoop cz r i bz rz az m) := by
  induction r with
  | nil => intro i bz rz az m; exact .inr ⟨m, rfl, rfl⟩
  | cons p t ih =>
    intro i bz rz az m
    obtain ⟨k, c⟩ := p
    cases c <;> rw [frozenWriteLoop] <;>
      exact (memWrite_keepsLen ..).bind fun m1 e1 => (e1 ▸ memWrite_keepsLen ..).bind fun m2 e2 => e2 ▸ ih ..

theorem zoneSizes_sum (r : Bitmap) : ∀ (z : Nat × Nat × Nat) (k : Nat), k = z.1 + z.2.1 + z.2.2 →
    (r.foldl (fun z p => zoneStep z p.2) z).1 + (r.foldl (fun z p => zoneStep z p.2) z).2.1 + (r.foldl (fun z p => zoneStep z p.2) z).2.2 =
      r.foldl (fun n p => n + frozenDataSize p.2) k := by
  induction r with
  | nil => intro z k h; exact h.symm
  | cons p t ih =>
    intro z k h
    obtain ⟨key, c⟩ := p
    rw [List.foldl_cons, List.foldl_cons]
    refine ih _ _ ?_
    cases c <;> simp only [frozenDataSize, zoneStep] <;> omega

theorem rbFrozenSerialize_oob {r : Bitmap} {mem : List UInt8} {off : Nat} (hm : mem.length < off + rbFrozenSize r) :
    rbFrozenSerialize r mem off = .oob := by
  have hz : (zoneSizes r).1 + (zoneSizes r).2.1 + (zoneSizes r).2.2 = _ := zoneSizes_sum r (0, 0, 0) 0 rfl
  rw [rbFrozenSize, ← hz] at hm
  rw [rbFrozenSerialize]
  rcases frozenWriteLoop_keepsLen (off + (zoneSizes r).1 + (zoneSizes r).2.1 + (zoneSizes r).2.2 + 2 * r.length) r 0 off (off + (zoneSizes r).1)
    (off + (zoneSizes r).1 + (zoneSizes r).2.1) mem with e | ⟨m1, e, h1⟩
  · rw [e]; rfl
  · rw [e, ok_bind]
    rcases memWrite_keepsLen m1 (off + (zoneSizes r).1 + (zoneSizes r).2.1 + (zoneSizes r).2.2) ((keysOf r).flatMap (leBytes 2)) with e | ⟨m2, e, h2⟩
    · rw [e]; rfl
    · rw [e, ok_bind]
      rcases memWrite_keepsLen m2 (off + (zoneSizes r).1 + (zoneSizes r).2.1 + (zoneSizes r).2.2 + 2 * r.length + 2 * r.length)
        (r.map fun p => UInt8.ofNat (typecode p.2)) with e | ⟨m3, e, h3⟩
      · rw [e]; rfl
      · rw [e, ok_bind, memWrite, if_neg]
        rw [leBytes_length]
        omega

end CRoaring
