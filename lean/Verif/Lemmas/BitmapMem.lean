import Verif.Model.BitmapMem
import Verif.Lemmas.ContMem2
import Verif.Lemmas.Bitmap2
set_option linter.unusedSimpArgs false
set_option linter.unusedVariables false

namespace CRoaring
open Spec

/-- `roaring_malloc` returns as much as it is asked for. -/
structure RbEnvOK (E : RbEnv) : Prop where
  m : EnvOK E.m
  cells : ∀ n, (E.cells n).length = n

/-- A relation between a container in memory and a container, which may look at the key. -/
abbrev CRel := Nat → CBuf → Container → Prop

/-- The cells from `i` on are those of `r`. -/
def CellsAt (Q : CRel) (mem : List RCell) (i : Nat) (r : Bitmap) : Prop :=
  ∀ j p, r[j]? = some p → ∃ c, mem[i + j]? = some (p.1, c) ∧ Q p.1 c p.2

/-- The bitmap in memory holds `r`. -/
structure RQ (Q : CRel) (b : RaBuf) (r : Bitmap) : Prop where
  size : b.size = r.length
  le : b.size ≤ b.mem.length
  cells : CellsAt Q b.mem 0 r

/-- The bitmap in memory holds `r`. -/
abbrev RHolds (b : RaBuf) (r : Bitmap) : Prop := RQ (fun _ => CHolds) b r

/-- The computation ends without an access out of bounds, and its result holds `r`. -/
def RGives (x : Out RaBuf) (r : Bitmap) : Prop := ∃ b, x = .ok b ∧ RHolds b r

variable {Q : CRel}

/-! ### `CellsAt` -/

theorem cellsAt_nil (mem : List RCell) (i : Nat) : CellsAt Q mem i [] := by intro j p h; simp at h

theorem cellsAt_cons {mem : List RCell} {i : Nat} {p : Nat × Container} {t : Bitmap} :
    CellsAt Q mem i (p :: t) ↔ (∃ c, mem[i]? = some (p.1, c) ∧ Q p.1 c p.2) ∧ CellsAt Q mem (i + 1) t := by
  constructor
  · intro h
    refine ⟨h 0 p rfl, ?_⟩
    intro j q hq
    have := h (j + 1) q (by simpa using hq)
    rwa [show i + (j + 1) = i + 1 + j by omega] at this
  · rintro ⟨h1, h2⟩ j q hq
    cases j with
    | zero => simp at hq; subst hq; exact h1
    | succ j =>
      have := h2 j q (by simpa using hq)
      rwa [show i + 1 + j = i + (j + 1) by omega] at this

theorem cellsAt_append {mem : List RCell} {i : Nat} {a b : Bitmap} :
    CellsAt Q mem i (a ++ b) ↔ CellsAt Q mem i a ∧ CellsAt Q mem (i + a.length) b := by
  induction a generalizing i with
  | nil => simp [cellsAt_nil]
  | cons p t ih =>
    rw [List.cons_append, cellsAt_cons, cellsAt_cons, ih, and_assoc, List.length_cons, show i + 1 + t.length = i + (t.length + 1) by omega]

theorem CellsAt.congr {mem mem' : List RCell} {i i' : Nat} {r : Bitmap} (h : CellsAt Q mem i r)
    (e : ∀ j, j < r.length → mem'[i' + j]? = mem[i + j]?) : CellsAt Q mem' i' r := by
  intro j p hp
  have hj : j < r.length := by
    rcases Nat.lt_or_ge j r.length with hj | hj
    · exact hj
    · rw [List.getElem?_eq_none hj] at hp; cases hp
  rw [e j hj]
  exact h j p hp

theorem CellsAt.mono {Q' : CRel} {mem : List RCell} {i : Nat} {r : Bitmap} (h : CellsAt Q mem i r) (hq : ∀ k o c, Q k o c → Q' k o c) :
    CellsAt Q' mem i r := by
  intro j p hp
  obtain ⟨c, h1, h2⟩ := h j p hp
  exact ⟨c, h1, hq _ _ _ h2⟩

theorem CellsAt.le {mem : List RCell} {i : Nat} {r : Bitmap} (h : CellsAt Q mem i r) (hr : r ≠ []) : i + r.length ≤ mem.length := by
  have hl : 0 < r.length := List.length_pos_iff.2 hr
  obtain ⟨c, h1, _⟩ := h (r.length - 1) r[r.length - 1] (by simp)
  obtain ⟨h2, _⟩ := List.getElem?_eq_some_iff.1 h1
  omega

theorem CellsAt.set_ne {mem : List RCell} {i : Nat} {r : Bitmap} (h : CellsAt Q mem i r) {k : Nat} (hk : k < i ∨ i + r.length ≤ k) (c : RCell) :
    CellsAt Q (mem.set k c) i r := by
  refine h.congr fun j hj => ?_
  rw [List.getElem?_set_ne (by omega)]

theorem CellsAt.set_here {mem : List RCell} {i : Nat} {p : Nat × Container} {t : Bitmap} {k : Nat} {o : CBuf} (hi : i < mem.length)
    (h : CellsAt Q mem (i + 1) t) (hp : Q k o p.2) (e : k = p.1) : CellsAt Q (mem.set i (k, o)) i (p :: t) := by
  subst e
  rw [cellsAt_cons]
  refine ⟨⟨o, by simp [hi], hp⟩, h.set_ne (by omega) _⟩

/-! ### Primitives -/

theorem cellAt_eq {mem : List RCell} {i : Nat} {c : RCell} (h : mem[i]? = some c) : cellAt mem i = .ok c := by simp [cellAt, h]

theorem setCell_eq {mem : List RCell} {i : Nat} (h : i < mem.length) (c : RCell) : setCell mem i c = .ok (mem.set i c) := by
  simp [setCell, h]

theorem moveCells_spec {mem : List RCell} {dst src n : Nat} (h1 : src + n ≤ mem.length) (h2 : dst + n ≤ mem.length) :
    ∃ m', moveCells mem dst src n = .ok m' ∧ m'.length = mem.length ∧ (∀ j, j < n → m'[dst + j]? = mem[src + j]?) ∧
      (∀ j, j < dst → m'[j]? = mem[j]?) ∧ ∀ j, dst + n ≤ j → m'[j]? = mem[j]? := by
  refine ⟨_, if_pos ⟨h1, h2⟩, by simp; omega, ?_, ?_, ?_⟩
  · intro j hj
    rw [List.append_assoc, List.getElem?_append_right (by simp; omega), List.getElem?_append_left (by simp; omega)]
    simp only [List.length_take, List.getElem?_take, List.getElem?_drop]
    rw [if_pos (by omega)]
    congr 1; omega
  · intro j hj
    rw [List.append_assoc, List.getElem?_append_left (by simp; omega), List.getElem?_take, if_pos hj]
  · intro j hj
    rw [List.getElem?_append_right (by simp; omega), List.getElem?_drop]
    congr 1
    simp
    omega

variable {E : RbEnv}

theorem reallocArrayBuf_spec (hE : RbEnvOK E) {b : RaBuf} {cap : Nat} (h1 : b.size ≤ b.mem.length) (h2 : b.size ≤ cap) :
    ∃ b', reallocArrayBuf E b cap = .ok b' ∧ b'.size = b.size ∧ b'.mem.length = cap ∧ ∀ j, j < b.size → b'.mem[j]? = b.mem[j]? := by
  rw [reallocArrayBuf]
  split
  · exact ⟨_, rfl, rfl, by simp; omega, by intro j hj; omega⟩
  · simp only [hE.cells]
    rw [if_pos ⟨h1, h2⟩]
    refine ⟨_, rfl, rfl, by simp [hE.cells]; omega, ?_⟩
    intro j hj
    rw [List.getElem?_append_left (by simp; omega), List.getElem?_take, if_pos hj]

theorem RQ.realloc (hE : RbEnvOK E) {b : RaBuf} {r : Bitmap} (h : RQ Q b r) {cap : Nat} (hc : r.length ≤ cap) :
    ∃ b', reallocArrayBuf E b cap = .ok b' ∧ RQ Q b' r ∧ b'.mem.length = cap := by
  have hs := h.size
  obtain ⟨b', e, h1, h2, h3⟩ := reallocArrayBuf_spec hE h.le (by omega : b.size ≤ cap)
  refine ⟨b', e, ⟨by omega, by omega, h.cells.congr fun j hj => ?_⟩, h2⟩
  simp only [Nat.zero_add]
  exact h3 j (by omega)

theorem RQ.extend (hE : RbEnvOK E) {b : RaBuf} {r : Bitmap} (h : RQ Q b r) {k : Nat} (hk : r.length + k ≤ 65536) :
    ∃ b', extendArrayBuf E b k = .ok b' ∧ RQ Q b' r ∧ r.length + k ≤ b'.mem.length := by
  have hs := h.size
  rw [extendArrayBuf]
  simp only
  split
  · obtain ⟨b', e, h1, h2⟩ := h.realloc hE (cap := if (if b.size < 1024 then 2 * (b.size + k) else 5 * (b.size + k) / 4) > 65536 then 65536
      else (if b.size < 1024 then 2 * (b.size + k) else 5 * (b.size + k) / 4)) (by split <;> split <;> omega)
    refine ⟨b', e, h1, ?_⟩
    rw [h2]
    split <;> split <;> omega
  · exact ⟨b, rfl, h, by omega⟩

theorem RQ.key {b : RaBuf} {A B : Bitmap} {p : Nat × Container} (h : RQ Q b (A ++ p :: B)) (hl : A.length < 65536) :
    raKeyBuf b A.length = .ok p.1 := by
  obtain ⟨⟨c, h1, _⟩, _⟩ := cellsAt_cons.1 (cellsAt_append.1 h.cells).2
  rw [raKeyBuf, Nat.mod_eq_of_lt hl, cellAt_eq (by simpa using h1), ok_bind]

theorem RQ.cont {b : RaBuf} {A B : Bitmap} {p : Nat × Container} (h : RQ Q b (A ++ p :: B)) (hl : A.length < 65536) :
    ∃ c, raContBuf b A.length = .ok c ∧ Q p.1 c p.2 := by
  obtain ⟨⟨c, h1, h2⟩, _⟩ := cellsAt_cons.1 (cellsAt_append.1 h.cells).2
  refine ⟨c, ?_, h2⟩
  rw [raContBuf, Nat.mod_eq_of_lt hl, cellAt_eq (by simpa using h1), ok_bind]

theorem RQ.lt {b : RaBuf} {A B : Bitmap} {p : Nat × Container} (h : RQ Q b (A ++ p :: B)) : A.length < b.mem.length := by
  have := h.size
  have := h.le
  simp at *
  omega

theorem RQ.set {b : RaBuf} {A B : Bitmap} {p : Nat × Container} (h : RQ Q b (A ++ p :: B)) {o : CBuf} {c : Container} (hc : Q p.1 o c) :
    ∃ b', raSetBuf b A.length o = .ok b' ∧ RQ Q b' (A ++ (p.1, c) :: B) ∧ b'.mem.length = b.mem.length := by
  have hl := h.lt
  obtain ⟨hA, hB⟩ := cellsAt_append.1 h.cells
  obtain ⟨⟨c0, h1, h2⟩, h3⟩ := cellsAt_cons.1 hB
  have h1' : b.mem[A.length]? = some (p.1, c0) := by simpa using h1
  rw [raSetBuf, cellAt_eq h1', ok_bind, setCell_eq hl, ok_bind]
  refine ⟨_, rfl, ⟨by simpa using h.size, by simpa using h.le, cellsAt_append.2 ⟨hA.set_ne (by omega) _, ?_⟩⟩, by simp⟩
  simp only [Nat.zero_add] at *
  exact CellsAt.set_here hl h3 hc rfl

theorem RQ.append (hE : RbEnvOK E) {b : RaBuf} {r : Bitmap} (h : RQ Q b r) (hr : r.length < 65536) {k : Nat} {o : CBuf} {c : Container}
    (hc : Q k o c) : ∃ b', raAppendBuf E b k o = .ok b' ∧ RQ Q b' (r ++ [(k, c)]) := by
  obtain ⟨b1, e1, h1, h2⟩ := h.extend hE (k := 1) (by omega)
  have hs := h1.size
  rw [raAppendBuf, e1, ok_bind, setCell_eq (by omega), ok_bind]
  refine ⟨_, rfl, ⟨by simp [hs], by simp [hs]; omega, cellsAt_append.2 ⟨h1.cells.set_ne (by omega) _, ?_⟩⟩⟩
  rw [hs, Nat.zero_add]
  exact CellsAt.set_here (by omega) (cellsAt_nil _ _) hc rfl

theorem RQ.insert (hE : RbEnvOK E) {b : RaBuf} {A B : Bitmap} (h : RQ Q b (A ++ B)) (hr : (A ++ B).length < 65536) {k : Nat} {o : CBuf}
    {c : Container} (hc : Q k o c) : ∃ b', raInsertBuf E b A.length k o = .ok b' ∧ RQ Q b' (A ++ (k, c) :: B) := by
  obtain ⟨b1, e1, h1, h2⟩ := h.extend hE (k := 1) (by omega)
  have hs := h1.size
  simp only [List.length_append] at hs h2
  rw [raInsertBuf, e1, ok_bind]
  obtain ⟨m, e2, hl, hm1, hm2, hm3⟩ := moveCells_spec (mem := b1.mem) (dst := A.length + 1) (src := A.length) (n := b1.size - A.length)
    (by omega) (by omega)
  obtain ⟨hA, hB⟩ := cellsAt_append.1 h1.cells
  rw [e2, ok_bind, setCell_eq (by omega), ok_bind]
  refine ⟨_, rfl, ⟨by simp [hs]; omega, by simp [hs]; omega, cellsAt_append.2 ⟨?_, ?_⟩⟩⟩
  · refine CellsAt.set_ne ?_ (by omega) _
    exact hA.congr fun j hj => by simpa using hm2 j (by omega)
  · rw [Nat.zero_add] at *
    refine CellsAt.set_here (by omega) ?_ hc rfl
    exact hB.congr fun j hj => hm1 j (by omega)

theorem RQ.remove {b : RaBuf} {A B : Bitmap} {p : Nat × Container} (h : RQ Q b (A ++ p :: B)) :
    ∃ b', raRemoveBuf b A.length = .ok b' ∧ RQ Q b' (A ++ B) ∧ b'.mem.length = b.mem.length := by
  have hs := h.size
  have hle := h.le
  simp only [List.length_append, List.length_cons] at hs
  obtain ⟨hA, hB⟩ := cellsAt_append.1 h.cells
  obtain ⟨m, e2, hl, hm1, hm2, hm3⟩ := moveCells_spec (mem := b.mem) (dst := A.length) (src := A.length + 1) (n := b.size - A.length - 1)
    (by omega) (by omega)
  rw [raRemoveBuf, e2, ok_bind]
  refine ⟨_, rfl, ⟨by simp [hs], by simp [hs]; omega, cellsAt_append.2 ⟨?_, ?_⟩⟩, by simpa using hl⟩
  · exact hA.congr fun j hj => by simpa using hm2 j (by omega)
  · rw [Nat.zero_add] at *
    exact (cellsAt_cons.1 hB).2.congr fun j hj => hm1 j (by omega)

theorem RQ.keys {b : RaBuf} {r : Bitmap} (h : RQ Q b r) : raKeysBuf b = .ok (keysOf r) := by
  have hs := h.size
  have hle := h.le
  rw [raKeysBuf, if_pos h.le]
  congr 1
  apply List.ext_getElem?
  intro j
  simp only [keysOf, List.getElem?_map, List.getElem?_take]
  by_cases hj : j < b.size
  · rw [if_pos hj]
    have hj' : j < r.length := by omega
    obtain ⟨c, h1, _⟩ := h.cells j r[j] (by simp [hj'])
    rw [Nat.zero_add] at h1
    simp [h1, hj']
  · rw [if_neg hj, List.getElem?_eq_none (by omega)]
    rfl

theorem RQ.index {b : RaBuf} {r : Bitmap} (h : RQ Q b r) (x : Nat) : raGetIndexBuf b x = .ok (raGetIndex r x) := by
  rw [raGetIndexBuf, h.keys, ok_bind, raGetIndex, h.size]

theorem RQ.advance {P : Container → Prop} {b : RaBuf} {A B : Bitmap} {k x : Nat} {c : Container} (h : RQ Q b (A ++ (k, c) :: B))
    (hp : BP P (A ++ (k, c) :: B)) (hk : k < x) :
    ∃ C D, (k, c) :: B = C ++ D ∧ D = dropLt x ((k, c) :: B) ∧ D = dropLt x B ∧ raAdvanceUntilBuf b x A.length = .ok (A.length + C.length) ∧
      0 < C.length ∧ ∀ p ∈ C, p.1 < x := by
  obtain ⟨C, e, hC⟩ := dropLt_suffix x ((k, c) :: B)
  obtain ⟨C', D', e', hC', hD'⟩ := bp_exists_split (bp_append.1 hp).2.1 x
  have hD : dropLt x ((k, c) :: B) = D' := by rw [e']; exact dropLt_split hC' hD'
  have hcons : dropLt x ((k, c) :: B) = dropLt x B := by simp [dropLt, hk]
  have hpos : 0 < C'.length := by
    cases C' with
    | nil =>
      simp at e'
      have := hD' (k, c) (by simp [← e'])
      simp at this
      omega
    | cons _ _ => simp
  refine ⟨C', D', e', hD.symm, by rw [← hD, hcons], ?_, hpos, hC'⟩
  rw [raAdvanceUntilBuf, h.keys, ok_bind]
  have hl : b.size = (keysOf (A ++ (k, c) :: B)).length := by rw [h.size]; simp [keysOf]
  rw [hl, advanceUntil_list hp.sorted, e', ← List.append_assoc, lb_keys_split _ hD']
  · congr 1
    simp
    omega
  · intro p hp'
    rcases List.mem_append.1 hp' with h1 | h1
    · have := (bp_append.1 hp).2.2 p h1 (k, c) (by simp)
      simp at this
      omega
    · exact hC' p h1

end CRoaring
