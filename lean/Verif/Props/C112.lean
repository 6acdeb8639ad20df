import Verif.Lemmas.Alloc8
/-!
C112: when memory runs out.

The memory of the model is a map from addresses to blocks; `ok n` says whether the `n`-th request for memory is granted, and all theorems
hold for every such schedule.  An outcome `none` of a modelled function is undefined behaviour: a null pointer or a released block was
used, memory was released twice, or something outside of a block was touched.

`roaring_bitmap_create_with_capacity`, `roaring_bitmap_copy` and `roaring_bitmap_portable_deserialize_safe` may return NULL,
`roaring_bitmap_overwrite` false.  If they do because memory ran out, then nothing must be lost: memory is as it was before the call
(`m'.live = m.live`: all blocks that were there, no others), and the bitmaps given to the call are as they were.
-/
namespace CRoaring.Props

/-- A memory with one bitmap, {5}, at address 0. -/
def demoMem (cow : Bool) : Mem :=
  ⟨4, 0, fun x => if x = 0 then some (.bitmap ⟨1, 1, some 1, cow⟩) else if x = 1 then some (.slots ⟨[some (some 2)], [some 0], [some 2]⟩)
    else if x = 2 then some (.cont ARRAY_TYPE 1 2 (some 3)) else if x = 3 then some (.data [some (.u 5), none]) else none⟩

theorem demoMem_bounded (cow : Bool) : (demoMem cow).Bounded := by
  intro x hx
  simp only [demoMem] at hx ⊢
  simp [show x ≠ 0 by omega, show x ≠ 1 by omega, show x ≠ 2 by omega, show x ≠ 3 by omega]

theorem demoMem_holds (cow : Bool) : HoldsB (demoMem cow) 0 [(0, .array [5])] cow 1 (some 1) [⟨2, some 3⟩] := by
  refine ⟨rfl, by decide, ?_, by simp, ?_, by decide⟩
  · intro q hq
    cases hq
    exact ⟨_, rfl, rfl, rfl, rfl, rfl, rfl, rfl⟩
  · refine .cons ⟨2, [none], rfl, rfl, ?_, by simp, by simp⟩ .nil
    intro d hd
    cases hd
    rfl

/-- `roaring_bitmap_create_with_capacity` returns NULL exactly if a request was refused, and then memory is as before; otherwise it
gives a new empty bitmap. -/
theorem C112_create {m : Mem} (hm : m.Bounded) (ok : Nat → Bool) (cap : Nat) :
    ∃ r m', createA ok cap m = some (r, m') ∧ (r = none ↔ Refused ok m m') ∧ (r = none → m'.live = m.live) ∧
      ∀ p, r = some p → NewBitmap m m' p [] :=
  madeB_new (createA_spec cap (Owns.init hm) ok)

/-- `roaring_bitmap_copy` of a bitmap without copy-on-write returns NULL exactly if a request was refused, and then memory is as before;
otherwise it gives a new bitmap with the same containers, and the source is as it was.

The full property is about all bitmaps; with copy-on-write it is false (`C112_copy_cow_false`). -/
theorem C112_copy_partial {m : Mem} (hm : m.Bounded) (ok : Nat → Bool) {src : Nat} {b : Bitmap} (hs : Stored m src b false)
    (hl : b.length ≤ 65536) :
    ∃ r m', copyA ok src m = some (r, m') ∧ (r = none ↔ Refused ok m m') ∧ (r = none → m'.live = m.live) ∧
      ∀ p, r = some p → NewBitmap m m' p b := by
  obtain ⟨alloc, buf, rs, h⟩ := hs
  exact madeB_new (copyA_spec h hl ok (Owns.init hm))

example (ok : Nat → Bool) : ∃ r m', copyA ok 0 (demoMem false) = some (r, m') ∧ (r = none ↔ Refused ok (demoMem false) m') ∧
    (r = none → m'.live = (demoMem false).live) ∧ ∀ p, r = some p → NewBitmap (demoMem false) m' p [(0, .array [5])] :=
  C112_copy_partial (demoMem_bounded _) ok ⟨_, _, _, demoMem_holds false⟩ (by decide)

/-- With copy-on-write `roaring_bitmap_copy` does not notice that a request was refused: it returns a bitmap, and the container is lost
from the copy and from the source, which was only to be read.  Releasing both leaves the blocks of the container behind. -/
theorem C112_copy_cow_false : ∃ (m : Mem) (ok : Nat → Bool) (b : Bitmap), m.Bounded ∧ Stored m 0 b true ∧ b ≠ [] ∧
    ∃ p m', copyA ok 0 m = some (some p, m') ∧ Refused ok m m' ∧
      slotAtA m' 0 0 = some (none, ARRAY_TYPE) ∧ slotAtA m' p 0 = some (none, ARRAY_TYPE) ∧
      (∀ b' cow, ¬ Stored m' 0 b' cow) ∧
      ∃ m'', freeAll [0, p] m' = some m'' ∧ m''.live 2 ≠ none := by
  refine ⟨demoMem true, fun n => n != 2, [(0, .array [5])], demoMem_bounded _, ⟨_, _, _, demoMem_holds true⟩, by simp, 4, _, rfl, ?_, rfl, rfl, ?_, _, rfl, ?_⟩
  · exact ⟨2, by decide, by decide, by decide⟩
  · rintro b' cow ⟨alloc, buf, rs, h⟩
    have h1 := h.hdr
    have h2 : (some (MBlk.bitmap ⟨1, 1, some 1, true⟩) : Option MBlk) = some (.bitmap ⟨b'.length, alloc, buf, cow⟩) := h1
    simp only [Option.some.injEq, MBlk.bitmap.injEq, RaHdr.mk.injEq] at h2
    obtain ⟨e1, e2, e3, e4⟩ := h2
    obtain ⟨s, g1, g2, g3, g4, g5, _⟩ := h.slots 1 e3.symm
    have h3 : (some (MBlk.slots ⟨[some none], [some 0], [some 2]⟩) : Option MBlk) = some (.slots s) := g1
    simp only [Option.some.injEq, MBlk.slots.injEq] at h3
    subst h3
    rw [← e1] at g5
    cases rs with
    | nil => simp at g5
    | cons r rs => simp at g5
  · simp [demoMem, Mem.set]

/-- `roaring_bitmap_overwrite(dest, src)` of bitmaps without copy-on-write: it returns true exactly if no request was refused, and then
`dest` holds what `src` holds; otherwise `dest` is valid and empty.  The source and all other blocks are as they were.  This is so if the
arrays of `dest` are large enough or can be replaced, or `dest` was empty.

Missing is the other case, in which it is false: `C112_overwrite_false`. -/
theorem C112_overwrite_partial {m : Mem} (hm : m.Bounded) (ok : Nat → Bool) {src dest : Nat} {b bd : Bitmap} {cow : Bool} {a1 a2 : Nat}
    {q1 q2 : Option Nat} {rs1 rs2 : List CRec} (hs : HoldsB m src b false a1 q1 rs1) (hd : HoldsB m dest bd cow a2 q2 rs2)
    (hdis : ∀ x ∈ bmBlocks src q1 rs1, x ∉ bmBlocks dest q2 rs2) (hr : b.length ≤ a2 ∨ ok m.calls = true ∨ bd = []) :
    ∃ r m', overwriteA ok dest src m = some (r, m') ∧ (r = false ↔ Refused ok m m') ∧ Stored m' dest (if r then b else []) false ∧
      (∀ x, m.live x ≠ none → x ∉ bmBlocks dest q2 rs2 → m'.live x = m.live x) ∧
      ∃ m'', freeBitmapA dest m' = some m'' ∧ ∀ x, m''.live x = if x ∈ bmBlocks dest q2 rs2 then none else m.live x := by
  have fin : ∀ {m' : Mem} {b' : Bitmap} {al : Nat} {q : Option Nat} {rs : List CRec}, Owns (blkLess m (bmBlocks dest q2 rs2)).live m' (bmBlocks dest q rs ++ []) →
      HoldsB m' dest b' false al q rs → (∀ x, m.live x ≠ none → x ∉ bmBlocks dest q2 rs2 → m'.live x = m.live x) ∧
      ∃ m'', freeBitmapA dest m' = some m'' ∧ ∀ x, m''.live x = if x ∈ bmBlocks dest q2 rs2 then none else m.live x := by
    intro m' b' al q rs hi hh
    refine ⟨fun x hx hn => ?_, ?_⟩
    · have := hi.keep (x := x) (by simpa [blkLess, hn] using hx)
      simpa [blkLess, hn] using this
    · obtain ⟨m2, e2, i2, _⟩ := freeBitmapA_spec hh hi
      exact ⟨m2, e2, fun x => by rw [i2.nil]; rfl⟩
  rcases overwriteA_spec hm ok hs hd hdis with ⟨m', x1, x2, x3, x4, x5⟩ | ⟨m', buf', al', rs, x1, x2, x3, x4, x5⟩ | ⟨m', x1, x2, x3, x4, x5, x6, x7⟩
  · have hh : HoldsB m' dest [] false 0 none [] := holdsB_empty x3 (by simp) (by simp)
    exact ⟨false, m', x1, by simpa using x4, ⟨_, _, _, hh⟩, fin (by simpa [bmBlocks] using x2) hh⟩
  · exact ⟨true, m', x1, by simpa using x3.not_refused, ⟨_, _, _, x4⟩, fin x2 x4⟩
  · rcases hr with hr | hr | hr
    · omega
    · rw [hr] at x6; cases x6
    · subst hr
      have hh : HoldsB m' dest [] false a2 q2 [] := by
        refine ⟨x4, by simp, ?_, hd.nobuf, by simp, ?_⟩
        · intro q hq
          obtain ⟨s, g1, g2, g3, g4, _⟩ := hd.slots q hq
          exact ⟨s, by rw [x7 q hq, g1], g2, g3, g4, by simp, by simp, by simp⟩
        · simpa using x3.nodup
      have hrs : rs2 = [] := by
        have := hd.conts.length_eq
        exact List.eq_nil_of_length_eq_zero (by simpa using this)
      exact ⟨false, m', x1, by simpa using x5, ⟨_, _, _, hh⟩, fin (by simpa [bmBlocks] using x3) hh⟩

/-- Otherwise, whatever the bitmaps: if the arrays of a `dest` that is not empty are too small and the request for larger ones is
refused, then `roaring_bitmap_overwrite` returns false and leaves `dest` with pointers to its old containers, which have been released.
It is not a valid bitmap, and releasing it is undefined behaviour. -/
theorem C112_overwrite_false {m : Mem} (hm : m.Bounded) (ok : Nat → Bool) {src dest : Nat} {b bd : Bitmap} {cow : Bool} {a1 a2 : Nat}
    {q1 q2 : Option Nat} {rs1 rs2 : List CRec} (hs : HoldsB m src b false a1 q1 rs1) (hd : HoldsB m dest bd cow a2 q2 rs2)
    (hdis : ∀ x ∈ bmBlocks src q1 rs1, x ∉ bmBlocks dest q2 rs2) (h1 : a2 < b.length) (h2 : ok m.calls = false) (h3 : bd ≠ []) :
    ∃ m', overwriteA ok dest src m = some (false, m') ∧ (∀ b' cow', ¬ Stored m' dest b' cow') ∧ freeBitmapA dest m' = none := by
  rcases overwriteA_spec hm ok hs hd hdis with ⟨m', x1, x2, x3, x4, x5⟩ | ⟨m', buf', al', rs, x1, x2, x3, x4, x5⟩ | ⟨m', x1, x2, x3, x4, x5, x6, x7⟩
  · rw [x5 h1] at h2; cases h2
  · rw [x5 h1] at h2; cases h2
  · have hlen := hd.conts.length_eq
    have hpos : 0 < bd.length := List.length_pos_of_ne_nil h3
    cases hq : q2 with
    | none => have := hd.nobuf hq; have := hd.room; omega
    | some q =>
      obtain ⟨s, g1, g2, g3, g4, g5, g6, g7⟩ := hd.slots q hq
      obtain ⟨e, t, hbd⟩ : ∃ e t, bd = e :: t := by cases bd with | nil => simp at hpos | cons e t => exact ⟨e, t, rfl⟩
      obtain ⟨r, rt, hrs⟩ : ∃ r rt, rs2 = r :: rt := by
        cases rs2 with
        | nil => rw [hbd] at hlen; simp at hlen
        | cons r rt => exact ⟨r, rt, rfl⟩
      have c1 : s.conts[0]? = some (some (some r.addr)) := take_getA g5 (by rw [hrs]; rfl)
      have c2 : s.types[0]? = some (some (typecode e.2)) := take_getA g7 (by rw [hbd]; rfl)
      have hmem : r.addr ∈ bmBlocks dest q2 rs2 := by simp [bmBlocks, hrs, CRec.blocks]
      have hdead : m'.live r.addr = none := by
        rw [x3.frame r.addr]
        · simp [blkLess, hmem]
        · intro w
          have := hd.nodup
          rw [hrs] at this
          simp only [List.append_nil, List.mem_cons] at w
          rcases w with w | w
          · exact (List.nodup_cons.1 this).1 (by simp [CRec.blocks, ← w])
          · exact (List.nodup_append.1 (List.nodup_cons.1 this).2).2.2 r.addr w r.addr (by simp [CRec.blocks]) rfl
      have hfree := freeBitmapA_dangling x4 hpos hq (by rw [x7 q hq, g1]) c1 c2 hdead
      refine ⟨m', x1, ?_, hfree⟩
      rintro b' cow' ⟨al, qq, rr, hh⟩
      have hbm : m'.Bounded := x3.bnd
      obtain ⟨m2, e2, _⟩ := freeBitmapA_spec hh (owns_blkLess hbm hh)
      rw [hfree] at e2
      cases e2

/-- Both situations occur: a source of two containers, and a destination with room for one. -/
example : ∃ (m : Mem) (src dest : Nat) (b bd : Bitmap) (cow : Bool) (a1 a2 : Nat) (q1 q2 : Option Nat) (rs1 rs2 : List CRec), m.Bounded ∧
    HoldsB m src b false a1 q1 rs1 ∧ HoldsB m dest bd cow a2 q2 rs2 ∧ (∀ x ∈ bmBlocks src q1 rs1, x ∉ bmBlocks dest q2 rs2) ∧
    a2 < b.length ∧ bd ≠ [] := by
  let m : Mem := ⟨9, 0, fun x => if x < 4 then (demoMem false).live x else if x = 4 then some (.bitmap ⟨2, 2, some 5, false⟩)
    else if x = 5 then some (.slots ⟨[some (some 6), some (some 7)], [some 0, some 3], [some 3, some 2]⟩)
    else if x = 6 then some (.cont RUN_TYPE 0 0 none) else if x = 7 then some (.cont ARRAY_TYPE 1 1 (some 8))
    else if x = 8 then some (.data [some (.u 9)]) else none⟩
  refine ⟨m, 4, 0, [(0, .run []), (3, .array [9])], [(0, .array [5])], false, 2, 1, some 5, some 1, [⟨6, none⟩, ⟨7, some 8⟩], [⟨2, some 3⟩], ?_, ?_, ?_, by decide, by decide, by simp⟩
  · intro x hx
    simp only [m] at hx ⊢
    simp [show ¬ x < 4 by omega, show x ≠ 4 by omega, show x ≠ 5 by omega, show x ≠ 6 by omega, show x ≠ 7 by omega, show x ≠ 8 by omega]
  · refine ⟨rfl, by decide, ?_, by simp, ?_, by decide⟩
    · intro q hq
      cases hq
      exact ⟨_, rfl, rfl, rfl, rfl, rfl, rfl, rfl⟩
    · refine .cons ⟨0, [], rfl, rfl, by simp, by simp, by simp⟩ (.cons ⟨1, [], rfl, rfl, ?_, by simp, by simp⟩ .nil)
      intro d hd
      cases hd
      rfl
  · exact holdsB_same (demoMem_holds false) (by intro x hx; simp [bmBlocks, CRec.blocks] at hx; rcases hx with rfl | rfl | rfl | rfl <;> rfl)

/-- `roaring_bitmap_portable_deserialize_safe` of bytes that say that there are no run containers, or with memory for every request: it
returns NULL exactly if the bytes are refused or a request was, and then memory is as before; otherwise it gives a new bitmap, the one
that the bytes stand for.

Missing are the bytes with run containers and refused requests, where it is false: `C112_read_false`. -/
theorem C112_read_partial {m : Mem} (hm : m.Bounded) (ok : Nat → Bool) (bytes : List UInt8) {n : Nat} (hn : n ≤ bytes.length)
    (hr : NoRunCookie bytes ∨ ∀ n, ok n = true) :
    ∃ r m', deserA ok bytes 0 n m = some (r, m') ∧ (r = none ↔ Refused ok m m' ∨ rbPortableDeserializeSafe bytes 0 n = .fail) ∧
      (r = none → m'.live = m.live) ∧
      ∀ p, r = some p → ∃ b, rbPortableDeserializeSafe bytes 0 n = .ok b ∧ NewBitmap m m' p b := by
  rcases deserA_spec (buf := bytes) (base := 0) (maxbytes := n) (by omega) ok (Owns.init hm) with
    ⟨e1, ⟨c, c1, c2⟩, j, _, j2⟩ | ⟨m1, e1, i1, _, r1⟩ | ⟨m1, p, alloc, buf', rs, b, e1, e2, h1, i1, _, g1, ha⟩
  · exfalso
    rcases hr with hr | hr
    · exact hr c c1 c2
    · rw [hr j] at j2; cases j2
  · refine ⟨none, m1, e1, ⟨fun _ => r1.imp id (fun w => w.2), fun _ => rfl⟩, fun _ => i1.nil, by simp⟩
  · refine ⟨some p, m1, e1, ⟨by simp, ?_⟩, by simp, ?_⟩
    · rintro (w | w)
      · exact absurd w g1.not_refused
      · rw [e2] at w; cases w
    · intro p' hp
      cases hp
      exact ⟨b, e2, newBitmap_of i1 h1⟩

/-- The bytes of the bitmap {5}. -/
example : NoRunCookie [58, 48, 0, 0, 1, 0, 0, 0, 0, 0, 0, 0, 16, 0, 0, 0, 5, 0] ∧
    rbPortableDeserializeSafe [58, 48, 0, 0, 1, 0, 0, 0, 0, 0, 0, 0, 16, 0, 0, 0, 5, 0] 0 18 = .ok [(0, .array [5])] := by
  refine ⟨?_, by decide⟩
  intro c hc
  have : readLE [58, 48, 0, 0, 1, 0, 0, 0, 0, 0, 0, 0, 16, 0, 0, 0, 5, 0] 0 4 = .ok 12346 := by decide
  rw [this] at hc
  cases hc
  decide

/-- The bytes of the bitmap {0, ..., 9}, one run.  If the fourth request is refused - the one for the runs - then
`roaring_bitmap_portable_deserialize_safe` writes through a null pointer. -/
theorem C112_read_false : ∃ (bytes : List UInt8) (m : Mem) (ok : Nat → Bool), rbPortableDeserializeSafe bytes 0 bytes.length = .ok [(0, .run [(0, 9)])] ∧
    m.Bounded ∧ deserA ok bytes 0 bytes.length m = none := by
  refine ⟨[59, 48, 0, 0, 1, 0, 0, 9, 0, 1, 0, 0, 0, 9, 0], ⟨0, 0, fun _ => none⟩, fun n => n != 3, by decide, fun _ _ => rfl, by rfl⟩

/-- A new key in a bitmap (`roaring_bitmap_add` and all functions that add containers): the arrays of the bitmap are written outside of
their bounds exactly if they are full and the request for larger ones is refused, because the failure of `extend_array` is not looked at.
In all other cases the container is in its place. -/
theorem C112_insert {m : Mem} (hm : m.Bounded) (ok : Nat → Bool) {p i key : Nat} {b : Bitmap} {cow : Bool} {alloc : Nat} {buf : Option Nat}
    {rs : List CRec} {r : CRec} {c : Container} (h : HoldsB m p b cow alloc buf rs) (hc : HoldsC m r c) (hr : r.blocks.Nodup)
    (hdis : ∀ x ∈ r.blocks, x ∉ bmBlocks p buf rs) (hb : b.length < 65536) (hi : i ≤ b.length) :
    (insertKeyA ok p i key (some r.addr) (typecode c) m = none ↔ alloc = b.length ∧ ok m.calls = false) ∧
    ∀ m', insertKeyA ok p i key (some r.addr) (typecode c) m = some m' → Stored m' p (b.take i ++ (key, c) :: b.drop i) cow := by
  have hlt : ∀ x ∈ bmBlocks p buf rs ++ (r.blocks ++ []), m.live x ≠ none := by
    intro x hx
    simp only [List.append_nil, List.mem_append] at hx
    rcases hx with hx | hx
    · exact holdsB_live h x hx
    · exact holdsC_live hc x hx
  have hinv : Owns (blkLess m (bmBlocks p buf rs ++ (r.blocks ++ []))).live m (bmBlocks p buf rs ++ (r.blocks ++ [])) := by
    refine ⟨fun x hx => by rw [blkLess]; simp only; rw [if_neg hx], fun x hx => ⟨by rw [blkLess]; simp only; rw [if_pos hx], ?_⟩, hm, ?_⟩
    · by_contra hn
      exact hlt x hx (hm x (by omega))
    · rw [List.append_nil, List.nodup_append]
      exact ⟨h.nodup, hr, fun a ha b hb e => hdis b hb (e ▸ ha)⟩
  rcases insertKeyA_spec (key := key) (i := i) ok h hc hinv hb hi with ⟨e1, e2, e3⟩ | ⟨m', al, q, e1, e2, e3, _⟩
  · exact ⟨⟨fun _ => ⟨e2, e3⟩, fun _ => e1⟩, fun m' w => by rw [e1] at w; cases w⟩
  · refine ⟨⟨fun w => (by rw [e1] at w; cases w), fun w => (by have := e2 w.1; rw [w.2] at this; cases this)⟩, fun m'' w => ?_⟩
    rw [e1] at w
    cases w
    exact ⟨_, _, _, e3⟩

/-- The same for a key behind all others, with `ra_append`. -/
theorem C112_append {m : Mem} (hm : m.Bounded) (ok : Nat → Bool) {p key : Nat} {b : Bitmap} {cow : Bool} {alloc : Nat} {buf : Option Nat}
    {rs : List CRec} {r : CRec} {c : Container} (h : HoldsB m p b cow alloc buf rs) (hc : HoldsC m r c) (hr : r.blocks.Nodup)
    (hdis : ∀ x ∈ r.blocks, x ∉ bmBlocks p buf rs) (hb : b.length < 65536) :
    (appendKeyA ok p key (some r.addr) (typecode c) m = none ↔ alloc = b.length ∧ ok m.calls = false) ∧
    ∀ m', appendKeyA ok p key (some r.addr) (typecode c) m = some m' → Stored m' p (b ++ [(key, c)]) cow := by
  rw [appendKeyA_eq ok h (owns_blkLess hm h) hb]
  have := C112_insert (key := key) hm ok h hc hr hdis hb (Nat.le_refl _)
  simpa using this

/-- A full bitmap and a container that is not in it. -/
example : ∃ (m : Mem) (p : Nat) (b : Bitmap) (cow : Bool) (alloc : Nat) (buf : Option Nat) (rs : List CRec) (r : CRec) (c : Container), m.Bounded ∧
    HoldsB m p b cow alloc buf rs ∧ HoldsC m r c ∧ r.blocks.Nodup ∧ (∀ x ∈ r.blocks, x ∉ bmBlocks p buf rs) ∧ b.length < 65536 ∧ alloc = b.length := by
  let m : Mem := ⟨5, 0, fun x => if x = 4 then some (.cont RUN_TYPE 0 0 none) else (demoMem false).live x⟩
  refine ⟨m, 0, [(0, .array [5])], false, 1, some 1, [⟨2, some 3⟩], ⟨4, none⟩, .run [], ?_, ?_, ⟨0, [], rfl, rfl, by simp, by simp, by simp⟩, by decide, by decide, by decide, rfl⟩
  · intro x hx
    simp only [m] at hx ⊢
    rw [if_neg (by omega)]
    exact demoMem_bounded false x (by simp only [demoMem]; omega)
  · exact holdsB_same (demoMem_holds false) (by intro x hx; simp [bmBlocks, CRec.blocks] at hx; rcases hx with rfl | rfl | rfl | rfl <;> rfl)

/-- Giving back the unused places of the arrays of a bitmap: whether the request is granted or not, the bitmap is what it was; the result
is the number of places given back. -/
theorem C112_shrink_array {m : Mem} (hm : m.Bounded) (ok : Nat → Bool) {p : Nat} {b : Bitmap} {cow : Bool} {alloc : Nat} {buf : Option Nat}
    {rs : List CRec} (h : HoldsB m p b cow alloc buf rs) :
    ∃ n m', raShrinkA ok p m = some (n, m') ∧ (∃ buf', HoldsB m' p b cow (alloc - n) buf' rs) ∧ (Refused ok m m' → n = 0 ∧ m'.live = m.live) ∧
      (¬ Refused ok m m' → alloc - n = b.length) := by
  have hroom := h.room
  rcases raShrinkA_spec ok h (owns_blkLess hm h) with ⟨m1, e1, l1, _, r1⟩ | ⟨m1, buf', e1, h1, _, g1, _⟩
  · exact ⟨0, m1, e1, ⟨buf, holdsB_same h (fun x _ => by rw [l1])⟩, fun _ => ⟨rfl, l1⟩, fun w => absurd r1 w⟩
  · refine ⟨alloc - b.length, m1, e1, ⟨buf', ?_⟩, fun w => absurd w g1.not_refused, fun _ => by omega⟩
    rw [show alloc - (alloc - b.length) = b.length by omega]
    exact h1

/-- Giving back the unused places of an array or run container (part of `roaring_bitmap_shrink_to_fit`): if the request is refused the
values of the container are lost, although there was enough memory before the call.  The container keeps its cardinality and has no
buffer. -/
theorem C112_shrink_container_false {m : Mem} (ok : Nat → Bool) {r : CRec} {c : Container} (hc : HoldsC m r c) (ht : ∀ b, c ≠ .bitset b)
    {cap : Nat} {d : Nat} (hd : r.data = some d) (hcap : m.live r.addr = some (.cont (typecode c) (ccountOf c) cap (some d)))
    (h0 : 0 < ccountOf c) (h1 : ccountOf c < cap) (h2 : ok m.calls = false) (hne : d ≠ r.addr) :
    ∃ m', contShrinkA ok r.addr m = some (cap - (ccountOf c).toNat, m') ∧
      m'.live r.addr = some (.cont (typecode c) (ccountOf c) (ccountOf c).toNat none) ∧ m'.live d = none ∧ ∀ x c', ¬ HoldsC m' ⟨r.addr, x⟩ c' := by
  obtain ⟨cap', rest, g1, g2, g3, g4, g5⟩ := hc
  rw [hcap] at g1
  simp only [Option.some.injEq, MBlk.cont.injEq, true_and] at g1
  have hcnt : ccountOf c = ((payload c).length : Int) := by
    cases c with
    | array l => simp [ccountOf, payload]
    | run l => simp [ccountOf, payload]
    | bitset b => exact absurd rfl (ht b)
  have hl : m.live d = some (.data ((payload c).map some ++ rest)) := g3 d hd
  have hn : (ccountOf c).toNat = (payload c).length := by omega
  have hz : (payload c).length ≠ 0 := by omega
  refine ⟨((m.set d none).set r.addr (some (.cont (typecode c) (ccountOf c) (ccountOf c).toNat none)) : Mem) |> fun m' => { m' with calls := m.calls + 1 }, ?_, ?_, ?_, ?_⟩
  · have e1 : ccountOf c ≠ (cap : Int) := by omega
    have e2 : ¬ ccountOf c ≤ 0 := by omega
    simp only [contShrinkA, hcap, e1, e2, if_false, Option.bind_eq_bind, loadVals, hn, hz, hl]
    rw [if_pos (by simp)]
    simp [malloc, h2, mfree, hl, Mem.set]
  · simp [Mem.set]
  · simp [Mem.set, hne]
  · rintro x c' ⟨cap2, rest2, k1, k2, k3, k4, k5⟩
    simp only [Mem.set, if_true, Option.some.injEq, MBlk.cont.injEq] at k1
    obtain ⟨t1, t2, t3, t4⟩ := k1
    have hz2 := k4 t4.symm
    omega

example : ∃ (r : CRec) (c : Container) (cap d : Nat), HoldsC (demoMem false) r c ∧ (∀ b, c ≠ .bitset b) ∧ r.data = some d ∧
    (demoMem false).live r.addr = some (.cont (typecode c) (ccountOf c) cap (some d)) ∧ 0 < ccountOf c ∧ ccountOf c < cap ∧ d ≠ r.addr := by
  refine ⟨⟨2, some 3⟩, .array [5], 2, 3, ?_, by simp, rfl, rfl, by decide, by decide, by decide⟩
  have := (demoMem_holds false).conts
  cases this with
  | cons h _ => exact h

end CRoaring.Props
