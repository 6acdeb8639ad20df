import Verif.Model.Alloc
import Mathlib.Data.List.Forall2

/-! What it means that a bitmap is stored in memory, and that a call gave a new bitmap or nothing at all.  The only
definitions of the model used here are those of the memory and of the blocks. -/

namespace CRoaring

/-- No address at or above the bound is in use. -/
def Mem.Bounded (m : Mem) : Prop := ∀ x, m.next ≤ x → m.live x = none

/-- The elements of the buffer of a container. -/
def payload : Container → List Val
  | .array l => l.map .u
  | .run rs => rs.map .r
  | .bitset b => b.words.map .w

/-- `cardinality` of an array or bitset container, `n_runs` of a run container. -/
def ccountOf : Container → Int
  | .array l => l.length
  | .run rs => rs.length
  | .bitset b => b.card

/-- Where a container lies: its struct and its buffer. -/
structure CRec where
  addr : Nat
  data : Option Nat

/-- The blocks of a container. -/
def CRec.blocks (r : CRec) : List Nat := r.addr :: r.data.toList

/-- The container `c` is stored at `r`: its struct, and the buffer with the elements at the front. -/
def HoldsC (m : Mem) (r : CRec) (c : Container) : Prop :=
  ∃ cap rest, m.live r.addr = some (.cont (typecode c) (ccountOf c) cap r.data) ∧
    cap = (payload c).length + List.length rest ∧
    (∀ d, r.data = some d → m.live d = some (.data ((payload c).map some ++ rest))) ∧
    (r.data = none → cap = 0) ∧
    (∀ b, c = .bitset b → b.words.length = NWORDS)

/-- The bitmap `b` is stored at `p`, with `alloc` places in the arrays at `buf` and its containers at `rs`.  All its
blocks are different. -/
structure HoldsB (m : Mem) (p : Nat) (b : Bitmap) (cow : Bool) (alloc : Nat) (buf : Option Nat) (rs : List CRec) : Prop where
  hdr : m.live p = some (.bitmap ⟨b.length, alloc, buf, cow⟩)
  room : b.length ≤ alloc
  slots : ∀ q, buf = some q → ∃ s, m.live q = some (.slots s) ∧
    s.conts.length = alloc ∧ s.keys.length = alloc ∧ s.types.length = alloc ∧
    s.conts.take b.length = rs.map (fun r => some (some r.addr)) ∧
    s.keys.take b.length = b.map (fun e => some e.1) ∧
    s.types.take b.length = b.map (fun e => some (typecode e.2))
  nobuf : buf = none → alloc = 0
  conts : List.Forall₂ (HoldsC m) rs (b.map (·.2))
  nodup : (p :: (buf.toList ++ rs.flatMap CRec.blocks)).Nodup

/-- The blocks of a stored bitmap. -/
def bmBlocks (p : Nat) (buf : Option Nat) (rs : List CRec) : List Nat := p :: (buf.toList ++ rs.flatMap CRec.blocks)

/-- The bitmap `b` is stored at `p`; none of its containers is shared. -/
def Stored (m : Mem) (p : Nat) (b : Bitmap) (cow : Bool) : Prop := ∃ alloc buf rs, HoldsB m p b cow alloc buf rs

/-- Some request between the memory `m` and the memory `m'` was refused. -/
def Refused (ok : Nat → Bool) (m m' : Mem) : Prop := ∃ n, m.calls ≤ n ∧ n < m'.calls ∧ ok n = false

/-- From `m` to `m'` nothing changed but that there is a new bitmap `b` at `p`; releasing it gives exactly the blocks
there were before. -/
def NewBitmap (m m' : Mem) (p : Nat) (b : Bitmap) : Prop :=
  Stored m' p b false ∧ (∀ x, m.live x ≠ none → m'.live x = m.live x) ∧
    ∃ m'', freeBitmapA p m' = some m'' ∧ m''.live = m.live

/-- The first four bytes say that no container is a run container. -/
def NoRunCookie (bytes : List UInt8) : Prop := ∀ c, readLE bytes 0 4 = .ok c → c % 65536 ≠ COOKIE

/-! ### Histories -/

/-- A call of the API.  Bitmaps are named by their position in the list of those that were not released yet; `shrink`
is the part of `roaring_bitmap_shrink_to_fit` that is about the arrays of the bitmap. -/
inductive ACall where
  | create (cap : Nat)
  | copy (i : Nat)
  | read (bytes : List UInt8)
  | shrink (i : Nat)
  | free (i : Nat)

/-- Make the call.  A null pointer that is returned is forgotten. -/
def ACall.run (ok : Nat → Bool) (c : ACall) (st : List Nat × Mem) : Option (List Nat × Mem) :=
  match c with
  | .create cap => (createA ok cap st.2).map (fun x => (st.1 ++ x.1.toList, x.2))
  | .copy i => match st.1[i]? with
    | none => some st
    | some p => (copyA ok p st.2).map (fun x => (st.1 ++ x.1.toList, x.2))
  | .read bytes => (deserA ok bytes 0 bytes.length st.2).map (fun x => (st.1 ++ x.1.toList, x.2))
  | .shrink i => match st.1[i]? with
    | none => some st
    | some p => (raShrinkA ok p st.2).map (fun x => (st.1, x.2))
  | .free i => match st.1[i]? with
    | none => some st
    | some p => (freeBitmapA p st.2).map (fun m => (st.1.eraseIdx i, m))

/-- All calls, one after the other. -/
def runCalls (ok : Nat → Bool) : List ACall → List Nat × Mem → Option (List Nat × Mem)
  | [], st => some st
  | c :: cs, st => (c.run ok st).bind (runCalls ok cs)

/-- What a call does to the bitmaps if there is memory. -/
def ACall.effect (c : ACall) (bs : List Bitmap) : List Bitmap :=
  match c with
  | .create _ => bs ++ [[]]
  | .copy i => bs ++ bs[i]?.toList
  | .read bytes => match rbPortableDeserializeSafe bytes 0 bytes.length with
    | .ok b => bs ++ [b]
    | _ => bs
  | .shrink _ => bs
  | .free i => bs.eraseIdx i

/-- Every call had its effect, or none at all because a request for memory was refused. -/
inductive Did : List ACall → List Bitmap → List Bitmap → Prop
  | nil (bs : List Bitmap) : Did [] bs bs
  | done {c : ACall} {cs : List ACall} {bs bs' : List Bitmap} (h : Did cs (c.effect bs) bs') : Did (c :: cs) bs bs'
  | refused {c : ACall} {cs : List ACall} {bs bs' : List Bitmap} (hc : ∀ i, c ≠ .free i) (h : Did cs bs bs') : Did (c :: cs) bs bs'

/-- Release all bitmaps. -/
def freeAll : List Nat → Mem → Option Mem
  | [], m => some m
  | p :: ps, m => (freeBitmapA p m).bind (freeAll ps)

/-- `n` copies with copy-on-write, one after the other, of what is in a slot of a bitmap. -/
def shareTimes (ok : Nat → Bool) : Nat → Option Nat × Nat → Mem → Option ((Option Nat × Nat) × Mem)
  | 0, s, m => some (s, m)
  | n + 1, s, m => (shareA ok s.1 s.2 m).bind (fun x => shareTimes ok n x.1 x.2)

/-- `n` releases of what is in a slot. -/
def freeTimes : Nat → Option Nat × Nat → Mem → Option Mem
  | 0, _, m => some m
  | n + 1, s, m => (freeA s.1 s.2 m).bind (freeTimes n s)

end CRoaring
