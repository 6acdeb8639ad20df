import Verif.Model.Serial
import Verif.Model.Frozen
import Verif.Model.ArrayMem
import Verif.Model.RunMem

/-! Model of the memory requests of the functions that create, copy, overwrite, read and release 32-bit bitmaps, when
any of the requests may be refused: `src/roaring_array.c:41-215, 272-290, 707-882`, `src/roaring.c:83-101, 491-527,
1502-1522`, `src/containers/containers.c:49-66, 169-250` and the functions of `src/containers/array.c`, `run.c` and
`bitset.c` that allocate.

Every block the C code requests is a block here: the `roaring_bitmap_t`, the one allocation that holds the array of
container pointers, the keys and the typecodes, the container, its buffer, and the `shared_container_t`.  The places
of a buffer that nothing was written to yet are `none`.  Addresses are never reused, so that every use of a released
block shows.  A schedule `ok : Nat → Bool` says which requests are granted, counted from the first; a refused request
gives the null pointer.  A function is `none` if the program would use a null pointer, a released block or a place
outside of a block, or release a block that is not allocated: undefined behaviour. -/

namespace CRoaring

/-- One element of the buffer of a container: `uint16_t`, `rle16_t` or `uint64_t`. -/
inductive Val where
  | u (n : Nat)
  | r (p : Rle)
  | w (x : Word)
deriving DecidableEq

/-- The allocation of the arrays `containers`, `keys` and `typecodes` of a `roaring_array_t`:
`src/roaring_array.c:56-66`, 91-96. -/
structure SlotBuf where
  conts : List (Option (Option Nat))
  keys : List (Option Nat)
  types : List (Option Nat)
deriving DecidableEq

/-- `roaring_array_t`: `include/roaring/roaring_array.h:40-47`; the three pointers are one, since the arrays are one
allocation.  Of the flags only `ROARING_FLAG_COW` is kept: the bitmaps here are not frozen. -/
structure RaHdr where
  size : Nat
  alloc : Nat
  buf : Option Nat
  cow : Bool
deriving DecidableEq

/-- An allocated block: a `roaring_bitmap_t`; the arrays of a `roaring_array_t`; an `array_container_t`,
`run_container_t` or `bitset_container_t` (`count` is `cardinality` or `n_runs`); a `shared_container_t`; the buffer
of a container. -/
inductive MBlk where
  | bitmap (h : RaHdr)
  | slots (s : SlotBuf)
  | cont (type : Nat) (count : Int) (cap : Nat) (data : Option Nat)
  | shared (inner : Option Nat) (type counter : Nat)
  | data (l : List (Option Val))
deriving DecidableEq

/-- The memory: a bound on the addresses in use, the number of requests so far, the allocated blocks. -/
structure Mem where
  next : Nat
  calls : Nat
  live : Nat → Option MBlk

/-- A write to the block at `a`, or its release. -/
def Mem.set (m : Mem) (a : Nat) (b : Option MBlk) : Mem := { m with live := fun x => if x = a then b else m.live x }

/-- `roaring_malloc`, `roaring_calloc`, `roaring_aligned_malloc`: `src/memory.c:48-62`.  A request for no bytes is
treated like the others. -/
def malloc (ok : Nat → Bool) (b : MBlk) (m : Mem) : Option Nat × Mem :=
  if ok m.calls then
    (some m.next, ⟨m.next + 1, m.calls + 1, fun x => if x = m.next then some b else m.live x⟩)
  else (none, { m with calls := m.calls + 1 })

/-- `roaring_free`, `roaring_aligned_free`: `src/memory.c:58`, 64; of a null pointer it does nothing. -/
def mfree (p : Option Nat) (m : Mem) : Option Mem :=
  match p with
  | none => some m
  | some a => if (m.live a).isSome then some (m.set a none) else none

/-- The buffer of `n` elements, nothing written. -/
def freshData (n : Nat) : MBlk := .data (List.replicate n none)

/-- `memcpy` of elements into the buffer `p`, from its start.  Of no elements it touches nothing. -/
def storeVals (p : Option Nat) (vals : List (Option Val)) (m : Mem) : Option Mem :=
  if vals = [] then some m
  else match p with
    | none => none
    | some a => match m.live a with
      | some (.data l) => if vals.length ≤ l.length then some (m.set a (some (.data (vals ++ l.drop vals.length)))) else none
      | _ => none

/-- The first `n` elements of the buffer `p`. -/
def loadVals (p : Option Nat) (n : Nat) (m : Mem) : Option (List (Option Val)) :=
  if n = 0 then some []
  else match p with
    | none => none
    | some a => match m.live a with
      | some (.data l) => if n ≤ l.length then some (l.take n) else none
      | _ => none

/-! ### Containers -/

/-- `array_container_create_given_capacity`: `src/containers/array.c:49-69`, and
`run_container_create_given_capacity`: `src/containers/run.c:89-106`. -/
def contCreate (ok : Nat → Bool) (type size : Nat) (m : Mem) : Option (Option Nat × Mem) :=
  match malloc ok (.cont type 0 0 none) m with
  | (none, m) => some (none, m)
  | (some a, m) =>
    if size = 0 then some (some a, m.set a (some (.cont type 0 size none)))
    else match malloc ok (freshData size) m with
      | (none, m) => do
        let m ← mfree (some a) m
        some (none, m)
      | (some d, m) => some (some a, m.set a (some (.cont type 0 size (some d))))

/-- `array_container_create_given_capacity`: `src/containers/array.c:49-69`. -/
def arrayCreateA (ok : Nat → Bool) (size : Nat) (m : Mem) : Option (Option Nat × Mem) := contCreate ok ARRAY_TYPE size m

/-- `run_container_create_given_capacity`: `src/containers/run.c:89-106`. -/
def runCreateA (ok : Nat → Bool) (size : Nat) (m : Mem) : Option (Option Nat × Mem) := contCreate ok RUN_TYPE size m

/-- The allocations of `bitset_container_create` and `bitset_container_clone`: `src/containers/bitset.c:64-87`,
138-160: the struct with the given cardinality and the buffer with the given contents. -/
def bitsetAllocA (ok : Nat → Bool) (card : Int) (l : List (Option Val)) (m : Mem) : Option (Option Nat × Mem) :=
  match malloc ok (.cont BITSET_TYPE card NWORDS none) m with
  | (none, m) => some (none, m)
  | (some a, m) =>
    match malloc ok (.data l) m with
    | (none, m) => do
      let m ← mfree (some a) m
      some (none, m)
    | (some d, m) => some (some a, m.set a (some (.cont BITSET_TYPE card NWORDS (some d))))

/-- `bitset_container_create`: `src/containers/bitset.c:63-90`, with `bitset_container_clear` (50-53). -/
def bitsetCreateA (ok : Nat → Bool) (m : Mem) : Option (Option Nat × Mem) :=
  bitsetAllocA ok 0 (List.replicate NWORDS (some (.w 0#64))) m

/-- `bitset_container_clone`: `src/containers/bitset.c:137-166`. -/
def bitsetCloneA (ok : Nat → Bool) (src : Nat) (m : Mem) : Option (Option Nat × Mem) :=
  match m.live src with
  | some (.cont 1 card _ d) => do
    let (r, m) ← bitsetAllocA ok card (List.replicate NWORDS none) m
    match r with
    | none => some (none, m)
    | some a => match m.live a with
      | some (.cont _ _ _ d') => do
        let v ← loadVals d NWORDS m
        let m ← storeVals d' v m
        some (some a, m)
      | _ => none
  | _ => none

/-- `array_container_clone`: `src/containers/array.c:89-102`; `run_container_clone`: `src/containers/run.c:124-131`;
of a container with the typecode `type`. -/
def contCloneA (ok : Nat → Bool) (type src : Nat) (m : Mem) : Option (Option Nat × Mem) :=
  match m.live src with
  | some (.cont t n cap d) =>
    if t ≠ type then none
    else do
      let (r, m) ← contCreate ok type cap m
      match r with
      | none => some (none, m)
      | some a => match m.live a with
        | some (.cont _ _ cap' d') => do
          let m := m.set a (some (.cont type n cap' d'))
          let v ← loadVals d n.toNat m
          let m ← storeVals d' v m
          some (some a, m)
        | _ => none
  | _ => none

/-- `container_clone`: `src/containers/containers.c:206-225`; null for a shared container. -/
def cloneA (ok : Nat → Bool) (p : Option Nat) (type : Nat) (m : Mem) : Option (Option Nat × Mem) :=
  match type, p with
  | 1, some a => bitsetCloneA ok a m
  | 2, some a => contCloneA ok ARRAY_TYPE a m
  | 3, some a => contCloneA ok RUN_TYPE a m
  | 4, _ => some (none, m)
  | _, _ => none

/-- `array_container_free`, `run_container_free`, `bitset_container_free`: `src/containers/array.c:146-150`,
`src/containers/run.c:191-195`, `src/containers/bitset.c:129-133`. -/
def freeOwnA (p : Option Nat) (type : Nat) (m : Mem) : Option Mem :=
  match p with
  | none => some m
  | some a => match m.live a with
    | some (.cont t _ _ d) =>
      if t ≠ type then none
      else do
        let m ← mfree d m
        mfree (some a) m
    | _ => none

/-- `container_free`: `src/containers/containers.c:49-66`, with `shared_container_free` (243-250). -/
def freeA (p : Option Nat) (type : Nat) (m : Mem) : Option Mem :=
  if type = 4 then
    match p with
    | none => none
    | some a => match m.live a with
      | some (.shared inner t counter) =>
        if counter = 0 then none
        else if counter = 1 then do
          let m ← freeOwnA inner t m
          mfree (some a) m
        else some (m.set a (some (.shared inner t (counter - 1))))
      | _ => none
  else if type = 1 ∨ type = 2 ∨ type = 3 then freeOwnA p type m
  else none

/-- `get_copy_of_container` with `copy_on_write`: `src/containers/containers.c:169-194`: the pointer and the typecode
for both bitmaps.  If the request is refused the result is null and the typecode is unchanged. -/
def shareA (ok : Nat → Bool) (p : Option Nat) (type : Nat) (m : Mem) : Option ((Option Nat × Nat) × Mem) :=
  if type = 4 then
    match p with
    | none => none
    | some a => match m.live a with
      | some (.shared inner t counter) => some ((some a, 4), m.set a (some (.shared inner t (counter + 1))))
      | _ => none
  else match malloc ok (.shared p type 2) m with
    | (none, m) => some ((none, type), m)
    | (some a, m) => some ((some a, 4), m)

/-! ### The array of containers -/

/-- The `roaring_array_t` of the bitmap at `p`. -/
def hdrA (m : Mem) (p : Nat) : Option RaHdr :=
  match m.live p with
  | some (.bitmap h) => some h
  | _ => none

/-- The arrays of a `roaring_array_t`. -/
def slotsA (m : Mem) (h : RaHdr) : Option SlotBuf :=
  match h.buf with
  | none => none
  | some q => match m.live q with
    | some (.slots s) => some s
    | _ => none

/-- A write to the arrays of a `roaring_array_t`. -/
def putSlotsA (m : Mem) (h : RaHdr) (s : SlotBuf) : Option Mem :=
  match h.buf with
  | none => none
  | some q => some (m.set q (some (.slots s)))

/-- `xs[i] = v`, if there is such a place. -/
def putAt {α : Type} (xs : List α) (i : Nat) (v : α) : Option (List α) := if i < xs.length then some (xs.set i v) else none

/-- `memcpy` of the first `n` places of one array to another. -/
def copyN {α : Type} (dst src : List α) (n : Nat) : Option (List α) :=
  if n ≤ src.length ∧ n ≤ dst.length then some (src.take n ++ dst.drop n) else none

/-- New arrays, nothing written. -/
def freshSlots (n : Nat) : SlotBuf := ⟨List.replicate n none, List.replicate n none, List.replicate n none⟩

/-- `ra->containers[i]` and `ra->typecodes[i]`. -/
def slotAtA (m : Mem) (p i : Nat) : Option (Option Nat × Nat) := do
  let h ← hdrA m p
  let s ← slotsA m h
  let c ← s.conts.getD i none
  let t ← s.types.getD i none
  some (c, t)

/-- `realloc_array`: `src/roaring_array.c:42-77`. -/
def reallocArrayA (ok : Nat → Bool) (p newCapacity : Nat) (m : Mem) : Option (Bool × Mem) := do
  let h ← hdrA m p
  if newCapacity = 0 then
    let m ← mfree h.buf m
    some (true, m.set p (some (.bitmap { h with buf := none, alloc := 0 })))
  else
    match malloc ok (.slots (freshSlots newCapacity)) m with
    | (none, m) => some (false, m)
    | (some q, m) =>
      if h.size > 0 then do
        let old ← slotsA m h
        let c ← copyN (freshSlots newCapacity).conts old.conts h.size
        let k ← copyN (freshSlots newCapacity).keys old.keys h.size
        let t ← copyN (freshSlots newCapacity).types old.types h.size
        let m := m.set q (some (.slots ⟨c, k, t⟩))
        let m := m.set p (some (.bitmap { h with buf := some q, alloc := newCapacity }))
        let m ← mfree h.buf m
        some (true, m)
      else do
        let m := m.set p (some (.bitmap { h with buf := some q, alloc := newCapacity }))
        let m ← mfree h.buf m
        some (true, m)

/-- `ra_init_with_capacity`: `src/roaring_array.c:79-101`, of the bitmap at `p`. -/
def raInitCapA (ok : Nat → Bool) (p cap : Nat) (m : Mem) : Option (Bool × Mem) :=
  let m := m.set p (some (.bitmap ⟨0, 0, none, false⟩))
  let cap := if cap > 0x10000 then 0x10000 else cap
  if cap > 0 then
    match malloc ok (.slots (freshSlots cap)) m with
    | (none, m) => some (false, m)
    | (some q, m) => some (true, m.set p (some (.bitmap ⟨0, cap, some q, false⟩)))
  else some (true, m)

/-- `roaring_bitmap_create_with_capacity`: `src/roaring.c:84-97`. -/
def createA (ok : Nat → Bool) (cap : Nat) (m : Mem) : Option (Option Nat × Mem) :=
  match malloc ok (.bitmap ⟨0, 0, none, false⟩) m with
  | (none, m) => some (none, m)
  | (some p, m) => do
    let (b, m) ← raInitCapA ok p cap m
    if b then some (some p, m)
    else
      let m ← mfree (some p) m
      some (none, m)

/-- `n` steps of the loop of `ra_clear_containers` from index `i`, and of the loop that releases the first copies in
`ra_overwrite`: `src/roaring_array.c:155-157`, 170-174. -/
def clearLoopA (p : Nat) : Nat → Nat → Mem → Option Mem
  | 0, _, m => some m
  | n + 1, i, m => do
    let (c, t) ← slotAtA m p i
    let m ← freeA c t m
    clearLoopA p n (i + 1) m

/-- `ra_clear_containers`: `src/roaring_array.c:170-174`. -/
def clearContainersA (p : Nat) (m : Mem) : Option Mem := do
  let h ← hdrA m p
  clearLoopA p h.size 0 m

/-- `ra_clear_without_containers`: `src/roaring_array.c:182-190`. -/
def clearWithoutA (p : Nat) (m : Mem) : Option Mem := do
  let h ← hdrA m p
  let m ← mfree h.buf m
  some (m.set p (some (.bitmap { h with size := 0, alloc := 0, buf := none })))

/-- `ra_clear`: `src/roaring_array.c:192-195`. -/
def raClearA (p : Nat) (m : Mem) : Option Mem := do
  let m ← clearContainersA p m
  clearWithoutA p m

/-- `roaring_bitmap_free`: `src/roaring.c:519-527`, of a bitmap that is not frozen. -/
def freeBitmapA (p : Nat) (m : Mem) : Option Mem := do
  let m ← raClearA p m
  mfree (some p) m

/-- The loop of `ra_overwrite` that shares the containers: `src/roaring_array.c:142-145`. -/
def shareLoopA (ok : Nat → Bool) (src : Nat) : Nat → Nat → Mem → Option Mem
  | 0, _, m => some m
  | n + 1, i, m => do
    let (c, t) ← slotAtA m src i
    let (r, m) ← shareA ok c t m
    let h ← hdrA m src
    let s ← slotsA m h
    let cs ← putAt s.conts i (some r.1)
    let ts ← putAt s.types i (some r.2)
    let m ← putSlotsA m h { s with conts := cs, types := ts }
    shareLoopA ok src n (i + 1) m

/-- The loop of `ra_overwrite` that clones the containers: `src/roaring_array.c:154-165`. -/
def cloneLoopA (ok : Nat → Bool) (src dest : Nat) : Nat → Nat → Mem → Option (Bool × Mem)
  | 0, _, m => some (true, m)
  | n + 1, i, m => do
    let (c, t) ← slotAtA m src i
    let (r, m) ← cloneA ok c t m
    let h ← hdrA m dest
    let s ← slotsA m h
    let cs ← putAt s.conts i (some r)
    let m ← putSlotsA m h { s with conts := cs }
    if r = none then do
      let m ← clearLoopA dest i 0 m
      let m ← clearWithoutA dest m
      some (false, m)
    else cloneLoopA ok src dest n (i + 1) m

/-- `ra_overwrite`: `src/roaring_array.c:126-168`; `src` and `dest` are different bitmaps. -/
def raOverwriteA (ok : Nat → Bool) (src dest : Nat) (cow : Bool) (m : Mem) : Option (Bool × Mem) := do
  let m ← clearContainersA dest m
  let hs ← hdrA m src
  let hd ← hdrA m dest
  if hs.size = 0 then some (true, m.set dest (some (.bitmap { hd with size := 0 })))
  else
    let (b, m) ← (if hd.alloc < hs.size then reallocArrayA ok dest hs.size m else some (true, m) : Option (Bool × Mem))
    if !b then some (false, m)
    else
      let hd ← hdrA m dest
      let hd := { hd with size := hs.size }
      let m := m.set dest (some (.bitmap hd))
      let ss ← slotsA m hs
      let sd ← slotsA m hd
      let ks ← copyN sd.keys ss.keys hd.size
      let m ← putSlotsA m hd { sd with keys := ks }
      if cow then
        let m ← shareLoopA ok src hd.size 0 m
        let ss ← slotsA m hs
        let sd ← slotsA m hd
        let cs ← copyN sd.conts ss.conts hd.size
        let ts ← copyN sd.types ss.types hd.size
        let m ← putSlotsA m hd { sd with conts := cs, types := ts }
        some (true, m)
      else
        let ss ← slotsA m hs
        let sd ← slotsA m hd
        let ts ← copyN sd.types ss.types hd.size
        let m ← putSlotsA m hd { sd with types := ts }
        cloneLoopA ok src dest hd.size 0 m

/-- `roaring_bitmap_set_copy_on_write`: `include/roaring/roaring.h:86-97`. -/
def setCowA (p : Nat) (cow : Bool) (m : Mem) : Option Mem := do
  let h ← hdrA m p
  some (m.set p (some (.bitmap { h with cow := cow })))

/-- `roaring_bitmap_copy`: `src/roaring.c:491-510`. -/
def copyA (ok : Nat → Bool) (r : Nat) (m : Mem) : Option (Option Nat × Mem) :=
  match malloc ok (.bitmap ⟨0, 0, none, false⟩) m with
  | (none, m) => some (none, m)
  | (some p, m) => do
    let h ← hdrA m r
    let (b, m) ← raInitCapA ok p h.size m
    if !b then
      let m ← mfree (some p) m
      some (none, m)
    else
      let (b, m) ← raOverwriteA ok r p h.cow m
      if !b then
        let m ← freeBitmapA p m
        some (none, m)
      else
        let m ← setCowA p h.cow m
        some (some p, m)

/-- `roaring_bitmap_overwrite`: `src/roaring.c:512-517`. -/
def overwriteA (ok : Nat → Bool) (dest src : Nat) (m : Mem) : Option (Bool × Mem) := do
  let h ← hdrA m src
  let m ← setCowA dest h.cow m
  raOverwriteA ok src dest h.cow m

/-! ### Reading the portable format -/

/-- The value of a read from the buffer of bytes; outside of it is undefined behaviour. -/
def rd {α : Type} (x : Out α) : Option α :=
  match x with
  | .ok a => some a
  | _ => none

/-- `container->cardinality = n` or `container->n_runs = n`. -/
def setCountA (a : Nat) (n : Int) (m : Mem) : Option Mem :=
  match m.live a with
  | some (.cont t _ cap d) => some (m.set a (some (.cont t n cap d)))
  | _ => none

/-- `array_container_grow(container, min, false)`: `src/containers/array.c:164-185`; `run_container_grow(run, min,
false)`: `src/containers/run.c:197-215`; with the new capacity computed from the old one. -/
def growA (ok : Nat → Bool) (newCapacity : Nat → Nat) (a : Nat) (m : Mem) : Option Mem :=
  match m.live a with
  | some (.cont t n cap d) => do
    let m ← mfree d m
    match malloc ok (freshData (newCapacity cap)) m with
    | (d', m) => some (m.set a (some (.cont t n (newCapacity cap) d')))
  | _ => none

/-- The capacity and the buffer of a container. -/
def capA (m : Mem) (a : Nat) : Option (Nat × Option Nat) :=
  match m.live a with
  | some (.cont _ _ cap d) => some (cap, d)
  | _ => none

/-- `bitset_container_read`: `src/containers/bitset.c:1056-1061`. -/
def bitsetReadA (cardinality a : Nat) (buf : List UInt8) (off : Nat) (m : Mem) : Option Mem := do
  let m ← setCountA a cardinality m
  let ws ← rd (readWords buf off NWORDS)
  let c ← capA m a
  storeVals c.2 (ws.map (fun w => some (.w w))) m

/-- `array_container_read`: `src/containers/array.c:538-547`. -/
def arrayReadA (ok : Nat → Bool) (cardinality a : Nat) (buf : List UInt8) (off : Nat) (m : Mem) : Option Mem := do
  let c ← capA m a
  let m ← if c.1 < cardinality then
      growA ok (fun cap => clampNat (growCapacity cap) cardinality (if cardinality ≤ DEFAULT_MAX_SIZE then DEFAULT_MAX_SIZE else 65536)) a m
    else some m
  let m ← setCountA a cardinality m
  let l ← rd (readU16s buf off cardinality)
  let c ← capA m a
  storeVals c.2 (l.map (fun v => some (.u v))) m

/-- `run_container_read`: `src/containers/run.c:724-737`. -/
def runReadA (ok : Nat → Bool) (a : Nat) (buf : List UInt8) (off : Nat) (m : Mem) : Option Mem := do
  let n ← rd (readLE buf off 2)
  let m ← setCountA a n m
  let c ← capA m a
  let m ← if n > c.1 then growA ok (fun cap => runNewCapacity cap n) a m else some m
  let rs ← rd (readRles buf (off + 2) n)
  let c ← capA m a
  storeVals c.2 (rs.map (fun p => some (.r p))) m

/-- The writes for a container that was read, `answer->size++`, `answer->containers[k] = c`,
`answer->typecodes[k] = type`: `src/roaring_array.c:823-826`, 853-856, 875-878.  The C code increments the size before
it reads the contents of the container, which needs no size. -/
def pushA (p k a type : Nat) (m : Mem) : Option Mem := do
  let h ← hdrA m p
  let s ← slotsA m h
  let cs ← putAt s.conts k (some (some a))
  let ts ← putAt s.types k (some type)
  let m ← putSlotsA m h { s with conts := cs, types := ts }
  some (m.set p (some (.bitmap { h with size := h.size + 1 })))

/-- A container was requested (`r`): if refused everything is released, otherwise its contents are read and it is put
into the array: `src/roaring_array.c:817-826`, 845-856, 867-878. -/
def deserStepA (p k type : Nat) (r : Option Nat) (read : Nat → Mem → Option Mem) (m : Mem) : Option (Bool × Mem) :=
  match r with
  | none => do
    let m ← raClearA p m
    some (false, m)
  | some a => do
    let m ← read a m
    let m ← pushA p k a type m
    some (true, m)

/-- The loop of `ra_portable_deserialize` that reads the containers: `src/roaring_array.c:789-880`. -/
def deserLoopA (ok : Nat → Bool) (buf : List UInt8) (maxbytes : Nat) (hasrun : Option Nat) (keyscards p : Nat) :
    Nat → Nat → Nat → Nat → Mem → Option (Bool × Mem)
  | 0, _, _, _, m => some (true, m)
  | n + 1, k, off, readbytes, m => do
    let tmp ← rd (readLE buf (keyscards + 2 * (2 * k + 1)) 2)
    let thiscard := tmp + 1
    let isrun ← rd (isRunAt buf hasrun k)
    let isbitmap := !isrun && decide (thiscard > DEFAULT_MAX_SIZE)
    if isbitmap then
      let readbytes := readbytes + NWORDS * 8
      if readbytes > maxbytes then do
        let m ← raClearA p m
        some (false, m)
      else
        let (r, m) ← bitsetCreateA ok m
        let (b, m) ← deserStepA p k BITSET_TYPE r (fun a => bitsetReadA thiscard a buf off) m
        if b then deserLoopA ok buf maxbytes hasrun keyscards p n (k + 1) (off + NWORDS * 8) readbytes m
        else some (false, m)
    else if isrun then
      let readbytes := readbytes + 2
      if readbytes > maxbytes then do
        let m ← raClearA p m
        some (false, m)
      else
        let n_runs ← rd (readLE buf off 2)
        let readbytes := readbytes + n_runs * 4
        if readbytes > maxbytes then do
          let m ← raClearA p m
          some (false, m)
        else
          let (r, m) ← runCreateA ok 0 m
          let (b, m) ← deserStepA p k RUN_TYPE r (fun a => runReadA ok a buf off) m
          if b then deserLoopA ok buf maxbytes hasrun keyscards p n (k + 1) (off + (2 + n_runs * 4)) readbytes m
          else some (false, m)
    else
      let readbytes := readbytes + thiscard * 2
      if readbytes > maxbytes then do
        let m ← raClearA p m
        some (false, m)
      else
        let (r, m) ← arrayCreateA ok thiscard m
        let (b, m) ← deserStepA p k ARRAY_TYPE r (fun a => arrayReadA ok thiscard a buf off) m
        if b then deserLoopA ok buf maxbytes hasrun keyscards p n (k + 1) (off + thiscard * 2) readbytes m
        else some (false, m)

/-- The loop that reads the keys: `src/roaring_array.c:771-775`. -/
def keysLoopA (buf : List UInt8) (keyscards p : Nat) : Nat → Nat → Mem → Option Mem
  | 0, _, m => some m
  | n + 1, k, m => do
    let v ← rd (readLE buf (keyscards + 2 * (2 * k)) 2)
    let h ← hdrA m p
    let s ← slotsA m h
    let ks ← putAt s.keys k (some v)
    let m ← putSlotsA m h { s with keys := ks }
    keysLoopA buf keyscards p n (k + 1) m

/-- `ra_portable_deserialize`: `src/roaring_array.c:707-882`, from offset `base` of the bytes, into the bitmap at
`p`. -/
def raDeserA (ok : Nat → Bool) (p : Nat) (buf : List UInt8) (base maxbytes : Nat) (m : Mem) : Option (Bool × Mem) := do
  let readbytes := 4
  if readbytes > maxbytes then some (false, m)
  else
    let cookie ← rd (readLE buf base 4)
    let off := base + 4
    if cookie % 65536 ≠ COOKIE ∧ cookie ≠ COOKIE_NORUN then some (false, m)
    else match deserSize buf cookie off maxbytes readbytes with
      | .oob => none
      | .fail => some (false, m)
      | .ok h =>
        let off := h.2.1
        let readbytes := h.2.2
        if h.1 < 0 then some (false, m)
        else if h.1 > 65536 then some (false, m)
        else
          let size := h.1.toNat
          let hasrun := cookie % 65536 = COOKIE
          let s := (size + 7) / 8
          let readbytes := if hasrun then readbytes + s else readbytes
          if hasrun ∧ readbytes > maxbytes then some (false, m)
          else
            let runs := if hasrun then some off else none
            let off := if hasrun then off + s else off
            let keyscards := off
            let readbytes := readbytes + size * 2 * 2
            if readbytes > maxbytes then some (false, m)
            else
              let off := off + size * 2 * 2
              let (b, m) ← raInitCapA ok p size m
              if !b then some (false, m)
              else
                let m ← keysLoopA buf keyscards p size 0 m
                match deserSkipOffsets hasrun size off maxbytes readbytes with
                | .ok o => deserLoopA ok buf maxbytes runs keyscards p size 0 o.1 o.2 m
                | _ => do
                  let m ← raClearA p m
                  some (false, m)

/-- `roaring_bitmap_portable_deserialize_safe`: `src/roaring.c:1502-1522`, from offset `base` of the bytes. -/
def deserA (ok : Nat → Bool) (buf : List UInt8) (base maxbytes : Nat) (m : Mem) : Option (Option Nat × Mem) :=
  match malloc ok (.bitmap ⟨0, 0, none, false⟩) m with
  | (none, m) => some (none, m)
  | (some p, m) => do
    let (b, m) ← raDeserA ok p buf base maxbytes m
    if !b then
      let m ← mfree (some p) m
      some (none, m)
    else
      let m ← setCowA p false m
      some (some p, m)

/-! ### Growing the array of containers -/

/-- `extend_array`: `src/roaring_array.c:196-210`. -/
def extendA (ok : Nat → Bool) (p k : Nat) (m : Mem) : Option (Bool × Mem) := do
  let h ← hdrA m p
  let desired := h.size + k
  if desired > h.alloc then
    let newCapacity := if h.size < 1024 then 2 * desired else 5 * desired / 4
    reallocArrayA ok p (if newCapacity > 65536 then 65536 else newCapacity) m
  else some (true, m)

/-- `memmove(xs + i + 1, xs + i, n - i)` and `xs[i] = v`, as in `ra_insert_new_key_value_at`. -/
def insertAt {α : Type} (xs : List α) (n i : Nat) (v : α) : Option (List α) :=
  if i ≤ n ∧ n + 1 ≤ xs.length then some (xs.take i ++ v :: ((xs.take n).drop i ++ xs.drop (n + 1))) else none

/-- `ra_insert_new_key_value_at`: `src/roaring_array.c:348-362`.  The result of `extend_array` is not looked at. -/
def insertKeyA (ok : Nat → Bool) (p i key : Nat) (c : Option Nat) (type : Nat) (m : Mem) : Option Mem := do
  let (_, m) ← extendA ok p 1 m
  let h ← hdrA m p
  let s ← slotsA m h
  let ks ← insertAt s.keys h.size i (some key)
  let cs ← insertAt s.conts h.size i (some c)
  let ts ← insertAt s.types h.size i (some type)
  let m ← putSlotsA m h ⟨cs, ks, ts⟩
  some (m.set p (some (.bitmap { h with size := h.size + 1 })))

/-- `ra_append`: `src/roaring_array.c:212-221`. -/
def appendKeyA (ok : Nat → Bool) (p key : Nat) (c : Option Nat) (type : Nat) (m : Mem) : Option Mem := do
  let (_, m) ← extendA ok p 1 m
  let h ← hdrA m p
  let s ← slotsA m h
  let ks ← putAt s.keys h.size (some key)
  let cs ← putAt s.conts h.size (some c)
  let ts ← putAt s.types h.size (some type)
  let m ← putSlotsA m h ⟨cs, ks, ts⟩
  some (m.set p (some (.bitmap { h with size := h.size + 1 })))

/-- `ra_shrink_to_fit`: `src/roaring_array.c:103-111`; the result is the number of places saved (the C function
multiplies by their size). -/
def raShrinkA (ok : Nat → Bool) (p : Nat) (m : Mem) : Option (Nat × Mem) := do
  let h ← hdrA m p
  let (b, m) ← reallocArrayA ok p h.size m
  if !b then some (0, m)
  else
    let h' ← hdrA m p
    some (h.alloc - h.size, m.set p (some (.bitmap { h' with alloc := h.size })))

/-- `array_container_shrink_to_fit`: `src/containers/array.c:129-144`, and `run_container_shrink_to_fit`:
`src/containers/run.c:108-117` of a container that is not empty.  A granted `realloc` gives a new block and releases the
old one; the result is the number of places saved. -/
def contShrinkA (ok : Nat → Bool) (a : Nat) (m : Mem) : Option (Nat × Mem) :=
  match m.live a with
  | some (.cont t n cap d) =>
    if n = cap then some (0, m)
    else if n ≤ 0 then do
      let m ← mfree d m
      some (cap, m.set a (some (.cont t n 0 none)))
    else do
      let l ← loadVals d n.toNat m
      match malloc ok (.data l) m with
      | (d', m) => do
        let m ← mfree d m
        some (cap - n.toNat, m.set a (some (.cont t n n.toNat d')))
  | _ => none

end CRoaring
