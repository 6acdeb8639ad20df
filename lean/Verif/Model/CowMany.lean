import Verif.Model.Cow
import Verif.Model.Lazy
import Verif.Model.Serial

/-! Model of the memory side of the lazy operations, the unions and symmetric differences of many bitmaps, and the
shift by an offset: src/roaring.c:742-777,2122-2580, src/roaring_priority_queue.c:99-247.  The heap and its
conventions are those of `Verif/Model/Cow.lean`. -/

namespace CRoaring

/-- The oracle of round `n` of a call, made from the oracle of the call: keys are below 65536. -/
def round {α : Type} (o : Nat → α) (n : Nat) : Nat → α := fun k => o (n * 65536 + k)

/-- The case of equal keys in `roaring_bitmap_lazy_or`: `src/roaring.c:2257-2280`. -/
def hLazyOrPair (o conv : Bool) (h : Heap) (r1 r2 : Ref) : Option (Ref × Heap) := do
  let c1 ← readC h r1
  let c2 ← readC h r2
  if conv && !isBitset c1 && !isBitset c2 then
    let p := newC h (.bitset (containerToBitset c1))
    replaceC o p.2 p.1 (containerLazyIor 0 (.bitset (containerToBitset c1)) c2)
  else some (newC h (containerLazyOr c1 c2))

/-- The loop of `roaring_bitmap_lazy_or` and the copies of the rest: `src/roaring.c:2253-2321`: the cells of the
answer, of `x1` and of `x2`. -/
def hLazyOrLoop (o : Nat → Bool) (conv cow1 cow2 : Bool) (h : Heap) (x1 x2 : List Slot) :
    Option (List Slot × List Slot × List Slot × Heap) :=
  match x1, x2 with
  | [], x2 => do
    let (a, x2', h) ← copySlots cow2 h x2
    some (a, [], x2', h)
  | x1, [] => do
    let (a, x1', h) ← copySlots cow1 h x1
    some (a, x1', [], h)
  | (s1, r1) :: t1, (s2, r2) :: t2 =>
    if s1 = s2 then do
      let (r, h) ← hLazyOrPair (o s1) conv h r1 r2
      let (a, t1', t2', h) ← hLazyOrLoop o conv cow1 cow2 h t1 t2
      some ((s1, r) :: a, (s1, r1) :: t1', (s2, r2) :: t2', h)
    else if s1 < s2 then do
      let (r, r1', h) ← getCopyOf cow1 h r1
      let (a, t1', x2', h) ← hLazyOrLoop o conv cow1 cow2 h t1 ((s2, r2) :: t2)
      some ((s1, r) :: a, (s1, r1') :: t1', x2', h)
    else do
      let (r, r2', h) ← getCopyOf cow2 h r2
      let (a, x1', t2', h) ← hLazyOrLoop o conv cow1 cow2 h ((s1, r1) :: t1) t2
      some ((s2, r) :: a, x1', (s2, r2') :: t2', h)
termination_by x1.length + x2.length

/-- `roaring_bitmap_lazy_or`: `src/roaring.c:2233-2322`: the answer, `x1` and `x2`.  For one and the same object given
twice the loop only meets equal keys, and leaves it alone. -/
def hLazyOr (o : Nat → Bool) (conv : Bool) (h : Heap) (x1 x2 : HBitmap) :
    Option (HBitmap × HBitmap × HBitmap × Heap) :=
  if x1.slots.length = 0 then do
    let (a, x2, h) ← hCopy h x2
    some (a, x1, x2, h)
  else if x2.slots.length = 0 then do
    let (a, x1, h) ← hCopy h x1
    some (a, x1, x2, h)
  else do
    let (a, s1, s2, h) ← hLazyOrLoop o conv x1.cow x2.cow h x1.slots x2.slots
    some (⟨x1.cow || x2.cow, a⟩, ⟨x1.cow, s1⟩, ⟨x2.cow, s2⟩, h)

/-- The writable first operand in `roaring_bitmap_lazy_or_inplace`: `src/roaring.c:2345-2357`. -/
def hLazyIorOperand (conv : Bool) (h : Heap) (r1 : Ref) : Option (Ref × Heap) := do
  let c1 ← readC h r1
  if conv = false || isBitset c1 then unshareC h r1
  else
    let p := newC h (.bitset (containerToBitset c1))
    let h ← freeC p.2 r1
    some (p.1, h)

/-- The case of equal keys in `roaring_bitmap_lazy_or_inplace`: `src/roaring.c:2341-2373`. -/
def hLazyIorPair (o conv : Bool) (capacity : Nat) (h : Heap) (r1 r2 : Ref) : Option (Ref × Heap) := do
  let c1 ← readC h r1
  if !containerIsFull c1 then do
    let (r, h) ← hLazyIorOperand conv h r1
    let c1 ← readC h r
    let c2 ← readC h r2
    replaceC o h r (containerLazyIor capacity c1 c2)
  else some (r1, h)

/-- The loop of `roaring_bitmap_lazy_or_inplace` and the copies of the rest: `src/roaring.c:2341-2405`: the cells of
`x1` and of `x2`. -/
def hLazyOrInplaceLoop (o : Nat → Bool) (conv : Bool) (caps : Nat → Nat) (cow2 : Bool) (h : Heap)
    (x1 x2 : List Slot) : Option (List Slot × List Slot × Heap) :=
  match x1, x2 with
  | [], x2 => copySlots cow2 h x2
  | x1, [] => some (x1, [], h)
  | (s1, r1) :: t1, (s2, r2) :: t2 =>
    if s1 = s2 then do
      let (r, h) ← hLazyIorPair (o s1) conv (caps s1) h r1 r2
      let (a, b, h) ← hLazyOrInplaceLoop o conv caps cow2 h t1 t2
      some ((s1, r) :: a, (s2, r2) :: b, h)
    else if s1 < s2 then do
      let (a, b, h) ← hLazyOrInplaceLoop o conv caps cow2 h t1 ((s2, r2) :: t2)
      some ((s1, r1) :: a, b, h)
    else do
      let (r, r2', h) ← getCopyOf cow2 h r2
      let (a, b, h) ← hLazyOrInplaceLoop o conv caps cow2 h ((s1, r1) :: t1) t2
      some ((s2, r) :: a, (s2, r2') :: b, h)
termination_by x1.length + x2.length

/-- `roaring_bitmap_lazy_or_inplace`: `src/roaring.c:2324-2406` (`x1` and `x2` are distinct objects): `x1` and
`x2`. -/
def hLazyOrInplace (o : Nat → Bool) (conv : Bool) (caps : Nat → Nat) (h : Heap) (x1 x2 : HBitmap) :
    Option (HBitmap × HBitmap × Heap) :=
  if x2.slots.length = 0 then some (x1, x2, h)
  else if x1.slots.length = 0 then hOverwrite h x1 x2
  else do
    let (a, b, h) ← hLazyOrInplaceLoop o conv caps x2.cow h x1.slots x2.slots
    some (⟨x1.cow, a⟩, ⟨x2.cow, b⟩, h)

/-- The loop of `roaring_bitmap_lazy_xor` and the copies of the rest: `src/roaring.c:2427-2484`. -/
def hLazyXorLoop (cow1 cow2 : Bool) (h : Heap) (x1 x2 : List Slot) :
    Option (List Slot × List Slot × List Slot × Heap) :=
  match x1, x2 with
  | [], x2 => do
    let (a, x2', h) ← copySlots cow2 h x2
    some (a, [], x2', h)
  | x1, [] => do
    let (a, x1', h) ← copySlots cow1 h x1
    some (a, x1', [], h)
  | (s1, r1) :: t1, (s2, r2) :: t2 =>
    if s1 = s2 then do
      let c1 ← readC h r1
      let c2 ← readC h r2
      let p := newC h (containerLazyXor c1 c2)
      if containerNonzero (containerLazyXor c1 c2) then do
        let (a, t1', t2', h) ← hLazyXorLoop cow1 cow2 p.2 t1 t2
        some ((s1, p.1) :: a, (s1, r1) :: t1', (s2, r2) :: t2', h)
      else do
        let h ← freeC p.2 p.1
        let (a, t1', t2', h) ← hLazyXorLoop cow1 cow2 h t1 t2
        some (a, (s1, r1) :: t1', (s2, r2) :: t2', h)
    else if s1 < s2 then do
      let (r, r1', h) ← getCopyOf cow1 h r1
      let (a, t1', x2', h) ← hLazyXorLoop cow1 cow2 h t1 ((s2, r2) :: t2)
      some ((s1, r) :: a, (s1, r1') :: t1', x2', h)
    else do
      let (r, r2', h) ← getCopyOf cow2 h r2
      let (a, x1', t2', h) ← hLazyXorLoop cow1 cow2 h ((s1, r1) :: t1) t2
      some ((s2, r) :: a, x1', (s2, r2') :: t2', h)
termination_by x1.length + x2.length

/-- `roaring_bitmap_lazy_xor`: `src/roaring.c:2408-2485`; as for `hLazyOr`, the objects may be the same. -/
def hLazyXor (h : Heap) (x1 x2 : HBitmap) : Option (HBitmap × HBitmap × HBitmap × Heap) :=
  if x1.slots.length = 0 then do
    let (a, x2, h) ← hCopy h x2
    some (a, x1, x2, h)
  else if x2.slots.length = 0 then do
    let (a, x1, h) ← hCopy h x1
    some (a, x1, x2, h)
  else do
    let (a, s1, s2, h) ← hLazyXorLoop x1.cow x2.cow h x1.slots x2.slots
    some (⟨x1.cow || x2.cow, a⟩, ⟨x1.cow, s1⟩, ⟨x2.cow, s2⟩, h)

/-- The loop of `roaring_bitmap_lazy_xor_inplace` and the copies of the rest: `src/roaring.c:2504-2566`. -/
def hLazyXorInplaceLoop (o : Nat → Bool) (cow2 : Bool) (h : Heap) (x1 x2 : List Slot) :
    Option (List Slot × List Slot × Heap) :=
  match x1, x2 with
  | [], x2 => copySlots cow2 h x2
  | x1, [] => some (x1, [], h)
  | (s1, r1) :: t1, (s2, r2) :: t2 =>
    if s1 = s2 then do
      let c1 ← readC h r1
      let c2 ← readC h r2
      let c := chooseLazyXor r1.sh c1 c2
      let (r, h) ← replaceShared (o s1) h r1 c
      if containerNonzero c then do
        let (a, b, h) ← hLazyXorInplaceLoop o cow2 h t1 t2
        some ((s1, r) :: a, (s2, r2) :: b, h)
      else do
        let h ← freeC h r
        let (a, b, h) ← hLazyXorInplaceLoop o cow2 h t1 t2
        some (a, (s2, r2) :: b, h)
    else if s1 < s2 then do
      let (a, b, h) ← hLazyXorInplaceLoop o cow2 h t1 ((s2, r2) :: t2)
      some ((s1, r1) :: a, b, h)
    else do
      let (r, r2', h) ← getCopyOf cow2 h r2
      let (a, b, h) ← hLazyXorInplaceLoop o cow2 h ((s1, r1) :: t1) t2
      some ((s2, r) :: a, (s2, r2') :: b, h)
termination_by x1.length + x2.length

/-- `roaring_bitmap_lazy_xor_inplace`: `src/roaring.c:2487-2567` (`x1` and `x2` are distinct objects). -/
def hLazyXorInplace (o : Nat → Bool) (h : Heap) (x1 x2 : HBitmap) : Option (HBitmap × HBitmap × Heap) :=
  if x2.slots.length = 0 then some (x1, x2, h)
  else if x1.slots.length = 0 then hOverwrite h x1 x2
  else do
    let (a, b, h) ← hLazyXorInplaceLoop o x2.cow h x1.slots x2.slots
    some (⟨x1.cow, a⟩, ⟨x2.cow, b⟩, h)

/-- The loop of `roaring_bitmap_repair_after_lazy`: `src/roaring.c:2569-2580`, with `container_repair_after_lazy`:
`include/roaring/containers/containers.h:332-359`, which frees the container that it replaces. -/
def hRepairLoop (o : Nat → Bool) : Heap → List Slot → Option (List Slot × Heap)
  | h, [] => some ([], h)
  | h, (k, r) :: t => do
    let (r, h) ← unshareC h r
    let c ← readC h r
    let (r, h) ← replaceC (o k) h r (containerRepair c)
    let (a, h) ← hRepairLoop o h t
    some ((k, r) :: a, h)

/-- `roaring_bitmap_repair_after_lazy`: `src/roaring.c:2569-2580`. -/
def hRepair (o : Nat → Bool) (h : Heap) (x : HBitmap) : Option (HBitmap × Heap) := do
  let (a, h) ← hRepairLoop o h x.slots
  some (⟨x.cow, a⟩, h)

/-! ### Many bitmaps

The bitmaps given by the caller are the numbers of bitmaps of the pool; the same one may be given more than once. -/

/-- A bitmap of the pool that was not freed. -/
def poolGet (p : List (Option HBitmap)) (i : Nat) : Option HBitmap := (p[i]?).join

/-- A call of a function that makes a new bitmap from two bitmaps of the pool. -/
def poolNew2 (u : Heap → HBitmap → HBitmap → Option (HBitmap × HBitmap × HBitmap × Heap)) (h : Heap)
    (p : List (Option HBitmap)) (i j : Nat) : Option (HBitmap × List (Option HBitmap) × Heap) := do
  let x ← poolGet p i
  let y ← poolGet p j
  let (a, x', y', h) ← u h x y
  some (a, (p.set j (some y')).set i (some x'), h)

/-- A call of a function that updates the bitmap `a` by a bitmap of the pool. -/
def poolUpd (u : Heap → HBitmap → HBitmap → Option (HBitmap × HBitmap × Heap)) (h : Heap)
    (p : List (Option HBitmap)) (a : HBitmap) (i : Nat) : Option (HBitmap × List (Option HBitmap) × Heap) := do
  let x ← poolGet p i
  let (a, x', h) ← u h a x
  some (a, p.set i (some x'), h)

/-- `roaring_bitmap_copy` of a bitmap of the pool. -/
def poolCopy (h : Heap) (p : List (Option HBitmap)) (i : Nat) : Option (HBitmap × List (Option HBitmap) × Heap) := do
  let x ← poolGet p i
  let (a, x', h) ← hCopy h x
  some (a, p.set i (some x'), h)

/-- The loop of `roaring_bitmap_or_many`: `src/roaring.c:751-753`. -/
def hOrManyLoop (o : Nat → Bool) (caps : Nat → Nat) :
    Nat → Heap → List (Option HBitmap) → HBitmap → List Nat → Option (HBitmap × List (Option HBitmap) × Heap)
  | _, h, p, a, [] => some (a, p, h)
  | n, h, p, a, i :: is => do
    let (a, p, h) ← poolUpd (hLazyOrInplace (round o n) true (round caps n)) h p a i
    hOrManyLoop o caps (n + 1) h p a is

/-- `roaring_bitmap_or_many`: `src/roaring.c:742-756`.  Without bitmaps, `roaring_bitmap_create` gives a bitmap without
copy-on-write. -/
def hOrMany (o : Nat → Bool) (caps : Nat → Nat) (h : Heap) (p : List (Option HBitmap)) :
    List Nat → Option (HBitmap × List (Option HBitmap) × Heap)
  | [] => some (hCreate false, p, h)
  | [i] => poolCopy h p i
  | i :: j :: is => do
    let (a, p, h) ← poolNew2 (hLazyOr (round o 0) true) h p i j
    let (a, p, h) ← hOrManyLoop o caps 2 h p a is
    let (a, h) ← hRepair (round o 1) h a
    some (a, p, h)

/-- The loop of `roaring_bitmap_xor_many`: `src/roaring.c:771-773`. -/
def hXorManyLoop (o : Nat → Bool) :
    Nat → Heap → List (Option HBitmap) → HBitmap → List Nat → Option (HBitmap × List (Option HBitmap) × Heap)
  | _, h, p, a, [] => some (a, p, h)
  | n, h, p, a, i :: is => do
    let (a, p, h) ← poolUpd (hLazyXorInplace (round o n)) h p a i
    hXorManyLoop o (n + 1) h p a is

/-- `roaring_bitmap_xor_many`: `src/roaring.c:761-777`. -/
def hXorMany (o : Nat → Bool) (h : Heap) (p : List (Option HBitmap)) :
    List Nat → Option (HBitmap × List (Option HBitmap) × Heap)
  | [] => some (hCreate false, p, h)
  | [i] => poolCopy h p i
  | i :: j :: is => do
    let (a, p, h) ← poolNew2 hLazyXor h p i j
    let (a, p, h) ← hXorManyLoop o 2 h p a is
    let (a, h) ← hRepair (round o 1) h a
    some (a, p, h)

/-! ### The union with a priority queue -/

/-- The case of equal keys in `lazy_or_from_lazy_inputs`: `src/roaring_priority_queue.c:117-152`; both containers are
used up. -/
def hLazyLazyPair (o : Bool) (cap1 cap2 : Nat) (h : Heap) (r1 r2 : Ref) : Option (Ref × Heap) := do
  let (r1, h) ← unshareC h r1
  let (r2, h) ← unshareC h r2
  let c1 ← readC h r1
  let c2 ← readC h r2
  if isBitset c2 && !isBitset c1 then do
    let (r, h) ← replaceC o h r2 (containerLazyIor cap2 c2 c1)
    let h ← freeC h r1
    some (r, h)
  else do
    let (r, h) ← replaceC o h r1 (containerLazyIor cap1 c1 c2)
    let h ← freeC h r2
    some (r, h)

/-- The loop of `lazy_or_from_lazy_inputs` and the moved rest: `src/roaring_priority_queue.c:116-186`. -/
def hLazyLazyLoop (o : Nat → Bool) (caps1 caps2 : Nat → Nat) (h : Heap) (x1 x2 : List Slot) :
    Option (List Slot × Heap) :=
  match x1, x2 with
  | [], x2 => some (x2, h)
  | x1, [] => some (x1, h)
  | (s1, r1) :: t1, (s2, r2) :: t2 =>
    if s1 = s2 then do
      let (r, h) ← hLazyLazyPair (o s1) (caps1 s1) (caps2 s1) h r1 r2
      let (a, h) ← hLazyLazyLoop o caps1 caps2 h t1 t2
      some ((s1, r) :: a, h)
    else if s1 < s2 then do
      let (a, h) ← hLazyLazyLoop o caps1 caps2 h t1 ((s2, r2) :: t2)
      some ((s1, r1) :: a, h)
    else do
      let (a, h) ← hLazyLazyLoop o caps1 caps2 h ((s1, r1) :: t1) t2
      some ((s2, r2) :: a, h)
termination_by x1.length + x2.length

/-- `lazy_or_from_lazy_inputs`: `src/roaring_priority_queue.c:99-192`.  The bitmap of
`roaring_bitmap_create_with_capacity` is without copy-on-write, whatever the inputs are. -/
def hLazyLazy (o : Nat → Bool) (caps1 caps2 : Nat → Nat) (h : Heap) (x1 x2 : HBitmap) : Option (HBitmap × Heap) :=
  if x1.slots.length = 0 then do
    let h ← hFree h x1
    some (x2, h)
  else if x2.slots.length = 0 then do
    let h ← hFree h x2
    some (x1, h)
  else do
    let (a, h) ← hLazyLazyLoop o caps1 caps2 h x1.slots x2.slots
    some (⟨false, a⟩, h)

/-- The bitmap of an element of the queue: one of the caller, or one that was made on the way and that only the queue
knows. -/
inductive QRef where
  | user (i : Nat)
  | temp (x : HBitmap)

instance : Inhabited QRef := ⟨.user 0⟩

abbrev HPQ := PQOf QRef

/-- The containers of a bitmap, for the computation of its size. -/
def readSlots (h : Heap) : List Slot → Option Bitmap
  | [] => some []
  | (k, r) :: t => do
    let c ← readC h r
    let b ← readSlots h t
    some ((k, c) :: b)

/-- `roaring_bitmap_portable_size_in_bytes`: `src/roaring.c:1500-1502`. -/
def hSize (h : Heap) (x : HBitmap) : Option Nat := (readSlots h x.slots).map rbPortableSize

/-- The elements made by `create_pq` from the bitmaps of the caller: `src/roaring_priority_queue.c:75-80`. -/
def hPqElements (h : Heap) (p : List (Option HBitmap)) : List Nat → Option HPQ
  | [] => some []
  | i :: is => do
    let x ← poolGet p i
    let s ← hSize h x
    let t ← hPqElements h p is
    some (⟨s, false, .user i⟩ :: t)

/-- The new element made from two polled ones: `src/roaring_priority_queue.c:214-240`. -/
def hPqCombine (o : Nat → Bool) (caps1 caps2 : Nat → Nat) (h : Heap) (p : List (Option HBitmap))
    (x1 x2 : PQElemOf QRef) : Option (PQElemOf QRef × List (Option HBitmap) × Heap) :=
  match x1.isTemp, x1.bitmap, x2.isTemp, x2.bitmap with
  | true, .temp a, true, .temp b => do
    let (newb, h) ← hLazyLazy o caps1 caps2 h a b
    let s ← hSize h newb
    some (⟨s, true, .temp newb⟩, p, h)
  | false, .user i, true, .temp b => do
    let (b, p, h) ← poolUpd (hLazyOrInplace o false caps2) h p b i
    let s ← hSize h b
    some (⟨s, true, .temp b⟩, p, h)
  | true, .temp a, false, .user j => do
    let (a, p, h) ← poolUpd (hLazyOrInplace o false caps1) h p a j
    let s ← hSize h a
    some (⟨s, true, .temp a⟩, p, h)
  | false, .user i, false, .user j => do
    let (a, p, h) ← poolNew2 (hLazyOr o false) h p i j
    let s ← hSize h a
    some (⟨s, true, .temp a⟩, p, h)
  | _, _, _, _ => none

/-- The loop of `roaring_bitmap_or_many_heap`: `src/roaring_priority_queue.c:210-241`; `n` bounds the rounds, each of
which makes the queue one shorter. -/
def hPqLoop (o : Nat → Bool) (caps : Nat → Nat) :
    Nat → Heap → List (Option HBitmap) → HPQ → Option (HPQ × List (Option HBitmap) × Heap)
  | 0, h, p, pq => some (pq, p, h)
  | n + 1, h, p, pq =>
    if pq.length > 1 then do
      let x1 := pqPoll pq
      let x2 := pqPoll x1.2
      let (e, p, h) ← hPqCombine (round o (n + 1)) (round caps (2 * n)) (round caps (2 * n + 1)) h p x1.1 x2.1
      hPqLoop o caps n h p (pqAdd x2.2 e)
    else some (pq, p, h)

/-- `roaring_bitmap_or_many_heap`: `src/roaring_priority_queue.c:200-247`, with `create_pq`:
`src/roaring_priority_queue.c:69-85`.  An answer that is not a temporary bitmap would be a bitmap of the caller. -/
def hOrManyHeap (o : Nat → Bool) (caps : Nat → Nat) (h : Heap) (p : List (Option HBitmap)) :
    List Nat → Option (HBitmap × List (Option HBitmap) × Heap)
  | [] => some (hCreate false, p, h)
  | [i] => poolCopy h p i
  | i :: j :: is => do
    let l ← hPqElements h p (i :: j :: is)
    let (pq, p, h) ← hPqLoop o caps l.length h p (pqHeapify l (l.length / 2))
    match (pqPoll pq).1.bitmap with
    | .temp x => do
      let (a, h) ← hRepair (round o 0) h x
      some (a, p, h)
    | .user _ => none

/-! ### Shift -/

/-- `offset_append_with_merge`: `src/roaring.c:2122-2148`.  The last container is not unwrapped: it may not be
shared. -/
def hOffsetAppend (o : Nat → Bool) (caps : Nat → Nat) (h : Heap) (ra : List Slot) (k : Nat) (r : Ref) :
    Option (List Slot × Heap) :=
  let size := ra.length
  let last := slotAt ra (size - 1)
  if size = 0 ∨ last.1 ≠ k then some (ra ++ [(k, r)], h)
  else if last.2.sh then none
  else do
    let c1 ← readC h last.2
    let c2 ← readC h r
    let (r', h) ← replaceC (o k) h last.2 (containerIor (caps k) c1 c2)
    let h ← freeC h r
    some (ra.set (size - 1) (last.1, r'), h)

/-- The loop of `roaring_bitmap_add_offset` when the offset is a multiple of 65536: `src/roaring.c:2181-2190`: the cells
of the answer and of the argument. -/
def hOffsetKeys (cow : Bool) (co : Int) : Heap → List Slot → Option (List Slot × List Slot × Heap)
  | h, [] => some ([], [], h)
  | h, (k, r) :: t =>
    let key := (k : Int) + co
    if key < 0 ∨ key ≥ 65536 then do
      let (a, b, h) ← hOffsetKeys cow co h t
      some (a, (k, r) :: b, h)
    else do
      let (r1, r2, h) ← appendCopy cow h r
      let (a, b, h) ← hOffsetKeys cow co h t
      some ((key.toNat, r1) :: a, (k, r2) :: b, h)

/-- The container of the low part, when there is one: `src/roaring.c:2213-2216`. -/
def hOffsetPutLo (o : Nat → Bool) (caps : Nat → Nat) (h : Heap) (ans : List Slot) (k : Int) :
    Option Container → Option (List Slot × Heap)
  | some lo =>
    let p := newC h lo
    hOffsetAppend o caps p.2 ans k.toNat p.1
  | none => some (ans, h)

/-- The container of the high part, when there is one: `src/roaring.c:2217-2219`. -/
def hOffsetPutHi (h : Heap) (ans : List Slot) (k : Int) : Option Container → List Slot × Heap
  | some hi =>
    let p := newC h hi
    (ans ++ [((k + 1).toNat, p.1)], p.2)
  | none => (ans, h)

/-- The loop of `roaring_bitmap_add_offset` otherwise: `src/roaring.c:2199-2226`.  `container_add_offset` allocates the
two parts at once, and frees a part without values; here a part is allocated when it is appended. -/
def hOffsetLoop (o : Nat → Bool) (caps : Nat → Nat) (co : Int) (inOff : Nat) :
    Heap → List Slot → List Slot → Option (List Slot × Heap)
  | h, ans, [] => some (ans, h)
  | h, ans, (key, r) :: t =>
    let k := (key : Int) + co
    let loP : Bool := decide (k ≥ 0 ∧ k < 65536)
    let hiP : Bool := decide (k + 1 ≥ 0 ∧ k + 1 < 65536)
    if loP = false ∧ hiP = false then hOffsetLoop o caps co inOff h ans t
    else do
      let c ← readC h r
      let q := containerAddOffset c loP hiP inOff
      let (ans, h) ← hOffsetPutLo o caps h ans k q.1
      let (ans, h) := hOffsetPutHi h ans k q.2
      hOffsetLoop o caps co inOff h ans t

/-- `roaring_bitmap_add_offset`: `src/roaring.c:2155-2231`: the answer and the argument. -/
def hAddOffset (o : Nat → Bool) (caps : Nat → Nat) (h : Heap) (x : HBitmap) (offset : Int) :
    Option (HBitmap × HBitmap × Heap) :=
  if offset = 0 then hCopy h x
  else
    let co := offset / 65536
    let inOff := ((offset - co * 65536) % 65536).toNat
    if inOff = 0 then do
      let (a, b, h) ← hOffsetKeys x.cow co h x.slots
      some (⟨x.cow, a⟩, ⟨x.cow, b⟩, h)
    else do
      let (a, h) ← hOffsetLoop (round o 0) caps co inOff h [] x.slots
      let (a, h) ← hRepair (round o 1) h ⟨x.cow, a⟩
      some (a, x, h)

end CRoaring
