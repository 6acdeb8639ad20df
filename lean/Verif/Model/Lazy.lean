import Verif.Model.Bitmap

/-! Model of the lazy operations, their repair, the many-way operations and the shift by an offset: src/roaring.c,
src/roaring_priority_queue.c. -/

namespace CRoaring

/-- `container_to_bitset`: `include/roaring/containers/containers.h:154-173`. -/
def containerToBitset : Container → Bitset
  | .bitset b => b
  | .array l => bitsetFromArray l
  | .run rs => bitsetFromRun rs

def isBitset : Container → Bool
  | .bitset _ => true
  | _ => false

/-- The case of equal keys in `roaring_bitmap_lazy_or`: `src/roaring.c:2261-2274`.  The capacity only matters for
arrays, and the first operand of the in-place operation is a bitset here. -/
def chooseLazyOr (conv : Bool) (c1 c2 : Container) : Container :=
  if conv && !isBitset c1 && !isBitset c2 then containerLazyIor 0 (.bitset (containerToBitset c1)) c2
  else containerLazyOr c1 c2

/-- The loop of `roaring_bitmap_lazy_or` and the appended rest: `src/roaring.c:2253-2321`. -/
def rbLazyOrLoop (conv : Bool) : Bitmap → Bitmap → Bitmap
  | [], x2 => x2
  | x1, [] => x1
  | (s1, c1) :: t1, (s2, c2) :: t2 =>
    if s1 = s2 then (s1, chooseLazyOr conv c1 c2) :: rbLazyOrLoop conv t1 t2
    else if s1 < s2 then (s1, c1) :: rbLazyOrLoop conv t1 ((s2, c2) :: t2)
    else (s2, c2) :: rbLazyOrLoop conv ((s1, c1) :: t1) t2
termination_by x1 x2 => x1.length + x2.length

/-- `roaring_bitmap_lazy_or`: `src/roaring.c:2233-2322`. -/
def rbLazyOr (conv : Bool) (x1 x2 : Bitmap) : Bitmap :=
  if x1.length = 0 then rbCopy x2 else if x2.length = 0 then rbCopy x1 else rbLazyOrLoop conv x1 x2

/-- The case of equal keys in `roaring_bitmap_lazy_or_inplace`: `src/roaring.c:2344-2372`. -/
def chooseLazyIor (conv : Bool) (capacity : Nat) (c1 c2 : Container) : Container :=
  if !containerIsFull c1 then
    let c1' := if conv = false || isBitset c1 then c1 else .bitset (containerToBitset c1)
    containerLazyIor capacity c1' c2
  else c1

/-- The loop of `roaring_bitmap_lazy_or_inplace` and the appended rest: `src/roaring.c:2341-2405`.  `caps` gives the
allocated capacity of the containers of the first operand by key. -/
def rbLazyOrInplaceLoop (conv : Bool) (caps : Nat → Nat) : Bitmap → Bitmap → Bitmap
  | [], x2 => x2
  | x1, [] => x1
  | (s1, c1) :: t1, (s2, c2) :: t2 =>
    if s1 = s2 then (s1, chooseLazyIor conv (caps s1) c1 c2) :: rbLazyOrInplaceLoop conv caps t1 t2
    else if s1 < s2 then (s1, c1) :: rbLazyOrInplaceLoop conv caps t1 ((s2, c2) :: t2)
    else (s2, c2) :: rbLazyOrInplaceLoop conv caps ((s1, c1) :: t1) t2
termination_by x1 x2 => x1.length + x2.length

/-- `roaring_bitmap_lazy_or_inplace`: `src/roaring.c:2324-2406`. -/
def rbLazyOrInplace (conv : Bool) (caps : Nat → Nat) (x1 x2 : Bitmap) : Bitmap :=
  if x2.length = 0 then x1 else if x1.length = 0 then rbOverwrite x1 x2 else rbLazyOrInplaceLoop conv caps x1 x2

/-- The loop of `roaring_bitmap_lazy_xor` and the appended rest: `src/roaring.c:2427-2484`. -/
def rbLazyXorLoop : Bitmap → Bitmap → Bitmap
  | [], x2 => x2
  | x1, [] => x1
  | (s1, c1) :: t1, (s2, c2) :: t2 =>
    if s1 = s2 then
      let c := containerLazyXor c1 c2
      if containerNonzero c then (s1, c) :: rbLazyXorLoop t1 t2 else rbLazyXorLoop t1 t2
    else if s1 < s2 then (s1, c1) :: rbLazyXorLoop t1 ((s2, c2) :: t2)
    else (s2, c2) :: rbLazyXorLoop ((s1, c1) :: t1) t2
termination_by x1 x2 => x1.length + x2.length

/-- `roaring_bitmap_lazy_xor`: `src/roaring.c:2408-2485`. -/
def rbLazyXor (x1 x2 : Bitmap) : Bitmap :=
  if x1.length = 0 then rbCopy x2 else if x2.length = 0 then rbCopy x1 else rbLazyXorLoop x1 x2

/-- The choice of `src/roaring.c:2517-2523`. -/
def chooseLazyXor (shared : Bool) (c1 c2 : Container) : Container :=
  if shared then containerLazyXor c1 c2 else containerLazyIxor c1 c2

/-- The loop of `roaring_bitmap_lazy_xor_inplace` and the appended rest: `src/roaring.c:2504-2566`. -/
def rbLazyXorInplaceLoop (shared : Nat → Bool) : Bitmap → Bitmap → Bitmap
  | [], x2 => x2
  | x1, [] => x1
  | (s1, c1) :: t1, (s2, c2) :: t2 =>
    if s1 = s2 then
      let c := chooseLazyXor (shared s1) c1 c2
      if containerNonzero c then (s1, c) :: rbLazyXorInplaceLoop shared t1 t2 else rbLazyXorInplaceLoop shared t1 t2
    else if s1 < s2 then (s1, c1) :: rbLazyXorInplaceLoop shared t1 ((s2, c2) :: t2)
    else (s2, c2) :: rbLazyXorInplaceLoop shared ((s1, c1) :: t1) t2
termination_by x1 x2 => x1.length + x2.length

/-- `roaring_bitmap_lazy_xor_inplace`: `src/roaring.c:2487-2567` (`x1` and `x2` are distinct objects). -/
def rbLazyXorInplace (shared : Nat → Bool) (x1 x2 : Bitmap) : Bitmap :=
  if x2.length = 0 then x1 else if x1.length = 0 then rbOverwrite x1 x2 else rbLazyXorInplaceLoop shared x1 x2

/-- `roaring_bitmap_repair_after_lazy`: `src/roaring.c:2569-2580`. -/
def rbRepair (r : Bitmap) : Bitmap := r.map (fun p => (p.1, containerRepair p.2))

/-- `roaring_bitmap_or_many`: `src/roaring.c:742-757`.  `caps i` gives the capacities at step `i`. -/
def rbOrMany (caps : Nat → Nat → Nat) : List Bitmap → Bitmap
  | [] => []
  | [x0] => rbCopy x0
  | x0 :: x1 :: xs =>
    let answer := rbLazyOr true x0 x1
    let answer := (xs.zipIdx).foldl (fun a p => rbLazyOrInplace true (caps p.2) a p.1) answer
    rbRepair answer

/-- `roaring_bitmap_xor_many`: `src/roaring.c:762-777`.  `shared i` tells the shared containers of the answer at
step `i`. -/
def rbXorMany (shared : Nat → Nat → Bool) : List Bitmap → Bitmap
  | [] => []
  | [x0] => rbCopy x0
  | x0 :: x1 :: xs =>
    let answer := rbLazyXor x0 x1
    let answer := (xs.zipIdx).foldl (fun a p => rbLazyXorInplace (shared p.2) a p.1) answer
    rbRepair answer

/-! ### The priority queue -/

/-- `roaring_pq_element_t`: `src/roaring_priority_queue.c:12-18`.  `β` stands for the pointer to the bitmap: a bitmap
here, and in `Verif/Model/CowMany.lean` a bitmap in memory. -/
structure PQElemOf (β : Type) where
  size : Nat
  isTemp : Bool
  bitmap : β

/-- The queue: the first `size` cells of `elements`, `src/roaring_priority_queue.c:20-25`. -/
abbrev PQOf (β : Type) := List (PQElemOf β)

abbrev PQElem := PQElemOf Bitmap
abbrev PQ := PQOf Bitmap

section queue
variable {β : Type} [Inhabited β]

/-- What is outside the queue (never read). -/
def pqNil : PQElemOf β := ⟨0, false, default⟩

/-- `elements[i]`. -/
def pqAt (pq : PQOf β) (i : Nat) : PQElemOf β := pq.getD i pqNil

/-- The loop of `pq_add`: `src/roaring_priority_queue.c:34-41`; `i` is the free position. -/
def pqUp (t : PQElemOf β) (pq : PQOf β) (i : Nat) : PQOf β :=
  if _h : i > 0 then
    let p := (i - 1) >>> 1
    if t.size < (pqAt pq p).size then pqUp t (pq.set i (pqAt pq p)) p
    else pq.set i t
  else pq.set i t
termination_by i
decreasing_by simp only [Nat.shiftRight_eq_div_pow]; omega

/-- `pq_add`: `src/roaring_priority_queue.c:31-42`. -/
def pqAdd (pq : PQOf β) (t : PQElemOf β) : PQOf β := pqUp t (pq ++ [t]) pq.length

/-- The better child of position `i`: `src/roaring_priority_queue.c:51-59`. -/
def pqBest (pq : PQOf β) (i : Nat) : Nat :=
  let l := 2 * i + 1
  if l + 1 < pq.length ∧ (pqAt pq (l + 1)).size < (pqAt pq l).size then l + 1 else l

/-- The loop of `percolate_down`: `src/roaring_priority_queue.c:50-66`; `ai` is the element being moved.  The queue
has fewer than 2^32 elements. -/
def pqDown (ai : PQElemOf β) (pq : PQOf β) (i : Nat) : PQOf β :=
  if _h : i < pq.length / 2 then
    let l := pqBest pq i
    if (pqAt pq l).size < ai.size then pqDown ai (pq.set i (pqAt pq l)) l
    else pq.set i ai
  else pq.set i ai
termination_by pq.length - i
decreasing_by
  simp only [List.length_set, pqBest]
  split <;> omega

/-- `percolate_down`: `src/roaring_priority_queue.c:46-67`. -/
def percolateDown (pq : PQOf β) (i : Nat) : PQOf β := pqDown (pqAt pq i) pq i

/-- The loop of `create_pq`: `src/roaring_priority_queue.c:81-83`: `percolate_down` at `i`, `i - 1`, ..., `0`. -/
def pqHeapify (pq : PQOf β) : Nat → PQOf β
  | 0 => percolateDown pq 0
  | i + 1 => pqHeapify (percolateDown pq (i + 1)) i

/-- `create_pq`: `src/roaring_priority_queue.c:69-85`.  `sz` gives the size of a bitmap
(`roaring_bitmap_portable_size_in_bytes`). -/
def createPq (sz : β → Nat) (arr : List β) : PQOf β :=
  pqHeapify (arr.map (fun r => ⟨sz r, false, r⟩)) (arr.length / 2)

/-- `pq_poll`: `src/roaring_priority_queue.c:87-96`. -/
def pqPoll (pq : PQOf β) : PQElemOf β × PQOf β :=
  let ans := pqAt pq 0
  if pq.length > 1 then
    let last := pqAt pq (pq.length - 1)
    (ans, percolateDown ((pq.take (pq.length - 1)).set 0 last) 0)
  else (ans, pq.take (pq.length - 1))

end queue

/-- The case of equal keys in `lazy_or_from_lazy_inputs`: `src/roaring_priority_queue.c:135-152`. -/
def chooseLazyLazy (cap1 cap2 : Nat) (c1 c2 : Container) : Container :=
  if isBitset c2 && !isBitset c1 then containerLazyIor cap2 c2 c1 else containerLazyIor cap1 c1 c2

/-- The loop of `lazy_or_from_lazy_inputs` and the appended rest: `src/roaring_priority_queue.c:116-186`. -/
def rbLazyLazyLoop (caps1 caps2 : Nat → Nat) : Bitmap → Bitmap → Bitmap
  | [], x2 => x2
  | x1, [] => x1
  | (s1, c1) :: t1, (s2, c2) :: t2 =>
    if s1 = s2 then (s1, chooseLazyLazy (caps1 s1) (caps2 s1) c1 c2) :: rbLazyLazyLoop caps1 caps2 t1 t2
    else if s1 < s2 then (s1, c1) :: rbLazyLazyLoop caps1 caps2 t1 ((s2, c2) :: t2)
    else (s2, c2) :: rbLazyLazyLoop caps1 caps2 ((s1, c1) :: t1) t2
termination_by x1 x2 => x1.length + x2.length

/-- `lazy_or_from_lazy_inputs`: `src/roaring_priority_queue.c:99-192`. -/
def lazyOrFromLazyInputs (caps1 caps2 : Nat → Nat) (x1 x2 : Bitmap) : Bitmap :=
  if x1.length = 0 then x2 else if x2.length = 0 then x1 else rbLazyLazyLoop caps1 caps2 x1 x2

/-- The new element made from two polled ones: `src/roaring_priority_queue.c:214-240`.  (`temporary` is always true in
the first case: `newb` is not both operands.) -/
def pqCombine (sz : Bitmap → Nat) (caps1 caps2 : Nat → Nat) (x1 x2 : PQElem) : PQElem :=
  if x1.isTemp && x2.isTemp then
    let newb := lazyOrFromLazyInputs caps1 caps2 x1.bitmap x2.bitmap
    ⟨sz newb, true, newb⟩
  else if x2.isTemp then
    let b := rbLazyOrInplace false caps2 x2.bitmap x1.bitmap
    ⟨sz b, true, b⟩
  else if x1.isTemp then
    let b := rbLazyOrInplace false caps1 x1.bitmap x2.bitmap
    ⟨sz b, true, b⟩
  else
    let newb := rbLazyOr false x1.bitmap x2.bitmap
    ⟨sz newb, true, newb⟩

/-- The loop of `roaring_bitmap_or_many_heap`: `src/roaring_priority_queue.c:210-241`.  Each round makes the queue one
shorter; `n` counts the rounds. -/
def pqLoop (sz : Bitmap → Nat) (caps : Nat → Nat → Nat) : Nat → PQ → PQ
  | 0, pq => pq
  | n + 1, pq =>
    if pq.length > 1 then
      let (x1, pq1) := pqPoll pq
      let (x2, pq2) := pqPoll pq1
      pqLoop sz caps n (pqAdd pq2 (pqCombine sz (caps (2 * n)) (caps (2 * n + 1)) x1 x2))
    else pq

/-- `roaring_bitmap_or_many_heap`: `src/roaring_priority_queue.c:200-247`. -/
def rbOrManyHeap (sz : Bitmap → Nat) (caps : Nat → Nat → Nat) : List Bitmap → Bitmap
  | [] => []
  | [x0] => rbCopy x0
  | x0 :: x1 :: xs =>
    let pq := createPq sz (x0 :: x1 :: xs)
    let pq := pqLoop sz caps pq.length pq
    rbRepair (pqPoll pq).1.bitmap

/-! ### Shift -/

/-- `offset_append_with_merge`: `src/roaring.c:2122-2148`; `caps` gives the capacity of the last container by key. -/
def offsetAppendWithMerge (caps : Nat → Nat) (ra : Bitmap) (k : Nat) (c : Container) : Bitmap :=
  let size := ra.length
  if size = 0 ∨ keyAt ra (size - 1) ≠ k then ra ++ [(k, c)]
  else ra.set (size - 1) (keyAt ra (size - 1), containerIor (caps k) (contAt ra (size - 1)) c)

/-- The loop of `roaring_bitmap_add_offset` when the offset is a multiple of 65536: `src/roaring.c:2181-2190`. -/
def offsetKeys (co : Int) (r : Bitmap) : Bitmap :=
  r.filterMap (fun p =>
    let key := (p.1 : Int) + co
    if key < 0 ∨ key ≥ 65536 then none else some (key.toNat, p.2))

/-- The container of the low part, when there is one: `src/roaring.c:2213-2216`. -/
def offsetPutLo (caps : Nat → Nat) (ans : Bitmap) (k : Int) : Option Container → Bitmap
  | some lo => offsetAppendWithMerge caps ans k.toNat lo
  | none => ans

/-- The container of the high part, when there is one: `src/roaring.c:2217-2223`. -/
def offsetPutHi (ans : Bitmap) (k : Int) : Option Container → Bitmap
  | some hi => ans ++ [((k + 1).toNat, hi)]
  | none => ans

/-- The loop of `roaring_bitmap_add_offset` otherwise: `src/roaring.c:2199-2226`. -/
def offsetLoop (caps : Nat → Nat) (co : Int) (inOff : Nat) : Bitmap → Bitmap → Bitmap
  | ans, [] => ans
  | ans, (key, c) :: t =>
    let k := (key : Int) + co
    let loP : Bool := decide (k ≥ 0 ∧ k < 65536)
    let hiP : Bool := decide (k + 1 ≥ 0 ∧ k + 1 < 65536)
    if loP = false ∧ hiP = false then offsetLoop caps co inOff ans t
    else
      let r := containerAddOffset c loP hiP inOff
      offsetLoop caps co inOff (offsetPutHi (offsetPutLo caps ans k r.1) k r.2) t

/-- `roaring_bitmap_add_offset`: `src/roaring.c:2155-2231`. -/
def rbAddOffset (caps : Nat → Nat) (bm : Bitmap) (offset : Int) : Bitmap :=
  if offset = 0 then rbCopy bm
  else
    let co := offset / 65536
    let inOff := ((offset - co * 65536) % 65536).toNat
    if inOff = 0 then offsetKeys co bm else rbRepair (offsetLoop caps co inOff [] bm)

end CRoaring
