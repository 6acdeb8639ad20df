import Verif.Model.Serial
/-
A container shared by copies of bitmaps in different threads (copy-on-write): src/containers/containers.c:169-250,
include/roaring/portability.h:477-570.  One `shared_container_t` and the container in it; each thread holds some references to it.  A step is
one atomic operation, or one visit to the container.
-/
namespace CRoaring

/-- The container inside: reached through the `shared_container_t`; taken over by one bitmap, which may change it; or released. -/
inductive Inner where
  | shared
  | owned
  | freed
deriving DecidableEq

/-- The memory: the counter, whether the `shared_container_t` is allocated, and its container. -/
structure ShMem where
  counter : Nat
  live : Bool
  inner : Inner
deriving DecidableEq

/-- What a thread does with one of its bitmaps: query it, copy it, release it, modify it; or go on with what it began. -/
inductive Act where
  | query
  | copy
  | free
  | modify
  | go
deriving DecidableEq

/-- Where a thread is: between operations; about to visit the container for a query; about to release container and `shared_container_t`; about
to take the container over (src/containers/containers.c:233-235); about to copy it (237). -/
inductive ThPc where
  | idle
  | visit
  | release
  | take
  | clone
deriving DecidableEq

/-- A thread: how many of its bitmaps refer to the shared container, and where it is. -/
structure Th where
  refs : Nat
  pc : ThPc
deriving DecidableEq

/-- How `croaring_refcount_dec` decides, from the old value of the counter, that the reference was the last: with C, C++ or Windows atomics
(include/roaring/portability.h:490-503, 513-520, 539-541). -/
def decAtomic (old : Nat) : Bool := old == 1

/-- With `CROARING_ATOMIC_IMPL_NONE`: `return val == 0;` compares the pointer (include/roaring/portability.h:559-563). -/
def decNone (_old : Nat) : Bool := false

/-- `croaring_refcount_inc`: a 32-bit counter (include/roaring/portability.h:482-488, 509-511, 535-537, 555-557). -/
def incRef (c : Nat) : Nat := (c + 1) % 2 ^ 32

/-- The counter after `croaring_refcount_dec` (include/roaring/portability.h:490-503, 513-520, 539-541, 559-563). -/
def decRef (c : Nat) : Nat := (c + (2 ^ 32 - 1)) % 2 ^ 32

/-- One step of a thread.  Without a reference it has nothing to do; `oob` is an access to released memory, or to a container that another thread
has taken over. -/
def thStep (dec : Nat → Bool) (m : ShMem) (th : Th) (a : Act) : Out (ShMem × Th) :=
  match th.pc with
  | .visit => if m.inner = .shared then .ok (m, { th with pc := .idle }) else .oob
  | .release =>   -- `shared_container_free`, the branch: src/containers/containers.c:245-248
    if m.live ∧ m.inner = .shared then .ok ({ m with live := false, inner := .freed }, { th with pc := .idle }) else .oob
  | .take =>      -- `answer = sc->container; roaring_free(sc);`: 233-235
    if m.live ∧ m.inner = .shared then .ok ({ m with live := false, inner := .owned }, { th with pc := .idle }) else .oob
  | .clone =>     -- `container_clone(sc->container, *typecode)`: 237
    if m.live ∧ m.inner = .shared then .ok (m, { th with pc := .idle }) else .oob
  | .idle =>
    if th.refs = 0 ∨ a = .go then .ok (m, th)
    else if ¬ m.live then .oob
    else match a with
      | .query => .ok (m, { th with pc := .visit })   -- `container_unwrap_shared`
      | .copy => .ok ({ m with counter := incRef m.counter }, { th with refs := th.refs + 1 })   -- `get_copy_of_container`: 173-176
      | .free => .ok ({ m with counter := decRef m.counter },
          { refs := th.refs - 1, pc := if dec m.counter then .release else .idle })
      | .modify => .ok ({ m with counter := decRef m.counter },
          { refs := th.refs - 1, pc := if dec m.counter then .take else .clone })
      | .go => .ok (m, th)

/-- One step of thread `e.1`. -/
def thStepAt (dec : Nat → Bool) (s : ShMem × List Th) (e : Nat × Act) : Out (ShMem × List Th) :=
  match s.2[e.1]? with
  | none => .ok s
  | some th => do
    let r ← thStep dec s.1 th e.2
    .ok (r.1, s.2.set e.1 r.2)

/-- A schedule: which thread makes a step, and what it starts if it is between operations. -/
def thRun (dec : Nat → Bool) : List (Nat × Act) → ShMem × List Th → Out (ShMem × List Th)
  | [], s => .ok s
  | e :: sched, s => do
    let s ← thStepAt dec s e
    thRun dec sched s

/-- Threads with so many references each, made beforehand. -/
def thStart (refs : List Nat) : ShMem × List Th :=
  ({ counter := refs.sum, live := true, inner := .shared }, refs.map (fun n => { refs := n, pc := .idle }))

end CRoaring
