import Verif.Model.MixedUnion
import Verif.Model.MixedDiff
import Verif.Model.MixedRel
import Verif.Model.Serial
/-
The run routines on memory: a run container is a buffer of `capacity` runs of which the first `n_runs` are its contents
(include/roaring/containers/run.h:53-58).  Every access to a buffer is checked against its capacity; `.oob` is an access outside it.
The contents of new memory are arbitrary: `fresh n` is whatever `malloc` returns for `n` runs.  Allocation succeeds.

The searches read the runs below `n_runs` only and are taken from Model/Run.
-/
namespace CRoaring

/-- `run_container_t`: include/roaring/containers/run.h:53-58; `mem` has `capacity` runs. -/
structure RunBuf where
  n : Nat
  mem : List Rle
deriving DecidableEq

/-- The contents. -/
def RunBuf.vals (b : RunBuf) : List Rle := b.mem.take b.n

/-- `runs[i]`. -/
def rdRun (mem : List Rle) (i : Nat) : Out Rle :=
  match mem[i]? with
  | some r => .ok r
  | none => .oob

/-- `runs[i] = r`. -/
def wrRun (mem : List Rle) (i : Nat) (r : Rle) : Out (List Rle) := if i < mem.length then .ok (mem.set i r) else .oob

/-- `memcpy(runs + i, v, …)` of the runs `v`. -/
def cpRuns (mem : List Rle) (i : Nat) (v : List Rle) : Out (List Rle) :=
  if i + v.length ≤ mem.length then .ok (mem.take i ++ v ++ mem.drop (i + v.length)) else .oob

/-- The `count` runs from `runs + i` on, as the source of a copy. -/
def getRuns (mem : List Rle) (i count : Nat) : Out (List Rle) :=
  if i + count ≤ mem.length then .ok ((mem.drop i).take count) else .oob

/-- `memmove(runs + dst, runs + src, count * sizeof(rle16_t))`. -/
def mvRuns (mem : List Rle) (dst src count : Nat) : Out (List Rle) := do
  let v ← getRuns mem src count
  cpRuns mem dst v

/-- `run->runs[i] = r`. -/
def RunBuf.put (b : RunBuf) (i : Nat) (r : Rle) : Out RunBuf := do
  let mem ← wrRun b.mem i r
  .ok { b with mem := mem }

/-- The new capacity in `run_container_grow`: src/containers/run.c:198-202 (`RUN_DEFAULT_INIT_SIZE` is 0:
include/roaring/containers/perfparameters.h:21). -/
def runNewCapacity (capacity min : Nat) : Nat :=
  let newCapacity := if capacity = 0 then 0 else if capacity < 64 then capacity * 2 else if capacity < 1024 then capacity * 3 / 2
    else capacity * 5 / 4
  if newCapacity < min then min else newCapacity

/-- `run_container_grow`: src/containers/run.c:197-215. -/
def runGrow (fresh : Nat → List Rle) (b : RunBuf) (min : Nat) (copy : Bool) : RunBuf :=
  let cap := runNewCapacity b.mem.length min
  { b with mem := if copy then b.mem.take cap ++ (fresh cap).drop b.mem.length else fresh cap }

/-- `run_container_create_given_capacity`: src/containers/run.c:89-106; `run_container_create` (119-121) has
`RUN_DEFAULT_INIT_SIZE`, which is 0. -/
def runCreateBuf (fresh : Nat → List Rle) (size : Nat) : RunBuf := ⟨0, fresh size⟩

/-- `run_container_copy`: src/containers/run.c:218-225. -/
def runCopyBuf (fresh : Nat → List Rle) (src dst : RunBuf) : Out RunBuf := do
  let dst := if src.n > dst.mem.length then runGrow fresh dst src.n false else dst
  let v ← getRuns src.mem 0 src.n
  let mem ← cpRuns dst.mem 0 v
  .ok ⟨src.n, mem⟩

/-- `run_container_clone`: src/containers/run.c:124-131. -/
def runCloneBuf (fresh : Nat → List Rle) (src : RunBuf) : Out RunBuf := do
  let v ← getRuns src.mem 0 src.n
  let mem ← cpRuns (fresh src.mem.length) 0 v
  .ok ⟨src.n, mem⟩

/-- `run_container_shrink_to_fit`: src/containers/run.c:108-117 (a `realloc` to a smaller size succeeds). -/
def runShrinkBuf (b : RunBuf) : RunBuf × Nat :=
  if b.n = b.mem.length then (b, 0) else (⟨b.n, b.mem.take b.n⟩, b.mem.length - b.n)

/-- `recoverRoomAtIndex`: include/roaring/containers/run.h:94-98. -/
def recoverRoomBuf (b : RunBuf) (index : Nat) : Out RunBuf := do
  let mem ← mvRuns b.mem index (1 + index) (b.n - index - 1)
  .ok ⟨b.n - 1, mem⟩

/-- `makeRoomAtIndex`: include/roaring/containers/run.h:200-209. -/
def makeRoomBuf (fresh : Nat → List Rle) (b : RunBuf) (index : Nat) : Out RunBuf := do
  let b := if b.n + 1 > b.mem.length then runGrow fresh b (b.n + 1) true else b
  let mem ← mvRuns b.mem (1 + index) index (b.n - index)
  .ok ⟨b.n + 1, mem⟩

/-- `makeRoomAtIndex(run, (uint16_t)index)` and the stores into the new run: run.c:82-84, run.h:235-237, 605-607, 670-674. -/
def insertRunBuf (fresh : Nat → List Rle) (b : RunBuf) (index : Nat) (r : Rle) : Out RunBuf := do
  let b ← makeRoomBuf fresh b (index % 65536)
  b.put index r

/-- `runs[i]` if there is such a run. -/
def nextRun (b : RunBuf) (i : Nat) : Out (Option Rle) :=
  if i < b.n then do
    let r ← rdRun b.mem i
    .ok (some r)
  else .ok none

/-- `run_container_add`: src/containers/run.c:39-86. -/
def runAddBuf (fresh : Nat → List Rle) (b : RunBuf) (pos : Nat) : Out (RunBuf × Bool) :=
  let index := interleavedBinarySearch b.vals pos
  if index ≥ 0 then .ok (b, false)
  else
    let index := -index - 2
    if index ≥ 0 then do
      let i := index.toNat
      let r ← rdRun b.mem i
      if (pos : Int) - r.1 ≤ r.2 then .ok (b, false)
      else
        let next ← nextRun b (i + 1)
        if (pos : Int) - r.1 = r.2 + 1 then
          match next with
          | some nx =>
            if nx.1 = pos + 1 then do
              let b ← b.put i (r.1, u16 ((nx.1 : Int) + nx.2 - r.1))
              let b ← recoverRoomBuf b ((i + 1) % 65536)
              .ok (b, true)
            else do
              let b ← b.put i (r.1, (r.2 + 1) % 65536)
              .ok (b, true)
          | none => do
            let b ← b.put i (r.1, (r.2 + 1) % 65536)
            .ok (b, true)
        else
          match next with
          | some nx =>
            if nx.1 = pos + 1 then do
              let b ← b.put (i + 1) (pos, (nx.2 + 1) % 65536)
              .ok (b, true)
            else do
              let b ← insertRunBuf fresh b (i + 1) (pos, 0)
              .ok (b, true)
          | none => do
            let b ← insertRunBuf fresh b (i + 1) (pos, 0)
            .ok (b, true)
    else do
      let next ← nextRun b 0
      match next with
      | some nx =>
        if nx.1 = pos + 1 then do
          let b ← b.put 0 (u16 ((nx.1 : Int) - 1), (nx.2 + 1) % 65536)
          .ok (b, true)
        else do
          let b ← insertRunBuf fresh b (index + 1).toNat (pos, 0)
          .ok (b, true)
      | none => do
        let b ← insertRunBuf fresh b (index + 1).toNat (pos, 0)
        .ok (b, true)

/-- `run_container_remove`: include/roaring/containers/run.h:215-249. -/
def runRemoveBuf (fresh : Nat → List Rle) (b : RunBuf) (pos : Nat) : Out (RunBuf × Bool) :=
  let index := interleavedBinarySearch b.vals pos
  if index ≥ 0 then do
    let i := index.toNat
    let r ← rdRun b.mem i
    if r.2 = 0 then do
      let b ← recoverRoomBuf b (i % 65536)
      .ok (b, true)
    else do
      let b ← b.put i ((r.1 + 1) % 65536, u16 ((r.2 : Int) - 1))
      .ok (b, true)
  else
    let index := -index - 2
    if index ≥ 0 then do
      let i := index.toNat
      let r ← rdRun b.mem i
      let offset : Int := (pos : Int) - r.1
      if offset < r.2 then do
        let b ← b.put i (r.1, u16 (offset - 1))
        let b ← insertRunBuf fresh b (i + 1) ((pos + 1) % 65536, u16 ((r.2 : Int) - offset - 1))
        .ok (b, true)
      else if offset = r.2 then do
        let b ← b.put i (r.1, u16 ((r.2 : Int) - 1))
        .ok (b, true)
      else .ok (b, false)
    else .ok (b, false)

/-- `run_container_add_range_nruns`: include/roaring/containers/run.h:599-623. -/
def runAddRangeBuf (fresh : Nat → List Rle) (b : RunBuf) (min max nruns_less nruns_greater : Nat) : Out RunBuf :=
  let nruns_common := b.n - nruns_less - nruns_greater
  if nruns_common = 0 then insertRunBuf fresh b nruns_less (min % 65536, u16 ((max : Int) - min))
  else do
    let f ← rdRun b.mem nruns_less
    let l ← rdRun b.mem (nruns_less + nruns_common - 1)
    let result_min := if f.1 < min then f.1 else min
    let result_max := if l.1 + l.2 > max then l.1 + l.2 else max
    let b ← b.put nruns_less (result_min % 65536, u16 ((result_max : Int) - result_min))
    let mem ← mvRuns b.mem (nruns_less + 1) (b.n - nruns_greater) nruns_greater
    .ok ⟨nruns_less + 1 + nruns_greater, mem⟩

/-- The counting of runs in `container_add_range` and the call: include/roaring/containers/containers.h:2312-2329, for the case that
the result stays a run container. -/
def runAddRangeCounted (fresh : Nat → List Rle) (b : RunBuf) (min max : Nat) : Out RunBuf :=
  let nruns_greater := (rle16CountGreater b.vals b.n (max % 65536)).toNat
  let nruns_less := (rle16CountLess b.vals (b.n - nruns_greater) (min % 65536)).toNat
  runAddRangeBuf fresh b min max nruns_less nruns_greater

/-- `run_container_shift_tail(run, count, -distance)`: include/roaring/containers/run.h:641-653 (only called to shift to the left). -/
def shiftTailBuf (b : RunBuf) (count distance : Nat) : Out RunBuf := do
  let mem ← mvRuns b.mem (b.n - count - distance) (b.n - count) count
  .ok ⟨b.n - distance, mem⟩

/-- The end of `run_container_remove_range`: include/roaring/containers/run.h:705-709. -/
def removeBetween (b : RunBuf) (first last : Int) : Out RunBuf :=
  if first ≤ last then shiftTailBuf b (b.n - (last + 1).toNat) (last - first + 1).toNat else .ok b

/-- The update of the right-most run in `run_container_remove_range`: include/roaring/containers/run.h:692-703. -/
def removeRight (b : RunBuf) (max : Nat) (last : Int) : Out (RunBuf × Int) :=
  if last ≥ 0 then do
    let rl ← rdRun b.mem last.toNat
    let run_max := (rl.1 + rl.2) % 65536
    if run_max > max then do
      let b ← b.put last.toNat ((max + 1) % 65536, u16 ((run_max : Int) - (max + 1)))
      .ok (b, last - 1)
    else .ok (b, last)
  else .ok (b, (-last - 1) - 1)

/-- `run_container_remove_range`: include/roaring/containers/run.h:658-710. -/
def runRemoveRangeBuf (fresh : Nat → List Rle) (b : RunBuf) (min max : Nat) : Out RunBuf :=
  let first := rle16FindRun b.vals (min % 65536)
  let last := rle16FindRun b.vals (max % 65536)
  if first ≥ 0 then do
    let rf ← rdRun b.mem first.toNat
    if min > rf.1 ∧ max < rf.1 + rf.2 then do
      let b ← insertRunBuf fresh b (first.toNat + 1) ((max + 1) % 65536, u16 ((rf.1 : Int) + rf.2 - (max + 1)))
      b.put first.toNat (rf.1, u16 ((min : Int) - 1 - rf.1))
    else if min > rf.1 then do
      let b ← b.put first.toNat (rf.1, u16 ((min : Int) - 1 - rf.1))
      let r ← removeRight b max last
      removeBetween r.1 (first + 1) r.2
    else do
      let r ← removeRight b max last
      removeBetween r.1 first r.2
  else do
    let r ← removeRight b max last
    removeBetween r.1 (-first - 1) r.2

/-! ### Appending -/

/-- A container under construction and `previousrl`; `none` before the first run. -/
abbrev RunAcc := RunBuf × Option Rle

/-- `run_container_append`: include/roaring/containers/run.h:323-337, and `run_container_append_first`, 342-347. -/
def appendBuf (s : RunAcc) (vl : Rle) : Out RunAcc :=
  match s.2 with
  | none => do
    let mem ← wrRun s.1.mem s.1.n vl
    .ok (⟨s.1.n + 1, mem⟩, some vl)
  | some p =>
    let previousend := p.1 + p.2
    if vl.1 > previousend + 1 then do
      let mem ← wrRun s.1.mem s.1.n vl
      .ok (⟨s.1.n + 1, mem⟩, some vl)
    else
      let newend := vl.1 + vl.2 + 1
      if newend > previousend then do
        let p' := (p.1, u16 ((newend : Int) - 1 - p.1))
        let b ← s.1.put (s.1.n - 1) p'
        .ok (b, some p')
      else .ok s

/-- `run_container_append_value`: include/roaring/containers/run.h:358-370, and `run_container_append_value_first`, 376-382. -/
def appendValueBuf (s : RunAcc) (val : Nat) : Out RunAcc :=
  match s.2 with
  | none => do
    let mem ← wrRun s.1.mem s.1.n (val, 0)
    .ok (⟨s.1.n + 1, mem⟩, some (val, 0))
  | some p =>
    let previousend := p.1 + p.2
    if val > previousend + 1 then do
      let mem ← wrRun s.1.mem s.1.n (val, 0)
      .ok (⟨s.1.n + 1, mem⟩, some (val, 0))
    else if val = previousend + 1 then do
      let p' := (p.1, (p.2 + 1) % 65536)
      let b ← s.1.put (s.1.n - 1) p'
      .ok (b, some p')
    else .ok s

/-- `*appended_last_run = r; src->n_runs++`. -/
def RunBuf.push (b : RunBuf) (r : Rle) : Out RunBuf := do
  let mem ← wrRun b.mem b.n r
  .ok ⟨b.n + 1, mem⟩

/-- `run_container_smart_append_exclusive`: src/containers/run.c:798-841. -/
def smartAppendBuf (b : RunBuf) (start length : Nat) : Out RunBuf :=
  if b.n = 0 then b.push (start, length)
  else do
    let p ← rdRun b.mem (b.n - 1)
    let old_end := p.1 + p.2 + 1
    if start > old_end then b.push (start, length)
    else if old_end = start then b.put (b.n - 1) (p.1, (p.2 + (length + 1)) % 65536)
    else
      let new_end := start + length + 1
      if start = p.1 then
        if new_end < old_end then b.put (b.n - 1) (u16 new_end, u16 ((old_end : Int) - new_end - 1))
        else if new_end > old_end then b.put (b.n - 1) (u16 old_end, u16 ((new_end : Int) - old_end - 1))
        else .ok { b with n := b.n - 1 }
      else do
        let b ← b.put (b.n - 1) (p.1, u16 ((start : Int) - p.1 - 1))
        if new_end < old_end then b.push (u16 new_end, u16 ((old_end : Int) - new_end - 1))
        else if new_end > old_end then b.push (u16 old_end, u16 ((new_end : Int) - old_end - 1))
        else .ok b

/-! ### Merging -/

/-- The loops with which two inputs are merged, the one with the smaller key first, and then what is left of one of them:
src/containers/run.c:251-280 and 311-340 (`run_container_union`, `_inplace`), 359-380 (`run_container_xor`),
src/containers/mixed_union.c:77-107 and 125-157 (`array_run_container_union`, `_inplace`), src/containers/mixed_xor.c:153-172
(`array_run_container_lazy_xor`).  `get1 s i` reads the first input at `i`, `app1` appends an element of it, and so on. -/
def mergeBuf {σ α β : Type} (key1 : α → Nat) (key2 : β → Nat) (get1 : σ → Nat → Out α) (get2 : σ → Nat → Out β)
    (app1 : σ → α → Out σ) (app2 : σ → β → Out σ) (n1 n2 : Nat) : Nat → Nat → Nat → σ → Out σ
  | 0, _, _, _ => .fail
  | fuel + 1, i, j, s =>
    if i < n1 then
      if j < n2 then do
        let a ← get1 s i
        let b ← get2 s j
        if key1 a ≤ key2 b then do
          let s ← app1 s a
          mergeBuf key1 key2 get1 get2 app1 app2 n1 n2 fuel (i + 1) j s
        else do
          let s ← app2 s b
          mergeBuf key1 key2 get1 get2 app1 app2 n1 n2 fuel i (j + 1) s
      else do
        let a ← get1 s i
        let s ← app1 s a
        mergeBuf key1 key2 get1 get2 app1 app2 n1 n2 fuel (i + 1) j s
    else if j < n2 then do
      let b ← get2 s j
      let s ← app2 s b
      mergeBuf key1 key2 get1 get2 app1 app2 n1 n2 fuel i (j + 1) s
    else .ok s

/-- `run_container_is_full`: include/roaring/containers/run.h:386-389. -/
def isFullBuf (b : RunBuf) : Out Bool := do
  let vl ← rdRun b.mem 0
  .ok (b.n == 1 && vl.1 == 0 && vl.2 == 0xFFFF)

/-- `if (dst->capacity < m) run_container_grow(dst, m, copy)`. -/
def runReserve (fresh : Nat → List Rle) (b : RunBuf) (m : Nat) (copy : Bool) : RunBuf :=
  if b.mem.length < m then runGrow fresh b m copy else b

/-- `run_container_union`: src/containers/run.c:229-281. -/
def runUnionBuf (fresh : Nat → List Rle) (a b dst : RunBuf) : Out RunBuf := do
  let if1 ← isFullBuf a
  let if2 ← isFullBuf b
  if if1 then runCopyBuf fresh a dst
  else if if2 then runCopyBuf fresh b dst
  else do
    let dst := runReserve fresh dst (a.n + b.n) false
    let s ← mergeBuf (σ := RunAcc) (·.1) (·.1) (fun _ i => rdRun a.mem i) (fun _ j => rdRun b.mem j) appendBuf appendBuf a.n b.n
      (a.n + b.n + 1) 0 0 (⟨0, dst.mem⟩, none)
    .ok s.1

/-- `run_container_union_inplace(src_1, src_2)`: src/containers/run.c:285-341. -/
def runUnionInplaceBuf (fresh : Nat → List Rle) (a b : RunBuf) : Out RunBuf := do
  let if1 ← isFullBuf a
  let if2 ← isFullBuf b
  if if1 then .ok a
  else if if2 then runCopyBuf fresh b a
  else do
    let maxoutput := a.n + b.n
    let a := runReserve fresh a (maxoutput + a.n) true
    let mem ← mvRuns a.mem maxoutput 0 a.n
    let s ← mergeBuf (σ := RunAcc) (·.1) (·.1) (fun s i => rdRun s.1.mem (maxoutput + i)) (fun _ j => rdRun b.mem j) appendBuf appendBuf
      a.n b.n (a.n + b.n + 1) 0 0 (⟨0, mem⟩, none)
    .ok s.1

/-- `run_container_xor`: src/containers/run.c:346-381. -/
def runXorBuf (fresh : Nat → List Rle) (a b dst : RunBuf) : Out RunBuf :=
  let dst := runReserve fresh dst (a.n + b.n) false
  mergeBuf (σ := RunBuf) (·.1) (·.1) (fun _ i => rdRun a.mem i) (fun _ j => rdRun b.mem j) (fun s r => smartAppendBuf s r.1 r.2)
    (fun s r => smartAppendBuf s r.1 r.2) a.n b.n (a.n + b.n + 1) 0 0 ⟨0, dst.mem⟩

/-- `array[i]` of an array container with these contents. -/
def rdVal (l : List Nat) (i : Nat) : Out Nat :=
  match l[i]? with
  | some v => .ok v
  | none => .oob

/-- `array_run_container_union`: src/containers/mixed_union.c:67-108. -/
def arrayRunUnionBuf (fresh : Nat → List Rle) (l : List Nat) (b dst : RunBuf) : Out RunBuf := do
  let full ← isFullBuf b
  if full then runCopyBuf fresh b dst
  else do
    let dst := runGrow fresh dst (2 * (l.length + b.n)) false
    let s ← mergeBuf (σ := RunAcc) (·.1) id (fun _ i => rdRun b.mem i) (fun _ j => rdVal l j) appendBuf appendValueBuf b.n l.length
      (b.n + l.length + 1) 0 0 (⟨0, dst.mem⟩, none)
    .ok s.1

/-- `array_run_container_inplace_union`: src/containers/mixed_union.c:110-158. -/
def arrayRunInplaceUnionBuf (fresh : Nat → List Rle) (l : List Nat) (b : RunBuf) : Out RunBuf := do
  let full ← isFullBuf b
  if full then .ok b
  else do
    let maxoutput := l.length + b.n
    let b := runReserve fresh b (maxoutput + b.n) true
    let mem ← mvRuns b.mem maxoutput 0 b.n
    let s ← mergeBuf (σ := RunAcc) (·.1) id (fun s i => rdRun s.1.mem (maxoutput + i)) (fun _ j => rdVal l j) appendBuf appendValueBuf
      b.n l.length (b.n + l.length + 1) 0 0 (⟨0, mem⟩, none)
    .ok s.1

/-- `array_run_container_lazy_xor`: src/containers/mixed_xor.c:145-173. -/
def arrayRunLazyXorBuf (fresh : Nat → List Rle) (l : List Nat) (b dst : RunBuf) : Out RunBuf :=
  let dst := runGrow fresh dst (l.length + b.n) false
  mergeBuf (σ := RunBuf) (·.1) id (fun _ i => rdRun b.mem i) (fun _ j => rdVal l j) (fun s r => smartAppendBuf s r.1 r.2)
    (fun s v => smartAppendBuf s v 0) b.n l.length (b.n + l.length + 1) 0 0 ⟨0, dst.mem⟩

/-! ### Intersection and difference -/

/-- `start` and `end` of run `i`, if there is one; otherwise they keep their values: run.c:416-419 and so on. -/
def loadRun (b : RunBuf) (i : Nat) (old : Nat × Nat) : Out (Nat × Nat) :=
  if i < b.n then do
    let r ← rdRun b.mem i
    .ok (r.1, r.1 + r.2 + 1)
  else .ok old

/-- The loop of `run_container_intersection`: src/containers/run.c:413-460; `p`, `q`: `start`, `end` and `xstart`, `xend`. -/
def runIntersectionBufLoop (a b : RunBuf) : Nat → Nat → Nat → Nat × Nat → Nat × Nat → RunBuf → Out RunBuf
  | 0, _, _, _, _, _ => .fail
  | fuel + 1, i, j, p, q, dst =>
    if i < a.n ∧ j < b.n then
      if p.2 ≤ q.1 then do
        let p ← loadRun a (i + 1) p
        runIntersectionBufLoop a b fuel (i + 1) j p q dst
      else if q.2 ≤ p.1 then do
        let q ← loadRun b (j + 1) q
        runIntersectionBufLoop a b fuel i (j + 1) p q dst
      else
        let lateststart := if p.1 > q.1 then p.1 else q.1
        if p.2 = q.2 then do
          let p' ← loadRun a (i + 1) p
          let q' ← loadRun b (j + 1) q
          let dst ← dst.push (lateststart, u16 ((p.2 : Int) - lateststart - 1))
          runIntersectionBufLoop a b fuel (i + 1) (j + 1) p' q' dst
        else if p.2 < q.2 then do
          let p' ← loadRun a (i + 1) p
          let dst ← dst.push (lateststart, u16 ((p.2 : Int) - lateststart - 1))
          runIntersectionBufLoop a b fuel (i + 1) j p' q dst
        else do
          let q' ← loadRun b (j + 1) q
          let dst ← dst.push (lateststart, u16 ((q.2 : Int) - lateststart - 1))
          runIntersectionBufLoop a b fuel i (j + 1) p q' dst
    else .ok dst

/-- `run_container_intersection`: src/containers/run.c:385-461. -/
def runIntersectionBuf (fresh : Nat → List Rle) (a b dst : RunBuf) : Out RunBuf := do
  let if1 ← isFullBuf a
  let if2 ← isFullBuf b
  if if1 then runCopyBuf fresh b dst
  else if if2 then runCopyBuf fresh a dst
  else do
    let dst := runReserve fresh dst (a.n + b.n) false
    let r ← rdRun a.mem 0
    let x ← rdRun b.mem 0
    runIntersectionBufLoop a b (a.n + b.n + 1) 0 0 (r.1, r.1 + r.2 + 1) (x.1, x.1 + x.2 + 1) ⟨0, dst.mem⟩

/-- The end of a difference: the rest of the current run, and the runs after it: src/containers/run.c:623-630,
src/containers/mixed_andnot.c:333-342. -/
def andnotRest (a : RunBuf) (i : Nat) (p : Nat × Nat) (dst : RunBuf) : Out RunBuf :=
  if i < a.n then do
    let dst ← dst.push (p.1, u16 ((p.2 : Int) - p.1 - 1))
    if i + 1 < a.n then do
      let v ← getRuns a.mem (i + 1) (a.n - (i + 1))
      let mem ← cpRuns dst.mem dst.n v
      .ok ⟨dst.n + (a.n - (i + 1)), mem⟩
    else .ok dst
  else .ok dst

/-- The loops of `run_container_andnot`, src/containers/run.c:591-630, and of `run_array_container_andnot`,
src/containers/mixed_andnot.c:300-342.  `load j q` gives `start2`, `end2` of element `j` of the second operand, of `n2`. -/
def andnotBufLoop (a : RunBuf) (n2 : Nat) (load : Nat → Nat × Nat → Out (Nat × Nat)) :
    Nat → Nat → Nat → Nat × Nat → Nat × Nat → RunBuf → Out RunBuf
  | 0, _, _, _, _, _ => .fail
  | fuel + 1, i, j, p, q, dst =>
    if i < a.n ∧ j < n2 then
      if p.2 ≤ q.1 then do
        let dst ← dst.push (p.1, u16 ((p.2 : Int) - p.1 - 1))
        let p ← loadRun a (i + 1) p
        andnotBufLoop a n2 load fuel (i + 1) j p q dst
      else if q.2 ≤ p.1 then do
        let q ← load (j + 1) q
        andnotBufLoop a n2 load fuel i (j + 1) p q dst
      else do
        let dst ← if p.1 < q.1 then dst.push (p.1, u16 ((q.1 : Int) - p.1 - 1)) else .ok dst
        if q.2 < p.2 then andnotBufLoop a n2 load fuel i j (q.2, p.2) q dst
        else do
          let p ← loadRun a (i + 1) p
          andnotBufLoop a n2 load fuel (i + 1) j p q dst
    else andnotRest a i p dst

/-- `run_container_andnot`: src/containers/run.c:573-631. -/
def runAndnotBuf (fresh : Nat → List Rle) (a b dst : RunBuf) : Out RunBuf := do
  let dst := runReserve fresh dst (a.n + b.n) false
  let r ← rdRun a.mem 0
  let x ← rdRun b.mem 0
  andnotBufLoop a b.n (loadRun b) (2 * (a.n + b.n) + 1) 0 0 (r.1, r.1 + r.2 + 1) (x.1, x.1 + x.2 + 1) ⟨0, dst.mem⟩

/-- `xstart` of value `j`: src/containers/mixed_andnot.c:299, 316-318 (and `xstart + 1`). -/
def loadVal (l : List Nat) (j : Nat) (old : Nat × Nat) : Out (Nat × Nat) :=
  if j < l.length then do
    let v ← rdVal l j
    .ok (v, v + 1)
  else .ok old

/-- The run branch of `run_array_container_andnot`: src/containers/mixed_andnot.c:290-342.  The second operand is not empty. -/
def runArrayAndnotBuf (fresh : Nat → List Rle) (a : RunBuf) (l : List Nat) : Out RunBuf := do
  let answer := runCreateBuf fresh (runCard a.vals + l.length)
  let r ← rdRun a.mem 0
  let x ← rdVal l 0
  andnotBufLoop a l.length (loadVal l) (2 * (a.n + l.length) + 1) 0 0 (r.1, r.1 + r.2 + 1) (x, x + 1) answer

/-! ### Negation -/

/-- The loop `for (; k < src->n_runs && src->runs[k].value < range_start; ++k)`: src/containers/mixed_negation.c:249-252, 324-327;
the index at which it stops. -/
def negationSkip (mem : List Rle) (n range_start : Nat) : Nat → Nat → Out Nat
  | 0, _ => .fail
  | fuel + 1, k =>
    if k < n then do
      let r ← rdRun mem k
      if r.1 < range_start then negationSkip mem n range_start fuel (k + 1) else .ok k
    else .ok k

/-- The loop src/containers/mixed_negation.c:257-260. -/
def negationAppend (src : RunBuf) : Nat → Nat → RunBuf → Out RunBuf
  | 0, _, _ => .fail
  | fuel + 1, k, ans =>
    if k < src.n then do
      let r ← rdRun src.mem k
      let ans ← smartAppendBuf ans r.1 r.2
      negationAppend src fuel (k + 1) ans
    else .ok ans

/-- `run_container_negation_range` with `range_start < range_end`: src/containers/mixed_negation.c:235-265, up to the conversion of the
result. -/
def runNegationBuf (fresh : Nat → List Rle) (src : RunBuf) (range_start range_end : Nat) : Out RunBuf := do
  let ans := runCreateBuf fresh (src.n + 1)
  let k ← negationSkip src.mem src.n range_start (src.n + 1) 0
  let v ← getRuns src.mem 0 k
  let mem ← cpRuns ans.mem 0 v
  let ans ← smartAppendBuf ⟨k, mem⟩ (range_start % 65536) (u16 ((range_end : Int) - range_start - 1))
  negationAppend src (src.n + 1) k ans

/-- The loop src/containers/mixed_negation.c:336-342, which reads one run ahead of what it appends. -/
def negationShift (n : Nat) : Nat → Nat → Rle → RunBuf → Out RunBuf
  | 0, _, _, _ => .fail
  | fuel + 1, k, buffered, ans =>
    if k < n then
      if k + 1 < n then do
        let next ← rdRun ans.mem (k + 1)
        let ans ← smartAppendBuf ans buffered.1 buffered.2
        negationShift n fuel (k + 1) next ans
      else do
        let ans ← smartAppendBuf ans buffered.1 buffered.2
        negationShift n fuel (k + 1) buffered ans
    else .ok ans

/-- The test whether the result fits into a buffer without spare room: src/containers/mixed_negation.c:287-312. -/
def negationNoRoom (src : RunBuf) (range_start range_end : Nat) : Bool :=
  let last_val_before_range := decide (range_start > 0) && runContains src.vals ((range_start - 1) % 65536)
  let first_val_in_range := runContains src.vals (range_start % 65536)
  let last_val_in_range := runContains src.vals ((range_end - 1) % 65536)
  let first_val_past_range := decide (range_end ≠ 65536) && runContains src.vals (range_end % 65536)
  last_val_before_range == first_val_in_range && last_val_in_range == first_val_past_range

/-- `run_container_negation_range_inplace` with `range_start < range_end`: src/containers/mixed_negation.c:274-348, up to the conversion
of the result. -/
def runNegationInplaceBuf (fresh : Nat → List Rle) (src : RunBuf) (range_start range_end : Nat) : Out RunBuf :=
  if src.mem.length = src.n ∧ negationNoRoom src range_start range_end = true then runNegationBuf fresh src range_start range_end
  else do
    let k ← negationSkip src.mem src.n range_start (src.n + 1) 0
    let buffered ← if k < src.n then rdRun src.mem k else .ok (0, 0)
    let ans ← smartAppendBuf ⟨k, src.mem⟩ (range_start % 65536) (u16 ((range_end : Int) - range_start - 1))
    negationShift src.n (src.n + 1) k buffered ans

/-! ### Conversion -/

/-- `add_run`: src/containers/convert.c:84-88. -/
def addRunBuf (b : RunBuf) (s e : Int) : Out RunBuf := b.push (mkRun s e)

/-- The loop of `run_container_from_array`: src/containers/convert.c:96-107; also 249-262. -/
def fromArrayBufLoop (prev run_start : Int) (b : RunBuf) : List Nat → Out RunBuf
  | [] => addRunBuf b run_start prev
  | v :: l =>
    if (v : Int) ≠ prev + 1 then
      if run_start ≠ -1 then do
        let b ← addRunBuf b run_start prev
        fromArrayBufLoop v v b l
      else fromArrayBufLoop v v b l
    else fromArrayBufLoop v run_start b l

/-- `run_container_from_array`: src/containers/convert.c:90-110. -/
def runFromArrayBuf (fresh : Nat → List Rle) (l : List Nat) : Out RunBuf :=
  let answer := runCreateBuf fresh (arrayNumberOfRuns (-2) l)
  if l.length = 0 then .ok answer else fromArrayBufLoop (-2) (-1) answer l

/-- The loop of src/containers/convert.c:282-314; see `bitsetToRunLoop`. -/
def fromBitsetBufLoop : Nat → Word → Nat → List Word → RunBuf → Out RunBuf
  | 0, _, _, _, _ => .fail
  | fuel + 1, cur, ctr, rest, b =>
    let (w, i, r1) := skipZero cur ctr rest
    if w = 0#64 then .ok b
    else
      let run_start : Int := ctz w + 64 * i
      let (c, j, r2) := skipOnes (w ||| (w - 1#64)) i r1
      if c = ones then addRunBuf b run_start (64 + j * 64 - 1)
      else do
        let b ← addRunBuf b run_start (ctz (~~~c) + j * 64 - 1)
        fromBitsetBufLoop fuel (c &&& (c + 1#64)) j r2 b

/-- The conversion of a bitset to runs in `convert_run_optimize`: src/containers/convert.c:277-314. -/
def runFromBitsetBuf (fresh : Nat → List Rle) (b : Bitset) : Out RunBuf :=
  fromBitsetBufLoop 65537 (wd b.words 0) 0 (b.words.drop 1) (runCreateBuf fresh (bitsetNumberOfRuns b))

end CRoaring
