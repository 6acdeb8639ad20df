import Verif.Model.Array
import Verif.Model.Run
/-
Model of the bitset container (include/roaring/containers/bitset.h, src/containers/bitset.c; scalar code).

A bitset container is the cached `cardinality` (an `int32_t`; `BITSET_UNKNOWN_CARDINALITY = -1` during
lazy operations) and its 1024 words.
-/
namespace CRoaring

/-- `bitset_container_t`, include/roaring/containers/bitset.h:36-39. -/
structure Bitset where
  card : Int
  words : List Word
deriving DecidableEq, Repr

/-- `BITSET_UNKNOWN_CARDINALITY`, bitset.h:33. -/
def UNKNOWN_CARD : Int := -1
/-- `BITSET_CONTAINER_SIZE_IN_WORDS`, bitset.h:32. -/
def NWORDS : Nat := 1024

/-- Zeroed words, as `bitset_container_clear`, bitset.c:51-54, leaves them. -/
def zeros : List Word := List.replicate NWORDS 0#64

/-- `bitset_container_create`, bitset.c:61-94 (allocation, then `bitset_container_clear`, 51-54). -/
def bitsetCreate : Bitset := ⟨0, zeros⟩

/-- `bitset_container_set_all`, bitset.c:56-59. -/
def bitsetSetAll : Bitset := ⟨65536, List.replicate NWORDS ones⟩

/-- `bitset_container_compute_cardinality`, bitset.c:314-324. -/
def computeCard (ws : List Word) : Nat := popWords ws 0 NWORDS

/-- `bitset_container_set`, bitset.h:137-144. -/
def bitsetSet (b : Bitset) (pos : Nat) : Bitset :=
  let old_word := wd b.words (pos / 64)
  let new_word := old_word ||| oneBit (pos % 64)
  ⟨b.card + ((old_word ^^^ new_word) >>> (pos % 64)).toNat, b.words.set (pos / 64) new_word⟩

/-- `bitset_container_add`, bitset.h:158-167. -/
def bitsetAdd (b : Bitset) (pos : Nat) : Bitset × Bool :=
  let old_word := wd b.words (pos / 64)
  let new_word := old_word ||| oneBit (pos % 64)
  let increment := ((old_word ^^^ new_word) >>> (pos % 64)).toNat
  (⟨b.card + increment, b.words.set (pos / 64) new_word⟩, decide (increment > 0))

/-- `bitset_container_remove`, bitset.h:171-180. -/
def bitsetRemove (b : Bitset) (pos : Nat) : Bitset × Bool :=
  let old_word := wd b.words (pos / 64)
  let new_word := old_word &&& ~~~(oneBit (pos % 64))
  let increment := ((old_word ^^^ new_word) >>> (pos % 64)).toNat
  (⟨b.card - increment, b.words.set (pos / 64) new_word⟩, decide (increment > 0))

/-- `bitset_container_get`, bitset.h:183-187; also `bitset_container_contains`, 222-225. -/
def bitsetGet (b : Bitset) (pos : Nat) : Bool :=
  ((wd b.words (pos / 64) >>> (pos % 64)) &&& 1#64) ≠ 0#64

/-- The loop of `bitset_container_get_range`, bitset.h:213-216, over `n` words from `i`. -/
def onesWords (ws : List Word) (i : Nat) : Nat → Bool
  | 0 => true
  | n + 1 => if wd ws i ≠ ones then false else onesWords ws (i + 1) n

/-- `bitset_container_get_range`, bitset.h:195-219; also `bitset_container_contains_range`, 231-234. -/
def bitsetContainsRange (b : Bitset) (pos_start pos_end : Nat) : Bool :=
  let start := pos_start / 64
  let end_ := pos_end / 64
  let first := ~~~(oneBit (pos_start % 64) - 1#64)
  let last := oneBit (pos_end % 64) - 1#64
  if start = end_ then (wd b.words end_ &&& first &&& last) == (first &&& last)
  else if (wd b.words start &&& first) ≠ first then false
  else if end_ < NWORDS ∧ (wd b.words end_ &&& last) ≠ last then false
  else onesWords b.words (start + 1) (min NWORDS end_ - (start + 1))

/-- `bitset_container_empty`, bitset.h:259-267. -/
def bitsetEmpty (b : Bitset) : Bool :=
  if b.card = UNKNOWN_CARD then zeroWords b.words 0 NWORDS else b.card == 0

/-- The mask loop of `bitset_container_add_from_range`, bitset.c:105-107. -/
def stepMask (step : Nat) (value : Nat) (mask : Word) : Word :=
  if value < 64 ∧ 0 < step then stepMask step (value + step) (mask ||| oneBit value) else mask
termination_by 64 - value
decreasing_by omega

/-- The slow loop of `bitset_container_add_from_range`, bitset.c:122-124. -/
def bitsetAddStep (b : Bitset) (value max step : Nat) : Bitset :=
  if value < max ∧ 0 < step then bitsetAddStep (bitsetAdd b (value % 65536)).1 (value + step) max step else b
termination_by max - value
decreasing_by omega

/-- `bitset_container_add_from_range`, bitset.c:100-126. -/
def bitsetAddFromRange (b : Bitset) (min max step : Nat) : Bitset :=
  if step = 0 then b
  else if 64 % step = 0 then
    let mask := stepMask step (min % step) 0#64
    let firstword := min / 64
    let endword := (max - 1) / 64
    let card : Int := ((max - min + step - 1) / step : Nat)
    let endmask := ones >>> (u32 (-(max : Int)) % 64)
    if firstword = endword then
      ⟨card, b.words.set firstword (wd b.words firstword |||
        (mask &&& ((ones <<< (min % 64)) &&& endmask)))⟩
    else
      let ws := b.words.set firstword (mask &&& (ones <<< (min % 64)))
      let ws := fillWords ws mask (firstword + 1) (endword - (firstword + 1))
      ⟨card, ws.set endword (mask &&& endmask)⟩
  else bitsetAddStep b min max step

/-- The word `c->words[k] << i | c->words[k-1] >> (64-i)` of `bitset_container_offset`,
bitset.c:183-187 and 212-214, the second part absent for `k = 0`; for `i = 0` the word is copied (181, 210). -/
def offsetWord (ws : List Word) (i k : Nat) : Word :=
  if i = 0 then wd ws k
  else if k = 0 then wd ws 0 <<< i
  else (wd ws k <<< i) ||| (wd ws (k - 1) >>> (64 - i))

/-- The low half written by `bitset_container_offset`, bitset.c:179-189: `words[b+k]` for `k < end`. -/
def offsetLo (ws : List Word) (offset : Nat) : List Word :=
  let b := offset / 64
  let i := offset % 64
  (List.range NWORDS).map (fun j => if j < b then 0#64 else offsetWord ws i (j - b))

/-- The high half written by `bitset_container_offset`, bitset.c:209-218: `words[k-end]` for
`end <= k < 1024`, then `words[b]` when `i != 0`. -/
def offsetHi (ws : List Word) (offset : Nat) : List Word :=
  let b := offset / 64
  let i := offset % 64
  let end_ := 1024 - b
  (List.range NWORDS).map (fun j =>
    if j < b then offsetWord ws i (end_ + j)
    else if j = b ∧ i ≠ 0 then wd ws 1023 >>> (64 - i)
    else 0#64)

/-- `bitset_container_offset`, bitset.c:167-228.  `loc` and `hic` say which outputs are requested
(non-`NULL` pointers); the result is the containers stored through them. -/
def bitsetOffset (c : Bitset) (loc hic : Bool) (offset : Nat) : Option Bitset × Option Bitset :=
  let lo := offsetLo c.words offset
  let lo_card := computeCard lo
  let lo_out : Option Bitset := if loc ∧ lo_card ≠ 0 then some ⟨lo_card, lo⟩ else none
  if loc ∧ (lo_card : Int) = c.card then (lo_out, none)
  else if hic = false then (lo_out, none)
  else
    let hi := offsetHi c.words offset
    let hi_card := computeCard hi
    (lo_out, if hi_card = 0 then none else some ⟨hi_card, hi⟩)

/-- `bitset_container_set_range`, bitset.c:230-235. -/
def bitsetContainerSetRange (b : Bitset) (begin_ end_ : Nat) : Bitset :=
  let ws := bitsetSetRange b.words begin_ end_
  ⟨computeCard ws, ws⟩

/-- `bitset_container_intersect`, bitset.c:237-246. -/
def bitsetIntersect (b1 b2 : Bitset) : Bool :=
  (List.zip b1.words b2.words).any (fun p => p.1 &&& p.2 ≠ 0#64)

/-- `bitset_container_##opname##_nocard` of `CROARING_BITSET_CONTAINER_FN`, bitset.c:887-899. -/
def bitsetOpNocard (op : Word → Word → Word) (b1 b2 : Bitset) : Bitset :=
  ⟨UNKNOWN_CARD, List.zipWith op b1.words b2.words⟩

/-- `bitset_container_##opname` of `CROARING_BITSET_CONTAINER_FN`, bitset.c:870-886. -/
def bitsetOp (op : Word → Word → Word) (b1 b2 : Bitset) : Bitset :=
  let ws := List.zipWith op b1.words b2.words
  ⟨computeCard ws, ws⟩

/-- `bitset_container_##opname##_justcard` of `CROARING_BITSET_CONTAINER_FN`, bitset.c:900-914. -/
def bitsetOpJustcard (op : Word → Word → Word) (b1 b2 : Bitset) : Nat :=
  computeCard (List.zipWith op b1.words b2.words)

/-- `|`, as instantiated at bitset.c:920-921. -/
def wOr (a b : Word) : Word := a ||| b
/-- `&`, bitset.c:924-925. -/
def wAnd (a b : Word) : Word := a &&& b
/-- `^`, bitset.c:927. -/
def wXor (a b : Word) : Word := a ^^^ b
/-- `&~`, bitset.c:928. -/
def wAndnot (a b : Word) : Word := a &&& ~~~b

/-- `bitset_container_to_uint32_array`, bitset.c:932-956 (scalar branch; `base + 65535` fits in 32 bits). -/
def bitsetToUint32 (b : Bitset) (base : Nat) : List Nat := extractSetbits b.words base

/-- `bitset_container_validate`, bitset.c:1008-1027. -/
def bitsetValidate (b : Bitset) : Bool :=
  if b.card ≠ computeCard b.words then false
  else if b.card ≤ DEFAULT_MAX_SIZE then false
  else true

/-- The loop of `bitset_container_number_of_runs`, bitset.c:1035-1045; `word` is `next_word` of the
previous step. -/
def numberOfRunsLoop (word : Word) : List Word → Nat
  | [] => popcount (~~~word &&& (word <<< 1)) + (if word &&& 0x8000000000000000#64 ≠ 0#64 then 1 else 0)
  | next_word :: ws =>
    popcount (~~~word &&& (word <<< 1)) + ((word >>> 63) &&& ~~~next_word).toNat + numberOfRunsLoop next_word ws

/-- `bitset_container_number_of_runs`, bitset.c:1031-1046. -/
def bitsetNumberOfRuns (b : Bitset) : Nat :=
  match b.words with
  | [] => 0
  | w :: ws => numberOfRunsLoop w ws

/-- `w ^ (w & (~w + 1))` is smaller than `w` (termination of the loops that clear the lowest bit). -/
theorem xorLowest_lt {w : Word} (h : w ≠ 0#64) : (w ^^^ (w &&& (~~~w + 1#64))).toNat < w.toNat := by
  have e : w ^^^ (w &&& (~~~w + 1#64)) = w &&& (w - 1#64) := by
    have e1 : ~~~w + 1#64 = ~~~(w - 1#64) := by
      apply BitVec.eq_of_toNat_eq
      have := w.isLt
      have h0 : w.toNat ≠ 0 := fun h1 => h (BitVec.eq_of_toNat_eq (by simpa using h1))
      simp only [BitVec.toNat_add, BitVec.toNat_not, BitVec.toNat_sub, BitVec.toNat_ofNat]
      omega
    rw [e1]
    apply BitVec.eq_of_getLsbD_eq
    intro i hi
    simp only [BitVec.getLsbD_xor, BitVec.getLsbD_and, BitVec.getLsbD_not, hi, decide_true, Bool.true_and]
    cases w.getLsbD i <;> simp
  rw [e]; exact clearLowest_lt h

/-- The inner loop of `bitset_container_iterate`, bitset.c:1066-1071. -/
def iterWord {σ : Type} (f : σ → Nat → σ × Bool) (s : σ) (w : Word) (base : Nat) : σ × Bool :=
  if _h : w = 0#64 then (s, true)
  else
    let r := f s (u32 (ctz w + base))
    if r.2 then iterWord f r.1 (w ^^^ (w &&& (~~~w + 1#64))) base else (r.1, false)
termination_by w.toNat
decreasing_by exact xorLowest_lt _h

/-- `bitset_container_iterate`, bitset.c:1063-1075. -/
def bitsetIterate {σ : Type} (f : σ → Nat → σ × Bool) (s : σ) (base : Nat) : List Word → σ × Bool
  | [] => (s, true)
  | w :: ws =>
    let r := iterWord f s w base
    if r.2 then bitsetIterate f r.1 (u32 (base + 64)) ws else (r.1, false)

/-- `bitset_container_equals`, bitset.c:1129-1153. -/
def bitsetEquals (b1 b2 : Bitset) : Bool :=
  if b1.card ≠ UNKNOWN_CARD ∧ b2.card ≠ UNKNOWN_CARD ∧ b1.card ≠ b2.card then false
  else if b1.card ≠ UNKNOWN_CARD ∧ b2.card ≠ UNKNOWN_CARD ∧ b1.card = 0x10000 then true
  else b1.words == b2.words

/-- `bitset_container_is_subset`, bitset.c:1155-1168. -/
def bitsetIsSubset (b1 b2 : Bitset) : Bool :=
  if b1.card ≠ UNKNOWN_CARD ∧ b2.card ≠ UNKNOWN_CARD ∧ b1.card > b2.card then false
  else (List.zip b1.words b2.words).all (fun p => p.1 &&& p.2 == p.1)

/-- The `while (w != 0)` loop of `bitset_container_select`, bitset.c:1183-1191: the element found or the
advanced `start_rank`. -/
def selectWord (w : Word) (base start_rank rank : Nat) : Nat ⊕ Nat :=
  if _h : w = 0#64 then .inr start_rank
  else if start_rank = rank then .inl (ctz w + base)
  else selectWord (w ^^^ (w &&& (~~~w + 1#64))) base (u32 (start_rank + 1)) rank
termination_by w.toNat
decreasing_by exact xorLowest_lt _h

/-- The loop over words of `bitset_container_select`, bitset.c:1178-1196.  `none` is the
`roaring_unreachable` of line 1198 (undefined behaviour). -/
def selectWords (i start_rank rank : Nat) : List Word → Option Nat
  | [] => none
  | w :: ws =>
    if rank ≤ u32 (start_rank + popcount w) then
      match selectWord w (i * 64 % 65536) start_rank rank with
      | .inl e => some e
      | .inr sr => selectWords (i + 1) sr rank ws
    else selectWords (i + 1) (u32 (start_rank + popcount w)) rank ws

/-- `bitset_container_select`, bitset.c:1170-1199: the element, or the advanced rank; `none` is undefined
behaviour.  `*start_rank + card` is `uint32_t` arithmetic. -/
def bitsetSelect (b : Bitset) (start_rank rank : Nat) : Option (Nat ⊕ Nat) :=
  if rank ≥ u32 (start_rank + b.card) then some (.inr (u32 (start_rank + b.card)))
  else (selectWords 0 start_rank rank b.words).map .inl

/-- The loop of `bitset_container_minimum`, bitset.c:1203-1212. -/
def bitsetMinLoop (i : Nat) : List Word → Nat
  | [] => 65535
  | w :: ws => if w ≠ 0#64 then ctz w + i * 64 else bitsetMinLoop (i + 1) ws
/-- `bitset_container_minimum`, bitset.c:1203-1212. -/
def bitsetMin (b : Bitset) : Nat := bitsetMinLoop 0 b.words

/-- The loop of `bitset_container_maximum`, bitset.c:1216-1222; it does not look at word 0. -/
def bitsetMaxLoop (ws : List Word) : Nat → Nat
  | 0 => 0
  | i + 1 => if wd ws (i + 1) ≠ 0#64 then (i + 1) * 64 + 63 - clz (wd ws (i + 1)) else bitsetMaxLoop ws i
/-- `bitset_container_maximum`, bitset.c:1215-1224. -/
def bitsetMax (b : Bitset) : Nat := bitsetMaxLoop b.words (NWORDS - 1)

/-- The smeared mask `lastpos + lastpos - 1` of bitset.c:1235-1236, 1256-1257, 1274-1275. -/
def rankMask (x : Nat) : Word := oneBit (x % 64) + oneBit (x % 64) - 1#64

/-- `bitset_container_rank`, bitset.c:1227-1239. -/
def bitsetRank (b : Bitset) (x : Nat) : Nat :=
  popWords b.words 0 (x / 64) + popcount (wd b.words (x / 64) &&& rankMask x)

/-- `bitset_container_rank_many`, bitset.c:1241-1261: answers written and queries left; `i` and `sum`
persist between queries. -/
def bitsetRankManyLoop (ws : List Word) (start_rank high i sum : Nat) : List Nat → List Nat × List Nat
  | [] => ([], [])
  | x :: xs =>
    if x / 65536 % 65536 ≠ high then ([], x :: xs)
    else
      let xlow := x % 65536
      let count := xlow / 64
      let sum' := sum + popWords ws i (count - i)
      let i' := if i < count then count else i
      let r := bitsetRankManyLoop ws start_rank high i' sum' xs
      ((start_rank + sum' + popcount (wd ws i' &&& rankMask xlow)) :: r.1, r.2)

/-- `bitset_container_rank_many`, bitset.c:1241-1261. -/
def bitsetRankMany (b : Bitset) (start_rank : Nat) (xs : List Nat) : List Nat × List Nat :=
  bitsetRankManyLoop b.words start_rank (xs.headD 0 / 65536 % 65536) 0 0 xs

/-- `bitset_container_get_index`, bitset.c:1265-1281. -/
def bitsetGetIndex (b : Bitset) (x : Nat) : Int :=
  if bitsetGet b x then
    ((popWords b.words 0 (x / 64) + popcount (wd b.words (x / 64) &&& rankMask x) : Nat) : Int) - 1
  else -1

/-- The loop of `bitset_container_index_equalorlarger`, bitset.c:1290-1295; `n` words follow word `k`. -/
def indexEqualOrLargerLoop (ws : List Word) (word : Word) (k : Nat) : Nat → Int
  | 0 => if word = 0#64 then -1 else (k * 64 + ctz word : Nat)
  | n + 1 =>
    if word = 0#64 then indexEqualOrLargerLoop ws (wd ws (k + 1)) (k + 1) n else (k * 64 + ctz word : Nat)

/-- `bitset_container_index_equalorlarger`, bitset.c:1284-1296. -/
def bitsetIndexEqualOrLarger (b : Bitset) (x : Nat) : Int :=
  let k := x / 64
  let diff := x - k * 64
  indexEqualOrLargerLoop b.words ((wd b.words k >>> diff) <<< diff) k (NWORDS - 1 - k)

end CRoaring
