import Verif.Model.MixedRel

/-! Model of the type-dispatching container functions of `include/roaring/containers/containers.h`.

All functions begin by unwrapping shared containers; a `Container` is what is left after that.  In-place
functions (`container_iand`, `container_ior`, ...) return the container the caller stores afterwards. -/

namespace CRoaring

/-- `container_get_cardinality`: `include/roaring/containers/containers.h:231-244`.  The C result is an
`int`; for a bitset it is the stored cardinality. -/
def containerCard : Container → Int
  | .bitset b => b.card
  | .array l => l.length
  | .run rs => runCard rs

/-- `container_is_full`: `include/roaring/containers/containers.h:250-265`. -/
def containerIsFull : Container → Bool
  | .bitset b => b.card == 65536
  | .array l => l.length == 65536
  | .run rs => runIsFull rs

/-- `container_nonzero_cardinality`: `include/roaring/containers/containers.h:424-439`. -/
def containerNonzero : Container → Bool
  | .bitset b => !bitsetEmpty b
  | .array l => decide (l.length > 0)
  | .run rs => decide (rs.length > 0)

/-- `container_internal_validate`: `src/containers/containers.c:102-141`, after the unwrapping of a
shared container. -/
def containerValidate : Container → Bool
  | .bitset b => bitsetValidate b
  | .array l => arrayValidate l
  | .run rs => runValidate rs

/-- `container_range_of_ones`: `include/roaring/containers/containers.h:288-300`. -/
def containerRangeOfOnes (range_start range_end : Nat) : Container :=
  if range_end - range_start + 1 ≤ 2 then .array (arrayCreateRange range_start range_end)
  else .run (runCreateRange range_start range_end)

/-- `container_from_range`: `include/roaring/containers/containers.h:304-327`; `none` is `NULL`. -/
def containerFromRange (min max step : Nat) : Option Container :=
  if step = 0 then none
  else if step = 1 then some (containerRangeOfOnes min max)
  else if (max - min + step - 1) / step ≤ DEFAULT_MAX_SIZE then some (.array (arrayAddFromRange [] min max step))
  else some (.bitset (bitsetAddFromRange bitsetCreate min max step))

/-- `container_repair_after_lazy`: `include/roaring/containers/containers.h:332-359`. -/
def containerRepair : Container → Container
  | .bitset b =>
    let card : Int := computeCard b.words
    if card ≤ DEFAULT_MAX_SIZE then .array (arrayFromBitset ⟨card, b.words⟩) else .bitset ⟨card, b.words⟩
  | .array l => .array l
  | .run rs => convertRunToEfficient rs

/-- `container_to_uint32_array`: `include/roaring/containers/containers.h:451-468`. -/
def containerToUint32 (base : Nat) : Container → List Nat
  | .bitset b => bitsetToUint32 b base
  | .array l => arrayToUint32 l base
  | .run rs => runToUint32 rs base

/-- `container_add`: `include/roaring/containers/containers.h:477-508`. -/
def containerAdd (val : Nat) : Container → Container
  | .bitset b => .bitset (bitsetSet b val)
  | .array l =>
    let r := arrayTryAdd l val DEFAULT_MAX_SIZE
    if r.2 ≠ -1 then .array r.1 else .bitset (bitsetAdd (bitsetFromArray l) val).1
  | .run rs => .run (runAdd rs val).1

/-- `container_remove`: `include/roaring/containers/containers.h:518-548`. -/
def containerRemove (val : Nat) : Container → Container
  | .bitset b =>
    let r := bitsetRemove b val
    if r.2 ∧ r.1.card ≤ DEFAULT_MAX_SIZE then .array (arrayFromBitset r.1) else .bitset r.1
  | .array l => .array (arrayRemove l val).1
  | .run rs => .run (runRemove rs val).1

/-- `container_contains`: `include/roaring/containers/containers.h:553-570`. -/
def containerContains (val : Nat) : Container → Bool
  | .bitset b => bitsetGet b val
  | .array l => arrayContains l val
  | .run rs => runContains rs val

/-- `container_contains_range`: `include/roaring/containers/containers.h:576-596`. -/
def containerContainsRange (range_start range_end : Nat) : Container → Bool
  | .bitset b => bitsetContainsRange b range_start range_end
  | .array l => arrayContainsRange l range_start range_end
  | .run rs => runContainsRange rs range_start range_end

/-- `run_container_equals`: `include/roaring/containers/run.h:493-500` (`memequals` on the runs). -/
def runEquals (rs1 rs2 : List Rle) : Bool :=
  if rs1.length ≠ rs2.length then false else rs1 == rs2

/-- `container_equals`: `include/roaring/containers/containers.h:602-649`. -/
def containerEquals : Container → Container → Bool
  | .bitset b1, .bitset b2 => bitsetEquals b1 b2
  | .bitset b1, .run rs2 => runEqualsBitset rs2 b1
  | .run rs1, .bitset b2 => runEqualsBitset rs1 b2
  | .bitset b1, .array l2 => arrayEqualBitset l2 b1
  | .array l1, .bitset b2 => arrayEqualBitset l1 b2
  | .array l1, .run rs2 => runEqualsArray rs2 l1
  | .run rs1, .array l2 => runEqualsArray rs1 l2
  | .array l1, .array l2 => arrayEquals l1 l2
  | .run rs1, .run rs2 => runEquals rs1 rs2

/-- `container_is_subset`: `include/roaring/containers/containers.h:655-700`. -/
def containerIsSubset : Container → Container → Bool
  | .bitset b1, .bitset b2 => bitsetIsSubset b1 b2
  | .bitset b1, .run rs2 => bitsetIsSubsetRun b1 rs2
  | .run rs1, .bitset b2 => runIsSubsetBitset rs1 b2
  | .bitset _, .array _ => false
  | .array l1, .bitset b2 => arrayIsSubsetBitset l1 b2
  | .array l1, .run rs2 => arrayIsSubsetRun l1 rs2
  | .run rs1, .array l2 => runIsSubsetArray rs1 l2
  | .array l1, .array l2 => arrayIsSubset l1 l2
  | .run rs1, .run rs2 => runIsSubset rs1 rs2

/-- `container_and`: `include/roaring/containers/containers.h:709-789`. -/
def containerAnd : Container → Container → Container
  | .bitset b1, .bitset b2 => bitsetBitsetIntersection b1 b2
  | .array l1, .array l2 => .array (arrayIntersection l1 l2)
  | .run rs1, .run rs2 => convertRunToEfficient (runIntersection rs1 rs2)
  | .bitset b1, .array l2 => .array (arrayBitsetIntersection l2 b1)
  | .array l1, .bitset b2 => .array (arrayBitsetIntersection l1 b2)
  | .bitset b1, .run rs2 => runBitsetIntersection rs2 b1
  | .run rs1, .bitset b2 => runBitsetIntersection rs1 b2
  | .array l1, .run rs2 => .array (arrayRunIntersection l1 rs2)
  | .run rs1, .array l2 => .array (arrayRunIntersection l2 rs1)

/-- `container_and_cardinality`: `include/roaring/containers/containers.h:794-842`. -/
def containerAndCard : Container → Container → Int
  | .bitset b1, .bitset b2 => bitsetOpJustcard wAnd b1 b2
  | .array l1, .array l2 => arrayIntersectionCard l1 l2
  | .run rs1, .run rs2 => runIntersectionCard rs1 rs2
  | .bitset b1, .array l2 => arrayBitsetIntersectionCard l2 b1
  | .array l1, .bitset b2 => arrayBitsetIntersectionCard l1 b2
  | .bitset b1, .run rs2 => runBitsetIntersectionCard rs2 b1
  | .run rs1, .bitset b2 => runBitsetIntersectionCard rs1 b2
  | .array l1, .run rs2 => arrayRunIntersectionCard l1 rs2
  | .run rs1, .array l2 => arrayRunIntersectionCard l2 rs1

/-- `container_intersect`: `include/roaring/containers/containers.h:847-893`. -/
def containerIntersect : Container → Container → Bool
  | .bitset b1, .bitset b2 => bitsetIntersect b1 b2
  | .array l1, .array l2 => arrayIntersect l1 l2
  | .run rs1, .run rs2 => runIntersect rs1 rs2
  | .bitset b1, .array l2 => arrayBitsetIntersect l2 b1
  | .array l1, .bitset b2 => arrayBitsetIntersect l1 b2
  | .bitset b1, .run rs2 => runBitsetIntersect rs2 b1
  | .run rs1, .bitset b2 => runBitsetIntersect rs1 b2
  | .array l1, .run rs2 => arrayRunIntersect l1 rs2
  | .run rs1, .array l2 => arrayRunIntersect l2 rs1

/-- `container_iand`: `include/roaring/containers/containers.h:904-984`. -/
def containerIand : Container → Container → Container
  | .bitset b1, .bitset b2 => bitsetBitsetIntersection b1 b2
  | .array l1, .array l2 => .array (arrayIntersection l1 l2)
  | .run rs1, .run rs2 => convertRunToEfficient (runIntersection rs1 rs2)
  | .bitset b1, .array l2 => .array (arrayBitsetIntersection l2 b1)
  | .array l1, .bitset b2 => .array (arrayBitsetIntersection l1 b2)
  | .bitset b1, .run rs2 => runBitsetIntersection rs2 b1
  | .run rs1, .bitset b2 => runBitsetIntersection rs1 b2
  | .array l1, .run rs2 => .array (arrayRunIntersection l1 rs2)
  | .run rs1, .array l2 => .array (arrayRunIntersection l2 rs1)

/-- `container_or`: `include/roaring/containers/containers.h:991-1086`. -/
def containerOr : Container → Container → Container
  | .bitset b1, .bitset b2 => .bitset (bitsetOp wOr b1 b2)
  | .array l1, .array l2 => arrayArrayUnion l1 l2
  | .run rs1, .run rs2 => convertRunToEfficient (runUnion rs1 rs2)
  | .bitset b1, .array l2 => .bitset (arrayBitsetUnion l2 b1)
  | .array l1, .bitset b2 => .bitset (arrayBitsetUnion l1 b2)
  | .bitset b1, .run rs2 => if runIsFull rs2 then .run rs2 else .bitset (runBitsetUnion rs2 b1)
  | .run rs1, .bitset b2 => if runIsFull rs1 then .run rs1 else .bitset (runBitsetUnion rs1 b2)
  | .array l1, .run rs2 => convertRunToEfficient (arrayRunUnion l1 rs2)
  | .run rs1, .array l2 => convertRunToEfficient (arrayRunUnion l2 rs1)

/-- `container_lazy_or`: `include/roaring/containers/containers.h:1096-1198`. -/
def containerLazyOr : Container → Container → Container
  | .bitset b1, .bitset b2 => .bitset (bitsetOpNocard wOr b1 b2)
  | .array l1, .array l2 => arrayArrayLazyUnion l1 l2
  | .run rs1, .run rs2 => convertRunToEfficient (runUnion rs1 rs2)
  | .bitset b1, .array l2 => .bitset (arrayBitsetLazyUnion l2 b1)
  | .array l1, .bitset b2 => .bitset (arrayBitsetLazyUnion l1 b2)
  | .bitset b1, .run rs2 => if runIsFull rs2 then .run rs2 else .bitset (runBitsetLazyUnion rs2 b1)
  | .run rs1, .bitset b2 => if runIsFull rs1 then .run rs1 else .bitset (runBitsetLazyUnion rs1 b2)
  | .array l1, .run rs2 => .run (arrayRunUnion l1 rs2)
  | .run rs1, .array l2 => .run (arrayRunUnion l2 rs1)

/-- `container_ior`: `include/roaring/containers/containers.h:1209-1302`; `capacity` is the allocated
capacity of `c1` when it is an array. -/
def containerIor (capacity : Nat) : Container → Container → Container
  | .bitset b1, .bitset b2 =>
    let b := bitsetOp wOr b1 b2
    if b.card = 65536 then .run (runCreateRange 0 65536) else .bitset b
  | .array l1, .array l2 => arrayArrayInplaceUnion capacity l1 l2
  | .run rs1, .run rs2 => convertRunToEfficient (runUnion rs1 rs2)
  | .bitset b1, .array l2 => .bitset (arrayBitsetUnion l2 b1)
  | .array l1, .bitset b2 => .bitset (arrayBitsetUnion l1 b2)
  | .bitset b1, .run rs2 => if runIsFull rs2 then .run rs2 else .bitset (runBitsetUnion rs2 b1)
  | .run rs1, .bitset b2 => if runIsFull rs1 then .run rs1 else .bitset (runBitsetUnion rs1 b2)
  | .array l1, .run rs2 => convertRunToEfficient (arrayRunUnion l1 rs2)
  | .run rs1, .array l2 => convertRunToEfficient (arrayRunUnion l2 rs1)

/-- `container_lazy_ior`: `include/roaring/containers/containers.h:1316-1425`; `capacity` as above. -/
def containerLazyIor (capacity : Nat) : Container → Container → Container
  | .bitset b1, .bitset b2 =>
    let b := bitsetOp wOr b1 b2
    if b.card = 65536 then .run (runCreateRange 0 65536) else .bitset b
  | .array l1, .array l2 => arrayArrayLazyInplaceUnion capacity l1 l2
  | .run rs1, .run rs2 => convertRunToEfficient (runUnion rs1 rs2)
  | .bitset b1, .array l2 => .bitset (arrayBitsetLazyUnion l2 b1)
  | .array l1, .bitset b2 => .bitset (arrayBitsetLazyUnion l1 b2)
  | .bitset b1, .run rs2 => if runIsFull rs2 then .run rs2 else .bitset (runBitsetLazyUnion rs2 b1)
  | .run rs1, .bitset b2 => if runIsFull rs1 then .run rs1 else .bitset (runBitsetLazyUnion rs1 b2)
  | .array l1, .run rs2 => .run (arrayRunUnion l1 rs2)
  | .run rs1, .array l2 => .run (arrayRunUnion l2 rs1)

/-- `container_xor`: `include/roaring/containers/containers.h:1432-1507`. -/
def containerXor : Container → Container → Container
  | .bitset b1, .bitset b2 => bitsetBitsetXor b1 b2
  | .array l1, .array l2 => arrayArrayXor l1 l2
  | .run rs1, .run rs2 => runRunXor rs1 rs2
  | .bitset b1, .array l2 => arrayBitsetXor l2 b1
  | .array l1, .bitset b2 => arrayBitsetXor l1 b2
  | .bitset b1, .run rs2 => runBitsetXor rs2 b1
  | .run rs1, .bitset b2 => runBitsetXor rs1 b2
  | .array l1, .run rs2 => arrayRunXor l1 rs2
  | .run rs1, .array l2 => arrayRunXor l2 rs1

/-- `container_add_offset`: `include/roaring/containers/containers.h:1519-1543`; `lo` and `hi` say which
outputs are requested. -/
def containerAddOffset (c : Container) (lo hi : Bool) (offset : Nat) : Option Container × Option Container :=
  match c with
  | .bitset b =>
    let r := bitsetOffset b lo hi offset
    (r.1.map .bitset, r.2.map .bitset)
  | .array l =>
    let r := arrayOffset l offset
    (if lo then r.1.map .array else none, if hi then r.2.map .array else none)
  | .run rs =>
    let r := runOffset rs offset
    (if lo then r.1.map .run else none, if hi then r.2.map .run else none)

/-- `container_lazy_xor`: `include/roaring/containers/containers.h:1553-1637`. -/
def containerLazyXor : Container → Container → Container
  | .bitset b1, .bitset b2 => .bitset (bitsetOpNocard wXor b1 b2)
  | .array l1, .array l2 => arrayArrayLazyXor l1 l2
  | .run rs1, .run rs2 => runRunXor rs1 rs2
  | .bitset b1, .array l2 => .bitset (arrayBitsetLazyXor l2 b1)
  | .array l1, .bitset b2 => .bitset (arrayBitsetLazyXor l1 b2)
  | .bitset b1, .run rs2 => .bitset (runBitsetLazyXor rs2 b1)
  | .run rs1, .bitset b2 => .bitset (runBitsetLazyXor rs1 b2)
  | .array l1, .run rs2 => .run (arrayRunLazyXor l1 rs2)
  | .run rs1, .array l2 => .run (arrayRunLazyXor l2 rs1)

/-- `container_ixor`: `include/roaring/containers/containers.h:1648-1718`. -/
def containerIxor : Container → Container → Container
  | .bitset b1, .bitset b2 => bitsetBitsetXor b1 b2
  | .array l1, .array l2 => arrayArrayXor l1 l2
  | .run rs1, .run rs2 => runRunXor rs1 rs2
  | .bitset b1, .array l2 => arrayBitsetXor l2 b1
  | .array l1, .bitset b2 => arrayBitsetXor l1 b2
  | .bitset b1, .run rs2 => runBitsetXor rs2 b1
  | .run rs1, .bitset b2 => runBitsetXor rs1 b2
  | .array l1, .run rs2 => arrayRunXor l1 rs2
  | .run rs1, .array l2 => arrayRunXor l2 rs1

/-- `container_lazy_ixor`: `include/roaring/containers/containers.h:1732-1759`. -/
def containerLazyIxor : Container → Container → Container
  | .bitset b1, .bitset b2 => .bitset (bitsetOpNocard wXor b1 b2)
  | .bitset b1, c2 =>
    containerIxor (.bitset (if b1.card = UNKNOWN_CARD then ⟨computeCard b1.words, b1.words⟩ else b1)) c2
  | c1, c2 => containerIxor c1 c2

/-- `container_andnot`: `include/roaring/containers/containers.h:1766-1859`. -/
def containerAndnot : Container → Container → Container
  | .bitset b1, .bitset b2 => bitsetBitsetAndnot b1 b2
  | .array l1, .array l2 => .array (arrayAndnot l1 l2)
  | .run rs1, .run rs2 => if runIsFull rs2 then .array [] else runRunAndnot rs1 rs2
  | .bitset b1, .array l2 => bitsetArrayAndnot b1 l2
  | .array l1, .bitset b2 => .array (arrayBitsetAndnot l1 b2)
  | .bitset b1, .run rs2 => if runIsFull rs2 then .array [] else bitsetRunAndnot b1 rs2
  | .run rs1, .bitset b2 => runBitsetAndnot rs1 b2
  | .array l1, .run rs2 => if runIsFull rs2 then .array [] else .array (arrayRunAndnot l1 rs2)
  | .run rs1, .array l2 => runArrayAndnot rs1 l2

/-- `container_iandnot`: `include/roaring/containers/containers.h:1871-1938`. -/
def containerIandnot : Container → Container → Container
  | .bitset b1, .bitset b2 => bitsetBitsetAndnot b1 b2
  | .array l1, .array l2 => .array (arrayAndnot l1 l2)
  | .run rs1, .run rs2 => runRunAndnot rs1 rs2
  | .bitset b1, .array l2 => bitsetArrayAndnot b1 l2
  | .array l1, .bitset b2 => .array (arrayBitsetAndnot l1 b2)
  | .bitset b1, .run rs2 => bitsetRunAndnot b1 rs2
  | .run rs1, .bitset b2 => runBitsetAndnot rs1 b2
  | .array l1, .run rs2 => .array (arrayRunAndnot l1 rs2)
  | .run rs1, .array l2 => runArrayAndnot rs1 l2

/-- `container_iterate`: `include/roaring/containers/containers.h:1945-1966`.  The callback is a state
transformer returning the new state and whether to continue. -/
def containerIterate {σ : Type} (f : σ → Nat → σ × Bool) (s : σ) (base : Nat) : Container → σ × Bool
  | .bitset b => bitsetIterate f s base b.words
  | .array l => arrayIterate f s base l
  | .run rs => runIterate f s base rs

/-- `container_not`: `include/roaring/containers/containers.h:1992-2020`
(in place, `container_inot`: `:2058-2088`). -/
def containerNot : Container → Container
  | .bitset b => bitsetNegationRange b 0 65536
  | .array l => .bitset (arrayNegation l)
  | .run rs => runNegationRange rs 0 65536

/-- `container_not_range`: `include/roaring/containers/containers.h:2022-2056`
(in place, `container_inot_range`: `:2090-2121`). -/
def containerNotRange (range_start range_end : Nat) : Container → Container
  | .bitset b => bitsetNegationRange b range_start range_end
  | .array l => arrayNegationRange l range_start range_end
  | .run rs => runNegationRange rs range_start range_end

/-- `container_select`: `include/roaring/containers/containers.h:2131-2152`: the element or the advanced
start rank; `none` is undefined behaviour. -/
def containerSelect (start_rank rank : Nat) : Container → Option (Nat ⊕ Nat)
  | .bitset b => bitsetSelect b start_rank rank
  | .array l => some (arraySelect l start_rank rank)
  | .run rs => some (runSelect start_rank rank rs)

/-- `container_maximum`: `include/roaring/containers/containers.h:2154-2170`. -/
def containerMax : Container → Nat
  | .bitset b => bitsetMax b
  | .array l => arrayMax l
  | .run rs => runMax rs

/-- `container_minimum`: `include/roaring/containers/containers.h:2172-2188`. -/
def containerMin : Container → Nat
  | .bitset b => bitsetMin b
  | .array l => arrayMin l
  | .run rs => runMin rs

/-- `container_rank`: `include/roaring/containers/containers.h:2191-2208`. -/
def containerRank (x : Nat) : Container → Int
  | .bitset b => bitsetRank b x
  | .array l => arrayRank l x
  | .run rs => runRank rs x

/-- `container_rank_many`: `include/roaring/containers/containers.h:2211-2233`: the answers written and
the values not consumed. -/
def containerRankMany (start_rank : Nat) (xs : List Nat) : Container → List Nat × List Nat
  | .bitset b => bitsetRankMany b start_rank xs
  | .array l => arrayRankMany l start_rank xs
  | .run rs => runRankMany rs start_rank xs

/-- `container_get_index`: `include/roaring/containers/containers.h:2236-2253`. -/
def containerGetIndex (x : Nat) : Container → Int
  | .bitset b => bitsetGetIndex b x
  | .array l => arrayGetIndex l x
  | .run rs => runGetIndex rs x

/-- `container_add_range`: `include/roaring/containers/containers.h:2263-2339` (closed range). -/
def containerAddRange (min max : Nat) : Container → Container
  | .bitset b =>
    let union_cardinality : Int := b.card + (max - min + 1 : Nat) - bitsetLenrangeCardinality b.words min (max - min)
    if union_cardinality = 65536 then .run (runCreateRange 0 65536)
    else .bitset ⟨union_cardinality, bitsetSetLenrange b.words min (max - min)⟩
  | .array l =>
    let nvals_greater := (countGreater (rdL l) l.length (max % 65536)).toNat
    let nvals_less := (countLess (rdL l) (l.length - nvals_greater) (min % 65536)).toNat
    let union_cardinality := nvals_less + (max - min + 1) + nvals_greater
    if union_cardinality = 65536 then .run (runCreateRange 0 65536)
    else if union_cardinality ≤ DEFAULT_MAX_SIZE then .array (arrayAddRangeNvals l min max nvals_less nvals_greater)
    else .bitset ⟨union_cardinality, bitsetSetLenrange (bitsetFromArray l).words min (max - min)⟩
  | .run rs =>
    let nruns_greater := (rle16CountGreater rs rs.length (max % 65536)).toNat
    let nruns_less := (rle16CountLess rs (rs.length - nruns_greater) (min % 65536)).toNat
    if (nruns_less + 1 + nruns_greater) * 4 ≤ NWORDS * 8 then .run (runAddRangeNruns rs min max nruns_less nruns_greater)
    else containerFromRunRange rs min max

/-- `container_remove_range`: `include/roaring/containers/containers.h:2352-2413` (closed range); `none`
is `NULL`: no element is left. -/
def containerRemoveRange (min max : Nat) : Container → Option Container
  | .bitset b =>
    let result_cardinality : Int := b.card - bitsetLenrangeCardinality b.words min (max - min)
    if result_cardinality = 0 then none
    else if result_cardinality ≤ DEFAULT_MAX_SIZE then
      some (.array (arrayFromBitset ⟨result_cardinality, bitsetResetRange b.words min (max + 1)⟩))
    else some (.bitset ⟨result_cardinality, bitsetResetRange b.words min (max + 1)⟩)
  | .array l =>
    let nvals_greater := (countGreater (rdL l) l.length (max % 65536)).toNat
    let nvals_less := (countLess (rdL l) (l.length - nvals_greater) (min % 65536)).toNat
    let result_cardinality := nvals_less + nvals_greater
    if result_cardinality = 0 then none
    else some (.array (arrayRemoveRange l nvals_less (l.length - result_cardinality)))
  | .run rs =>
    if rs.length = 0 then none
    else if min ≤ runMin rs ∧ max ≥ runMax rs then none
    else some (convertRunToEfficient (runRemoveRange rs min max))

end CRoaring
