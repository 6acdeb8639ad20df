import Verif.Model.Container

/-! Model of the two-level bitmap: `roaring_array_t` (src/roaring_array.c) and the set operations of
src/roaring.c.

A bitmap is the list of its `(key, container)` cells, in array order; the C representation keeps the
keys, containers and typecodes in three parallel arrays.  Not represented here: allocation sizes, the
copy-on-write flag and the sharing of containers (see `Verif/Model/Cow.lean`); a shared container is
identified with the container it wraps.  The in-place operations choose between two container functions
according to whether a container of the first operand is shared, and some container functions look at
the allocated capacity of an array; both are explicit parameters (`shared`, `caps`, indexed by key). -/

namespace CRoaring

/-- `roaring_array_t` restricted to its first `size` cells: `include/roaring/roaring_types.h:86-93`. -/
abbrev Bitmap := List (Nat × Container)

/-- The array `keys`. -/
def keysOf (r : Bitmap) : List Nat := r.map (·.1)

/-- Conversion of an integer to `uint64_t`. -/
def u64 (x : Int) : Nat := (x % 18446744073709551616).toNat

/-- `ra_get_index`: `include/roaring/roaring_array.h:79-82`. -/
def raGetIndex (r : Bitmap) (x : Nat) : Int :=
  if r.length = 0 ∨ rdL (keysOf r) (r.length - 1) = x then (r.length : Int) - 1
  else binarySearch (rdL (keysOf r)) r.length x

/-- `ra_advance_until`: `include/roaring/roaring_array.h:179-182`; `lower` is `pos + 1`. -/
def raAdvanceFrom (r : Bitmap) (x lower : Nat) : Nat := advanceFrom (rdL (keysOf r)) lower r.length x

/-- The suffix of the cells of `r` from `ra_advance_until(r, x, 0)`.  The merge loops below hold the cells
from the current position on as a list, so the current position is cell 0 of that list. -/
def raAdvance (r : Bitmap) (x : Nat) : Bitmap := r.drop (raAdvanceFrom r x 1)

/-- `ra_get_key_at_index`: `include/roaring/roaring_array.h:96-98`. -/
def keyAt (r : Bitmap) (i : Nat) : Nat := (r.getD i (0, .array [])).1

/-- `ra_get_container_at_index`: `include/roaring/roaring_array.h:87-91`. -/
def contAt (r : Bitmap) (i : Nat) : Container := (r.getD i (0, .array [])).2

/-- `ra_set_container_at_index`: `include/roaring/roaring_array.h:160-165`. -/
def raSet (r : Bitmap) (i : Nat) (c : Container) : Bitmap := r.set i (keyAt r i, c)

/-- `ra_insert_new_key_value_at`: `src/roaring_array.c:348-362`. -/
def raInsertAt (r : Bitmap) (i : Nat) (key : Nat) (c : Container) : Bitmap :=
  r.take i ++ (key, c) :: r.drop i

/-- `ra_remove_at_index`: `src/roaring_array.c:374-382`. -/
def raRemoveAt (r : Bitmap) (i : Nat) : Bitmap := r.take i ++ r.drop (i + 1)

/-- `roaring_bitmap_create`, `roaring_bitmap_create_with_capacity`: `src/roaring.c:83-96`. -/
def rbCreate : Bitmap := []

/-- `roaring_bitmap_copy`, at the level of the stored values: `src/roaring.c:488-508`. -/
def rbCopy (r : Bitmap) : Bitmap := r

/-- `roaring_bitmap_overwrite(dest, src)`, at the level of the stored values: `src/roaring.c:510-515`. -/
def rbOverwrite (_dest src : Bitmap) : Bitmap := src

/-- `roaring_bitmap_clear`: `src/roaring.c:527-529`. -/
def rbClear (_r : Bitmap) : Bitmap := []

/-- The strictly-increasing-keys loop of `roaring_bitmap_internal_validate`: `src/roaring.c:470-477`. -/
def keysIncreasing (prev : Nat) : List Nat → Bool
  | [] => true
  | k :: ks => if k ≤ prev then false else keysIncreasing k ks

/-- `roaring_bitmap_internal_validate`: `src/roaring.c:427-490`.  The checks on the allocation size, the
flags and null pointers are about parts of the representation that are not modelled. -/
def rbInternalValidate (r : Bitmap) : Bool :=
  match r with
  | [] => true
  | (k, _) :: t => keysIncreasing k (keysOf t) && r.all (fun p => containerValidate p.2)

/-- `roaring_bitmap_contains`: `src/roaring.c:2829-2844`. -/
def rbContains (r : Bitmap) (val : Nat) : Bool :=
  let i := raGetIndex r (val / 65536)
  if i < 0 then false else containerContains (val % 65536) (contAt r i.toNat)

/-- `roaring_bitmap_add`: `src/roaring.c:533-559`; also `containerptr_roaring_bitmap_add`:
`src/roaring.c:51-82`, whose index output is `rbAddIndex`. -/
def rbAdd (r : Bitmap) (val : Nat) : Bitmap :=
  let i := raGetIndex r (val / 65536)
  if i ≥ 0 then raSet r i.toNat (containerAdd (val % 65536) (contAt r i.toNat))
  else raInsertAt r (-i - 1).toNat (val / 65536) (containerAdd (val % 65536) (.array []))

/-- The `*index` output of `containerptr_roaring_bitmap_add`: `src/roaring.c:63,79`. -/
def rbAddIndex (r : Bitmap) (val : Nat) : Nat :=
  let i := raGetIndex r (val / 65536)
  if i ≥ 0 then i.toNat else (-i - 1).toNat

/-- Whether two containers have the same type. -/
def sameType : Container → Container → Bool
  | .bitset _, .bitset _ => true
  | .array _, .array _ => true
  | .run _, .run _ => true
  | _, _ => false

/-- `roaring_bitmap_add_checked`: `src/roaring.c:561-599`.  `container_add` returns another pointer
exactly when it changes the container type (containers.h:507-548). -/
def rbAddChecked (r : Bitmap) (val : Nat) : Bitmap × Bool :=
  let i := raGetIndex r (val / 65536)
  if i ≥ 0 then
    let c := contAt r i.toNat
    let c2 := containerAdd (val % 65536) c
    (raSet r i.toNat c2, if !sameType c c2 then true else containerCard c != containerCard c2)
  else (raInsertAt r (-i - 1).toNat (val / 65536) (containerAdd (val % 65536) (.array [])), true)

/-- `roaring_bitmap_remove`: `src/roaring.c:601-624`. -/
def rbRemove (r : Bitmap) (val : Nat) : Bitmap :=
  let i := raGetIndex r (val / 65536)
  if i ≥ 0 then
    let c2 := containerRemove (val % 65536) (contAt r i.toNat)
    if containerNonzero c2 then raSet r i.toNat c2 else raRemoveAt r i.toNat
  else r

/-- `roaring_bitmap_remove_checked`: `src/roaring.c:626-661`. -/
def rbRemoveChecked (r : Bitmap) (val : Nat) : Bitmap × Bool :=
  let i := raGetIndex r (val / 65536)
  if i ≥ 0 then
    let c := contAt r i.toNat
    let c2 := containerRemove (val % 65536) c
    (if containerCard c2 ≠ 0 then raSet r i.toNat c2 else raRemoveAt r i.toNat,
      containerCard c != containerCard c2)
  else (r, false)

theorem raAdvance_length_lt (r : Bitmap) (x : Nat) (h : r ≠ []) : (raAdvance r x).length < r.length := by
  have h1 : 1 ≤ raAdvanceFrom r x 1 := by
    simp only [raAdvanceFrom, advanceFrom]
    split
    · exact Nat.le_refl _
    · rename_i h
      have hb : ∀ (rd : Nat → Nat) (m lo up : Nat), 1 ≤ lo → 1 ≤ up → 1 ≤ bisect rd m lo up := by
        intro rd m lo up h1 h2
        fun_induction bisect rd m lo up <;> grind
      have h0 : 1 < r.length := by grind
      repeat' split
      all_goals first | omega | (apply hb <;> omega)
  have h2 : 0 < r.length := List.length_pos_iff.2 h
  simp only [raAdvance, List.length_drop]; omega

/-- `roaring_bitmap_and`: `src/roaring.c:698-737`. -/
def rbAnd (x1 x2 : Bitmap) : Bitmap :=
  match x1, x2 with
  | [], _ => []
  | _, [] => []
  | (s1, c1) :: t1, (s2, c2) :: t2 =>
    if s1 = s2 then
      let c := containerAnd c1 c2
      if containerNonzero c then (s1, c) :: rbAnd t1 t2 else rbAnd t1 t2
    else if s1 < s2 then rbAnd (raAdvance ((s1, c1) :: t1) s2) ((s2, c2) :: t2)
    else rbAnd ((s1, c1) :: t1) (raAdvance ((s2, c2) :: t2) s1)
termination_by x1.length + x2.length
decreasing_by
  all_goals simp only [List.length_cons]
  all_goals first
    | omega
    | (have := raAdvance_length_lt ((s1, c1) :: t1) s2 (by simp); simp only [List.length_cons] at this; omega)
    | (have := raAdvance_length_lt ((s2, c2) :: t2) s1 (by simp); simp only [List.length_cons] at this; omega)

/-- `ra_advance_until_freeing`: `src/roaring_array.c:339-346`, on the cells from `pos` on. -/
def raAdvanceFreeing (x : Nat) : Bitmap → Bitmap
  | [] => []
  | (k, c) :: t => if k < x then raAdvanceFreeing x t else (k, c) :: t

theorem raAdvanceFreeing_length (x : Nat) (r : Bitmap) : (raAdvanceFreeing x r).length ≤ r.length := by
  fun_induction raAdvanceFreeing x r <;> simp_all <;> omega

/-- The choice between `container_and` and its in-place variant, `src/roaring.c:806-809`; `shared` says that
the container of the first operand is shared. -/
def chooseAnd (shared : Bool) (c1 c2 : Container) : Container :=
  if shared then containerAnd c1 c2 else containerIand c1 c2

/-- The loop of `roaring_bitmap_and_inplace`: `src/roaring.c:790-830`.  The cells of `x1` below
`intersection_size` are the result; the others are freed.  In the branch `s1 < s2`,
`ra_advance_until_freeing` starts at `pos1`, whose key is smaller than `s2`: the model starts at the next
cell. -/
def rbAndInplaceLoop (shared : Nat → Bool) (x1 x2 : Bitmap) : Bitmap :=
  match x1, x2 with
  | [], _ => []
  | _, [] => []
  | (s1, c1) :: t1, (s2, c2) :: t2 =>
    if s1 = s2 then
      let c := chooseAnd (shared s1) c1 c2
      if containerNonzero c then (s1, c) :: rbAndInplaceLoop shared t1 t2 else rbAndInplaceLoop shared t1 t2
    else if s1 < s2 then rbAndInplaceLoop shared (raAdvanceFreeing s2 t1) ((s2, c2) :: t2)
    else rbAndInplaceLoop shared ((s1, c1) :: t1) (raAdvance ((s2, c2) :: t2) s1)
termination_by x1.length + x2.length
decreasing_by
  all_goals simp only [List.length_cons]
  all_goals first
    | omega
    | (have := raAdvanceFreeing_length s2 t1; omega)
    | (have := raAdvance_length_lt ((s2, c2) :: t2) s1 (by simp); simp only [List.length_cons] at this; omega)

/-- `roaring_bitmap_and_inplace`: `src/roaring.c:779-842`.  `same` says that the two pointers are equal. -/
def rbAndInplace (same : Bool) (shared : Nat → Bool) (x1 x2 : Bitmap) : Bitmap :=
  if same then x1 else rbAndInplaceLoop shared x1 x2

/-- The loop of `roaring_bitmap_or` and the appended rest: `src/roaring.c:861-919`. -/
def rbOrLoop : Bitmap → Bitmap → Bitmap
  | [], x2 => x2
  | x1, [] => x1
  | (s1, c1) :: t1, (s2, c2) :: t2 =>
    if s1 = s2 then (s1, containerOr c1 c2) :: rbOrLoop t1 t2
    else if s1 < s2 then (s1, c1) :: rbOrLoop t1 ((s2, c2) :: t2)
    else (s2, c2) :: rbOrLoop ((s1, c1) :: t1) t2
termination_by x1 x2 => x1.length + x2.length

/-- `roaring_bitmap_or`: `src/roaring.c:844-920`. -/
def rbOr (x1 x2 : Bitmap) : Bitmap :=
  if x1.length = 0 then rbCopy x2 else if x2.length = 0 then rbCopy x1 else rbOrLoop x1 x2

/-- The body of the case of equal keys in `roaring_bitmap_or_inplace`, `src/roaring.c:942-957`. -/
def chooseOr (shared : Bool) (capacity : Nat) (c1 c2 : Container) : Container :=
  if !containerIsFull c1 then
    (if shared then containerOr c1 c2 else containerIor capacity c1 c2)
  else c1

/-- The loop of `roaring_bitmap_or_inplace` and the appended rest: `src/roaring.c:941-992`.  The cells
of `x1` below `pos1` are final. -/
def rbOrInplaceLoop (shared : Nat → Bool) (caps : Nat → Nat) : Bitmap → Bitmap → Bitmap
  | [], x2 => x2
  | x1, [] => x1
  | (s1, c1) :: t1, (s2, c2) :: t2 =>
    if s1 = s2 then
      (s1, chooseOr (shared s1) (caps s1) c1 c2) :: rbOrInplaceLoop shared caps t1 t2
    else if s1 < s2 then (s1, c1) :: rbOrInplaceLoop shared caps t1 ((s2, c2) :: t2)
    else (s2, c2) :: rbOrInplaceLoop shared caps ((s1, c1) :: t1) t2
termination_by x1 x2 => x1.length + x2.length

/-- `roaring_bitmap_or_inplace`: `src/roaring.c:923-993`. -/
def rbOrInplace (shared : Nat → Bool) (caps : Nat → Nat) (x1 x2 : Bitmap) : Bitmap :=
  if x2.length = 0 then x1 else if x1.length = 0 then rbOverwrite x1 x2
  else rbOrInplaceLoop shared caps x1 x2

/-- The loop of `roaring_bitmap_xor` and the appended rest: `src/roaring.c:1012-1069`. -/
def rbXorLoop : Bitmap → Bitmap → Bitmap
  | [], x2 => x2
  | x1, [] => x1
  | (s1, c1) :: t1, (s2, c2) :: t2 =>
    if s1 = s2 then
      let c := containerXor c1 c2
      if containerNonzero c then (s1, c) :: rbXorLoop t1 t2 else rbXorLoop t1 t2
    else if s1 < s2 then (s1, c1) :: rbXorLoop t1 ((s2, c2) :: t2)
    else (s2, c2) :: rbXorLoop ((s1, c1) :: t1) t2
termination_by x1 x2 => x1.length + x2.length

/-- `roaring_bitmap_xor`: `src/roaring.c:995-1070`. -/
def rbXor (x1 x2 : Bitmap) : Bitmap :=
  if x1.length = 0 then rbCopy x2 else if x2.length = 0 then rbCopy x1 else rbXorLoop x1 x2

/-- The choice between `container_xor` and its in-place variant, `src/roaring.c:1108-1114`; `shared` says that
the container of the first operand is shared. -/
def chooseXor (shared : Bool) (c1 c2 : Container) : Container :=
  if shared then containerXor c1 c2 else containerIxor c1 c2

/-- The loop of `roaring_bitmap_xor_inplace` and the appended rest: `src/roaring.c:1095-1158`.  The
cells of `x1` below `pos1` are final. -/
def rbXorInplaceLoop (shared : Nat → Bool) : Bitmap → Bitmap → Bitmap
  | [], x2 => x2
  | x1, [] => x1
  | (s1, c1) :: t1, (s2, c2) :: t2 =>
    if s1 = s2 then
      let c := chooseXor (shared s1) c1 c2
      if containerNonzero c then (s1, c) :: rbXorInplaceLoop shared t1 t2 else rbXorInplaceLoop shared t1 t2
    else if s1 < s2 then (s1, c1) :: rbXorInplaceLoop shared t1 ((s2, c2) :: t2)
    else (s2, c2) :: rbXorInplaceLoop shared ((s1, c1) :: t1) t2
termination_by x1 x2 => x1.length + x2.length

/-- `roaring_bitmap_xor_inplace`: `src/roaring.c:1074-1159` (`x1` and `x2` are distinct objects). -/
def rbXorInplace (shared : Nat → Bool) (x1 x2 : Bitmap) : Bitmap :=
  if x2.length = 0 then x1 else if x1.length = 0 then rbOverwrite x1 x2 else rbXorInplaceLoop shared x1 x2

/-- The loop of `roaring_bitmap_andnot` and the appended rest: `src/roaring.c:1182-1223`. -/
def rbAndnotLoop (x1 x2 : Bitmap) : Bitmap :=
  match x1, x2 with
  | [], _ => []
  | x1, [] => x1
  | (s1, c1) :: t1, (s2, c2) :: t2 =>
    if s1 = s2 then
      let c := containerAndnot c1 c2
      if containerNonzero c then (s1, c) :: rbAndnotLoop t1 t2 else rbAndnotLoop t1 t2
    else if s1 < s2 then
      ((s1, c1) :: t1).take (raAdvanceFrom ((s1, c1) :: t1) s2 1) ++
        rbAndnotLoop (raAdvance ((s1, c1) :: t1) s2) ((s2, c2) :: t2)
    else rbAndnotLoop ((s1, c1) :: t1) (raAdvance ((s2, c2) :: t2) s1)
termination_by x1.length + x2.length
decreasing_by
  all_goals simp only [List.length_cons]
  all_goals first
    | omega
    | (have := raAdvance_length_lt ((s1, c1) :: t1) s2 (by simp); simp only [List.length_cons] at this; omega)
    | (have := raAdvance_length_lt ((s2, c2) :: t2) s1 (by simp); simp only [List.length_cons] at this; omega)

/-- `roaring_bitmap_andnot`: `src/roaring.c:1161-1224`. -/
def rbAndnot (x1 x2 : Bitmap) : Bitmap :=
  if x1.length = 0 then rbCreate else if x2.length = 0 then rbCopy x1 else rbAndnotLoop x1 x2

/-- The choice between `container_andnot` and its in-place variant, `src/roaring.c:1261-1267`; `shared` says that
the container of the first operand is shared. -/
def chooseAndnot (shared : Bool) (c1 c2 : Container) : Container :=
  if shared then containerAndnot c1 c2 else containerIandnot c1 c2

/-- The loop of `roaring_bitmap_andnot_inplace` and the kept rest: `src/roaring.c:1244-1319`.  The cells
of `x1` below `intersection_size` are the result. -/
def rbAndnotInplaceLoop (shared : Nat → Bool) (x1 x2 : Bitmap) : Bitmap :=
  match x1, x2 with
  | [], _ => []
  | x1, [] => x1
  | (s1, c1) :: t1, (s2, c2) :: t2 =>
    if s1 = s2 then
      let c := chooseAndnot (shared s1) c1 c2
      if containerNonzero c then (s1, c) :: rbAndnotInplaceLoop shared t1 t2
      else rbAndnotInplaceLoop shared t1 t2
    else if s1 < s2 then (s1, c1) :: rbAndnotInplaceLoop shared t1 ((s2, c2) :: t2)
    else rbAndnotInplaceLoop shared ((s1, c1) :: t1) (raAdvance ((s2, c2) :: t2) s1)
termination_by x1.length + x2.length
decreasing_by
  all_goals simp only [List.length_cons]
  all_goals first
    | omega
    | (have := raAdvance_length_lt ((s2, c2) :: t2) s1 (by simp); simp only [List.length_cons] at this; omega)

/-- `roaring_bitmap_andnot_inplace`: `src/roaring.c:1228-1320` (`x1` and `x2` are distinct objects). -/
def rbAndnotInplace (shared : Nat → Bool) (x1 x2 : Bitmap) : Bitmap :=
  if x2.length = 0 then x1 else if x1.length = 0 then rbClear x1 else rbAndnotInplaceLoop shared x1 x2

/-- `roaring_bitmap_get_cardinality`: `src/roaring.c:1322-1329`. -/
def rbCardinality (r : Bitmap) : Nat :=
  r.foldl (fun card p => u64 (card + containerCard p.2)) 0

/-- `roaring_bitmap_is_empty`: `src/roaring.c:1392-1394`. -/
def rbIsEmpty (r : Bitmap) : Bool := r.length == 0

/-- `roaring_bitmap_equals`: `src/roaring.c:1852-1873`. -/
def rbEquals (r1 r2 : Bitmap) : Bool :=
  if r1.length ≠ r2.length then false
  else if keysOf r1 ≠ keysOf r2 then false
  else (r1.zip r2).all (fun p => containerEquals p.1.2 p.2.2)

/-- `roaring_bitmap_is_subset`: `src/roaring.c:1875-1907`. -/
def rbIsSubset (x1 x2 : Bitmap) : Bool :=
  match x1, x2 with
  | [], _ => true
  | _ :: _, [] => false
  | (s1, c1) :: t1, (s2, c2) :: t2 =>
    if s1 = s2 then
      if !containerIsSubset c1 c2 then false else rbIsSubset t1 t2
    else if s1 < s2 then false
    else rbIsSubset ((s1, c1) :: t1) (raAdvance ((s2, c2) :: t2) s1)
termination_by x1.length + x2.length
decreasing_by
  all_goals simp only [List.length_cons]
  all_goals first
    | omega
    | (have := raAdvance_length_lt ((s2, c2) :: t2) s1 (by simp); simp only [List.length_cons] at this; omega)

/-- `roaring_bitmap_is_strict_subset`: `src/roaring.c:2909-2914`. -/
def rbIsStrictSubset (r1 r2 : Bitmap) : Bool :=
  decide (rbCardinality r2 > rbCardinality r1) && rbIsSubset r1 r2

/-- `roaring_bitmap_intersect`: `src/roaring.c:2718-2747`. -/
def rbIntersect (x1 x2 : Bitmap) : Bool :=
  match x1, x2 with
  | [], _ => false
  | _, [] => false
  | (s1, c1) :: t1, (s2, c2) :: t2 =>
    if s1 = s2 then
      if containerIntersect c1 c2 then true else rbIntersect t1 t2
    else if s1 < s2 then rbIntersect (raAdvance ((s1, c1) :: t1) s2) ((s2, c2) :: t2)
    else rbIntersect ((s1, c1) :: t1) (raAdvance ((s2, c2) :: t2) s1)
termination_by x1.length + x2.length
decreasing_by
  all_goals simp only [List.length_cons]
  all_goals first
    | omega
    | (have := raAdvance_length_lt ((s1, c1) :: t1) s2 (by simp); simp only [List.length_cons] at this; omega)
    | (have := raAdvance_length_lt ((s2, c2) :: t2) s1 (by simp); simp only [List.length_cons] at this; omega)

/-- The loop of `roaring_bitmap_and_cardinality`: `src/roaring.c:2774-2794`. -/
def rbAndCardLoop (answer : Nat) (x1 x2 : Bitmap) : Nat :=
  match x1, x2 with
  | [], _ => answer
  | _, [] => answer
  | (s1, c1) :: t1, (s2, c2) :: t2 =>
    if s1 = s2 then rbAndCardLoop (u64 (answer + containerAndCard c1 c2)) t1 t2
    else if s1 < s2 then rbAndCardLoop answer (raAdvance ((s1, c1) :: t1) s2) ((s2, c2) :: t2)
    else rbAndCardLoop answer ((s1, c1) :: t1) (raAdvance ((s2, c2) :: t2) s1)
termination_by x1.length + x2.length
decreasing_by
  all_goals simp only [List.length_cons]
  all_goals first
    | omega
    | (have := raAdvance_length_lt ((s1, c1) :: t1) s2 (by simp); simp only [List.length_cons] at this; omega)
    | (have := raAdvance_length_lt ((s2, c2) :: t2) s1 (by simp); simp only [List.length_cons] at this; omega)

/-- `roaring_bitmap_and_cardinality`: `src/roaring.c:2768-2796`. -/
def rbAndCardinality (x1 x2 : Bitmap) : Nat := rbAndCardLoop 0 x1 x2

/-- `roaring_bitmap_or_cardinality`: `src/roaring.c:2806-2812`. -/
def rbOrCardinality (x1 x2 : Bitmap) : Nat :=
  u64 ((rbCardinality x1 : Int) + rbCardinality x2 - rbAndCardinality x1 x2)

/-- `roaring_bitmap_andnot_cardinality`: `src/roaring.c:2814-2819`. -/
def rbAndnotCardinality (x1 x2 : Bitmap) : Nat :=
  u64 ((rbCardinality x1 : Int) - rbAndCardinality x1 x2)

/-- `roaring_bitmap_xor_cardinality`: `src/roaring.c:2821-2827`. -/
def rbXorCardinality (x1 x2 : Bitmap) : Nat :=
  u64 ((rbCardinality x1 : Int) + rbCardinality x2 - 2 * rbAndCardinality x1 x2)

/-- `roaring_bitmap_jaccard_index`: `src/roaring.c:2798-2804`: the numerator and the denominator, before
their conversion to `double` and the floating-point division, which are not modelled. -/
def rbJaccard (x1 x2 : Bitmap) : Nat × Nat :=
  (rbAndCardinality x1 x2, u64 ((rbCardinality x1 : Int) + rbCardinality x2 - rbAndCardinality x1 x2))

end CRoaring
