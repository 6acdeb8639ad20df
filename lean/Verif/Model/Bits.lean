/-
Model of the 64-bit word layer: compiler intrinsics, `bitset_util.h` and the scalar code of `bitset_util.c`.
A `uint64_t words[]` array is a `List (BitVec 64)`.
-/
namespace CRoaring

abbrev Word := BitVec 64

/-- Conversion of a mathematical integer to `uint32_t` (C unsigned arithmetic is modulo 2^32). -/
def u32 (x : Int) : Nat := (x % 4294967296).toNat
/-- Conversion to `uint16_t`. -/
def u16 (x : Int) : Nat := (x % 65536).toNat

/-- `~UINT64_C(0)`. -/
def ones : Word := BitVec.allOnes 64
/-- `UINT64_C(1) << i`. -/
def oneBit (i : Nat) : Word := 1#64 <<< i

/-- `roaring_hamming`, include/roaring/portability.h: population count. -/
def popcount (w : Word) : Nat := (List.range 64).countP (fun i => w.getLsbD i)
/-- `roaring_trailing_zeroes`, include/roaring/portability.h (undefined for 0 in C; 64 here). -/
def ctz (w : Word) : Nat := ((List.range 64).find? (fun i => w.getLsbD i)).getD 64
/-- `roaring_leading_zeroes`, include/roaring/portability.h (undefined for 0 in C; 64 here). -/
def clz (w : Word) : Nat := ((List.range 64).find? (fun i => w.getLsbD (63 - i))).getD 64

/-- `words[i]`. -/
def wd (ws : List Word) (i : Nat) : Word := ws.getD i 0#64

/-- `for (i..) words[i] = v` over `n` consecutive words. -/
def fillWords (ws : List Word) (v : Word) (i : Nat) : Nat → List Word
  | 0 => ws
  | n + 1 => fillWords (ws.set i v) v (i + 1) n

/-- `for (i..) words[i] = ~words[i]` over `n` consecutive words. -/
def flipWords (ws : List Word) (i : Nat) : Nat → List Word
  | 0 => ws
  | n + 1 => flipWords (ws.set i (~~~ wd ws i)) (i + 1) n

/-- Sum of population counts of `n` consecutive words (`answer += roaring_hamming(words[i])`). -/
def popWords (ws : List Word) (i : Nat) : Nat → Nat
  | 0 => 0
  | n + 1 => popcount (wd ws i) + popWords ws (i + 1) n

/-- `for (i..) if (words[i] != 0) return false;` over `n` consecutive words. -/
def zeroWords (ws : List Word) (i : Nat) : Nat → Bool
  | 0 => true
  | n + 1 => if wd ws i ≠ 0#64 then false else zeroWords ws (i + 1) n

/-- `bitset_set_range`, include/roaring/bitset_util.h:28-43. -/
def bitsetSetRange (ws : List Word) (start end_ : Nat) : List Word :=
  if start = end_ then ws
  else
    let firstword := start / 64
    let endword := (end_ - 1) / 64
    if firstword = endword then
      ws.set firstword (wd ws firstword ||| ((ones <<< (start % 64)) &&& (ones >>> (u32 (-(end_ : Int)) % 64))))
    else
      let ws := ws.set firstword (wd ws firstword ||| (ones <<< (start % 64)))
      let ws := fillWords ws ones (firstword + 1) (endword - (firstword + 1))
      ws.set endword (wd ws endword ||| (ones >>> (u32 (-(end_ : Int)) % 64)))

/-- `bitset_lenrange_cardinality`, include/roaring/bitset_util.h:48-67. -/
def bitsetLenrangeCardinality (ws : List Word) (start lenminusone : Nat) : Nat :=
  let firstword := start / 64
  let endword := (start + lenminusone) / 64
  if firstword = endword then
    popcount (wd ws firstword &&& ((ones >>> (u32 (63 - (lenminusone : Int)) % 64)) <<< (start % 64)))
  else
    popcount (wd ws firstword &&& (ones <<< (start % 64)))
      + popWords ws (firstword + 1) (endword - (firstword + 1))
      + popcount (wd ws endword &&& (ones >>> (u32 (-(start : Int) - lenminusone - 1) % 64)))

/-- `bitset_lenrange_empty`, include/roaring/bitset_util.h:72-93. -/
def bitsetLenrangeEmpty (ws : List Word) (start lenminusone : Nat) : Bool :=
  let firstword := start / 64
  let endword := (start + lenminusone) / 64
  if firstword = endword then
    (wd ws firstword &&& ((ones >>> (u32 (63 - (lenminusone : Int)) % 64)) <<< (start % 64))) == 0#64
  else if (wd ws firstword &&& (ones <<< (start % 64))) ≠ 0#64 then false
  else if zeroWords ws (firstword + 1) (endword - (firstword + 1)) = false then false
  else if (wd ws endword &&& (ones >>> (u32 (-(start : Int) - lenminusone - 1) % 64))) ≠ 0#64 then false
  else true

/-- The loop of `bitset_set_lenrange`, include/roaring/bitset_util.h:109-110, writing two words per step. -/
def fillPairs (ws : List Word) (i endword : Nat) : List Word :=
  if i < endword then fillPairs ((ws.set (i + 1) ones).set i ones) (i + 2) endword else ws
termination_by endword - i

/-- `bitset_set_lenrange`, include/roaring/bitset_util.h:98-113. -/
def bitsetSetLenrange (ws : List Word) (start lenminusone : Nat) : List Word :=
  let firstword := start / 64
  let endword := (start + lenminusone) / 64
  if firstword = endword then
    ws.set firstword (wd ws firstword ||| ((ones >>> (u32 (63 - (lenminusone : Int)) % 64)) <<< (start % 64)))
  else
    let temp := wd ws endword
    let ws := ws.set firstword (wd ws firstword ||| (ones <<< (start % 64)))
    let ws := fillPairs ws (firstword + 1) endword
    ws.set endword (temp ||| (ones >>> (u32 (-(start : Int) - lenminusone - 1) % 64)))

/-- `bitset_flip_range`, include/roaring/bitset_util.h:118-128. -/
def bitsetFlipRange (ws : List Word) (start end_ : Nat) : List Word :=
  if start = end_ then ws
  else
    let firstword := start / 64
    let endword := (end_ - 1) / 64
    let ws := ws.set firstword (wd ws firstword ^^^ ~~~(ones <<< (start % 64)))
    let ws := flipWords ws firstword (endword - firstword)
    ws.set endword (wd ws endword ^^^ (ones >>> (u32 (-(end_ : Int)) % 64)))

/-- `bitset_reset_range`, include/roaring/bitset_util.h:133-148. -/
def bitsetResetRange (ws : List Word) (start end_ : Nat) : List Word :=
  if start = end_ then ws
  else
    let firstword := start / 64
    let endword := (end_ - 1) / 64
    if firstword = endword then
      ws.set firstword (wd ws firstword &&& ~~~((ones <<< (start % 64)) &&& (ones >>> (u32 (-(end_ : Int)) % 64))))
    else
      let ws := ws.set firstword (wd ws firstword &&& ~~~(ones <<< (start % 64)))
      let ws := fillWords ws 0#64 (firstword + 1) (endword - (firstword + 1))
      ws.set endword (wd ws endword &&& ~~~(ones >>> (u32 (-(end_ : Int)) % 64)))

/-- Clearing the lowest set bit makes the word smaller (termination of the extraction loops). -/
theorem clearLowest_lt {w : Word} (h : w ≠ 0#64) : (w &&& (w - 1#64)).toNat < w.toNat := by
  have h0 : w.toNat ≠ 0 := fun h1 => h (BitVec.eq_of_toNat_eq (by simpa using h1))
  have h1 : (w - 1#64).toNat = w.toNat - 1 := by
    have := w.isLt
    rw [BitVec.toNat_sub]
    simp
    omega
  rw [BitVec.toNat_and, h1]
  have := @Nat.and_le_right w.toNat (w.toNat - 1)
  omega

/-- Inner loop of the extraction functions, src/bitset_util.c:742-750, 762-766, 852-856. -/
def extractWord (w : Word) (base : Nat) : List Nat :=
  if _h : w = 0#64 then [] else (ctz w + base) :: extractWord (w &&& (w - 1#64)) base
termination_by w.toNat
decreasing_by exact clearLowest_lt _h

/-- `bitset_extract_setbits`, src/bitset_util.c:737-754; `bitset_extract_setbits_uint16`, 847-860
(results stay below 2^16 for 1024 words, so the `uint16_t` narrowing is the identity). -/
def extractSetbits : List Word → Nat → List Nat
  | [], _ => []
  | w :: ws, base => extractWord w base ++ extractSetbits ws (base + 64)

/-- `bitset_extract_intersection_setbits_uint16`, src/bitset_util.c:756-770. -/
def extractIntersectionSetbits : List Word → List Word → Nat → List Nat
  | w1 :: ws1, w2 :: ws2, base =>
    extractWord (w1 &&& w2) base ++ extractIntersectionSetbits ws1 ws2 (base + 64)
  | _, _, _ => []

/-- `bitset_clear_list`, src/bitset_util.c:1053-1068.  The counter is `uint64_t`; `Int` here
(it never goes below zero when it starts at the exact cardinality). -/
def bitsetClearList (ws : List Word) (card : Int) : List Nat → List Word × Int
  | [] => (ws, card)
  | pos :: list =>
    let load := wd ws (pos / 64)
    let newload := load &&& ~~~(oneBit (pos % 64))
    bitsetClearList (ws.set (pos / 64) newload) (card - ((load ^^^ newload) >>> (pos % 64)).toNat) list

/-- `bitset_set_list_withcard`, src/bitset_util.c:1070-1085. -/
def bitsetSetListWithcard (ws : List Word) (card : Int) : List Nat → List Word × Int
  | [] => (ws, card)
  | pos :: list =>
    let load := wd ws (pos / 64)
    let newload := load ||| oneBit (pos % 64)
    bitsetSetListWithcard (ws.set (pos / 64) newload) (card + ((load ^^^ newload) >>> (pos % 64)).toNat) list

/-- `bitset_set_list`, src/bitset_util.c:1087-1099. -/
def bitsetSetList (ws : List Word) : List Nat → List Word
  | [] => ws
  | pos :: list => bitsetSetList (ws.set (pos / 64) (wd ws (pos / 64) ||| oneBit (pos % 64))) list

/-- `bitset_flip_list_withcard`, src/bitset_util.c:1106-1123. -/
def bitsetFlipListWithcard (ws : List Word) (card : Int) : List Nat → List Word × Int
  | [] => (ws, card)
  | pos :: list =>
    let load := wd ws (pos / 64)
    let newload := load ^^^ oneBit (pos % 64)
    bitsetFlipListWithcard (ws.set (pos / 64) newload)
      (card + (1 - 2 * (((oneBit (pos % 64) &&& load) >>> (pos % 64)).toNat : Int))) list

/-- `bitset_flip_list`, src/bitset_util.c:1125-1137. -/
def bitsetFlipList (ws : List Word) : List Nat → List Word
  | [] => ws
  | pos :: list => bitsetFlipList (ws.set (pos / 64) (wd ws (pos / 64) ^^^ oneBit (pos % 64))) list

end CRoaring
