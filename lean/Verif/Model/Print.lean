import Verif.Model.Bitmap
import Verif.Model.BitsetT
import Verif.PrintSpec
/-
The functions that print: src/roaring.c:339-373, src/containers/array.c:440-449, bitset.c:986-1003, run.c:648-662, containers.c:84-101 and include/roaring/bitset/bitset.h:284-290
(for the C++ classes see `Model/MapIter.lean`).  The result is the text that goes to the standard output; `%u`, `%d` and `%zu` are `Text.number` (the numbers are not
negative).  Containers are not shared.
-/
namespace CRoaring

/-- `array_container_printf_as_uint32_array`: src/containers/array.c:440-449. -/
def arrayPrintf (l : List Nat) (base : Nat) : List Char :=
  match l with
  | [] => []
  | v :: t => Text.number (u32 ((v : Int) + base)) ++ t.flatMap fun (v : Nat) => ',' :: Text.number (u32 ((v : Int) + base))

/-- `run_container_printf_as_uint32_array`: src/containers/run.c:648-662. -/
def runPrintf (rs : List Rle) (base : Nat) : List Char :=
  match rs with
  | [] => []
  | r :: t =>
    Text.number (u32 ((base : Int) + r.1)) ++
      ((List.range r.2).flatMap fun (j : Nat) => ',' :: Text.number (u32 ((u32 ((base : Int) + r.1) : Int) + (j + 1 : Nat)))) ++
      t.flatMap fun r => (List.range (r.2 + 1)).flatMap fun (j : Nat) => ',' :: Text.number (u32 ((u32 ((base : Int) + r.1) : Int) + j))

/-- The inner loop of `bitset_container_printf_as_uint32_array`: src/containers/bitset.c:989-1000; with `iamfirst` afterwards. -/
def bitsetPrintfWord (w : Word) (base : Nat) (iamfirst : Bool) : List Char × Bool :=
  if _h : w = 0#64 then ([], iamfirst)
  else
    let x := bitsetPrintfWord (w ^^^ (w &&& (~~~w + 1#64))) base false
    ((if iamfirst then [] else [',']) ++ Text.number (u32 ((ctz w : Int) + base)) ++ x.1, x.2)
termination_by w.toNat
decreasing_by exact xorLowest_lt _h

/-- The outer loop: src/containers/bitset.c:988-1002. -/
def bitsetPrintfLoop : List Word → Nat → Bool → List Char
  | [], _, _ => []
  | w :: ws, base, iamfirst =>
    let x := bitsetPrintfWord w base iamfirst
    x.1 ++ bitsetPrintfLoop ws (u32 ((base : Int) + 64)) x.2

/-- `bitset_container_printf_as_uint32_array`: src/containers/bitset.c:986-1003. -/
def bitsetPrintf (b : Bitset) (base : Nat) : List Char := bitsetPrintfLoop b.words base true

/-- `container_printf_as_uint32_array`: src/containers/containers.c:84-101. -/
def containerPrintf (base : Nat) : Container → List Char
  | .bitset b => bitsetPrintf b base
  | .array l => arrayPrintf l base
  | .run rs => runPrintf rs base

/-- The loop of `roaring_bitmap_printf`: src/roaring.c:343-350; the arguments are the cells that are left. -/
def rbPrintfLoop : Bitmap → List Char
  | [] => []
  | p :: t => containerPrintf (p.1 <<< 16) p.2 ++ (if t.length > 0 then [','] else []) ++ rbPrintfLoop t

/-- `roaring_bitmap_printf`: src/roaring.c:339-352. -/
def rbPrintf (r : Bitmap) : List Char := ['{'] ++ rbPrintfLoop r ++ ['}']

/-- `get_full_container_name`: include/roaring/containers/containers.h:196-226. -/
def fullContainerName : Container → List Char
  | .bitset _ => "bitset".toList
  | .array _ => "array".toList
  | .run _ => "run".toList

/-- The loop of `roaring_bitmap_printf_describe`: src/roaring.c:358-371. -/
def rbDescribeLoop : Bitmap → List Char
  | [] => []
  | p :: t =>
    Text.number p.1 ++ ": ".toList ++ fullContainerName p.2 ++ " (".toList ++ Text.number (containerCard p.2).toNat ++ ")".toList ++
      (if t.length > 0 then ", ".toList else []) ++ rbDescribeLoop t

/-- `roaring_bitmap_printf_describe`: src/roaring.c:354-373. -/
def rbDescribe (r : Bitmap) : List Char := ['{'] ++ rbDescribeLoop r ++ ['}']

/-- The loop of `bitset_print`: include/roaring/bitset/bitset.h:286-288, at most `n` times. -/
def bsPrintLoop (b : BSet) : Nat → Nat → List Char
  | 0, _ => []
  | n + 1, i =>
    match bsNextSetBit b i with
    | none => []
    | some i => Text.number i ++ ", ".toList ++ bsPrintLoop b n (i + 1)

/-- `bitset_print`: include/roaring/bitset/bitset.h:284-290.  No bit is found a second time, so the loop runs no oftener than there are bits. -/
def bsPrint (b : BSet) : List Char := ['{'] ++ bsPrintLoop b (64 * b.size + 1) 0 ++ ['}']

end CRoaring
