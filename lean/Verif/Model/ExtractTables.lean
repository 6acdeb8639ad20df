/-
Tables of src/bitset_util.c that the vector code uses, copied entry by entry.
-/
namespace CRoaring

/-- `lengthTable`: src/bitset_util.c:27-38. -/
def lengthTable : List Nat := [
  0, 1, 1, 2, 1, 2, 2, 3, 1, 2, 2, 3, 2, 3, 3, 4, 1, 2, 2, 3, 2, 3, 3, 4, 2, 3, 3, 4, 3, 4, 4, 5,
  1, 2, 2, 3, 2, 3, 3, 4, 2, 3, 3, 4, 3, 4, 4, 5, 2, 3, 3, 4, 3, 4, 4, 5, 3, 4, 4, 5, 4, 5, 5, 6,
  1, 2, 2, 3, 2, 3, 3, 4, 2, 3, 3, 4, 3, 4, 4, 5, 2, 3, 3, 4, 3, 4, 4, 5, 3, 4, 4, 5, 4, 5, 5, 6,
  2, 3, 3, 4, 3, 4, 4, 5, 3, 4, 4, 5, 4, 5, 5, 6, 3, 4, 4, 5, 4, 5, 5, 6, 4, 5, 5, 6, 5, 6, 6, 7,
  1, 2, 2, 3, 2, 3, 3, 4, 2, 3, 3, 4, 3, 4, 4, 5, 2, 3, 3, 4, 3, 4, 4, 5, 3, 4, 4, 5, 4, 5, 5, 6,
  2, 3, 3, 4, 3, 4, 4, 5, 3, 4, 4, 5, 4, 5, 5, 6, 3, 4, 4, 5, 4, 5, 5, 6, 4, 5, 5, 6, 5, 6, 6, 7,
  2, 3, 3, 4, 3, 4, 4, 5, 3, 4, 4, 5, 4, 5, 5, 6, 3, 4, 4, 5, 4, 5, 5, 6, 4, 5, 5, 6, 5, 6, 6, 7,
  3, 4, 4, 5, 4, 5, 5, 6, 4, 5, 5, 6, 5, 6, 6, 7, 4, 5, 5, 6, 5, 6, 6, 7, 5, 6, 6, 7, 6, 7, 7, 8]

/-- `vecDecodeTable`: src/bitset_util.c:43-300; 32-bit lanes. -/
def vecDecodeTable : List (List Nat) := [
  [0, 0, 0, 0, 0, 0, 0, 0],
  [1, 0, 0, 0, 0, 0, 0, 0],
  [2, 0, 0, 0, 0, 0, 0, 0],
  [1, 2, 0, 0, 0, 0, 0, 0],
  [3, 0, 0, 0, 0, 0, 0, 0],
  [1, 3, 0, 0, 0, 0, 0, 0],
  [2, 3, 0, 0, 0, 0, 0, 0],
  [1, 2, 3, 0, 0, 0, 0, 0],
  [4, 0, 0, 0, 0, 0, 0, 0],
  [1, 4, 0, 0, 0, 0, 0, 0],
  [2, 4, 0, 0, 0, 0, 0, 0],
  [1, 2, 4, 0, 0, 0, 0, 0],
  [3, 4, 0, 0, 0, 0, 0, 0],
  [1, 3, 4, 0, 0, 0, 0, 0],
  [2, 3, 4, 0, 0, 0, 0, 0],
  [1, 2, 3, 4, 0, 0, 0, 0],
  [5, 0, 0, 0, 0, 0, 0, 0],
  [1, 5, 0, 0, 0, 0, 0, 0],
  [2, 5, 0, 0, 0, 0, 0, 0],
  [1, 2, 5, 0, 0, 0, 0, 0],
  [3, 5, 0, 0, 0, 0, 0, 0],
  [1, 3, 5, 0, 0, 0, 0, 0],
  [2, 3, 5, 0, 0, 0, 0, 0],
  [1, 2, 3, 5, 0, 0, 0, 0],
  [4, 5, 0, 0, 0, 0, 0, 0],
  [1, 4, 5, 0, 0, 0, 0, 0],
  [2, 4, 5, 0, 0, 0, 0, 0],
  [1, 2, 4, 5, 0, 0, 0, 0],
  [3, 4, 5, 0, 0, 0, 0, 0],
  [1, 3, 4, 5, 0, 0, 0, 0],
  [2, 3, 4, 5, 0, 0, 0, 0],
  [1, 2, 3, 4, 5, 0, 0, 0],
  [6, 0, 0, 0, 0, 0, 0, 0],
  [1, 6, 0, 0, 0, 0, 0, 0],
  [2, 6, 0, 0, 0, 0, 0, 0],
  [1, 2, 6, 0, 0, 0, 0, 0],
  [3, 6, 0, 0, 0, 0, 0, 0],
  [1, 3, 6, 0, 0, 0, 0, 0],
  [2, 3, 6, 0, 0, 0, 0, 0],
  [1, 2, 3, 6, 0, 0, 0, 0],
  [4, 6, 0, 0, 0, 0, 0, 0],
  [1, 4, 6, 0, 0, 0, 0, 0],
  [2, 4, 6, 0, 0, 0, 0, 0],
  [1, 2, 4, 6, 0, 0, 0, 0],
  [3, 4, 6, 0, 0, 0, 0, 0],
  [1, 3, 4, 6, 0, 0, 0, 0],
  [2, 3, 4, 6, 0, 0, 0, 0],
  [1, 2, 3, 4, 6, 0, 0, 0],
  [5, 6, 0, 0, 0, 0, 0, 0],
  [1, 5, 6, 0, 0, 0, 0, 0],
  [2, 5, 6, 0, 0, 0, 0, 0],
  [1, 2, 5, 6, 0, 0, 0, 0],
  [3, 5, 6, 0, 0, 0, 0, 0],
  [1, 3, 5, 6, 0, 0, 0, 0],
  [2, 3, 5, 6, 0, 0, 0, 0],
  [1, 2, 3, 5, 6, 0, 0, 0],
  [4, 5, 6, 0, 0, 0, 0, 0],
  [1, 4, 5, 6, 0, 0, 0, 0],
  [2, 4, 5, 6, 0, 0, 0, 0],
  [1, 2, 4, 5, 6, 0, 0, 0],
  [3, 4, 5, 6, 0, 0, 0, 0],
  [1, 3, 4, 5, 6, 0, 0, 0],
  [2, 3, 4, 5, 6, 0, 0, 0],
  [1, 2, 3, 4, 5, 6, 0, 0],
  [7, 0, 0, 0, 0, 0, 0, 0],
  [1, 7, 0, 0, 0, 0, 0, 0],
  [2, 7, 0, 0, 0, 0, 0, 0],
  [1, 2, 7, 0, 0, 0, 0, 0],
  [3, 7, 0, 0, 0, 0, 0, 0],
  [1, 3, 7, 0, 0, 0, 0, 0],
  [2, 3, 7, 0, 0, 0, 0, 0],
  [1, 2, 3, 7, 0, 0, 0, 0],
  [4, 7, 0, 0, 0, 0, 0, 0],
  [1, 4, 7, 0, 0, 0, 0, 0],
  [2, 4, 7, 0, 0, 0, 0, 0],
  [1, 2, 4, 7, 0, 0, 0, 0],
  [3, 4, 7, 0, 0, 0, 0, 0],
  [1, 3, 4, 7, 0, 0, 0, 0],
  [2, 3, 4, 7, 0, 0, 0, 0],
  [1, 2, 3, 4, 7, 0, 0, 0],
  [5, 7, 0, 0, 0, 0, 0, 0],
  [1, 5, 7, 0, 0, 0, 0, 0],
  [2, 5, 7, 0, 0, 0, 0, 0],
  [1, 2, 5, 7, 0, 0, 0, 0],
  [3, 5, 7, 0, 0, 0, 0, 0],
  [1, 3, 5, 7, 0, 0, 0, 0],
  [2, 3, 5, 7, 0, 0, 0, 0],
  [1, 2, 3, 5, 7, 0, 0, 0],
  [4, 5, 7, 0, 0, 0, 0, 0],
  [1, 4, 5, 7, 0, 0, 0, 0],
  [2, 4, 5, 7, 0, 0, 0, 0],
  [1, 2, 4, 5, 7, 0, 0, 0],
  [3, 4, 5, 7, 0, 0, 0, 0],
  [1, 3, 4, 5, 7, 0, 0, 0],
  [2, 3, 4, 5, 7, 0, 0, 0],
  [1, 2, 3, 4, 5, 7, 0, 0],
  [6, 7, 0, 0, 0, 0, 0, 0],
  [1, 6, 7, 0, 0, 0, 0, 0],
  [2, 6, 7, 0, 0, 0, 0, 0],
  [1, 2, 6, 7, 0, 0, 0, 0],
  [3, 6, 7, 0, 0, 0, 0, 0],
  [1, 3, 6, 7, 0, 0, 0, 0],
  [2, 3, 6, 7, 0, 0, 0, 0],
  [1, 2, 3, 6, 7, 0, 0, 0],
  [4, 6, 7, 0, 0, 0, 0, 0],
  [1, 4, 6, 7, 0, 0, 0, 0],
  [2, 4, 6, 7, 0, 0, 0, 0],
  [1, 2, 4, 6, 7, 0, 0, 0],
  [3, 4, 6, 7, 0, 0, 0, 0],
  [1, 3, 4, 6, 7, 0, 0, 0],
  [2, 3, 4, 6, 7, 0, 0, 0],
  [1, 2, 3, 4, 6, 7, 0, 0],
  [5, 6, 7, 0, 0, 0, 0, 0],
  [1, 5, 6, 7, 0, 0, 0, 0],
  [2, 5, 6, 7, 0, 0, 0, 0],
  [1, 2, 5, 6, 7, 0, 0, 0],
  [3, 5, 6, 7, 0, 0, 0, 0],
  [1, 3, 5, 6, 7, 0, 0, 0],
  [2, 3, 5, 6, 7, 0, 0, 0],
  [1, 2, 3, 5, 6, 7, 0, 0],
  [4, 5, 6, 7, 0, 0, 0, 0],
  [1, 4, 5, 6, 7, 0, 0, 0],
  [2, 4, 5, 6, 7, 0, 0, 0],
  [1, 2, 4, 5, 6, 7, 0, 0],
  [3, 4, 5, 6, 7, 0, 0, 0],
  [1, 3, 4, 5, 6, 7, 0, 0],
  [2, 3, 4, 5, 6, 7, 0, 0],
  [1, 2, 3, 4, 5, 6, 7, 0],
  [8, 0, 0, 0, 0, 0, 0, 0],
  [1, 8, 0, 0, 0, 0, 0, 0],
  [2, 8, 0, 0, 0, 0, 0, 0],
  [1, 2, 8, 0, 0, 0, 0, 0],
  [3, 8, 0, 0, 0, 0, 0, 0],
  [1, 3, 8, 0, 0, 0, 0, 0],
  [2, 3, 8, 0, 0, 0, 0, 0],
  [1, 2, 3, 8, 0, 0, 0, 0],
  [4, 8, 0, 0, 0, 0, 0, 0],
  [1, 4, 8, 0, 0, 0, 0, 0],
  [2, 4, 8, 0, 0, 0, 0, 0],
  [1, 2, 4, 8, 0, 0, 0, 0],
  [3, 4, 8, 0, 0, 0, 0, 0],
  [1, 3, 4, 8, 0, 0, 0, 0],
  [2, 3, 4, 8, 0, 0, 0, 0],
  [1, 2, 3, 4, 8, 0, 0, 0],
  [5, 8, 0, 0, 0, 0, 0, 0],
  [1, 5, 8, 0, 0, 0, 0, 0],
  [2, 5, 8, 0, 0, 0, 0, 0],
  [1, 2, 5, 8, 0, 0, 0, 0],
  [3, 5, 8, 0, 0, 0, 0, 0],
  [1, 3, 5, 8, 0, 0, 0, 0],
  [2, 3, 5, 8, 0, 0, 0, 0],
  [1, 2, 3, 5, 8, 0, 0, 0],
  [4, 5, 8, 0, 0, 0, 0, 0],
  [1, 4, 5, 8, 0, 0, 0, 0],
  [2, 4, 5, 8, 0, 0, 0, 0],
  [1, 2, 4, 5, 8, 0, 0, 0],
  [3, 4, 5, 8, 0, 0, 0, 0],
  [1, 3, 4, 5, 8, 0, 0, 0],
  [2, 3, 4, 5, 8, 0, 0, 0],
  [1, 2, 3, 4, 5, 8, 0, 0],
  [6, 8, 0, 0, 0, 0, 0, 0],
  [1, 6, 8, 0, 0, 0, 0, 0],
  [2, 6, 8, 0, 0, 0, 0, 0],
  [1, 2, 6, 8, 0, 0, 0, 0],
  [3, 6, 8, 0, 0, 0, 0, 0],
  [1, 3, 6, 8, 0, 0, 0, 0],
  [2, 3, 6, 8, 0, 0, 0, 0],
  [1, 2, 3, 6, 8, 0, 0, 0],
  [4, 6, 8, 0, 0, 0, 0, 0],
  [1, 4, 6, 8, 0, 0, 0, 0],
  [2, 4, 6, 8, 0, 0, 0, 0],
  [1, 2, 4, 6, 8, 0, 0, 0],
  [3, 4, 6, 8, 0, 0, 0, 0],
  [1, 3, 4, 6, 8, 0, 0, 0],
  [2, 3, 4, 6, 8, 0, 0, 0],
  [1, 2, 3, 4, 6, 8, 0, 0],
  [5, 6, 8, 0, 0, 0, 0, 0],
  [1, 5, 6, 8, 0, 0, 0, 0],
  [2, 5, 6, 8, 0, 0, 0, 0],
  [1, 2, 5, 6, 8, 0, 0, 0],
  [3, 5, 6, 8, 0, 0, 0, 0],
  [1, 3, 5, 6, 8, 0, 0, 0],
  [2, 3, 5, 6, 8, 0, 0, 0],
  [1, 2, 3, 5, 6, 8, 0, 0],
  [4, 5, 6, 8, 0, 0, 0, 0],
  [1, 4, 5, 6, 8, 0, 0, 0],
  [2, 4, 5, 6, 8, 0, 0, 0],
  [1, 2, 4, 5, 6, 8, 0, 0],
  [3, 4, 5, 6, 8, 0, 0, 0],
  [1, 3, 4, 5, 6, 8, 0, 0],
  [2, 3, 4, 5, 6, 8, 0, 0],
  [1, 2, 3, 4, 5, 6, 8, 0],
  [7, 8, 0, 0, 0, 0, 0, 0],
  [1, 7, 8, 0, 0, 0, 0, 0],
  [2, 7, 8, 0, 0, 0, 0, 0],
  [1, 2, 7, 8, 0, 0, 0, 0],
  [3, 7, 8, 0, 0, 0, 0, 0],
  [1, 3, 7, 8, 0, 0, 0, 0],
  [2, 3, 7, 8, 0, 0, 0, 0],
  [1, 2, 3, 7, 8, 0, 0, 0],
  [4, 7, 8, 0, 0, 0, 0, 0],
  [1, 4, 7, 8, 0, 0, 0, 0],
  [2, 4, 7, 8, 0, 0, 0, 0],
  [1, 2, 4, 7, 8, 0, 0, 0],
  [3, 4, 7, 8, 0, 0, 0, 0],
  [1, 3, 4, 7, 8, 0, 0, 0],
  [2, 3, 4, 7, 8, 0, 0, 0],
  [1, 2, 3, 4, 7, 8, 0, 0],
  [5, 7, 8, 0, 0, 0, 0, 0],
  [1, 5, 7, 8, 0, 0, 0, 0],
  [2, 5, 7, 8, 0, 0, 0, 0],
  [1, 2, 5, 7, 8, 0, 0, 0],
  [3, 5, 7, 8, 0, 0, 0, 0],
  [1, 3, 5, 7, 8, 0, 0, 0],
  [2, 3, 5, 7, 8, 0, 0, 0],
  [1, 2, 3, 5, 7, 8, 0, 0],
  [4, 5, 7, 8, 0, 0, 0, 0],
  [1, 4, 5, 7, 8, 0, 0, 0],
  [2, 4, 5, 7, 8, 0, 0, 0],
  [1, 2, 4, 5, 7, 8, 0, 0],
  [3, 4, 5, 7, 8, 0, 0, 0],
  [1, 3, 4, 5, 7, 8, 0, 0],
  [2, 3, 4, 5, 7, 8, 0, 0],
  [1, 2, 3, 4, 5, 7, 8, 0],
  [6, 7, 8, 0, 0, 0, 0, 0],
  [1, 6, 7, 8, 0, 0, 0, 0],
  [2, 6, 7, 8, 0, 0, 0, 0],
  [1, 2, 6, 7, 8, 0, 0, 0],
  [3, 6, 7, 8, 0, 0, 0, 0],
  [1, 3, 6, 7, 8, 0, 0, 0],
  [2, 3, 6, 7, 8, 0, 0, 0],
  [1, 2, 3, 6, 7, 8, 0, 0],
  [4, 6, 7, 8, 0, 0, 0, 0],
  [1, 4, 6, 7, 8, 0, 0, 0],
  [2, 4, 6, 7, 8, 0, 0, 0],
  [1, 2, 4, 6, 7, 8, 0, 0],
  [3, 4, 6, 7, 8, 0, 0, 0],
  [1, 3, 4, 6, 7, 8, 0, 0],
  [2, 3, 4, 6, 7, 8, 0, 0],
  [1, 2, 3, 4, 6, 7, 8, 0],
  [5, 6, 7, 8, 0, 0, 0, 0],
  [1, 5, 6, 7, 8, 0, 0, 0],
  [2, 5, 6, 7, 8, 0, 0, 0],
  [1, 2, 5, 6, 7, 8, 0, 0],
  [3, 5, 6, 7, 8, 0, 0, 0],
  [1, 3, 5, 6, 7, 8, 0, 0],
  [2, 3, 5, 6, 7, 8, 0, 0],
  [1, 2, 3, 5, 6, 7, 8, 0],
  [4, 5, 6, 7, 8, 0, 0, 0],
  [1, 4, 5, 6, 7, 8, 0, 0],
  [2, 4, 5, 6, 7, 8, 0, 0],
  [1, 2, 4, 5, 6, 7, 8, 0],
  [3, 4, 5, 6, 7, 8, 0, 0],
  [1, 3, 4, 5, 6, 7, 8, 0],
  [2, 3, 4, 5, 6, 7, 8, 0],
  [1, 2, 3, 4, 5, 6, 7, 8]]

/-- `vecDecodeTable_uint16`: src/bitset_util.c:307-564; 16-bit lanes. -/
def vecDecodeTable16 : List (List Nat) := [
  [0, 0, 0, 0, 0, 0, 0, 0],
  [1, 0, 0, 0, 0, 0, 0, 0],
  [2, 0, 0, 0, 0, 0, 0, 0],
  [1, 2, 0, 0, 0, 0, 0, 0],
  [3, 0, 0, 0, 0, 0, 0, 0],
  [1, 3, 0, 0, 0, 0, 0, 0],
  [2, 3, 0, 0, 0, 0, 0, 0],
  [1, 2, 3, 0, 0, 0, 0, 0],
  [4, 0, 0, 0, 0, 0, 0, 0],
  [1, 4, 0, 0, 0, 0, 0, 0],
  [2, 4, 0, 0, 0, 0, 0, 0],
  [1, 2, 4, 0, 0, 0, 0, 0],
  [3, 4, 0, 0, 0, 0, 0, 0],
  [1, 3, 4, 0, 0, 0, 0, 0],
  [2, 3, 4, 0, 0, 0, 0, 0],
  [1, 2, 3, 4, 0, 0, 0, 0],
  [5, 0, 0, 0, 0, 0, 0, 0],
  [1, 5, 0, 0, 0, 0, 0, 0],
  [2, 5, 0, 0, 0, 0, 0, 0],
  [1, 2, 5, 0, 0, 0, 0, 0],
  [3, 5, 0, 0, 0, 0, 0, 0],
  [1, 3, 5, 0, 0, 0, 0, 0],
  [2, 3, 5, 0, 0, 0, 0, 0],
  [1, 2, 3, 5, 0, 0, 0, 0],
  [4, 5, 0, 0, 0, 0, 0, 0],
  [1, 4, 5, 0, 0, 0, 0, 0],
  [2, 4, 5, 0, 0, 0, 0, 0],
  [1, 2, 4, 5, 0, 0, 0, 0],
  [3, 4, 5, 0, 0, 0, 0, 0],
  [1, 3, 4, 5, 0, 0, 0, 0],
  [2, 3, 4, 5, 0, 0, 0, 0],
  [1, 2, 3, 4, 5, 0, 0, 0],
  [6, 0, 0, 0, 0, 0, 0, 0],
  [1, 6, 0, 0, 0, 0, 0, 0],
  [2, 6, 0, 0, 0, 0, 0, 0],
  [1, 2, 6, 0, 0, 0, 0, 0],
  [3, 6, 0, 0, 0, 0, 0, 0],
  [1, 3, 6, 0, 0, 0, 0, 0],
  [2, 3, 6, 0, 0, 0, 0, 0],
  [1, 2, 3, 6, 0, 0, 0, 0],
  [4, 6, 0, 0, 0, 0, 0, 0],
  [1, 4, 6, 0, 0, 0, 0, 0],
  [2, 4, 6, 0, 0, 0, 0, 0],
  [1, 2, 4, 6, 0, 0, 0, 0],
  [3, 4, 6, 0, 0, 0, 0, 0],
  [1, 3, 4, 6, 0, 0, 0, 0],
  [2, 3, 4, 6, 0, 0, 0, 0],
  [1, 2, 3, 4, 6, 0, 0, 0],
  [5, 6, 0, 0, 0, 0, 0, 0],
  [1, 5, 6, 0, 0, 0, 0, 0],
  [2, 5, 6, 0, 0, 0, 0, 0],
  [1, 2, 5, 6, 0, 0, 0, 0],
  [3, 5, 6, 0, 0, 0, 0, 0],
  [1, 3, 5, 6, 0, 0, 0, 0],
  [2, 3, 5, 6, 0, 0, 0, 0],
  [1, 2, 3, 5, 6, 0, 0, 0],
  [4, 5, 6, 0, 0, 0, 0, 0],
  [1, 4, 5, 6, 0, 0, 0, 0],
  [2, 4, 5, 6, 0, 0, 0, 0],
  [1, 2, 4, 5, 6, 0, 0, 0],
  [3, 4, 5, 6, 0, 0, 0, 0],
  [1, 3, 4, 5, 6, 0, 0, 0],
  [2, 3, 4, 5, 6, 0, 0, 0],
  [1, 2, 3, 4, 5, 6, 0, 0],
  [7, 0, 0, 0, 0, 0, 0, 0],
  [1, 7, 0, 0, 0, 0, 0, 0],
  [2, 7, 0, 0, 0, 0, 0, 0],
  [1, 2, 7, 0, 0, 0, 0, 0],
  [3, 7, 0, 0, 0, 0, 0, 0],
  [1, 3, 7, 0, 0, 0, 0, 0],
  [2, 3, 7, 0, 0, 0, 0, 0],
  [1, 2, 3, 7, 0, 0, 0, 0],
  [4, 7, 0, 0, 0, 0, 0, 0],
  [1, 4, 7, 0, 0, 0, 0, 0],
  [2, 4, 7, 0, 0, 0, 0, 0],
  [1, 2, 4, 7, 0, 0, 0, 0],
  [3, 4, 7, 0, 0, 0, 0, 0],
  [1, 3, 4, 7, 0, 0, 0, 0],
  [2, 3, 4, 7, 0, 0, 0, 0],
  [1, 2, 3, 4, 7, 0, 0, 0],
  [5, 7, 0, 0, 0, 0, 0, 0],
  [1, 5, 7, 0, 0, 0, 0, 0],
  [2, 5, 7, 0, 0, 0, 0, 0],
  [1, 2, 5, 7, 0, 0, 0, 0],
  [3, 5, 7, 0, 0, 0, 0, 0],
  [1, 3, 5, 7, 0, 0, 0, 0],
  [2, 3, 5, 7, 0, 0, 0, 0],
  [1, 2, 3, 5, 7, 0, 0, 0],
  [4, 5, 7, 0, 0, 0, 0, 0],
  [1, 4, 5, 7, 0, 0, 0, 0],
  [2, 4, 5, 7, 0, 0, 0, 0],
  [1, 2, 4, 5, 7, 0, 0, 0],
  [3, 4, 5, 7, 0, 0, 0, 0],
  [1, 3, 4, 5, 7, 0, 0, 0],
  [2, 3, 4, 5, 7, 0, 0, 0],
  [1, 2, 3, 4, 5, 7, 0, 0],
  [6, 7, 0, 0, 0, 0, 0, 0],
  [1, 6, 7, 0, 0, 0, 0, 0],
  [2, 6, 7, 0, 0, 0, 0, 0],
  [1, 2, 6, 7, 0, 0, 0, 0],
  [3, 6, 7, 0, 0, 0, 0, 0],
  [1, 3, 6, 7, 0, 0, 0, 0],
  [2, 3, 6, 7, 0, 0, 0, 0],
  [1, 2, 3, 6, 7, 0, 0, 0],
  [4, 6, 7, 0, 0, 0, 0, 0],
  [1, 4, 6, 7, 0, 0, 0, 0],
  [2, 4, 6, 7, 0, 0, 0, 0],
  [1, 2, 4, 6, 7, 0, 0, 0],
  [3, 4, 6, 7, 0, 0, 0, 0],
  [1, 3, 4, 6, 7, 0, 0, 0],
  [2, 3, 4, 6, 7, 0, 0, 0],
  [1, 2, 3, 4, 6, 7, 0, 0],
  [5, 6, 7, 0, 0, 0, 0, 0],
  [1, 5, 6, 7, 0, 0, 0, 0],
  [2, 5, 6, 7, 0, 0, 0, 0],
  [1, 2, 5, 6, 7, 0, 0, 0],
  [3, 5, 6, 7, 0, 0, 0, 0],
  [1, 3, 5, 6, 7, 0, 0, 0],
  [2, 3, 5, 6, 7, 0, 0, 0],
  [1, 2, 3, 5, 6, 7, 0, 0],
  [4, 5, 6, 7, 0, 0, 0, 0],
  [1, 4, 5, 6, 7, 0, 0, 0],
  [2, 4, 5, 6, 7, 0, 0, 0],
  [1, 2, 4, 5, 6, 7, 0, 0],
  [3, 4, 5, 6, 7, 0, 0, 0],
  [1, 3, 4, 5, 6, 7, 0, 0],
  [2, 3, 4, 5, 6, 7, 0, 0],
  [1, 2, 3, 4, 5, 6, 7, 0],
  [8, 0, 0, 0, 0, 0, 0, 0],
  [1, 8, 0, 0, 0, 0, 0, 0],
  [2, 8, 0, 0, 0, 0, 0, 0],
  [1, 2, 8, 0, 0, 0, 0, 0],
  [3, 8, 0, 0, 0, 0, 0, 0],
  [1, 3, 8, 0, 0, 0, 0, 0],
  [2, 3, 8, 0, 0, 0, 0, 0],
  [1, 2, 3, 8, 0, 0, 0, 0],
  [4, 8, 0, 0, 0, 0, 0, 0],
  [1, 4, 8, 0, 0, 0, 0, 0],
  [2, 4, 8, 0, 0, 0, 0, 0],
  [1, 2, 4, 8, 0, 0, 0, 0],
  [3, 4, 8, 0, 0, 0, 0, 0],
  [1, 3, 4, 8, 0, 0, 0, 0],
  [2, 3, 4, 8, 0, 0, 0, 0],
  [1, 2, 3, 4, 8, 0, 0, 0],
  [5, 8, 0, 0, 0, 0, 0, 0],
  [1, 5, 8, 0, 0, 0, 0, 0],
  [2, 5, 8, 0, 0, 0, 0, 0],
  [1, 2, 5, 8, 0, 0, 0, 0],
  [3, 5, 8, 0, 0, 0, 0, 0],
  [1, 3, 5, 8, 0, 0, 0, 0],
  [2, 3, 5, 8, 0, 0, 0, 0],
  [1, 2, 3, 5, 8, 0, 0, 0],
  [4, 5, 8, 0, 0, 0, 0, 0],
  [1, 4, 5, 8, 0, 0, 0, 0],
  [2, 4, 5, 8, 0, 0, 0, 0],
  [1, 2, 4, 5, 8, 0, 0, 0],
  [3, 4, 5, 8, 0, 0, 0, 0],
  [1, 3, 4, 5, 8, 0, 0, 0],
  [2, 3, 4, 5, 8, 0, 0, 0],
  [1, 2, 3, 4, 5, 8, 0, 0],
  [6, 8, 0, 0, 0, 0, 0, 0],
  [1, 6, 8, 0, 0, 0, 0, 0],
  [2, 6, 8, 0, 0, 0, 0, 0],
  [1, 2, 6, 8, 0, 0, 0, 0],
  [3, 6, 8, 0, 0, 0, 0, 0],
  [1, 3, 6, 8, 0, 0, 0, 0],
  [2, 3, 6, 8, 0, 0, 0, 0],
  [1, 2, 3, 6, 8, 0, 0, 0],
  [4, 6, 8, 0, 0, 0, 0, 0],
  [1, 4, 6, 8, 0, 0, 0, 0],
  [2, 4, 6, 8, 0, 0, 0, 0],
  [1, 2, 4, 6, 8, 0, 0, 0],
  [3, 4, 6, 8, 0, 0, 0, 0],
  [1, 3, 4, 6, 8, 0, 0, 0],
  [2, 3, 4, 6, 8, 0, 0, 0],
  [1, 2, 3, 4, 6, 8, 0, 0],
  [5, 6, 8, 0, 0, 0, 0, 0],
  [1, 5, 6, 8, 0, 0, 0, 0],
  [2, 5, 6, 8, 0, 0, 0, 0],
  [1, 2, 5, 6, 8, 0, 0, 0],
  [3, 5, 6, 8, 0, 0, 0, 0],
  [1, 3, 5, 6, 8, 0, 0, 0],
  [2, 3, 5, 6, 8, 0, 0, 0],
  [1, 2, 3, 5, 6, 8, 0, 0],
  [4, 5, 6, 8, 0, 0, 0, 0],
  [1, 4, 5, 6, 8, 0, 0, 0],
  [2, 4, 5, 6, 8, 0, 0, 0],
  [1, 2, 4, 5, 6, 8, 0, 0],
  [3, 4, 5, 6, 8, 0, 0, 0],
  [1, 3, 4, 5, 6, 8, 0, 0],
  [2, 3, 4, 5, 6, 8, 0, 0],
  [1, 2, 3, 4, 5, 6, 8, 0],
  [7, 8, 0, 0, 0, 0, 0, 0],
  [1, 7, 8, 0, 0, 0, 0, 0],
  [2, 7, 8, 0, 0, 0, 0, 0],
  [1, 2, 7, 8, 0, 0, 0, 0],
  [3, 7, 8, 0, 0, 0, 0, 0],
  [1, 3, 7, 8, 0, 0, 0, 0],
  [2, 3, 7, 8, 0, 0, 0, 0],
  [1, 2, 3, 7, 8, 0, 0, 0],
  [4, 7, 8, 0, 0, 0, 0, 0],
  [1, 4, 7, 8, 0, 0, 0, 0],
  [2, 4, 7, 8, 0, 0, 0, 0],
  [1, 2, 4, 7, 8, 0, 0, 0],
  [3, 4, 7, 8, 0, 0, 0, 0],
  [1, 3, 4, 7, 8, 0, 0, 0],
  [2, 3, 4, 7, 8, 0, 0, 0],
  [1, 2, 3, 4, 7, 8, 0, 0],
  [5, 7, 8, 0, 0, 0, 0, 0],
  [1, 5, 7, 8, 0, 0, 0, 0],
  [2, 5, 7, 8, 0, 0, 0, 0],
  [1, 2, 5, 7, 8, 0, 0, 0],
  [3, 5, 7, 8, 0, 0, 0, 0],
  [1, 3, 5, 7, 8, 0, 0, 0],
  [2, 3, 5, 7, 8, 0, 0, 0],
  [1, 2, 3, 5, 7, 8, 0, 0],
  [4, 5, 7, 8, 0, 0, 0, 0],
  [1, 4, 5, 7, 8, 0, 0, 0],
  [2, 4, 5, 7, 8, 0, 0, 0],
  [1, 2, 4, 5, 7, 8, 0, 0],
  [3, 4, 5, 7, 8, 0, 0, 0],
  [1, 3, 4, 5, 7, 8, 0, 0],
  [2, 3, 4, 5, 7, 8, 0, 0],
  [1, 2, 3, 4, 5, 7, 8, 0],
  [6, 7, 8, 0, 0, 0, 0, 0],
  [1, 6, 7, 8, 0, 0, 0, 0],
  [2, 6, 7, 8, 0, 0, 0, 0],
  [1, 2, 6, 7, 8, 0, 0, 0],
  [3, 6, 7, 8, 0, 0, 0, 0],
  [1, 3, 6, 7, 8, 0, 0, 0],
  [2, 3, 6, 7, 8, 0, 0, 0],
  [1, 2, 3, 6, 7, 8, 0, 0],
  [4, 6, 7, 8, 0, 0, 0, 0],
  [1, 4, 6, 7, 8, 0, 0, 0],
  [2, 4, 6, 7, 8, 0, 0, 0],
  [1, 2, 4, 6, 7, 8, 0, 0],
  [3, 4, 6, 7, 8, 0, 0, 0],
  [1, 3, 4, 6, 7, 8, 0, 0],
  [2, 3, 4, 6, 7, 8, 0, 0],
  [1, 2, 3, 4, 6, 7, 8, 0],
  [5, 6, 7, 8, 0, 0, 0, 0],
  [1, 5, 6, 7, 8, 0, 0, 0],
  [2, 5, 6, 7, 8, 0, 0, 0],
  [1, 2, 5, 6, 7, 8, 0, 0],
  [3, 5, 6, 7, 8, 0, 0, 0],
  [1, 3, 5, 6, 7, 8, 0, 0],
  [2, 3, 5, 6, 7, 8, 0, 0],
  [1, 2, 3, 5, 6, 7, 8, 0],
  [4, 5, 6, 7, 8, 0, 0, 0],
  [1, 4, 5, 6, 7, 8, 0, 0],
  [2, 4, 5, 6, 7, 8, 0, 0],
  [1, 2, 4, 5, 6, 7, 8, 0],
  [3, 4, 5, 6, 7, 8, 0, 0],
  [1, 3, 4, 5, 6, 7, 8, 0],
  [2, 3, 4, 5, 6, 7, 8, 0],
  [1, 2, 3, 4, 5, 6, 7, 8]]

end CRoaring
