/-
Tables of src/array_util.c that the vector code uses, copied byte by byte.
-/
namespace CRoaring

/-- `shuffle_mask16`: src/array_util.c:36-378; 16 bytes in a row, as the code reads them. -/
def shuffleMask16 : List (List Nat) := [
  [255, 255, 255, 255, 255, 255, 255, 255, 255, 255, 255, 255, 255, 255, 255, 255],
  [0, 1, 255, 255, 255, 255, 255, 255, 255, 255, 255, 255, 255, 255, 255, 255],
  [2, 3, 255, 255, 255, 255, 255, 255, 255, 255, 255, 255, 255, 255, 255, 255],
  [0, 1, 2, 3, 255, 255, 255, 255, 255, 255, 255, 255, 255, 255, 255, 255],
  [4, 5, 255, 255, 255, 255, 255, 255, 255, 255, 255, 255, 255, 255, 255, 255],
  [0, 1, 4, 5, 255, 255, 255, 255, 255, 255, 255, 255, 255, 255, 255, 255],
  [2, 3, 4, 5, 255, 255, 255, 255, 255, 255, 255, 255, 255, 255, 255, 255],
  [0, 1, 2, 3, 4, 5, 255, 255, 255, 255, 255, 255, 255, 255, 255, 255],
  [6, 7, 255, 255, 255, 255, 255, 255, 255, 255, 255, 255, 255, 255, 255, 255],
  [0, 1, 6, 7, 255, 255, 255, 255, 255, 255, 255, 255, 255, 255, 255, 255],
  [2, 3, 6, 7, 255, 255, 255, 255, 255, 255, 255, 255, 255, 255, 255, 255],
  [0, 1, 2, 3, 6, 7, 255, 255, 255, 255, 255, 255, 255, 255, 255, 255],
  [4, 5, 6, 7, 255, 255, 255, 255, 255, 255, 255, 255, 255, 255, 255, 255],
  [0, 1, 4, 5, 6, 7, 255, 255, 255, 255, 255, 255, 255, 255, 255, 255],
  [2, 3, 4, 5, 6, 7, 255, 255, 255, 255, 255, 255, 255, 255, 255, 255],
  [0, 1, 2, 3, 4, 5, 6, 7, 255, 255, 255, 255, 255, 255, 255, 255],
  [8, 9, 255, 255, 255, 255, 255, 255, 255, 255, 255, 255, 255, 255, 255, 255],
  [0, 1, 8, 9, 255, 255, 255, 255, 255, 255, 255, 255, 255, 255, 255, 255],
  [2, 3, 8, 9, 255, 255, 255, 255, 255, 255, 255, 255, 255, 255, 255, 255],
  [0, 1, 2, 3, 8, 9, 255, 255, 255, 255, 255, 255, 255, 255, 255, 255],
  [4, 5, 8, 9, 255, 255, 255, 255, 255, 255, 255, 255, 255, 255, 255, 255],
  [0, 1, 4, 5, 8, 9, 255, 255, 255, 255, 255, 255, 255, 255, 255, 255],
  [2, 3, 4, 5, 8, 9, 255, 255, 255, 255, 255, 255, 255, 255, 255, 255],
  [0, 1, 2, 3, 4, 5, 8, 9, 255, 255, 255, 255, 255, 255, 255, 255],
  [6, 7, 8, 9, 255, 255, 255, 255, 255, 255, 255, 255, 255, 255, 255, 255],
  [0, 1, 6, 7, 8, 9, 255, 255, 255, 255, 255, 255, 255, 255, 255, 255],
  [2, 3, 6, 7, 8, 9, 255, 255, 255, 255, 255, 255, 255, 255, 255, 255],
  [0, 1, 2, 3, 6, 7, 8, 9, 255, 255, 255, 255, 255, 255, 255, 255],
  [4, 5, 6, 7, 8, 9, 255, 255, 255, 255, 255, 255, 255, 255, 255, 255],
  [0, 1, 4, 5, 6, 7, 8, 9, 255, 255, 255, 255, 255, 255, 255, 255],
  [2, 3, 4, 5, 6, 7, 8, 9, 255, 255, 255, 255, 255, 255, 255, 255],
  [0, 1, 2, 3, 4, 5, 6, 7, 8, 9, 255, 255, 255, 255, 255, 255],
  [10, 11, 255, 255, 255, 255, 255, 255, 255, 255, 255, 255, 255, 255, 255, 255],
  [0, 1, 10, 11, 255, 255, 255, 255, 255, 255, 255, 255, 255, 255, 255, 255],
  [2, 3, 10, 11, 255, 255, 255, 255, 255, 255, 255, 255, 255, 255, 255, 255],
  [0, 1, 2, 3, 10, 11, 255, 255, 255, 255, 255, 255, 255, 255, 255, 255],
  [4, 5, 10, 11, 255, 255, 255, 255, 255, 255, 255, 255, 255, 255, 255, 255],
  [0, 1, 4, 5, 10, 11, 255, 255, 255, 255, 255, 255, 255, 255, 255, 255],
  [2, 3, 4, 5, 10, 11, 255, 255, 255, 255, 255, 255, 255, 255, 255, 255],
  [0, 1, 2, 3, 4, 5, 10, 11, 255, 255, 255, 255, 255, 255, 255, 255],
  [6, 7, 10, 11, 255, 255, 255, 255, 255, 255, 255, 255, 255, 255, 255, 255],
  [0, 1, 6, 7, 10, 11, 255, 255, 255, 255, 255, 255, 255, 255, 255, 255],
  [2, 3, 6, 7, 10, 11, 255, 255, 255, 255, 255, 255, 255, 255, 255, 255],
  [0, 1, 2, 3, 6, 7, 10, 11, 255, 255, 255, 255, 255, 255, 255, 255],
  [4, 5, 6, 7, 10, 11, 255, 255, 255, 255, 255, 255, 255, 255, 255, 255],
  [0, 1, 4, 5, 6, 7, 10, 11, 255, 255, 255, 255, 255, 255, 255, 255],
  [2, 3, 4, 5, 6, 7, 10, 11, 255, 255, 255, 255, 255, 255, 255, 255],
  [0, 1, 2, 3, 4, 5, 6, 7, 10, 11, 255, 255, 255, 255, 255, 255],
  [8, 9, 10, 11, 255, 255, 255, 255, 255, 255, 255, 255, 255, 255, 255, 255],
  [0, 1, 8, 9, 10, 11, 255, 255, 255, 255, 255, 255, 255, 255, 255, 255],
  [2, 3, 8, 9, 10, 11, 255, 255, 255, 255, 255, 255, 255, 255, 255, 255],
  [0, 1, 2, 3, 8, 9, 10, 11, 255, 255, 255, 255, 255, 255, 255, 255],
  [4, 5, 8, 9, 10, 11, 255, 255, 255, 255, 255, 255, 255, 255, 255, 255],
  [0, 1, 4, 5, 8, 9, 10, 11, 255, 255, 255, 255, 255, 255, 255, 255],
  [2, 3, 4, 5, 8, 9, 10, 11, 255, 255, 255, 255, 255, 255, 255, 255],
  [0, 1, 2, 3, 4, 5, 8, 9, 10, 11, 255, 255, 255, 255, 255, 255],
  [6, 7, 8, 9, 10, 11, 255, 255, 255, 255, 255, 255, 255, 255, 255, 255],
  [0, 1, 6, 7, 8, 9, 10, 11, 255, 255, 255, 255, 255, 255, 255, 255],
  [2, 3, 6, 7, 8, 9, 10, 11, 255, 255, 255, 255, 255, 255, 255, 255],
  [0, 1, 2, 3, 6, 7, 8, 9, 10, 11, 255, 255, 255, 255, 255, 255],
  [4, 5, 6, 7, 8, 9, 10, 11, 255, 255, 255, 255, 255, 255, 255, 255],
  [0, 1, 4, 5, 6, 7, 8, 9, 10, 11, 255, 255, 255, 255, 255, 255],
  [2, 3, 4, 5, 6, 7, 8, 9, 10, 11, 255, 255, 255, 255, 255, 255],
  [0, 1, 2, 3, 4, 5, 6, 7, 8, 9, 10, 11, 255, 255, 255, 255],
  [12, 13, 255, 255, 255, 255, 255, 255, 255, 255, 255, 255, 255, 255, 255, 255],
  [0, 1, 12, 13, 255, 255, 255, 255, 255, 255, 255, 255, 255, 255, 255, 255],
  [2, 3, 12, 13, 255, 255, 255, 255, 255, 255, 255, 255, 255, 255, 255, 255],
  [0, 1, 2, 3, 12, 13, 255, 255, 255, 255, 255, 255, 255, 255, 255, 255],
  [4, 5, 12, 13, 255, 255, 255, 255, 255, 255, 255, 255, 255, 255, 255, 255],
  [0, 1, 4, 5, 12, 13, 255, 255, 255, 255, 255, 255, 255, 255, 255, 255],
  [2, 3, 4, 5, 12, 13, 255, 255, 255, 255, 255, 255, 255, 255, 255, 255],
  [0, 1, 2, 3, 4, 5, 12, 13, 255, 255, 255, 255, 255, 255, 255, 255],
  [6, 7, 12, 13, 255, 255, 255, 255, 255, 255, 255, 255, 255, 255, 255, 255],
  [0, 1, 6, 7, 12, 13, 255, 255, 255, 255, 255, 255, 255, 255, 255, 255],
  [2, 3, 6, 7, 12, 13, 255, 255, 255, 255, 255, 255, 255, 255, 255, 255],
  [0, 1, 2, 3, 6, 7, 12, 13, 255, 255, 255, 255, 255, 255, 255, 255],
  [4, 5, 6, 7, 12, 13, 255, 255, 255, 255, 255, 255, 255, 255, 255, 255],
  [0, 1, 4, 5, 6, 7, 12, 13, 255, 255, 255, 255, 255, 255, 255, 255],
  [2, 3, 4, 5, 6, 7, 12, 13, 255, 255, 255, 255, 255, 255, 255, 255],
  [0, 1, 2, 3, 4, 5, 6, 7, 12, 13, 255, 255, 255, 255, 255, 255],
  [8, 9, 12, 13, 255, 255, 255, 255, 255, 255, 255, 255, 255, 255, 255, 255],
  [0, 1, 8, 9, 12, 13, 255, 255, 255, 255, 255, 255, 255, 255, 255, 255],
  [2, 3, 8, 9, 12, 13, 255, 255, 255, 255, 255, 255, 255, 255, 255, 255],
  [0, 1, 2, 3, 8, 9, 12, 13, 255, 255, 255, 255, 255, 255, 255, 255],
  [4, 5, 8, 9, 12, 13, 255, 255, 255, 255, 255, 255, 255, 255, 255, 255],
  [0, 1, 4, 5, 8, 9, 12, 13, 255, 255, 255, 255, 255, 255, 255, 255],
  [2, 3, 4, 5, 8, 9, 12, 13, 255, 255, 255, 255, 255, 255, 255, 255],
  [0, 1, 2, 3, 4, 5, 8, 9, 12, 13, 255, 255, 255, 255, 255, 255],
  [6, 7, 8, 9, 12, 13, 255, 255, 255, 255, 255, 255, 255, 255, 255, 255],
  [0, 1, 6, 7, 8, 9, 12, 13, 255, 255, 255, 255, 255, 255, 255, 255],
  [2, 3, 6, 7, 8, 9, 12, 13, 255, 255, 255, 255, 255, 255, 255, 255],
  [0, 1, 2, 3, 6, 7, 8, 9, 12, 13, 255, 255, 255, 255, 255, 255],
  [4, 5, 6, 7, 8, 9, 12, 13, 255, 255, 255, 255, 255, 255, 255, 255],
  [0, 1, 4, 5, 6, 7, 8, 9, 12, 13, 255, 255, 255, 255, 255, 255],
  [2, 3, 4, 5, 6, 7, 8, 9, 12, 13, 255, 255, 255, 255, 255, 255],
  [0, 1, 2, 3, 4, 5, 6, 7, 8, 9, 12, 13, 255, 255, 255, 255],
  [10, 11, 12, 13, 255, 255, 255, 255, 255, 255, 255, 255, 255, 255, 255, 255],
  [0, 1, 10, 11, 12, 13, 255, 255, 255, 255, 255, 255, 255, 255, 255, 255],
  [2, 3, 10, 11, 12, 13, 255, 255, 255, 255, 255, 255, 255, 255, 255, 255],
  [0, 1, 2, 3, 10, 11, 12, 13, 255, 255, 255, 255, 255, 255, 255, 255],
  [4, 5, 10, 11, 12, 13, 255, 255, 255, 255, 255, 255, 255, 255, 255, 255],
  [0, 1, 4, 5, 10, 11, 12, 13, 255, 255, 255, 255, 255, 255, 255, 255],
  [2, 3, 4, 5, 10, 11, 12, 13, 255, 255, 255, 255, 255, 255, 255, 255],
  [0, 1, 2, 3, 4, 5, 10, 11, 12, 13, 255, 255, 255, 255, 255, 255],
  [6, 7, 10, 11, 12, 13, 255, 255, 255, 255, 255, 255, 255, 255, 255, 255],
  [0, 1, 6, 7, 10, 11, 12, 13, 255, 255, 255, 255, 255, 255, 255, 255],
  [2, 3, 6, 7, 10, 11, 12, 13, 255, 255, 255, 255, 255, 255, 255, 255],
  [0, 1, 2, 3, 6, 7, 10, 11, 12, 13, 255, 255, 255, 255, 255, 255],
  [4, 5, 6, 7, 10, 11, 12, 13, 255, 255, 255, 255, 255, 255, 255, 255],
  [0, 1, 4, 5, 6, 7, 10, 11, 12, 13, 255, 255, 255, 255, 255, 255],
  [2, 3, 4, 5, 6, 7, 10, 11, 12, 13, 255, 255, 255, 255, 255, 255],
  [0, 1, 2, 3, 4, 5, 6, 7, 10, 11, 12, 13, 255, 255, 255, 255],
  [8, 9, 10, 11, 12, 13, 255, 255, 255, 255, 255, 255, 255, 255, 255, 255],
  [0, 1, 8, 9, 10, 11, 12, 13, 255, 255, 255, 255, 255, 255, 255, 255],
  [2, 3, 8, 9, 10, 11, 12, 13, 255, 255, 255, 255, 255, 255, 255, 255],
  [0, 1, 2, 3, 8, 9, 10, 11, 12, 13, 255, 255, 255, 255, 255, 255],
  [4, 5, 8, 9, 10, 11, 12, 13, 255, 255, 255, 255, 255, 255, 255, 255],
  [0, 1, 4, 5, 8, 9, 10, 11, 12, 13, 255, 255, 255, 255, 255, 255],
  [2, 3, 4, 5, 8, 9, 10, 11, 12, 13, 255, 255, 255, 255, 255, 255],
  [0, 1, 2, 3, 4, 5, 8, 9, 10, 11, 12, 13, 255, 255, 255, 255],
  [6, 7, 8, 9, 10, 11, 12, 13, 255, 255, 255, 255, 255, 255, 255, 255],
  [0, 1, 6, 7, 8, 9, 10, 11, 12, 13, 255, 255, 255, 255, 255, 255],
  [2, 3, 6, 7, 8, 9, 10, 11, 12, 13, 255, 255, 255, 255, 255, 255],
  [0, 1, 2, 3, 6, 7, 8, 9, 10, 11, 12, 13, 255, 255, 255, 255],
  [4, 5, 6, 7, 8, 9, 10, 11, 12, 13, 255, 255, 255, 255, 255, 255],
  [0, 1, 4, 5, 6, 7, 8, 9, 10, 11, 12, 13, 255, 255, 255, 255],
  [2, 3, 4, 5, 6, 7, 8, 9, 10, 11, 12, 13, 255, 255, 255, 255],
  [0, 1, 2, 3, 4, 5, 6, 7, 8, 9, 10, 11, 12, 13, 255, 255],
  [14, 15, 255, 255, 255, 255, 255, 255, 255, 255, 255, 255, 255, 255, 255, 255],
  [0, 1, 14, 15, 255, 255, 255, 255, 255, 255, 255, 255, 255, 255, 255, 255],
  [2, 3, 14, 15, 255, 255, 255, 255, 255, 255, 255, 255, 255, 255, 255, 255],
  [0, 1, 2, 3, 14, 15, 255, 255, 255, 255, 255, 255, 255, 255, 255, 255],
  [4, 5, 14, 15, 255, 255, 255, 255, 255, 255, 255, 255, 255, 255, 255, 255],
  [0, 1, 4, 5, 14, 15, 255, 255, 255, 255, 255, 255, 255, 255, 255, 255],
  [2, 3, 4, 5, 14, 15, 255, 255, 255, 255, 255, 255, 255, 255, 255, 255],
  [0, 1, 2, 3, 4, 5, 14, 15, 255, 255, 255, 255, 255, 255, 255, 255],
  [6, 7, 14, 15, 255, 255, 255, 255, 255, 255, 255, 255, 255, 255, 255, 255],
  [0, 1, 6, 7, 14, 15, 255, 255, 255, 255, 255, 255, 255, 255, 255, 255],
  [2, 3, 6, 7, 14, 15, 255, 255, 255, 255, 255, 255, 255, 255, 255, 255],
  [0, 1, 2, 3, 6, 7, 14, 15, 255, 255, 255, 255, 255, 255, 255, 255],
  [4, 5, 6, 7, 14, 15, 255, 255, 255, 255, 255, 255, 255, 255, 255, 255],
  [0, 1, 4, 5, 6, 7, 14, 15, 255, 255, 255, 255, 255, 255, 255, 255],
  [2, 3, 4, 5, 6, 7, 14, 15, 255, 255, 255, 255, 255, 255, 255, 255],
  [0, 1, 2, 3, 4, 5, 6, 7, 14, 15, 255, 255, 255, 255, 255, 255],
  [8, 9, 14, 15, 255, 255, 255, 255, 255, 255, 255, 255, 255, 255, 255, 255],
  [0, 1, 8, 9, 14, 15, 255, 255, 255, 255, 255, 255, 255, 255, 255, 255],
  [2, 3, 8, 9, 14, 15, 255, 255, 255, 255, 255, 255, 255, 255, 255, 255],
  [0, 1, 2, 3, 8, 9, 14, 15, 255, 255, 255, 255, 255, 255, 255, 255],
  [4, 5, 8, 9, 14, 15, 255, 255, 255, 255, 255, 255, 255, 255, 255, 255],
  [0, 1, 4, 5, 8, 9, 14, 15, 255, 255, 255, 255, 255, 255, 255, 255],
  [2, 3, 4, 5, 8, 9, 14, 15, 255, 255, 255, 255, 255, 255, 255, 255],
  [0, 1, 2, 3, 4, 5, 8, 9, 14, 15, 255, 255, 255, 255, 255, 255],
  [6, 7, 8, 9, 14, 15, 255, 255, 255, 255, 255, 255, 255, 255, 255, 255],
  [0, 1, 6, 7, 8, 9, 14, 15, 255, 255, 255, 255, 255, 255, 255, 255],
  [2, 3, 6, 7, 8, 9, 14, 15, 255, 255, 255, 255, 255, 255, 255, 255],
  [0, 1, 2, 3, 6, 7, 8, 9, 14, 15, 255, 255, 255, 255, 255, 255],
  [4, 5, 6, 7, 8, 9, 14, 15, 255, 255, 255, 255, 255, 255, 255, 255],
  [0, 1, 4, 5, 6, 7, 8, 9, 14, 15, 255, 255, 255, 255, 255, 255],
  [2, 3, 4, 5, 6, 7, 8, 9, 14, 15, 255, 255, 255, 255, 255, 255],
  [0, 1, 2, 3, 4, 5, 6, 7, 8, 9, 14, 15, 255, 255, 255, 255],
  [10, 11, 14, 15, 255, 255, 255, 255, 255, 255, 255, 255, 255, 255, 255, 255],
  [0, 1, 10, 11, 14, 15, 255, 255, 255, 255, 255, 255, 255, 255, 255, 255],
  [2, 3, 10, 11, 14, 15, 255, 255, 255, 255, 255, 255, 255, 255, 255, 255],
  [0, 1, 2, 3, 10, 11, 14, 15, 255, 255, 255, 255, 255, 255, 255, 255],
  [4, 5, 10, 11, 14, 15, 255, 255, 255, 255, 255, 255, 255, 255, 255, 255],
  [0, 1, 4, 5, 10, 11, 14, 15, 255, 255, 255, 255, 255, 255, 255, 255],
  [2, 3, 4, 5, 10, 11, 14, 15, 255, 255, 255, 255, 255, 255, 255, 255],
  [0, 1, 2, 3, 4, 5, 10, 11, 14, 15, 255, 255, 255, 255, 255, 255],
  [6, 7, 10, 11, 14, 15, 255, 255, 255, 255, 255, 255, 255, 255, 255, 255],
  [0, 1, 6, 7, 10, 11, 14, 15, 255, 255, 255, 255, 255, 255, 255, 255],
  [2, 3, 6, 7, 10, 11, 14, 15, 255, 255, 255, 255, 255, 255, 255, 255],
  [0, 1, 2, 3, 6, 7, 10, 11, 14, 15, 255, 255, 255, 255, 255, 255],
  [4, 5, 6, 7, 10, 11, 14, 15, 255, 255, 255, 255, 255, 255, 255, 255],
  [0, 1, 4, 5, 6, 7, 10, 11, 14, 15, 255, 255, 255, 255, 255, 255],
  [2, 3, 4, 5, 6, 7, 10, 11, 14, 15, 255, 255, 255, 255, 255, 255],
  [0, 1, 2, 3, 4, 5, 6, 7, 10, 11, 14, 15, 255, 255, 255, 255],
  [8, 9, 10, 11, 14, 15, 255, 255, 255, 255, 255, 255, 255, 255, 255, 255],
  [0, 1, 8, 9, 10, 11, 14, 15, 255, 255, 255, 255, 255, 255, 255, 255],
  [2, 3, 8, 9, 10, 11, 14, 15, 255, 255, 255, 255, 255, 255, 255, 255],
  [0, 1, 2, 3, 8, 9, 10, 11, 14, 15, 255, 255, 255, 255, 255, 255],
  [4, 5, 8, 9, 10, 11, 14, 15, 255, 255, 255, 255, 255, 255, 255, 255],
  [0, 1, 4, 5, 8, 9, 10, 11, 14, 15, 255, 255, 255, 255, 255, 255],
  [2, 3, 4, 5, 8, 9, 10, 11, 14, 15, 255, 255, 255, 255, 255, 255],
  [0, 1, 2, 3, 4, 5, 8, 9, 10, 11, 14, 15, 255, 255, 255, 255],
  [6, 7, 8, 9, 10, 11, 14, 15, 255, 255, 255, 255, 255, 255, 255, 255],
  [0, 1, 6, 7, 8, 9, 10, 11, 14, 15, 255, 255, 255, 255, 255, 255],
  [2, 3, 6, 7, 8, 9, 10, 11, 14, 15, 255, 255, 255, 255, 255, 255],
  [0, 1, 2, 3, 6, 7, 8, 9, 10, 11, 14, 15, 255, 255, 255, 255],
  [4, 5, 6, 7, 8, 9, 10, 11, 14, 15, 255, 255, 255, 255, 255, 255],
  [0, 1, 4, 5, 6, 7, 8, 9, 10, 11, 14, 15, 255, 255, 255, 255],
  [2, 3, 4, 5, 6, 7, 8, 9, 10, 11, 14, 15, 255, 255, 255, 255],
  [0, 1, 2, 3, 4, 5, 6, 7, 8, 9, 10, 11, 14, 15, 255, 255],
  [12, 13, 14, 15, 255, 255, 255, 255, 255, 255, 255, 255, 255, 255, 255, 255],
  [0, 1, 12, 13, 14, 15, 255, 255, 255, 255, 255, 255, 255, 255, 255, 255],
  [2, 3, 12, 13, 14, 15, 255, 255, 255, 255, 255, 255, 255, 255, 255, 255],
  [0, 1, 2, 3, 12, 13, 14, 15, 255, 255, 255, 255, 255, 255, 255, 255],
  [4, 5, 12, 13, 14, 15, 255, 255, 255, 255, 255, 255, 255, 255, 255, 255],
  [0, 1, 4, 5, 12, 13, 14, 15, 255, 255, 255, 255, 255, 255, 255, 255],
  [2, 3, 4, 5, 12, 13, 14, 15, 255, 255, 255, 255, 255, 255, 255, 255],
  [0, 1, 2, 3, 4, 5, 12, 13, 14, 15, 255, 255, 255, 255, 255, 255],
  [6, 7, 12, 13, 14, 15, 255, 255, 255, 255, 255, 255, 255, 255, 255, 255],
  [0, 1, 6, 7, 12, 13, 14, 15, 255, 255, 255, 255, 255, 255, 255, 255],
  [2, 3, 6, 7, 12, 13, 14, 15, 255, 255, 255, 255, 255, 255, 255, 255],
  [0, 1, 2, 3, 6, 7, 12, 13, 14, 15, 255, 255, 255, 255, 255, 255],
  [4, 5, 6, 7, 12, 13, 14, 15, 255, 255, 255, 255, 255, 255, 255, 255],
  [0, 1, 4, 5, 6, 7, 12, 13, 14, 15, 255, 255, 255, 255, 255, 255],
  [2, 3, 4, 5, 6, 7, 12, 13, 14, 15, 255, 255, 255, 255, 255, 255],
  [0, 1, 2, 3, 4, 5, 6, 7, 12, 13, 14, 15, 255, 255, 255, 255],
  [8, 9, 12, 13, 14, 15, 255, 255, 255, 255, 255, 255, 255, 255, 255, 255],
  [0, 1, 8, 9, 12, 13, 14, 15, 255, 255, 255, 255, 255, 255, 255, 255],
  [2, 3, 8, 9, 12, 13, 14, 15, 255, 255, 255, 255, 255, 255, 255, 255],
  [0, 1, 2, 3, 8, 9, 12, 13, 14, 15, 255, 255, 255, 255, 255, 255],
  [4, 5, 8, 9, 12, 13, 14, 15, 255, 255, 255, 255, 255, 255, 255, 255],
  [0, 1, 4, 5, 8, 9, 12, 13, 14, 15, 255, 255, 255, 255, 255, 255],
  [2, 3, 4, 5, 8, 9, 12, 13, 14, 15, 255, 255, 255, 255, 255, 255],
  [0, 1, 2, 3, 4, 5, 8, 9, 12, 13, 14, 15, 255, 255, 255, 255],
  [6, 7, 8, 9, 12, 13, 14, 15, 255, 255, 255, 255, 255, 255, 255, 255],
  [0, 1, 6, 7, 8, 9, 12, 13, 14, 15, 255, 255, 255, 255, 255, 255],
  [2, 3, 6, 7, 8, 9, 12, 13, 14, 15, 255, 255, 255, 255, 255, 255],
  [0, 1, 2, 3, 6, 7, 8, 9, 12, 13, 14, 15, 255, 255, 255, 255],
  [4, 5, 6, 7, 8, 9, 12, 13, 14, 15, 255, 255, 255, 255, 255, 255],
  [0, 1, 4, 5, 6, 7, 8, 9, 12, 13, 14, 15, 255, 255, 255, 255],
  [2, 3, 4, 5, 6, 7, 8, 9, 12, 13, 14, 15, 255, 255, 255, 255],
  [0, 1, 2, 3, 4, 5, 6, 7, 8, 9, 12, 13, 14, 15, 255, 255],
  [10, 11, 12, 13, 14, 15, 255, 255, 255, 255, 255, 255, 255, 255, 255, 255],
  [0, 1, 10, 11, 12, 13, 14, 15, 255, 255, 255, 255, 255, 255, 255, 255],
  [2, 3, 10, 11, 12, 13, 14, 15, 255, 255, 255, 255, 255, 255, 255, 255],
  [0, 1, 2, 3, 10, 11, 12, 13, 14, 15, 255, 255, 255, 255, 255, 255],
  [4, 5, 10, 11, 12, 13, 14, 15, 255, 255, 255, 255, 255, 255, 255, 255],
  [0, 1, 4, 5, 10, 11, 12, 13, 14, 15, 255, 255, 255, 255, 255, 255],
  [2, 3, 4, 5, 10, 11, 12, 13, 14, 15, 255, 255, 255, 255, 255, 255],
  [0, 1, 2, 3, 4, 5, 10, 11, 12, 13, 14, 15, 255, 255, 255, 255],
  [6, 7, 10, 11, 12, 13, 14, 15, 255, 255, 255, 255, 255, 255, 255, 255],
  [0, 1, 6, 7, 10, 11, 12, 13, 14, 15, 255, 255, 255, 255, 255, 255],
  [2, 3, 6, 7, 10, 11, 12, 13, 14, 15, 255, 255, 255, 255, 255, 255],
  [0, 1, 2, 3, 6, 7, 10, 11, 12, 13, 14, 15, 255, 255, 255, 255],
  [4, 5, 6, 7, 10, 11, 12, 13, 14, 15, 255, 255, 255, 255, 255, 255],
  [0, 1, 4, 5, 6, 7, 10, 11, 12, 13, 14, 15, 255, 255, 255, 255],
  [2, 3, 4, 5, 6, 7, 10, 11, 12, 13, 14, 15, 255, 255, 255, 255],
  [0, 1, 2, 3, 4, 5, 6, 7, 10, 11, 12, 13, 14, 15, 255, 255],
  [8, 9, 10, 11, 12, 13, 14, 15, 255, 255, 255, 255, 255, 255, 255, 255],
  [0, 1, 8, 9, 10, 11, 12, 13, 14, 15, 255, 255, 255, 255, 255, 255],
  [2, 3, 8, 9, 10, 11, 12, 13, 14, 15, 255, 255, 255, 255, 255, 255],
  [0, 1, 2, 3, 8, 9, 10, 11, 12, 13, 14, 15, 255, 255, 255, 255],
  [4, 5, 8, 9, 10, 11, 12, 13, 14, 15, 255, 255, 255, 255, 255, 255],
  [0, 1, 4, 5, 8, 9, 10, 11, 12, 13, 14, 15, 255, 255, 255, 255],
  [2, 3, 4, 5, 8, 9, 10, 11, 12, 13, 14, 15, 255, 255, 255, 255],
  [0, 1, 2, 3, 4, 5, 8, 9, 10, 11, 12, 13, 14, 15, 255, 255],
  [6, 7, 8, 9, 10, 11, 12, 13, 14, 15, 255, 255, 255, 255, 255, 255],
  [0, 1, 6, 7, 8, 9, 10, 11, 12, 13, 14, 15, 255, 255, 255, 255],
  [2, 3, 6, 7, 8, 9, 10, 11, 12, 13, 14, 15, 255, 255, 255, 255],
  [0, 1, 2, 3, 6, 7, 8, 9, 10, 11, 12, 13, 14, 15, 255, 255],
  [4, 5, 6, 7, 8, 9, 10, 11, 12, 13, 14, 15, 255, 255, 255, 255],
  [0, 1, 4, 5, 6, 7, 8, 9, 10, 11, 12, 13, 14, 15, 255, 255],
  [2, 3, 4, 5, 6, 7, 8, 9, 10, 11, 12, 13, 14, 15, 255, 255],
  [0, 1, 2, 3, 4, 5, 6, 7, 8, 9, 10, 11, 12, 13, 14, 15]]

/-- `uniqshuf`: src/array_util.c:1277-1619; 16 bytes in a row, as the code reads them. -/
def uniqShuf : List (List Nat) := [
  [0, 1, 2, 3, 4, 5, 6, 7, 8, 9, 10, 11, 12, 13, 14, 15],
  [2, 3, 4, 5, 6, 7, 8, 9, 10, 11, 12, 13, 14, 15, 255, 255],
  [0, 1, 4, 5, 6, 7, 8, 9, 10, 11, 12, 13, 14, 15, 255, 255],
  [4, 5, 6, 7, 8, 9, 10, 11, 12, 13, 14, 15, 255, 255, 255, 255],
  [0, 1, 2, 3, 6, 7, 8, 9, 10, 11, 12, 13, 14, 15, 255, 255],
  [2, 3, 6, 7, 8, 9, 10, 11, 12, 13, 14, 15, 255, 255, 255, 255],
  [0, 1, 6, 7, 8, 9, 10, 11, 12, 13, 14, 15, 255, 255, 255, 255],
  [6, 7, 8, 9, 10, 11, 12, 13, 14, 15, 255, 255, 255, 255, 255, 255],
  [0, 1, 2, 3, 4, 5, 8, 9, 10, 11, 12, 13, 14, 15, 255, 255],
  [2, 3, 4, 5, 8, 9, 10, 11, 12, 13, 14, 15, 255, 255, 255, 255],
  [0, 1, 4, 5, 8, 9, 10, 11, 12, 13, 14, 15, 255, 255, 255, 255],
  [4, 5, 8, 9, 10, 11, 12, 13, 14, 15, 255, 255, 255, 255, 255, 255],
  [0, 1, 2, 3, 8, 9, 10, 11, 12, 13, 14, 15, 255, 255, 255, 255],
  [2, 3, 8, 9, 10, 11, 12, 13, 14, 15, 255, 255, 255, 255, 255, 255],
  [0, 1, 8, 9, 10, 11, 12, 13, 14, 15, 255, 255, 255, 255, 255, 255],
  [8, 9, 10, 11, 12, 13, 14, 15, 255, 255, 255, 255, 255, 255, 255, 255],
  [0, 1, 2, 3, 4, 5, 6, 7, 10, 11, 12, 13, 14, 15, 255, 255],
  [2, 3, 4, 5, 6, 7, 10, 11, 12, 13, 14, 15, 255, 255, 255, 255],
  [0, 1, 4, 5, 6, 7, 10, 11, 12, 13, 14, 15, 255, 255, 255, 255],
  [4, 5, 6, 7, 10, 11, 12, 13, 14, 15, 255, 255, 255, 255, 255, 255],
  [0, 1, 2, 3, 6, 7, 10, 11, 12, 13, 14, 15, 255, 255, 255, 255],
  [2, 3, 6, 7, 10, 11, 12, 13, 14, 15, 255, 255, 255, 255, 255, 255],
  [0, 1, 6, 7, 10, 11, 12, 13, 14, 15, 255, 255, 255, 255, 255, 255],
  [6, 7, 10, 11, 12, 13, 14, 15, 255, 255, 255, 255, 255, 255, 255, 255],
  [0, 1, 2, 3, 4, 5, 10, 11, 12, 13, 14, 15, 255, 255, 255, 255],
  [2, 3, 4, 5, 10, 11, 12, 13, 14, 15, 255, 255, 255, 255, 255, 255],
  [0, 1, 4, 5, 10, 11, 12, 13, 14, 15, 255, 255, 255, 255, 255, 255],
  [4, 5, 10, 11, 12, 13, 14, 15, 255, 255, 255, 255, 255, 255, 255, 255],
  [0, 1, 2, 3, 10, 11, 12, 13, 14, 15, 255, 255, 255, 255, 255, 255],
  [2, 3, 10, 11, 12, 13, 14, 15, 255, 255, 255, 255, 255, 255, 255, 255],
  [0, 1, 10, 11, 12, 13, 14, 15, 255, 255, 255, 255, 255, 255, 255, 255],
  [10, 11, 12, 13, 14, 15, 255, 255, 255, 255, 255, 255, 255, 255, 255, 255],
  [0, 1, 2, 3, 4, 5, 6, 7, 8, 9, 12, 13, 14, 15, 255, 255],
  [2, 3, 4, 5, 6, 7, 8, 9, 12, 13, 14, 15, 255, 255, 255, 255],
  [0, 1, 4, 5, 6, 7, 8, 9, 12, 13, 14, 15, 255, 255, 255, 255],
  [4, 5, 6, 7, 8, 9, 12, 13, 14, 15, 255, 255, 255, 255, 255, 255],
  [0, 1, 2, 3, 6, 7, 8, 9, 12, 13, 14, 15, 255, 255, 255, 255],
  [2, 3, 6, 7, 8, 9, 12, 13, 14, 15, 255, 255, 255, 255, 255, 255],
  [0, 1, 6, 7, 8, 9, 12, 13, 14, 15, 255, 255, 255, 255, 255, 255],
  [6, 7, 8, 9, 12, 13, 14, 15, 255, 255, 255, 255, 255, 255, 255, 255],
  [0, 1, 2, 3, 4, 5, 8, 9, 12, 13, 14, 15, 255, 255, 255, 255],
  [2, 3, 4, 5, 8, 9, 12, 13, 14, 15, 255, 255, 255, 255, 255, 255],
  [0, 1, 4, 5, 8, 9, 12, 13, 14, 15, 255, 255, 255, 255, 255, 255],
  [4, 5, 8, 9, 12, 13, 14, 15, 255, 255, 255, 255, 255, 255, 255, 255],
  [0, 1, 2, 3, 8, 9, 12, 13, 14, 15, 255, 255, 255, 255, 255, 255],
  [2, 3, 8, 9, 12, 13, 14, 15, 255, 255, 255, 255, 255, 255, 255, 255],
  [0, 1, 8, 9, 12, 13, 14, 15, 255, 255, 255, 255, 255, 255, 255, 255],
  [8, 9, 12, 13, 14, 15, 255, 255, 255, 255, 255, 255, 255, 255, 255, 255],
  [0, 1, 2, 3, 4, 5, 6, 7, 12, 13, 14, 15, 255, 255, 255, 255],
  [2, 3, 4, 5, 6, 7, 12, 13, 14, 15, 255, 255, 255, 255, 255, 255],
  [0, 1, 4, 5, 6, 7, 12, 13, 14, 15, 255, 255, 255, 255, 255, 255],
  [4, 5, 6, 7, 12, 13, 14, 15, 255, 255, 255, 255, 255, 255, 255, 255],
  [0, 1, 2, 3, 6, 7, 12, 13, 14, 15, 255, 255, 255, 255, 255, 255],
  [2, 3, 6, 7, 12, 13, 14, 15, 255, 255, 255, 255, 255, 255, 255, 255],
  [0, 1, 6, 7, 12, 13, 14, 15, 255, 255, 255, 255, 255, 255, 255, 255],
  [6, 7, 12, 13, 14, 15, 255, 255, 255, 255, 255, 255, 255, 255, 255, 255],
  [0, 1, 2, 3, 4, 5, 12, 13, 14, 15, 255, 255, 255, 255, 255, 255],
  [2, 3, 4, 5, 12, 13, 14, 15, 255, 255, 255, 255, 255, 255, 255, 255],
  [0, 1, 4, 5, 12, 13, 14, 15, 255, 255, 255, 255, 255, 255, 255, 255],
  [4, 5, 12, 13, 14, 15, 255, 255, 255, 255, 255, 255, 255, 255, 255, 255],
  [0, 1, 2, 3, 12, 13, 14, 15, 255, 255, 255, 255, 255, 255, 255, 255],
  [2, 3, 12, 13, 14, 15, 255, 255, 255, 255, 255, 255, 255, 255, 255, 255],
  [0, 1, 12, 13, 14, 15, 255, 255, 255, 255, 255, 255, 255, 255, 255, 255],
  [12, 13, 14, 15, 255, 255, 255, 255, 255, 255, 255, 255, 255, 255, 255, 255],
  [0, 1, 2, 3, 4, 5, 6, 7, 8, 9, 10, 11, 14, 15, 255, 255],
  [2, 3, 4, 5, 6, 7, 8, 9, 10, 11, 14, 15, 255, 255, 255, 255],
  [0, 1, 4, 5, 6, 7, 8, 9, 10, 11, 14, 15, 255, 255, 255, 255],
  [4, 5, 6, 7, 8, 9, 10, 11, 14, 15, 255, 255, 255, 255, 255, 255],
  [0, 1, 2, 3, 6, 7, 8, 9, 10, 11, 14, 15, 255, 255, 255, 255],
  [2, 3, 6, 7, 8, 9, 10, 11, 14, 15, 255, 255, 255, 255, 255, 255],
  [0, 1, 6, 7, 8, 9, 10, 11, 14, 15, 255, 255, 255, 255, 255, 255],
  [6, 7, 8, 9, 10, 11, 14, 15, 255, 255, 255, 255, 255, 255, 255, 255],
  [0, 1, 2, 3, 4, 5, 8, 9, 10, 11, 14, 15, 255, 255, 255, 255],
  [2, 3, 4, 5, 8, 9, 10, 11, 14, 15, 255, 255, 255, 255, 255, 255],
  [0, 1, 4, 5, 8, 9, 10, 11, 14, 15, 255, 255, 255, 255, 255, 255],
  [4, 5, 8, 9, 10, 11, 14, 15, 255, 255, 255, 255, 255, 255, 255, 255],
  [0, 1, 2, 3, 8, 9, 10, 11, 14, 15, 255, 255, 255, 255, 255, 255],
  [2, 3, 8, 9, 10, 11, 14, 15, 255, 255, 255, 255, 255, 255, 255, 255],
  [0, 1, 8, 9, 10, 11, 14, 15, 255, 255, 255, 255, 255, 255, 255, 255],
  [8, 9, 10, 11, 14, 15, 255, 255, 255, 255, 255, 255, 255, 255, 255, 255],
  [0, 1, 2, 3, 4, 5, 6, 7, 10, 11, 14, 15, 255, 255, 255, 255],
  [2, 3, 4, 5, 6, 7, 10, 11, 14, 15, 255, 255, 255, 255, 255, 255],
  [0, 1, 4, 5, 6, 7, 10, 11, 14, 15, 255, 255, 255, 255, 255, 255],
  [4, 5, 6, 7, 10, 11, 14, 15, 255, 255, 255, 255, 255, 255, 255, 255],
  [0, 1, 2, 3, 6, 7, 10, 11, 14, 15, 255, 255, 255, 255, 255, 255],
  [2, 3, 6, 7, 10, 11, 14, 15, 255, 255, 255, 255, 255, 255, 255, 255],
  [0, 1, 6, 7, 10, 11, 14, 15, 255, 255, 255, 255, 255, 255, 255, 255],
  [6, 7, 10, 11, 14, 15, 255, 255, 255, 255, 255, 255, 255, 255, 255, 255],
  [0, 1, 2, 3, 4, 5, 10, 11, 14, 15, 255, 255, 255, 255, 255, 255],
  [2, 3, 4, 5, 10, 11, 14, 15, 255, 255, 255, 255, 255, 255, 255, 255],
  [0, 1, 4, 5, 10, 11, 14, 15, 255, 255, 255, 255, 255, 255, 255, 255],
  [4, 5, 10, 11, 14, 15, 255, 255, 255, 255, 255, 255, 255, 255, 255, 255],
  [0, 1, 2, 3, 10, 11, 14, 15, 255, 255, 255, 255, 255, 255, 255, 255],
  [2, 3, 10, 11, 14, 15, 255, 255, 255, 255, 255, 255, 255, 255, 255, 255],
  [0, 1, 10, 11, 14, 15, 255, 255, 255, 255, 255, 255, 255, 255, 255, 255],
  [10, 11, 14, 15, 255, 255, 255, 255, 255, 255, 255, 255, 255, 255, 255, 255],
  [0, 1, 2, 3, 4, 5, 6, 7, 8, 9, 14, 15, 255, 255, 255, 255],
  [2, 3, 4, 5, 6, 7, 8, 9, 14, 15, 255, 255, 255, 255, 255, 255],
  [0, 1, 4, 5, 6, 7, 8, 9, 14, 15, 255, 255, 255, 255, 255, 255],
  [4, 5, 6, 7, 8, 9, 14, 15, 255, 255, 255, 255, 255, 255, 255, 255],
  [0, 1, 2, 3, 6, 7, 8, 9, 14, 15, 255, 255, 255, 255, 255, 255],
  [2, 3, 6, 7, 8, 9, 14, 15, 255, 255, 255, 255, 255, 255, 255, 255],
  [0, 1, 6, 7, 8, 9, 14, 15, 255, 255, 255, 255, 255, 255, 255, 255],
  [6, 7, 8, 9, 14, 15, 255, 255, 255, 255, 255, 255, 255, 255, 255, 255],
  [0, 1, 2, 3, 4, 5, 8, 9, 14, 15, 255, 255, 255, 255, 255, 255],
  [2, 3, 4, 5, 8, 9, 14, 15, 255, 255, 255, 255, 255, 255, 255, 255],
  [0, 1, 4, 5, 8, 9, 14, 15, 255, 255, 255, 255, 255, 255, 255, 255],
  [4, 5, 8, 9, 14, 15, 255, 255, 255, 255, 255, 255, 255, 255, 255, 255],
  [0, 1, 2, 3, 8, 9, 14, 15, 255, 255, 255, 255, 255, 255, 255, 255],
  [2, 3, 8, 9, 14, 15, 255, 255, 255, 255, 255, 255, 255, 255, 255, 255],
  [0, 1, 8, 9, 14, 15, 255, 255, 255, 255, 255, 255, 255, 255, 255, 255],
  [8, 9, 14, 15, 255, 255, 255, 255, 255, 255, 255, 255, 255, 255, 255, 255],
  [0, 1, 2, 3, 4, 5, 6, 7, 14, 15, 255, 255, 255, 255, 255, 255],
  [2, 3, 4, 5, 6, 7, 14, 15, 255, 255, 255, 255, 255, 255, 255, 255],
  [0, 1, 4, 5, 6, 7, 14, 15, 255, 255, 255, 255, 255, 255, 255, 255],
  [4, 5, 6, 7, 14, 15, 255, 255, 255, 255, 255, 255, 255, 255, 255, 255],
  [0, 1, 2, 3, 6, 7, 14, 15, 255, 255, 255, 255, 255, 255, 255, 255],
  [2, 3, 6, 7, 14, 15, 255, 255, 255, 255, 255, 255, 255, 255, 255, 255],
  [0, 1, 6, 7, 14, 15, 255, 255, 255, 255, 255, 255, 255, 255, 255, 255],
  [6, 7, 14, 15, 255, 255, 255, 255, 255, 255, 255, 255, 255, 255, 255, 255],
  [0, 1, 2, 3, 4, 5, 14, 15, 255, 255, 255, 255, 255, 255, 255, 255],
  [2, 3, 4, 5, 14, 15, 255, 255, 255, 255, 255, 255, 255, 255, 255, 255],
  [0, 1, 4, 5, 14, 15, 255, 255, 255, 255, 255, 255, 255, 255, 255, 255],
  [4, 5, 14, 15, 255, 255, 255, 255, 255, 255, 255, 255, 255, 255, 255, 255],
  [0, 1, 2, 3, 14, 15, 255, 255, 255, 255, 255, 255, 255, 255, 255, 255],
  [2, 3, 14, 15, 255, 255, 255, 255, 255, 255, 255, 255, 255, 255, 255, 255],
  [0, 1, 14, 15, 255, 255, 255, 255, 255, 255, 255, 255, 255, 255, 255, 255],
  [14, 15, 255, 255, 255, 255, 255, 255, 255, 255, 255, 255, 255, 255, 255, 255],
  [0, 1, 2, 3, 4, 5, 6, 7, 8, 9, 10, 11, 12, 13, 255, 255],
  [2, 3, 4, 5, 6, 7, 8, 9, 10, 11, 12, 13, 255, 255, 255, 255],
  [0, 1, 4, 5, 6, 7, 8, 9, 10, 11, 12, 13, 255, 255, 255, 255],
  [4, 5, 6, 7, 8, 9, 10, 11, 12, 13, 255, 255, 255, 255, 255, 255],
  [0, 1, 2, 3, 6, 7, 8, 9, 10, 11, 12, 13, 255, 255, 255, 255],
  [2, 3, 6, 7, 8, 9, 10, 11, 12, 13, 255, 255, 255, 255, 255, 255],
  [0, 1, 6, 7, 8, 9, 10, 11, 12, 13, 255, 255, 255, 255, 255, 255],
  [6, 7, 8, 9, 10, 11, 12, 13, 255, 255, 255, 255, 255, 255, 255, 255],
  [0, 1, 2, 3, 4, 5, 8, 9, 10, 11, 12, 13, 255, 255, 255, 255],
  [2, 3, 4, 5, 8, 9, 10, 11, 12, 13, 255, 255, 255, 255, 255, 255],
  [0, 1, 4, 5, 8, 9, 10, 11, 12, 13, 255, 255, 255, 255, 255, 255],
  [4, 5, 8, 9, 10, 11, 12, 13, 255, 255, 255, 255, 255, 255, 255, 255],
  [0, 1, 2, 3, 8, 9, 10, 11, 12, 13, 255, 255, 255, 255, 255, 255],
  [2, 3, 8, 9, 10, 11, 12, 13, 255, 255, 255, 255, 255, 255, 255, 255],
  [0, 1, 8, 9, 10, 11, 12, 13, 255, 255, 255, 255, 255, 255, 255, 255],
  [8, 9, 10, 11, 12, 13, 255, 255, 255, 255, 255, 255, 255, 255, 255, 255],
  [0, 1, 2, 3, 4, 5, 6, 7, 10, 11, 12, 13, 255, 255, 255, 255],
  [2, 3, 4, 5, 6, 7, 10, 11, 12, 13, 255, 255, 255, 255, 255, 255],
  [0, 1, 4, 5, 6, 7, 10, 11, 12, 13, 255, 255, 255, 255, 255, 255],
  [4, 5, 6, 7, 10, 11, 12, 13, 255, 255, 255, 255, 255, 255, 255, 255],
  [0, 1, 2, 3, 6, 7, 10, 11, 12, 13, 255, 255, 255, 255, 255, 255],
  [2, 3, 6, 7, 10, 11, 12, 13, 255, 255, 255, 255, 255, 255, 255, 255],
  [0, 1, 6, 7, 10, 11, 12, 13, 255, 255, 255, 255, 255, 255, 255, 255],
  [6, 7, 10, 11, 12, 13, 255, 255, 255, 255, 255, 255, 255, 255, 255, 255],
  [0, 1, 2, 3, 4, 5, 10, 11, 12, 13, 255, 255, 255, 255, 255, 255],
  [2, 3, 4, 5, 10, 11, 12, 13, 255, 255, 255, 255, 255, 255, 255, 255],
  [0, 1, 4, 5, 10, 11, 12, 13, 255, 255, 255, 255, 255, 255, 255, 255],
  [4, 5, 10, 11, 12, 13, 255, 255, 255, 255, 255, 255, 255, 255, 255, 255],
  [0, 1, 2, 3, 10, 11, 12, 13, 255, 255, 255, 255, 255, 255, 255, 255],
  [2, 3, 10, 11, 12, 13, 255, 255, 255, 255, 255, 255, 255, 255, 255, 255],
  [0, 1, 10, 11, 12, 13, 255, 255, 255, 255, 255, 255, 255, 255, 255, 255],
  [10, 11, 12, 13, 255, 255, 255, 255, 255, 255, 255, 255, 255, 255, 255, 255],
  [0, 1, 2, 3, 4, 5, 6, 7, 8, 9, 12, 13, 255, 255, 255, 255],
  [2, 3, 4, 5, 6, 7, 8, 9, 12, 13, 255, 255, 255, 255, 255, 255],
  [0, 1, 4, 5, 6, 7, 8, 9, 12, 13, 255, 255, 255, 255, 255, 255],
  [4, 5, 6, 7, 8, 9, 12, 13, 255, 255, 255, 255, 255, 255, 255, 255],
  [0, 1, 2, 3, 6, 7, 8, 9, 12, 13, 255, 255, 255, 255, 255, 255],
  [2, 3, 6, 7, 8, 9, 12, 13, 255, 255, 255, 255, 255, 255, 255, 255],
  [0, 1, 6, 7, 8, 9, 12, 13, 255, 255, 255, 255, 255, 255, 255, 255],
  [6, 7, 8, 9, 12, 13, 255, 255, 255, 255, 255, 255, 255, 255, 255, 255],
  [0, 1, 2, 3, 4, 5, 8, 9, 12, 13, 255, 255, 255, 255, 255, 255],
  [2, 3, 4, 5, 8, 9, 12, 13, 255, 255, 255, 255, 255, 255, 255, 255],
  [0, 1, 4, 5, 8, 9, 12, 13, 255, 255, 255, 255, 255, 255, 255, 255],
  [4, 5, 8, 9, 12, 13, 255, 255, 255, 255, 255, 255, 255, 255, 255, 255],
  [0, 1, 2, 3, 8, 9, 12, 13, 255, 255, 255, 255, 255, 255, 255, 255],
  [2, 3, 8, 9, 12, 13, 255, 255, 255, 255, 255, 255, 255, 255, 255, 255],
  [0, 1, 8, 9, 12, 13, 255, 255, 255, 255, 255, 255, 255, 255, 255, 255],
  [8, 9, 12, 13, 255, 255, 255, 255, 255, 255, 255, 255, 255, 255, 255, 255],
  [0, 1, 2, 3, 4, 5, 6, 7, 12, 13, 255, 255, 255, 255, 255, 255],
  [2, 3, 4, 5, 6, 7, 12, 13, 255, 255, 255, 255, 255, 255, 255, 255],
  [0, 1, 4, 5, 6, 7, 12, 13, 255, 255, 255, 255, 255, 255, 255, 255],
  [4, 5, 6, 7, 12, 13, 255, 255, 255, 255, 255, 255, 255, 255, 255, 255],
  [0, 1, 2, 3, 6, 7, 12, 13, 255, 255, 255, 255, 255, 255, 255, 255],
  [2, 3, 6, 7, 12, 13, 255, 255, 255, 255, 255, 255, 255, 255, 255, 255],
  [0, 1, 6, 7, 12, 13, 255, 255, 255, 255, 255, 255, 255, 255, 255, 255],
  [6, 7, 12, 13, 255, 255, 255, 255, 255, 255, 255, 255, 255, 255, 255, 255],
  [0, 1, 2, 3, 4, 5, 12, 13, 255, 255, 255, 255, 255, 255, 255, 255],
  [2, 3, 4, 5, 12, 13, 255, 255, 255, 255, 255, 255, 255, 255, 255, 255],
  [0, 1, 4, 5, 12, 13, 255, 255, 255, 255, 255, 255, 255, 255, 255, 255],
  [4, 5, 12, 13, 255, 255, 255, 255, 255, 255, 255, 255, 255, 255, 255, 255],
  [0, 1, 2, 3, 12, 13, 255, 255, 255, 255, 255, 255, 255, 255, 255, 255],
  [2, 3, 12, 13, 255, 255, 255, 255, 255, 255, 255, 255, 255, 255, 255, 255],
  [0, 1, 12, 13, 255, 255, 255, 255, 255, 255, 255, 255, 255, 255, 255, 255],
  [12, 13, 255, 255, 255, 255, 255, 255, 255, 255, 255, 255, 255, 255, 255, 255],
  [0, 1, 2, 3, 4, 5, 6, 7, 8, 9, 10, 11, 255, 255, 255, 255],
  [2, 3, 4, 5, 6, 7, 8, 9, 10, 11, 255, 255, 255, 255, 255, 255],
  [0, 1, 4, 5, 6, 7, 8, 9, 10, 11, 255, 255, 255, 255, 255, 255],
  [4, 5, 6, 7, 8, 9, 10, 11, 255, 255, 255, 255, 255, 255, 255, 255],
  [0, 1, 2, 3, 6, 7, 8, 9, 10, 11, 255, 255, 255, 255, 255, 255],
  [2, 3, 6, 7, 8, 9, 10, 11, 255, 255, 255, 255, 255, 255, 255, 255],
  [0, 1, 6, 7, 8, 9, 10, 11, 255, 255, 255, 255, 255, 255, 255, 255],
  [6, 7, 8, 9, 10, 11, 255, 255, 255, 255, 255, 255, 255, 255, 255, 255],
  [0, 1, 2, 3, 4, 5, 8, 9, 10, 11, 255, 255, 255, 255, 255, 255],
  [2, 3, 4, 5, 8, 9, 10, 11, 255, 255, 255, 255, 255, 255, 255, 255],
  [0, 1, 4, 5, 8, 9, 10, 11, 255, 255, 255, 255, 255, 255, 255, 255],
  [4, 5, 8, 9, 10, 11, 255, 255, 255, 255, 255, 255, 255, 255, 255, 255],
  [0, 1, 2, 3, 8, 9, 10, 11, 255, 255, 255, 255, 255, 255, 255, 255],
  [2, 3, 8, 9, 10, 11, 255, 255, 255, 255, 255, 255, 255, 255, 255, 255],
  [0, 1, 8, 9, 10, 11, 255, 255, 255, 255, 255, 255, 255, 255, 255, 255],
  [8, 9, 10, 11, 255, 255, 255, 255, 255, 255, 255, 255, 255, 255, 255, 255],
  [0, 1, 2, 3, 4, 5, 6, 7, 10, 11, 255, 255, 255, 255, 255, 255],
  [2, 3, 4, 5, 6, 7, 10, 11, 255, 255, 255, 255, 255, 255, 255, 255],
  [0, 1, 4, 5, 6, 7, 10, 11, 255, 255, 255, 255, 255, 255, 255, 255],
  [4, 5, 6, 7, 10, 11, 255, 255, 255, 255, 255, 255, 255, 255, 255, 255],
  [0, 1, 2, 3, 6, 7, 10, 11, 255, 255, 255, 255, 255, 255, 255, 255],
  [2, 3, 6, 7, 10, 11, 255, 255, 255, 255, 255, 255, 255, 255, 255, 255],
  [0, 1, 6, 7, 10, 11, 255, 255, 255, 255, 255, 255, 255, 255, 255, 255],
  [6, 7, 10, 11, 255, 255, 255, 255, 255, 255, 255, 255, 255, 255, 255, 255],
  [0, 1, 2, 3, 4, 5, 10, 11, 255, 255, 255, 255, 255, 255, 255, 255],
  [2, 3, 4, 5, 10, 11, 255, 255, 255, 255, 255, 255, 255, 255, 255, 255],
  [0, 1, 4, 5, 10, 11, 255, 255, 255, 255, 255, 255, 255, 255, 255, 255],
  [4, 5, 10, 11, 255, 255, 255, 255, 255, 255, 255, 255, 255, 255, 255, 255],
  [0, 1, 2, 3, 10, 11, 255, 255, 255, 255, 255, 255, 255, 255, 255, 255],
  [2, 3, 10, 11, 255, 255, 255, 255, 255, 255, 255, 255, 255, 255, 255, 255],
  [0, 1, 10, 11, 255, 255, 255, 255, 255, 255, 255, 255, 255, 255, 255, 255],
  [10, 11, 255, 255, 255, 255, 255, 255, 255, 255, 255, 255, 255, 255, 255, 255],
  [0, 1, 2, 3, 4, 5, 6, 7, 8, 9, 255, 255, 255, 255, 255, 255],
  [2, 3, 4, 5, 6, 7, 8, 9, 255, 255, 255, 255, 255, 255, 255, 255],
  [0, 1, 4, 5, 6, 7, 8, 9, 255, 255, 255, 255, 255, 255, 255, 255],
  [4, 5, 6, 7, 8, 9, 255, 255, 255, 255, 255, 255, 255, 255, 255, 255],
  [0, 1, 2, 3, 6, 7, 8, 9, 255, 255, 255, 255, 255, 255, 255, 255],
  [2, 3, 6, 7, 8, 9, 255, 255, 255, 255, 255, 255, 255, 255, 255, 255],
  [0, 1, 6, 7, 8, 9, 255, 255, 255, 255, 255, 255, 255, 255, 255, 255],
  [6, 7, 8, 9, 255, 255, 255, 255, 255, 255, 255, 255, 255, 255, 255, 255],
  [0, 1, 2, 3, 4, 5, 8, 9, 255, 255, 255, 255, 255, 255, 255, 255],
  [2, 3, 4, 5, 8, 9, 255, 255, 255, 255, 255, 255, 255, 255, 255, 255],
  [0, 1, 4, 5, 8, 9, 255, 255, 255, 255, 255, 255, 255, 255, 255, 255],
  [4, 5, 8, 9, 255, 255, 255, 255, 255, 255, 255, 255, 255, 255, 255, 255],
  [0, 1, 2, 3, 8, 9, 255, 255, 255, 255, 255, 255, 255, 255, 255, 255],
  [2, 3, 8, 9, 255, 255, 255, 255, 255, 255, 255, 255, 255, 255, 255, 255],
  [0, 1, 8, 9, 255, 255, 255, 255, 255, 255, 255, 255, 255, 255, 255, 255],
  [8, 9, 255, 255, 255, 255, 255, 255, 255, 255, 255, 255, 255, 255, 255, 255],
  [0, 1, 2, 3, 4, 5, 6, 7, 255, 255, 255, 255, 255, 255, 255, 255],
  [2, 3, 4, 5, 6, 7, 255, 255, 255, 255, 255, 255, 255, 255, 255, 255],
  [0, 1, 4, 5, 6, 7, 255, 255, 255, 255, 255, 255, 255, 255, 255, 255],
  [4, 5, 6, 7, 255, 255, 255, 255, 255, 255, 255, 255, 255, 255, 255, 255],
  [0, 1, 2, 3, 6, 7, 255, 255, 255, 255, 255, 255, 255, 255, 255, 255],
  [2, 3, 6, 7, 255, 255, 255, 255, 255, 255, 255, 255, 255, 255, 255, 255],
  [0, 1, 6, 7, 255, 255, 255, 255, 255, 255, 255, 255, 255, 255, 255, 255],
  [6, 7, 255, 255, 255, 255, 255, 255, 255, 255, 255, 255, 255, 255, 255, 255],
  [0, 1, 2, 3, 4, 5, 255, 255, 255, 255, 255, 255, 255, 255, 255, 255],
  [2, 3, 4, 5, 255, 255, 255, 255, 255, 255, 255, 255, 255, 255, 255, 255],
  [0, 1, 4, 5, 255, 255, 255, 255, 255, 255, 255, 255, 255, 255, 255, 255],
  [4, 5, 255, 255, 255, 255, 255, 255, 255, 255, 255, 255, 255, 255, 255, 255],
  [0, 1, 2, 3, 255, 255, 255, 255, 255, 255, 255, 255, 255, 255, 255, 255],
  [2, 3, 255, 255, 255, 255, 255, 255, 255, 255, 255, 255, 255, 255, 255, 255],
  [0, 1, 255, 255, 255, 255, 255, 255, 255, 255, 255, 255, 255, 255, 255, 255],
  [255, 255, 255, 255, 255, 255, 255, 255, 255, 255, 255, 255, 255, 255, 255, 255]]

end CRoaring
