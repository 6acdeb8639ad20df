import Verif.Model.Query
import Verif.Model.Serial
/-! Model of `roaring_bitmap_statistics`: src/roaring.c. -/

namespace CRoaring

/-- `roaring_statistics_t`, include/roaring/roaring_types.h:70-101 (without the deprecated `sum_value`, always 0).
All counters are `uint32_t`, except for `cardinality`, a `uint64_t`. -/
structure Stats where
  n_containers : Nat
  n_array_containers : Nat
  n_run_containers : Nat
  n_bitset_containers : Nat
  n_values_array_containers : Nat
  n_values_run_containers : Nat
  n_values_bitset_containers : Nat
  n_bytes_array_containers : Nat
  n_bytes_run_containers : Nat
  n_bytes_bitset_containers : Nat
  max_value : Nat
  min_value : Nat
  cardinality : Nat
deriving DecidableEq, Repr

/-- One round of the loop, `src/roaring.c:388-416`. -/
def statStep (st : Stats) (p : Nat × Container) : Stats :=
  let card := u32 (containerCard p.2)
  let sbytes := u32 (containerSizeInBytes p.2)
  let st := { st with cardinality := u64 (st.cardinality + card) }
  match p.2 with
  | .bitset _ =>
    { st with
      n_bitset_containers := u32 (st.n_bitset_containers + 1)
      n_values_bitset_containers := u32 (st.n_values_bitset_containers + card)
      n_bytes_bitset_containers := u32 (st.n_bytes_bitset_containers + sbytes) }
  | .array _ =>
    { st with
      n_array_containers := u32 (st.n_array_containers + 1)
      n_values_array_containers := u32 (st.n_values_array_containers + card)
      n_bytes_array_containers := u32 (st.n_bytes_array_containers + sbytes) }
  | .run _ =>
    { st with
      n_run_containers := u32 (st.n_run_containers + 1)
      n_values_run_containers := u32 (st.n_values_run_containers + card)
      n_bytes_run_containers := u32 (st.n_bytes_run_containers + sbytes) }

/-- `roaring_bitmap_statistics`, `src/roaring.c:379-417`. -/
def rbStatistics (r : Bitmap) : Stats :=
  r.foldl statStep
    { n_containers := u32 r.length, n_array_containers := 0, n_run_containers := 0, n_bitset_containers := 0
      n_values_array_containers := 0, n_values_run_containers := 0, n_values_bitset_containers := 0
      n_bytes_array_containers := 0, n_bytes_run_containers := 0, n_bytes_bitset_containers := 0
      max_value := rbMaximum r, min_value := rbMinimum r, cardinality := 0 }

end CRoaring
