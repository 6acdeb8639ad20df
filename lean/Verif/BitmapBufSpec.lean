import Verif.Model.BitmapMem
import Verif.RunBufSpec
import Verif.HistorySpec
/-! What a bitmap in memory means, in terms of the blocks of memory and the counters alone. -/
namespace CRoaring.Spec

/-- An array container with `b.card` values in the memory `b.mem`, whose length is its capacity, is well formed and contains exactly
the values of `s`: it has at most 4096 values, all inside the memory, increasing, and 16-bit values. -/
structure IsArrSet (b : ArrBuf) (s : NSet) : Prop where
  inside : b.card ≤ b.mem.length
  small : b.card ≤ 4096
  incr : ∀ i j, i < j → j < b.card → b.mem.getD i 0 < b.mem.getD j 0
  range : ∀ i, i < b.card → b.mem.getD i 0 < 65536
  has : ∀ x, s x = true ↔ ∃ i, i < b.card ∧ b.mem.getD i 0 = x

/-- A bitset container is well formed and contains exactly the values of `s`: it has 1024 words, the bits of which are the values of
`s`, it counts them, and there are more than 4096. -/
structure IsBitsetSet (b : Bitset) (s : NSet) : Prop where
  words : b.words.length = 1024
  has : ∀ x, s x = true ↔ x < 65536 ∧ (b.words.getD (x / 64) 0).getLsbD (x % 64) = true
  count : b.card = card 65536 s
  large : 4096 < b.card

/-- A container of any kind. -/
def IsContSet : CBuf → NSet → Prop
  | .bitset b, s => IsBitsetSet b s
  | .array a, s => IsArrSet a s
  | .run r, s => IsRunSet r s

/-- Cell `i` of the memory has the key `k` and the container `c`. -/
def HasCell (b : RaBuf) (i k : Nat) (c : CBuf) : Prop := i < b.size ∧ b.mem[i]? = some (k, c)

/-- A bitmap in the memory `b.mem`, whose length is its allocation, is well formed and contains exactly the values of `s`: its cells are
inside the memory, their keys increase and are 16-bit values, and the container of a cell is well formed, not empty, and has exactly the
low 16 bits of the values of `s` that have the key as their high 16 bits.  Every value of `s` has a cell. -/
structure IsBitmapSet (b : RaBuf) (s : NSet) : Prop where
  inside : b.size ≤ b.mem.length
  incr : ∀ i j k l c d, HasCell b i k c → HasCell b j l d → i < j → k < l
  range : ∀ i k c, HasCell b i k c → k < 65536
  conts : ∀ i k c, HasCell b i k c → IsContSet c (fun x => decide (x < 65536) && s (k * 65536 + x))
  nonempty : ∀ i k c, HasCell b i k c → ∃ x, x < 65536 ∧ s (k * 65536 + x) = true
  found : ∀ x, s x = true → ∃ i c, HasCell b i (x / 65536) c

/-- A place of the list of bitmaps: a bitmap in memory that contains exactly the values of a set, or nothing if it was freed. -/
def SlotIs : Option RaBuf → Option NSet → Prop
  | some b, some s => IsBitmapSet b s
  | none, none => True
  | _, _ => False

/-- `roaring_malloc` returns blocks of the size asked for.  Nothing is said about what is in them. -/
structure Allocates (E : RbEnv) : Prop where
  vals : ∀ n, (E.m.vals n).length = n
  runs : ∀ n, (E.m.runs n).length = n
  cells : ∀ n, (E.cells n).length = n

end CRoaring.Spec
