import Verif.Spec
/-
What a history of calls on standalone bitsets (`bitset_t`) means when the allocator may refuse memory.  Used by C129.

A bitset is its number of words and the set of its bits.  A program holds pointers to bitsets, any of which may be null:
it makes no call with a null pointer (other than to free it), does not give a bitset twice to one call, and asks
`bitset_trim` only to trim a bitset that is not empty, and does not shift a bitset to the right by all its bits.
-/
namespace CRoaring.BitsetHist
open CRoaring

/-- A bitset: how many words it has, and which bits are set. -/
structure Bits where
  words : Nat
  has : NSet

/-- The calls.  The numbers `i`, `j` say which of the program's bitsets, in the order of their creation. -/
inductive Op where
  | create
  | createCap (bits : Nat)
  | copy (i : Nat)
  | free (i : Nat)
  | clear (i : Nat)
  | fill (i : Nat)
  | resize (i words : Nat) (pad : Bool)
  | grow (i words : Nat)
  | trim (i : Nat)
  | set (i x : Nat)
  | setTo (i x : Nat) (v : Bool)
  | shiftRight (i s : Nat)
  | unite (i j : Nat)
  | symm (i j : Nat)
  | inter (i j : Nat)
  | diff (i j : Nat)

/-- What a call cannot choose: whether all the memory it asks for is granted, and which bits are in memory that nobody
has written. -/
structure Luck where
  memory : Bool
  rest : NSet

/-- The greatest number of words, `SIZE_MAX / 64`. -/
def maxWords : Nat := 2 ^ 58 - 1

/-- How many words are left without the words at the end that have no bit set. -/
def used (s : NSet) : Nat → Nat
  | 0 => 0
  | n + 1 => if (List.range 64).any (fun i => s (64 * n + i)) then n + 1 else used s n

/-- The bits of `t` below bit `n`. -/
def upTo (n : Nat) (t : NSet) : NSet := fun x => decide (x < n) && t x

abbrev Pool := List (Option Bits)

/-- The bitset number `i`, if the pointer is not null. -/
def get (s : Pool) (i : Nat) : Option Bits := (s[i]?).join

/-- A call that changes bitset `i`, and its answer. -/
def change (s : Pool) (i : Nat) (f : Bits → Bits × Bool) : Pool × Bool :=
  match get s i with
  | none => (s, false)
  | some b => (s.set i (some (f b).1), (f b).2)

/-- A call that changes bitset `i` and reads bitset `j`. -/
def change2 (s : Pool) (i j : Nat) (f : Bits → Bits → Bits × Bool) : Pool × Bool :=
  match get s i, get s j with
  | some a, some b => if i = j then (s, false) else (s.set i (some (f a b).1), (f a b).2)
  | _, _ => (s, false)

/-- What one call does, and its answer: for calls that return a bitset whether it is not null, for calls that return
`bool` that value, and otherwise `true`; `false` when the program does not make the call. -/
def step (c : Luck) (s : Pool) : Op → Pool × Bool
  | .create => if c.memory then (s ++ [some ⟨0, fun _ => false⟩], true) else (s ++ [none], false)
  | .createCap n => if c.memory then (s ++ [some ⟨(n + 63) / 64, fun _ => false⟩], true) else (s ++ [none], false)
  | .copy i =>
    match get s i with
    | none => (s, false)
    | some b => if c.memory then (s ++ [some b], true) else (s ++ [none], false)
  | .free i => (s.set i none, true)
  | .clear i => change s i fun b => (⟨b.words, fun _ => false⟩, true)
  | .fill i => change s i fun b => (⟨b.words, fun x => decide (x < 64 * b.words)⟩, true)
  | .resize i n pad => change s i fun b =>
      if n > maxWords then (b, false)
      else if c.memory then
        (⟨n, fun x => decide (x < 64 * n) && (if x < 64 * b.words then b.has x else !pad && c.rest x)⟩, true)
      else (b, false)
  | .grow i n => change s i fun b =>
      if n < b.words ∨ n > maxWords then (b, false) else if c.memory then (⟨n, b.has⟩, true) else (b, false)
  | .trim i => change s i fun b =>
      if used b.has b.words = 0 then (b, false)
      else if c.memory then (⟨used b.has b.words, b.has⟩, true) else (b, false)
  | .set i x => change s i fun b =>
      if x / 64 ≥ maxWords then (b, true)
      else if c.memory then (⟨max b.words (x / 64 + 1), Spec.insert b.has x⟩, true) else (b, true)
  | .setTo i x v => change s i fun b =>
      if x / 64 ≥ maxWords then (b, true)
      else if c.memory then (⟨max b.words (x / 64 + 1), fun y => if y = x then v else b.has y⟩, true) else (b, true)
  | .shiftRight i n => change s i fun b =>
      if n / 64 < b.words then (⟨b.words - n / 64, fun x => b.has (x + n)⟩, true) else (b, false)
  | .unite i j => change2 s i j fun a b =>
      if c.memory then (⟨max a.words b.words, Spec.union a.has b.has⟩, true)
      else (⟨a.words, Spec.union a.has (upTo (64 * a.words) b.has)⟩, false)
  | .symm i j => change2 s i j fun a b =>
      if c.memory then (⟨max a.words b.words, Spec.symm a.has b.has⟩, true)
      else (⟨a.words, Spec.symm a.has (upTo (64 * a.words) b.has)⟩, false)
  | .inter i j => change2 s i j fun a b => (⟨a.words, Spec.inter a.has b.has⟩, true)
  | .diff i j => change2 s i j fun a b => (⟨a.words, Spec.diff a.has b.has⟩, true)

/-- A history of calls, with the luck of each. -/
def run (s : Pool) : List (Luck × Op) → Pool × List Bool
  | [] => (s, [])
  | (c, op) :: l => ((run (step c s op).1 l).1, (step c s op).2 :: (run (step c s op).1 l).2)

/-- The arguments of a call are values of `size_t`, and a capacity is not in the last 64 of them (there the code asks
for no words at all). -/
def fits : Op → Prop
  | .createCap n => n + 63 < 2 ^ 64
  | .set _ x => x < 2 ^ 64
  | .setTo _ x _ => x < 2 ^ 64
  | _ => True

end CRoaring.BitsetHist
