import Verif.Spec
/-
What the printing functions should print: the words in which C126 is stated.  A text is a list of characters.
-/
namespace CRoaring
namespace Text

/-- The digits of `n` in front of a text; `k` bounds their number. -/
def digits : Nat → Nat → List Char → List Char
  | 0, _, t => t
  | k + 1, n, t => if n < 10 then Char.ofNat (48 + n) :: t else digits k (n / 10) (Char.ofNat (48 + n % 10) :: t)

/-- A number as `%u`, `%d` (not negative) and `%zu` print it: in decimal without leading zeros. -/
def number (n : Nat) : List Char := digits (n + 1) n []

/-- Texts one after the other with a text between any two of them. -/
def join (sep : List Char) : List (List Char) → List Char
  | [] => []
  | [a] => a
  | a :: b :: l => a ++ sep ++ join sep (b :: l)

/-- A set of numbers in braces. -/
def braces (t : List Char) : List Char := '{' :: t ++ ['}']

/-- The numbers, in order, with commas between them, in braces. -/
def ofNumbers (l : List Nat) : List Char := braces (join [','] (l.map number))

/-- Is it a digit? -/
def isDigit (c : Char) : Bool := decide (48 ≤ c.toNat ∧ c.toNat ≤ 57)

/-- A reader: the numbers in a text, that is, the values of its longest runs of digits.  `cur` is the value of the digits just read. -/
def readLoop : List Char → Option Nat → List Nat
  | [], none => []
  | [], some n => [n]
  | c :: t, cur =>
    if isDigit c then readLoop t (some (cur.getD 0 * 10 + (c.toNat - 48)))
    else match cur with
      | none => readLoop t none
      | some n => n :: readLoop t none

/-- The numbers in a text. -/
def read (t : List Char) : List Nat := readLoop t none

end Text
end CRoaring
