import Mathlib.Data.Rat.Floor
import Mathlib.Algebra.Order.Field.Power
import Verif.Outcome

/-!
# Reading printed text

A reader for decimal numbers and for tables (lines that end with a line feed, with fields between separators), and what
the nearest number with six digits is. Nothing here refers to the programs.
-/

namespace Verif

/-! ## Numbers -/

/-- The value of a digit. -/
def digitVal (c : Char) : Option Nat := if '0'.toNat ≤ c.toNat ∧ c.toNat ≤ '9'.toNat then some (c.toNat - '0'.toNat) else none

/-- The value of digits after the value `n`. -/
def digitsFrom (n : Nat) : List Char → Option Nat
  | [] => some n
  | c :: cs => (digitVal c).bind fun d => digitsFrom (10 * n + d) cs

/-- A whole number: at least one digit. -/
def readNat (s : List Char) : Option Nat := if s = [] then none else digitsFrom 0 s

/-- Digits and perhaps a point and more digits. -/
def readFixed (s : List Char) : Option ℚ :=
  match s.dropWhile (· ≠ '.') with
  | [] => (readNat s).map fun i : Nat => (i : ℚ)
  | _ :: frac => (readNat (s.takeWhile (· ≠ '.'))).bind fun i : Nat => (readNat frac).map fun f : Nat =>
      (i : ℚ) + f / 10 ^ frac.length

/-- An exponent with its sign. -/
def readExp : List Char → Option ℤ
  | '+' :: s => (readNat s).map fun n : Nat => (n : ℤ)
  | '-' :: s => (readNat s).map fun n : Nat => -(n : ℤ)
  | _ => none

/-- Perhaps followed by `e` and a power of ten. -/
def readUnsigned (s : List Char) : Option ℚ :=
  match s.dropWhile (· ≠ 'e') with
  | [] => readFixed s
  | _ :: x => (readFixed (s.takeWhile (· ≠ 'e'))).bind fun a => (readExp x).map fun e => a * (10 : ℚ) ^ e

/-- A number with an optional minus sign. -/
def readDecimal : List Char → Option ℚ
  | '-' :: s => (readUnsigned s).map fun q => -q
  | s => readUnsigned s

/-- A number with at most six significant decimal digits. -/
def SixDigits (r : ℚ) : Prop := ∃ k e : ℤ, |k| < 10 ^ 6 ∧ r = k * (10 : ℚ) ^ e

/-- No number with six digits is closer to `q` than `r`. -/
def ClosestSix (q r : ℚ) : Prop := SixDigits r ∧ ∀ s, SixDigits s → |r - q| ≤ |s - q|

/-! ## Tables -/

/-- The parts of a text between separators. -/
def pieces (sep : Char) : List Char → List (List Char)
  | [] => [[]]
  | c :: cs => if c = sep then [] :: pieces sep cs
      else match pieces sep cs with
        | [] => [[c]]
        | p :: ps => (c :: p) :: ps

/-- The lines of a text, each ending with a line feed; `none` if the last one does not. -/
def readLines (s : List Char) : Option (List (List Char)) :=
  let ps := pieces '\n' s
  if ps.getLast? = some [] then some ps.dropLast else none

/-- The fields of a line; blanks in front of a field do not count. -/
def readFields (sep : Char) (s : List Char) : List (List Char) := (pieces sep s).map (List.dropWhile (· = ' '))

/-- The fields of all lines. -/
def readTable (sep : Char) (s : List Char) : Option (List (List (List Char))) :=
  (readLines s).map fun ls => ls.map (readFields sep)

/-- The field is a closest decimal number to `q` with six digits. -/
def Shows (field : List Char) (q : ℚ) : Prop := ∃ r, readDecimal field = some r ∧ ClosestSix q r

/-- The field is a number of at most `b`. -/
def ShowsAtMost (field : List Char) (b : ℚ) : Prop := ∃ r, readDecimal field = some r ∧ r ≤ b

/-- How long `n` nanoseconds are: full milliseconds below a second, full seconds below five minutes, else full
minutes. -/
def durationText (n : Nat) : List Char :=
  if n < 10 ^ 9 then Nat.toDigits 10 (n / 10 ^ 6) ++ " ms".toList
  else if n < 300 * 10 ^ 9 then Nat.toDigits 10 (n / 10 ^ 9) ++ " s".toList
  else Nat.toDigits 10 (n / (60 * 10 ^ 9)) ++ " m".toList

end Verif
