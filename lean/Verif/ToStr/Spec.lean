import Verif.ToStr.Model
/-!
Specification: the number that a text denotes, and what it means to read a number as a double.
-/
namespace Verif.ToStr.Spec

abbrev Str := List Char

/-- The number of a string of digits. -/
def natural (s : Str) : Option Nat := if s ≠ [] ∧ s.all Char.isDigit then some (Nat.ofDigitChars 10 s 0) else none

/-- An exponent with sign. -/
def integer : Str → Option Int
  | '-' :: s => (natural s).map fun n : Nat => -(n : Int)
  | '+' :: s => (natural s).map fun n : Nat => (n : Int)
  | s => (natural s).map fun n : Nat => (n : Int)

/-- A mantissa: digits, perhaps a point and more digits. -/
def mantissa (s : Str) : Option ℚ :=
  match s.span (· != '.') with
  | (i, []) => (natural i).map fun n : Nat => (n : ℚ)
  | (i, _ :: f) => (natural i).bind fun n : Nat => (natural f).map fun d : Nat => (n : ℚ) + (d : ℚ) / 10 ^ f.length

/-- A number without sign: a mantissa, perhaps `e` and an exponent. -/
def unsigned (s : Str) : Option ℚ :=
  match s.span (· != 'e') with
  | (m, []) => mantissa m
  | (m, _ :: x) => (mantissa m).bind fun q => (integer x).map fun n => q * 10 ^ n

/-- The number that a decimal text denotes. -/
def number : Str → Option ℚ
  | '-' :: s => (unsigned s).map fun q => -q
  | s => unsigned s

/-- A number with a significand of 53 bits, where the exponent has the lower bound of double and no upper bound. -/
def Binary (z : ℚ) : Prop := ∃ (m : ℤ) (e : ℤ), |m| < 2 ^ 53 ∧ -1074 ≤ e ∧ z = m * 2 ^ e

/-- Reading `q` as a double with `strtod` (any tie breaking) gives `x`: none of the numbers of 53 bits is nearer. -/
def ReadsAs (q x : ℚ) : Prop := Binary x ∧ ∀ z, Binary z → |q - x| ≤ |q - z|

/-- A decimal of at most `p` significant digits. -/
def Decimal (p : Nat) (q : ℚ) : Prop := ∃ (k : ℤ) (j : ℤ), |k| < 10 ^ p ∧ q = k * 10 ^ j

end Verif.ToStr.Spec
