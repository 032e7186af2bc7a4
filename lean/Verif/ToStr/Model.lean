import Mathlib.Data.Int.Log
import Mathlib.Data.Rat.Floor
/-!
Model of the conversion of doubles to text: adobe/string/to_string.hpp, source/string.cpp (the variant without `std::to_chars`).

`snprintf` with `"%.*g"` is modelled after the C standard (C11 7.21.6.1): the number is rounded to so many significant digits, ties going to the even
digit as in IEC 60559 Annex F, trailing zeros are removed, and the exponent form is used for exponents below -4 or not below the precision.

Simplifications: only finite doubles (the code asserts this); `int` has enough bits; the locale is "C".  `std::log10` is a parameter where its result
is near 7.
-/
namespace Verif.ToStr

abbrev Str := List Char

/-- A finite double: `m · 2 ^ e`, with its sign. -/
structure Dbl where
  neg : Bool
  m : Nat
  e : Int
  hm : m < 2 ^ 53
  he : -1074 ≤ e
  he' : e ≤ 971

/-- Its absolute value. -/
def Dbl.abs (x : Dbl) : ℚ := x.m * 2 ^ x.e

def Dbl.val (x : Dbl) : ℚ := if x.neg then -x.abs else x.abs

/-- Rounding to the nearest integer, ties to even. -/
def roundEven (q : ℚ) : ℤ :=
  let n := ⌊q⌋
  if q - n < 1 / 2 then n
  else if 1 / 2 < q - n then n + 1
  else if n % 2 = 0 then n else n + 1

/-- The significant digits, as a number of `p` digits, and the decimal exponent of the first digit. -/
def parts (p : Nat) (q : ℚ) : Nat × Int :=
  let x := Int.log 10 q
  let k := (roundEven (q / 10 ^ (x - p + 1))).toNat
  if k = 10 ^ p then (10 ^ (p - 1), x + 1) else (k, x)

/-- `k` with exactly `n` digits. -/
def pad : Nat → Nat → Str
  | 0, _ => []
  | n + 1, k => pad n (k / 10) ++ [(k % 10).digitChar]

/-- Without trailing zeros. -/
def strip (s : Str) : Str := (s.reverse.dropWhile (· == '0')).reverse

/-- `k / 10 ^ dec`, with `dec` decimals, of which trailing zeros, and then a trailing point, are removed. -/
def pointText (dec k : Nat) : Str :=
  Nat.toDigits 10 (k / 10 ^ dec) ++ match strip (pad dec (k % 10 ^ dec)) with
    | [] => []
    | f => '.' :: f

/-- The exponent: at least two digits. -/
def expText (x : Int) : Str :=
  'e' :: (if x < 0 then '-' else '+') :: (if x.natAbs < 10 then ['0'] else []) ++ Nat.toDigits 10 x.natAbs

/-- `snprintf("%.*g", p, x)` for the absolute value `q` and the sign `neg`. -/
def gText (p : Nat) (neg : Bool) (q : ℚ) : Str :=
  (if neg then ['-'] else []) ++
    if q = 0 then ['0']
    else
      let (k, x) := parts p q
      if -4 ≤ x ∧ x < p then pointText (p - 1 - x).toNat k else pointText (p - 1) k ++ expText x

/-- models: adobe/string/to_string.hpp:85-116 `to_string(double, O, bool)`: what is written to `out`; `none`: an assertion fails (without assertions,
`buf` has been cut off and is read beyond its end). -/
def toStringOut (x : Dbl) (precise : Bool) : Option Str :=
  let text := gText (if precise then 17 else 15) x.neg x.abs
  let size := text.length
  if size < 32 ∧ size < (if precise then 25 else 23) ∧ 0 < size then some text else none

/-- The integral part, towards zero, of the absolute value, and what is left (`std::modf`). -/
def Dbl.frac (x : Dbl) : ℚ := x.abs - ⌊x.abs⌋

/-- models: source/string.cpp:27-48 `to_string(double)`, lines 41-47.  `std::log10` is minus infinity for a zero fraction and NaN for a negative one;
`far f`: `std::abs(std::log10(f)) > 7`, for a positive one. -/
def toString (far : ℚ → Bool) (x : Dbl) : Option Str :=
  toStringOut x (if x.frac = 0 then true else if x.neg then false else far x.frac)

end Verif.ToStr
