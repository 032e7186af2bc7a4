/-
Specification: Unicode scalar values and the encoding forms UTF-8 (table 3-6) and UTF-16 (table 3-5) of the Unicode
standard, written with arithmetic only.
-/
namespace Verif.Unicode

/-- Unicode scalar value (D76): any code point except surrogates. -/
def IsScalar (c : Nat) : Prop := c ≤ 0x10FFFF ∧ ¬ (0xD800 ≤ c ∧ c ≤ 0xDFFF)

/-- Unicode table 3-6. -/
def utf8Spec (c : Nat) : List Nat :=
  if c ≤ 0x7F then [c]
  else if c ≤ 0x7FF then [0xC0 + c / 64, 0x80 + c % 64]
  else if c ≤ 0xFFFF then [0xE0 + c / 4096, 0x80 + c / 64 % 64, 0x80 + c % 64]
  else [0xF0 + c / 262144, 0x80 + c / 4096 % 64, 0x80 + c / 64 % 64, 0x80 + c % 64]

/-- Unicode table 3-5. -/
def utf16Spec (c : Nat) : List Nat :=
  if c ≤ 0xFFFF then [c]
  else [0xD800 + (c - 0x10000) / 1024, 0xDC00 + (c - 0x10000) % 1024]

end Verif.Unicode
