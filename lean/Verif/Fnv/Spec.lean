import Mathlib.Data.List.Basic
/-
FNV-1a as published (draft-eastlake-fnv / isthe.com): numbers modulo `2^n`, the primes `2^k + 2^8 + b`, and the offset basis that
is defined to be the FNV-0 hash of the author's signature line.
-/
namespace Verif.Fnv.Spec

/-- the widths for which FNV is defined, with the prime -/
def prime : Nat → Option Nat
  | 32 => some (2 ^ 24 + 2 ^ 8 + 0x93)
  | 64 => some (2 ^ 40 + 2 ^ 8 + 0xb3)
  | 128 => some (2 ^ 88 + 2 ^ 8 + 0x3b)
  | 256 => some (2 ^ 168 + 2 ^ 8 + 0x63)
  | 512 => some (2 ^ 344 + 2 ^ 8 + 0x57)
  | 1024 => some (2 ^ 680 + 2 ^ 8 + 0x8d)
  | _ => none

/-- `chongo <Landon Curt Noll> /\../\` -/
def signature : List Nat :=
  [0x63, 0x68, 0x6f, 0x6e, 0x67, 0x6f, 0x20, 0x3c, 0x4c, 0x61, 0x6e, 0x64, 0x6f, 0x6e, 0x20, 0x43, 0x75, 0x72, 0x74, 0x20, 0x4e, 0x6f, 0x6c, 0x6c,
   0x3e, 0x20, 0x2f, 0x5c, 0x2e, 0x2e, 0x2f, 0x5c]

/-- FNV-0: multiply, then xor -/
def fnv0 (n p : Nat) (bytes : List Nat) : Nat := bytes.foldl (fun h b => (h * p % 2 ^ n) ^^^ b) 0

/-- FNV-1a: xor, then multiply, starting with the offset basis -/
def fnv1a (n p : Nat) (bytes : List Nat) : Nat := bytes.foldl (fun h b => (h ^^^ b) * p % 2 ^ n) (fnv0 n p signature)

/-- the smallest FNV width that has at least `bits` bits -/
def width (bits : Nat) : Option Nat := [32, 64, 128, 256, 512, 1024].find? (fun n => decide (bits ≤ n))

/-- the hash of `bits` bits: the low bits of the hash of the next larger width -/
def hash (bits : Nat) (bytes : List Nat) : Option Nat :=
  match width bits with
  | none => none
  | some n => match prime n with
    | none => none
    | some p => some (fnv1a n p bytes % 2 ^ bits)

end Verif.Fnv.Spec
