import Mathlib.Data.List.Basic
/-
What a client of `name_t` may rely on: names stand for strings.
-/
namespace Verif.Name.Spec

/-- a string without its terminator -/
abbrev Str := List (BitVec 8)

/-- lexicographic order of strings as unsigned bytes (what `strcmp` decides) -/
def less : Str → Str → Bool
  | _, [] => false
  | [], _ :: _ => true
  | a :: as, b :: bs => if a = b then less as bs else decide (a.toNat < b.toNat)

/-- memory contains the string, with its terminator, at the address -/
def holds (mem : Nat → BitVec 8) : Nat → Str → Prop
  | p, [] => mem p = 0
  | p, c :: cs => mem p = c ∧ c ≠ 0 ∧ holds mem (p + 1) cs

/-- the string that the first of the requests with hash `h` asked for -/
def first (R : List (Nat × Str)) (h : Nat) : Option Str := (R.find? (fun r => r.1 = h)).map Prod.snd

end Verif.Name.Spec
