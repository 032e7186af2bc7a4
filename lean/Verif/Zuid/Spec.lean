import Verif.Zuid.Model
import Verif.Md5.Spec
/-!
Specification: the textual form of a UUID, its bytes, version and variant (RFC 4122), independent of the way they are computed.
-/
namespace Verif.Zuid.Spec
open Verif.Zuid (Uuid Byte Str)

/-- The digits of a number. -/
def digit (n : Nat) : Char := ("0123456789abcdef".toList).getD n '?'

/-- Exactly `w` digits. -/
def hex : Nat → Nat → Str
  | 0, _ => []
  | w + 1, v => hex w (v / 16) ++ [digit (v % 16)]

/-- `xxxxxxxx-xxxx-xxxx-xxxx-xxxxxxxxxxxx`. -/
def text (u : Uuid) : Str :=
  hex 8 u.data1.toNat ++ "-".toList ++ hex 4 u.data2.toNat ++ "-".toList ++ hex 4 u.data3.toNat ++ "-".toList ++
    ((u.data4.toList.take 2).flatMap fun b => hex 2 b.toNat) ++ "-".toList ++ ((u.data4.toList.drop 2).flatMap fun b => hex 2 b.toNat)

def IsHexDigit (c : Char) : Prop := c.isDigit ∨ ('a' ≤ c ∧ c ≤ 'f') ∨ ('A' ≤ c ∧ c ≤ 'F')

/-- Five groups of 8, 4, 4, 4 and 12 hexadecimal digits of either case. -/
def IsText (s : Str) : Prop := ∃ a b c d e : Str, s = a ++ "-".toList ++ b ++ "-".toList ++ c ++ "-".toList ++ d ++ "-".toList ++ e ∧
  a.length = 8 ∧ b.length = 4 ∧ c.length = 4 ∧ d.length = 4 ∧ e.length = 12 ∧ ∀ x ∈ a ++ b ++ c ++ d ++ e, IsHexDigit x

/-- Lower case. -/
def lower (c : Char) : Char := if 'A' ≤ c ∧ c ≤ 'F' then Char.ofNat (c.toNat + 32) else c

/-- The 16 bytes in network order. -/
def bytes (u : Uuid) : List Byte :=
  [u.data1.extractLsb' 24 8, u.data1.extractLsb' 16 8, u.data1.extractLsb' 8 8, u.data1.extractLsb' 0 8,
   u.data2.extractLsb' 8 8, u.data2.extractLsb' 0 8, u.data3.extractLsb' 8 8, u.data3.extractLsb' 0 8] ++ u.data4.toList

/-- The most significant bits of `time_hi_and_version`. -/
def version (u : Uuid) : Nat := u.data3.toNat / 2 ^ 12

/-- The most significant bits of `clock_seq_hi_and_reserved` are 10. -/
def Variant (u : Uuid) : Prop := u.data4[0].toNat / 2 ^ 6 = 2

/-- RFC 4122, 4.3: the hash with version 3 and the variant put in. -/
def stamp (h : List Byte) : List Byte :=
  (h.modify 6 fun b => (b &&& 0x0F#8) ||| 0x30#8).modify 8 fun b => (b &&& 0x3F#8) ||| 0x80#8

end Verif.Zuid.Spec
