import Verif.Cel.Model
import Verif.Lex.Spec
/-!
Specification of the serialization: the text of a value, and which values can be read back.
-/
namespace Verif.Cel.Spec
open Verif.Expr
open Verif.Cel (Cfg sortKeys)
open Verif.Lex (Opts)

variable {D O : Type}

mutual
/-- The value with the members of all dictionaries in the order of their names. -/
def norm : Val D O → Val D O
  | .arr vs => .arr (normAll vs)
  | .dict ms => .dict (sortKeys (normMembers ms))
  | v => v
def normAll : List (Val D O) → List (Val D O)
  | [] => []
  | v :: vs => norm v :: normAll vs
def normMembers : List (Str × Val D O) → List (Str × Val D O)
  | [] => []
  | (k, v) :: ms => (k, norm v) :: normMembers ms
end

def tabs (d : Nat) : Str := List.replicate d '\t'

/-- A string is between quotes; if `entity_escape` changes it, and this is wanted, it is escaped and the argument of
`xml_unescape`. -/
def quoted (c : Cfg D O) (s : Str) : Str :=
  match Entity.entityEscape c.byCode (s.map Char.toNat) with
  | some t =>
    if c.safe = true ∧ t ≠ s.map Char.toNat then "xml_unescape(\"".toList ++ t.map Char.ofNat ++ "\")".toList
    else "\"".toList ++ s ++ "\"".toList
  | none => "\"".toList ++ s ++ "\"".toList

mutual
/-- The text of a value whose first line is indented by `d`. -/
def text (c : Cfg D O) (d : Nat) : Val D O → Str
  | .empty => "empty".toList
  | .bool true => "true".toList
  | .bool false => "false".toList
  | .num x => c.show_ x
  | .name n => '@' :: n
  | .str s => quoted c s
  | .arr [] => "[ ]".toList
  | .arr (v :: vs) => "[ ".toList ++ (text c d v ++ textMore c d vs) ++ " ]".toList
  | .dict [] => "{ }".toList
  | .dict ((k, v) :: ms) =>
      "{\n".toList ++ (tabs (d + 1) ++ k ++ ": ".toList ++ text c (d + 1) v ++ textMembers c (d + 1) ms) ++ "\n".toList ++ tabs d ++ "}".toList
  | .other o => "'".toList ++ c.typeO o ++ "'".toList
def textMore (c : Cfg D O) (d : Nat) : List (Val D O) → Str
  | [] => []
  | v :: vs => ", ".toList ++ text c d v ++ textMore c d vs
def textMembers (c : Cfg D O) (d : Nat) : List (Str × Val D O) → Str
  | [] => []
  | (k, v) :: ms => ",\n".toList ++ tabs d ++ k ++ ": ".toList ++ text c d v ++ textMembers c d ms
end

/-- Letters, digits and underscores, not beginning with a digit. -/
def IsIdent (n : Str) : Prop := ∃ c x, n = c :: x ∧ (c.isAlpha ∨ c = '_') ∧ ∀ c ∈ x, Lex.Spec.isWord c

def IsKeyword (o : Opts D) (n : Str) : Prop := n ∈ ["true".toList, "false".toList, "empty".toList] ∨ o.keyword n = true

/-- Digits and dots, as in a number without exponent. -/
def IsDecimal (s : Str) : Prop := ∃ c x, s = c :: x ∧ c.isDigit ∧ ∀ c ∈ x, c.isDigit ∨ c = '.'

/-- The number is printed without exponent, and the digits denote the number again. -/
def NumOk (c : Cfg D O) (N : Num D) (o : Opts D) (x : D) : Prop :=
  (IsDecimal (c.show_ x) ∧ o.decimal (c.show_ x) = x) ∨
  ∃ s, c.show_ x = '-' :: s ∧ IsDecimal s ∧ N.neg (o.decimal s) = x

/-- ASCII without NUL; if strings are not escaped, no quotes and no NUL. -/
def StrOk (c : Cfg D O) (s : Str) : Prop :=
  if c.safe then ∀ x ∈ s, 0 < x.toNat ∧ x.toNat < 128 else '"' ∉ s ∧ '\x00' ∉ s

mutual
/-- The values that can be read back. -/
def Ok (c : Cfg D O) (N : Num D) (o : Opts D) : Val D O → Prop
  | .empty => True
  | .bool _ => True
  | .num x => NumOk c N o x
  | .name n => IsIdent n
  | .str s => StrOk c s
  | .arr vs => OkAll c N o vs
  | .dict ms => (ms.map (·.1)).Nodup ∧ OkMembers c N o ms
  | .other _ => False
def OkAll (c : Cfg D O) (N : Num D) (o : Opts D) : List (Val D O) → Prop
  | [] => True
  | v :: vs => Ok c N o v ∧ OkAll c N o vs
def OkMembers (c : Cfg D O) (N : Num D) (o : Opts D) : List (Str × Val D O) → Prop
  | [] => True
  | (k, v) :: ms => (IsIdent k ∧ ¬ IsKeyword o k) ∧ Ok c N o v ∧ OkMembers c N o ms
end

/-- `entity_unescape` as a function of the virtual machine. -/
def unescape (byName : List Entity.Entry) (s : Str) : Option Str :=
  match Entity.entityUnescape byName (s.map Char.toNat) with
  | .ok t => some (t.map Char.ofNat)
  | _ => none

end Verif.Cel.Spec
