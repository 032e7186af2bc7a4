import Verif.Script.Model
import Verif.Cel.Spec
/-!
Specification of the JavaScript and PDF texts of a value, and which values they determine.  `num d` is the text of the number `d`.
-/
namespace Verif.Script.Spec
open Verif.Expr
open Verif.Cel.Spec (tabs)
open Verif.Script (lit)

variable {D O : Type}

mutual
/-- JavaScript.  `d`: the indentation. -/
def js (num : D → Str) (typeO : O → Str) (d : Nat) : Val D O → Str
  | .empty => lit "nil"
  | .bool b => if b then lit "true" else lit "false"
  | .num x => num x
  | .name n => lit "new name('" ++ n ++ lit "')"
  | .str s => lit "'" ++ s ++ lit "'"
  | .arr [] => lit "[ ]"
  | .arr (v :: vs) => lit "[ " ++ (js num typeO d v ++ jsMore num typeO d vs) ++ lit " ]"
  | .dict [] => lit "{ }"
  | .dict ((k, v) :: ms) => lit "{\n" ++ tabs (d + 1) ++ (k ++ lit ": " ++ js num typeO (d + 1) v ++ jsMembers num typeO (d + 1) ms) ++
      lit "\n" ++ tabs d ++ lit "}"
  | .other o => lit "'javascript_unknown: " ++ typeO o ++ lit "'"
def jsMore (num : D → Str) (typeO : O → Str) (d : Nat) : List (Val D O) → Str
  | [] => []
  | v :: vs => lit ", " ++ js num typeO d v ++ jsMore num typeO d vs
def jsMembers (num : D → Str) (typeO : O → Str) (d : Nat) : List (Str × Val D O) → Str
  | [] => []
  | (k, v) :: ms => lit ",\n" ++ tabs d ++ k ++ lit ": " ++ js num typeO d v ++ jsMembers num typeO d ms
end

mutual
/-- PDF.  `d`: the indentation. -/
def pdfText (num : D → Str) (typeO : O → Str) (d : Nat) : Val D O → Str
  | .empty => lit "null"
  | .bool b => if b then lit "true" else lit "false"
  | .num x => num x
  | .name n => lit "/" ++ n
  | .str s => lit "(" ++ s ++ lit ")"
  | .arr [] => lit "[ ]"
  | .arr (v :: vs) => lit "[ " ++ (pdfText num typeO d v ++ pdfMore num typeO d vs) ++ lit " ]"
  | .dict [] => lit "<< >>"
  | .dict ((k, v) :: ms) => lit "<<\n" ++ tabs (d + 1) ++ (lit "/" ++ k ++ lit " " ++ pdfText num typeO (d + 1) v ++
      pdfMembers num typeO (d + 1) ms) ++ lit "\n" ++ tabs d ++ lit ">>"
  | .other o => lit "(pdf_unknown: " ++ typeO o ++ lit ")"
def pdfMore (num : D → Str) (typeO : O → Str) (d : Nat) : List (Val D O) → Str
  | [] => []
  | v :: vs => lit " " ++ pdfText num typeO d v ++ pdfMore num typeO d vs
def pdfMembers (num : D → Str) (typeO : O → Str) (d : Nat) : List (Str × Val D O) → Str
  | [] => []
  | (k, v) :: ms => lit "\n" ++ tabs d ++ lit "/" ++ k ++ lit " " ++ pdfText num typeO d v ++ pdfMembers num typeO d ms
end

mutual
/-- Every number, name, string and name of a member in the value is as given, and there are no foreign types. -/
def Every (num : D → Prop) (name str key : Str → Prop) : Val D O → Prop
  | .empty => True
  | .bool _ => True
  | .num x => num x
  | .name n => name n
  | .str s => str s
  | .arr vs => EveryAll num name str key vs
  | .dict ms => EveryMember num name str key ms
  | .other _ => False
def EveryAll (num : D → Prop) (name str key : Str → Prop) : List (Val D O) → Prop
  | [] => True
  | v :: vs => Every num name str key v ∧ EveryAll num name str key vs
def EveryMember (num : D → Prop) (name str key : Str → Prop) : List (Str × Val D O) → Prop
  | [] => True
  | (k, v) :: ms => key k ∧ Every num name str key v ∧ EveryMember num name str key ms
end

mutual
/-- Every number in the value satisfies `P`. -/
def Numbers (P : D → Prop) : Val D O → Prop
  | .num x => P x
  | .arr vs => NumbersAll P vs
  | .dict ms => NumbersMembers P ms
  | _ => True
def NumbersAll (P : D → Prop) : List (Val D O) → Prop
  | [] => True
  | v :: vs => Numbers P v ∧ NumbersAll P vs
def NumbersMembers (P : D → Prop) : List (Str × Val D O) → Prop
  | [] => True
  | (_, v) :: ms => Numbers P v ∧ NumbersMembers P ms
end

/-- Parentheses are balanced: `n` are open. -/
def Balanced : Nat → Str → Prop
  | n, [] => n = 0
  | n, c :: s => if c = '(' then Balanced (n + 1) s else if c = ')' then n ≠ 0 ∧ Balanced (n - 1) s else Balanced n s

/-- Digits, a sign and a point. -/
def Numeric (s : Str) : Prop := s ≠ [] ∧ ∀ c ∈ s, c.isDigit ∨ c = '-' ∨ c = '.'

end Verif.Script.Spec
