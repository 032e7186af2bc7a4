import Verif.XmlOut.Model
import Verif.Cel.Spec
import Verif.Xml.Spec
/-!
Specification of the serialization as XML: the text of a value, and what value an XML element stands for.
-/
namespace Verif.XmlOut.Spec
open Verif.Expr
open Verif.XmlOut (Cfg)
open Verif.Xml.Spec

variable {D O : Type}

def tabs (d : Nat) : Str := List.replicate d '\t'

def digits (n : Int) : Str := (toString n).toList

/-- The escaped string. -/
def escaped (c : Cfg D O) (s : Str) : Str :=
  match Entity.entityEscape c.byCode (s.map Char.toNat) with
  | some t => t.map Char.ofNat
  | none => []

/-- `<tag>text</tag>` -/
def tagged (tag : String) (t : Str) : Str := "<".toList ++ tag.toList ++ ">".toList ++ t ++ "</".toList ++ tag.toList ++ ">".toList

def emptyTag : Str := "<empty/>".toList

def number (c : Cfg D O) (x : D) : Str :=
  match c.int x with
  | some n => tagged "integer" (digits n)
  | none => tagged "double" (c.show_ x)

mutual
/-- The text of a value whose first line is indented by `d`. -/
def text (c : Cfg D O) (d : Nat) : Val D O → Str
  | .empty => emptyTag
  | .bool true => tagged "bool" "true".toList
  | .bool false => tagged "bool" "false".toList
  | .num x => number c x
  | .name n => tagged "ident" n
  | .str s => tagged "string" (escaped c s)
  | .arr vs => tagged "array" ("\n".toList ++ textAll c (d + 1) vs ++ tabs d)
  | .dict ms => tagged "dict" ("\n".toList ++ textMembers c (d + 1) ms ++ tabs d)
  | .other o => tagged "xml_unknown" (c.typeO o)
/-- Each element on lines of its own. -/
def textAll (c : Cfg D O) (d : Nat) : List (Val D O) → Str
  | [] => []
  | v :: vs => tabs d ++ text c d v ++ "\n".toList ++ textAll c d vs
/-- Each name, and each value, on lines of its own. -/
def textMembers (c : Cfg D O) (d : Nat) : List (Str × Val D O) → Str
  | [] => []
  | (k, v) :: ms =>
    tabs d ++ tagged "key" k ++ "\n".toList ++ tabs d ++ text c d v ++ "\n".toList ++ textMembers c d ms
end

/-- The document. -/
def document (c : Cfg D O) (v : Val D O) : Str := tagged "xml" ("\n".toList ++ text c 0 v ++ "\n".toList)

/-! ### Reading -/

def codes (s : Str) : List Nat := s.map Char.toNat

/-- `<tag>`…`</tag>` without attributes and without white space in the tags. -/
def element (tag : String) (x : Content) : Item := .elem ⟨[], codes tag.toList, [], []⟩ x [] []

/-- The elements in the content, if there is only white space besides. -/
inductive Children : Content → List Item → Prop where
  | nil {t} : Blank t → Children (.nil t) []
  | cons {t i x is} : Blank t → i.head? ≠ none → Children x is → Children (.cons t i x) (i :: is)

/-- Character data and references, no elements or comments. -/
inductive TextOnly : Content → Prop where
  | nil {t} : TextOnly (.nil t)
  | cons {t b x} : TextOnly x → TextOnly (.cons t (.ref b) x)

/-- What a reader needs. -/
structure Reader (D : Type) where
  byName : List Entity.Entry
  ofInt : Int → D
  decimal : Str → D

/- The value that an element stands for, as its type says. -/
mutual
inductive Reads (r : Reader D) : Item → Val D O → Prop where
  | empty : Reads r (.empty ⟨[], codes "empty".toList, [], []⟩) .empty
  | true_ : Reads r (element "bool" (.nil (codes "true".toList))) (.bool true)
  | false_ : Reads r (element "bool" (.nil (codes "false".toList))) (.bool false)
  | int {n} : Reads r (element "integer" (.nil (codes (digits n)))) (.num (r.ofInt n))
  | double {s} : Reads r (element "double" (.nil (codes s))) (.num (r.decimal s))
  | ident {n} : Reads r (element "ident" (.nil (codes n))) (.name n)
  | string {x s} : TextOnly x → Entity.entityUnescape r.byName x.render = .ok (codes s) → Reads r (element "string" x) (.str s)
  | array {x is vs} : Children x is → ReadsAll r is vs → Reads r (element "array" x) (.arr vs)
  | dict {x is ms} : Children x is → ReadsMembers r is ms → Reads r (element "dict" x) (.dict ms)
inductive ReadsAll (r : Reader D) : List Item → List (Val D O) → Prop where
  | nil : ReadsAll r [] []
  | cons {i is v vs} : Reads r i v → ReadsAll r is vs → ReadsAll r (i :: is) (v :: vs)
inductive ReadsMembers (r : Reader D) : List Item → List (Str × Val D O) → Prop where
  | nil : ReadsMembers r [] []
  | cons {k i is v ms} : Reads r i v → ReadsMembers r is ms →
      ReadsMembers r (element "key" (.nil (codes k)) :: i :: is) ((k, v) :: ms)
end

/-- Names are printed as they are: they must be character data. -/
def NameOk (n : Str) : Prop := IsChars (codes n)

/-- The number is character data, and can be read back. -/
def NumOk (c : Cfg D O) (r : Reader D) (x : D) : Prop :=
  match c.int x with
  | some n => r.ofInt n = x
  | none => IsChars (codes (c.show_ x)) ∧ r.decimal (c.show_ x) = x

mutual
/-- The values that can be read back. -/
def Ok (c : Cfg D O) (r : Reader D) : Val D O → Prop
  | .empty => True
  | .bool _ => True
  | .num x => NumOk c r x
  | .name n => NameOk n
  | .str s => ∀ x ∈ s, 0 < x.toNat ∧ x.toNat < 128
  | .arr vs => OkAll c r vs
  | .dict ms => OkMembers c r ms
  | .other _ => False
def OkAll (c : Cfg D O) (r : Reader D) : List (Val D O) → Prop
  | [] => True
  | v :: vs => Ok c r v ∧ OkAll c r vs
def OkMembers (c : Cfg D O) (r : Reader D) : List (Str × Val D O) → Prop
  | [] => True
  | (k, v) :: ms => NameOk k ∧ Ok c r v ∧ OkMembers c r ms
end

end Verif.XmlOut.Spec
