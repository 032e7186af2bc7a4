import Verif.XmlAttr.Model
/-! Specification of attribute sets: finite maps from names to values, where names and values are texts. -/
namespace Verif.XmlAttr.Spec
open Verif.XmlAttr

/-- The documented order of token ranges: shorter texts first, texts of the same length in lexicographical order of
bytes. -/
def Shortlex (x y : List Nat) : Prop := x.length < y.length ∨ (x.length = y.length ∧ x < y)

/-- The attribute of the sequence `as` with the name `key` that was given last. -/
def lastGiven (mem : Mem) (as : List Attr) (key : List Nat) : Option Attr :=
  as.reverse.find? fun a => a.1.text mem = key

/-- The sets that a client can make. -/
inductive Built (mem : Mem) : List Attr → Prop where
  | empty : Built mem []
  | insert {s a s'} : Built mem s → XmlAttr.insert mem s a = some s' → Built mem s'
  | merge {s t} : Built mem s → Built mem t → Built mem (XmlAttr.merge mem s t)

/-- The text of the value of the attribute named `key`. -/
def value (mem : Mem) (s : List Attr) (key : List Nat) : Option (List Nat) :=
  (s.find? fun a => a.1.text mem = key).map fun a => a.2.text mem

/-- The names of the attributes. -/
def names (mem : Mem) (s : List Attr) : List (List Nat) := s.map fun a => a.1.text mem

end Verif.XmlAttr.Spec
