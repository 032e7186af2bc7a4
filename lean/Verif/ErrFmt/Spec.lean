import Verif.ErrFmt.Model
import Mathlib.Data.List.Defs
/-!
Specification of error reports and of lines.
-/
namespace Verif.ErrFmt.Spec
open Verif.ErrFmt

def Blank (c : Char) : Prop := c = ' ' ∨ c = '\t'
instance (c : Char) : Decidable (Blank c) := inferInstanceAs (Decidable (_ ∨ _))

/-- A line of a file: blanks, what is shown, which starts with something else than a blank, and nulls. -/
structure Parts (line blank shown nulls : Str) : Prop where
  eq : line = blank ++ shown ++ nulls
  blanks : ∀ c ∈ blank, Blank c
  first : ∃ c l, shown = c :: l ∧ ¬ Blank c
  last : ∃ l c, shown = l ++ [c] ∧ c ≠ '\x00'
  null : ∀ c ∈ nulls, c = '\x00'

/-- `t` is shown for `s`: the same characters, except for tabs. -/
def Shows (s t : Str) : Prop := List.Forall₂ (fun a b => (a = '\t' ∧ b = ' ') ∨ (a ≠ '\t' ∧ b = a)) s t

/-- `k` spaces, a caret and the end of the line. -/
def caretLine (k : Nat) : Str := List.replicate k ' ' ++ "^\n".toList

/-- The first line of a text, and what comes after it: lines end with `\n`, `\r` or `\r\n`, or at the end of the text. -/
def FirstLine (text line rest : Str) : Prop :=
  (∀ c ∈ line, c ≠ '\n' ∧ c ≠ '\r') ∧
  ((text = line ∧ rest = []) ∨ text = line ++ '\n' :: rest ∨ text = line ++ '\r' :: '\n' :: rest ∨
    (text = line ++ '\r' :: rest ∧ rest.head? ≠ some '\n'))

end Verif.ErrFmt.Spec
