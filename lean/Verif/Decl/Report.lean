import Verif.Decl.Model
import Verif.Decl.Spec
import Verif.Expr.Compile
import Mathlib.Data.List.Forall2
/-
What the client is to be told about a declaration: expressions are passed as the code which `Verif.Expr.compile` gives for them
(C46: running it computes the meaning of the expression), and a missing expression as an empty array.
-/
namespace Verif.Decl
open Verif.Expr Spec

variable {D O : Type} (c : Nat → D)

def codeOf (e : Option (Spec.Expr D O)) : List (Val D O) := match e with
  | none => []
  | some e => compile c e

def relOf (r : RelDecl D O) : Rel D O := { names := r.names, code := compile c r.e, detailed := r.detailed, brief := r.brief }

/-- The call for a declaration. -/
def report : Decl D O → Call D O
  | .interface n linked init define brief detailed => .interface n linked (codeOf c init) (codeOf c define) brief detailed
  | .input n init brief detailed => .cell .input n (codeOf c init) brief detailed
  | .constant n e brief detailed => .cell .constant n (compile c e) brief detailed
  | .output n e brief detailed => .cell .output n (compile c e) brief detailed
  | .logic n e brief detailed => .cell .logic n (compile c e) brief detailed
  | .invariant n e brief detailed => .cell .invariant n (compile c e) brief detailed
  | .external n brief detailed => .external n brief detailed
  | .relate cond rels brief detailed => .relation (codeOf c cond) (rels.map (relOf c)) brief detailed

/-- What the layout parser gets right about the third relate expression of a relation and those which follow. -/
def RelWeak (r : Rel D O) (d : RelDecl D O) : Prop :=
  r.code = compile c d.e ∧ d.names <:+ r.names ∧ (d.detailed ≠ [] → r.detailed = d.detailed) ∧ (d.brief ≠ [] → r.brief = d.brief)

/-- `Reports exact x d`: the call `x` reports the declaration `d`; when `exact` is false this may be so only up to the names and the
comments of the third relate expression of a relation and those which follow. -/
def Reports (exact : Bool) (x : Call D O) (d : Decl D O) : Prop :=
  x = report c d ∨ exact = false ∧ ∃ cond d1 d2 ds rs brief detailed, d = .relate cond (d1 :: d2 :: ds) brief detailed ∧
    x = .relation (codeOf c cond) (relOf c d1 :: relOf c d2 :: rs) brief detailed ∧ ds ≠ [] ∧ List.Forall₂ (RelWeak c) rs ds

mutual
/-- The number of views in a tree. -/
def size : View D O → Nat
  | .mk _ _ _ _ vs => sizes vs + 1
def sizes : List (View D O) → Nat
  | [] => 0
  | v :: vs => size v + sizes vs
end

mutual
/-- The calls for a tree of views below the position `parent`: each view before those it contains, in order; the next position the
client returns is `next`. -/
def reportView (parent next : Nat) : View D O → List (Call D O)
  | .mk cls args brief detailed vs => .view parent cls (compile c args) brief detailed :: reportViews next (next + 1) vs
def reportViews (parent next : Nat) : List (View D O) → List (Call D O)
  | [] => []
  | v :: vs => reportView parent next v ++ reportViews parent (next + size v) vs
end

end Verif.Decl
