import Verif.Selection.Model
/-
Specification of selections (independent of the algorithms): a boundary list denotes the set of indices `i` such that
the number of boundaries at or below `i`, together with the starting polarity, has toggled the selection "on".
-/
namespace Verif.Selection

/-- Membership of index `i` in the selection with starting polarity `start`. -/
def toggled (start : Bool) (bounds : List Nat) (i : Nat) : Bool :=
  start != decide ((bounds.filter (fun b => decide (b ≤ i))).length % 2 = 1)

/-- `i` is selected by `s`. -/
def Sel.mem (s : Sel) (i : Nat) : Bool := toggled s.start s.bounds i

/-- Documented well-formedness: boundaries are strictly increasing. -/
def Sel.WF (s : Sel) : Prop := s.bounds.Pairwise (· < ·)

/-- The elements of `l` whose index (counted from `base`) satisfies `p`, in order. -/
def pick {α : Type} (p : Nat → Bool) (base : Nat) : List α → List α
  | [] => []
  | x :: xs => if p base then x :: pick p (base + 1) xs else pick p (base + 1) xs

end Verif.Selection
