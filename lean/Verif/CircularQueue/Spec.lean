import Verif.CircularQueue.Model
/-
Specification: a bounded first-in first-out list plus the stack of popped elements that are still
recoverable.  Independent of the circular representation.
-/
namespace Verif.CircularQueue

/-- `items`: oldest first.  `popped`: most recently popped first. -/
structure Spec (α : Type) where
  cap : Nat
  items : List α
  popped : List α

variable {α : Type}

def Spec.init (cap : Nat) : Spec α := ⟨cap, [], []⟩

/-- A push on a full queue loses the oldest element; each push may reuse the storage of the popped element that
    has been popped longest ago. -/
def Spec.push (s : Spec α) (x : α) : Spec α :=
  if s.items.length < s.cap then
    { s with items := s.items ++ [x], popped := s.popped.take (s.cap - (s.items.length + 1)) }
  else { s with items := s.items.tail ++ [x] }

/-- Preconditions documented in the header are the `none`s. -/
def Spec.step (s : Spec α) : Op α → Option (Spec α)
  | .push x => some (s.push x)
  | .pop => match s.items with
    | [] => none
    | x :: xs => some { s with items := xs, popped := x :: s.popped }
  | .putback => match s.popped with
    | [] => none
    | x :: ps => if s.items.length < s.cap then some { s with items := x :: s.items, popped := ps } else none
  | .clear => some { s with items := [], popped := s.items.reverse ++ s.popped }

def Spec.run (s : Spec α) : List (Op α) → Option (Spec α)
  | [] => some s
  | o :: os => match s.step o with
    | none => none
    | some s' => s'.run os

def Spec.obs (s : Spec α) : Obs α :=
  ⟨s.items.head?, s.items.length, s.items.isEmpty, s.items.length == s.cap, s.cap⟩

end Verif.CircularQueue
