/-
Specifications of the algorithms, independent of the model.
-/
namespace Verif.Algo

variable {α β : Type}

/-- A binary expression over values: the shape of the applications of an operation. -/
inductive Tree (α : Type) where
  | leaf (x : α)
  | node (l r : Tree α)

namespace Tree

/-- The value of the expression. -/
def eval (op : α → α → α) : Tree α → α
  | leaf x => x
  | node l r => op (l.eval op) (r.eval op)

/-- The operands, left to right. -/
def leaves : Tree α → List α
  | leaf x => [x]
  | node l r => l.leaves ++ r.leaves

/-- The nesting depth of the applications. -/
def depth : Tree α → Nat
  | leaf _ => 0
  | node l r => max l.depth r.depth + 1

end Tree

/-- `op` is associative with the two sided identity `z`. -/
structure IsMonoid (op : α → α → α) (z : α) : Prop where
  assoc : ∀ a b c, op (op a b) c = op a (op b c)
  left_id : ∀ a, op z a = a
  right_id : ∀ a, op a z = a

/-- A strict weak ordering, as the standard requires of `less`. -/
structure StrictWeak (less : α → α → Bool) : Prop where
  irrefl : ∀ a, less a a = false
  trans : ∀ a b c, less a b = true → less b c = true → less a c = true
  neg_trans : ∀ a b c, less a b = false → less b c = false → less a c = false

/-- Sorted: no element precedes (by `less`) an element before it. -/
def IsSorted (less : α → α → Bool) (xs : List α) : Prop :=
  xs.Pairwise (fun a b => less b a = false)

end Verif.Algo
