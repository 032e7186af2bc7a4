import Verif.Table.Props

/-
Concrete cases for C84, C85: rows are pairs (name, number), pointers are numbers.
-/
namespace Verif.Table

/-- A small table. -/
def exRows : Nat → String × Nat
  | 0 => ("c", 3)
  | 1 => ("a", 1)
  | 2 => ("b", 1)
  | _ => ("d", 2)

def exLess (a b : Nat) : Bool := decide (a < b)

theorem exLess_strictWeak : StrictWeak exLess :=
  ⟨by simp [exLess], by simp [exLess]; omega, by simp [exLess]; omega⟩

theorem exSort : SortResult exRows Prod.snd exLess [0, 1, 2, 3] [2, 1, 3, 0] :=
  ⟨by decide, by decide⟩

example : ∀ a b, exLess a b = false → exLess b a = false → a = b := by
  simp [exLess]; omega

example : insertRange [9, 8] 1 [0, 1, 2] = [9, 0, 1, 2, 8] := by decide
example : find exRows Prod.snd exLess [2, 1, 3, 0] 2 = some 2 := by decide +kernel
example : find exRows Prod.snd exLess [2, 1, 3, 0] 7 = some 4 := by decide +kernel
example : equalRange exRows Prod.snd exLess [2, 1, 3, 0] 1 = some (0, 2) := by decide +kernel

/-- `unique()` keeps both rows with key 1 and loses the keys 2 and 3. -/
example : unique exRows Prod.snd exLess [2, 1, 3, 0] = [2, 1] := by decide +kernel

example : 3 ∉ unique exRows Prod.snd exLess [2, 1, 3, 0] :=
  C85_unique_loses_keys_violated exLess_strictWeak exSort 1 3 (by decide) (by decide)

end Verif.Table
