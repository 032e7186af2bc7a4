import Verif.Algo.Props

/-
Concrete cases meeting the hypotheses of C80-C83.
-/
namespace Verif.Algo

/-- Concatenation: associative, not commutative. -/
example : IsMonoid (fun a b : List Nat => a ++ b) [] :=
  ⟨by simp, by simp, by simp⟩

example : (reduceBalanced (· ++ ·) [] [[1], [2], [], [3], [4], [5, 6]]).1 = [1, 2, 3, 4, 5, 6] := by
  decide +kernel

/-- Partial results that are the identity. -/
example : (reduceBalanced (α := Int) (· + ·) 0 [1, -1, 2, 3, -5, 7]).1 = 7 := by decide +kernel

example : IsMonoid (α := Int) (· + ·) 0 := ⟨by intros; omega, by simp, by simp⟩

/-- Subtraction shows the shape: `((1 - 2) - (3 - 4)) - 5`. -/
example : reduceBalanced (α := Int) (· - ·) 100 [1, 2, 3, 4, 5] =
    (-5, [(1, 2), (3, 4), (-1, -1), (0, 5)]) := by decide +kernel

/-- The hypotheses of the theorem about every element. -/
example : (∀ a b : List Nat, a ≠ [] → b ≠ [] → a ++ b ≠ []) ∧ [] ∉ [[1], [2], [3]] ∧
    ([[1], [2], [3]] : List (List Nat)) ≠ [] := by
  refine ⟨fun a b ha _ => by simp [ha], by decide, by decide⟩

example : StrictWeak (fun a b : Nat => decide (a < b)) :=
  ⟨by simp, by simp; intros; omega, by simp; intros; omega⟩

example : IsSorted (fun a b : Nat => decide (a < b)) ([1] ++ 2 :: 2 :: [3]) := by
  unfold IsSorted; decide

example : isSorted (fun a b : Nat => decide (a < b)) [1, 2, 2, 3] = false := by decide
example : isSortedRange (fun a b : Nat => decide (a < b)) [1, 2, 2, 3] = true := by decide
example : isSorted (fun a b : Nat => decide (a ≤ b)) [1, 2, 2, 3] = true := by decide
example : sorted (fun a b : Nat => decide (a < b)) [1, 2, 2, 3] = 2 := by decide
example : sorted (fun a b : Nat => decide (a < b)) [1, 2, 3] = 3 := by decide

example : eraseIfBlock (fun n => n % 2 == 0) [9, 2, 4, 1, 6, 3, 8] 1 6 =
    ([9, 1, 3, 8], [2, 4, 1, 6, 3]) := by decide +kernel

example : (eraseIfNode (fun n => n % 2 == 0) [9] [2, 4, 1, 6, 3] [8]).1 = [9, 1, 3, 8] := by
  rw [C82_erase_if_node]; decide

example : findRange 2 [1, 2, 2, 3, 2] = (1, 3) := by decide

example : copyBoundedLoop [0, 0, 0, 0] 1 3 0 [7, 8, 9] = some (2, 3, [0, 7, 8, 0]) := by decide
example : copyBoundedRA [7, 8, 9] [0, 0, 0, 0] 1 3 = some (2, 3, [0, 7, 8, 0]) := by decide
example : copySentinal 0 [5, 5, 5] 1 0 [7, 8, 0, 9] = some (2, 3, [5, 7, 8]) := by decide
example : iota (· + 1) 5 [0, 0, 0] = (8, [5, 6, 7]) := by decide

end Verif.Algo
