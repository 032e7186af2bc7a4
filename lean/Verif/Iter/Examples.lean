import Verif.Iter.Props
import Verif.Iter.Props2
/-
Concrete cases of the hypotheses of C129 - C132.
-/
namespace Verif.Iter

/-- Segments of which the first, a middle one and the last are empty. -/
def exSegs : List (List Nat) := [[], [1, 2], [], [], [3], []]

/-- The walk of `C129_segmented_walk` over two boundaries and back is inside the range. -/
example : walk (exSegs.take 6).flatten.length [.next, .next, .next, .prev, .prev] (exSegs.take 0).flatten.length
    = some 1 := by decide

example : (do let i ← mk exSegs 0 6
              let j ← run exSegs [.next, .next, .next, .prev, .prev] i
              deref exSegs j) = some 2 := by decide

/-- One step more than there are elements, and one step before the first, are undefined. -/
example : (mk exSegs 0 6).bind (run exSegs [.next, .next, .next, .next]) = none := by decide
example : (mk exSegs 0 6).bind (run exSegs [.prev]) = none := by decide

/-- An iterator made for the segments from number 2 on is at the element 3, and moves back to 2. -/
example : walk (exSegs.take 6).flatten.length [.prev] (exSegs.take 2).flatten.length = some 1 := by decide

example : (do let i ← mk exSegs 2 6
              let j ← run exSegs [.prev] i
              deref exSegs j) = some 2 := by decide

/-- The whole range, forwards and backwards. -/
example : (makeRange exSegs).bind (fun r => forLoop exSegs 4 r.1 r.2) = some [1, 2, 3] := by decide
example : (makeRange exSegs).bind (fun r => backLoop exSegs 4 r.1 r.2) = some [3, 2, 1] := by decide
example : (makeRange ([[], []] : List (List Nat))).bind (fun r => equal r.1 r.2) = some true := by decide

example : mismatchRandom [1, 2, 3, 4] [1, 2, 5] = some (2, 2) := by decide
example : mismatchInput [1, 2] [1, 2, 5] = some (2, 2) := by decide
example : CommonPrefix [1, 2, 3, 4] [1, 2, 5] 2 := by
  obtain ⟨k, h, hc⟩ := C130_mismatch_random [1, 2, 3, 4] [1, 2, 5]
  have : mismatchRandom [1, 2, 3, 4] [1, 2, 5] = some (2, 2) := by decide
  rw [this] at h
  injection h with h
  injection h with h _
  exact h ▸ hc

example : idxDistance 7 3 = some (-4) := by decide
example : idxDistance (BitVec.ofNat 64 (2 ^ 63 - 1)) (BitVec.ofNat 64 (2 ^ 63)) = none := by decide

/-- The first of the two largest differences is taken. -/
example : maxAdjacentDifference [1, 2, 5, 4, 7, 8] = 1 := by decide

end Verif.Iter
