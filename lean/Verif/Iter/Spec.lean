import Verif.Iter.Model
/-
Specification: a cursor of a list of `n` elements is a number from `0` to `n`.
-/
namespace Verif.Iter

/-- A step of an iterator: `++` or `--`. -/
inductive Move where
  | next
  | prev
deriving DecidableEq, Repr

/-- A cursor of a list of `n` elements after a sequence of steps; `none` when a step leaves the list. -/
def walk (n : Nat) : List Move → Nat → Option Nat
  | [], k => some k
  | .next :: ms, k => if k < n then walk n ms (k + 1) else none
  | .prev :: ms, k => if 0 < k then walk n ms (k - 1) else none

/-- A segmented iterator after the same steps; `none` when a step is undefined. -/
def run {α : Type} (segs : List (List α)) : List Move → Seg → Option Seg
  | [], i => some i
  | .next :: ms, i => (increment segs i).bind (run segs ms)
  | .prev :: ms, i => (decrement segs i).bind (run segs ms)

/-- The loop `for (; b != e; ++b) out.push_back(*b);` of a user, of at most `fuel` turns. -/
def forLoop {α : Type} (segs : List (List α)) : Nat → Seg → Seg → Option (List α)
  | 0, _, _ => none
  | fuel + 1, b, e =>
    match equal b e with
    | none => none
    | some true => some []
    | some false => do
      let v ← deref segs b
      let b' ← increment segs b
      let vs ← forLoop segs fuel b' e
      some (v :: vs)

/-- The loop `while (e != b) out.push_back(*--e);` of a user, of at most `fuel` turns. -/
def backLoop {α : Type} (segs : List (List α)) : Nat → Seg → Seg → Option (List α)
  | 0, _, _ => none
  | fuel + 1, b, e =>
    match equal e b with
    | none => none
    | some true => some []
    | some false => do
      let e' ← decrement segs e
      let v ← deref segs e'
      let vs ← backLoop segs fuel b e'
      some (v :: vs)

/-- The number of elements in the segments before number `b`. -/
def elementsBefore {α : Type} (segs : List (List α)) (b : Nat) : Nat := (segs.take b).flatten.length

end Verif.Iter
