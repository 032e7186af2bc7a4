/-
Model of adobe/algorithm/reverse.hpp (reverse_until), rotate.hpp, other_of.hpp, gather.hpp.
A sequence is a list, an iterator an offset; writing outside of the sequence is `none` (UB).
-/
namespace Verif.Permute

variable {α : Type}

/-- `std::iter_swap` on offsets `i`, `j` (UB outside of the sequence). -/
def iterSwap (l : List α) (i j : Nat) : Option (List α) :=
  match l[i]?, l[j]? with
  | some x, some y => some ((l.set i y).set j x)
  | _, _ => none

/-- `std::reverse(f, e)` by its contract: the sub-range `[f, e)` is reversed in place. -/
def stdReverse (l : List α) (f e : Nat) : List α :=
  l.take f ++ ((l.drop f).take (e - f)).reverse ++ l.drop e

/-- models: adobe/algorithm/reverse.hpp:123-133 `reverse_until`.
    Loop `while (f != m && m != l) { --l; iter_swap(f, l); ++f; }`; recursion is on the distance
    `m - f` (the code requires `f <= m <= l`). -/
def reverseUntil (l : List α) (f m e : Nat) : Option (List α × Nat × Nat) :=
  if _h : f < m ∧ m ≠ e then
    match iterSwap l f (e - 1) with
    | none => none
    | some l' => reverseUntil l' (f + 1) m (e - 1)
  else some (l, f, e)
termination_by m - f

/-- models: adobe/algorithm/rotate.hpp:39-51 `rotate` (bidirectional; the other tags forward to it). -/
def rotate (l : List α) (f m e : Nat) : Option (List α × Nat × Nat) :=
  let l1 := stdReverse l f m
  let l2 := stdReverse l1 m e
  match reverseUntil l2 f m e with
  | none => none
  | some (l3, pf, pe) => some (stdReverse l3 pf pe, pf, pe)

/-- models: adobe/algorithm/other_of.hpp:37-39 `other_of` with `equal_to`. -/
def otherOf (p : Nat × Nat) (x : Nat) : Nat := if p.1 = x then p.2 else p.1

/-- `std::stable_partition(f, e, pred)` by its contract: elements satisfying `pred` first, both groups
    in their original order; returns the boundary. -/
def stdStablePartition (l : List α) (f e : Nat) (pred : α → Bool) : List α × Nat :=
  let mid := (l.drop f).take (e - f)
  (l.take f ++ (mid.filter pred ++ mid.filter (fun x => !pred x)) ++ l.drop e,
   f + (mid.filter pred).length)

/-- models: adobe/algorithm/gather.hpp:78-86 `gather`.  The two calls act on disjoint sub-ranges, so
    the unspecified evaluation order of the arguments of `make_pair` does not matter. -/
def gather (l : List α) (first last pivot : Nat) (pred : α → Bool) : List α × Nat × Nat :=
  let (l1, a) := stdStablePartition l first pivot (fun x => !pred x)
  let (l2, b) := stdStablePartition l1 pivot last pred
  (l2, a, b)

end Verif.Permute
