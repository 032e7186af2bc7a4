/-
Model of the bisection algorithms of adobe/algorithm.

An iterator is an offset into the range `l`; dereferencing an offset outside of `l` is undefined
behaviour in C++ and is the distinct outcome `none` here.
-/
namespace Verif.Search

variable {α β γ : Type}

/-- models: adobe/algorithm/lower_bound.hpp:38-51 `implementation::lower_bound_n_`.
    `c (p v) x` is the C++ `c(p(*m), x)`; the loop is recursion on the remaining count `n`.
    Simplification: `N` is unbounded (no integer overflow), iterators are offsets. -/
def lowerBoundN (l : List α) (c : β → γ → Bool) (p : α → β) (x : γ) (f n : Nat) : Option Nat :=
  if _hn : n = 0 then some f
  else
    let h := n >>> 1
    let m := f + h
    match l[m]? with
    | none => none
    | some v =>
      if c (p v) x then lowerBoundN l c p x (m + 1) (n - (h + 1))
      else lowerBoundN l c p x f h
termination_by n
decreasing_by
  · omega
  · have : n >>> 1 < n := by rw [Nat.shiftRight_succ, Nat.shiftRight_zero]; omega
    exact this

/-- models: adobe/algorithm/upper_bound.hpp:39-55 `implementation::upper_bound_n`. -/
def upperBoundN (l : List α) (c : γ → β → Bool) (p : α → β) (x : γ) (f n : Nat) : Option Nat :=
  if _hn : n = 0 then some f
  else
    let h := n >>> 1
    let m := f + h
    match l[m]? with
    | none => none
    | some v =>
      if !(c x (p v)) then upperBoundN l c p x (m + 1) (n - (h + 1))
      else upperBoundN l c p x f h
termination_by n
decreasing_by
  · omega
  · have : n >>> 1 < n := by rw [Nat.shiftRight_succ, Nat.shiftRight_zero]; omega
    exact this

/-- models: adobe/algorithm/equal_range.hpp:50-69 `implementation::equal_range_n`
    (here `T == result_type(P)`, hence one comparator on `β`). -/
def equalRangeN (l : List α) (c : β → β → Bool) (p : α → β) (x : β) (f n : Nat) :
    Option (Nat × Nat) :=
  if _hn : n = 0 then some (f, f)
  else
    let h := n >>> 1
    let m := f + h
    match l[m]? with
    | none => none
    | some v =>
      if c (p v) x then equalRangeN l c p x (m + 1) (n - (h + 1))
      else if c x (p v) then equalRangeN l c p x f h
      else
        match lowerBoundN l c p x f h, upperBoundN l c p x (m + 1) (n - (h + 1)) with
        | some a, some b => some (a, b)
        | _, _ => none
termination_by n
decreasing_by
  · omega
  · have : n >>> 1 < n := by rw [Nat.shiftRight_succ, Nat.shiftRight_zero]; omega
    exact this

/-- models: adobe/algorithm/lower_bound.hpp `lower_bound(f, l, x, c, p)` (whole range). -/
def lowerBound (l : List α) (c : β → γ → Bool) (p : α → β) (x : γ) : Option Nat :=
  lowerBoundN l c p x 0 l.length

/-- models: adobe/algorithm/upper_bound.hpp `upper_bound(f, l, x, c, p)` (whole range). -/
def upperBound (l : List α) (c : γ → β → Bool) (p : α → β) (x : γ) : Option Nat :=
  upperBoundN l c p x 0 l.length

/-- models: adobe/algorithm/equal_range.hpp `equal_range(f, l, x, c, p)` (whole range). -/
def equalRange (l : List α) (c : β → β → Bool) (p : α → β) (x : β) : Option (Nat × Nat) :=
  equalRangeN l c p x 0 l.length

/-- models: adobe/algorithm/binary_search.hpp `implementation::binary_search`:
    `result = lower_bound(...); if (result != l && p(*result) == x) return result; return l;`
    `eq` is the C++ `operator==` of the projected type. -/
def binarySearch (l : List α) (c : β → β → Bool) (eq : β → β → Bool) (p : α → β) (x : β) :
    Option Nat :=
  match lowerBound l c p x with
  | none => none
  | some r =>
    if r ≠ l.length then
      match l[r]? with
      | none => none
      | some v => if eq (p v) x then some r else some l.length
    else some l.length

/-- models: adobe/functional/is_member.hpp:39-41 `is_member::operator()`: `binary_search(first, last, x, compare) != last`. -/
def isMember (l : List α) (c : α → α → Bool) (eq : α → α → Bool) (x : α) : Option Bool :=
  (binarySearch l c eq id x).map fun k => decide (k ≠ l.length)

end Verif.Search
