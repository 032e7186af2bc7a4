/-
Model of the iterators of adobe/iterator.hpp: the segmented iterator, which walks over the elements of a range of
ranges, and the index iterator; and of adobe/mismatch.hpp and `max_adjacent_difference` of adobe/numeric.hpp.

An iterator of an underlying range is its offset in that range.  What the C++ standard leaves undefined (moving an
iterator out of its range, reading at an end, comparing iterators of two different segments) is `none`.
-/

namespace Verif.Iter

/-- models: adobe/iterator.hpp:127-206, the members of `segmented_iterator`: `bucket_m` and `end_m` are iterators of
the top range; `current_m` is an iterator of a segment, here the number of the segment and the offset in it; it is
`none` when it was only default-constructed. -/
structure Seg where
  bucket : Nat
  endB : Nat
  cur : Option (Nat × Nat)
deriving DecidableEq, Repr

variable {α : Type}

/-- models: `boost::end(*bucket_m)`, adobe/iterator.hpp:191: the length of the segment; reading the top range at its
end is undefined. -/
def segLen (segs : List (List α)) (b : Nat) : Option Nat := (segs[b]?).map List.length

/-- models: adobe/iterator.hpp:139-141, the loop of the constructor: skip the segments which are empty.  `n` is the
number of segments to the end of the range. -/
def skipEmpty (segs : List (List α)) (e : Nat) : Nat → Nat → Option Nat
  | b, 0 => if b == e then some b else none
  | b, n + 1 =>
    if b == e then some b else
    match segLen segs b with
    | none => none
    | some 0 => skipEmpty segs e (b + 1) n
    | some (_ + 1) => some b

/-- models: adobe/iterator.hpp:138-144 `segmented_iterator(first, last)`. -/
def mk (segs : List (List α)) (first last : Nat) : Option Seg :=
  match skipEmpty segs last first (last - first) with
  | none => none
  | some b => if b == last then some ⟨b, last, none⟩ else some ⟨b, last, some (b, 0)⟩

/-- models: adobe/iterator.hpp:176 `dereference`. -/
def deref (segs : List (List α)) (i : Seg) : Option α :=
  match i.cur with
  | none => none
  | some (s, o) => (segs[s]?).bind (fun l => l[o]?)

/-- models: adobe/iterator.hpp:178-186 `equal`; comparing iterators of two different segments, or singular ones, is
undefined. -/
def equal (x y : Seg) : Option Bool :=
  if x.endB == y.endB then
    if x.bucket == y.bucket then
      if x.bucket == x.endB then some true
      else
        match x.cur, y.cur with
        | some (s, o), some (t, p) => if s == t then some (o == p) else none
        | _, _ => none
    else some false
  else some false

/-- models: adobe/iterator.hpp:191-196, the loop of `increment`, when `current_m` is `(s, o)`; `n` is the number of
segments to the end of the range. -/
def incLoop (segs : List (List α)) (e : Nat) : Nat → Nat → Nat × Nat → Option Seg
  | n, b, (s, o) =>
    match segLen segs b with
    | none => none
    | some len =>
      if s == b then
        if o == len then
          if b + 1 == e then some ⟨b + 1, e, some (s, o)⟩
          else
            match n with
            | 0 => none
            | n + 1 => incLoop segs e n (b + 1) (b + 1, 0)
        else some ⟨b, e, some (s, o)⟩
      else none

/-- models: adobe/iterator.hpp:188-197 `increment`: `++current_m` is undefined at the end of the segment. -/
def increment (segs : List (List α)) (i : Seg) : Option Seg :=
  match i.cur with
  | none => none
  | some (s, o) =>
    match segLen segs s with
    | none => none
    | some len => if o < len then incLoop segs i.endB (i.endB - i.bucket) i.bucket (s, o + 1) else none

/-- models: adobe/iterator.hpp:199, the condition of the loop of `decrement`. -/
def decCond (e b : Nat) (c : Option (Nat × Nat)) : Option Bool :=
  if b == e then some true
  else
    match c with
    | none => none
    | some (s, o) => if s == b then some (o == 0) else none

/-- models: adobe/iterator.hpp:204 `--current_m`, after the loop. -/
def decLast (e b : Nat) (c : Option (Nat × Nat)) : Option Seg :=
  match c with
  | none => none
  | some (_, 0) => none
  | some (s, o + 1) => some ⟨b, e, some (s, o)⟩

/-- models: adobe/iterator.hpp:198-205 `decrement`: the loop, then `--current_m`.  `--bucket_m` is undefined at the
first segment, and so `n`, the number of turns, is at most the number of the bucket. -/
def decLoop (segs : List (List α)) (e : Nat) : Nat → Nat → Option (Nat × Nat) → Option Seg
  | 0, b, c =>
    match decCond e b c with
    | some false => decLast e b c
    | _ => none
  | n + 1, b, c =>
    match decCond e b c with
    | none => none
    | some false => decLast e b c
    | some true =>
      match segLen segs (b - 1) with
      | none => none
      | some len => decLoop segs e n (b - 1) (some (b - 1, len))

/-- models: adobe/iterator.hpp:198-205 `decrement`. -/
def decrement (segs : List (List α)) (i : Seg) : Option Seg := decLoop segs i.endB i.bucket i.bucket i.cur

/-- models: adobe/iterator.hpp:209-216 `make_segmented_range`: the iterators of its two ends. -/
def makeRange (segs : List (List α)) : Option (Seg × Seg) :=
  match mk segs 0 segs.length, mk segs segs.length segs.length with
  | some b, some e => some (b, e)
  | _, _ => none

/-- models: adobe/mismatch.hpp:43-54 `mismatch_n`, at the offsets `i` and `j` of two ranges; reading at an end is
undefined. -/
def mismatchN [DecidableEq α] (x y : List α) : Nat → Nat → Nat → Option (Nat × Nat)
  | 0, i, j => some (i, j)
  | n + 1, i, j =>
    match x[i]?, y[j]? with
    | some a, some b => if a == b then mismatchN x y n (i + 1) (j + 1) else some (i, j)
    | _, _ => none

/-- models: adobe/mismatch.hpp:72-84, the general `mismatch` of the ranges `[i, l1)` and `[j, l2)`; `n` bounds the
number of turns. -/
def mismatchGo [DecidableEq α] (x y : List α) (l1 l2 : Nat) : Nat → Nat → Nat → Option (Nat × Nat)
  | n, i, j =>
    if i != l1 then
      if j != l2 then
        match x[i]?, y[j]? with
        | some a, some b =>
          if a == b then
            match n with
            | 0 => none
            | n + 1 => mismatchGo x y l1 l2 n (i + 1) (j + 1)
          else some (i, j)
        | _, _ => none
      else some (i, j)
    else some (i, j)

/-- models: adobe/mismatch.hpp:56-63 and 72-84: `mismatch` of two whole ranges which are not both random access. -/
def mismatchInput [DecidableEq α] (x y : List α) : Option (Nat × Nat) :=
  mismatchGo x y x.length y.length x.length 0 0

/-- models: adobe/mismatch.hpp:56-63 and 86-98: `mismatch` of two whole random access ranges. -/
def mismatchRandom [DecidableEq α] (x y : List α) : Option (Nat × Nat) :=
  if x.length < y.length then mismatchN x y x.length 0 0 else mismatchN x y y.length 0 0

/-- models: adobe/numeric.hpp:60-70, the loop of `max_adjacent_difference`: `res` is the offset of the result, `d` its
difference, `prev` the offset `previous` and `v` the value there.  Values are unbounded integers. -/
def madLoop : List Int → Nat → Int → Nat → Int → Nat
  | [], res, _, _, _ => res
  | w :: rest, res, d, prev, v =>
    if d < w - v then madLoop rest prev (w - v) (prev + 1) w else madLoop rest res d (prev + 1) w

/-- models: adobe/numeric.hpp:43-73 `max_adjacent_difference`: the offset of the result. -/
def maxAdjacentDifference : List Int → Nat
  | [] => 0
  | [_] => 0
  | v :: w :: rest => madLoop rest 0 (w - v) 1 w

/-- models: adobe/iterator.hpp:280-281, 282 `increment`, `decrement` and `advance` of `index_iterator` with its default
index type `std::size_t` and difference type `std::ptrdiff_t` (64 bits): the index. -/
def idxAdvance (i : BitVec 64) (n : Int) : BitVec 64 := i + BitVec.ofInt 64 n

/-- models: adobe/iterator.hpp:284-300 `distance_to`: signed subtraction, undefined when it overflows. -/
def idxDistance (i x : BitVec 64) : Option Int :=
  let d := x.toInt - i.toInt
  if -(2 ^ 63) ≤ d ∧ d < 2 ^ 63 then some d else none

end Verif.Iter
