import Verif.Permute.Model
/-
Model of adobe/selection.hpp and adobe/algorithm/selection_algorithms.hpp.

Simplifications: boundaries are `Nat` (the code uses std::size_t; indices are assumed below 2^64 - 1);
comparators are `std::less` as in the selection_t wrappers; forming an iterator past the end of a range, reading past
a sequence, or a violated `assert` is the outcome `none`.
-/
namespace Verif.Selection

/-- models: adobe/selection.hpp:139-143 (data members). -/
structure Sel where
  start : Bool
  bounds : List Nat
deriving DecidableEq, Repr

/-- models: adobe/selection.hpp:99 `size()` -/
def Sel.size (s : Sel) : Nat := s.bounds.length

/-- models: adobe/selection.hpp:102 `empty()` -/
def Sel.empty (s : Sel) : Bool := s.bounds.isEmpty && s.start == false

/-- models: adobe/selection.hpp:106-110 `push_back` (assert strictly increasing). -/
def Sel.push (s : Sel) (x : Nat) : Option Sel :=
  match s.bounds.getLast? with
  | none => some { s with bounds := s.bounds ++ [x] }
  | some y => if y < x then some { s with bounds := s.bounds ++ [x] } else none

/-- models: adobe/selection.hpp:124 `invert` -/
def Sel.invert (s : Sel) : Sel := { s with start := !s.start }

/-- `std::back_inserter` on a selection: push_back of each output element in turn. -/
def Sel.pushAll (s : Sel) : List Nat → Option Sel
  | [] => some s
  | x :: xs => match s.push x with
    | none => none
    | some s' => s'.pushAll xs

/-- `std::equal(f1, l1, f2)`: running off the second sequence is UB. -/
def equalWalk : List Nat → List Nat → Option Bool
  | [], _ => some true
  | _ :: _, [] => none
  | x :: xs, y :: ys => if x = y then equalWalk xs ys else some false

/-- models: adobe/selection.hpp:131-133 `operator==` (start_selected is not compared). -/
def Sel.eq (x y : Sel) : Option Bool :=
  if x.size = y.size then equalWalk x.bounds y.bounds else some false

/-- models: adobe/algorithm/selection_algorithms.hpp:62-73, the loop of `selection_operation_remainder`. -/
def remainderLoop (pred : Bool → Bool → Bool) (other : Bool) : List Nat → Bool → Bool → List Nat
  | [], _, _ => []
  | x :: xs, this, prev =>
    let this' := !this
    let cur := pred this' other
    (if prev ≠ cur then [x] else []) ++ remainderLoop pred other xs this' cur

/-- models: adobe/algorithm/selection_algorithms.hpp:54-76 `selection_operation_remainder`. -/
def remainder (l : List Nat) (this other : Bool) (pred : Bool → Bool → Bool) : List Nat :=
  remainderLoop pred other l this (pred this other)

/-- models: adobe/algorithm/selection_algorithms.hpp:114-143, the `while (true)` loop of `selection_operation`.
    Both sequences are non-empty on every entry in the code; the empty cases are the two `return`s. -/
def opLoop (pred : Bool → Bool → Bool) : List Nat → List Nat → Bool → Bool → Bool → List Nat
  | [], s2, in1, in2, _ => remainder s2 in2 in1 pred
  | x :: xs, [], in1, in2, _ => remainder (x :: xs) in1 in2 pred
  | x :: xs, y :: ys, in1, in2, prev =>
    let next := if x < y then x else y
    let in1' := if x = next then !in1 else in1
    let in2' := if y = next then !in2 else in2
    let cur := pred in1' in2'
    (if prev ≠ cur then [next] else []) ++
      (if x = next then
        (if y = next then opLoop pred xs ys in1' in2' cur else opLoop pred xs (y :: ys) in1' in2' cur)
      else
        (if _h : y = next then opLoop pred (x :: xs) ys in1' in2' cur else []))
termination_by s1 s2 => s1.length + s2.length

/-- models: adobe/algorithm/selection_algorithms.hpp:99-146 `selection_operation`. -/
def operation (s1 s2 : List Nat) (in1 in2 : Bool) (pred : Bool → Bool → Bool) : List Nat :=
  match s1, s2 with
  | [], s2 => remainder s2 in2 in1 pred
  | s1, [] => remainder s1 in1 in2 pred
  | s1, s2 => opLoop pred s1 s2 in1 in2 (pred in1 in2)

/-- models: adobe/algorithm/selection_algorithms.hpp:154-163 `selection_union` (iterators) -/
def unionI (s1 s2 : List Nat) (in1 in2 : Bool) : List Nat := operation s1 s2 in1 in2 or
/-- models: adobe/algorithm/selection_algorithms.hpp:171-180 `selection_intersection` (iterators) -/
def interI (s1 s2 : List Nat) (in1 in2 : Bool) : List Nat := operation s1 s2 in1 in2 and
/-- models: adobe/algorithm/selection_algorithms.hpp:188-197 `selection_difference` (iterators) -/
def diffI (s1 s2 : List Nat) (in1 in2 : Bool) : List Nat := interI s1 s2 in1 (!in2)
/-- models: adobe/algorithm/selection_algorithms.hpp:205-214 `selection_symmetric_difference` (iterators) -/
def symI (s1 s2 : List Nat) (in1 in2 : Bool) : List Nat := operation s1 s2 in1 in2 bne

/-- models: adobe/algorithm/selection_algorithms.hpp:222-245 `selection_includes` (iterators): `boost::next` of an end
    iterator and `std::equal` running off `result` are UB. -/
def includesI (s1 s2 : List Nat) (in1 in2 : Bool) : Option Bool :=
  if in1 = in2 then equalWalk s2 (interI s1 s2 in1 in2)
  else if in1 then
    match s1 with
    | [] => none
    | _ :: t => equalWalk s2 (interI t s2 (!in1) in2)
  else
    match s2 with
    | [] => none
    | _ :: t => equalWalk t (interI s1 t in1 (!in2))

/-- models: adobe/algorithm/selection_algorithms.hpp:253-266 `selection_intersection`; `same` is `&x == &y`. -/
def inter (same : Bool) (x y : Sel) : Option Sel :=
  if same then some x
  else (Sel.mk (x.start && y.start) []).pushAll (interI x.bounds y.bounds x.start y.start)

/-- models: adobe/algorithm/selection_algorithms.hpp:274-286 `selection_union` -/
def union (same : Bool) (x y : Sel) : Option Sel :=
  if same then some x
  else (Sel.mk (x.start || y.start) []).pushAll (unionI x.bounds y.bounds x.start y.start)

/-- models: adobe/algorithm/selection_algorithms.hpp:294-306 `selection_difference`
    (the result's polarity is `start(x) != start(y)`, as written in the code). -/
def diff (same : Bool) (x y : Sel) : Option Sel :=
  if same then some ⟨false, []⟩
  else (Sel.mk (x.start != y.start) []).pushAll (diffI x.bounds y.bounds x.start y.start)

/-- models: adobe/algorithm/selection_algorithms.hpp:314-327 `selection_symmetric_difference` -/
def sym (same : Bool) (x y : Sel) : Option Sel :=
  if same then some ⟨false, []⟩
  else (Sel.mk (x.start != y.start) []).pushAll (symI x.bounds y.bounds x.start y.start)

/-- models: adobe/algorithm/selection_algorithms.hpp:335-343 `selection_includes` -/
def includes (same : Bool) (x y : Sel) : Option Bool :=
  if same then some true else includesI x.bounds y.bounds x.start y.start

/-- models: adobe/algorithm/selection_algorithms.hpp:431-438 `is_selected`; `std::upper_bound` on a sorted range
    is the length of the prefix of elements not greater than `index`. -/
def isSelected (x : Sel) (index : Nat) : Bool :=
  let count := (x.bounds.takeWhile (fun b => decide (b ≤ index))).length
  (decide (count % 2 = 1)) != x.start

/-- models: adobe/algorithm/selection_algorithms.hpp:396-420, the loop of `size(selection, range)`.
    `bs` = [s_iter, s_last) ; positions are offsets in a range of length `len`. -/
def sizeLoop (len : Nat) : List Nat → Nat → Nat → Bool → Nat → Option Nat
  | bs, prev, iter, inside, result =>
    if len < iter then none else
    let result := if inside then result + (iter - prev) else result
    if iter = len then some result
    else match bs with
      | [] => none
      | [_] => sizeLoop len [] iter len (!inside) result
      | _ :: b :: bs => sizeLoop len (b :: bs) iter b (!inside) result
termination_by bs => bs.length

/-- models: adobe/algorithm/selection_algorithms.hpp:384-423 `size(selection, range)`. -/
def sizeIn {α : Type} (x : Sel) (range : List α) : Option Nat :=
  if x.empty then some 0
  else if x.size = 0 then some range.length
  else match x.bounds with
    | [] => none
    | b :: bs => sizeLoop range.length (b :: bs) 0 b x.start 0

/-- models: adobe/algorithm/selection_algorithms.hpp:464-475, the loop of `selection_copy` (and :549-560 of
    `selection_foreach`); `rest` is [iter, last), `pos` the offset of `iter`, `len` the size of the range. -/
def copyLoop {α : Type} (len : Nat) : List α → Nat → List Nat → Bool → Option (List α)
  | [], _, _, _ => some []
  | v :: vs, pos, bs, inside =>
    match bs with
    | [] => (copyLoop len vs (pos + 1) [] inside).map (fun r => if inside then v :: r else r)
    | b :: bs' =>
      if len < b then none
      else if pos = b then
        (copyLoop len vs (pos + 1) bs' (!inside)).map (fun r => if !inside then v :: r else r)
      else (copyLoop len vs (pos + 1) (b :: bs') inside).map (fun r => if inside then v :: r else r)

/-- models: adobe/algorithm/selection_algorithms.hpp:447-478 `selection_copy` (the written elements). -/
def copy {α : Type} (x : Sel) (range : List α) : Option (List α) :=
  if range.length = 0 then some [] else copyLoop range.length range 0 x.bounds x.start

/-- models: adobe/algorithm/selection_algorithms.hpp:536-563 `selection_foreach` (the sequence of calls). -/
def foreach {α : Type} (x : Sel) (range : List α) : Option (List α) :=
  copyLoop range.length range 0 x.bounds x.start

/-- An output iterator: `append` is a back_inserter (a copy of it keeps appending), `raw` is an ordinary
    iterator at the start of a buffer: `std::copy(f, l, out)` does not advance the caller's copy. -/
inductive OutKind | append | raw
deriving DecidableEq

/-- `std::copy(seg, out)` with the returned iterator dropped. -/
def writeSeg {α : Type} (k : OutKind) (out seg : List α) : List α :=
  match k with
  | .append => out ++ seg
  | .raw => seg ++ out.drop seg.length

/-- models: adobe/algorithm/selection_algorithms.hpp:505-525, the loop of `selection_partition_copy`.
    `outF`, `outT` are the contents of the two destinations so far. -/
def partLoop {α : Type} (k : OutKind) (range : List α) :
    List Nat → Nat → Bool → List α → List α → Option (List α × List α)
  | bs, first, inside, outF, outT =>
    let copyLast := match bs with | [] => range.length | b :: _ => b
    if range.length < copyLast then none else
    let seg := (range.drop first).take (copyLast - first)
    let outT := if inside then writeSeg k outT seg else outT
    let outF := if inside then outF else writeSeg k outF seg
    if copyLast = range.length then some (outF, outT)
    else match bs with
      | [] => none
      | _ :: bs => partLoop k range bs copyLast (!inside) outF outT
termination_by bs => bs.length

/-- models: adobe/algorithm/selection_algorithms.hpp:486-528 `selection_partition_copy`
    (contents of false_output and true_output, both initially empty). -/
def partitionCopy {α : Type} (k : OutKind) (x : Sel) (range : List α) : Option (List α × List α) :=
  if range.length = 0 then some ([], [])
  else partLoop k range x.bounds 0 x.start [] []

/-- models: adobe/algorithm/selection_algorithms.hpp:571-611 and :632-645 `selection_find_boundary`
    (both the lower_bound and the linear version): position of, and number of boundaries before, the first boundary
    not less than `p`. -/
def findBoundary (x : Sel) (p : Nat) : Nat :=
  if x.size = 0 then 0 else (x.bounds.takeWhile (fun b => decide (b < p))).length

/-- models: adobe/algorithm/selection_algorithms.hpp:679-701 `selection_stable_partition` (iterators).
    The argument `first` of the code is offset 0 of `l`. -/
def stablePartitionI {α : Type} (l : List α) (sel : List Nat) (rangeFirst rangeLast bc : Nat) :
    Option (List α × Nat) :=
  match sel with
  | [] => some (l, if bc % 2 = 1 then rangeFirst else rangeLast)
  | s :: ss =>
    let half := (s :: ss).length / 2
    match (s :: ss)[half]? with
    | none => none
    | some rm =>
      if l.length < rm then none else
      match stablePartitionI l ((s :: ss).take half) rangeFirst rm bc with
      | none => none
      | some (l1, i) =>
        match stablePartitionI l1 ((s :: ss).drop (half + 1)) rm rangeLast (bc + half + 1) with
        | none => none
        | some (l2, j) =>
          match Permute.rotate l2 i rm j with
          | none => none
          | some (l3, p) => some (l3, Permute.otherOf p rm)
termination_by sel.length
decreasing_by
  all_goals simp
  all_goals omega

/-- models: adobe/algorithm/selection_algorithms.hpp:709-715 `selection_stable_partition`. -/
def stablePartition {α : Type} (x : Sel) (l : List α) : Option (List α × Nat) :=
  stablePartitionI l x.bounds 0 l.length (if x.start then 1 else 0)

/-- models: adobe/algorithm/selection_algorithms.hpp:753-777 `selection_stable_partition_about`. -/
def stablePartitionAbout {α : Type} (x : Sel) (l : List α) (p prior : Nat) : Option (List α × Nat × Nat) :=
  let k := findBoundary x p
  if l.length < p then none else
  match stablePartitionI l (x.bounds.take k) 0 p prior with
  | none => none
  | some (l1, i) =>
    match stablePartitionI l1 (x.bounds.drop k) p l.length (k + 1) with
    | none => none
    | some (l2, j) => some (l2, i, j)

/-- models: adobe/algorithm/selection_algorithms.hpp:797-804 `find_sequence_end`. -/
def findSequenceEnd : List Nat → Nat → List Nat × Nat
  | [], n => ([], n)
  | f :: fs, n => if n = f then findSequenceEnd fs (n + 1) else (f :: fs, n)

theorem findSequenceEnd_length (l : List Nat) (n : Nat) : (findSequenceEnd l n).1.length ≤ l.length := by
  induction l generalizing n with
  | nil => simp [findSequenceEnd]
  | cons f fs ih =>
    unfold findSequenceEnd; split
    · exact Nat.le_succ_of_le (ih _)
    · simp

/-- models: adobe/algorithm/selection_algorithms.hpp:818-829 `index_set_to_selection` (iterators). -/
def indexSetBounds : List Nat → List Nat
  | [] => []
  | f :: fs => f :: (findSequenceEnd fs (f + 1)).2 :: indexSetBounds (findSequenceEnd fs (f + 1)).1
termination_by l => l.length
decreasing_by have := findSequenceEnd_length fs (f + 1); simp; omega

/-- models: adobe/algorithm/selection_algorithms.hpp:864-872 `index_set_to_selection`. -/
def indexSetToSelection (l : List Nat) : Option Sel := (Sel.mk false []).pushAll (indexSetBounds l)

/-- models: adobe/algorithm/selection_algorithms.hpp:902-907, the inner `while (index != *iter && index != max_index)`.
    Recursion on the distance to `max_index` (the loop starts with `index ≤ max_index`). -/
def emitUntil (stop maxIndex : Nat) (selected : Bool) (index : Nat) : List Nat × Nat :=
  if _h : index ≠ stop ∧ index < maxIndex then
    let r := emitUntil stop maxIndex selected (index + 1)
    (if selected then index :: r.1 else r.1, r.2)
  else ([], index)
termination_by maxIndex - index

/-- models: adobe/algorithm/selection_algorithms.hpp:901-915, outer loop and tail of `selection_to_index_set`. -/
def toIndexLoop (maxIndex : Nat) : List Nat → Bool → Nat → List Nat
  | [], selected, index => if selected then (emitUntil maxIndex maxIndex true index).1 else []
  | b :: bs, selected, index =>
    let r := emitUntil b maxIndex selected index
    r.1 ++ toIndexLoop maxIndex bs (!selected) r.2

/-- models: adobe/algorithm/selection_algorithms.hpp:889-918 `selection_to_index_set`. -/
def toIndexSet (x : Sel) (maxIndex : Nat) : List Nat := toIndexLoop maxIndex x.bounds x.start 0

end Verif.Selection
