/-
Model of the sequence algorithms of adobe/algorithm that are not wrappers of one standard
algorithm: reduce.hpp, sorted.hpp, erase_if.hpp, copy.hpp, find.hpp (ranges), filter.hpp, iota.hpp.

A range `[f, l)` is the list of its elements, an iterator is an offset.  Functions that call a
user supplied function object also return the *trace* of the calls, in order, so that the
documented number of applications can be stated.
-/
namespace Verif.Algo

variable {α β : Type}

/-! ### reduce.hpp -/

/-- models: adobe/algorithm/find.hpp:110-114 `find_not` (`std::find_if_not` with
    `equal_to(value, _1)`): the suffix of the range that begins at the returned iterator. -/
def findNot [BEq α] (z : α) : List α → List α
  | [] => []
  | x :: xs => if z == x then findNot z xs else x :: xs

/-- models: adobe/algorithm/reduce.hpp:49-56, the loop of `reduce_nonzeros`.  The second component
    is the list of the calls `op(a, b)`, oldest first. -/
def nonzerosLoop [BEq α] (op : α → α → α) (z : α) : α → List α → α × List (α × α)
  | result, [] => (result, [])
  | result, x :: xs =>
    if x != z then
      let r := nonzerosLoop op z (op result x) xs
      (r.1, (result, x) :: r.2)
    else nonzerosLoop op z result xs

/-- models: adobe/algorithm/reduce.hpp:38-59 `reduce_nonzeros`. -/
def reduceNonzeros [BEq α] (op : α → α → α) (z : α) (xs : List α) : α × List (α × α) :=
  match findNot z xs with
  | [] => (z, [])
  | x :: rest => nonzerosLoop op z x rest

/-- models: adobe/algorithm/reduce.hpp:75-92, the loop of `add_to_counter` over the slots
    `[f, l)`.  Returns the new slots, the value returned and the calls of `op`. -/
def counterLoop [BEq α] (op : α → α → α) (z : α) : List α → α → List α × α × List (α × α)
  | [], x => ([], x, [])
  | s :: ss, x =>
    if s != z then
      let r := counterLoop op z ss (op s x)
      (z :: r.1, r.2.1, (s, x) :: r.2.2)
    else (x :: ss, z, [])

/-- models: adobe/algorithm/reduce.hpp:68-93 `add_to_counter`. -/
def addToCounter [BEq α] (op : α → α → α) (z : α) (v : List α) (x : α) :
    List α × α × List (α × α) :=
  if x == z then (v, z, []) else counterLoop op z v x

/-- models: adobe/algorithm/reduce.hpp:107-114, the loop of `reduce_balanced`; `v` is the local
    `std::vector`.  Returns the vector at the end of the loop and the calls of `op`. -/
def balancedLoop [BEq α] (op : α → α → α) (z : α) : List α → List α → List α × List (α × α)
  | v, [] => (v, [])
  | v, x :: xs =>
    let r := addToCounter op z v x
    let v' := if r.2.1 != z then r.1 ++ [r.2.1] else r.1
    let k := balancedLoop op z v' xs
    (k.1, r.2.2 ++ k.2)

/-- models: adobe/functional.hpp:347-375 `transpose`. -/
def transpose (op : α → α → α) : α → α → α := fun x y => op y x

/-- models: adobe/algorithm/reduce.hpp:102-117 `reduce_balanced`.  The calls made through
    `transpose(op)` are recorded with the arguments `op` receives. -/
def reduceBalanced [BEq α] (op : α → α → α) (z : α) (xs : List α) : α × List (α × α) :=
  let k := balancedLoop op z [] xs
  let r := reduceNonzeros (transpose op) z k.1
  (r.1, k.2 ++ r.2.map Prod.swap)

/-! ### sorted.hpp -/

/-- `std::adjacent_find(f, l, pred)` (not in /repo; the standard's definition): the offset of the
    first element that satisfies `pred` together with its successor, the length if there is none. -/
def adjacentFind (pred : α → α → Bool) : List α → Nat
  | [] => 0
  | [_] => 1
  | a :: b :: t => if pred a b then 0 else adjacentFind pred (b :: t) + 1

/-- models: adobe/algorithm/sorted.hpp:34-44 `sorted(f, l, o)`: the offset returned. -/
def sorted (o : α → α → Bool) (xs : List α) : Nat :=
  let f := adjacentFind (fun a b => !(o a b)) xs
  if f != xs.length then f + 1 else f

/-- models: adobe/algorithm/sorted.hpp:62-69 `is_sorted(f, l, o)` (and, with `less`, 76-79). -/
def isSorted (o : α → α → Bool) (xs : List α) : Bool :=
  adjacentFind (fun a b => !(o a b)) xs == xs.length

/-- models: adobe/algorithm/sorted.hpp:87-95 `is_sorted(f, l, c, p)` (and the range forms 103-121). -/
def isSortedProj (c : β → β → Bool) (p : α → β) (xs : List α) : Bool :=
  adjacentFind (fun a b => !(c (p a) (p b))) xs == xs.length

/-- models: adobe/algorithm/sorted.hpp:128-131 `is_sorted(r)`, that is `std::is_sorted` with
    `less`: no element is less than its predecessor. -/
def isSortedRange (less : α → α → Bool) (xs : List α) : Bool :=
  adjacentFind (fun a b => less b a) xs == xs.length

/-! ### find.hpp and erase_if.hpp -/

/-- models: adobe/algorithm/find.hpp:164-167 `find_if`: the offset found and the elements `pred`
    was applied to. -/
def findIf (p : α → Bool) : List α → Nat × List α
  | [] => (0, [])
  | x :: xs =>
    if p x then (0, [x])
    else
      let r := findIf p xs
      (r.1 + 1, x :: r.2)

/-- models: adobe/algorithm/find.hpp:78-81 `find_if_not`. -/
def findIfNot (p : α → Bool) : List α → Nat × List α
  | [] => (0, [])
  | x :: xs =>
    if p x then
      let r := findIfNot p xs
      (r.1 + 1, x :: r.2)
    else (0, [x])

/-- models: adobe/algorithm/find.hpp:208-216 `find_range_if`: the two offsets and the elements the
    predicate was applied to. -/
def findRangeIf (p : α → Bool) (xs : List α) : Nat × Nat × List α :=
  let a := findIf p xs
  if a.1 != xs.length then
    let b := findIfNot p (xs.drop (a.1 + 1))
    (a.1, a.1 + 1 + b.1, a.2 ++ b.2)
  else (a.1, xs.length, a.2)

/-- models: adobe/algorithm/find.hpp:194-202 `find_range`. -/
def findRange [BEq α] (x : α) (xs : List α) : Nat × Nat :=
  let r := findRangeIf (fun y => y == x) xs
  (r.1, r.2.1)

theorem findRangeIf_end_pos (p : α → Bool) {xs : List α} (h : xs ≠ []) :
    0 < (findRangeIf p xs).2.1 := by
  unfold findRangeIf
  dsimp only
  split
  · simp only; omega
  · simp only; exact List.length_pos_iff.mpr h

/-- models: adobe/algorithm/erase_if.hpp:103-109 `implementation::erase_if` for node based
    containers, with 52-55 (`erase` returns its argument `l`; iterators to other nodes stay valid)
    and 77-79.  The container is `pre ++ rest ++ post` where `rest` is `[f, l)`; an erase removes
    the nodes of the range found and `f` moves past them.  Returns the container and the elements
    the predicate was applied to. -/
def eraseIfNode (p : α → Bool) (pre rest post : List α) : List α × List α :=
  if h : rest = [] then (pre ++ post, [])
  else
    let r := findRangeIf p rest
    let k := eraseIfNode p (pre ++ rest.take r.1) (rest.drop r.2.1) post
    (k.1, r.2.2 ++ k.2)
termination_by rest.length
decreasing_by
  have := findRangeIf_end_pos p h
  have := List.length_pos_iff.mpr h
  simp only [List.length_drop]; omega

/-- `std::remove_if` from the offset `i` to `l` with the write position `w` (not in /repo; the
    standard's algorithm as in libstdc++): elements for which `p` is false are moved down.  Returns
    the sequence, the new end and the elements the predicate was applied to. -/
def removeIfLoop (p : α → Bool) (v : List α) (i w l : Nat) : List α × Nat × List α :=
  if h : i < l then
    match v[i]? with
    | none => (v, w, [])
    | some x =>
      if p x then
        let r := removeIfLoop p v (i + 1) w l
        (r.1, r.2.1, x :: r.2.2)
      else
        let r := removeIfLoop p (v.set w x) (i + 1) (w + 1) l
        (r.1, r.2.1, x :: r.2.2)
  else (v, w, [])
termination_by l - i

/-- models: adobe/algorithm/remove.hpp:50-53 `remove_if`. -/
def removeIf (p : α → Bool) (v : List α) (f l : Nat) : List α × Nat × List α :=
  removeIfLoop p v f f l

/-- `x.erase(f, l)` of a sequence container (not in /repo). -/
def eraseBlock (v : List α) (f l : Nat) : List α := v.take f ++ v.drop l

/-- models: adobe/algorithm/erase_if.hpp:96-100 `implementation::erase_if` for `vector`/`deque`. -/
def eraseIfBlock (p : α → Bool) (v : List α) (f l : Nat) : List α × List α :=
  let r := removeIf p v f l
  (eraseBlock r.1 r.2.1 l, r.2.2)

/-! ### copy.hpp, filter.hpp, iota.hpp -/

/-- models: adobe/algorithm/copy.hpp:145-156 `copy_bounded` for input iterators: `src` is
    `[first, last)`, `dst` the destination container, `[rf, rl)` the destination range.  Writing
    outside of `dst` is undefined behaviour: `none`.  Returns the source offset, the destination
    offset and the destination. -/
def copyBoundedLoop (dst : List α) (rf rl : Nat) (i : Nat) : List α → Option (Nat × Nat × List α)
  | [] => some (i, rf, dst)
  | x :: xs =>
    if rf != rl then
      if rf < dst.length then copyBoundedLoop (dst.set rf x) (rf + 1) rl (i + 1) xs else none
    else some (i, rf, dst)

/-- `std::copy(first, last, result)` (not in /repo). -/
def stdCopy (dst : List α) (rf : Nat) : List α → Option (Nat × List α)
  | [] => some (rf, dst)
  | x :: xs => if rf < dst.length then stdCopy (dst.set rf x) (rf + 1) xs else none

/-- models: adobe/algorithm/copy.hpp:93-98 `copy_n` for random access iterators: `none` if the
    source has fewer than `n` elements. -/
def copyN (src dst : List α) (n rf : Nat) : Option (Nat × Nat × List α) :=
  if n ≤ src.length then
    match stdCopy dst rf (src.take n) with
    | none => none
    | some r => some (n, r.1, r.2)
  else none

/-- models: adobe/algorithm/copy.hpp:77-86 `copy_n` for input iterators. -/
def copyNLoop (src dst : List α) (n rf i : Nat) : Option (Nat × Nat × List α) :=
  match n with
  | 0 => some (i, rf, dst)
  | n + 1 =>
    match src[i]? with
    | none => none
    | some x => if rf < dst.length then copyNLoop src (dst.set rf x) n (rf + 1) (i + 1) else none

/-- models: adobe/algorithm/copy.hpp:131-137 `copy_bounded` for random access iterators. -/
def copyBoundedRA (src dst : List α) (rf rl : Nat) : Option (Nat × Nat × List α) :=
  copyN src dst (min src.length (rl - rf)) rf

/-- models: adobe/algorithm/copy.hpp:187-195 `copy_sentinal`; `src` is the memory from `f` on,
    reading beyond it or writing beyond `dst` is undefined behaviour: `none`. -/
def copySentinal [BEq α] (s : α) (dst : List α) (o : Nat) (i : Nat) :
    List α → Option (Nat × Nat × List α)
  | [] => none
  | x :: xs =>
    if x != s then
      if o < dst.length then copySentinal s (dst.set o x) (o + 1) (i + 1) xs else none
    else some (i, o, dst)

/-- models: adobe/algorithm/filter.hpp:56-65 `implementation::filter`; an output iterator is the
    state `ω` its user function transforms. -/
def filter {ω : Type} (op : α → ω → ω) : ω → List α → ω
  | result, [] => result
  | result, x :: xs => filter op (op x result) xs

/-- models: adobe/algorithm/iota.hpp:53-61 `iota`; `succ` is `++`.  Returns the value and the
    assigned range. -/
def iota (succ : β → β) (value : β) : List β → β × List β
  | [] => (value, [])
  | _ :: xs =>
    let r := iota succ (succ value) xs
    (r.1, value :: r.2)

end Verif.Algo
