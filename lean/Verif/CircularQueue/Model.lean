/-
Model of adobe/circular_queue.hpp.

Iterators into the vector are offsets.  A violated `assert`, an access outside of the vector or a decrement
below the first element is the outcome `none`.  `d` is the value-initialised `T()`.
-/
namespace Verif.CircularQueue

/-- models: adobe/circular_queue.hpp:288-295 (data members `container_m`, `begin_m`, `end_m`, `is_empty_m`). -/
structure CQ (α : Type) where
  buf : List α
  b : Nat
  e : Nat
  isEmpty : Bool
deriving DecidableEq, Repr

variable {α : Type}

/-- models: adobe/circular_queue.hpp:329-332 (constructor). -/
def mk (d : α) (cap : Nat) : CQ α := ⟨List.replicate cap d, 0, 0, true⟩

/-- models: adobe/circular_queue.hpp:247-248 `capacity` / `max_size`. -/
def CQ.capacity (q : CQ α) : Nat := q.buf.length

/-- models: adobe/circular_queue.hpp:250 `empty`. -/
def CQ.empty (q : CQ α) : Bool := q.isEmpty

/-- models: adobe/circular_queue.hpp:251 `full`. -/
def CQ.full (q : CQ α) : Bool := !q.isEmpty && q.b == q.e

/-- models: adobe/circular_queue.hpp:253-256 `clear`. -/
def CQ.clear (q : CQ α) : CQ α := { q with b := q.e, isEmpty := true }

/-- models: adobe/circular_queue.hpp:359-371 `front` (assert `!empty()`, dereference of `begin_m`). -/
def CQ.front (q : CQ α) : Option α := if q.isEmpty then none else q.buf[q.b]?

/-- models: adobe/circular_queue.hpp:375-387 `push_back`; `*end_m = x` outside of the vector is UB. -/
def CQ.push (q : CQ α) (x : α) : Option (CQ α) :=
  if q.e < q.buf.length then
    let wasFull := q.full
    let buf := q.buf.set q.e x
    let e := if q.e + 1 = buf.length then 0 else q.e + 1
    some { buf := buf, e := e, b := if wasFull then e else q.b, isEmpty := false }
  else none

/-- models: adobe/circular_queue.hpp:391-397 `pop_front`. Incrementing a past-the-end `begin_m` is UB. -/
def CQ.pop (q : CQ α) : Option (CQ α) :=
  if q.isEmpty then none
  else if q.b < q.buf.length then
    let b := if q.b + 1 = q.buf.length then 0 else q.b + 1
    some { q with b := b, isEmpty := b == q.e }
  else none

/-- models: adobe/circular_queue.hpp:401-408 `putback`. -/
def CQ.putback (q : CQ α) : Option (CQ α) :=
  if q.full then none
  else
    let b := if q.b = 0 then q.buf.length else q.b
    if b = 0 then none else some { q with b := b - 1, isEmpty := false }

/-- models: adobe/circular_queue.hpp:412-418 `size`. -/
def CQ.size (q : CQ α) : Nat :=
  if q.b < q.e then q.e - q.b else if q.isEmpty then 0 else q.capacity - (q.b - q.e)

/-- The elements denoted by an iterator pair. -/
def slice (l : List α) (f e : Nat) : List α := (l.drop f).take (e - f)

/-- models: adobe/circular_queue.hpp:301-304 `first_range`. -/
def CQ.firstRange (q : CQ α) : List α := slice q.buf q.b (if q.b < q.e then q.e else q.buf.length)

/-- models: adobe/circular_queue.hpp:306-309 `second_range`. -/
def CQ.secondRange (q : CQ α) : List α := slice q.buf (if q.b < q.e then q.e else 0) q.e

/-- `std::copy(src, dst_begin + pos)`: writes outside of the destination are UB. -/
def copyInto (dst : List α) (pos : Nat) : List α → Option (List α × Nat)
  | [] => some (dst, pos)
  | x :: xs => if pos < dst.length then copyInto (dst.set pos x) (pos + 1) xs else none

/-- models: adobe/circular_queue.hpp:339-349 (copy constructor). -/
def CQ.copy (d : α) (q : CQ α) : Option (CQ α) :=
  let buf := List.replicate q.capacity d
  if q.isEmpty then some ⟨buf, 0, 0, true⟩
  else
    match copyInto buf 0 q.firstRange with
    | none => none
    | some (buf, e) =>
      match copyInto buf e q.secondRange with
      | none => none
      | some (buf, e) => some ⟨buf, 0, e, false⟩

/-- `std::equal(first1, last1, first2)`: stops at the first mismatch; running off the second sequence is UB. -/
def equalWalk [DecidableEq α] : List α → List α → Option Bool
  | [], _ => some true
  | _ :: _, [] => none
  | x :: xs, y :: ys => if x = y then equalWalk xs ys else some false

/-- models: adobe/circular_queue.hpp:422-439 `operator==`; the segmented iterators (adobe/iterator.hpp:57-130)
    enumerate the concatenation of the two ranges. -/
def CQ.eq [DecidableEq α] (x y : CQ α) : Option Bool :=
  if x.size ≠ y.size then some false
  else equalWalk (x.firstRange ++ x.secondRange) (y.firstRange ++ y.secondRange)

/-- Client operations. -/
inductive Op (α : Type) where
  | push (x : α)
  | pop
  | putback
  | clear

def step (q : CQ α) : Op α → Option (CQ α)
  | .push x => q.push x
  | .pop => q.pop
  | .putback => q.putback
  | .clear => some q.clear

def run (q : CQ α) : List (Op α) → Option (CQ α)
  | [] => some q
  | o :: os => match step q o with
    | none => none
    | some q' => run q' os

/-- What a client can observe of a queue. -/
structure Obs (α : Type) where
  front : Option α
  size : Nat
  empty : Bool
  full : Bool
  capacity : Nat
deriving DecidableEq

def obs (q : CQ α) : Obs α := ⟨q.front, q.size, q.empty, q.full, q.capacity⟩

end Verif.CircularQueue
