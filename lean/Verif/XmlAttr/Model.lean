import Verif.Search.Model
/-!
Model of `attribute_set_t` (adobe/xml_parser.hpp:44-401) and of the comparisons of token ranges
(adobe/implementation/lex_shared_fwd.hpp:62-232).

A pointer is an address, and memory maps addresses to bytes; it does not change while the ranges are in use (the ranges do
not own their text).  Simplifications: a range has `first ≤ second`; `copy_on_write<set_type>` is the value it holds
(component Cow); `std::set_union` and `std::set_intersection` are modelled by the loops that the C++ standard describes;
`std::size_t` does not overflow.
-/
namespace Verif.XmlAttr

/-- The bytes at all addresses. -/
abbrev Mem := Nat → Nat

/-- models: adobe/implementation/lex_shared_fwd.hpp:144 `token_range_t`, a pair of pointers.  The derived equality is that
of `std::pair`: it compares the pointers. -/
structure Tok where
  first : Nat
  second : Nat
  deriving DecidableEq, Repr

/-- `token_range_t()`. -/
def Tok.null : Tok := ⟨0, 0⟩

/-- models: lex_shared_fwd.hpp:160-162 `token_range_size`. -/
def Tok.size (r : Tok) : Nat := r.second - r.first

/-- The characters of a range. -/
def Tok.text (mem : Mem) (r : Tok) : List Nat := (List.range' r.first r.size).map mem

/-- models: lex_shared_fwd.hpp:62-70 `bounded_equal` with `std::equal_to`; a range of the remaining elements is its first
address and their number. -/
def boundedEqual (mem : Mem) : Nat → Nat → Nat → Nat → Bool
  | f1, n1 + 1, f2, n2 + 1 => if mem f1 = mem f2 then boundedEqual mem (f1 + 1) n1 (f2 + 1) n2 else false
  | _, n1, _, n2 => n1 == 0 && n2 == 0

/-- models: lex_shared_fwd.hpp:181-183 `token_range_equal`. -/
def tokenRangeEqual (mem : Mem) (x y : Tok) : Bool :=
  x.size == y.size && boundedEqual mem x.first x.size y.first y.size

/-- models: `std::mismatch(first1, last1, first2)` (adobe/algorithm/mismatch.hpp): the two addresses where it stops, for a
first range of `n` elements. -/
def mismatch (mem : Mem) : Nat → Nat → Nat → Nat × Nat
  | 0, f1, f2 => (f1, f2)
  | n + 1, f1, f2 => if mem f1 = mem f2 then mismatch mem n (f1 + 1) (f2 + 1) else (f1, f2)

/-- models: lex_shared_fwd.hpp:210-227 `token_range_less`. -/
def tokenRangeLess (mem : Mem) (x y : Tok) : Bool :=
  if x.size < y.size then true
  else if y.size < x.size then false
  else
    let diff := mismatch mem x.size x.first y.first
    if diff.1 == x.first + x.size then false
    else decide (mem diff.1 < mem diff.2)

/-- models: adobe/xml_parser.hpp:49 `value_type`: name and value. -/
abbrev Attr := Tok × Tok

/-- models: adobe/xml_parser.hpp:61-66 `less_t`. -/
def less (mem : Mem) (x y : Attr) : Bool :=
  tokenRangeLess mem x.1 y.1 || (!tokenRangeLess mem y.1 x.1 && tokenRangeLess mem x.2 y.2)

/-- models: adobe/xml_parser.hpp:73-77 `less_key_only_t`. -/
def lessKeyOnly (mem : Mem) (x y : Attr) : Bool := tokenRangeLess mem x.1 y.1

/-- models: adobe/xml_parser.hpp:90-94, 114-118 `lower_bound`: position and whether the name is there; `none`: a read
outside of the vector. -/
def lowerBound (mem : Mem) (set : List Attr) (a : Attr) : Option (Nat × Bool) :=
  match Search.lowerBound set (lessKeyOnly mem) id a with
  | none => none
  | some r =>
    if r = set.length then some (r, false)
    else match set[r]? with
      | none => none
      | some v => some (r, tokenRangeEqual mem v.1 a.1)

/-- models: adobe/xml_parser.hpp:135-142 `operator[]`. -/
def lookup (mem : Mem) (set : List Attr) (key : Tok) : Option Tok :=
  match lowerBound mem set (key, .null) with
  | none => none
  | some (r, true) => set[r]?.map (·.2)
  | some (_, false) => some .null

/-- models: adobe/xml_parser.hpp:179-186 `insert`: an attribute that is there keeps its name (range) and gets the new
value. -/
def insert (mem : Mem) (set : List Attr) (a : Attr) : Option (List Attr) :=
  match lowerBound mem set a with
  | none => none
  | some (r, true) =>
    match set[r]? with
    | none => none
    | some v => some (set.set r (v.1, a.2))
  | some (r, false) => some (set.insertIdx r a)

/-- models: adobe/xml_parser.hpp:200-203 `insert(first, last)`. -/
def insertAll (mem : Mem) (set : List Attr) : List Attr → Option (List Attr)
  | [] => some set
  | a :: as => match insert mem set a with
    | none => none
    | some s => insertAll mem s as

/-- models: `std::set_union` ([set.union]). -/
def setUnion {α : Type} (lt : α → α → Bool) : List α → List α → List α
  | [], ys => ys
  | xs, [] => xs
  | x :: xs, y :: ys =>
    if lt x y then x :: setUnion lt xs (y :: ys)
    else if lt y x then y :: setUnion lt (x :: xs) ys
    else x :: setUnion lt xs ys
termination_by xs ys => xs.length + ys.length

/-- models: `std::set_intersection` ([set.intersection]). -/
def setIntersection {α : Type} (lt : α → α → Bool) : List α → List α → List α
  | [], _ => []
  | _, [] => []
  | x :: xs, y :: ys =>
    if lt x y then setIntersection lt xs (y :: ys)
    else if lt y x then setIntersection lt (x :: xs) ys
    else x :: setIntersection lt xs ys
termination_by xs ys => xs.length + ys.length

/-- models: adobe/xml_parser.hpp:159-167 `merge`. -/
def merge (mem : Mem) (set other : List Attr) : List Attr := setUnion (lessKeyOnly mem) set other

/-- models: adobe/xml_parser.hpp:345-369 `count_same`, with adobe/iterator.hpp:49-83 `counting_output_iterator`, which
counts what is written to it. -/
def countSame (mem : Mem) (set other : List Attr) (mappedMatters : Bool) : Nat :=
  (setIntersection (if mappedMatters then less mem else lessKeyOnly mem) set other).length

/-- models: adobe/xml_parser.hpp:306-308 `operator==`. -/
def equal (mem : Mem) (x y : List Attr) : Bool := x.length == y.length && countSame mem x y true == x.length

/-- models: adobe/xml_parser.hpp:373-387 `has_collisions`. -/
def hasCollisions (mem : Mem) (other : List Attr) : List Attr → Option Bool
  | [] => some false
  | a :: rest =>
    match lowerBound mem other a with
    | none => none
    | some (_, false) => hasCollisions mem other rest
    | some (r, true) =>
      match other[r]? with
      | none => none
      | some v => if !tokenRangeEqual mem v.2 a.2 then some true else hasCollisions mem other rest

/-- models: adobe/xml_parser.hpp:391-404 `count_collisions`: the values are compared with `!=` of `std::pair`, that is, the
pointers are. -/
def countCollisions (mem : Mem) (other : List Attr) : List Attr → Option Nat
  | [] => some 0
  | a :: rest =>
    match lowerBound mem other a with
    | none => none
    | some (_, false) => countCollisions mem other rest
    | some (r, true) =>
      match other[r]? with
      | none => none
      | some v =>
        match countCollisions mem other rest with
        | none => none
        | some n => some (if v.2 ≠ a.2 then n + 1 else n)

end Verif.XmlAttr
