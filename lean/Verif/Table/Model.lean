import Verif.Search.Model
/-
Model of adobe/table_index.hpp `table_index`.

The index is a vector of pointers (`ι`) into a table the index does not own; `rows` is the content
of the memory, so that `key p = transform (rows p)` is the C++ `transform_m(*p)`.  An iterator is
an offset into the vector.
-/
namespace Verif.Table

variable {ι ρ κ : Type}

/-- models: adobe/table_index.hpp:797-801 `indirect_compare_t::operator()`. -/
def indirectCompare (rows : ι → ρ) (transform : ρ → κ) (compare : κ → κ → Bool) (x y : ι) : Bool :=
  compare (transform (rows x)) (transform (rows y))

/-- models: adobe/table_index.hpp:909-912 `push_back`. -/
def pushBack (index : List ι) (x : ι) : List ι := index ++ [x]

/-- `vector::insert(pos, x)` (not in /repo). -/
def vecInsert (v : List ι) (pos : Nat) (x : ι) : List ι := v.take pos ++ x :: v.drop pos

/-- models: adobe/table_index.hpp:936-948 `insert(position, first, last)`; `src` holds the addresses
    of the elements of `[first, last)`. -/
def insertRange (index : List ι) (pos : Nat) : List ι → List ι
  | [] => index
  | x :: xs => insertRange (vecInsert index pos x) (pos + 1) xs

/-- models: adobe/table_index.hpp:952-955 and 960-963 `erase`. -/
def eraseRange (index : List ι) (f l : Nat) : List ι := index.take f ++ index.drop l

/-- models: adobe/table_index.hpp:974-977 `sort`.  `std::sort` is not in /repo and leaves the order
    of equivalent elements open: this is its postcondition for `indirect_compare_t`. -/
def SortResult (rows : ι → ρ) (transform : ρ → κ) (compare : κ → κ → Bool)
    (index result : List ι) : Prop :=
  result.Perm index ∧
    result.Pairwise (fun a b => indirectCompare rows transform compare b a = false)

/-- `std::unique(first, last, pred)` (not in /repo; the standard's algorithm): `kept` is the last
    element kept so far, an element is dropped if `pred(kept, element)`. -/
def uniqueLoop (pred : ι → ι → Bool) (kept : ι) : List ι → List ι
  | [] => []
  | x :: xs => if pred kept x then uniqueLoop pred kept xs else x :: uniqueLoop pred x xs

/-- models: adobe/algorithm/unique.hpp:48-51 `unique(first, last, pred)`: the range up to the
    returned iterator. -/
def stdUnique (pred : ι → ι → Bool) : List ι → List ι
  | [] => []
  | x :: xs => x :: uniqueLoop pred x xs

/-- models: adobe/table_index.hpp:981-986 `unique`: the predicate is `indirect_compare_t`. -/
def unique (rows : ι → ρ) (transform : ρ → κ) (compare : κ → κ → Bool) (index : List ι) : List ι :=
  stdUnique (indirectCompare rows transform compare) index

/-- models: adobe/table_index.hpp:1067-1083 `lower_bound`; `none` is a read outside of the vector. -/
def lowerBound (rows : ι → ρ) (transform : ρ → κ) (compare : κ → κ → Bool) (index : List ι)
    (key : κ) : Option Nat :=
  Search.lowerBound index compare (fun p => transform (rows p)) key

/-- models: adobe/table_index.hpp:1087-1103 `upper_bound`. -/
def upperBound (rows : ι → ρ) (transform : ρ → κ) (compare : κ → κ → Bool) (index : List ι)
    (key : κ) : Option Nat :=
  Search.upperBound index compare (fun p => transform (rows p)) key

/-- models: adobe/table_index.hpp:1107-1125 `equal_range`. -/
def equalRange (rows : ι → ρ) (transform : ρ → κ) (compare : κ → κ → Bool) (index : List ι)
    (key : κ) : Option (Nat × Nat) :=
  Search.equalRange index compare (fun p => transform (rows p)) key

/-- models: adobe/table_index.hpp:1033-1055 `find`; `!=` is that of the key type. -/
def find [BEq κ] (rows : ι → ρ) (transform : ρ → κ) (compare : κ → κ → Bool) (index : List ι)
    (key : κ) : Option Nat :=
  match lowerBound rows transform compare index key with
  | none => none
  | some iter =>
    if iter != index.length then
      match index[iter]? with
      | none => none
      | some p => if transform (rows p) != key then some index.length else some iter
    else some iter

/-- Outcome of `operator[]`. -/
inductive At (ι : Type) where
  | found (p : ι)
  | rangeError
  | ub

/-- models: adobe/table_index.hpp:1007-1029 `operator[]`. -/
def at' [BEq κ] (rows : ι → ρ) (transform : ρ → κ) (compare : κ → κ → Bool) (index : List ι)
    (key : κ) : At ι :=
  match find rows transform compare index key with
  | none => .ub
  | some iter =>
    if iter == index.length then .rangeError
    else
      match index[iter]? with
      | none => .ub
      | some p => .found p

end Verif.Table
