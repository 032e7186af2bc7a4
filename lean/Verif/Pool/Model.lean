/-!
Model of the string pool: source/string_pool.cpp, `detail::string_pool_t` (a bump allocator of blocks) and
`adobe::unique_string_pool_t`, over a byte memory with addresses.

Simplifications:
* `std::set<const char*, str_less_t>` is a list of pointers; `find` gives one whose string is equal, as `std::set` promises for an
  order under which the members do not move (`str_less_t` is the lexicographic order of the strings);
* the block that `operator new` gives, and whether it throws, are arguments; so is whether the nodes of the list and of the set can be
  allocated;
* addresses do not wrap around;
* the length of the argument (`strlen`) is an argument; `add` is only looked at when it is right.
-/
namespace Verif.Pool

/-- Bytes at addresses. -/
abbrev Mem := Nat → Nat

/-- `*p = b` -/
def Mem.set (m : Mem) (p b : Nat) : Mem := fun a => if a = p then b else m a

/-- models: source/string_pool.cpp:67-70, 106-107: the members of both classes; a block is its address and its size.  `news`: all that
`operator new` has given to `allocate`; not in the code. -/
structure St where
  news : List Nat
  mem : Mem
  blocks : List (Nat × Nat)
  next : Nat
  end_ : Nat
  store : List Nat

/-- What can happen. -/
inductive Res (α : Type) where
  | ok (x : α) (s : St)
  /-- An exception. -/
  | throw (s : St)
  /-- A write outside of the blocks. -/
  | ub

/-- How the allocations of a call go: the address that `operator new` gives (`none`: it throws), whether `push_back` of the list throws,
whether `insert` of the set throws. -/
structure Env where
  base : Option Nat
  pushThrows : Bool
  insertThrows : Bool

/-- A write through a pointer into the pool. -/
def St.write (s : St) (p b : Nat) : Option St :=
  if s.blocks.any fun k => decide (k.1 ≤ p ∧ p < k.1 + k.2) then some { s with mem := s.mem.set p b } else none

/-- models: source/string_pool.cpp:49-57: the part of `allocate` that sees to it that there is room; the value is of no use. -/
def room (poolSize : Nat) (s : St) (length : Nat) (e : Env) : Res Unit :=
  let full := length + 1
  if s.end_ - s.next < full then
    match e.base with
    | none => .throw s
    | some b =>
      let size := max poolSize full
      let s := { s with news := b :: s.news }
      if e.pushThrows then .throw s
      else .ok () { s with blocks := s.blocks ++ [(b, size)], next := b, end_ := b + size }
  else .ok () s

/-- models: source/string_pool.cpp:48-65 `allocate`. -/
def allocate (poolSize : Nat) (s : St) (length : Nat) (e : Env) : Res Nat :=
  match room poolSize s length e with
  | .throw s => .throw s
  | .ub => .ub
  | .ok _ s =>
    let result := s.next
    match s.write (s.next + length) 0 with
    | none => .ub
    | some s => .ok result { s with next := s.next + length + 1 }

/-- models: adobe/algorithm/copy.hpp:76-114 `copy_n`. -/
def copyN (s : St) (src : Nat) : Nat → Nat → Option St
  | 0, _ => some s
  | n + 1, dst =>
    match s.write dst (s.mem src) with
    | none => none
    | some s => copyN s (src + 1) n (dst + 1)

/-- models: source/string_pool.cpp:37-45 `string_pool_t::add`. -/
def poolAdd (poolSize : Nat) (s : St) (ident n : Nat) (e : Env) : Res Nat :=
  match allocate poolSize s n e with
  | .ok result s =>
    match copyN s ident n result with
    | none => .ub
    | some s => .ok result s
  | r => r

/-- `strcmp(q, p) == 0`, for a string of length `n` at `p`. -/
def same (m : Mem) (q p n : Nat) : Bool := (List.range (n + 1)).all fun i => m (q + i) == m (p + i)

/-- models: source/string_pool.cpp:89-101 `unique_string_pool_t::add`; `empty`: the address of `detail::empty_string_s()`. -/
def add (poolSize empty : Nat) (s : St) (str n : Nat) (e : Env) : Res Nat :=
  if str = 0 ∨ s.mem str = 0 then .ok empty s
  else
    match s.store.find? fun q => same s.mem q str n with
    | some q => .ok q s
    | none =>
      match poolAdd poolSize s str n e with
      | .ok q s => if e.insertThrows then .throw s else .ok q { s with store := q :: s.store }
      | r => r

/-- models: source/string_pool.cpp:32-33, 85: a new pool. -/
def St.new (m : Mem) : St := ⟨[], m, [], 0, 0, []⟩

/-- models: source/string_pool.cpp:35 `~string_pool_t`: what is given back. -/
def St.freed (s : St) : List Nat := s.blocks.map (·.1)

end Verif.Pool
