import Verif.Name.Spec
import Verif.Fnv.Model
/-
Model of adobe/name.hpp, source/name.cpp and source/string_pool.cpp, for 64 bit `size_t`.

Memory is a function from addresses to bytes.  The empty string literal is at address 0; `operator new` returns any block of
addresses that is not in use (it does not fail).  `map_string` holds a mutex all the time, so interleaved calls are calls one
after the other.  `std::unordered_map` is a list of pairs and `std::set` a list of pointers, searched by key equality and by
equality of the strings, which is what the order of str_less_t (adobe/string.hpp:53-61) makes of two strings that are not less
than one another.
-/
namespace Verif.Name
open Spec (Str)

structure St where
  mem : Nat → BitVec 8
  /-- `pool_m` (source/string_pool.cpp:65): the chunks, with their sizes -/
  chunks : List (Nat × Nat)
  next : Nat
  «end» : Nat
  /-- `store_m` (source/string_pool.cpp:104) -/
  store : List Nat
  /-- `map_s` (source/name.cpp:73) -/
  map : List (Nat × Nat)

/-- source/string_pool.cpp:33 -/
def St.init : St := ⟨fun _ => 0, [], 0, 0, [], []⟩

/-- models: adobe/name.hpp:64-77 `name_hash`, with `char` signed or not. -/
def nameHash (signed : Bool) (s : Str) : Nat := (Fnv.loopRange signed (BitVec.ofNat 64 0x100000001b3) (BitVec.ofNat 64 0xcbf29ce484222325) s).toNat

def write (mem : Nat → BitVec 8) (a : Nat) (b : BitVec 8) : Nat → BitVec 8 := fun x => if x = a then b else mem x

/-- models: source/string_pool.cpp:42 `copy_n`. -/
def copyN (mem : Nat → BitVec 8) (a : Nat) : Str → (Nat → BitVec 8)
  | [] => mem
  | c :: cs => copyN (write mem a c) (a + 1) cs

/-- models: source/string_pool.cpp:28 `default_pool_size_k`. -/
def poolSize : Nat := 1024 * 4

/-- the block `[base, base + size)` is not in use -/
def fresh (chunks : List (Nat × Nat)) (base size : Nat) : Prop :=
  0 < base ∧ ∀ c ∈ chunks, base + size ≤ c.1 ∨ c.1 + c.2 ≤ base

instance (chunks : List (Nat × Nat)) (base size : Nat) : Decidable (fresh chunks base size) := by unfold fresh; infer_instance

/-- models: source/string_pool.cpp:48-64 `string_pool_t::allocate`: the terminator is written; `base` is what `operator new` returns if it
    is called; `none`: it does not return such an address. -/
def allocate (s : St) (base length : Nat) : Option (St × Nat) :=
  let full := length + 1
  let grown : Option St :=
    if full > s.end - s.next then
      let size := max poolSize full
      if fresh s.chunks base size then some { s with chunks := s.chunks ++ [(base, size)], next := base, «end» := base + size } else none
    else some s
  match grown with
  | none => none
  | some s => some ({ s with mem := write s.mem (s.next + length) 0, next := s.next + length + 1 }, s.next)

/-- models: source/string_pool.cpp:37-45 `string_pool_t::add`. -/
def poolAdd (s : St) (base : Nat) (str : Str) : Option (St × Nat) :=
  match allocate s base str.length with
  | none => none
  | some (s, result) => some ({ s with mem := copyN s.mem result str }, result)

/-- the strings at `a` and `str` are not less than one another (adobe/string.hpp:53-61) -/
def sameAt (mem : Nat → BitVec 8) : Nat → Str → Bool
  | a, [] => mem a == 0
  | a, c :: cs => mem a == c && sameAt mem (a + 1) cs

/-- models: source/string_pool.cpp:89-101 `unique_string_pool_t::implementation_t::add`. -/
def add (s : St) (base : Nat) (str : Str) : Option (St × Nat) :=
  if str = [] then some (s, 0)
  else match s.store.find? (fun p => sameAt s.mem p str) with
    | some p => some (s, p)
    | none => match poolAdd s base str with
      | none => none
      | some (s, p) => some ({ s with store := p :: s.store }, p)

/-- models: source/name.cpp:63-77 `map_string(const char*, std::size_t)`. -/
def mapString (s : St) (base : Nat) (str : Str) (hash : Nat) : Option (St × Nat) :=
  match s.map.lookup hash with
  | some p => some (s, p)
  | none => match add s base str with
    | none => none
    | some (s, p) => some ({ s with map := (hash, p) :: s.map }, p)

/-- how names are made: from a C string or a null pointer (`name_t(const char*)`), or from a literal, which may contain NULs
    (`"…"_name`) -/
inductive Req where
  | dynamic (s : Option Str)
  | literal (s : Str)
  deriving DecidableEq

/-- the part of a literal that counts as a C string -/
def cPart (s : Str) : Str := s.takeWhile (fun c => c != 0)

/-- models: source/name.cpp:50-59 `map_string(const char*)` and adobe/name.hpp:205-207, 230-231 for literals: the hash and the C string that are
    passed on. -/
def Req.key (signed : Bool) : Req → Nat × Str
  | .dynamic none => (nameHash signed [], [])
  | .dynamic (some s) => if s = [] then (nameHash signed [], []) else (nameHash signed s, s)
  | .literal s => (nameHash signed s, cPart s)

/-- C strings contain no NUL -/
def Req.ok : Req → Prop
  | .dynamic (some s) => ∀ c ∈ s, c ≠ 0
  | _ => True

def make (signed : Bool) (s : St) (base : Nat) (r : Req) : Option (St × Nat) := mapString s base (r.key signed).2 (r.key signed).1

/-- a sequence of requests with what `operator new` answers, in the order in which the lock is taken: the final state and the
    pointers -/
def run (signed : Bool) : St → List (Req × Nat) → Option (St × List Nat)
  | s, [] => some (s, [])
  | s, (r, base) :: rs => match make signed s base r with
    | none => none
    | some (s, p) => match run signed s rs with
      | none => none
      | some (s, ps) => some (s, p :: ps)

/-- models: source/name.cpp:46 `name_t::operator bool`. -/
def isNonEmpty (p : Nat) : Bool := p != 0

/-- models: adobe/name.hpp:145-147 `operator==(static_name_t, static_name_t)`. -/
def staticEq (signed : Bool) (a b : Str) : Bool := nameHash signed a == nameHash signed b

/-- models: adobe/string.hpp:53-61 `str_less_t`, on the strings (`char` signed or not; the terminator is 0). -/
def strLess (signed : Bool) : Str → Str → Bool
  | [], [] => false
  | [], b :: _ => val signed 0 < val signed b
  | a :: _, [] => val signed a < val signed 0
  | a :: as, b :: bs => if a = b then strLess signed as bs else val signed a < val signed b
where val (signed : Bool) (c : BitVec 8) : Int := if signed then c.toInt else c.toNat

end Verif.Name
