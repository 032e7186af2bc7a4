/-
Values of the expression language: `any_regular_t` holding one of the types the virtual machine knows, or something else.
-/
namespace Verif.Expr

/-- Strings and names: lists of characters (a `name_t` is identified with its string, see C36). -/
abbrev Str := List Char

/-- models: adobe/any_regular.hpp:477-640 `any_regular_t` for the types of source/virtual_machine.cpp:109-119.
`D` is `double`, `O` stands for every other type a client may put into an `any_regular_t`.  An `array_t` is a list, a
`dictionary_t` a list of members with distinct keys, in the (unspecified) order of the hash table. -/
inductive Val (D O : Type) where
  | empty
  | bool (b : Bool)
  | num (d : D)
  | name (n : Str)
  | str (s : Str)
  | arr (vs : List (Val D O))
  | dict (ms : List (Str × Val D O))
  | other (o : O)

/-- The operations on `double` (and the conversions) that the machine uses.  `none` marks a conversion that C++ leaves
undefined (the value does not fit the target type). -/
structure Num (D : Type) where
  neg : D → D
  add : D → D → D
  sub : D → D → D
  mul : D → D → D
  div : D → D → D
  lt : D → D → Bool
  le : D → D → Bool
  eq : D → D → Bool
  round : D → D
  toU32 : D → Option Nat
  toI32 : D → Option Int
  toSize : D → Option Nat
  ofU32 : Nat → D
  ofInt : Int → D
  zero : D
  one : D

/-- What is assumed about the conversions: small natural numbers survive, a converted value fits its type. -/
structure Num.Ok {D : Type} (N : Num D) : Prop where
  u32 : ∀ n, n < 2 ^ 32 → N.toU32 (N.ofU32 n) = some n
  u32_lt : ∀ d n, N.toU32 d = some n → n < 2 ^ 32

variable {D O : Type}

mutual
/-- models: adobe/any_regular.hpp:643-645 `operator==`: same type and equal contents; dictionaries (adobe/closed_hash.hpp
`operator==`) are equal when they have as many members and every member is in the other with an equal value. -/
def Val.beq (N : Num D) (eqO : O → O → Bool) : Val D O → Val D O → Bool
  | .empty, .empty => true
  | .bool a, .bool b => a == b
  | .num a, .num b => N.eq a b
  | .name a, .name b => a == b
  | .str a, .str b => a == b
  | .arr a, .arr b => Val.beqList N eqO a b
  | .dict a, .dict b => a.length == b.length && Val.beqMembers N eqO a b
  | .other a, .other b => eqO a b
  | _, _ => false
def Val.beqList (N : Num D) (eqO : O → O → Bool) : List (Val D O) → List (Val D O) → Bool
  | [], [] => true
  | a :: as, b :: bs => Val.beq N eqO a b && Val.beqList N eqO as bs
  | _, _ => false
def Val.beqMembers (N : Num D) (eqO : O → O → Bool) : List (Str × Val D O) → List (Str × Val D O) → Bool
  | [], _ => true
  | (k, a) :: as, bs => (match bs.lookup k with
      | some b => Val.beq N eqO a b
      | none => false) && Val.beqMembers N eqO as bs
end

/-- What went wrong: the kinds of exception. -/
inductive Err where
  /-- a value of another type was expected (`std::runtime_error` of `cast`, `bad_cast`) -/
  | type
  /-- unknown key, index out of range -/
  | range
  /-- wrong number of arguments of a built-in function -/
  | args
  /-- unknown variable/function/operator, or no lookup function installed -/
  | undefined
  /-- an exception of a client function -/
  | client (code : Nat)
  deriving DecidableEq

/-- Result of a client function: a value or an exception; `S` is the state of the world the clients observe. -/
inductive Call (D O S : Type) where
  | ok (v : Val D O) (s : S)
  | throw (e : Err) (s : S)

/-- Everything a client installs in a virtual machine, with the parts of other components it uses. -/
structure Env (D O S : Type) where
  num : Num D
  eqO : O → O → Bool
  /-- `type_info().name()` of the foreign types -/
  typeO : O → Str
  /-- adobe/virtual_machine.hpp:105 `set_variable_lookup` -/
  var : Option (Str → S → Call D O S)
  /-- 106 `set_array_function_lookup` -/
  arrFn : Option (Str → List (Val D O) → S → Call D O S)
  /-- 107 `set_dictionary_function_lookup` -/
  dictFn : Option (Str → List (Str × Val D O) → S → Call D O S)
  /-- 108 `set_named_index_lookup` -/
  namedIndex : Option (Val D O → Str → S → Call D O S)
  /-- 109 `set_numeric_index_lookup` -/
  numIndex : Option (Val D O → Nat → S → Call D O S)
  /-- 111 `override_operator` -/
  override : Str → Option (Val D O → Val D O → S → Call D O S)
  /-- adobe/localization.hpp (the identity when none is installed) -/
  localize : Str → Str
  /-- `entity_escape` / `entity_unescape` of source/expression_filter.cpp (modelled in Verif.Entity); `none`: throws -/
  escape : Str → Str
  unescape : Str → Option Str

end Verif.Expr
