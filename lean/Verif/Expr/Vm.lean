import Verif.Expr.Values
/-
Model of source/virtual_machine.cpp: the stack machine that evaluates expressions in postfix form.

The value stack is a list, its top first.  `ub` is undefined behaviour: popping or reading below the bottom of the stack, converting
a number to an integer type it does not fit, `%` by zero, a shift by 32 or more.  `throw` carries the stack as the exception leaves
it.  Client functions see and change a state `S`; they do not call back into the machine.  Recursive calls of `evaluate` use up
`fuel`.  Where C++ leaves the order of two casts open they are taken from left to right (both throw the same kind of error).
Values that are moved from (pop_as, array_operator, dictionary_operator) and then remain on the stack because of an exception
keep their value here.
-/
namespace Verif.Expr.Vm
open Verif.Expr

/-! models: adobe/implementation/token.hpp:30-61 (the operators). -/
def add_k : Str := ".add".toList
def and_k : Str := ".and".toList
def array_k : Str := ".array".toList
def bitwise_and_k : Str := ".bitwise_and".toList
def bitwise_lshift_k : Str := ".bitwise_lshift".toList
def bitwise_negate_k : Str := ".bitwise_negate".toList
def bitwise_or_k : Str := ".bitwise_or".toList
def bitwise_rshift_k : Str := ".bitwise_rshift".toList
def bitwise_xor_k : Str := ".bitwise_xor".toList
def dictionary_k : Str := ".dictionary".toList
def divide_k : Str := ".divide".toList
def equal_k : Str := ".equal".toList
def function_k : Str := ".function".toList
def greater_equal_k : Str := ".greater_equal".toList
def greater_k : Str := ".greater".toList
def ifelse_k : Str := ".ifelse".toList
def index_k : Str := ".index".toList
def less_equal_k : Str := ".less_equal".toList
def less_k : Str := ".less".toList
def modulus_k : Str := ".modulus".toList
def multiply_k : Str := ".multiply".toList
def not_equal_k : Str := ".not_equal".toList
def not_k : Str := ".not".toList
def or_k : Str := ".or".toList
def subtract_k : Str := ".subtract".toList
def unary_negate_k : Str := ".unary_negate".toList
def variable_k : Str := ".variable".toList

inductive R (D O S α : Type) where
  | ok (a : α) (st : List (Val D O)) (s : S)
  | throw (e : Err) (st : List (Val D O)) (s : S)
  | ub
  | fuel

/-- A computation of the machine. -/
def M (D O S α : Type) := List (Val D O) → S → R D O S α

variable {D O S α β : Type}

@[inline] def M.pure (a : α) : M D O S α := fun st s => .ok a st s
@[inline] def M.bind (x : M D O S α) (f : α → M D O S β) : M D O S β := fun st s => match x st s with
  | .ok a st s => f a st s
  | .throw e st s => .throw e st s
  | .ub => .ub
  | .fuel => .fuel

instance : Monad (M D O S) where
  pure := M.pure
  bind := M.bind

def throw (e : Err) : M D O S α := fun st s => .throw e st s
def ub : M D O S α := fun _ _ => .ub
def noFuel : M D O S α := fun _ _ => .fuel

/-- A client function. -/
def call (f : S → Call D O S) : M D O S (Val D O) := fun st s => match f s with
  | .ok v s => .ok v st s
  | .throw e s => .throw e st s

/-- models: source/virtual_machine.cpp:529 `back`. -/
def back : M D O S (Val D O) := fun st s => match st with
  | [] => .ub
  | v :: _ => .ok v st s

/-- models: source/virtual_machine.cpp:533 `pop_back`. -/
def popBack : M D O S Unit := fun st s => match st with
  | [] => .ub
  | _ :: r => .ok () r s

def push (v : Val D O) : M D O S Unit := fun st s => .ok () (v :: st) s

/-- `*(value_stack_m.end() - 2)` and `*(value_stack_m.end() - 1)`. -/
def top2 : M D O S (Val D O × Val D O) := fun st s => match st with
  | b :: a :: _ => .ok (a, b) st s
  | _ => .ub

/-- `*(value_stack_m.end() - 2) = v; pop_back();` -/
def set2 (v : Val D O) : M D O S Unit := fun st s => match st with
  | _ :: _ :: r => .ok () (v :: r) s
  | _ => .ub

/-! models: adobe/virtual_machine.hpp:38-57 `cast`, for the types used here. -/
def castNum : Val D O → M D O S D
  | .num d => M.pure d
  | _ => throw .type
def castBool : Val D O → M D O S Bool
  | .bool b => M.pure b
  | _ => throw .type
def castName : Val D O → M D O S Str
  | .name n => M.pure n
  | _ => throw .type
def castStr : Val D O → M D O S Str
  | .str x => M.pure x
  | _ => throw .type
def castArr : Val D O → M D O S (List (Val D O))
  | .arr vs => M.pure vs
  | _ => throw .type
def castDict : Val D O → M D O S (List (Str × Val D O))
  | .dict ms => M.pure ms
  | _ => throw .type
/-- a conversion of the stored `double` (adobe/any_regular.hpp:684-690, `static_cast`) -/
def castVia {β : Type} (conv : D → Option β) : Val D O → M D O S β
  | .num d => (match conv d with
      | some n => M.pure n
      | none => ub)
  | _ => throw .type

/-- models: source/virtual_machine.cpp:333-344 `pop_as`: cast first, then pop. -/
def popAs {β : Type} (cast : Val D O → M D O S β) : M D O S β := do
  let r ← cast (← back)
  popBack
  return r

/-- models: source/virtual_machine.cpp:553-566 `binary_operator`. -/
def binaryOperator {β : Type} (cast : Val D O → M D O S β) (f : β → β → M D O S (Val D O)) : M D O S Unit := do
  let (a, b) ← top2
  let x ← cast a
  let y ← cast b
  set2 (← f x y)

/-- models: source/virtual_machine.cpp:594-603 `unary_operator`. -/
def unaryOperator {β : Type} (cast : Val D O → M D O S β) (f : β → Val D O) : M D O S Unit := do
  let x ← cast (← back)
  popBack
  push (f x)

/-- models: source/virtual_machine.cpp:724-729 `bitwise_binary_operator`. -/
def bitwiseBinary (E : Env D O S) (f : Nat → Nat → Option Nat) : M D O S Unit := do
  let y ← popAs (castVia E.num.toU32)
  let x ← popAs (castVia E.num.toU32)
  match f x y with
  | some r => push (.num (E.num.ofU32 r))
  | none => ub

/-- models: source/virtual_machine.cpp:733-737 `bitwise_unary_operator` with `bitwise_negate_t` (305-307). -/
def bitwiseNegate (E : Env D O S) : M D O S Unit := do
  let x ← popAs (castVia E.num.toU32)
  push (.num (E.num.ofU32 (x ^^^ 0xFFFFFFFF)))

/-- models: source/virtual_machine.cpp:571-590 `operator_override`. -/
def operatorOverride (E : Env D O S) (name : Str) : M D O S Bool := match E.override name with
  | some f => do
      let (a, b) ← top2
      set2 (← call (f a b))
      return true
  | none => return false

/-- models: source/virtual_machine.cpp:608-617 `logical_operator`; `eval` is `evaluate`. -/
def logicalOperator (eval : List (Val D O) → M D O S Unit) (doAnd : Bool) : M D O S Unit := do
  let operandExp ← popAs castArr
  let operand1 ← castBool (← back)
  if operand1 = doAnd then
    popBack
    eval operandExp
    let _ ← castBool (← back)
    return ()
  else return ()

/-- models: source/virtual_machine.cpp:629-662 `index_operator` (`get_value`: adobe/dictionary.hpp:52-57). -/
def indexOperator (E : Env D O S) : M D O S Unit := do
  let (a, b) ← top2
  match b with
  | .name index =>
      match E.namedIndex with
      | some f => set2 (← call (f a index))
      | none => do
          let ms ← castDict a
          match ms.lookup index with
          | some v => set2 v
          | none => throw .range
  | b =>
      let index ← castVia E.num.toSize b
      match E.numIndex with
      | some f => set2 (← call (f a index))
      | none => do
          let vs ← castArr a
          if index < vs.length then set2 (vs.getD index .empty) else throw .range

/-- models: source/virtual_machine.cpp:667-674 `ifelse_operator`. -/
def ifelseOperator (eval : List (Val D O) → M D O S Unit) : M D O S Unit := do
  let elseExp ← popAs castArr
  let thenExp ← popAs castArr
  let predicate ← popAs castBool
  eval (if predicate then thenExp else elseExp)

/-- models: source/virtual_machine.cpp:678-687 `variable_operator`. -/
def variableOperator (E : Env D O S) : M D O S Unit := do
  let variableName ← castName (← back)
  popBack
  match E.var with
  | none => throw .undefined
  | some f => push (← call (f variableName))

/-- The topmost `n` values, the deepest first, and the stack below them. -/
def takeTop (n : Nat) : M D O S (List (Val D O)) := fun st s =>
  if n ≤ st.length then .ok (st.take n).reverse st s else .ub

def dropTop (n : Nat) : M D O S Unit := fun st s => .ok () (st.drop n) s

/-- models: source/virtual_machine.cpp:691-700 `array_operator`. -/
def arrayOperator (E : Env D O S) : M D O S Unit := do
  let count ← popAs (castVia E.num.toU32)
  let result ← takeTop count
  dropTop count
  push (.arr result)

/-- `closed_hash_map::insert`: keeps what is there. -/
def dictInsert (ms : List (Str × Val D O)) (k : Str) (v : Val D O) : List (Str × Val D O) :=
  match ms.lookup k with
  | some _ => ms
  | none => ms ++ [(k, v)]

/-- models: source/virtual_machine.cpp:711-716, the loop of `dictionary_operator`. -/
def dictLoop : List (Val D O) → List (Str × Val D O) → M D O S (List (Str × Val D O))
  | k :: v :: r, ms => do
      let n ← castName k
      dictLoop r (dictInsert ms n v)
  | _, ms => M.pure ms

/-- models: source/virtual_machine.cpp:704-720 `dictionary_operator` (the product is one of `uint32_t`). -/
def dictionaryOperator (E : Env D O S) : M D O S Unit := do
  let n ← popAs (castVia E.num.toU32)
  let count := n * 2 % 2 ^ 32
  let vals ← takeTop count
  let result ← dictLoop vals []
  dropTop count
  push (.dict result)

/-- models: source/virtual_machine.cpp:107-134 `type_name`. -/
def typeName (E : Env D O S) : Val D O → Str
  | .num _ => "number".toList
  | .bool _ => "boolean".toList
  | .empty => "empty".toList
  | .str _ => "string".toList
  | .arr _ => "array".toList
  | .dict _ => "dictionary".toList
  | .name _ => "name".toList
  | .other o => E.typeO o

/-- models: `std::min_element` / `std::max_element` as called in source/virtual_machine.cpp:188-210 (via
adobe/algorithm/minmax.hpp:178-201): `less new cur` decides whether to move on to the new element. -/
def elementLoop (isMin : Bool) (E : Env D O S) (cur : Val D O) : List (Val D O) → M D O S (Val D O)
  | [] => M.pure cur
  | v :: vs => do
      let x ← castNum v
      let y ← castNum cur
      elementLoop isMin E (if (if isMin then E.num.lt x y else E.num.lt y x) then v else cur) vs

/-- models: source/virtual_machine.cpp:145-221, the built-in functions of unnamed arguments, and their table 461-468. -/
def arrayFunction (E : Env D O S) (name : Str) (args : List (Val D O)) : Option (M D O S (Val D O)) :=
  if name = "typeof".toList then some (match args with
    | [] => throw .args
    | v :: _ => M.pure (.name (typeName E v)))
  else if name = "min".toList then some (match args with
    | [] => throw .args
    | v :: vs => elementLoop true E v vs)
  else if name = "max".toList then some (match args with
    | [] => throw .args
    | v :: vs => elementLoop false E v vs)
  else if name = "round".toList then some (match args with
    | [] => throw .args
    | v :: _ => do return .num (E.num.round (← castNum v)))
  else if name = "localize".toList then some (match args with
    | [v] => do return .str (E.localize (← castStr v))
    | _ => throw .args)
  else if name = "xml_escape".toList then some (match args with
    | [.str x] => M.pure (.str (E.escape x))
    | _ => throw .args)
  else if name = "xml_unescape".toList then some (match args with
    | [.str x] => (match E.unescape x with
        | some y => M.pure (.str y)
        | none => throw .range)
    | _ => throw .args)
  else none

/-- models: adobe/dictionary.hpp:33-42 `get_value(dict, key, value)` for a `double`. -/
def getNum (ms : List (Str × Val D O)) (k : Str) (x : D) : D := match ms.lookup k with
  | none => x
  | some (.num d) => d
  | some _ => x

/-- models: source/virtual_machine.cpp:230-241 `scale_function` and the table 470-471. -/
def dictionaryFunction (E : Env D O S) (name : Str) (ms : List (Str × Val D O)) : Option (M D O S (Val D O)) :=
  if name = "scale".toList then
    let m := getNum ms "m".toList E.num.one
    let x := getNum ms "x".toList E.num.zero
    let b := getNum ms "b".toList E.num.zero
    some (M.pure (.num (E.num.add (E.num.mul m x) b)))
  else none

/-- `value_stack_m.back() = v` -/
def setBack (v : Val D O) : M D O S Unit := fun st s => match st with
  | [] => .ub
  | _ :: r => .ok () (v :: r) s

/-- models: source/virtual_machine.cpp:743-777 `function_operator`. -/
def functionOperator (E : Env D O S) : M D O S Unit := do
  let name ← castName (← back)
  popBack
  match ← back with
  | .arr args =>
      match arrayFunction E name args with
      | some f => setBack (← f)
      | none =>
        match E.arrFn with
        | some f => setBack (← call (f name args))
        | none => throw .undefined
  | v =>
      let args ← castDict v
      match dictionaryFunction E name args with
      | some f => setBack (← f)
      | none =>
        match E.dictFn with
        | some f => setBack (← call (f name args))
        | none => throw .undefined

/-- The operators on numbers. -/
def arith (f : D → D → D) : M D O S Unit := binaryOperator castNum fun x y => M.pure (.num (f x y))
def relation (f : D → D → Bool) : M D O S Unit := binaryOperator castNum fun x y => M.pure (.bool (f x y))

/-- models: source/virtual_machine.cpp:420-459, the operator table, and 539-543 `find_operator` (adobe/static_table.hpp:231-238:
an unknown operator throws `std::logic_error`). -/
def findOperator (E : Env D O S) (eval : List (Val D O) → M D O S Unit) (name : Str) : M D O S Unit :=
  if name = not_k then unaryOperator castBool fun b => .bool (!b)
  else if name = unary_negate_k then unaryOperator castNum fun d => .num (E.num.neg d)
  else if name = add_k then arith E.num.add
  else if name = subtract_k then arith E.num.sub
  else if name = multiply_k then arith E.num.mul
  else if name = modulus_k then binaryOperator (castVia E.num.toI32) fun x y =>
    if y = 0 ∨ x = -2 ^ 31 ∧ y = -1 then ub else M.pure (.num (E.num.ofInt (x.tmod y)))
  else if name = divide_k then arith E.num.div
  else if name = less_k then relation E.num.lt
  else if name = greater_k then relation fun x y => E.num.lt y x
  else if name = less_equal_k then relation E.num.le
  else if name = greater_equal_k then relation fun x y => E.num.le y x
  else if name = equal_k then binaryOperator M.pure fun x y => M.pure (.bool (Val.beq E.num E.eqO x y))
  else if name = not_equal_k then binaryOperator M.pure fun x y => M.pure (.bool (!Val.beq E.num E.eqO x y))
  else if name = ifelse_k then ifelseOperator eval
  else if name = index_k then indexOperator E
  else if name = function_k then functionOperator E
  else if name = array_k then arrayOperator E
  else if name = dictionary_k then dictionaryOperator E
  else if name = variable_k then variableOperator E
  else if name = and_k then logicalOperator eval true
  else if name = or_k then logicalOperator eval false
  else if name = bitwise_and_k then bitwiseBinary E fun x y => some (x &&& y)
  else if name = bitwise_xor_k then bitwiseBinary E fun x y => some (x ^^^ y)
  else if name = bitwise_or_k then bitwiseBinary E fun x y => some (x ||| y)
  else if name = bitwise_rshift_k then bitwiseBinary E fun x y => if y < 32 then some (x >>> y) else none
  else if name = bitwise_lshift_k then bitwiseBinary E fun x y => if y < 32 then some ((x <<< y) % 2 ^ 32) else none
  else if name = bitwise_negate_k then bitwiseNegate E
  else throw .undefined

/-- models: source/virtual_machine.cpp:510-520, the body of the loop of `evaluate`. -/
def step (E : Env D O S) (eval : List (Val D O) → M D O S Unit) : Val D O → M D O S Unit
  | .name opName =>
      if opName.head? = some '.' then do
        if !(← operatorOverride E opName) then findOperator E eval opName
        else return ()
      else push (.name opName)
  | e => push e

/-- models: source/virtual_machine.cpp:509, the loop of `evaluate`. -/
def loop (E : Env D O S) (eval : List (Val D O) → M D O S Unit) : List (Val D O) → M D O S Unit
  | [] => M.pure ()
  | e :: es => do
      step E eval e
      loop E eval es

/-- models: source/virtual_machine.cpp:508-521 `evaluate`. -/
def evaluate (E : Env D O S) : Nat → List (Val D O) → M D O S Unit
  | 0, _ => noFuel
  | n + 1, expression => loop E (evaluate E n) expression

end Verif.Expr.Vm
