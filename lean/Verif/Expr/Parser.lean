import Verif.Expr.Spec
import Verif.Expr.Vm
/-
Model of source/expression_parser.cpp: the recursive descent parser that turns tokens into postfix code.

The token stream is the list of the tokens still to be read; past its end the lexical analyser delivers `eof` for ever, which no
function here accepts.  `get_token` followed by `putback` leaves the list as it was (for the two tokens of lookahead this is
C47).  `bad` is input on which `get_token` throws.  The expression stack is the list of what has been pushed, in order.
Each C++ function is one entry of `body`; their mutual recursion and their loops go through `rec` and use up `fuel`.
-/
namespace Verif.Expr.Parser
open Verif.Expr Vm

/-- What a call of a parser function ends with. -/
inductive R (D O α : Type) where
  | ok (a : α) (st : List (Val D O)) (ts : List (Tok D))
  | throw
  | fuel

def M (D O α : Type) := List (Val D O) → List (Tok D) → R D O α

variable {D O α β : Type}

@[inline] def M.pure (a : α) : M D O α := fun st ts => .ok a st ts
@[inline] def M.bind (x : M D O α) (f : α → M D O β) : M D O β := fun st ts => match x st ts with
  | .ok a st ts => f a st ts
  | .throw => .throw
  | .fuel => .fuel

instance : Monad (M D O) where
  pure := M.pure
  bind := M.bind

def throw : M D O α := fun _ _ => .throw

/-- `expression_stack.push_back(v)` -/
def push (v : Val D O) : M D O Unit := fun st ts => .ok () (st ++ [v]) ts

/-- Run with another, empty, stack (a local `array_t`); the result is that stack. -/
def withStack (x : M D O Unit) : M D O (List (Val D O)) := fun st ts => match x [] ts with
  | .ok () st' ts => .ok st' st ts
  | .throw => .throw
  | .fuel => .fuel

/-- models: source/expression_parser.cpp:571-638: get a token, put it back unless it is the one wanted
(`is_token`, `is_identifier`, `is_keyword`). -/
def accept (f : Tok D → Option α) : M D O (Option α) := fun st ts => match ts with
  | [] => .ok none st []
  | .bad :: _ => .throw
  | t :: r => (match f t with
      | some a => .ok (some a) st r
      | none => .ok none st ts)

/-- models: source/expression_parser.cpp:621-628 `is_token(tokenName)` for punctuation. -/
def isSym (y : Sym) : M D O Bool := do
  return (← accept fun t => match t with
    | .sym z => if z = y then some () else none
    | _ => none).isSome

/-- models: source/expression_parser.cpp:650-658, 677-684 `require_token`. -/
def requireSym (y : Sym) : M D O Unit := do
  if ← isSym y then return () else throw

/-- models: source/expression_parser.cpp:571-581 `is_identifier` and 609-617 `is_token(identifier_k, result)`. -/
def isIdent : M D O (Option Str) := accept fun t => match t with
  | .ident n => some n
  | _ => none

/-- models: source/expression_parser.cpp:632-638 `is_keyword`. -/
def isKeyword (k : Str) : M D O Bool := do
  return (← accept fun t => match t with
    | .kw n => if n = k then some () else none
    | _ => none).isSome

/-- models: source/expression_parser.cpp:114-121 `match_token`, with adobe/implementation/token.hpp:30-61 for the name of the
operator that is pushed. -/
def matchToken : List (Sym × Str) → M D O (Option Str)
  | [] => M.pure none
  | (y, k) :: ys => do
      if ← isSym y then return some k
      matchToken ys

/-- The functions of the parser, and their loops. -/
inductive F where
  | expression | orE | andE | bitOr | bitXor | bitAnd | equality | relational | bitshift | additive | multiplicative | unary
  | postfix | argExprList | argList | namedArgList | namedArg | primary | variableOrFunction | dictionary | array
  | logicalLoop (sub : F) (ops : List (Sym × Str))
  | binaryLoop (sub : F) (ops : List (Sym × Str))
  | postfixLoop
  | argLoop (count : Nat)
  | namedLoop (count : Nat)

/-- models: source/expression_parser.cpp:212-216 `require_expression` (and the other requirements). -/
def require (x : M D O Bool) : M D O Unit := do
  if ← x then return () else throw

/-- models: source/expression_parser.cpp:55-75 `is_logical_expression`. -/
def isLogical (rec : F → M D O Bool) (sub : F) (ops : List (Sym × Str)) : M D O Bool := do
  if !(← rec sub) then return false
  rec (.logicalLoop sub ops)

/-- models: source/expression_parser.cpp:79-95 `is_binary_expression`. -/
def isBinary (rec : F → M D O Bool) (sub : F) (ops : List (Sym × Str)) : M D O Bool := do
  if !(← rec sub) then return false
  rec (.binaryLoop sub ops)

/-- models: source/expression_parser.cpp:522-530 `is_name`. -/
def isName : M D O (Option (Val D O)) := do
  if !(← isSym .at) then return none
  match ← accept (fun t => match t with
    | .kw n => some n
    | _ => none) with
  | some n => return some (.name n)
  | none =>
      match ← isIdent with
      | some n => return some (.name n)
      | none => throw

/-- models: source/expression_parser.cpp:448-449 `is_name(result) || is_token(number_k, result) || is_boolean(result) ||
is_token(string_k, result) || is_keyword(empty_k)`, with 534-544 `is_boolean`. -/
def isConstant : M D O (Option (Val D O)) := do
  match ← isName with
  | some v => return some v
  | none =>
    match ← accept (fun t => match t with
      | .num d => some d
      | _ => none) with
    | some d => return some (.num d)
    | none =>
      if ← isKeyword "true".toList then return some (.bool true)
      if ← isKeyword "false".toList then return some (.bool false)
      match ← accept (fun t => match t with
        | .str s => some s
        | _ => none) with
      | some s => return some (.str s)
      | none => if ← isKeyword "empty".toList then return some .empty else return none

/-- models: source/expression_parser.cpp:549-563 `is_unary_operator`; the result is what is to be pushed after the operand. -/
def isUnaryOperator : M D O (Option (List (Val D O))) := accept fun t => match t with
  | .sym .subtract => some [.name unary_negate_k]
  | .sym .not => some [.name not_k]
  | .sym .add => some []
  | .sym .bitNegate => some [.name bitwise_negate_k]
  | _ => none

def pushAll (vs : List (Val D O)) : M D O Unit := fun st ts => .ok () (st ++ vs) ts

/-- models: source/expression_parser.cpp:188-518; `ofCount` is the conversion of a `size_t` to `double`. -/
def body (ofCount : Nat → D) (rec : F → M D O Bool) : F → M D O Bool
  -- 188-208
  | .expression => do
      if !(← rec .orE) then return false
      if !(← isSym .question) then return true
      let operand2 ← withStack (require (rec .expression))
      requireSym .colon
      let operand3 ← withStack (require (rec .expression))
      push (.arr operand2)
      push (.arr operand3)
      push (.name ifelse_k)
      return true
  -- 220-225
  | .orE => isLogical rec .andE [(.or, or_k)]
  -- 229-235
  | .andE => isLogical rec .bitOr [(.and, and_k)]
  -- 239-245
  | .bitOr => isBinary rec .bitXor [(.bitOr, bitwise_or_k)]
  -- 249-255
  | .bitXor => isBinary rec .bitAnd [(.bitXor, bitwise_xor_k)]
  -- 259-265
  | .bitAnd => isBinary rec .equality [(.bitAnd, bitwise_and_k)]
  -- 269-275
  | .equality => isBinary rec .relational [(.equal, equal_k), (.notEqual, not_equal_k)]
  -- 279-285
  | .relational => isBinary rec .bitshift
      [(.less, less_k), (.greater, greater_k), (.lessEqual, less_equal_k), (.greaterEqual, greater_equal_k)]
  -- 289-295
  | .bitshift => isBinary rec .additive [(.bitLshift, bitwise_lshift_k), (.bitRshift, bitwise_rshift_k)]
  -- 299-305
  | .additive => isBinary rec .multiplicative [(.add, add_k), (.subtract, subtract_k)]
  -- 309-315
  | .multiplicative => isBinary rec .unary [(.multiply, multiply_k), (.divide, divide_k), (.modulus, modulus_k)]
  -- 319-338
  | .unary => do
      if ← rec .postfix then return true
      match ← isUnaryOperator with
      | some code => do
          require (rec .unary)
          pushAll code
          return true
      | none => return false
  -- 342-362
  | .postfix => do
      if !(← rec .primary) then return false
      rec .postfixLoop
  | .postfixLoop => do
      if ← isSym .openBracket then
        require (rec .expression)
        requireSym .closeBracket
        push (.name index_k)
        rec .postfixLoop
      else if ← isSym .dot then
        match ← isIdent with
        | none => throw
        | some n => do
            push (.name n)
            push (.name index_k)
            rec .postfixLoop
      else return true
  -- 367-372
  | .argExprList => do
      if ← rec .namedArgList then return true
      rec .argList
  -- 377-393
  | .argList => do
      if !(← rec .expression) then return false
      rec (.argLoop 1)
  | .argLoop count => do
      if ← isSym .comma then
        require (rec .expression)
        rec (.argLoop (count + 1))
      else do
        push (.num (ofCount count))
        push (.name array_k)
        return true
  -- 397-415
  | .namedArgList => do
      if !(← rec .namedArg) then return false
      rec (.namedLoop 1)
  | .namedLoop count => do
      if ← isSym .comma then
        require (rec .namedArg)
        rec (.namedLoop (count + 1))
      else do
        push (.num (ofCount count))
        push (.name dictionary_k)
        return true
  -- 419-437
  | .namedArg => fun st ts =>
      ((do
        match ← isIdent with
        | none => return false
        | some ident => do
            if !(← isSym .colon) then
              fun _ _ => R.ok false st ts -- putback() of the identifier
            else do
              push (.name ident)
              require (rec .expression)
              return true) : M D O Bool) st ts
  -- 442-465
  | .primary => do
      match ← isConstant with
      | some v => do
          push v
          return true
      | none =>
        if ← rec .array then return true
        if ← rec .dictionary then return true
        if ← rec .variableOrFunction then return true
        if ← isSym .openParen then
          require (rec .expression)
          requireSym .closeParen
          return true
        else return false
  -- 469-490
  | .variableOrFunction => do
      match ← isIdent with
      | none => return false
      | some result =>
        if ← isSym .openParen then
          if !(← rec .argExprList) then push (.arr [])
          requireSym .closeParen
          push (.name result)
          push (.name function_k)
          return true
        else do
          push (.name result)
          push (.name variable_k)
          return true
  -- 494-504
  | .dictionary => do
      if !(← isSym .openBrace) then return false
      if !(← rec .namedArgList) then push (.dict [])
      requireSym .closeBrace
      return true
  -- 508-518
  | .array => do
      if !(← isSym .openBracket) then return false
      if !(← rec .argList) then push (.arr [])
      requireSym .closeBracket
      return true
  | .logicalLoop sub ops => do
      match ← matchToken ops with
      | none => return true
      | some oper => do
          let operand2 ← withStack (require (rec sub))
          push (.arr operand2)
          push (.name oper)
          rec (.logicalLoop sub ops)
  | .binaryLoop sub ops => do
      match ← matchToken ops with
      | none => return true
      | some oper => do
          require (rec sub)
          push (.name oper)
          rec (.binaryLoop sub ops)

/-- The parser with bounded recursion. -/
def parse (ofCount : Nat → D) : Nat → F → M D O Bool
  | 0, _ => fun _ _ => .fuel
  | n + 1, f => body ofCount (parse ofCount n) f

end Verif.Expr.Parser
