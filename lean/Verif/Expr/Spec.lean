import Verif.Expr.Values
/-
The expression language: abstract syntax, grammar over tokens, and meaning.  Nothing here refers to the parser or the
stack machine.
-/
namespace Verif.Expr

/-- Punctuation of the language. -/
inductive Sym where
  | add | and | at | bitAnd | bitLshift | bitNegate | bitOr | bitRshift | bitXor | divide | equal | greaterEqual | greater
  | is | lessEqual | less | modulus | multiply | notEqual | not | or | subtract | to
  | assign | closeBrace | closeBracket | closeParen | colon | comma | dot | openBrace | openBracket | openParen
  | question | semicolon
  deriving DecidableEq, Repr

/-- Tokens.  `bad` stands for input on which the lexical analyser throws. -/
inductive Tok (D : Type) where
  | num (d : D)
  | str (s : Str)
  | ident (n : Str)
  | kw (n : Str)
  | sym (y : Sym)
  | leadComment (s : Str)
  | trailComment (s : Str)
  | bad

namespace Spec

inductive UnOp where
  | not | neg | bitNot
  deriving DecidableEq

/-- Operators that evaluate both operands. -/
inductive BinOp where
  | add | sub | mul | div | mod | lt | gt | le | ge | eq | ne | bitAnd | bitOr | bitXor | shl | shr
  deriving DecidableEq

variable (D O : Type)

/-- Abstract syntax. -/
inductive Expr where
  | const (v : Val D O)
  | var (n : Str)
  | call (f : Str) (args : List Expr)
  | callNamed (f : Str) (args : List (Str × Expr))
  | array (es : List Expr)
  | dict (ms : List (Str × Expr))
  | un (op : UnOp) (e : Expr)
  | bin (op : BinOp) (a b : Expr)
  | and (a b : Expr)
  | or (a b : Expr)
  | cond (c a b : Expr)
  | index (a i : Expr)

variable {D O}

/-! ### Grammar -/

/-- The binary operators of each level of precedence, 1 binding tightest. -/
def binSyms : Nat → List (Sym × BinOp)
  | 1 => [(.multiply, .mul), (.divide, .div), (.modulus, .mod)]
  | 2 => [(.add, .add), (.subtract, .sub)]
  | 3 => [(.bitLshift, .shl), (.bitRshift, .shr)]
  | 4 => [(.less, .lt), (.greater, .gt), (.lessEqual, .le), (.greaterEqual, .ge)]
  | 5 => [(.equal, .eq), (.notEqual, .ne)]
  | 6 => [(.bitAnd, .bitAnd)]
  | 7 => [(.bitXor, .bitXor)]
  | 8 => [(.bitOr, .bitOr)]
  | _ => []

/-- Nonterminals: `level 0` is a unary expression, `level k` a chain of operators of level at most `k`, 9 being `&&` and 10
`||`. -/
inductive NT where
  | primary | postfix | level (k : Nat) | expression | args | named
  deriving DecidableEq

/-- What a nonterminal denotes: an expression, or a nonempty list of arguments. -/
inductive Out (D O : Type) where
  | e (x : Expr D O)
  | es (xs : List (Expr D O))
  | ms (xs : List (Str × Expr D O))

/-- `Derives nt ts x`: the token sequence `ts` is a phrase of the nonterminal `nt` and denotes `x`.
The productions are those in the comments of source/expression_parser.cpp. -/
inductive Derives : NT → List (Tok D) → Out D O → Prop where
  -- primary_expression
  | num (d : D) : Derives .primary [.num d] (.e (.const (.num d)))
  | str (s : Str) : Derives .primary [.str s] (.e (.const (.str s)))
  | kwTrue : Derives .primary [.kw "true".toList] (.e (.const (.bool true)))
  | kwFalse : Derives .primary [.kw "false".toList] (.e (.const (.bool false)))
  | kwEmpty : Derives .primary [.kw "empty".toList] (.e (.const .empty))
  | nameI (n : Str) : Derives .primary [.sym .at, .ident n] (.e (.const (.name n)))
  | nameK (n : Str) : Derives .primary [.sym .at, .kw n] (.e (.const (.name n)))
  | emptyArray : Derives .primary [.sym .openBracket, .sym .closeBracket] (.e (.const (.arr [])))
  | array {ts es} : Derives .args ts (.es es) →
      Derives .primary (.sym .openBracket :: (ts ++ [.sym .closeBracket])) (.e (.array es))
  | emptyDict : Derives .primary [.sym .openBrace, .sym .closeBrace] (.e (.const (.dict [])))
  | dict {ts ms} : Derives .named ts (.ms ms) →
      Derives .primary (.sym .openBrace :: (ts ++ [.sym .closeBrace])) (.e (.dict ms))
  | var (n : Str) : Derives .primary [.ident n] (.e (.var n))
  | call0 (f : Str) : Derives .primary [.ident f, .sym .openParen, .sym .closeParen] (.e (.call f []))
  | call (f : Str) {ts es} : Derives .args ts (.es es) →
      Derives .primary (.ident f :: .sym .openParen :: (ts ++ [.sym .closeParen])) (.e (.call f es))
  | callNamed (f : Str) {ts ms} : Derives .named ts (.ms ms) →
      Derives .primary (.ident f :: .sym .openParen :: (ts ++ [.sym .closeParen])) (.e (.callNamed f ms))
  | paren {ts x} : Derives .expression ts (.e x) →
      Derives .primary (.sym .openParen :: (ts ++ [.sym .closeParen])) (.e x)
  -- postfix_expression
  | primary {ts x} : Derives .primary ts (.e x) → Derives .postfix ts (.e x)
  | index {ts us x i} : Derives .postfix ts (.e x) → Derives .expression us (.e i) →
      Derives .postfix (ts ++ .sym .openBracket :: (us ++ [.sym .closeBracket])) (.e (.index x i))
  | dot {ts x} (n : Str) : Derives .postfix ts (.e x) →
      Derives .postfix (ts ++ [.sym .dot, .ident n]) (.e (.index x (.const (.name n))))
  -- unary_expression
  | postfix {ts x} : Derives .postfix ts (.e x) → Derives (.level 0) ts (.e x)
  | plus {ts x} : Derives (.level 0) ts (.e x) → Derives (.level 0) (.sym .add :: ts) (.e x)
  | neg {ts x} : Derives (.level 0) ts (.e x) → Derives (.level 0) (.sym .subtract :: ts) (.e (.un .neg x))
  | not {ts x} : Derives (.level 0) ts (.e x) → Derives (.level 0) (.sym .not :: ts) (.e (.un .not x))
  | bitNot {ts x} : Derives (.level 0) ts (.e x) → Derives (.level 0) (.sym .bitNegate :: ts) (.e (.un .bitNot x))
  -- the levels, from multiplicative_expression up: left associative chains
  | level {k ts x} : k < 10 → Derives (.level k) ts (.e x) → Derives (.level (k + 1)) ts (.e x)
  | bin {k ts us a b y op} : Derives (.level (k + 1)) ts (.e a) → (y, op) ∈ binSyms (k + 1) → Derives (.level k) us (.e b) →
      Derives (.level (k + 1)) (ts ++ .sym y :: us) (.e (.bin op a b))
  | and {ts us a b} : Derives (.level 9) ts (.e a) → Derives (.level 8) us (.e b) →
      Derives (.level 9) (ts ++ .sym .and :: us) (.e (.and a b))
  | or {ts us a b} : Derives (.level 10) ts (.e a) → Derives (.level 9) us (.e b) →
      Derives (.level 10) (ts ++ .sym .or :: us) (.e (.or a b))
  -- expression
  | expr {ts x} : Derives (.level 10) ts (.e x) → Derives .expression ts (.e x)
  | cond {ts us vs c a b} : Derives (.level 10) ts (.e c) → Derives .expression us (.e a) → Derives .expression vs (.e b) →
      Derives .expression (ts ++ .sym .question :: (us ++ .sym .colon :: vs)) (.e (.cond c a b))
  -- argument lists
  | arg {ts x} : Derives .expression ts (.e x) → Derives .args ts (.es [x])
  | argMore {ts us x xs} : Derives .args ts (.es xs) → Derives .expression us (.e x) →
      Derives .args (ts ++ .sym .comma :: us) (.es (xs ++ [x]))
  | member {ts x} (n : Str) : Derives .expression ts (.e x) → Derives .named (.ident n :: .sym .colon :: ts) (.ms [(n, x)])
  | memberMore {ts us x xs} (n : Str) : Derives .named ts (.ms xs) → Derives .expression us (.e x) →
      Derives .named (ts ++ .sym .comma :: .ident n :: .sym .colon :: us) (.ms (xs ++ [(n, x)]))

/-- Punctuation that continues an expression: a token of this kind after a phrase belongs to it (or is an error). -/
def continuing : List Sym :=
  [.openParen, .openBracket, .dot, .multiply, .divide, .modulus, .add, .subtract, .bitLshift, .bitRshift, .less, .greater,
    .lessEqual, .greaterEqual, .equal, .notEqual, .bitAnd, .bitXor, .bitOr, .and, .or, .question]

/-- What may follow an expression: the end of the input, or a token that does not continue it. -/
def CanFollow : List (Tok D) → Prop
  | [] => True
  | .bad :: _ => False
  | .sym y :: _ => y ∉ continuing
  | _ :: _ => True

/-- Tokens an expression can begin with. -/
def CanStart : Tok D → Prop
  | .num _ => True
  | .str _ => True
  | .ident _ => True
  | .kw n => n = "true".toList ∨ n = "false".toList ∨ n = "empty".toList
  | .sym y => y ∈ [.at, .openBracket, .openBrace, .openParen, .add, .subtract, .not, .bitNegate]
  | _ => False

/-- Names as the lexical analyser produces them: they do not begin with a dot. -/
def NamesOk (ts : List (Tok D)) : Prop :=
  ∀ n, Tok.ident n ∈ ts ∨ Tok.kw n ∈ ts → n.head? ≠ some '.'

/-! ### Meaning -/

/-- Outcome of evaluating: a value, an exception, or behaviour C++ leaves undefined (a number that does not fit the integer type
it is converted to, division by zero in `%`, a shift by 32 or more). -/
inductive Res (α S : Type) where
  | ok (a : α) (s : S)
  | throw (e : Err) (s : S)
  | undef

/-- Evaluate first, then the rest, unless it fails. -/
def Res.bind {α β S : Type} (r : Res α S) (f : α → S → Res β S) : Res β S := match r with
  | .ok a s => f a s
  | .throw e s => .throw e s
  | .undef => .undef

variable {S : Type}

def ofCall : Call D O S → Res (Val D O) S
  | .ok v s => .ok v s
  | .throw e s => .throw e s

/-- The number in a value. -/
def number (v : Val D O) (s : S) : Res D S := match v with
  | .num d => .ok d s
  | _ => .throw .type s

def boolean (v : Val D O) (s : S) : Res Bool S := match v with
  | .bool b => .ok b s
  | _ => .throw .type s

/-- The unsigned 32 bit number in a value. -/
def u32 (N : Num D) (v : Val D O) (s : S) : Res Nat S := match v with
  | .num d => (match N.toU32 d with
      | some n => .ok n s
      | none => .undef)
  | _ => .throw .type s

def i32 (N : Num D) (v : Val D O) (s : S) : Res Int S := match v with
  | .num d => (match N.toI32 d with
      | some n => .ok n s
      | none => .undef)
  | _ => .throw .type s

def arith (f : D → D → D) (a b : Val D O) (s : S) : Res (Val D O) S :=
  (number a s).bind fun x s => (number b s).bind fun y s => .ok (.num (f x y)) s

def compare (f : D → D → Bool) (a b : Val D O) (s : S) : Res (Val D O) S :=
  (number a s).bind fun x s => (number b s).bind fun y s => .ok (.bool (f x y)) s

/-- Both operands as 32 bit unsigned numbers (the right one is looked at first). -/
def bits (N : Num D) (f : Nat → Nat → Option Nat) (a b : Val D O) (s : S) : Res (Val D O) S :=
  (u32 N b s).bind fun y s => (u32 N a s).bind fun x s => match f x y with
    | some r => .ok (.num (N.ofU32 r)) s
    | none => .undef

/-- Meaning of the binary operators. -/
def binary (N : Num D) (eqO : O → O → Bool) : BinOp → Val D O → Val D O → S → Res (Val D O) S
  | .add => arith N.add
  | .sub => arith N.sub
  | .mul => arith N.mul
  | .div => arith N.div
  | .mod => fun a b s => (i32 N a s).bind fun x s => (i32 N b s).bind fun y s =>
      if y = 0 ∨ x = -2 ^ 31 ∧ y = -1 then .undef else .ok (.num (N.ofInt (x.tmod y))) s
  | .lt => compare N.lt
  | .gt => compare fun x y => N.lt y x
  | .le => compare N.le
  | .ge => compare fun x y => N.le y x
  | .eq => fun a b s => .ok (.bool (Val.beq N eqO a b)) s
  | .ne => fun a b s => .ok (.bool (!Val.beq N eqO a b)) s
  | .bitAnd => bits N fun x y => some (x &&& y)
  | .bitOr => bits N fun x y => some (x ||| y)
  | .bitXor => bits N fun x y => some (x ^^^ y)
  | .shl => bits N fun x y => if y < 32 then some (x * 2 ^ y % 2 ^ 32) else none
  | .shr => bits N fun x y => if y < 32 then some (x / 2 ^ y) else none

/-- The name under which an operator can be overridden. -/
def opName : BinOp → Str
  | .add => ".add".toList | .sub => ".subtract".toList | .mul => ".multiply".toList | .div => ".divide".toList
  | .mod => ".modulus".toList | .lt => ".less".toList | .gt => ".greater".toList | .le => ".less_equal".toList
  | .ge => ".greater_equal".toList | .eq => ".equal".toList | .ne => ".not_equal".toList
  | .bitAnd => ".bitwise_and".toList | .bitOr => ".bitwise_or".toList | .bitXor => ".bitwise_xor".toList
  | .shl => ".bitwise_lshift".toList | .shr => ".bitwise_rshift".toList

/-- A client may replace the meaning of an operator with two operands. -/
def overridden (E : Env D O S) (name : Str) (f : Val D O → Val D O → S → Res (Val D O) S) (a b : Val D O) (s : S) :
    Res (Val D O) S :=
  match E.override name with
  | some g => ofCall (g a b s)
  | none => f a b s

def unary (N : Num D) : UnOp → Val D O → S → Res (Val D O) S
  | .not, a, s => (boolean a s).bind fun b s => .ok (.bool !b) s
  | .neg, a, s => (number a s).bind fun d s => .ok (.num (N.neg d)) s
  | .bitNot, a, s => (u32 N a s).bind fun n s => .ok (.num (N.ofU32 (2 ^ 32 - 1 - n))) s

/-- `a[i]` and `a.n`: a name selects from a dictionary, a number from an array; a client may replace both. -/
def indexValue (E : Env D O S) (a i : Val D O) (s : S) : Res (Val D O) S := match i with
  | .name n => (match E.namedIndex with
      | some g => ofCall (g a n s)
      | none => (match a with
          | .dict ms => (match ms.lookup n with
              | some v => .ok v s
              | none => .throw .range s)
          | _ => .throw .type s))
  | .num d => (match E.num.toSize d with
      | none => .undef
      | some k => (match E.numIndex with
          | some g => ofCall (g a k s)
          | none => (match a with
              | .arr vs => (match vs[k]? with
                  | some v => .ok v s
                  | none => .throw .range s)
              | _ => .throw .type s)))
  | _ => .throw .type s

/-- Name of the type of a value. -/
def typeName (E : Env D O S) : Val D O → Str
  | .empty => "empty".toList
  | .bool _ => "boolean".toList
  | .num _ => "number".toList
  | .name _ => "name".toList
  | .str _ => "string".toList
  | .arr _ => "array".toList
  | .dict _ => "dictionary".toList
  | .other o => E.typeO o

/-- The first value none of the others is better than; comparing throws if one of the two is not a number. -/
def best (better : D → D → Bool) (cur : Val D O) : List (Val D O) → S → Res (Val D O) S
  | [], s => .ok cur s
  | v :: vs, s => (number v s).bind fun x s => (number cur s).bind fun y s =>
      best better (if better x y then v else cur) vs s

/-- The built-in functions with positional arguments; `none`: there is no such function. -/
def builtin (E : Env D O S) (f : Str) (args : List (Val D O)) (s : S) : Option (Res (Val D O) S) :=
  if f = "typeof".toList then some (match args with
    | v :: _ => .ok (.name (typeName E v)) s
    | [] => .throw .args s)
  else if f = "min".toList then some (match args with
    | v :: vs => best E.num.lt v vs s
    | [] => .throw .args s)
  else if f = "max".toList then some (match args with
    | v :: vs => best (fun x y => E.num.lt y x) v vs s
    | [] => .throw .args s)
  else if f = "round".toList then some (match args with
    | v :: _ => (number v s).bind fun d s => .ok (.num (E.num.round d)) s
    | [] => .throw .args s)
  else if f = "localize".toList then some (match args with
    | [.str x] => .ok (.str (E.localize x)) s
    | [_] => .throw .type s
    | _ => .throw .args s)
  else if f = "xml_escape".toList then some (match args with
    | [.str x] => .ok (.str (E.escape x)) s
    | _ => .throw .args s)
  else if f = "xml_unescape".toList then some (match args with
    | [.str x] => (match E.unescape x with
        | some y => .ok (.str y) s
        | none => .throw .range s)
    | _ => .throw .args s)
  else none

/-- A named argument that should be a number; 1 or 0 by default, also when it is something else. -/
def member (ms : List (Str × Val D O)) (n : Str) (dflt : D) : D := match ms.lookup n with
  | some (.num d) => d
  | _ => dflt

/-- The built-in functions with named arguments. -/
def builtinNamed (E : Env D O S) (f : Str) (ms : List (Str × Val D O)) (s : S) : Option (Res (Val D O) S) :=
  if f = "scale".toList then
    some (.ok (.num (E.num.add (E.num.mul (member ms "m".toList E.num.one) (member ms "x".toList E.num.zero))
      (member ms "b".toList E.num.zero))) s)
  else none

/-- Call with positional arguments: built-in functions first, then those of the client. -/
def callValue (E : Env D O S) (f : Str) (args : List (Val D O)) (s : S) : Res (Val D O) S := match builtin E f args s with
  | some r => r
  | none => (match E.arrFn with
      | some g => ofCall (g f args s)
      | none => .throw .undefined s)

def callNamedValue (E : Env D O S) (f : Str) (ms : List (Str × Val D O)) (s : S) : Res (Val D O) S :=
  match builtinNamed E f ms s with
  | some r => r
  | none => (match E.dictFn with
      | some g => ofCall (g f ms s)
      | none => .throw .undefined s)

/-- The dictionary of some members: of several with one name the first counts. -/
def dictOf : List (Str × Val D O) → List (Str × Val D O)
  | [] => []
  | (k, v) :: ms => (k, v) :: (dictOf ms).filter fun m => m.1 ≠ k

mutual
/-- Meaning of an expression.  Operands are evaluated from left to right, before the operator is applied; of `&&`, `||` and `?:`
only the operands that are needed are evaluated. -/
def eval (E : Env D O S) : Expr D O → S → Res (Val D O) S
  | .const v, s => .ok v s
  | .var n, s => (match E.var with
      | some g => ofCall (g n s)
      | none => .throw .undefined s)
  | .call f args, s => (evalList E args s).bind fun vs s => callValue E f vs s
  | .callNamed f ms, s => (evalMembers E ms s).bind fun vs s => callNamedValue E f (dictOf vs) s
  | .array es, s => (evalList E es s).bind fun vs s => .ok (.arr vs) s
  | .dict ms, s => (evalMembers E ms s).bind fun vs s => .ok (.dict (dictOf vs)) s
  | .un op e, s => (eval E e s).bind fun v s => unary E.num op v s
  | .bin op a b, s => (eval E a s).bind fun x s => (eval E b s).bind fun y s =>
      overridden E (opName op) (binary E.num E.eqO op) x y s
  | .and a b, s => (eval E a s).bind fun x s => (boolean x s).bind fun p s =>
      if p then (eval E b s).bind fun y s => (boolean y s).bind fun q s => .ok (.bool q) s else .ok (.bool false) s
  | .or a b, s => (eval E a s).bind fun x s => (boolean x s).bind fun p s =>
      if p then .ok (.bool true) s else (eval E b s).bind fun y s => (boolean y s).bind fun q s => .ok (.bool q) s
  | .cond c a b, s => (eval E c s).bind fun x s => (boolean x s).bind fun p s => if p then eval E a s else eval E b s
  | .index a i, s => (eval E a s).bind fun x s => (eval E i s).bind fun y s =>
      overridden E ".index".toList (indexValue E) x y s
def evalList (E : Env D O S) : List (Expr D O) → S → Res (List (Val D O)) S
  | [], s => .ok [] s
  | e :: es, s => (eval E e s).bind fun v s => (evalList E es s).bind fun vs s => .ok (v :: vs) s
def evalMembers (E : Env D O S) : List (Str × Expr D O) → S → Res (List (Str × Val D O)) S
  | [], s => .ok [] s
  | (n, e) :: ms, s => (eval E e s).bind fun v s => (evalMembers E ms s).bind fun vs s => .ok ((n, v) :: vs) s
end

/-- Operators a client may override without breaking the language: those with two evaluated operands. -/
def Overridable (n : Str) : Prop := n = ".index".toList ∨ ∃ op, n = opName op

end Spec
end Verif.Expr
