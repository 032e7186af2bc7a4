import Verif.Expr.Total
/-
Model of source/adam_parser.cpp and source/eve_parser.cpp: the parsers of property models and of layouts.

They are built on the expression parser (`Verif.Expr.Parser`) and read the same tokens.  The client is called back as the
declarations are read: the calls made so far are a log.  Not modelled: line positions, which are passed to the client with every
declaration; a client which throws; `name_t` and `std::string` are lists of characters.
-/
namespace Verif.Decl
open Verif.Expr Parser

/-- models: adobe/adam_parser.hpp:132-138, adobe/eve_parser.hpp:156 `cell_type_t`. -/
inductive Kind where
  | input | output | constant | logic | invariant
  deriving DecidableEq, Repr

variable {D O α β : Type}

/-- models: adobe/adam_parser.hpp:140-146, adobe/eve_parser.hpp:158-164 `relation_t`; a value-initialised one is the default. -/
structure Rel (D O : Type) where
  names : List Str := []
  code : List (Val D O) := []
  detailed : Str := []
  brief : Str := []

/-- Calls of the client: adobe/adam_parser.hpp:148-171, adobe/eve_parser.hpp:167-192.  A view is given to the client with the
position of its parent; the positions the client returns are numbered 1, 2, ... in the order of the calls, 0 is the one given to
`parse`. -/
inductive Call (D O : Type) where
  | cell (k : Kind) (name : Str) (code : List (Val D O)) (brief detailed : Str)
  | interface (name : Str) (linked : Bool) (init code : List (Val D O)) (brief detailed : Str)
  | external (name brief detailed : Str)
  | relation (cond : List (Val D O)) (rels : List (Rel D O)) (brief detailed : Str)
  | finalize
  | view (parent : Nat) (cls : Str) (args : List (Val D O)) (brief detailed : Str)

/-- What a call of a parser function ends with: a result and the tokens left, or an exception; `fuel`: the bound of a loop was
reached (it never is, C76_terminates and C78_terminates). -/
inductive Res (D O α : Type) where
  | ok (a : α) (ts : List (Tok D)) (log : List (Call D O))
  | throw (log : List (Call D O))
  | fuel

def A (D O α : Type) := List (Tok D) → List (Call D O) → Res D O α

def A.pure (a : α) : A D O α := fun ts log => .ok a ts log
def A.bind (x : A D O α) (f : α → A D O β) : A D O β := fun ts log => match x ts log with
  | .ok a ts log => f a ts log
  | .throw log => .throw log
  | .fuel => .fuel

instance : Monad (A D O) where
  pure := A.pure
  bind := A.bind

def throwA : A D O α := fun _ log => .throw log

/-- Call the client. -/
def emit (x : Call D O) : A D O Unit := fun ts log => .ok () ts (log ++ [x])

/-- Use a function of the expression parser; its result comes with what it pushed on an empty stack. -/
def lift (x : M D O α) : A D O (α × List (Val D O)) := fun ts log => match x [] ts with
  | .ok a st ts => .ok (a, st) ts log
  | .throw => .throw log
  | .fuel => .fuel

/-- models: source/expression_parser.cpp:621-628 -/
def tok (y : Sym) : A D O Bool := do return (← lift (isSym y)).1
/-- models: source/expression_parser.cpp:677-684 -/
def need (y : Sym) : A D O Unit := do
  if ← tok y then return () else throwA
/-- models: source/expression_parser.cpp:632-638 -/
def kw (k : Str) : A D O Bool := do return (← lift (isKeyword k)).1
/-- models: source/expression_parser.cpp:571-581 -/
def ident : A D O (Option Str) := do return (← lift isIdent).1
/-- models: source/expression_parser.cpp:583-593 `is_lead_comment`; without a comment the string keeps its value. -/
def lead (old : Str) : A D O Str := do
  match (← lift (accept fun t => match t with
    | .leadComment s => some s
    | _ => none)).1 with
  | some s => return s
  | none => return old
/-- models: source/expression_parser.cpp:595-605 `is_trail_comment`. -/
def trail (old : Str) : A D O Str := do
  match (← lift (accept fun t => match t with
    | .trailComment s => some s
    | _ => none)).1 with
  | some s => return s
  | none => return old

/-- models: source/expression_parser.cpp:212-216 `require_expression` on an empty array.  `P` is the expression parser with a depth
of recursion which C45_terminates shows to be enough. -/
def needExpr (c : Nat → D) : A D O (List (Val D O)) := do
  match ← lift (P c .expression) with
  | (true, code) => return code
  | (false, _) => throwA

/-- `while (x) ;` with a bound on the number of rounds. -/
def loop : Nat → A D O Bool → A D O Unit
  | 0, _ => fun _ _ => .fuel
  | n + 1, x => do
      if ← x then loop n x else return ()

/-- `a || b || ...` -/
def anyOf : List (A D O Bool) → A D O Bool
  | [] => A.pure false
  | x :: xs => do
      if ← x then return true
      anyOf xs

/-! ### The parts the two parsers have in common (the code is the same but for the class name) -/

/-- models: source/adam_parser.cpp:457-465, source/eve_parser.cpp:383-393 `is_initializer` -/
def initializer (c : Nat → D) : A D O (Option (List (Val D O))) := do
  if !(← tok .colon) then return none
  return some (← needExpr c)

/-- models: source/adam_parser.cpp:470-477, source/eve_parser.cpp:398-405 `is_define_expression` -/
def defineExpr (c : Nat → D) : A D O (Option (List (Val D O))) := do
  if !(← tok .is) then return none
  return some (← needExpr c)

/-- models: source/adam_parser.cpp:483-495, source/eve_parser.cpp:411-423 `is_conditional` -/
def conditional (c : Nat → D) : A D O (Option (List (Val D O))) := do
  if !(← kw "when".toList) then return none
  need .openParen
  let e ← needExpr c
  need .closeParen
  return some e

/-- models: source/adam_parser.cpp:500-503, source/eve_parser.cpp:428-431 `require_end_statement` -/
def endStatement (old : Str) : A D O Str := do
  need .semicolon
  trail old

/-- models: source/adam_parser.cpp:444-452, source/eve_parser.cpp:370-378 `is_named_decl` -/
def namedDecl (c : Nat → D) : A D O (Option (Str × List (Val D O) × Str)) := do
  match ← ident with
  | none => return none
  | some n =>
    match ← defineExpr c with
    | none => throwA
    | some e => do
      let brief ← endStatement []
      return some (n, e, brief)

/-- models: source/adam_parser.cpp:429-433, source/eve_parser.cpp:355-359: the further names of a relate expression. -/
def moreNames : Nat → List Str → A D O (List Str)
  | 0, _ => fun _ _ => .fuel
  | n + 1, ns => do
      if ← tok .comma then
        match ← ident with
        | none => throwA
        | some m => moreNames n (ns ++ [m])
      else return ns

/-- models: source/adam_parser.cpp:421-439, source/eve_parser.cpp:347-365 `is_relate_expression_decl`: the relation is passed by
reference, and everything but the comments is added to what it holds. -/
def relateExpr (c : Nat → D) (n : Nat) (r : Rel D O) : A D O (Option (Rel D O)) := do
  let detailed ← lead r.detailed
  match ← ident with
  | none => return none
  | some m => do
    let names ← moreNames n (r.names ++ [m])
    match ← defineExpr c with
    | none => throwA
    | some e => do
      let brief ← endStatement r.brief
      return some { names, code := r.code ++ e, detailed, brief }

/-- models: source/adam_parser.cpp:404-408, source/eve_parser.cpp:330-334: the loop for the third relate expression and those which
follow; `reset` is what is done to the relation between them. -/
def relateLoop (c : Nat → D) (reset : Rel D O → Rel D O) : Nat → Rel D O → A D O (List (Rel D O))
  | 0, _ => fun _ _ => .fuel
  | n + 1, r => do
      match ← relateExpr c n r with
      | none => return []
      | some r => do
        let rs ← relateLoop c reset n (reset r)
        return r :: rs

/-- models: source/adam_parser.cpp:374-415, source/eve_parser.cpp:300-341 `is_relate_decl` -/
def relateDecl (c : Nat → D) (reset : Rel D O → Rel D O) (n : Nat) :
    A D O (Option (List (Val D O) × List (Rel D O) × Str)) := do
  let cond ← conditional c
  if !(← kw "relate".toList) then
    if cond.isSome then throwA else return none
  else do
    need .openBrace
    match ← relateExpr c n {} with
    | none => throwA
    | some r1 =>
      match ← relateExpr c n {} with
      | none => throwA
      | some r2 => do
        let rs ← relateLoop c reset n (reset r1)
        need .closeBrace
        let brief ← trail []
        return some (cond.getD [], r1 :: r2 :: rs, brief)

/-- models: source/adam_parser.cpp:244-265, source/eve_parser.cpp:204-225 `is_interface_cell_decl` -/
def interfaceCell (c : Nat → D) (detailed : Str) : A D O Bool := do
  let unlink ← kw "unlink".toList
  match ← ident with
  | none => return false
  | some n => do
    let init ← initializer c
    let e ← defineExpr c
    let brief ← endStatement []
    emit (.interface n (!unlink) (init.getD []) (e.getD []) brief detailed)
    return true

/-- models: source/adam_parser.cpp:310-326, source/eve_parser.cpp:230-246 `is_constant_cell_decl` -/
def constantCell (c : Nat → D) (detailed : Str) : A D O Bool := do
  match ← ident with
  | none => return false
  | some n =>
    match ← initializer c with
    | none => throwA
    | some e => do
      let brief ← endStatement []
      emit (.cell .constant n e brief detailed)
      return true

/-- models: source/adam_parser.cpp:331-350, source/eve_parser.cpp:276-294 `is_logic_cell_decl` -/
def logicCell (c : Nat → D) (reset : Rel D O → Rel D O) (n : Nat) (detailed : Str) : A D O Bool := do
  match ← namedDecl c with
  | some (m, e, brief) => do
      emit (.cell .logic m e brief detailed)
      return true
  | none =>
    match ← relateDecl c reset n with
    | some (cond, rels, brief) => do
        emit (.relation cond rels brief detailed)
        return true
    | none => return false

/-- models: source/adam_parser.cpp:507-521, source/eve_parser.cpp:164-178 `is_set_decl` -/
def setDecl (n : Nat) (k : Str) (item : Str → A D O Bool) : A D O Bool := do
  if !(← kw k) then return false
  need .colon
  loop n (do
    let detailed ← lead []
    item detailed)
  return true

/-! ### Property models -/

/-- models: source/adam_parser.cpp:270-287 `is_input_cell_decl` -/
def inputCell (c : Nat → D) (detailed : Str) : A D O Bool := do
  match ← ident with
  | none => return false
  | some n => do
    let init ← initializer c
    let brief ← endStatement []
    emit (.cell .input n (init.getD []) brief detailed)
    return true

/-- models: source/adam_parser.cpp:292-305 `is_output_cell_decl` -/
def outputCell (c : Nat → D) (detailed : Str) : A D O Bool := do
  match ← namedDecl c with
  | some (m, e, brief) => do
      emit (.cell .output m e brief detailed)
      return true
  | none => return false

/-- models: source/adam_parser.cpp:355-368 `is_invariant_cell_decl` -/
def invariantCell (c : Nat → D) (detailed : Str) : A D O Bool := do
  match ← namedDecl c with
  | some (m, e, brief) => do
      emit (.cell .invariant m e brief detailed)
      return true
  | none => return false

/-- models: source/adam_parser.cpp:223-236: the body of the loop of `is_external_set_decl`, which is otherwise like `is_set_decl`. -/
def externalCell (detailed : Str) : A D O Bool := do
  match ← ident with
  | none => return false
  | some n => do
    let brief ← endStatement []
    emit (.external n brief detailed)
    return true

/-- models: source/adam_parser.cpp:404, 407 `relation_1 = relation_t();` -/
def adamReset (_ : Rel D O) : Rel D O := {}

/-- models: source/adam_parser.cpp:162-222 `is_qualified_cell_decl` and the `is_..._set_decl` functions -/
def adamSection (c : Nat → D) (n : Nat) : A D O Bool := anyOf [
  setDecl n "interface".toList (interfaceCell c),
  setDecl n "input".toList (inputCell c),
  setDecl n "output".toList (outputCell c),
  setDecl n "constant".toList (constantCell c),
  setDecl n "logic".toList (logicCell c adamReset n),
  setDecl n "invariant".toList (invariantCell c),
  setDecl n "external".toList externalCell]

/-- models: source/adam_parser.cpp:141-155 `is_sheet_specifier` -/
def sheetSpecifier (c : Nat → D) (n : Nat) : A D O Bool := do
  let _ ← lead []
  if !(← kw "sheet".toList) then return false
  match ← ident with
  | none => throwA
  | some _ => do
    need .openBrace
    loop n (adamSection c n)
    need .closeBrace
    let _ ← trail []
    return true

/-- `require_token(eof_k)` -/
def needEof : A D O Unit := fun ts log => match ts with
  | [] => .ok () [] log
  | _ :: _ => .throw log

/-- models: source/adam_parser.cpp:130-135 `parse`; no loop makes more rounds than there are tokens, but for the last one. -/
def adamParse (c : Nat → D) : A D O Unit := fun ts log => (do
  loop (ts.length + 1) (sheetSpecifier c (ts.length + 1))
  needEof : A D O Unit) ts log

/-- models: source/adam_parser.cpp:111-121 `parse_adam_expression`; what follows the expression is not looked at. -/
def parseAdamExpression (c : Nat → D) : A D O (List (Val D O)) := needExpr c

/-! ### Layouts -/

/-- models: source/eve_parser.cpp:330, 333 `relation_1.expression_m.clear();` -/
def eveReset (r : Rel D O) : Rel D O := { r with code := [] }

/-- models: source/eve_parser.cpp:158-199 `is_qualified_cell_decl` and the `is_..._set_decl` functions -/
def eveSection (c : Nat → D) (n : Nat) : A D O Bool := anyOf [
  setDecl n "interface".toList (interfaceCell c),
  setDecl n "constant".toList (constantCell c),
  setDecl n "logic".toList (logicCell c eveReset n)]

/-- The number of views the client was given so far. -/
def viewCount : List (Call D O) → Nat
  | [] => 0
  | .view .. :: l => viewCount l + 1
  | _ :: l => viewCount l

/-- models: source/eve_parser.cpp:455-462 the call of `add_view_proc_m`; the result is the new position. -/
def addView (parent : Nat) (cls : Str) (args : List (Val D O)) (brief detailed : Str) : A D O Nat := fun ts log =>
  .ok (viewCount log + 1) ts (log ++ [.view parent cls args brief detailed])

/-- models: source/eve_parser.cpp:481-493 `is_view_class_decl` -/
def viewClass (c : Nat → D) : A D O (Option (Str × List (Val D O))) := do
  match ← ident with
  | none => return none
  | some n => do
    need .openParen
    let (b, args) ← lift (P c .namedArgList)
    need .closeParen
    return some (n, if b then args else [.dict []])

mutual
/-- models: source/eve_parser.cpp:435-469 `is_view_definition`, with 497-503 `require_view_statement_list` -/
def viewDef (c : Nat → D) : Nat → Nat → A D O Bool
  | 0, _ => fun _ _ => .fuel
  | n + 1, loc => do
      let detailed ← lead []
      match ← viewClass c with
      | none => return false
      | some (cls, args) => do
        let leaf ← tok .semicolon
        let brief ← trail []
        let node ← addView loc cls args brief detailed
        if !leaf then
          need .openBrace
          viewSeq c n node
          need .closeBrace
        return true
/-- models: source/eve_parser.cpp:473-477 `is_view_statement_sequence` -/
def viewSeq (c : Nat → D) : Nat → Nat → A D O Unit
  | 0, _ => fun _ _ => .fuel
  | n + 1, loc => do
      if ← viewDef c n loc then viewSeq c n loc else return ()
end

/-- models: source/eve_parser.cpp:129-154 `is_layout_specifier`; `finalize_sheet_proc_m` is taken to be given. -/
def layoutSpecifier (c : Nat → D) (n : Nat) : A D O Bool := do
  let _ ← lead []
  if !(← kw "layout".toList) then return false
  match ← ident with
  | none => throwA
  | some _ => do
    need .openBrace
    loop n (eveSection c n)
    emit .finalize
    if !(← kw "view".toList) then throwA
    else do
      if !(← viewDef c n 0) then throwA
      else do
        need .closeBrace
        let _ ← trail []
        return true

/-- models: source/eve_parser.cpp:122-125 `parse` -/
def eveParse (c : Nat → D) : A D O Unit := fun ts log => (do
  if ← layoutSpecifier c (2 * ts.length + 2) then return () else throwA : A D O Unit) ts log

end Verif.Decl
