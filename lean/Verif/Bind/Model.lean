import Verif.Adam.Main
import Verif.Decl.Report
/-
Model of source/adam_evaluate.cpp: `bind_to_sheet`, the callbacks which put what the property model parser reports into a sheet.

`prog` stands for running an array of code with the variables of the sheet (`Verif.Adam.Link` and C114 relate the two; nothing here
depends on what it is).  Line positions and comments are dropped, as in `Verif.Adam`.
-/
namespace Verif.Bind
open Verif.Adam

variable {D O V : Type} [DecidableEq V] [Values V]

abbrev Str := Verif.Expr.Str

/-- An empty array is no expression. models: source/adam.cpp:722 `if (initializer.size())`, 766-791, 215-230. -/
def opt (prog : List (Verif.Expr.Val D O) → Prog Str V) (code : List (Verif.Expr.Val D O)) : Option (Prog Str V) :=
  match code with
  | [] => none
  | _ :: _ => some (prog code)

/-- models: source/adam_evaluate.cpp:24-51 `add_cell`. -/
def addCell (prog : List (Verif.Expr.Val D O) → Prog Str V) (k : Verif.Decl.Kind) (n : Str) (code : List (Verif.Expr.Val D O)) :
    M Str V Unit :=
  match k with
  | .input => addInput n (opt prog code)
  | .output => addOutput n (prog code)
  | .constant => addConstant n (prog code)
  | .logic => addLogic n (prog code)
  | .invariant => addInvariant n (prog code)

/-- models: source/adam_evaluate.cpp:55-78 `add_relation`: `&relations[0]` is undefined when there are none. -/
def addRel (prog : List (Verif.Expr.Val D O) → Prog Str V) (cond : List (Verif.Expr.Val D O)) (rels : List (Verif.Decl.Rel D O)) :
    M Str V Unit :=
  match rels with
  | [] => throw .ub
  | _ :: _ => addRelation (opt prog cond) (rels.map fun r => { names := r.names, prog := prog r.code })

/-- The callbacks of the suite: source/adam_evaluate.cpp:90-103 `bind_to_sheet(sheet)` (`ext = false`: `add_external_proc_m` stays
empty, calling it throws `std::bad_function_call`) and 107-114 `bind_to_sheet(sheet, external_model)` (`ext = true`: the sheet is
not concerned).  The property model parser has no other callbacks. -/
def callback (prog : List (Verif.Expr.Val D O) → Prog Str V) (ext : Bool) : Verif.Decl.Call D O → M Str V Unit
  | .cell k n code _ _ => addCell prog k n code
  | .interface n linked init code _ _ => addInterface n linked (opt prog init) (opt prog code)
  | .relation cond rels _ _ => addRel prog cond rels
  | .external _ _ _ => if ext then pure () else throw .badFunctionCall
  | .finalize => pure ()
  | .view _ _ _ _ _ => pure ()

/-- The callbacks of a parse, in order; an exception of a callback ends the parse. -/
def build (prog : List (Verif.Expr.Val D O) → Prog Str V) (ext : Bool) : List (Verif.Decl.Call D O) → M Str V Unit
  | [] => pure ()
  | x :: xs => do
      callback prog ext x
      build prog ext xs

/-- How reading a property model ends: with the exception of a callback, or with a syntax error. -/
inductive Fault where
  | callback (e : Err Str)
  | syntaxError
  deriving DecidableEq, Repr

/-- models: source/adam_parser.cpp:104-107 `parse(stream, position, callbacks)` with the callbacks of `bind_to_sheet`.  The callbacks
run while the text is read: those before a syntax error have run, and an exception of one of them comes before a syntax error which
follows. -/
def readSheet (prog : List (Verif.Expr.Val D O) → Prog Str V) (ext : Bool) (c : Nat → D) (ts : List (Verif.Expr.Tok D)) (s : Sheet Str V) :
    Except Fault Unit × Sheet Str V :=
  match Verif.Decl.adamParse c ts [] with
  | .ok _ _ log => match build prog ext log s with
      | (.ok _, s') => (.ok (), s')
      | (.error e, s') => (.error (.callback e), s')
  | .throw log => match build prog ext log s with
      | (.ok _, s') => (.error .syntaxError, s')
      | (.error e, s') => (.error (.callback e), s')
  | .fuel => (.error .syntaxError, s)

end Verif.Bind
