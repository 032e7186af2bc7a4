import Verif.Bind.Model
/-
What a property model says about the cells of a sheet, read off its declarations (`Verif.Decl.Spec.Decl`).  `pe` is what an
expression of the text is as a program.
-/
namespace Verif.Bind
open Verif.Adam
open Verif.Decl.Spec (Decl)

variable {D O V : Type}

/-- Kind, name, expression and `linked` of a cell. -/
abbrev Sig (V : Type) := Access × Str × Calc Str V × Bool

/-- The cells of a sheet, in order of creation. -/
def sigs (s : Sheet Str V) : List (Sig V) :=
  (List.range s.size).map fun i => ((s.cell i).spec, (s.cell i).name, (s.cell i).calculator, (s.cell i).linked)

/-- The relations of a sheet: condition and terms. -/
def rels (s : Sheet Str V) : List (Option (Prog Str V) × List (RelTerm Str V)) :=
  (List.range s.nrel).map fun j => ((s.rel j).cond, (s.rel j).terms)

/-- The names of a sheet, in order. -/
def names (s : Sheet Str V) : List Str := s.nameIndex.map (·.1)

/-- The cells a declaration asks for; an interface cell has two halves. -/
def cellsOf (pe : Verif.Expr.Spec.Expr D O → Prog Str V) : Decl D O → List (Sig V)
  | .interface n linked init define _ _ =>
      [(.interfaceInput, n, (match init with | none => .none | some e => .expr (pe e)), linked),
       (.interfaceOutput, n, (match define with | none => .self | some e => .expr (pe e)), false)]
  | .input n _ _ _ => [(.input, n, .none, false)]
  | .constant n _ _ _ => [(.constant, n, .none, false)]
  | .output n e _ _ => [(.output, n, .expr (pe e), false)]
  | .logic n e _ _ => [(.logic, n, .expr (pe e), false)]
  | .invariant n e _ _ => [(.invariant, n, .expr (pe e), false)]
  | .external _ _ _ => []
  | .relate _ _ _ _ => []

/-- The relations a declaration asks for. -/
def relsOf (pe : Verif.Expr.Spec.Expr D O → Prog Str V) : Decl D O → List (Option (Prog Str V) × List (RelTerm Str V))
  | .relate cond rs _ _ => [(cond.map pe, rs.map fun r => { names := r.names, prog := pe r.e })]
  | _ => []

/-- The name a declaration introduces. -/
def nameOf : Decl D O → List Str
  | .interface n _ _ _ _ _ => [n]
  | .input n _ _ _ => [n]
  | .constant n _ _ _ => [n]
  | .output n _ _ _ => [n]
  | .logic n _ _ _ => [n]
  | .invariant n _ _ _ => [n]
  | .external _ _ _ => []
  | .relate _ _ _ _ => []

/-- The value of an expression whose variables have the values `env`; `none`: it fails. -/
def value (env : Str → Option V) : Prog Str V → Option V
  | .ret v => some v
  | .fail => none
  | .ask n k => (env n).bind fun v => value env (k v)

/-- The values inputs, interface cells and constants start with: the initializers are evaluated once, in the order of the text, each
with the values of those before it; a cell without initializer is empty.  An interface cell already exists, empty, when its
initializer is evaluated. -/
def start [Values V] (pe : Verif.Expr.Spec.Expr D O → Prog Str V) : List (Decl D O) → List (Str × V) → Option (List (Str × V))
  | [], env => some env
  | .input n none _ _ :: ds, env => start pe ds (env ++ [(n, Values.empty)])
  | .input n (some e) _ _ :: ds, env => (value (fun m => List.lookup m env) (pe e)).bind fun v => start pe ds (env ++ [(n, v)])
  | .constant n e _ _ :: ds, env => (value (fun m => List.lookup m env) (pe e)).bind fun v => start pe ds (env ++ [(n, v)])
  | .interface n _ none _ _ _ :: ds, env => start pe ds (env ++ [(n, Values.empty)])
  | .interface n _ (some e) _ _ _ :: ds, env =>
      (value (fun m => List.lookup m (env ++ [(n, Values.empty)])) (pe e)).bind fun v => start pe ds (env ++ [(n, v)])
  | _ :: ds, env => start pe ds env

/-- The value of the input, interface cell or constant `n` in a sheet as it was built. -/
def startValue (s : Sheet Str V) (n : Str) : Option V :=
  match s.inputIndex.find n with
  | some i => some (s.cell i).state
  | none => match s.nameIndex.find n with
      | some i => if (s.cell i).spec = .constant then some (s.cell i).state else none
      | none => none

/-- The declaration of the interface cell `n`. -/
def IsInterface (n : Str) : Decl D O → Prop
  | .interface m _ _ _ _ _ => m = n
  | _ => False

/-- A declaration of the section `external:`. -/
def IsExternal : Decl D O → Prop
  | .external _ _ _ => True
  | _ => False

/-- What a property model must satisfy, besides its grammar: no name is declared twice; the initializers of inputs, interface cells
and constants only use what is declared before them, and can be evaluated; relations are between interface cells declared before
them; and there is an external model for external cells. -/
structure Acceptable [Values V] (pe : Verif.Expr.Spec.Expr D O → Prog Str V) (ext : Bool) (ds : List (Decl D O)) : Prop where
  names : (ds.flatMap nameOf).Nodup
  inits : ∃ env, start pe ds [] = some env
  relates : ∀ a b cond rs brief detailed, ds = a ++ .relate cond rs brief detailed :: b →
    rs ≠ [] ∧ ∀ r ∈ rs, ∀ n ∈ r.names, ∃ d ∈ a, IsInterface n d
  external : ∀ d ∈ ds, IsExternal d → ext = true

end Verif.Bind
