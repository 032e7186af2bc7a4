import Verif.Expr.Spec
/-
The languages of property models and of layouts: abstract syntax and grammar over tokens, as documented in
adobe/adam_parser.hpp:37-75 and adobe/eve_parser.hpp:39-76, on top of the grammar of expressions (`Verif.Expr.Spec.Derives`).
Nothing here refers to the parsers.

The grammar comes in two versions: the documented one (`lax = false`), and one with the additions marked `lax = true`, which the
parsers accept as well: a comment that precedes nothing at the end of a list, and `unlink` that precedes nothing at the end of an
interface section.
-/
namespace Verif.Decl.Spec
open Verif.Expr Verif.Expr.Spec

/-- The sections of a sheet; in a layout there are only `interface`, `constant` and `logic`. -/
inductive Section where
  | interface | input | output | constant | logic | invariant | external
  deriving DecidableEq, Repr

def Section.keyword : Section → Str
  | .interface => "interface".toList
  | .input => "input".toList
  | .output => "output".toList
  | .constant => "constant".toList
  | .logic => "logic".toList
  | .invariant => "invariant".toList
  | .external => "external".toList

variable (D O : Type)

/-- `names <== e;` in a relation. -/
structure RelDecl where
  names : List Str
  e : Expr D O
  detailed : Str
  brief : Str

/-- A declaration, with the comment before it (`detailed`) and the comment after it (`brief`), which are empty when there is
none. -/
inductive Decl where
  | interface (name : Str) (linked : Bool) (init define : Option (Expr D O)) (brief detailed : Str)
  | input (name : Str) (init : Option (Expr D O)) (brief detailed : Str)
  | constant (name : Str) (init : Expr D O) (brief detailed : Str)
  | output (name : Str) (e : Expr D O) (brief detailed : Str)
  | logic (name : Str) (e : Expr D O) (brief detailed : Str)
  | invariant (name : Str) (e : Expr D O) (brief detailed : Str)
  | external (name : Str) (brief detailed : Str)
  | relate (cond : Option (Expr D O)) (rels : List (RelDecl D O)) (brief detailed : Str)

/-- A view: class, arguments (a dictionary), comments, and the views it contains. -/
inductive View where
  | mk (cls : Str) (args : Expr D O) (brief detailed : Str) (children : List View)

variable {D O}

/-! ### Productions common to both languages -/

/-- [lead_comment] -/
inductive Lead : List (Tok D) → Str → Prop where
  | none : Lead [] []
  | some (s : Str) : Lead [.leadComment s] s

/-- [trail_comment] -/
inductive Trail : List (Tok D) → Str → Prop where
  | none : Trail [] []
  | some (s : Str) : Trail [.trailComment s] s

/-- end_statement = ";" [trail_comment]. -/
inductive End : List (Tok D) → Str → Prop where
  | mk {ts brief} : Trail ts brief → End (.sym .semicolon :: ts) brief

/-- initializer = ":" expression. -/
inductive Init : List (Tok D) → Expr D O → Prop where
  | mk {ts e} : Derives .expression ts (.e e) → Init (.sym .colon :: ts) e

/-- define_expression = "<==" expression. -/
inductive Define : List (Tok D) → Expr D O → Prop where
  | mk {ts e} : Derives .expression ts (.e e) → Define (.sym .is :: ts) e

/-- [x] -/
inductive Opt (x : List (Tok D) → Expr D O → Prop) : List (Tok D) → Option (Expr D O) → Prop where
  | none : Opt x [] .none
  | some {ts e} : x ts e → Opt x ts (.some e)

/-- conditional = "when" "(" expression ")". -/
inductive Cond : List (Tok D) → Expr D O → Prop where
  | mk {ts e} : Derives .expression ts (.e e) →
      Cond (.kw "when".toList :: .sym .openParen :: (ts ++ [.sym .closeParen])) e

/-- identifier { "," identifier } -/
inductive Names : List (Tok D) → List Str → Prop where
  | one (n : Str) : Names [.ident n] [n]
  | more (n : Str) {ts ns} : Names ts ns → Names (.ident n :: .sym .comma :: ts) (n :: ns)

/-- relate_expression = [lead_comment] identifier { "," identifier } define_expression end_statement. -/
inductive RelateExpr : List (Tok D) → RelDecl D O → Prop where
  | mk {l n d b detailed names e brief} : Lead l detailed → Names n names → Define d e → End b brief →
      RelateExpr (l ++ n ++ d ++ b) ⟨names, e, detailed, brief⟩

/-- { relate_expression } -/
inductive RelateExprs (lax : Bool) : List (Tok D) → List (RelDecl D O) → Prop where
  | nil : RelateExprs lax [] []
  | cons {ts us r rs} : RelateExpr ts r → RelateExprs lax us rs → RelateExprs lax (ts ++ us) (r :: rs)
  | dangling (s : Str) : lax = true → RelateExprs lax [.leadComment s] []

/-- ["unlink"] -/
inductive Unlink : List (Tok D) → Bool → Prop where
  | linked : Unlink [] true
  | unlinked : Unlink [.kw "unlink".toList] false

/-- named_decl = identifier define_expression end_statement. -/
inductive Named : List (Tok D) → Str → Expr D O → Str → Prop where
  | mk (n : Str) {d b e brief} : Define d e → End b brief → Named (.ident n :: (d ++ b)) n e brief

/-- The declarations of each section; `detailed` is the comment in front. -/
inductive Cell (lax : Bool) (detailed : Str) : Section → List (Tok D) → Decl D O → Prop where
  -- interface_cell_decl = ["unlink"] identifier [initializer] [define_expression] end_statement.
  | interface (n : Str) {u i d b linked init define brief} : Unlink u linked → Opt Init i init → Opt Define d define → End b brief →
      Cell lax detailed .interface (u ++ .ident n :: (i ++ d ++ b)) (.interface n linked init define brief detailed)
  -- input_cell_decl = identifier [initializer] end_statement.
  | input (n : Str) {i b init brief} : Opt Init i init → End b brief →
      Cell lax detailed .input (.ident n :: (i ++ b)) (.input n init brief detailed)
  -- output_cell_decl = named_decl.
  | output {ts n e brief} : Named ts n e brief → Cell lax detailed .output ts (.output n e brief detailed)
  -- constant_cell_decl = identifier initializer end_statement.
  | constant (n : Str) {i b init brief} : Init i init → End b brief →
      Cell lax detailed .constant (.ident n :: (i ++ b)) (.constant n init brief detailed)
  -- logic_cell_decl = named_decl | relate_decl.
  | logic {ts n e brief} : Named ts n e brief → Cell lax detailed .logic ts (.logic n e brief detailed)
  -- relate_decl = [conditional] "relate" "{" relate_expression relate_expression { relate_expression } "}" [trail_comment].
  | relate {c r1 r2 rs t cond d1 d2 ds brief} : Opt Cond c cond → RelateExpr r1 d1 → RelateExpr r2 d2 → RelateExprs lax rs ds →
      Trail t brief →
      Cell lax detailed .logic (c ++ .kw "relate".toList :: .sym .openBrace :: (r1 ++ r2 ++ rs ++ .sym .closeBrace :: t))
        (.relate cond (d1 :: d2 :: ds) brief detailed)
  -- invariant_cell_decl = named_decl.
  | invariant {ts n e brief} : Named ts n e brief → Cell lax detailed .invariant ts (.invariant n e brief detailed)
  -- in external_set_decl: identifier end_statement
  | external (n : Str) {b brief} : End b brief → Cell lax detailed .external (.ident n :: b) (.external n brief detailed)

/-- { [lead_comment] ..._cell_decl } -/
inductive Cells (lax : Bool) (sec : Section) : List (Tok D) → List (Decl D O) → Prop where
  | nil : Cells lax sec [] []
  | cons {l ts us detailed d ds} : Lead l detailed → Cell lax detailed sec ts d → Cells lax sec us ds →
      Cells lax sec (l ++ ts ++ us) (d :: ds)
  | dangling (s : Str) : lax = true → Cells lax sec [.leadComment s] []
  | danglingUnlink {l s} : lax = true → sec = .interface → Lead l s → Cells lax sec (l ++ [.kw "unlink".toList]) []

/-- { qualified_cell_decl }, where the sections are those for which `ok` holds. -/
inductive Sections (lax : Bool) (ok : Section → Prop) : List (Tok D) → List (Decl D O) → Prop where
  | nil : Sections lax ok [] []
  | cons {sec ts us ds es} : ok sec → Cells lax sec ts ds → Sections lax ok us es →
      Sections lax ok (.kw sec.keyword :: .sym .colon :: (ts ++ us)) (ds ++ es)

/-! ### Property models -/

/-- translation_unit = { sheet_specifier }.
sheet_specifier = [lead_comment] "sheet" identifier "{" { qualified_cell_decl } "}" [trail_comment].
(The name of the sheet and the comments at its ends are not passed on.) -/
inductive Sheets (lax : Bool) : List (Tok D) → List (Decl D O) → Prop where
  | nil : Sheets lax [] []
  | cons (n : Str) {l ts t us s s' ds es} : Lead l s → Sections lax (fun _ => True) ts ds → Trail t s' → Sheets lax us es →
      Sheets lax (l ++ .kw "sheet".toList :: .ident n :: .sym .openBrace :: (ts ++ .sym .closeBrace :: (t ++ us))) (ds ++ es)
  | dangling (s : Str) : lax = true → Sheets lax [.leadComment s] []

/-! ### Layouts -/

/-- view_class_decl = ident "(" [ named_argument_list ] ")". -/
inductive Class : List (Tok D) → Str → Expr D O → Prop where
  | noArgs (n : Str) : Class [.ident n, .sym .openParen, .sym .closeParen] n (.const (.dict []))
  | args (n : Str) {ts ms} : Derives .named ts (.ms ms) →
      Class (.ident n :: .sym .openParen :: (ts ++ [.sym .closeParen])) n (.dict ms)

mutual
/-- view_definition = [lead_comment] view_class_decl ((";" [trail_comment]) | ([trail_comment] view_statement_list)).
view_statement_list = "{" view_statement_sequence "}". -/
inductive ViewDef (lax : Bool) : List (Tok D) → View D O → Prop where
  | leaf {l ts t detailed cls args brief} : Lead l detailed → Class ts cls args → Trail t brief →
      ViewDef lax (l ++ ts ++ .sym .semicolon :: t) (.mk cls args brief detailed [])
  | node {l ts t us detailed cls args brief vs} : Lead l detailed → Class ts cls args → Trail t brief → ViewDefs lax us vs →
      ViewDef lax (l ++ ts ++ t ++ .sym .openBrace :: (us ++ [.sym .closeBrace])) (.mk cls args brief detailed vs)
/-- view_statement_sequence = { view_definition }. -/
inductive ViewDefs (lax : Bool) : List (Tok D) → List (View D O) → Prop where
  | nil : ViewDefs lax [] []
  | cons {ts us v vs} : ViewDef lax ts v → ViewDefs lax us vs → ViewDefs lax (ts ++ us) (v :: vs)
  | dangling (s : Str) : lax = true → ViewDefs lax [.leadComment s] []
end

/-- The sections of a layout. -/
def InLayout (s : Section) : Prop := s = .interface ∨ s = .constant ∨ s = .logic

/-- layout_specifier = [lead_comment] "layout" identifier "{" { qualified_cell_decl } "view" view_definition "}" [trail_comment]. -/
inductive Layout (lax : Bool) : List (Tok D) → List (Decl D O) → View D O → Prop where
  | mk (n : Str) {l ts us t s s' ds v} : Lead l s → Sections lax InLayout ts ds → ViewDef lax us v → Trail t s' →
      Layout lax (l ++ .kw "layout".toList :: .ident n :: .sym .openBrace ::
        (ts ++ .kw "view".toList :: (us ++ .sym .closeBrace :: t))) ds v

end Verif.Decl.Spec
