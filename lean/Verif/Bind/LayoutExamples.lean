import Verif.Bind.Layout
import Verif.Bind.Examples
/-! A concrete case which meets the hypotheses of C134. -/
namespace Verif.Bind
open Verif.Adam Verif.Expr
open Verif.Adam.Ex (Vl)

/-- `layout l { interface: a; view dialog(name: a) { button(); } }` -/
def layoutText : List (Tok Nat) := [.kw "layout".toList, .ident "l".toList, .sym .openBrace, .kw "interface".toList, .sym .colon,
  .ident "a".toList, .sym .semicolon, .kw "view".toList, .ident "dialog".toList, .sym .openParen, .ident "name".toList, .sym .colon,
  .ident "a".toList, .sym .closeParen, .sym .openBrace, .ident "button".toList, .sym .openParen, .sym .closeParen, .sym .semicolon,
  .sym .closeBrace, .sym .closeBrace]

/-- The arguments of a view are taken to be the number of cells of the sheet and the length of their code. -/
def countArgs (code : List (Val Nat Nat)) : M Str Vl (Nat × Nat) := do
  let n ← gets (·.size)
  pure (n, code.length)

/-- C134_layout_partial: the interface cell has two halves, and the button is in the dialog, which is the first view. -/
example : (readLayout varProg countArgs (pure ()) id layoutText (Sheet.empty [])).1 =
    .ok [(0, "dialog".toList, (2, 5)), (1, "button".toList, (2, 1))] := rfl

/-- C134_accepts_partial: a layout with an acceptable cell. -/
example : Acceptable (fun e => varProg (compile id e)) false [.interface "a".toList true none none [] []] where
  names := by decide
  inits := ⟨[("a".toList, .empty)], rfl⟩
  relates := by
    intro a b cond rs brief detailed h
    match a, h with
    | [], h => cases h
    | _ :: l, h => cases l <;> cases h
  external := by
    intro d hd h
    simp only [List.mem_singleton] at hd
    subst hd
    exact h.elim

end Verif.Bind
