import Verif.Decl.Props
/-
Concrete cases which meet the hypotheses of C76-C79.
-/
namespace Verif.Decl
open Verif.Expr Verif.Decl.Spec

/-- `/* d */ sheet s { interface: /* a comment */ unlink a : b <== b; // brief
output: r <== a; }` -/
def sheetText : List (Tok Nat) := [.leadComment "d".toList, .kw "sheet".toList, .ident "s".toList, .sym .openBrace,
  .kw "interface".toList, .sym .colon, .leadComment "a comment".toList, .kw "unlink".toList, .ident "a".toList, .sym .colon,
  .ident "b".toList, .sym .is, .ident "b".toList, .sym .semicolon, .trailComment "brief".toList,
  .kw "output".toList, .sym .colon, .ident "r".toList, .sym .is, .ident "a".toList, .sym .semicolon, .sym .closeBrace]

def sheetDecls : List (Decl Nat Nat) := [
  .interface "a".toList false (some (.var "b".toList)) (some (.var "b".toList)) "brief".toList "a comment".toList,
  .output "r".toList (.var "a".toList) [] []]

theorem sheetText_derives : Sheets false sheetText sheetDecls := by
  have h1 : Cells (D := Nat) (O := Nat) false .interface _ _ := .cons (.some "a comment".toList)
    (.interface "a".toList .unlinked (.some (.mk (var_expr "b".toList))) (.some (.mk (var_expr "b".toList))) (.mk (.some "brief".toList))) .nil
  have h2 : Cells (D := Nat) (O := Nat) false .output _ _ := .cons .none (.output (.mk "r".toList (.mk (var_expr "a".toList)) (.mk .none))) .nil
  have h3 : Sections (D := Nat) (O := Nat) false (fun _ => True) _ _ := .cons trivial h1 (.cons trivial h2 .nil)
  exact Sheets.cons "s".toList (.some "d".toList) h3 .none .nil

/-- C76_complete -/
example : adamParse (O := Nat) id sheetText [] = .ok () [] [
    .interface "a".toList false [.name "b".toList, .name Vm.variable_k] [.name "b".toList, .name Vm.variable_k] "brief".toList
      "a comment".toList,
    .cell .output "r".toList [.name "a".toList, .name Vm.variable_k] [] []] := C76_complete id _ _ sheetText_derives

/-- C77_sheet_failure: a semicolon is missing after the second declaration; the first has been reported. -/
example : adamParse (O := Nat) id (sheetText.take 20 ++ [.sym .closeBrace]) [] = .throw [
    .interface "a".toList false [.name "b".toList, .name Vm.variable_k] [.name "b".toList, .name Vm.variable_k] "brief".toList
      "a comment".toList] := rfl

/-- `layout l { constant: k : a; view dialog(name: a) { group() { button(); } text(); } }` -/
def layoutText : List (Tok Nat) := [.kw "layout".toList, .ident "l".toList, .sym .openBrace, .kw "constant".toList, .sym .colon,
  .ident "k".toList, .sym .colon, .ident "a".toList, .sym .semicolon, .kw "view".toList,
  .ident "dialog".toList, .sym .openParen, .ident "name".toList, .sym .colon, .ident "a".toList, .sym .closeParen, .sym .openBrace,
  .ident "group".toList, .sym .openParen, .sym .closeParen, .sym .openBrace,
  .ident "button".toList, .sym .openParen, .sym .closeParen, .sym .semicolon, .sym .closeBrace,
  .ident "text".toList, .sym .openParen, .sym .closeParen, .sym .semicolon, .sym .closeBrace, .sym .closeBrace]

def noArgs : Expr.Spec.Expr Nat Nat := .const (.dict [])
def layoutView : View Nat Nat := .mk "dialog".toList (.dict [("name".toList, .var "a".toList)]) [] [] [
  .mk "group".toList noArgs [] [] [.mk "button".toList noArgs [] [] []], .mk "text".toList noArgs [] [] []]

theorem layoutText_derives : Layout false layoutText [.constant "k".toList (.var "a".toList) [] []] layoutView := by
  have h1 : Cells (D := Nat) (O := Nat) false .constant _ _ := .cons .none (.constant "k".toList (.mk (var_expr "a".toList)) (.mk .none)) .nil
  have h2 : Sections (D := Nat) (O := Nat) false InLayout _ _ := .cons (.inr (.inl rfl)) h1 .nil
  have h3 : ViewDef (D := Nat) (O := Nat) false _ _ := .leaf .none (.noArgs "button".toList) .none
  have h4 : ViewDef (D := Nat) (O := Nat) false _ _ := .node .none (.noArgs "group".toList) .none (.cons h3 .nil)
  have h5 : ViewDef (D := Nat) (O := Nat) false _ _ := .leaf .none (.noArgs "text".toList) .none
  have h6 : ViewDef (D := Nat) (O := Nat) false _ _ :=
    .node .none (.args "dialog".toList (.member "name".toList (var_expr "a".toList))) .none (.cons h4 (.cons h5 .nil))
  exact Layout.mk "l".toList .none h2 h6 .none

/-- C78_complete_partial: the parents are 0 (the root), 1, 2, 1. -/
example : eveParse (O := Nat) id (layoutText ++ [.ident "more".toList]) [] = .ok () [.ident "more".toList] [
    .cell .constant "k".toList [.name "a".toList, .name Vm.variable_k] [] [], .finalize,
    .view 0 "dialog".toList [.name "name".toList, .name "a".toList, .name Vm.variable_k, .num 1, .name Vm.dictionary_k] [] [],
    .view 1 "group".toList [.dict []] [] [], .view 2 "button".toList [.dict []] [] [], .view 1 "text".toList [.dict []] [] []] :=
  C78_complete_partial id _ _ _ _ layoutText_derives (by simp [Simple]) (by rintro t r h; cases h; simp)

/-- C77_layout_failure: the braces are missing. -/
example : ∃ log, eveParse (O := Nat) id (layoutText.take 24) [] = .throw log ∧ log.length = 5 := ⟨_, rfl, rfl⟩

/-- C79_expression_partial -/
example : parseAdamExpression (O := Nat) id [.ident "a".toList, .sym .add, .num 1] [] =
    .ok [.name "a".toList, .name Vm.variable_k, .num 1, .name Vm.add_k] [] [] := rfl

end Verif.Decl
