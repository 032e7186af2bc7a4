import Verif.Script.Model
/-! The texts, as lists of characters. -/
namespace Verif.Script

@[simp] theorem lit0 : lit "{" = ['{'] := by unfold lit; decide
@[simp] theorem lit1 : lit "}" = ['}'] := by unfold lit; decide
@[simp] theorem lit2 : lit ", " = [',', ' '] := by unfold lit; decide
@[simp] theorem lit3 : lit "," = [','] := by unfold lit; decide
@[simp] theorem lit4 : lit "new name('" = ['n', 'e', 'w', ' ', 'n', 'a', 'm', 'e', '(', '\''] := by unfold lit; decide
@[simp] theorem lit5 : lit ": " = [':', ' '] := by unfold lit; decide
@[simp] theorem lit6 : lit "')" = ['\'', ')'] := by unfold lit; decide
@[simp] theorem lit7 : lit "nil" = ['n', 'i', 'l'] := by unfold lit; decide
@[simp] theorem lit8 : lit "'" = ['\''] := by unfold lit; decide
@[simp] theorem lit9 : lit "<<" = ['<', '<'] := by unfold lit; decide
@[simp] theorem lit10 : lit ">>" = ['>', '>'] := by unfold lit; decide
@[simp] theorem lit11 : lit " " = [' '] := by unfold lit; decide
@[simp] theorem lit12 : lit "null" = ['n', 'u', 'l', 'l'] := by unfold lit; decide
@[simp] theorem lit13 : lit "/" = ['/'] := by unfold lit; decide
@[simp] theorem lit14 : lit "(" = ['('] := by unfold lit; decide
@[simp] theorem lit15 : lit ")" = [')'] := by unfold lit; decide
@[simp] theorem lit16 : lit "\n" = ['\n'] := by unfold lit; decide
@[simp] theorem lit17 : lit "true" = ['t', 'r', 'u', 'e'] := by unfold lit; decide
@[simp] theorem lit18 : lit "false" = ['f', 'a', 'l', 's', 'e'] := by unfold lit; decide
@[simp] theorem lit19 : lit "[ " = ['[', ' '] := by unfold lit; decide
@[simp] theorem lit20 : lit " ]" = [' ', ']'] := by unfold lit; decide
@[simp] theorem lit21 : lit "[ ]" = ['[', ' ', ']'] := by unfold lit; decide
@[simp] theorem lit22 : lit "{ }" = ['{', ' ', '}'] := by unfold lit; decide
@[simp] theorem lit23 : lit "{\n" = ['{', '\n'] := by unfold lit; decide
@[simp] theorem lit24 : lit "<< >>" = ['<', '<', ' ', '>', '>'] := by unfold lit; decide
@[simp] theorem lit25 : lit "<<\n" = ['<', '<', '\n'] := by unfold lit; decide
@[simp] theorem lit26 : lit ",\n" = [',', '\n'] := by unfold lit; decide

@[simp] theorem lit_close : lit "]" = [']'] := by unfold lit; decide

theorem lit_toList (s : String) : lit s = s.toList := by unfold lit; rfl

end Verif.Script
