import Verif.ErrFmt.Props
/-! The hypotheses of C111 and C112 are met. -/
namespace Verif.ErrFmt
open Spec

def exLine : Str := "\t  cell x: y$;".toList
def exPos : Pos := Pos.mk5 "sheet.adm".toList (some fun _ _ => exLine) 7 100 112

theorem exParts : Parts exLine "\t  ".toList "cell x: y$;".toList [] where
  eq := rfl
  blanks := by intro c hc; revert c; decide +kernel
  first := ⟨'c', "ell x: y$;".toList, rfl, by decide⟩
  last := ⟨"cell x: y$".toList, ';', rfl, by decide⟩
  null := by simp

example : ∃ t k, Shows "cell x: y$;".toList t ∧ formatSnippet exPos = t ++ '\n' :: caretLine k ∧ (3 : Int) + k + 1 = 12 :=
  C111_snippet_partial (p := exPos) rfl exParts (by decide) (by decide) (by decide)

example : formatError (Err.new "bad character".toList exPos) =
    some "sheet.adm:7:13: error: bad character\ncell x: y$;\n        ^\n".toList := by decide +kernel

example : getLine [] "one\r\ntwo".toList = ("two".toList, "one".toList) := by decide +kernel
example : FirstLine "one\r\ntwo".toList "one".toList "two".toList := C112_get_line _

end Verif.ErrFmt
