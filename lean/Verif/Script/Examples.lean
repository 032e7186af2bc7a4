import Verif.Script.Props
/-! Cases that meet the hypotheses of C121 and C122. -/
namespace Verif.Script
open Verif.Expr
open Verif.Cel.Spec (tabs norm normAll normMembers)
open Spec

/-- Integers as numbers. -/
def exCfg (y : Style) : Cfg Int Unit where
  style := y
  int64 x := if -2 ^ 63 ≤ x ∧ x < 2 ^ 63 then some x else none
  eqInt x i := decide (x = i)
  fixed _ := []
  typeO _ := ['T']

def exValue : Val Int Unit := .dict [(['b'], .arr [.num (-12), .str ['x', '(', ')'], .name ['n']]), (['a'], .bool true)]

theorem exNumbers (y : Style) : Numbers (fun x => numText (exCfg y) x = some (XmlOut.intText x)) exValue := by
  simp [exValue, Numbers, NumbersMembers, NumbersAll, numText, exCfg]

/-- Members are sorted, one in each line. -/
example : ∃ t, serialize (exCfg javascript) exValue = some t := ⟨_, C121_javascript _ rfl exValue (exNumbers _)⟩
example : js (D := Int) (O := Unit) XmlOut.intText (fun _ => []) 0 (.dict [(['a'], .bool true), (['b'], .arr [.num 7, .str ['x']])]) =
    lit "{\n" ++ ('\t' :: lit "a: true") ++ lit ",\n" ++ ('\t' :: lit "b: [ 7, 'x' ]") ++ lit "\n" ++ lit "}" := by
  have e : XmlOut.intText 7 = ['7'] := by decide
  have e1 : lit "a: true" = ['a', ':', ' ', 't', 'r', 'u', 'e'] := by unfold lit; decide
  have e2 : lit "b: [ 7, 'x' ]" = ['b', ':', ' ', '[', ' ', '7', ',', ' ', '\'', 'x', '\'', ' ', ']'] := by unfold lit; decide
  simp [js, jsMembers, jsMore, tabs, e, e1, e2]

theorem exTold (y : Style) : Told (exCfg y) fun x => ∃ i, (exCfg y).int64 x = some i ∧ (exCfg y).eqInt x i = true :=
  C122_integers _ (by intro x x' i h h'; simp [exCfg] at h h'; rw [h, h'])

theorem exEvery_js : Every (fun x => ∃ i, (exCfg javascript).int64 x = some i ∧ (exCfg javascript).eqInt x i = true) (fun n => '\'' ∉ n) (fun s => '\'' ∉ s)
    (fun k => ':' ∉ k) exValue := by
  simp [exValue, Every, EveryMember, EveryAll, exCfg]

theorem exEvery_pdf : Every (fun x => ∃ i, (exCfg pdf).int64 x = some i ∧ (exCfg pdf).eqInt x i = true) (fun n => ' ' ∉ n ∧ '\n' ∉ n) (Balanced 0)
    (fun k => ' ' ∉ k) exValue := by
  simp [exValue, Every, EveryMember, EveryAll, exCfg, Balanced]

example (w : Val Int Unit) (hw : Every (fun x => ∃ i, (exCfg javascript).int64 x = some i ∧ (exCfg javascript).eqInt x i = true) (fun n => '\'' ∉ n)
    (fun s => '\'' ∉ s) (fun k => ':' ∉ k) w) (e : serialize (exCfg javascript) exValue = serialize (exCfg javascript) w) : norm exValue = norm w :=
  C122_javascript_partial _ rfl (exTold _) exEvery_js hw e

example (w : Val Int Unit) (hw : Every (fun x => ∃ i, (exCfg pdf).int64 x = some i ∧ (exCfg pdf).eqInt x i = true) (fun n => ' ' ∉ n ∧ '\n' ∉ n)
    (Balanced 0) (fun k => ' ' ∉ k) w) (e : serialize (exCfg pdf) exValue = serialize (exCfg pdf) w) : norm exValue = norm w :=
  C122_pdf_partial _ rfl (exTold _) exEvery_pdf hw e

/-- 10^19. -/
example : serialize (exCfg javascript) (.num (10 ^ 19)) = none := C121_large_violated _ (by simp [exCfg])

end Verif.Script
