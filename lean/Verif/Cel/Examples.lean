import Verif.Cel.Props
import Verif.Entity.Examples
/-!
The hypotheses of C96, C97 are met by a nested value.
-/
namespace Verif.Cel
open Verif.Expr
open Verif.Cel.Spec
open Verif.Lex (Opts)

def exShow (x : Int) : Str :=
  if x = 12 then "12".toList else if x = -7 then "-7".toList else if x = 100000 then "1e+05".toList else "NaN".toList

def exDecimal (s : Str) : Int := s.foldl (fun a ch => 10 * a + (ch.toNat - 48 : Nat)) 0

def exCfg (safe : Bool) : Cfg Int Unit := ⟨safe, Entity.exByCode, exShow, fun _ => "foreign".toList⟩
def exOpts : Opts Int := ⟨exDecimal, fun n => n, fun n => n == "sheet".toList, true⟩
def exE : Env Int Unit Unit where
  num := exNum
  eqO _ _ := true
  typeO _ := []
  var := none
  arrFn := none
  dictFn := none
  namedIndex := none
  numIndex := none
  override _ := none
  localize x := x
  escape x := x
  unescape := Spec.unescape Entity.exByName

theorem exSetting (safe : Bool) : Setting (exCfg safe) exOpts exE Entity.exByName := ⟨Entity.exSorted, rfl, rfl⟩

/-- `{name: "a\nb", bounds: [12, -7, { }], kind: @sheet, ok: true}`, not in this order. -/
def exVal : Val Int Unit :=
  .dict [("ok".toList, .bool true), ("name".toList, .str "a\nb".toList),
    ("bounds".toList, .arr [.num 12, .num (-7), .dict []]), ("kind".toList, .name "sheet".toList)]

instance : DecidablePred Lex.Spec.isWord := fun _ => inferInstanceAs (Decidable (_ ∨ _))
instance (n : Str) : Decidable (IsKeyword exOpts n) := inferInstanceAs (Decidable (_ ∨ _))

theorem isIdent_cons {ch : Char} {x : Str} (h : ch.isAlpha ∨ ch = '_') (h' : ∀ c ∈ x, Lex.Spec.isWord c) : IsIdent (ch :: x) :=
  ⟨ch, x, rfl, h, h'⟩

theorem exOk : Ok (exCfg true) exE.num exOpts exVal := by
  simp only [exVal, Ok, OkMembers, OkAll]
  refine ⟨by decide, ⟨isIdent_cons (by decide) (by decide), by decide⟩, trivial, ⟨isIdent_cons (by decide) (by decide), by decide⟩, ?_,
    ⟨isIdent_cons (by decide) (by decide), by decide⟩, ⟨?_, ?_, ⟨List.nodup_nil, trivial⟩, trivial⟩,
    ⟨isIdent_cons (by decide) (by decide), by decide⟩, isIdent_cons (by decide) (by decide), trivial⟩
  · simp [StrOk, exCfg]
  · exact .inl ⟨⟨'1', ['2'], rfl, by decide, by decide⟩, rfl⟩
  · exact .inr ⟨['7'], rfl, ⟨'7', [], rfl, by decide, by decide⟩, rfl⟩

/-- The text of a dictionary (without the string, whose escaping needs the table of entities). -/
example : text (exCfg false) 0 (norm (.dict [("ok".toList, .bool true), ("name".toList, .str "a".toList),
      ("bounds".toList, .arr [.num 12, .num (-7), .dict []]), ("a".toList, .dict [("x".toList, .empty)])] : Val Int Unit)) =
    "{\n\ta: {\n\t\tx: empty\n\t},\n\tbounds: [ 12, -7, { } ],\n\tname: \"a\",\n\tok: true\n}".toList := by
  have e : quoted (exCfg false) "a".toList = "\"a\"".toList := by
    unfold quoted
    split
    · rw [if_neg (by simp [exCfg])]; rfl
    · rfl
  have e1 : norm (.dict [("ok".toList, .bool true), ("name".toList, .str "a".toList),
      ("bounds".toList, .arr [.num 12, .num (-7), .dict []]), ("a".toList, .dict [("x".toList, .empty)])] : Val Int Unit) =
      .dict [("a".toList, .dict [("x".toList, .empty)]), ("bounds".toList, .arr [.num 12, .num (-7), .dict []]),
        ("name".toList, .str "a".toList), ("ok".toList, .bool true)] := by
    simp [norm, normMembers, normAll, sortKeys, List.mergeSort, List.MergeSort.Internal.splitInTwo, List.merge, keyLe]
  have e2 : ∀ x, (exCfg false).show_ x = exShow x := fun _ => rfl
  rw [e1]
  simp only [text, textMembers, textMore, e, e2]
  simp [exShow, tabs]

example (hl : (serialize (exCfg true) exVal).length < 2 ^ 31) :
    ∃ items seen k code, Lex.Spec.Lexes exOpts [] (serialize (exCfg true) exVal) items (.eof seen) ∧
      Parser.parse exE.num.ofU32 k .expression [] (items.map (·.tok)) = .ok true code [] ∧
      ∃ n0, ∀ n, n0 ≤ n → ∀ st s, Vm.evaluate exE n code st s = .ok () (norm exVal :: st) s :=
  C97_round_trip_partial (exSetting true) exNum_ok (by simp [exE]) exVal exOk hl

example : Val.beq exE.num exE.eqO exVal (norm exVal) = true :=
  C97_equal (c := exCfg true) (o := exOpts) (E := exE) (by simp [exE, exNum]) exVal exOk

/-- 100000 is read as 1. -/
example : ∃ items seen k code rest, Lex.Spec.Lexes exOpts [] (serialize (exCfg true) (.num 100000 : Val Int Unit)) items (.eof seen) ∧
    Parser.parse exE.num.ofU32 k .expression [] (items.map (·.tok)) = .ok true code rest ∧ rest.length = 3 ∧
    ∃ n0, ∀ n, n0 ≤ n → ∀ st s, Vm.evaluate exE n code st s = .ok () (.num 1 :: st) s :=
  C97_exponent_violated (exSetting true) exNum_ok (by simp [exE]) 100000 "1".toList "05".toList '+' (.inl rfl)
    ⟨'1', [], rfl, by decide, by simp⟩ ⟨'0', ['5'], rfl, by decide, by decide⟩ (by rfl)

/-- NaN is read as a variable. -/
example : ∃ items seen e, Lex.Spec.Lexes exOpts [] (serialize (exCfg true) (.num 3 : Val Int Unit)) items (.eof seen) ∧
    Expr.Spec.Derives .expression (items.map (·.tok)) (.e e : Expr.Spec.Out Int Unit) ∧
    (e = .var "NaN".toList ∨ e = .un .neg (.var "NaN".toList)) :=
  C97_not_finite_violated (exSetting true) 3 "NaN".toList ⟨'N', "aN".toList, rfl, by decide, by decide⟩ (by decide) (.inl rfl)

/-- `5"` is read as `5`. -/
example : ∃ items seen k code, Lex.Spec.Lexes exOpts [] (serialize (exCfg false) (.str "5\"".toList : Val Int Unit)) items (.eof seen) ∧
    Parser.parse exE.num.ofU32 k .expression [] (items.map (·.tok)) = .ok true code [] ∧
    ∃ n0, ∀ n, n0 ≤ n → ∀ st s, Vm.evaluate exE n code st s = .ok () (.str "5".toList :: st) s :=
  C97_quote_violated (exSetting false) rfl exNum_ok (by simp [exE]) "5".toList (by decide) (by decide) (by decide)

/-- An accented letter. -/
example (hl : (serialize (exCfg true) (.str "é".toList : Val Int Unit)).length < 2 ^ 31) :=
  C97_bytes_violated (exSetting true) rfl exNum_ok (by simp [exE]) "é".toList (by decide) ⟨'é', by decide, by decide⟩ hl

/-- `{true: 12}`. -/
example := C97_keyword_violated (exSetting true) (.num 12) (.inl ⟨⟨'1', ['2'], rfl, by decide, by decide⟩, rfl⟩) "true".toList
  IsIdent.true (.inl (by simp))

/-- After `end_asl_cel`: `12` disappears. -/
example : (seq (put (exCfg true) (.num 12)) (seq (put (exCfg true) (.num (-7))) (put (exCfg true) (.num 12))))
    (endFormat ⟨[], 0, [⟨.format, 0⟩]⟩).1 = (⟨"-7, 12".toList, 0, [⟨.atom, 2⟩]⟩, false) :=
  C96_after_end_violated Entity.exSorted (.num 12) (.num (-7)) (.num 12) 0 []

end Verif.Cel
