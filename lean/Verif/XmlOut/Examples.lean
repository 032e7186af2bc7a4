import Verif.XmlOut.Props
import Verif.Entity.Examples
/-!
The hypotheses of C102, C103 are met by a nested value.
-/
namespace Verif.XmlOut
open Verif.Expr
open Verif.XmlOut.Spec
open Verif.Xml.Spec
open Verif.Cel.Spec (norm normAll normMembers)
open Verif.Cel (sortKeys keyLe)

/-- Numbers are halves. -/
def exCfg : Cfg Int Unit := ⟨Entity.exByCode, fun x => if x % 2 = 0 then some (x / 2) else none,
  fun x => if x = 5 then "2.5".toList else "?".toList, fun _ => "foreign".toList⟩

def exReader : Reader Int := ⟨Entity.exByName, fun n => 2 * n, fun s => if s = "2.5".toList then 5 else 0⟩

/-- `{name: "a<b", bounds: [6, 2.5, { }], kind: @sheet, ok: true}`, not in this order. -/
def exVal : Val Int Unit :=
  .dict [("ok".toList, .bool true), ("name".toList, .str "a<b".toList),
    ("bounds".toList, .arr [.num 12, .num 5, .dict []]), ("kind".toList, .name "sheet".toList)]

theorem exOk : Ok exCfg exReader exVal := by
  simp only [exVal, Ok, OkMembers, OkAll, NameOk]
  refine ⟨isChars_of (by decide), trivial, isChars_of (by decide), by decide, isChars_of (by decide), ⟨?_, ?_, trivial, trivial⟩,
    isChars_of (by decide), isChars_of (by decide), trivial⟩
  · show exReader.ofInt (12 / 2) = 12
    decide
  · exact ⟨isChars_of (by decide), by decide⟩

example : ∃ x i, codes (serialize exCfg exVal) = (element "xml" x).render ∧ (element "xml" x).Ok ∧ Children x [i] ∧
    Reads exReader i (norm exVal) := C103_round_trip_partial Entity.exSorted exVal exOk

/-- The text (without the string, whose escaping needs the table of entities). -/
example : serialize exCfg (.dict [("ok".toList, .bool true), ("bounds".toList, .arr [.num 12, .num 5, .dict []]), ("kind".toList, .name "sheet".toList),
      ("a".toList, .empty)]) =
    ("<xml>\n<dict>\n\t<key>a</key>\n\t<empty/>\n\t<key>bounds</key>\n\t<array>\n\t\t<integer>6</integer>\n\t\t<double>2.5</double>\n\t\t" ++
      "<dict>\n\t\t</dict>\n\t</array>\n\t<key>kind</key>\n\t<ident>sheet</ident>\n\t<key>ok</key>\n\t<bool>true</bool>\n</dict>\n</xml>").toList := by
  have e1 : norm (.dict [("ok".toList, .bool true), ("bounds".toList, .arr [.num 12, .num 5, .dict []]), ("kind".toList, .name "sheet".toList),
      ("a".toList, .empty)] : Val Int Unit) = .dict [("a".toList, .empty), ("bounds".toList, .arr [.num 12, .num 5, .dict []]),
        ("kind".toList, .name "sheet".toList), ("ok".toList, .bool true)] := by
    simp [norm, normMembers, normAll, sortKeys, List.mergeSort, List.MergeSort.Internal.splitInTwo, List.merge, keyLe]
  have e2 : number exCfg 12 = "<integer>6</integer>".toList := by decide +kernel
  have e3 : number exCfg 5 = "<double>2.5</double>".toList := by decide +kernel
  have e4 : emptyTag = "<empty/>".toList := rfl
  rw [C102_serialize, e1]
  simp only [document, text, textMembers, textAll, e2, e3, e4]
  decide +kernel

/-- C103_accepted_partial: a text in memory. -/
example (cl : Xml.Cfg) (hid : Identity cl) (a last : Nat) (hle : a ≤ last)
    (ht : (XmlAttr.Tok.mk a last).text cl.mem = codes (serialize exCfg exVal)) : ∃ o cs, Xml.Gives (Xml.parseDocument cl) ⟨a, last⟩ o cs :=
  C103_accepted_partial Entity.exSorted exVal exOk hid hle ht

example : Identity (Xml.client true []) := fun _ _ => rfl

/-- C103_string_value_partial. -/
example (cl : Xml.Cfg) (hid : Identity cl) (hp : ∀ t, cl.pred t = true) (last : Nat) (hle : 8 ≤ last)
    (ht : (XmlAttr.Tok.mk 8 last).text cl.mem = codes (text exCfg 0 (.str "a<b".toList))) :=
  C103_string_value_partial (D := Int) (O := Unit) (r := exReader) Entity.exSorted "a<b".toList (by decide) 0 hid hp (by decide) hle ht

/-- C103_only_reading_partial, C103_injective_partial. -/
example (v : Val Int Unit) (h : Ok exCfg exReader v) (e : serialize exCfg exVal = serialize exCfg v) : norm exVal = norm v :=
  C103_injective_partial Entity.exSorted exVal v exOk h e

example := C103_name_violated (c := exCfg) (r := exReader) "a<b".toList (.inl (by decide)) 0

/-- An accented letter. -/
example := C103_bytes_violated (c := exCfg) (r := exReader) Entity.exSorted "é".toList (by decide)
  (.inl ⟨by decide, ⟨'é', by decide, by decide⟩⟩) 0

end Verif.XmlOut
