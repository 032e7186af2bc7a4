import Verif.XString.Props
/-!
**C119**, **C120** – what is not so, on concrete texts.
-/
namespace Verif.XString
open Verif.XmlAttr (Mem Tok Attr)
open Verif.Xml (Call Cfg St R Here)

/-! ### What is not so -/

def bytes (s : String) : List Nat := s.toList.map Char.toNat

/-- Memory with texts at the given addresses. -/
def place : List (Nat × List Nat) → Mem
  | [], _ => 0
  | (a, l) :: ts, p => if a ≤ p ∧ p < a + l.length then l.getD (p - a) 0 else place ts p

/-- A range for the text `s` at `a`. -/
def tok (a : Nat) (s : String) : Tok := ⟨a, a + (bytes s).length⟩

/-- A library with further texts, at 100, 200 and so on. -/
def lib (ts : List (Nat × String)) : Lib where
  mem := place ((10, bytes "xstr") :: (20, bytes "marker") :: (30, bytes "id") :: ts.map fun q => (q.1, bytes q.2))
  byName := []
  xstr := ⟨10, 14⟩
  marker := ⟨20, 26⟩
  id := ⟨30, 32⟩

/-- The glossary made from texts. -/
def made (L : Lib) (n : Nat) : List Tok → Glossary → Glossary
  | [], g => g
  | t :: ts, g =>
    match glossaryParse L n g t with
    | .ok g _ => made L n ts g
    | _ => g

def shown : R Unit (List Nat) → Option (List Nat)
  | .ok r _ => some r
  | _ => none

/-- **C119** – elements without content in an entry are lost: with `<xstr id='p'>a<br/>b</xstr>`, the result is `ab`. -/
theorem C119_empty_element_violated :
    let L := lib [(100, "<xstr id='p'>a<br/>b</xstr>"), (200, "p")]
    shown (replaceId L 40 (made L 40 [tok 100 "<xstr id='p'>a<br/>b</xstr>"] []) (tok 200 "p") []) = some (bytes "ab") := by
  decide +kernel

/-- **C119** – with two `xstr` elements, the id is to be that of the first one, but is that of the last one: the test for the id being empty always
holds. -/
theorem C119_first_id_violated :
    let L := lib [(100, "<xstr id='p'>a</xstr><xstr id='q'>b</xstr>")]
    shown (replace L 60 (made L 60 [tok 100 "<xstr id='p'>a</xstr><xstr id='q'>b</xstr>"] []) (tok 100 "<xstr id='p'>a</xstr><xstr id='q'>b</xstr>") []) =
      some (bytes "b") := by
  decide +kernel

/-- **C120** – storing the same element again is to find the one there is, but only does so if the value is at the same address: after the same text has
been parsed at two addresses, there are two entries with the same attributes and the same value. -/
theorem C120_duplicate_violated :
    let L := lib [(100, "<xstr id='p'>a</xstr>"), (200, "<xstr id='p'>a</xstr>"), (300, "p")]
    let r := rangeForKey L (made L 40 [tok 100 "<xstr id='p'>a</xstr>", tok 200 "<xstr id='p'>a</xstr>"] []) (tok 300 "p")
    r.length = 2 ∧ ∀ e ∈ r, e.key.text L.mem = bytes "p" ∧ e.value.text L.mem = bytes "a" ∧
      e.attrs.map (fun a => (a.1.text L.mem, a.2.text L.mem)) = [(bytes "id", bytes "p")] := by
  decide +kernel

/-- **C120** – a context whose constructor throws (here for the text `<`) leaves its attributes in force for ever: there is no context to be
destroyed. -/
theorem C120_throw_violated :
    let L := lib [(100, "<"), (200, "lang"), (300, "de")]
    (match stepOp L 40 ⟨[], [], none, none, .null⟩ [] (.enter [(tok 200 "lang", tok 300 "de")] (some (tok 100 "<")) []) with
      | some (false, f, []) => f.attrs.length
      | _ => 0) = 1 := by
  decide +kernel

/-- **C120** – the text given to a context stays with the frame after the context has been destroyed, and is given to `delete[]` when the thread ends,
even if it is a string literal. -/
theorem C120_slurp_violated :
    let L := lib [(100, "<xstr id='p'>a</xstr>")]
    (match runOps L 40 [.enter [] (some (tok 100 "<xstr id='p'>a</xstr>")) [], .leave] ⟨[], [], none, none, .null⟩ [] with
      | some (f, []) => f.slurp
      | _ => .null) = tok 100 "<xstr id='p'>a</xstr>" := by
  decide +kernel

end Verif.XString
