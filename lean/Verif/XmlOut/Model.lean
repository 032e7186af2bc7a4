import Verif.Cel.Model
/-!
Model of the serialization of values as XML: source/iomanip_xml.cpp, with adobe/iomanip.hpp (`format_base`, `begin_bag`,
`begin_atom`, `format`), `operator<<` of `dictionary_t` (source/any_regular.cpp), of `array_t` (adobe/array.hpp) and of
`any_regular_t` (adobe/any_regular.hpp:252, 614).

The stack, the stream and the manipulators are those of the component Cel, with the same simplifications: the stream accepts
everything, exceptions do not leave a manipulator, `depth_m` does not wrap, and the identifier of a bag is not used by this format
and left out.  The text of a `double` that is not an integer, of an `int64_t` conversion and of `type_info().name()` are
parameters.
-/
namespace Verif.XmlOut
open Verif.Expr
open Verif.Cel (Tag Elem St M seq skip write manip push drop all sortKeys)

variable {D O : Type}

/-- What is printed with. -/
structure Cfg (D O : Type) where
  /-- The table of `entity_escape`. -/
  byCode : List Entity.Entry
  /-- source/iomanip_xml.cpp:126-129: the `int64_t` that the number is equal to, if it is. -/
  int : D → Option Int
  /-- `os << double` -/
  show_ : D → Str
  /-- `type_info().name()` -/
  typeO : O → Str

/-- models: adobe/iomanip.hpp:191-215 `indents`. -/
def indents (d : Nat) : Str := List.replicate d '\t'

/-- models: source/iomanip_xml.cpp:64-82 `stack_event` for a new element that is not an atom. -/
def eventPush : M := fun s =>
  match s.tag 0 with
  | some .format => ({ s with out := s.out ++ (indents s.depth ++ "<xml>\n".toList) }, false)
  | some .bag => ({ s with out := s.out ++ "<dict>\n".toList, depth := s.depth + 1 }, false)
  | some .seq =>
    if s.tag 1 ≠ some .bag then ({ s with out := s.out ++ "<array>\n".toList, depth := s.depth + 1 }, false) else (s, false)
  | some .atom => (s, false)
  | none => (s, true)

/-- models: source/iomanip_xml.cpp:83-102 `stack_event` for an element that is not an atom and is about to be removed. -/
def eventPop : M := fun s =>
  match s.tag 0 with
  | some .format => ({ s with out := s.out ++ (indents s.depth ++ "</xml>".toList) }, false)
  | some .bag =>
    let d := s.depth - 1
    ({ s with depth := d,
              out := s.out ++ (indents d ++ "</dict>".toList ++ if s.tag 1 ≠ some .atom then ['\n'] else []) }, false)
  | some .seq =>
    if s.tag 1 ≠ some .bag then
      let d := s.depth - 1
      ({ s with depth := d,
                out := s.out ++ (indents d ++ "</array>".toList ++ if s.tag 1 ≠ some .atom then ['\n'] else []) }, false)
    else (s, false)
  | some .atom => (s, false)
  | none => (s, true)

/-- models: source/iomanip_xml.cpp:117, the condition: the atom is the name of a member. -/
def St.isKey (s : St) : Bool :=
  decide (s.tag 1 = some .seq ∧ s.tag 2 = some .bag ∧ (s.stack[1]?).map (·.numOut) = some 0)

/-- models: source/iomanip_xml.cpp:106-141 `handle_atom`, `is_push`: the indentation, and then what is printed by `body`, which is
told whether it is the name of a member. -/
def atomPush (body : Bool → M) : M := fun s => body (St.isKey s) { s with out := s.out ++ indents s.depth }

/-- models: source/iomanip_xml.cpp:142-148 `handle_atom`, not `is_push`. -/
def atomPop : M := fun s =>
  let s : St := match s.stack[1]? with
    | some e => if e.tag = Tag.seq then { s with stack := s.stack.set 1 { e with numOut := e.numOut + 1 } } else s
    | none => s
  ({ s with out := s.out ++ ['\n'] }, false)

/-- models: adobe/iomanip.hpp:332-337 `fmt`, 358-361 `format`: `os << format(x)`, i.e. `begin_atom` (255-264, a manipulator)
and `end_atom` inside of a manipulator. -/
def format (body : Bool → M) : M := manip (seq (manip (seq (push .atom) (atomPush body))) (seq atomPop drop))

/-- An exception. -/
def fail : M := fun s => (s, true)

/-- An atom that is not a name: as the name of a member `value.cast<name_t>()` throws. -/
def atom (p : M) : M := format fun key => if key then fail else p

/-- `<tag>text</tag>` -/
def wrap (tag text : Str) : Str := '<' :: (tag ++ ('>' :: (text ++ ("</".toList ++ (tag ++ ['>'])))))

/-- models: adobe/array.hpp:41-50. -/
def putArray (elems : List M) : M :=
  seq (push .seq) (seq eventPush (seq (all elems) (seq eventPop drop)))

/-- models: source/iomanip_xml.cpp:117-118, 121-122, a name. -/
def putName (n : Str) : M :=
  format fun key => write (wrap (if key then "key".toList else "ident".toList) n)

/-- models: source/any_regular.cpp:46-65; a member is a name and what prints the value.  `begin_bag` is a manipulator. -/
def putDictionary (ms : List (Str × M)) : M :=
  seq (manip (seq (push .bag) eventPush))
    (seq (all ((sortKeys ms).map fun m =>
      seq (push .seq) (seq eventPush (seq (putName m.1) (seq m.2 (seq eventPop drop))))))
    (seq eventPop drop))

/-- `os << int64_t` -/
def intText (n : Int) : Str := if n < 0 then '-' :: Nat.toDigits 10 n.natAbs else Nat.toDigits 10 n.natAbs

/-- models: source/iomanip_xml.cpp:125-132, a number. -/
def numText (c : Cfg D O) (x : D) : Str :=
  match c.int x with
  | some n => wrap "integer".toList (intText n)
  | none => wrap "double".toList (c.show_ x)

/-- models: source/iomanip_xml.cpp:119-120, a string.  (`none` of `entityEscape` is a read out of bounds and does not happen, C87.) -/
def stringText (c : Cfg D O) (s : Str) : Str :=
  wrap "string".toList (((Entity.entityEscape c.byCode (s.map Char.toNat)).getD []).map Char.ofNat)

/-- models: source/iomanip_xml.cpp:134 and source/empty.cpp:23. -/
def emptyElement : Str := "<empty/>".toList

mutual
/-- models: adobe/any_regular.hpp:252 (and 347), 614-618 `os << any_regular_t`, with source/iomanip_xml.cpp:117-141. -/
def put (c : Cfg D O) : Val D O → M
  | .empty => atom (write emptyElement)
  | .bool b => atom (write (wrap "bool".toList (if b then "true".toList else "false".toList)))
  | .num d => atom (write (numText c d))
  | .name n => putName n
  | .str s => atom (write (stringText c s))
  | .arr vs => atom (putArray (putAll c vs))
  | .dict ms => atom (putDictionary (putMembers c ms))
  | .other o => atom (write (wrap "xml_unknown".toList (c.typeO o)))
def putAll (c : Cfg D O) : List (Val D O) → List M
  | [] => []
  | v :: vs => put c v :: putAll c vs
def putMembers (c : Cfg D O) : List (Str × Val D O) → List (Str × M)
  | [] => []
  | (k, v) :: ms => (k, put c v) :: putMembers c ms
end

/-- models: source/iomanip_xml.cpp:44 `begin_format`. -/
def beginFormat : M := seq (push .format) eventPush

/-- models: adobe/iomanip.hpp:101 `end_format`. -/
def endFormat : M := seq eventPop drop

/-- models: source/iomanip_xml.cpp:32-35 `begin_xml`: a new format object. -/
def beginXml (out : Str) : St := (beginFormat ⟨out, 0, []⟩).1

/-- `os << begin_xml << value << end_xml`, as text. -/
def serialize (c : Cfg D O) (v : Val D O) : Str := (seq (put c v) endFormat (beginXml [])).1.out

/-- The same for a `dictionary_t` that is not in an `any_regular_t`. -/
def serializeDictionary (c : Cfg D O) (ms : List (Str × Val D O)) : Str :=
  (seq (putDictionary (putMembers c ms)) endFormat (beginXml [])).1.out

/-- The same for an `array_t`. -/
def serializeArray (c : Cfg D O) (vs : List (Val D O)) : Str := (seq (putArray (putAll c vs)) endFormat (beginXml [])).1.out

end Verif.XmlOut
