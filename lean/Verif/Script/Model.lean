import Verif.Cel.Model
import Verif.XmlOut.Model
/-!
Model of the serialization of values as JavaScript and as PDF: source/iomanip_javascript.cpp, source/iomanip_pdf.cpp, with adobe/iomanip.hpp,
`operator<<` of `dictionary_t` (source/any_regular.cpp), of `array_t` (adobe/array.hpp) and of `any_regular_t` (adobe/any_regular.hpp).

The two files are the same up to the texts that they write, which are the fields of `Style`; `javascript` and `pdf` are the two styles.

Simplifications (as in Verif.Cel.Model, whose stack elements are used here): the stream accepts everything, its `exceptions()` mask and its flags are
the default ones, exceptions inside of manipulators are swallowed; the text of a double that is not an integer (fixed, 16 digits) and the text of
`type_info().name()` are parameters.
-/
namespace Verif.Script
open Verif.Expr
open Verif.Cel (Tag Elem St named sortKeys)

variable {D O : Type}

/-- The characters of a text. -/
@[irreducible] def lit (s : String) : Str := s.toList

/-- The texts in which the two formats differ. -/
structure Style where
  /-- `begin_format`, `end_format` -/
  beginF : Str
  endF : Str
  /-- before and after the members of a bag -/
  openBag : Str
  closeBag : Str
  /-- between the elements of a sequence -/
  comma : Str
  /-- between the members of a bag, before the line end -/
  sep : Str
  /-- a name; `true`: of a member -/
  name : Bool → Str → Str
  str : Str → Str
  empty : Str
  unknown : Str → Str

/-- models: source/iomanip_javascript.cpp:72-98, 112-163. -/
def javascript : Style where
  beginF := []
  endF := []
  openBag := lit "{"
  closeBag := lit "}"
  comma := lit ", "
  sep := lit ","
  name b n := (if b then [] else lit "new name('") ++ n ++ if b then lit ": " else lit "')"
  str s := '\'' :: (s ++ ['\''])
  empty := lit "nil"
  unknown t := lit "'javascript_unknown: " ++ t ++ lit "'"

/-- models: source/iomanip_pdf.cpp:70-98, 112-158. -/
def pdf : Style where
  beginF := lit "% start pdf\n"
  endF := lit "\n% end pdf"
  openBag := lit "<<"
  closeBag := lit ">>"
  comma := lit " "
  sep := []
  name b n := '/' :: (n ++ if b then lit " " else [])
  str s := '(' :: (s ++ [')'])
  empty := lit "null"
  unknown t := lit "(pdf_unknown: " ++ t ++ lit ")"

/-- What is printed with: doubles and foreign types. -/
structure Cfg (D O : Type) where
  style : Style
  /-- `static_cast<std::int64_t>(d)`; `none`: the behaviour is undefined -/
  int64 : D → Option Int
  /-- `d == i` -/
  eqInt : D → Int → Bool
  /-- `os << d` with the flags set at source/iomanip_javascript.cpp:149-151 -/
  fixed : D → Str
  typeO : O → Str

/-- Outcome of an operation on the stream. -/
inductive R where
  | ok (s : St)
  | throw (s : St)
  | ub

def M := St → R

def seq (p q : M) : M := fun s => match p s with
  | .ok s => q s
  | r => r

def skip : M := .ok

/-- `os << t`. -/
def write (t : Str) : M := fun s => .ok { s with out := s.out ++ t }

/-- models: adobe/manip.hpp:96-110 `do_manip`: exceptions do not leave it. -/
def manip (p : M) : M := fun s => match p s with
  | .throw s => .ok s
  | r => r

/-- models: source/iomanip_javascript.cpp:65-81, source/iomanip_pdf.cpp:63-79 `stack_event` for a new element that is not an atom. -/
def eventPush (y : Style) : M := fun s =>
  match s.tag 0 with
  | some .format => .ok { s with out := s.out ++ y.beginF }
  | some .bag => .ok { s with out := s.out ++ y.openBag, depth := s.depth + 1 }
  | some .seq => if s.tag 1 = some .bag then .ok s else .ok { s with out := s.out ++ lit "[ " }
  | some .atom => .ok s
  | none => .throw s

/-- models: source/iomanip_javascript.cpp:82-99, source/iomanip_pdf.cpp:80-98 `stack_event` for an element that is not an atom and is about to be
removed. -/
def eventPop (y : Style) : M := fun s =>
  match s.stack with
  | [] => .throw s
  | e :: _ =>
    match e.tag with
    | .format => .ok { s with out := s.out ++ y.endF }
    | .bag =>
      let d := s.depth - 1
      .ok { s with depth := d, out := s.out ++ (if 0 < e.numOut then '\n' :: List.replicate d '\t' else [' ']) ++ y.closeBag }
    | .seq =>
      if s.tag 1 = some .bag then .ok s
      else .ok { s with out := s.out ++ (if 0 < e.numOut then [' '] else []) ++ [']'] }
    | .atom => .ok s

/-- models: adobe/iomanip.hpp:122-125 `push_stack`, the first line. -/
def push (t : Tag) : M := fun s => .ok { s with stack := ⟨t, 0⟩ :: s.stack }

/-- models: adobe/iomanip.hpp:127-131 `pop_stack`, the last line. -/
def drop : M := fun s => .ok { s with stack := s.stack.tail }

/-- models: source/iomanip_javascript.cpp:103-122, source/iomanip_pdf.cpp:103-122 `handle_atom`, `is_push`: what is in front of the value; then the
value is printed by `body`, which is told whether it is the name of a member. -/
def atomPush (y : Style) (body : Bool → M) : M := fun s =>
  match s.stack[s.counter]? with
  | none => .throw s
  | some e =>
    let nm := named s.inBag e.numOut
    let lead : Str :=
      if 0 < e.numOut then
        if !s.inBag then y.comma
        else if nm then y.sep ++ '\n' :: List.replicate s.depth '\t' else []
      else if s.inBag then '\n' :: List.replicate s.depth '\t' else []
    body nm { s with out := s.out ++ lead }

/-- models: source/iomanip_javascript.cpp:164-167, source/iomanip_pdf.cpp:159-162 `handle_atom`, not `is_push`. -/
def atomPop : M := fun s =>
  match s.stack[s.counter]? with
  | none => .throw s
  | some e => .ok { s with stack := s.stack.set s.counter { e with numOut := e.numOut + 1 } }

/-- models: adobe/iomanip.hpp:332-337 `fmt`, 358-361 `format`: `os << format(x)`, i.e. `begin_atom` (255-264, a manipulator) and `end_atom` inside of a
manipulator. -/
def format (y : Style) (body : Bool → M) : M := manip (seq (manip (seq (push .atom) (atomPush y body))) (seq atomPop drop))

/-- One after the other. -/
def all : List M → M
  | [] => skip
  | p :: ps => seq p (all ps)

/-- models: adobe/array.hpp:41-50. -/
def putArray (y : Style) (elems : List M) : M :=
  seq (push .seq) (seq (eventPush y) (seq (all elems) (seq (eventPop y) drop)))

/-- models: source/iomanip_javascript.cpp:126-135, source/iomanip_pdf.cpp:126-130, a name. -/
def putName (y : Style) (n : Str) : M := format y fun nm => write (y.name nm n)

/-- models: source/any_regular.cpp:46-65; a member is a name and what prints the value; sorting as in Verif.Cel.Model. -/
def putDictionary (y : Style) (ms : List (Str × M)) : M :=
  seq (manip (seq (push .bag) (eventPush y)))
    (seq (all ((sortKeys ms).map fun m =>
      seq (push .seq) (seq (eventPush y) (seq (putName y m.1) (seq m.2 (seq (eventPop y) drop))))))
    (seq (eventPop y) drop))

/-- models: source/iomanip_javascript.cpp:138-154, source/iomanip_pdf.cpp:133-149, a double (`XmlOut.intText`: `os << int_val`); `none`: undefined. -/
def numText (c : Cfg D O) (d : D) : Option Str :=
  match c.int64 d with
  | none => none
  | some i => some (if c.eqInt d i then XmlOut.intText i else c.fixed d)

/-- `os << t`, where making `t` may be undefined. -/
def writeNum : Option Str → M
  | some t => write t
  | none => fun _ => .ub

mutual
/-- models: adobe/any_regular.hpp:252 (and 347), 614-618 `os << any_regular_t`, with source/iomanip_javascript.cpp:124-163,
source/iomanip_pdf.cpp:124-158. -/
def put (c : Cfg D O) : Val D O → M
  | .empty => format c.style fun _ => write c.style.empty
  | .bool b => format c.style fun _ => write (if b then lit "true" else lit "false")
  | .num d => format c.style fun _ => writeNum (numText c d)
  | .name n => putName c.style n
  | .str s => format c.style fun _ => write (c.style.str s)
  | .arr vs => format c.style fun _ => putArray c.style (putAll c vs)
  | .dict ms => format c.style fun _ => putDictionary c.style (putMembers c ms)
  | .other o => format c.style fun _ => write (c.style.unknown (c.typeO o))
def putAll (c : Cfg D O) : List (Val D O) → List M
  | [] => []
  | v :: vs => put c v :: putAll c vs
def putMembers (c : Cfg D O) : List (Str × Val D O) → List (Str × M)
  | [] => []
  | (k, v) :: ms => (k, put c v) :: putMembers c ms
end

/-- models: source/iomanip_javascript.cpp:30-33, 41-43 `begin_javascript`; source/iomanip_pdf.cpp:31-34, 43 `begin_pdf`: with a new format object. -/
def beginFormat (y : Style) : M := seq (push .format) (eventPush y)

/-- models: source/iomanip_javascript.cpp:37 `end_javascript`, source/iomanip_pdf.cpp:39 `end_pdf`. -/
def endFormat (y : Style) : M := seq (eventPop y) drop

/-- `os << begin_javascript << value << end_javascript` (or pdf), as text; `none`: undefined. -/
def serialize (c : Cfg D O) (v : Val D O) : Option Str :=
  match seq (beginFormat c.style) (seq (put c v) (endFormat c.style)) ⟨[], 0, []⟩ with
  | .ok s => some s.out
  | .throw s => some s.out
  | .ub => none

end Verif.Script
