import Verif.Expr.Values
import Verif.Entity.Model
/-!
Model of the serialization of values in the Common Expression Language: source/iomanip_asl_cel.cpp, adobe/iomanip.hpp
(`format_base`, `begin_bag`, `begin_atom`, `format`), `operator<<` of `dictionary_t` (source/any_regular.cpp), of `array_t`
(adobe/array.hpp) and of `any_regular_t` (adobe/any_regular.hpp:252, 614).

Simplifications:
* the stream accepts everything and its `exceptions()` mask is the default one, so that an exception inside of a manipulator
  (adobe/manip.hpp:96-110 with 38-77) is swallowed and the stream stays good: `err` in `handle_error` is read before
  `set_fail()`;
* `depth_m` does not wrap (`down()` without `up()` gives 0);
* the identifier of a bag is not used by this format and left out;
* `adobe::to_string(double)` and `type_info().name()` are parameters.
-/
namespace Verif.Cel
open Verif.Expr

variable {D O : Type}

/-- models: adobe/iomanip.hpp:51-54 and source/iomanip_asl_cel.cpp:29, the tags. -/
inductive Tag where
  | format | bag | seq | atom
  deriving DecidableEq, Repr

/-- models: adobe/iomanip.hpp:64-87 `format_element_t`; the value of an atom is passed on as an argument instead. -/
structure Elem where
  tag : Tag
  numOut : Nat
  deriving DecidableEq, Repr

/-- The stream and the `asl_cel_format` that is installed in it (`depth_m`, `stack_m`, front first). -/
structure St where
  out : Str
  depth : Nat
  stack : List Elem
  deriving DecidableEq, Repr

/-- What is printed with: `escape_m`, the entity table and the conversions that are parameters. -/
structure Cfg (D O : Type) where
  safe : Bool
  byCode : List Entity.Entry
  show_ : D → Str
  typeO : O → Str

/-- An operation on the stream; `true`: it throws. -/
def M := St → St × Bool

def seq (p q : M) : M := fun s => match p s with
  | (s, true) => (s, true)
  | (s, false) => q s

def skip : M := fun s => (s, false)

/-- `os << t`. -/
def write (t : Str) : M := fun s => ({ s with out := s.out ++ t }, false)

/-- models: adobe/manip.hpp:96-110 `do_manip`: exceptions do not leave it. -/
def manip (p : M) : M := fun s => ((p s).1, false)

/-- The tag of the n-th element of the stack, if there are so many. -/
def St.tag (s : St) (n : Nat) : Option Tag := (s.stack[n]?).map (·.tag)

/-- models: source/iomanip_asl_cel.cpp:52-66 `stack_event` for a new element that is not an atom. -/
def eventPush : M := fun s =>
  match s.tag 0 with
  | some .bag => ({ s with out := s.out ++ ['{'], depth := s.depth + 1 }, false)
  | some .seq => if s.tag 1 = some .bag then (s, false) else ({ s with out := s.out ++ "[ ".toList }, false)
  | some _ => (s, false)
  | none => (s, true)

/-- models: source/iomanip_asl_cel.cpp:67-83 `stack_event` for an element that is not an atom and is about to be removed. -/
def eventPop : M := fun s =>
  match s.stack with
  | [] => (s, true)
  | e :: _ =>
    match e.tag with
    | .bag =>
      let d := s.depth - 1
      ({ s with depth := d, out := s.out ++ (if 0 < e.numOut then '\n' :: List.replicate d '\t' else [' ']) ++ ['}'] }, false)
    | .seq =>
      if s.tag 1 = some .bag then (s, false)
      else ({ s with out := s.out ++ (if 0 < e.numOut then [' '] else []) ++ [']'] }, false)
    | _ => (s, false)

/-- models: adobe/iomanip.hpp:122-125 `push_stack`, the first line. -/
def push (t : Tag) : M := fun s => ({ s with stack := ⟨t, 0⟩ :: s.stack }, false)

/-- models: adobe/iomanip.hpp:127-131 `pop_stack`, the last line. -/
def drop : M := fun s => ({ s with stack := s.stack.tail }, false)

/-- models: source/iomanip_asl_cel.cpp:93 `outputting_bag`. -/
def St.inBag (s : St) : Bool := decide (s.tag 1 = some .seq ∧ s.tag 2 = some .bag)

/-- models: source/iomanip_asl_cel.cpp:94, the element that `num_out` is in; `stack_n` throws if there is none. -/
def St.counter (s : St) : Nat := if s.inBag then 2 else 1

/-- models: source/iomanip_asl_cel.cpp:95 `named_argument`. -/
def named (bag : Bool) (numOut : Nat) : Bool := bag && numOut % 2 == 0

/-- models: source/iomanip_asl_cel.cpp:88-107, 109-141 `handle_atom`, `is_push`: what is in front of the value; then the
value is printed by `body`, which is told whether it is the name of a member. -/
def atomPush (body : Bool → M) : M := fun s =>
  match s.stack[s.counter]? with
  | none => (s, true)
  | some e =>
    let nm := named s.inBag e.numOut
    let lead : Str :=
      if 0 < e.numOut then
        if !s.inBag then ", ".toList
        else if nm then ",\n".toList ++ List.replicate s.depth '\t' else []
      else if s.inBag then '\n' :: List.replicate s.depth '\t' else []
    body nm { s with out := s.out ++ lead }

/-- models: source/iomanip_asl_cel.cpp:142-145 `handle_atom`, not `is_push`. -/
def atomPop : M := fun s =>
  match s.stack[s.counter]? with
  | none => (s, true)
  | some e => ({ s with stack := s.stack.set s.counter { e with numOut := e.numOut + 1 } }, false)

/-- models: adobe/iomanip.hpp:332-337 `fmt`, 358-361 `format`: `os << format(x)`, i.e. `begin_atom` (255-264, a manipulator)
and `end_atom` inside of a manipulator. -/
def format (body : Bool → M) : M := manip (seq (manip (seq (push .atom) (atomPush body))) (seq atomPop drop))

/-- One after the other. -/
def all : List M → M
  | [] => skip
  | p :: ps => seq p (all ps)

/-- models: adobe/array.hpp:41-50. -/
def putArray (elems : List M) : M :=
  seq (push .seq) (seq eventPush (seq (all elems) (seq eventPop drop)))

/-- `std::strcmp(x, y) <= 0`. -/
def keyLe : Str → Str → Bool
  | [], _ => true
  | _ :: _, [] => false
  | a :: as, b :: bs => if a = b then keyLe as bs else decide (a.toNat < b.toNat)

/-- models: source/any_regular.cpp:49-50: `table_index::sort()` with `operator<` of `name_t` (adobe/name.hpp:257-259); the keys of
a dictionary are distinct, so that the result of `std::sort` is determined. -/
def sortKeys {α : Type} (ms : List (Str × α)) : List (Str × α) := ms.mergeSort fun a b => keyLe a.1 b.1

/-- models: source/iomanip_asl_cel.cpp:121-128, a name. -/
def putName (n : Str) : M :=
  format fun nm => write ((if nm then [] else ['@']) ++ n ++ if nm then ": ".toList else [])

/-- models: source/any_regular.cpp:46-65; a member is a name and what prints the value.  `begin_bag` is a manipulator. -/
def putDictionary (ms : List (Str × M)) : M :=
  seq (manip (seq (push .bag) eventPush))
    (seq (all ((sortKeys ms).map fun m =>
      seq (push .seq) (seq eventPush (seq (putName m.1) (seq m.2 (seq eventPop drop))))))
    (seq eventPop drop))

/-- models: source/iomanip_asl_cel.cpp:109-120, what is printed for a string.  (`none` of the entity functions is a read out of
bounds and does not happen, C87.) -/
def stringText (c : Cfg D O) (s : Str) : Str :=
  let codes := s.map Char.toNat
  let escape := (Entity.needsEntityEscape c.byCode codes).getD false
  if c.safe && escape then
    "xml_unescape(".toList ++ '"' :: (((Entity.entityEscape c.byCode codes).getD []).map Char.ofNat ++ ['"']) ++ ")".toList
  else '"' :: (s ++ ['"'])

mutual
/-- models: adobe/any_regular.hpp:252 (and 347), 614-618 `os << any_regular_t`, with source/iomanip_asl_cel.cpp:109-141. -/
def put (c : Cfg D O) : Val D O → M
  | .empty => format fun _ => write "empty".toList
  | .bool b => format fun _ => write (if b then "true".toList else "false".toList)
  | .num d => format fun _ => write (c.show_ d)
  | .name n => putName n
  | .str s => format fun _ => write (stringText c s)
  | .arr vs => format fun _ => putArray (putAll c vs)
  | .dict ms => format fun _ => putDictionary (putMembers c ms)
  | .other o => format fun _ => write ('\'' :: (c.typeO o ++ ['\'']))
def putAll (c : Cfg D O) : List (Val D O) → List M
  | [] => []
  | v :: vs => put c v :: putAll c vs
def putMembers (c : Cfg D O) : List (Str × Val D O) → List (Str × M)
  | [] => []
  | (k, v) :: ms => (k, put c v) :: putMembers c ms
end

/-- models: source/iomanip_asl_cel.cpp:28-30 and adobe/iomanip.hpp:100 `begin_format`. -/
def beginFormat : M := seq (push .format) eventPush

/-- models: adobe/iomanip.hpp:101 `end_format`. -/
def endFormat : M := seq eventPop drop

/-- models: source/iomanip_asl_cel.cpp:150-154 `begin_asl_cel`, 162-166 `begin_asl_cel_unsafe`: a new format object. -/
def beginCel (out : Str) : St := (beginFormat ⟨out, 0, []⟩).1

/-- `os << begin_asl_cel << value << end_asl_cel`, as text. -/
def serialize (c : Cfg D O) (v : Val D O) : Str := (seq (put c v) endFormat (beginCel [])).1.out

/-- The same for a `dictionary_t` that is not in an `any_regular_t`. -/
def serializeDictionary (c : Cfg D O) (ms : List (Str × Val D O)) : Str :=
  (seq (putDictionary (putMembers c ms)) endFormat (beginCel [])).1.out

/-- The same for an `array_t`. -/
def serializeArray (c : Cfg D O) (vs : List (Val D O)) : Str := (seq (putArray (putAll c vs)) endFormat (beginCel [])).1.out

end Verif.Cel
