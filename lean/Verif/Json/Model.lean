import Verif.Json.Spec
/-
Model of adobe/json.hpp with the helper of adobe/json_helper.hpp.

The input is the list of bytes from `p_` on, its terminating 0 included.  Reading beyond that is `oob`.  Numbers: `strtod`
is a parameter (`none`: not finite); it is taken to use exactly the characters the parser scanned (the assertion in 207).
Objects are lists of members: `dictionary_t` as a map from names to values in some order; distinct names are taken to be distinct
`name_t`s (see C36).  Loops and the recursion over nested values take `fuel`; it is proved to suffice.
-/
namespace Verif.Json
open Spec (Value ascii)

inductive Res (α : Type) where
  | ok (a : α) (rest : List Nat)
  | throw
  | oob
  | fuel
  deriving DecidableEq

def M (α : Type) := List Nat → Res α

@[inline] def M.pure {α : Type} (a : α) : M α := fun s => .ok a s
@[inline] def M.bind {α β : Type} (x : M α) (f : α → M β) : M β := fun s => match x s with
  | .ok a r => f a r
  | .throw => .throw
  | .oob => .oob
  | .fuel => .fuel

instance : Monad M where
  pure := M.pure
  bind := M.bind

def throw {α : Type} : M α := fun _ => .throw
def oob {α : Type} : M α := fun _ => .oob
def noFuel {α : Type} : M α := fun _ => .fuel

/-- `*p_` -/
def peek : M Nat := fun s => match s with
  | [] => .oob
  | c :: _ => .ok c s

/-- `++p_` -/
def advance : M Unit := fun s => match s with
  | [] => .oob
  | _ :: r => .ok () r

/-- `*p_++` -/
def take : M Nat := fun s => match s with
  | [] => .oob
  | c :: r => .ok c r

/-- models: adobe/json.hpp:276-281 `require`. -/
def require (b : Bool) : M Unit := if b then M.pure () else throw

/-- models: adobe/json.hpp:290-295 `is_char`. -/
def isChar (x : Nat) : M Bool := do
  if (← peek) ≠ x then return false
  advance
  return true

/-- models: adobe/json.hpp:430-… table `ws_`. -/
def ws (c : Nat) : Bool := c == 0x09 || c == 0x0A || c == 0x0D || c == 0x20

/-- models: adobe/json.hpp:284-288 `skip_white_space`. -/
def skipWs : M Unit
  | [] => .oob
  | c :: r => if ws c then skipWs r else .ok () (c :: r)

/-- models: adobe/json.hpp:297-303 `is_structural_char`. -/
def isStructural (x : Nat) : M Bool := do
  skipWs
  if !(← isChar x) then return false
  skipWs
  return true

/-- models: adobe/json.hpp:127-130: the rest of `is_sequence`.  At the end of the constant the loop compares its terminator with the input;
    if the input ends there too, both pointers go on beyond their terminators. -/
def seqRest : List Nat → M Bool
  | [] => do
    if (← isChar 0) then oob
    return true
  | c :: cs => do
    if (← isChar c) then seqRest cs else throw

/-- models: adobe/json.hpp:124-132 `is_sequence`. -/
def isSequence : List Nat → M Bool
  | [] => M.pure false
  | c :: cs => do
    if !(← isChar c) then return false
    seqRest cs

/-- models: adobe/json.hpp:134-144 `is_bool`. -/
def isBool : M (Option Bool) := do
  if (← isSequence (ascii "true")) then return some true
  if (← isSequence (ascii "false")) then return some false
  return none

/-- models: adobe/json.hpp:146-151 `is_null`. -/
def isNull : M Bool := isSequence (ascii "null")

/-- models: adobe/json.hpp:348-388 table `hex_digit_`; `none` is '\xFF'. -/
def hexDigit (c : Nat) : Option Nat :=
  if 0x30 ≤ c ∧ c ≤ 0x39 then some (c - 0x30)
  else if 0x41 ≤ c ∧ c ≤ 0x46 then some (c - 0x41 + 0x0A)
  else if 0x61 ≤ c ∧ c ≤ 0x66 then some (c - 0x61 + 0x0A)
  else none

/-- one digit of `get_four_digits` -/
def digit4 : M Nat := do
  match hexDigit (← take) with
  | none => throw
  | some d => return d

/-- models: adobe/json.hpp:248-270 `get_four_digits`. -/
def fourDigits : M Nat := do
  let a ← digit4
  let b ← digit4
  let c ← digit4
  let d ← digit4
  return a * 0x1000 + b * 0x0100 + c * 0x0010 + d

/-- models: adobe/json.hpp:390-430 table `escape_`; 0: none. -/
def escape (c : Nat) : Nat :=
  if c = 0x22 then 0x22 else if c = 0x2F then 0x2F else if c = 0x5C then 0x5C else if c = 0x62 then 0x08 else if c = 0x66 then 0x0C
  else if c = 0x6E then 0x0A else if c = 0x72 then 0x0D else if c = 0x74 then 0x09 else if c = 0x75 then 0x75 else 0

/-- a byte that is not the first -/
def low (x : Nat) : Nat := (x ||| 0x80) &&& 0xBF

/-- models: adobe/json.hpp:306-341 `utf8`. -/
def utf8 (x : Nat) : M (List Nat) :=
  if x < 0x80 then M.pure [x]
  else if x < 0x800 then M.pure [(x >>> 6) ||| 0xC0, low x]
  else if x < 0x10000 then M.pure [(x >>> 12) ||| 0xE0, low (x >>> 6), low x]
  else if x < 0x0010FFFF then M.pure [(x >>> 18) ||| 0xF0, low (x >>> 12), low (x >>> 6), low x]
  else throw

/-- models: adobe/json.hpp:159-162: the characters up to a control character, a quote or a backslash. -/
def scan : M (List Nat)
  | [] => .oob
  | c :: r =>
    if c < 0x20 ∨ c = 0x22 ∨ c = 0x5C then .ok [] (c :: r)
    else match scan r with
      | .ok cs r => .ok (c :: cs) r
      | .throw => .throw
      | .oob => .oob
      | .fuel => .fuel

/-- models: adobe/json.hpp:166-180: what follows a backslash. -/
def escaped : M (List Nat) := do
  let c := escape (← take)
  require (c != 0)
  if c = 0x75 then
    let utf ← fourDigits
    if 0xD800 ≤ utf ∧ utf ≤ 0xDBFF then
      require (← isChar 0x75)
      let trailing ← fourDigits
      require (decide (0xDC00 ≤ trailing ∧ trailing ≤ 0xDFFF))
      utf8 (((utf - 0xD800) <<< 10) + (trailing - 0xDC00))
    else
      utf8 utf
  else
    return [c]

/-- models: adobe/json.hpp:157-181 the loop of `is_string`; `s` is the string so far. -/
def strLoop : Nat → List Nat → M (List Nat)
  | 0, _ => noFuel
  | n + 1, s => do
    if (← isChar 0x22) then return s
    let cs ← scan
    require (!decide ((← peek) < 0x20))
    let s := s ++ cs
    if !(← isChar 0x5C) then strLoop n s
    else
      let b ← escaped
      strLoop n (s ++ b)

/-- models: adobe/json.hpp:153-183 `is_string`, for an empty `s` (`move_append` leaves the key empty, json_helper.hpp:72); also 185-191. -/
def isString : M (Option (List Nat)) := fun input => (do
  if !(← isChar 0x22) then return none
  return some (← strLoop (input.length + 1) [])) input

/-- models: adobe/json.hpp:231-236 `is_digit`. -/
def isDigit : M Bool := do
  let c ← peek
  if !(decide (0x30 ≤ c ∧ c ≤ 0x39)) then return false
  advance
  return true

/-- models: adobe/json.hpp:218, 227, 243: `while (is_digit());`. -/
def digits : M Unit
  | [] => .oob
  | c :: r => if 0x30 ≤ c ∧ c ≤ 0x39 then digits r else .ok () (c :: r)

/-- models: adobe/json.hpp:238-246 `is_int`. -/
def isInt : M Bool := do
  if (← isChar 0x30) then return true
  if !(← isDigit) then return false
  digits
  return true

/-- models: adobe/json.hpp:213-220 `frac`. -/
def frac : M Unit := do
  if !(← isChar 0x2E) then return ()
  require (← isDigit)
  digits

/-- models: adobe/json.hpp:222-229 `exp`. -/
def exp : M Unit := do
  if !(← isChar 0x65) then
    if !(← isChar 0x45) then return ()
  if !(← isChar 0x2D) then
    let _ ← isChar 0x2B
  require (← isDigit)
  digits

/-- models: adobe/json.hpp:205-209: the conversion of the characters from `input` up to `p_`. -/
def convert {N : Type} (strtod : List Nat → Option N) (input : List Nat) : M (Option N) := fun rest =>
  match strtod (input.take (input.length - rest.length)) with
  | some x => .ok (some x) rest
  | none => .throw

/-- models: adobe/json.hpp:193-211 `is_number`. -/
def isNumber {N : Type} (strtod : List Nat → Option N) : M (Option N) := fun input => (do
  let neg ← isChar 0x2D
  if !(← isInt) then
    require (!neg)
    return none
  frac
  exp
  convert strtod input) input

mutual

/-- models: adobe/json.hpp:117-120 `is_value`. -/
def isValue {N : Type} (strtod : List Nat → Option N) : Nat → M (Option (Value N))
  | 0 => noFuel
  | n + 1 => do
    if let some s ← isString then return some (.str s)
    if let some x ← isNumber strtod then return some (.num x)
    if let some o ← isObject strtod n then return some o
    if let some a ← isArray strtod n then return some a
    if let some b ← isBool then return some (.bool b)
    if (← isNull) then return some .null
    return none

/-- models: adobe/json.hpp:75-96 `is_object`; json_helper.hpp:70-73 `move_append`. -/
def isObject {N : Type} (strtod : List Nat → Option N) : Nat → M (Option (Value N))
  | 0 => noFuel
  | n + 1 => do
    if !(← isStructural 0x7B) then return none
    let object ← do
      match (← isString) with
      | none => pure []
      | some k =>
        require (← isStructural 0x3A)
        match (← isValue strtod n) with
        | none => throw
        | some v => members strtod n (Spec.assign [] (Spec.cut k) v)
    require (← isStructural 0x7D)
    return some (.obj object)

/-- models: adobe/json.hpp:86-91 the loop of `is_object`. -/
def members {N : Type} (strtod : List Nat → Option N) : Nat → List (List Nat × Value N) → M (List (List Nat × Value N))
  | 0, _ => noFuel
  | n + 1, object => do
    if !(← isStructural 0x2C) then return object
    match (← isString) with
    | none => throw
    | some k =>
      require (← isStructural 0x3A)
      match (← isValue strtod n) with
      | none => throw
      | some v => members strtod n (Spec.assign object (Spec.cut k) v)

/-- models: adobe/json.hpp:98-113 `is_array`. -/
def isArray {N : Type} (strtod : List Nat → Option N) : Nat → M (Option (Value N))
  | 0 => noFuel
  | n + 1 => do
    if !(← isStructural 0x5B) then return none
    let array ← do
      match (← isValue strtod n) with
      | none => pure []
      | some v => elements strtod n [v]
    require (← isStructural 0x5D)
    return some (.arr array)

/-- models: adobe/json.hpp:105-108 the loop of `is_array`. -/
def elements {N : Type} (strtod : List Nat → Option N) : Nat → List (Value N) → M (List (Value N))
  | 0, _ => noFuel
  | n + 1, array => do
    if !(← isStructural 0x2C) then return array
    match (← isValue strtod n) with
    | none => throw
    | some v => elements strtod n (array ++ [v])

end

/-- models: adobe/json.hpp:68-72 `parse`: the value and what follows it. -/
def parse {N : Type} (strtod : List Nat → Option N) : M (Value N) := fun input => (do
  let n := 2 * input.length + 2
  match (← isObject strtod n) with
  | some o => return o
  | none => match (← isArray strtod n) with
    | some a => return a
    | none => throw) input

/-! ### the generator -/

/-- models: adobe/json.hpp:570-571 table `hex_digits`. -/
def hexChar (n : Nat) : Nat := if n < 10 then 0x30 + n else 0x41 + (n - 10)

/-- models: adobe/json.hpp:576-608: one character of a string. -/
def genChar (e : Nat) : List Nat :=
  if e ≤ 0x1F ∨ e = 0x22 ∨ e = 0x5C then
    0x5C ::
      (if e = 0x22 then [0x22]
       else if e = 0x5C then [0x5C]
       else if e = 0x08 then [0x62]
       else if e = 0x0C then [0x66]
       else if e = 0x0A then [0x6E]
       else if e = 0x0D then [0x72]
       else if e = 0x09 then [0x74]
       else [0x75, 0x30, 0x30, hexChar ((e >>> 4) &&& 0x0F), hexChar (e &&& 0x0F)])
  else [e]

/-- models: adobe/json.hpp:569-612 `generate_string`. -/
def genString (s : List Nat) : List Nat := 0x22 :: (s.flatMap genChar ++ [0x22])

/-- models: adobe/json.hpp:561-564 `indent`. -/
def indent (n : Nat) : List Nat := List.replicate n 0x09

/-- models: adobe/json.hpp:622-654 `list`, with 656-672: the text between the brackets; `more`: the texts of the elements, which depend on
    the indentation. -/
def list (texts : List (Nat → List Nat)) (n : Nat) : List Nat :=
  match texts with
  | [] => [0x20]
  | [f] => 0x20 :: (f n ++ [0x20])
  | f :: fs => 0x0A :: (indent (n + 1) ++ f (n + 1) ++ fs.flatMap (fun f => 0x2C :: 0x0A :: (indent (n + 1) ++ f (n + 1))) ++ 0x0A :: indent n)

mutual

/-- models: adobe/json.hpp:511-559 `generate_`; `toText` is adobe::to_string(double). -/
def gen {N : Type} (toText : N → List Nat) : Value N → Nat → List Nat
  | .null, _ => ascii "null"
  | .bool true, _ => ascii "true"
  | .bool false, _ => ascii "false"
  | .num x, _ => toText x
  | .str s, _ => genString s
  | .arr vs, n => 0x5B :: (list (genElems toText vs) n ++ [0x5D])
  | .obj ms, n => 0x7B :: (list (genMembers toText ms) n ++ [0x7D])

def genElems {N : Type} (toText : N → List Nat) : List (Value N) → List (Nat → List Nat)
  | [] => []
  | v :: vs => gen toText v :: genElems toText vs

/-- models: adobe/json.hpp:614-619 `generate_(pair_type)`. -/
def genMembers {N : Type} (toText : N → List Nat) : List (List Nat × Value N) → List (Nat → List Nat)
  | [] => []
  | (k, v) :: ms => (fun n => genString k ++ 0x3A :: 0x20 :: gen toText v n) :: genMembers toText ms

end

/-- models: adobe/json.hpp:493-503 `generate`; `none`: it throws. -/
def generate {N : Type} (toText : N → List Nat) (v : Value N) (n : Nat) : Option (List Nat) :=
  match v with
  | .arr _ => some (gen toText v n)
  | .obj _ => some (gen toText v n)
  | _ => none

end Verif.Json
