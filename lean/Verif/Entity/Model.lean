import Verif.Entity.Tab
import Verif.Table.Model
import Verif.Unicode.Model
/-
Model of source/expression_filter.cpp: XML entity escaping.

Strings are lists of bytes (0..255).  The two indexes over the table are given as the results of
`table_index::sort` (`byCode`, `byName`).  Simplification: the "C" locale (`isprint` is 0x20..0x7E,
`isdigit`, `isxdigit` ASCII), in which the functions are also called with negative `char` values
(formally undefined) and answer false.
-/
namespace Verif.Entity

/-- models: `std::isdigit`. -/
def isDigit (c : Nat) : Bool := decide (48 ≤ c) && decide (c ≤ 57)

/-- models: `std::isxdigit`. -/
def isXDigit (c : Nat) : Bool :=
  isDigit c || (decide (65 ≤ c) && decide (c ≤ 70)) || (decide (97 ≤ c) && decide (c ≤ 102))

/-- `tolower` of a hexadecimal digit that is a letter. -/
def toLower (c : Nat) : Nat := if 65 ≤ c ∧ c ≤ 90 then c + 32 else c

/-- models: source/expression_filter.cpp:43-64 `xatoi` with `Result = uint32_t`: the loop with the
    running value (the returned iterator is not used by the caller); subtracting 97 is adding 2^32 - 97. -/
def xatoi (result : Nat) : List Nat → Nat
  | [] => result
  | c :: cs =>
    if isXDigit c then
      let r := result * 16 % 2 ^ 32
      if isDigit c then xatoi ((r + (c - 48)) % 2 ^ 32) cs
      else xatoi ((r + (toLower c + 4294967199 + 10)) % 2 ^ 32) cs
    else result

/-- models: source/expression_filter.cpp:77-90 `datoi`. -/
def datoi (result : Nat) : List Nat → Nat
  | [] => result
  | c :: cs =>
    if isDigit c then datoi ((result * 10 % 2 ^ 32 + (c - 48)) % 2 ^ 32) cs else result

/-- `operator<` of `std::string`: lexicographical on unsigned bytes. -/
def strLess : List Nat → List Nat → Bool
  | [], [] => false
  | [], _ :: _ => true
  | _ :: _, [] => false
  | a :: as, b :: bs => if a < b then true else if b < a then false else strLess as bs

/-- models: source/expression_filter.cpp:430-436 `code_point_index_find`: `some none` is `end()`,
    `none` a read outside of the index. -/
def codePointIndexFind (byCode : List Entry) (cp : Nat) : Option (Option Entry) :=
  match Table.find id Prod.snd (fun a b => decide (a < b)) byCode cp with
  | none => none
  | some k => some byCode[k]?

/-- models: source/expression_filter.cpp:463-469 `entity_name_index_find`. -/
def entityNameIndexFind (byName : List Entry) (name : List Nat) : Option (Option Entry) :=
  match Table.find id Prod.fst strLess byName name with
  | none => none
  | some k => some byName[k]?

/-- models: source/expression_filter.cpp:473 `needs_escape`. -/
def needsEscape (c : Nat) : Bool :=
  !(decide (32 ≤ c) && decide (c ≤ 126)) || decide (128 ≤ c)

/-- Outcome of a function that may throw `range_error` or read out of bounds. -/
inductive Res (α : Type) where
  | ok (x : α)
  | rangeError
  | ub
deriving DecidableEq

/-- models: source/expression_filter.cpp:485-492 `entity_map_find(code_point)`. -/
def entityOfCode (byCode : List Entry) (cp : Nat) : Res (List Nat) :=
  match codePointIndexFind byCode cp with
  | none => .ub
  | some none => .rangeError
  | some (some e) => .ok e.1

/-- models: source/expression_filter.cpp:496-519 `entity_map_find(entity)`. -/
def codeOfEntity (byName : List Entry) (entity : List Nat) : Res Nat :=
  match entity with
  | 35 :: 120 :: digits => .ok (xatoi 0 digits)
  | 35 :: d :: digits => .ok (datoi 0 (d :: digits))
  | _ =>
    match entityNameIndexFind byName entity with
    | none => .ub
    | some none => .rangeError
    | some (some e) => .ok e.2

/-- models: source/expression_filter.cpp:523-538 `needs_entity_escape`. -/
def needsEntityEscape (byCode : List Entry) : List Nat → Option Bool
  | [] => some false
  | c :: cs =>
    if needsEscape c then some true
    else
      match codePointIndexFind byCode c with
      | none => none
      | some (some _) => some true
      | some none => needsEntityEscape byCode cs

/-- models: source/expression_filter.cpp:560-564, the digit of a nybble. -/
def nybble (n : Nat) : Nat := if 10 ≤ n then 65 + (n - 10) else 48 + n

/-- models: source/expression_filter.cpp:547-569, the text written for one byte. -/
def escapeByte (byCode : List Entry) (c : Nat) : Option (List Nat) :=
  match codePointIndexFind byCode c with
  | none => none
  | some (some e) => some (38 :: e.1 ++ [59])
  | some none =>
    if needsEscape c then
      some [38, 35, 120, nybble ((c >>> 4) &&& 15), nybble (c &&& 15), 59]
    else some [c]

/-- models: source/expression_filter.cpp:542-573 `entity_escape`. -/
def entityEscape (byCode : List Entry) : List Nat → Option (List Nat)
  | [] => some []
  | c :: cs =>
    match escapeByte byCode c, entityEscape byCode cs with
    | some a, some b => some (a ++ b)
    | _, _ => none

/-- The position of the first `x` (`std::find`): what precedes it and what follows it. -/
def splitAt (x : Nat) : List Nat → Option (List Nat × List Nat)
  | [] => none
  | c :: cs =>
    if c = x then some ([], cs)
    else
      match splitAt x cs with
      | none => none
      | some (a, b) => some (c :: a, b)

theorem splitAt_length {x : Nat} {l a b : List Nat} (h : splitAt x l = some (a, b)) :
    b.length < l.length := by
  induction l generalizing a b with
  | nil => simp [splitAt] at h
  | cons c cs ih =>
    unfold splitAt at h
    split at h
    · simp only [Option.some.injEq, Prod.mk.injEq] at h
      rw [← h.2]; simp
    · split at h
      · cases h
      · next a' b' h' =>
        simp only [Option.some.injEq, Prod.mk.injEq] at h
        have := ih h'
        rw [← h.2]; simp; omega

/-- models: source/expression_filter.cpp:577-587 `needs_entity_unescape`. -/
def needsEntityUnescape (value : List Nat) : Bool :=
  match splitAt 38 value with
  | none => false
  | some (_, rest) => (splitAt 59 rest).isSome

/-- Prepends text to the result. -/
def Res.prepend (a : List Nat) : Res (List Nat) → Res (List Nat)
  | .ok b => .ok (a ++ b)
  | r => r

/-- models: source/expression_filter.cpp:591-623 `entity_unescape`: `splitAt 38` is `copy_until` (the
    text before `&` goes to the result), `splitAt 59` the search for `;`. -/
def entityUnescape (byName : List Entry) (value : List Nat) : Res (List Nat) :=
  match h1 : splitAt 38 value with
  | none => .ok value
  | some (text, afterAmp) =>
    match h2 : splitAt 59 afterAmp with
    | none => .ok text
    | some (entity, rest) =>
      match codeOfEntity byName entity with
      | .rangeError => .rangeError
      | .ub => .ub
      | .ok cp =>
        (entityUnescape byName rest).prepend
          (text ++ if cp != 0 then (Unicode.encode8 cp).1 else [])
termination_by value.length
decreasing_by
  have := splitAt_length h1
  have := splitAt_length h2
  omega

end Verif.Entity
