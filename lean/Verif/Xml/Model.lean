import Verif.XmlAttr.Model
import Verif.Entity.Model
/-!
Model of the XML lexer and parser: source/xml_lex.cpp, `lex_base_t` (adobe/implementation/lex_shared.hpp:43-290),
`xml_parser_t` (adobe/xml_parser.hpp:414-1130) and source/xml_parser.cpp.

A pointer is an address and memory a map from addresses to bytes (component XmlAttr), because token ranges are pairs of
pointers, are compared as such in one place, and span several tokens.

Simplifications:
* memory does not change; text that a callback makes is there from the beginning, at addresses of its own;
* line and column numbers are not modelled; `next_position()` is, as the lexing of one more token that it does;
* the queue of tokens is the token that was put back, if any, and the last one given out; a second `putback` in a row is
  undefined behaviour here (it would give an older token or overflow; proved not to happen);
* a token is recognized by functions on the bytes from the current position to the end of the range, which give the
  number of bytes; reading when the position is past the end is undefined behaviour and is detected when the next token
  is asked for (the functions themselves stop at the end, except for `is_att_value`, which may leave the position one past
  the end);
* the "C" locale; the output iterator accepts everything (`std::back_inserter`);
* the callback is a function of the calls so far and its arguments, and may throw (a deterministic client with state); the
  predicate is a function of the name, and an empty `std::function` is the predicate that is always false;
* recursion and loops take a number of rounds as fuel; `stuck` is the outcome when it is used up.
-/
namespace Verif.Xml
open Verif.XmlAttr (Mem Tok Attr tokenRangeEqual)

/-- models: adobe/implementation/xml_token.hpp:25-38 `xml_lex_token_set_t`. -/
inductive Kind where
  | openTag | openSlash | closeTag | slashClose | name | attValue | charData | equals | reference | comment | pi | eof
  deriving DecidableEq, Repr

/-- What one of the recognizing functions does: it returns false, throws, or recognizes a token that begins `skip` bytes
after the current position and has `len` bytes, and advances by `adv` bytes. -/
inductive Scan where
  | no
  | throw
  | tok (k : Kind) (skip len adv : Nat)
  deriving DecidableEq, Repr

/-- `std::isspace`. -/
def isSpace (c : Nat) : Bool := c == 32 || (decide (9 ≤ c) && decide (c ≤ 13))

/-- models: source/xml_lex.cpp:292-301 `is_name_start_char` (comparisons of `char`, signed or not, give the same
result on bytes). -/
def nameStart (c : Nat) : Bool :=
  (decide (65 ≤ c) && decide (c ≤ 90)) || (decide (97 ≤ c) && decide (c ≤ 122)) || c == 58 || c == 95 ||
  (decide (0xC0 ≤ c) && decide (c ≤ 0xD6)) || (decide (0xD8 ≤ c) && decide (c ≤ 0xF6)) ||
  (decide (0xF8 ≤ c) && decide (c ≤ 0xFF))

/-- models: source/xml_lex.cpp:310-320 `is_name_char`. -/
def nameChar (c : Nat) : Bool :=
  nameStart c || c == 45 || c == 46 || (decide (48 ≤ c) && decide (c ≤ 57)) || c == 0xB7

/-- models: source/xml_lex.cpp:65-72, the loop of `is_processing_instruction`: bytes up to and with `?>`; `none`: throws. -/
def piLen : List Nat → Option Nat
  | [] => none
  | c :: r => if c == 63 && r.head? == some 62 then some 2 else (piLen r).map (· + 1)

/-- models: source/xml_lex.cpp:48-80 `is_processing_instruction`. -/
def isPI : List Nat → Scan
  | 60 :: 63 :: r => match piLen r with
    | none => .throw
    | some n => .tok .pi 0 (n + 2) (n + 2)
  | _ => .no

/-- models: source/xml_lex.cpp:102-113, the loop of `is_comment`: bytes up to and with `-->`; `none`: throws. -/
def commentLen : List Nat → Option Nat
  | [] => none
  | c :: r =>
    if c == 45 && r.head? == some 45 then (if r.tail.head? == some 62 then some 3 else none)
    else (commentLen r).map (· + 1)

/-- models: source/xml_lex.cpp:84-121 `is_comment`. -/
def isComment : List Nat → Scan
  | 60 :: 33 :: 45 :: 45 :: r => match commentLen r with
    | none => .throw
    | some n => .tok .comment 0 (n + 4) (n + 4)
  | _ => .no

/-- models: source/xml_lex.cpp:125-147 `is_tag_open`. -/
def isTagOpen : List Nat → Scan
  | 60 :: 47 :: _ => .tok .openSlash 0 2 2
  | 60 :: _ => .tok .openTag 0 1 1
  | _ => .no

/-- models: source/xml_lex.cpp:151-183 `is_tag_close`. -/
def isTagClose : List Nat → Scan
  | 62 :: _ => .tok .closeTag 0 1 1
  | 47 :: 62 :: _ => .tok .slashClose 0 2 2
  | _ => .no

/-- models: source/xml_lex.cpp:187-203 `is_name`. -/
def isName : List Nat → Scan
  | c :: r => if nameStart c then
      let n := ((c :: r).takeWhile nameChar).length
      .tok .name 0 n n
    else .no
  | [] => .no

/-- models: source/xml_lex.cpp:207-221 `is_equals`. -/
def isEquals : List Nat → Scan
  | 61 :: _ => .tok .equals 0 1 1
  | _ => .no

/-- models: source/xml_lex.cpp:236-243, the loop of `is_att_value`: bytes of the value; `none`: throws. -/
def attLen (tick : Nat) : List Nat → Option Nat
  | [] => some 0
  | c :: r => if c == 60 || c == 38 then none else if c == tick then some 0 else (attLen tick r).map (· + 1)

/-- models: source/xml_lex.cpp:225-250 `is_att_value`: the token is without the quotes.  At the end of the range the last
`advance_lex()` goes past the end. -/
def isAttValue : List Nat → Scan
  | t :: r => if t == 34 || t == 39 then
      match attLen t r with
      | none => .throw
      | some n => .tok .attValue 1 n (n + 2)
    else .no
  | [] => .no

/-- models: source/xml_lex.cpp:264-267, the loop of `is_reference`. -/
def refLen : List Nat → Nat
  | [] => 0
  | c :: r => if c == 59 then 1 else refLen r + 1

/-- models: source/xml_lex.cpp:254-272 `is_reference`. -/
def isReference : List Nat → Scan
  | 38 :: r => .tok .reference 0 (refLen r + 1) (refLen r + 1)
  | _ => .no

/-- A byte that ends character data. -/
def charByte (c : Nat) : Bool := !(c == 60 || c == 38)

/-- models: source/xml_lex.cpp:276-290 `is_char_data`. -/
def isCharData (l : List Nat) : Scan :=
  let n := (l.takeWhile charByte).length
  .tok .charData 0 n n

/-- `x || y` of two recognizing functions. -/
def Scan.or : Scan → Scan → Scan
  | .no, y => y
  | x, _ => x

/-- models: source/xml_lex.cpp:33-44 `parse_token`. -/
def parseToken (namePossible : Bool) (l : List Nat) : Scan :=
  (isPI l).or <| (isComment l).or <| (isTagOpen l).or <| (isTagClose l).or <|
    (if namePossible then (isName l).or <| (isEquals l).or <| isAttValue l else .no).or <|
    (isReference l).or <| isCharData l

/-- models: adobe/implementation/lex_shared_fwd.hpp:271-280 `lex_token_t`. -/
structure Token where
  kind : Kind
  range : Tok
  deriving DecidableEq, Repr

/-- models: adobe/implementation/lex_shared.hpp:104-121 and adobe/implementation/xml_lex.hpp:62: `first_m`, `last_m`,
`name_possible_m`, `skip_white_m`; `pending`: the token put back; `cur`: the one given out last. -/
structure Lx where
  first : Nat
  last : Nat
  namePossible : Bool
  skipWhite : Bool
  pending : Option Token
  cur : Token
  deriving DecidableEq, Repr

/-- models: adobe/implementation/lex_shared.hpp:127-130, source/xml_lex.cpp:17-20: a new lexer. -/
def Lx.new (r : Tok) : Lx := ⟨r.first, r.second, false, true, none, ⟨.openTag, .null⟩⟩

/-- What a call ends with. -/
inductive R (σ α : Type) where
  | ok (a : α) (s : σ)
  | throw
  | ub
  | stuck

/-- models: adobe/implementation/lex_shared.hpp:276-287 `skip_white_space` (every end of line is white space): the new
position. -/
def skipWhiteSpace (mem : Mem) (s : Lx) : Nat :=
  s.first + (((Tok.mk s.first s.last).text mem).takeWhile isSpace).length

/-- The flags after a token, source/xml_lex.cpp:138-140 and 178-180. -/
def Lx.after (s : Lx) : Kind → Lx
  | .openTag | .openSlash => { s with namePossible := true, skipWhite := true }
  | .closeTag | .slashClose => { s with namePossible := false, skipWhite := false }
  | _ => s

/-- models: adobe/implementation/lex_shared.hpp:140-159 `get_token` with 207-214 `is_eof` and 163-166 `put_token`. -/
def getToken (mem : Mem) (s : Lx) : R Lx Token :=
  match s.pending with
  | some t => .ok t { s with pending := none, cur := t }
  | none =>
    if s.last < s.first then .ub
    else
      let p := if s.skipWhite then skipWhiteSpace mem s else s.first
      if p = s.last then
        let t : Token := ⟨.eof, ⟨s.last, s.last⟩⟩
        .ok t { s with first := p, cur := t }
      else
        match parseToken s.namePossible ((Tok.mk p s.last).text mem) with
        | .no => .throw
        | .throw => .throw
        | .tok k skip len adv =>
          let t : Token := ⟨k, ⟨p + skip, p + skip + len⟩⟩
          .ok t { ({ s with first := p + adv } : Lx).after k with cur := t }

/-- models: adobe/implementation/lex_shared.hpp:170-173 `putback_token`. -/
def putback (s : Lx) : R Lx Unit :=
  match s.pending with
  | some _ => .ub
  | none => .ok () { s with pending := some s.cur }

/-- One call of the client's function. -/
structure Call where
  entire : Tok
  name : Tok
  attrs : List Attr
  value : Tok
  deriving DecidableEq, Repr

/-- What does not change during a parse: memory, the index of the entity table, and the client's functions
(adobe/xml_parser.hpp:573-574 `pred_m`, `callback_m`). -/
structure Cfg where
  mem : Mem
  byName : List Entity.Entry
  pred : Tok → Bool
  callback : List Call → Call → Option Tok

/-- models: adobe/xml_parser.hpp:575-579 `output_m`, `token_stream_m`, `preorder_mode_m`; and the calls made so far. -/
structure St where
  lx : Lx
  preorder : Bool
  out : List Nat
  calls : List Call

def M (α : Type) := St → R St α

variable {α β : Type}

@[inline] def M.pure (a : α) : M α := fun s => .ok a s
@[inline] def M.bind (x : M α) (f : α → M β) : M β := fun s => match x s with
  | .ok a s => f a s
  | .throw => .throw
  | .ub => .ub
  | .stuck => .stuck

instance : Monad M where
  pure := M.pure
  bind := M.bind

def throw : M α := fun _ => .throw
def stuck : M α := fun _ => .stuck
def ub : M α := fun _ => .ub

/-- A call of the lexer. -/
def lex (f : Lx → R Lx α) : M α := fun s => match f s.lx with
  | .ok a l => .ok a { s with lx := l }
  | .throw => .throw
  | .ub => .ub
  | .stuck => .stuck

/-- `adobe::copy(…, output_m)`. -/
def output (l : List Nat) : M Unit := fun s => .ok () { s with out := s.out ++ l }

def getPreorder : M Bool := fun s => .ok s.preorder s
def setPreorder (b : Bool) : M Unit := fun s => .ok () { s with preorder := b }

/-- models: adobe/xml_parser.hpp:639-667 `is_token`: the range if the next token is of that kind. -/
def isToken (c : Cfg) (k : Kind) : M (Option Tok) := do
  let t ← lex (getToken c.mem)
  if t.kind = k then return some t.range
  else do
    lex putback
    return none

/-- models: adobe/implementation/lex_shared.hpp:177-186 `next_position`: lexes one token ahead. -/
def nextPosition (c : Cfg) : M Unit := do
  let _ ← lex (getToken c.mem)
  lex putback

/-- models: adobe/xml_parser.hpp:670-690 `require_token` with 553-558 `throw_exception`. -/
def requireToken (c : Cfg) (k : Kind) : M Tok := do
  let t ← lex (getToken c.mem)
  if t.kind = k then return t.range
  else do
    nextPosition c
    throw

/-- models: adobe/xml_parser.hpp:1035-1046 `is_attribute`. -/
def isAttribute (c : Cfg) : M (Option Attr) := do
  match ← isToken c .name with
  | none => return none
  | some name => do
    let _ ← requireToken c .equals
    let value ← requireToken c .attValue
    return some (name, value)

/-- models: adobe/xml_parser.hpp:952-961 `is_attribute_set`. -/
def isAttributeSet (c : Cfg) : Nat → List Attr → M (List Attr)
  | 0, _ => stuck
  | n + 1, set => do
    match ← isAttribute c with
    | none => return set
    | some a =>
      match XmlAttr.insert c.mem set a with
      | none => ub
      | some set => isAttributeSet c n set

/-- models: adobe/xml_parser.hpp:938-948 `is_e_tag`: name and `>`. -/
def isETag (c : Cfg) : M (Option (Tok × Tok)) := do
  match ← isToken c .openSlash with
  | none => return none
  | some _ => do
    let name ← requireToken c .name
    let close ← requireToken c .closeTag
    return some (name, close)

/-- `callback_m(…)`. -/
def call (c : Cfg) (k : Call) : M Tok := fun s => match c.callback s.calls k with
  | none => .throw
  | some r => .ok r { s with calls := s.calls ++ [k] }

/-- models: source/xml_parser.cpp:32-49 `to_token_range` and 65-75 `transform_reference`: the text.  The range `&` alone
makes `std::string` throw (libstdc++; formally undefined), which is caught like an unknown entity. -/
def transformReference (c : Cfg) (r : List Nat) : List Nat :=
  match r with
  | 38 :: d :: rest =>
    match Entity.codeOfEntity c.byName (d :: rest).dropLast with
    | .ok cp => if cp = 0 then [] else (Unicode.encode8 cp).1
    | _ => []
  | _ => []

/-- models: adobe/xml_parser.hpp:716-718: another parser for the range `new`, with the same predicate, callback and output,
runs `p`. -/
def subParse (new : Tok) (p : M Unit) : M Unit := fun s =>
  match p { s with lx := Lx.new new, preorder := false } with
  | .ok a s' => .ok a { s' with lx := s.lx, preorder := s.preorder }
  | .throw => .throw
  | .ub => .ub
  | .stuck => .stuck

mutual
/-- models: adobe/xml_parser.hpp:692-735 `content_callback`: the element to be given back. -/
def contentCallback (c : Cfg) : Nat → Tok → Tok → List Attr → Tok → Bool → M Tok
  | 0, _, _, _, _, _ => stuck
  | n + 1, old, start, attrs, content, parent => do
    if parent then do
      let new ← call c ⟨old, start, attrs, content⟩
      if old = new then output (old.text c.mem)
      else do
        nextPosition c
        subParse new (parseContent c n)
      setPreorder false
      return .null
    else return old

/-- models: adobe/xml_parser.hpp:738-836 `is_element`: `none`: returns false. -/
def isElement (c : Cfg) : Nat → M (Option Tok)
  | 0 => stuck
  | n + 1 => do
    match ← isToken c .openTag with
    | none => return none
    | some openTag => do
      let start ← requireToken c .name
      let mode ← getPreorder
      let parent := !mode && c.pred start
      setPreorder (mode || parent)
      let preorder := mode || parent
      let attrs ← isAttributeSet c n []
      match ← isToken c .slashClose with
      | some close =>
        let entire : Tok := ⟨openTag.first, close.second⟩
        if preorder then do
          let e ← contentCallback c n entire start attrs .null parent
          return some e
        else do
          let r ← call c ⟨entire, start, attrs, .null⟩
          output (r.text c.mem)
          return some .null
      | none => do
        let closeOfOpen ← requireToken c .closeTag
        if !preorder then output ((Tok.mk openTag.first closeOfOpen.second).text c.mem)
        let content ← isContent c n
        match ← isETag c with
        | none => throw
        | some (endTag, close) =>
          if !tokenRangeEqual c.mem start endTag then throw
          else if !preorder then do
            output (content.text c.mem)
            output ((Tok.mk (endTag.first - 2) (endTag.second + 1)).text c.mem)
            return some .null
          else do
            let e ← contentCallback c n ⟨openTag.first, close.second⟩ start attrs content parent
            return some e

/-- models: adobe/xml_parser.hpp:840-866, the beginning of `is_content`. -/
def isContent (c : Cfg) : Nat → M Tok
  | 0 => stuck
  | n + 1 => do
    match ← isToken c .charData with
    | none => contentLoop c n .null
    | some charData => do
      if ← getPreorder then contentLoop c n charData
      else do
        output (charData.text c.mem)
        contentLoop c n .null

/-- models: adobe/xml_parser.hpp:868-932, the loop of `is_content`. -/
def contentLoop (c : Cfg) : Nat → Tok → M Tok
  | 0, _ => stuck
  | n + 1, content => do
    match ← isToken c .reference with
    | some result =>
      if result.size ≠ 0 then do
        if ← getPreorder then contentTail c n ⟨if content.first = 0 then result.first else content.first, result.second⟩
        else do
          output (transformReference c (result.text c.mem))
          contentTail c n content
      else contentTail c n content
    | none =>
      match ← isElement c n with
      | some result =>
        if result.size ≠ 0 then do
          if ← getPreorder then contentTail c n ⟨if content.first = 0 then result.first else content.first, result.second⟩
          else do
            output (result.text c.mem)
            contentTail c n content
        else contentTail c n content
      | none =>
        match ← isToken c .comment with
        | some _ => contentTail c n content
        | none => return content

/-- models: adobe/xml_parser.hpp:918-931, the end of the loop of `is_content`. -/
def contentTail (c : Cfg) : Nat → Tok → M Tok
  | 0, _ => stuck
  | n + 1, content => do
    match ← isToken c .charData with
    | none => contentLoop c n content
    | some charData => do
      if ← getPreorder then contentLoop c n ⟨content.first, charData.second⟩
      else do
        output (charData.text c.mem)
        contentLoop c n content

/-- models: adobe/xml_parser.hpp:1064-1084 `parse_content`. -/
def parseContent (c : Cfg) : Nat → M Unit
  | 0 => stuck
  | n + 1 => do
    lex fun l => .ok () { l with skipWhite := false }
    parseContentLoop c n

/-- models: adobe/xml_parser.hpp:1070-1083, the loop of `parse_content`. -/
def parseContentLoop (c : Cfg) : Nat → M Unit
  | 0 => stuck
  | n + 1 => do
    let content ← isContent c n
    if content.size ≠ 0 then do
      let r ← call c ⟨content, .null, [], content⟩
      output (r.text c.mem)
      parseContentLoop c n
    else return ()
end

/-- models: adobe/xml_parser.hpp:1057-1058 `parse_element_sequence`, the loop. -/
def elementSequenceLoop (c : Cfg) : Nat → M Unit
  | 0 => stuck
  | n + 1 => do
    match ← isElement c n with
    | none => return ()
    | some _ => do
      let _ ← isToken c .charData
      elementSequenceLoop c n

/-- models: adobe/xml_parser.hpp:1050-1059 `parse_element_sequence`. -/
def parseElementSequence (c : Cfg) (n : Nat) : M Unit := do
  lex fun l => .ok () { l with skipWhite := false }
  elementSequenceLoop c n

/-- models: adobe/xml_parser.hpp:986-1017 `is_bom`. -/
def isBom (c : Cfg) : M Bool := do
  lex fun l => .ok () { l with skipWhite := false }
  let t ← isToken c .charData
  let r ← (match t with
    | none => pure false
    | some bom =>
      if (bom.text c.mem).take 3 = [0xEF, 0xBB, 0xBF] then pure true
      else if (bom.text c.mem).take 2 = [0xFE, 0xFF] ∨ (bom.text c.mem).take 2 = [0xFF, 0xFE] then do
        nextPosition c
        throw
      else pure false)
  lex fun l => .ok () { l with skipWhite := true }
  return r

/-- models: adobe/xml_parser.hpp:965-982 `is_prolog` and 1021-1031 `is_xml_decl`. -/
def isProlog (c : Cfg) : M Bool := do
  let _ ← isBom c
  match ← isToken c .pi with
  | none => return false
  | some _ => return true

/-- models: adobe/xml_parser.hpp:1087-1095 `parse_document`. -/
def parseDocument (c : Cfg) (n : Nat) : M Unit := do
  lex fun l => .ok () { l with skipWhite := true }
  let _ ← isProlog c
  let _ ← isElement c n
  return ()

/-- models: adobe/xml_parser.hpp:426-429: a new parser. -/
def St.new (r : Tok) : St := ⟨Lx.new r, false, [], []⟩

end Verif.Xml
