import Verif.Lex.Tables
import Verif.CircularQueue.Model
/-
Model of source/lex_stream.cpp and of `stream_lex_base_t` (adobe/implementation/lex_shared.hpp:290-551).

Characters are `Char`; the classification functions are those of the "C" locale, where no character above 127 is a letter, digit or
space (`std::isalpha` etc. of a negative `char` are undefined in ISO C++; the model follows glibc, where they are false).
`identifier_buffer_m` is a list.  The `do`/`while` loops read at least one character each time round and get as fuel one more than
there are characters left; running out of it is the outcome `stuck` (proved not to happen).
-/
namespace Verif.Lex
open Verif.Expr

/-- models: adobe/istream.hpp:158-160 `line_position_t` (the file name and the line reader are not modelled). -/
structure Pos where
  line : Int
  lineStart : Int
  pos : Int
  deriving DecidableEq, Repr

/-- models: adobe/implementation/lex_shared.hpp:326-336: what is left of the input (`first_m`, `last_m`), the stack of characters put
back (`putback_m`, `index_m`; top first) and `current_position_m`. -/
structure L where
  pb : List Char
  inp : List Char
  cur : Pos
  deriving DecidableEq, Repr

/-- What a call ends with: a result; an exception; undefined behaviour; a loop that does not end. -/
inductive R (α : Type) where
  | ok (a : α) (l : L)
  | throw
  | ub
  | stuck

def M (α : Type) := L → R α

variable {α β : Type}

@[inline] def M.pure (a : α) : M α := fun l => .ok a l
@[inline] def M.bind (x : M α) (f : α → M β) : M β := fun l => match x l with
  | .ok a l => f a l
  | .throw => .throw
  | .ub => .ub
  | .stuck => .stuck

instance : Monad M where
  pure := M.pure
  bind := M.bind

def throw : M α := fun _ => .throw
def stuck : M α := fun _ => .stuck

def Pos.move (p : Pos) (n : Int) : Pos := { p with pos := p.pos + n }

/-- models: adobe/implementation/lex_shared.hpp:356-378 `get_char`; `none`: returns false, `c` is unchanged. -/
def getChar : M (Option Char) := fun l => match l.pb with
  | c :: pb => .ok (some c) { l with pb := pb, cur := l.cur.move 1 }
  | [] => match l.inp with
    | [] => .ok none l
    | c :: inp => .ok (some c) { l with inp := inp, cur := l.cur.move 1 }

/-- models: adobe/implementation/lex_shared.hpp:382-387 `putback_char`: `putback_m` has eight elements, the first is not used. -/
def putbackChar (c : Char) : M Unit := fun l =>
  if l.pb.length + 1 < 8 then .ok () { l with pb := c :: l.pb, cur := l.cur.move (-1) } else .ub

/-- models: adobe/implementation/lex_shared.hpp:391-399 `peek_char`; `none` is `EOF` (the byte 0xFF, also -1, is not told apart from it
by the code; no caller does anything different for the two). -/
def peekChar : M (Option Char) := fun l => match l.pb with
  | c :: _ => .ok (some c) l
  | [] => .ok l.inp.head? l

/-- models: adobe/implementation/lex_shared.hpp:403-413 `ignore_char`. -/
def ignoreChar : M Unit := fun l => match l.pb with
  | _ :: pb => .ok () { l with pb := pb, cur := l.cur.move 1 }
  | [] => match l.inp with
    | [] => .ok () l
    | _ :: inp => .ok () { l with inp := inp, cur := l.cur.move 1 }

/-- models: adobe/implementation/lex_shared.hpp:485-501 `is_line_end(c)` with adobe/istream.hpp:245-263: looks directly at the input,
past the characters that were put back. -/
def isLineEnd (c : Char) : M Bool := fun l =>
  if c = '\n' then
    .ok true { l with cur := ⟨l.cur.line + 1, l.cur.pos, l.cur.pos⟩ }
  else if c = '\r' then
    match l.inp with
    | '\n' :: inp => .ok true { l with inp := inp, cur := ⟨l.cur.line + 1, l.cur.pos + 1, l.cur.pos + 1⟩ }
    | _ => .ok true { l with cur := ⟨l.cur.line + 1, l.cur.pos, l.cur.pos⟩ }
  else .ok false l

/-- Characters that can still be read; one more is enough fuel for the loops. -/
def fuel : M Nat := fun l => .ok (l.pb.length + l.inp.length + 1) l

def isdigit (c : Char) : Bool := 48 ≤ c.toNat && c.toNat ≤ 57
def isxdigit (c : Char) : Bool := isdigit c || (65 ≤ c.toNat && c.toNat ≤ 70) || (97 ≤ c.toNat && c.toNat ≤ 102)
def isalpha (c : Char) : Bool := (65 ≤ c.toNat && c.toNat ≤ 90) || (97 ≤ c.toNat && c.toNat ≤ 122)
def isalnum (c : Char) : Bool := isalpha c || isdigit c
def isspace (c : Char) : Bool := c.toNat == 32 || (9 ≤ c.toNat && c.toNat ≤ 13)

/-- models: adobe/implementation/lex_shared.hpp:537-549 `skip_white_space`. -/
def skipLoop : Nat → M Unit
  | 0 => stuck
  | n + 1 => do
      match ← getChar with
      | none => return ()
      | some c =>
          if !(← isLineEnd c) && !isspace c then putbackChar c
          else skipLoop n

def skipWhiteSpace : M Unit := do skipLoop (← fuel)

/-- Conversions of text to numbers, and what the client adds. -/
structure Opts (D : Type) where
  /-- `stringstream >> double` in the classic locale, on digits and dots -/
  decimal : Str → D
  /-- `static_cast<double>(unsigned long long)` -/
  ofU64 : Nat → D
  /-- source/lex_stream.cpp:345-348 `set_keyword_extension_lookup` -/
  keyword : Str → Bool
  /-- source/lex_stream.cpp:352 `set_comment_bypass` -/
  bypass : Bool

variable {D : Type}

/-- The value of a hexadecimal digit, as source/lex_stream.cpp:390-391 computes it. -/
def hexDigit (c : Char) : Nat :=
  if isdigit c then c.toNat - 48 else 10 + (if 65 ≤ c.toNat && c.toNat ≤ 90 then c.toNat + 32 else c.toNat) - 97

/-- models: source/lex_stream.cpp:378-392: the loop of `is_hex_number`, on a 64 bit number. -/
def hexLoop : Nat → Nat → M Nat
  | 0, _ => stuck
  | n + 1, v => do
      match ← getChar with
      | none => return v
      | some c =>
          if !isxdigit c then do
            putbackChar c
            return v
          else hexLoop n ((v * 16 + hexDigit c) % 2 ^ 64)

/-- models: source/lex_stream.cpp:362-397 `is_hex_number`. -/
def isHexNumber (o : Opts D) (c : Char) : M (Option (Tok D)) := do
  if c ≠ '0' then return none
  let p ← peekChar
  if p ≠ some 'x' ∧ p ≠ some 'X' then return none
  match ← getChar with
  | none => return none -- not reached: `peek_char` saw a character
  | some x =>
      match ← peekChar with
      | some d =>
          if isxdigit d then do
            let v ← hexLoop (← fuel) 0
            return some (.num (o.ofU64 v))
          else do
            putbackChar x
            return none
      | none => do
          putbackChar x
          return none

/-- models: source/lex_stream.cpp:410-421: the loop of `is_dec_number`. -/
def decLoop : Nat → Str → M Str
  | 0, _ => stuck
  | n + 1, temp => do
      match ← getChar with
      | none => return temp
      | some c =>
          if !isdigit c && c != '.' then do
            putbackChar c
            return temp
          else decLoop n (temp ++ [c])

/-- models: source/lex_stream.cpp:401-429 `is_dec_number`. -/
def isDecNumber (o : Opts D) (c : Char) : M (Option (Tok D)) := do
  if !isdigit c then return none
  putbackChar c
  let temp ← decLoop (← fuel) []
  return some (.num (o.decimal temp))

/-- models: source/lex_stream.cpp:356-358 `is_number`. -/
def isNumber (o : Opts D) (c : Char) : M (Option (Tok D)) := do
  match ← isHexNumber o c with
  | some t => return some t
  | none => isDecNumber o c

/-- models: source/lex_stream.cpp:439-446: the loop of `is_identifier_or_keyword`. -/
def identLoop : Nat → Char → Str → M Str
  | 0, _, _ => stuck
  | n + 1, c, buf =>
      if isalnum c || c == '_' then do
        match ← getChar with
        | some c' => identLoop n c' (buf ++ [c])
        | none => return buf ++ [c]
      else do
        putbackChar c
        return buf

/-- models: source/lex_stream.cpp:48-61, 226: the keywords. -/
def keywords : List Str := ["empty".toList, "true".toList, "false".toList]

/-- models: source/lex_stream.cpp:433-461 `is_identifier_or_keyword`; the search in the sorted table of keywords is membership. -/
def isIdentifierOrKeyword (o : Opts D) (c : Char) : M (Option (Tok D)) := do
  if !isalpha c && c != '_' then return none
  let ident ← identLoop (← fuel) c []
  if keywords.contains ident || o.keyword ident then return some (.kw ident) else return some (.ident ident)

/-- `std::string(const char*)`: ends at the first NUL. -/
def cstr (s : Str) : Str := s.takeWhile fun c => c != '\x00'

/-- models: source/lex_stream.cpp:479-481: the loop for `//`. -/
def lineCommentLoop : Nat → Str → M Str
  | 0, _ => stuck
  | n + 1, buf => do
      match ← getChar with
      | none => return buf
      | some c => if ← isLineEnd c then return buf else lineCommentLoop n (buf ++ [c])

/-- models: source/lex_stream.cpp:490-506: the loop for `/*`. -/
def blockCommentLoop : Nat → Str → M Str
  | 0, _ => stuck
  | n + 1, buf => do
      match ← getChar with
      | none => throw
      | some c =>
          if c = '*' then do
            if (← peekChar) = some '/' then do
              ignoreChar
              return buf
            else blockCommentLoop n (buf ++ [c])
          else if ← isLineEnd c then blockCommentLoop n (buf ++ ['\n'])
          else blockCommentLoop n (buf ++ [c])

/-- models: source/lex_stream.cpp:465-515 `is_comment`. -/
def isComment (c : Char) : M (Option (Tok D)) := do
  if c ≠ '/' then return none
  let p ← peekChar
  if p ≠ some '/' ∧ p ≠ some '*' then return none
  match ← getChar with
  | none => return none -- not reached
  | some c =>
      if c = '/' then do
        let buf ← lineCommentLoop (← fuel) []
        return some (.trailComment (cstr buf))
      else do
        let buf ← blockCommentLoop (← fuel) []
        return some (.leadComment (cstr buf))

/-- models: source/lex_stream.cpp:528-532: `while (get_char(c) && c != end_char)`; the result is the new `c` with the buffer. -/
def quotedLoop (endChar : Char) : Nat → Char → Str → M (Char × Str)
  | 0, _, _ => stuck
  | n + 1, c, buf => do
      match ← getChar with
      | none => return (c, buf)
      | some c' => if c' = endChar then return (c', buf) else quotedLoop endChar n c' (buf ++ [c'])

/-- models: source/lex_stream.cpp:525-544: the loop over adjacent strings. -/
def stringLoop : Nat → Char → Str → M Str
  | 0, _, _ => stuck
  | n + 1, c, buf => do
      let endChar := c
      let (c, buf) ← quotedLoop endChar (← fuel) c buf
      if c ≠ endChar then throw
      else do
        -- 625-629 `skip_space`
        skipWhiteSpace
        match ← getChar with
        | none => return buf
        | some c =>
            if c ≠ '\'' ∧ c ≠ '"' then do
              putbackChar c
              return buf
            else stringLoop n c buf

/-- models: source/lex_stream.cpp:519-550 `is_string`. -/
def isString (c : Char) : M (Option (Tok D)) := do
  if c ≠ '\'' ∧ c ≠ '"' then return none
  let buf ← stringLoop (← fuel) c []
  return some (.str (cstr buf))

/-- models: source/lex_stream.cpp:559-608 `is_compound`. -/
def isCompound (c : Char) : M (Option (Tok D)) := do
  let next := compoundMatch.getD c.toNat '0'
  if next = '0' then return none
  match ← peekChar with
  | none => return none
  | some actual =>
      if next = '#' then do
        if c = '>' ∧ actual = '>' then do
          ignoreChar
          return some (.sym .bitRshift)
        else if c = '>' ∧ actual = '=' then do
          ignoreChar
          return some (.sym .greaterEqual)
        else if c = '<' ∧ actual = '<' then do
          ignoreChar
          return some (.sym .bitLshift)
        else if c = '<' ∧ actual = '=' then do
          ignoreChar
          if (← peekChar) = some '=' then do
            ignoreChar
            return some (.sym .is)
          else return some (.sym .lessEqual)
        else return none
      else if actual ≠ next then return none
      else do
        ignoreChar
        match nameTable.getD (compoundIndex.getD c.toNat 0) none with
        | some y => return some (.sym y)
        | none => throw -- not reached: every compound token has a name

/-- models: source/lex_stream.cpp:612-621 `is_simple`. -/
def isSimple (c : Char) : M (Option (Tok D)) := do
  let index := simpleIndex.getD c.toNat 0
  if index = 0 then return none
  match nameTable.getD index none with
  | some y => return some (.sym y)
  | none => throw -- not reached

/-- models: source/lex_stream.cpp:633-646 `parse_token`; the result is the token to put into the queue, if any. -/
def parseToken (o : Opts D) (c : Char) : M (Option (Tok D)) := do
  let comment ← isComment c
  let result ← do
    match ← isNumber o c with
    | some t => pure (some t)
    | none =>
      match ← isIdentifierOrKeyword o c with
      | some t => pure (some t)
      | none =>
        match comment with
        | some t => pure (some t)
        | none =>
          match ← isString c with
          | some t => pure (some t)
          | none =>
            match ← isCompound c with
            | some t => pure (some t)
            | none => isSimple c
  match result with
  | none => throw
  | some t => if comment.isNone || !o.bypass then return some t else return none

/-- `current_position_m`. -/
def position : M Pos := fun l => .ok l.cur l

/-- A fragment: a token (`none` is `eof`) with its position. -/
abbrev Frag (D : Type) := Option (Tok D) × Pos

/-- models: adobe/implementation/lex_shared.hpp:421-445: the loop of `get_token`, until there is a token: it is in the queue afterwards.
The queue was empty, so that the first `put_token` ends the loop; the result is that fragment. -/
def fetchLoop (o : Opts D) : Nat → M (Frag D)
  | 0 => stuck
  | n + 1 => do
      skipWhiteSpace
      let start ← position
      match ← getChar with
      | none => return (none, start)
      | some c =>
          match ← parseToken o c with
          | some t => return (some t, start)
          | none => fetchLoop o n

def fetch (o : Opts D) : M (Frag D) := do fetchLoop o (← fuel)

open Verif.CircularQueue in
/-- models: adobe/implementation/lex_shared.hpp:326-340 the lexical analyser: the input and the queue of two tokens. -/
structure Lexer (D : Type) where
  l : L
  q : CQ (Frag D)

/-- models: adobe/implementation/lex_shared.hpp:344-347 (constructor, `S` = 2). -/
def Lexer.mk' (D : Type) (text : Str) (p : Pos) : Lexer D :=
  ⟨⟨[], text, p⟩, CircularQueue.mk (none, ⟨0, 0, 0⟩) 2⟩

/-- What a call of the lexical analyser ends with. -/
inductive RX (D β : Type) where
  | ok (b : β) (x : Lexer D)
  | throw
  | ub
  | stuck

/-- models: adobe/implementation/lex_shared.hpp:417-452 `get_token`. -/
def Lexer.get (o : Opts D) (x : Lexer D) : RX D (Option (Tok D)) :=
  if x.q.empty then
    match fetch o x.l with
    | .ok f l => (match x.q.push f with
        | none => .ub
        | some q => (match q.front, q.pop with
            | some f, some q => .ok f.1 ⟨l, q⟩
            | _, _ => .ub))
    | .throw => .throw
    | .ub => .ub
    | .stuck => .stuck
  else
    match x.q.front, x.q.pop with
    | some f, some q => .ok f.1 ⟨x.l, q⟩
    | _, _ => .ub

/-- models: adobe/implementation/lex_shared.hpp:464-467 `putback_token`. -/
def Lexer.putback (x : Lexer D) : RX D Unit := match x.q.putback with
  | some q => .ok () ⟨x.l, q⟩
  | none => .ub

/-- models: adobe/implementation/lex_shared.hpp:471-481 `next_position`. -/
def Lexer.nextPosition (o : Opts D) (x : Lexer D) : RX D Pos := match x.get o with
  | .ok _ x => (match x.putback with
      | .ok _ x => (match x.q.front with
          | some f => .ok f.2 x
          | none => .ub)
      | .throw => .throw
      | .ub => .ub
      | .stuck => .stuck)
  | .throw => .throw
  | .ub => .ub
  | .stuck => .stuck

/-- The calls a parser makes. -/
inductive Call where
  | get | putback | nextPosition

/-- What a call returns. -/
inductive Ans (D : Type) where
  | tok (t : Option (Tok D))
  | pos (p : Pos)
  | done

def Lexer.call (o : Opts D) (x : Lexer D) : Call → RX D (Ans D)
  | .get => match x.get o with
    | .ok t x => .ok (.tok t) x
    | .throw => .throw
    | .ub => .ub
    | .stuck => .stuck
  | .putback => match x.putback with
    | .ok _ x => .ok .done x
    | .throw => .throw
    | .ub => .ub
    | .stuck => .stuck
  | .nextPosition => match x.nextPosition o with
    | .ok p x => .ok (.pos p) x
    | .throw => .throw
    | .ub => .ub
    | .stuck => .stuck

/-- How a sequence of calls ends. -/
inductive Ending where
  | returned | threw | undefined | looping
  deriving DecidableEq, Repr

/-- The answers to a sequence of calls, up to an exception. -/
def Lexer.calls (o : Opts D) (x : Lexer D) : List Call → List (Ans D) × Ending
  | [] => ([], .returned)
  | c :: cs => match x.call o c with
    | .ok a x => (match x.calls o cs with | (as, e) => (a :: as, e))
    | .throw => ([], .threw)
    | .ub => ([], .undefined)
    | .stuck => ([], .looping)

end Verif.Lex
