/-!
Model of source/istream.cpp and of adobe/istream.hpp: positions in a stream, errors that carry them, the text that is shown for an
error, and lines.

Simplifications:
* characters are Lean characters;
* the function that gives the line of a position is called with the name and the start of the line of that position only: what it
  gives (or that there is none) is a member of the position;
* offsets in streams are integers, without overflow; the conversion of the width to `int` is modelled.
-/
namespace Verif.ErrFmt

abbrev Str := List Char

/-- models: adobe/istream.hpp:137-167 `line_position_t`; `snippet`: what `file_snippet` gives, `none` without a function. -/
structure Pos where
  line : Int
  start : Int
  pos : Int
  name : Str
  snippet : Option Str

/-- models: source/istream.cpp:86-98: the constructors of `line_position_t`. -/
def Pos.mk5 (name : Str) (getline : Option (Str → Int → Str)) (line start pos : Int) : Pos :=
  ⟨line, start, pos, name, getline.map fun f => f name start⟩
def Pos.mk2 (name : Str) (line : Int) : Pos := ⟨line, 0, -1, name, none⟩
def Pos.mk0 : Pos := ⟨1, 0, -1, [], none⟩

/-- models: source/istream.cpp:71-82 `operator<<` -/
def showPos (p : Pos) : Str :=
  (if p.name ≠ [] then p.name else "<unknown>".toList) ++ ':' :: (toString p.line).toList ++ ':' ::
    (toString (p.pos - p.start + 1)).toList

/-- models: source/istream.cpp:34-35: tabs become spaces. -/
def detab (l : Str) : Str := l.map fun c => if c = '\t' then ' ' else c

/-- models: source/istream.cpp:44-47: the nulls at the end. -/
def trimNulls (l : Str) : Str :=
  match l.reverse.findIdx? (· ≠ '\x00') with
  | none => l
  | some k => l.take (l.length - k)

/-- The conversion of a `streamoff` to `size_t` and then to `int`. -/
def toWidth (w : Int) : Int := Int.bmod w (2 ^ 32)

/-- `out << std::setw(w) << c` with the default fill -/
def padded (w : Int) (c : Char) : Str := List.replicate (w - 1).toNat ' ' ++ [c]

/-- models: source/istream.cpp:28-62 `format_snippet` -/
def formatSnippet (p : Pos) : Str :=
  let line := p.snippet.getD []
  if line = [] then [] else
    let line := detab line
    let leading := line.findIdx? (· ≠ ' ')
    let line := match leading with
      | some k => line.drop k
      | none => line
    let line := trimNulls line
    let width : Int := if p.pos = -1 then line.length else p.pos - p.start
    -- `npos` is converted to -1
    let width := width - (match leading with
      | some k => (k : Int)
      | none => -1)
    line ++ '\n' :: padded (toWidth width) '^' ++ ['\n']

/-- models: adobe/istream.hpp:176-209 `stream_error_t` -/
structure Err where
  what : Str
  positions : List Pos

/-- An exception: its text, and its positions if it is a `stream_error_t`. -/
structure Exn where
  what : Str
  positions : Option (List Pos)

/-- models: adobe/istream.hpp:180-191: from another exception; `copyOk`, `pushOk`: whether the copy of the positions and `push_back` find memory. -/
def Err.wrap (base : Exn) (p : Pos) (copyOk pushOk : Bool) : Err :=
  match base.positions with
  | some ps => if !copyOk then ⟨base.what, []⟩ else if !pushOk then ⟨base.what, ps⟩ else ⟨base.what, ps ++ [p]⟩
  | none => if !pushOk then ⟨base.what, []⟩ else ⟨base.what, [p]⟩

/-- models: adobe/istream.hpp:193-197 -/
def Err.new (what : Str) (p : Pos) : Err := ⟨what, [p]⟩

/-- models: source/istream.cpp:102-120 `format_stream_error`; `none`: not defined. -/
def formatError (e : Err) : Option Str :=
  let head := match e.positions with
    | [] => []
    | p :: _ => showPos p ++ ": ".toList
  let head := head ++ "error: ".toList ++ e.what ++ ['\n']
  match e.positions with
  | [] => none      -- `front()` of an empty vector
  | p :: ps => some (head ++ formatSnippet p ++ (ps.map fun q => showPos q ++ '\n' :: formatSnippet q).flatten)

/-! ### Lines -/

/-- models: adobe/istream.hpp:226-238 `is_line_end(first, last)`: whether, and where `first` is then; `none`: reads `*last`. -/
def isLineEnd : Str → Option (Bool × Str)
  | [] => none
  | c :: l =>
    if c ≠ '\n' ∧ c ≠ '\r' then some (false, c :: l) else
      match l with
      | [] => some (true, [])
      | d :: l' => if c = '\r' ∧ d = '\n' then some (true, l') else some (true, d :: l')

/-- models: adobe/istream.hpp:245-260 `is_line_end(first, last, c)`: the number of characters, and `first`; `c` has been read. -/
def isLineEndC (l : Str) (c : Char) : Nat × Str :=
  if c = '\n' then (1, l) else
  if c = '\r' then
    match l with
    | d :: l' => if d = '\n' then (2, l') else (1, l)
    | [] => (1, l)
  else (0, l)

/-- models: adobe/istream.hpp:267-276 `get_line`: where `first` is then, and the line. -/
def getLine (acc : Str) : Str → Str × Str
  | [] => ([], acc)
  | c :: l =>
    match isLineEnd (c :: l) with
    | none => ([], acc)   -- does not happen
    | some (true, rest) => (rest, acc)
    | some (false, _) => getLine (acc ++ [c]) l

end Verif.ErrFmt
