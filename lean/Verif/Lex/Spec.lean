import Verif.Lex.Model
/-
The lexical grammar of the expression language: what the tokens of a text are, and where they are.  From the model this uses only
the type of tokens, the type of positions and the parameters `Opts` (conversion of digits to numbers, further keywords, whether
comments are left out).
-/
namespace Verif.Lex.Spec
open Verif.Expr Verif.Lex

variable {D : Type}

/-! ### Character classes -/

def isSpace (c : Char) : Prop := c ∈ [' ', '\t', '\n', '\x0b', '\x0c', '\r']
instance : DecidablePred isSpace := fun _ => inferInstanceAs (Decidable (_ ∈ _))

def isHex (c : Char) : Prop := c.isDigit ∨ ('a' ≤ c ∧ c ≤ 'f') ∨ ('A' ≤ c ∧ c ≤ 'F')

/-- Letters, digits and underscore. -/
def isWord (c : Char) : Prop := c.isAlpha ∨ c.isDigit ∨ c = '_'

def isLineEndChar (c : Char) : Prop := c = '\n' ∨ c = '\r'
instance : DecidablePred isLineEndChar := fun _ => inferInstanceAs (Decidable (_ ∨ _))

def isQuote (c : Char) : Prop := c = '\'' ∨ c = '"'

/-- `rest` does not start with a character of the class. -/
def Stops (p : Char → Prop) (rest : Str) : Prop := ∀ c ∈ rest.head?, ¬ p c

/-! ### Values of tokens -/

def hexValue (c : Char) : Nat :=
  if c.isDigit then c.toNat - '0'.toNat
  else if c.isLower then c.toNat - 'a'.toNat + 10
  else c.toNat - 'A'.toNat + 10

/-- A hexadecimal number. -/
def ofHex : Str → Nat
  | [] => 0
  | d :: ds => hexValue d * 16 ^ ds.length + ofHex ds

/-- The three forms of line end become '\n'. -/
def normalise : Str → Str
  | '\r' :: '\n' :: s => '\n' :: normalise s
  | '\r' :: s => '\n' :: normalise s
  | c :: s => c :: normalise s
  | [] => []

/-- What is in front of the first NUL. -/
def beforeNul (s : Str) : Str := s.takeWhile fun c => c ≠ '\x00'

/-- Punctuation. -/
def symbols : List (Str × Sym) := [
  ("+".toList, .add), ("-".toList, .subtract), ("*".toList, .multiply), ("/".toList, .divide), ("%".toList, .modulus),
  ("!".toList, .not), ("~".toList, .bitNegate), ("&".toList, .bitAnd), ("|".toList, .bitOr), ("^".toList, .bitXor),
  ("&&".toList, .and), ("||".toList, .or), ("<<".toList, .bitLshift), (">>".toList, .bitRshift),
  ("<".toList, .less), (">".toList, .greater), ("<=".toList, .lessEqual), (">=".toList, .greaterEqual),
  ("==".toList, .equal), ("!=".toList, .notEqual), ("=".toList, .assign), ("<==".toList, .is), ("->".toList, .to),
  ("?".toList, .question), (":".toList, .colon), (";".toList, .semicolon), (",".toList, .comma), (".".toList, .dot),
  ("@".toList, .at), ("(".toList, .openParen), (")".toList, .closeParen), ("[".toList, .openBracket), ("]".toList, .closeBracket),
  ("{".toList, .openBrace), ("}".toList, .closeBrace)]

/-- How a line comment may end, given what follows. -/
def LineEnd (e rest : Str) : Prop :=
  e = ['\n'] ∨ e = ['\r', '\n'] ∨ (e = ['\r'] ∧ rest.head? ≠ some '\n') ∨ (e = [] ∧ rest = [])

/-- The text with line ends hidden: what the position counter sees of a quoted string. -/
def hide (s : Str) : Str := s.map fun c => if isLineEndChar c then ' ' else c

/-- `Strings x m v rest`: `x`, followed by `rest`, is a sequence of quoted strings (either quote, no escapes) with white space between
them and after the last one; `v` is what is between the quotes.  `m` is `x` with the line ends inside quotes hidden.
A lone quote at the end of the text counts as an empty string (`lone`). -/
inductive Strings : Str → Str → Str → Str → Prop where
  | last {q body ws rest} : isQuote q → q ∉ body → (∀ c ∈ ws, isSpace c) → Stops (fun c => isSpace c ∨ isQuote c) rest →
      Strings (q :: body ++ q :: ws) (hide (q :: body ++ [q]) ++ ws) body rest
  | more {q body ws x m v rest} : isQuote q → q ∉ body → (∀ c ∈ ws, isSpace c) → Strings x m v rest →
      Strings (q :: body ++ q :: ws ++ x) (hide (q :: body ++ [q]) ++ ws ++ m) (body ++ v) rest
  | lone {q} : isQuote q → Strings [q] [q] [] []

/-- `Lexeme o x m t rest`: the token `t` is spelled `x` at the start of the text `x ++ rest`.
`m` is `x` as the position counter sees it. -/
inductive Lexeme (o : Opts D) : Str → Str → Tok D → Str → Prop where
  | keyword {c x rest} : (c.isAlpha ∨ c = '_') → (∀ c ∈ x, isWord c) → Stops isWord rest →
      (c :: x ∈ ["true".toList, "false".toList, "empty".toList] ∨ o.keyword (c :: x) = true) →
      Lexeme o (c :: x) (c :: x) (.kw (c :: x)) rest
  | ident {c x rest} : (c.isAlpha ∨ c = '_') → (∀ c ∈ x, isWord c) → Stops isWord rest →
      (c :: x ∉ ["true".toList, "false".toList, "empty".toList] ∧ o.keyword (c :: x) = false) →
      Lexeme o (c :: x) (c :: x) (.ident (c :: x)) rest
  | hex {x ds rest} : x = 'x' ∨ x = 'X' → ds ≠ [] → (∀ c ∈ ds, isHex c) → Stops isHex rest →
      Lexeme o ('0' :: x :: ds) ('0' :: x :: ds) (.num (o.ofU64 (ofHex ds % 2 ^ 64))) rest
  | dec {c x rest} : c.isDigit → (∀ c ∈ x, c.isDigit ∨ c = '.') → Stops (fun c => c.isDigit ∨ c = '.') rest →
      (¬ ∃ y d s, c :: x = ['0'] ∧ rest = y :: d :: s ∧ (y = 'x' ∨ y = 'X') ∧ isHex d) →
      Lexeme o (c :: x) (c :: x) (.num (o.decimal (c :: x))) rest
  | lineComment {body e rest} : (∀ c ∈ body, ¬ isLineEndChar c) → LineEnd e rest →
      Lexeme o ('/' :: '/' :: body ++ e) ('/' :: '/' :: body ++ e) (.trailComment (beforeNul body)) rest
  | blockComment {body rest} : ¬ ['*', '/'] <:+: (body ++ ['*']) →
      Lexeme o ('/' :: '*' :: body ++ ['*', '/']) ('/' :: '*' :: body ++ ['*', '/']) (.leadComment (beforeNul (normalise body))) rest
  | string {x m v rest} : Strings x m v rest → Lexeme o x m (.str (beforeNul v)) rest
  | symbol {x y rest} : (x, y) ∈ symbols → (∀ x' y', (x', y') ∈ symbols → x' <+: x ++ rest → x'.length ≤ x.length) →
      (¬ (['/', '/'] <+: x ++ rest ∨ ['/', '*'] <+: x ++ rest)) → Lexeme o x x (.sym y) rest

def isComment : Tok D → Bool
  | .leadComment _ => true
  | .trailComment _ => true
  | _ => false

/-- A token of a text: where it starts (number of characters in front of it), and what the position counter has seen there. -/
structure Item (D : Type) where
  tok : Tok D
  seen : Str

/-- How a text ends: after the tokens there is only white space, or there is something that does not start a token. -/
inductive End where
  | eof (seen : Str)
  | bad (seen : Str)

/-- `Lexes o seen s items e`: the text `s` consists of the tokens `items`, then `e`; in front of `s` there was `seen`. -/
inductive Lexes (o : Opts D) : Str → Str → List (Item D) → End → Prop where
  | eof {seen ws} : (∀ c ∈ ws, isSpace c) → Lexes o seen ws [] (.eof (seen ++ ws))
  | bad {seen ws c s} : (∀ c ∈ ws, isSpace c) → ¬ isSpace c → (¬ ∃ x m t rest, c :: s = x ++ rest ∧ Lexeme o x m t rest) →
      Lexes o seen (ws ++ c :: s) [] (.bad (seen ++ ws))
  | token {seen ws x m t rest items e} : (∀ c ∈ ws, isSpace c) → Lexeme o x m t rest → (isComment t && o.bypass) = false →
      Lexes o (seen ++ ws ++ m) rest items e → Lexes o seen (ws ++ x ++ rest) (⟨t, seen ++ ws⟩ :: items) e
  | comment {seen ws x m t rest items e} : (∀ c ∈ ws, isSpace c) → Lexeme o x m t rest → (isComment t && o.bypass) = true →
      Lexes o (seen ++ ws ++ m) rest items e → Lexes o seen (ws ++ x ++ rest) items e

/-! ### Positions -/

/-- The position after the text `s`, starting from `p`: every character counts one; "\n", "\r" and "\r\n" end a line. -/
def advance (p : Pos) : Str → Pos
  | [] => p
  | '\r' :: '\n' :: s => advance ⟨p.line + 1, p.pos + 2, p.pos + 2⟩ s
  | '\r' :: s => advance ⟨p.line + 1, p.pos + 1, p.pos + 1⟩ s
  | '\n' :: s => advance ⟨p.line + 1, p.pos + 1, p.pos + 1⟩ s
  | _ :: s => advance { p with pos := p.pos + 1 } s

/-- The n-th token with its position, from `p` on (there is no end to the tokens that say "end of the text");
`none`: an exception. -/
def tape (p : Pos) (items : List (Item D)) (e : End) (n : Nat) : Option (Frag D) :=
  match items[n]? with
  | some it => some (some it.tok, advance p it.seen)
  | none => match e with
    | .eof seen => some (none, advance p seen)
    | .bad _ => none

/-! ### Reading with two tokens of lookahead -/

/-- A reader of a tape: `at_` is the number of the next token, `far` is one more than the number of the farthest token seen. -/
structure Reader where
  at_ : Nat
  far : Nat

/-- The calls a parser may make: a token may be put back if there is one and it is one of the last two seen. -/
def allowed (f : Nat → Option (Frag D)) (r : Reader) : List Call → Prop
  | [] => True
  | .get :: cs => f r.at_ ≠ none → allowed f ⟨r.at_ + 1, max r.far (r.at_ + 1)⟩ cs
  | .putback :: cs => 0 < r.at_ ∧ r.far ≤ r.at_ + 1 ∧ allowed f ⟨r.at_ - 1, r.far⟩ cs
  | .nextPosition :: cs => f r.at_ ≠ none → allowed f ⟨r.at_, max r.far (r.at_ + 1)⟩ cs

/-- The answers: `get` moves forward, `putback` moves back, `nextPosition` stays. -/
def answers (f : Nat → Option (Frag D)) (i : Nat) : List Call → List (Ans D) × Ending
  | [] => ([], .returned)
  | .get :: cs => match f i with
    | none => ([], .threw)
    | some x => (.tok x.1 :: (answers f (i + 1) cs).1, (answers f (i + 1) cs).2)
  | .putback :: cs => (.done :: (answers f (i - 1) cs).1, (answers f (i - 1) cs).2)
  | .nextPosition :: cs => match f i with
    | none => ([], .threw)
    | some x => (.pos x.2 :: (answers f i cs).1, (answers f i cs).2)

end Verif.Lex.Spec
