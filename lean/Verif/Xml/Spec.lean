import Verif.Xml.Model
/-!
Specification of the XML parser: the texts it accepts, as trees with the text they stand for, and what the client sees of
each tree.  Only the vocabulary of the interface is taken from the model: token ranges, memory, the client's two functions,
attribute sets (component XmlAttr) and entities (component Entity).
-/
namespace Verif.Xml.Spec
open Verif.XmlAttr (Mem Tok Attr)

def White (c : Nat) : Prop := c = 32 ∨ (9 ≤ c ∧ c ≤ 13)

/-- NameStartChar of XML, as far as bytes can tell. -/
def NameStart (c : Nat) : Prop :=
  (65 ≤ c ∧ c ≤ 90) ∨ (97 ≤ c ∧ c ≤ 122) ∨ c = 58 ∨ c = 95 ∨
  (0xC0 ≤ c ∧ c ≤ 0xD6) ∨ (0xD8 ≤ c ∧ c ≤ 0xF6) ∨ (0xF8 ≤ c ∧ c ≤ 0xFF)

def NameChar (c : Nat) : Prop := NameStart c ∨ c = 45 ∨ c = 46 ∨ (48 ≤ c ∧ c ≤ 57) ∨ c = 0xB7

def Blank (l : List Nat) : Prop := ∀ c ∈ l, White c

def IsName (l : List Nat) : Prop := (∃ c r, l = c :: r ∧ NameStart c) ∧ ∀ c ∈ l, NameChar c

def Quote (t : Nat) : Prop := t = 34 ∨ t = 39

/-- The value of an attribute has neither the quote around it nor `<` nor `&`. -/
def IsValue (tick : Nat) (l : List Nat) : Prop := ∀ c ∈ l, c ≠ tick ∧ c ≠ 60 ∧ c ≠ 38

/-- A comment has no `--` and does not end with `-`. -/
def IsComment (body : List Nat) : Prop := ¬ [45, 45] <:+: body ++ [45]

/-- A processing instruction has no `?>`. -/
def IsPI (body : List Nat) : Prop := ¬ [63, 62] <:+: body

/-- Character data has no `<` or `&` and does not begin with `>` or `/>` (the last two are not of XML). -/
def IsChars (t : List Nat) : Prop := (∀ c ∈ t, c ≠ 60 ∧ c ≠ 38) ∧ ¬ [62] <+: t ∧ ¬ [47, 62] <+: t

/-- Character data goes on to the next `<` or `&`, or to the end. -/
def CharsEnd (r : List Nat) : Prop := r = [] ∨ (∃ r', r = 60 :: r') ∨ ∃ r', r = 38 :: r'

/-- The tokens: `Lexeme inTag l k skip len adv` says that the text `l` begins with a token of kind `k` with the `len` bytes
after the first `skip`, and that the next token is looked for after `adv` bytes. -/
inductive Lexeme : Bool → List Nat → Kind → Nat → Nat → Nat → Prop where
  | pi {b} (body r) : IsPI body → Lexeme b (60 :: 63 :: (body ++ 63 :: 62 :: r)) .pi 0 (body.length + 4) (body.length + 4)
  | comment {b} (body r) : IsComment body →
      Lexeme b (60 :: 33 :: 45 :: 45 :: (body ++ 45 :: 45 :: 62 :: r)) .comment 0 (body.length + 7) (body.length + 7)
  | openSlash {b} (r) : Lexeme b (60 :: 47 :: r) .openSlash 0 2 2
  | openTag {b} (r) : ¬ [47] <+: r → ¬ [63] <+: r → ¬ [33, 45, 45] <+: r → Lexeme b (60 :: r) .openTag 0 1 1
  | closeTag {b} (r) : Lexeme b (62 :: r) .closeTag 0 1 1
  | slashClose {b} (r) : Lexeme b (47 :: 62 :: r) .slashClose 0 2 2
  | name (nm r) : IsName nm → (∀ c r', r = c :: r' → ¬ NameChar c) → Lexeme true (nm ++ r) .name 0 nm.length nm.length
  | equals (r) : Lexeme true (61 :: r) .equals 0 1 1
  | attValue (t v r) : Quote t → IsValue t v → Lexeme true (t :: (v ++ t :: r)) .attValue 1 v.length (v.length + 2)
  /-- A value without its second quote, at the end: the lexer goes past the end. -/
  | attOpen (t v) : Quote t → IsValue t v → Lexeme true (t :: v) .attValue 1 v.length (v.length + 2)
  | ref {b} (body r) : 59 ∉ body → Lexeme b (38 :: (body ++ 59 :: r)) .reference 0 (body.length + 2) (body.length + 2)
  | refOpen {b} (body) : 59 ∉ body → Lexeme b (38 :: body) .reference 0 (body.length + 1) (body.length + 1)
  | chars {b} (t r) : t ≠ [] → IsChars t → CharsEnd r →
      (b = true → ∀ c t', t = c :: t' → ¬ NameStart c ∧ c ≠ 61 ∧ ¬ Quote c) → Lexeme b (t ++ r) .charData 0 t.length t.length

/-- The texts where a token is begun and not ended properly. -/
inductive LexError : Bool → List Nat → Prop where
  | pi {b} (r) : ¬ [63, 62] <:+: r → LexError b (60 :: 63 :: r)
  | comment {b} (r) : (¬ ∃ body r', IsComment body ∧ r = body ++ 45 :: 45 :: 62 :: r') → LexError b (60 :: 33 :: 45 :: 45 :: r)
  | attValue (t v c r) : Quote t → IsValue t v → c = 60 ∨ c = 38 → LexError true (t :: (v ++ c :: r))

/-- The text has a quote that could begin the value of an attribute and is not followed by what ends it. -/
def OpenValue (l : List Nat) : Prop := ∃ p t v, l = p ++ t :: v ∧ Quote t ∧ IsValue t v

/-- `before name mid = after 'value'`. -/
structure Att where
  before : List Nat
  name : List Nat
  mid : List Nat
  after : List Nat
  tick : Nat
  value : List Nat

def Att.render (a : Att) : List Nat := a.before ++ (a.name ++ (a.mid ++ 61 :: (a.after ++ a.tick :: (a.value ++ [a.tick]))))

structure Att.Ok (a : Att) : Prop where
  before : Blank a.before
  name : IsName a.name
  mid : Blank a.mid
  after : Blank a.after
  tick : Quote a.tick
  value : IsValue a.tick a.value

def renderAtts (l : List Att) : List Nat := l.flatMap Att.render

/-- The part of a tag between `<` and `>` or `/>`. -/
structure Head where
  lead : List Nat
  name : List Nat
  atts : List Att
  trail : List Nat

def Head.render (h : Head) : List Nat := h.lead ++ (h.name ++ (renderAtts h.atts ++ h.trail))

structure Head.Ok (h : Head) : Prop where
  lead : Blank h.lead
  name : IsName h.name
  atts : ∀ a ∈ h.atts, a.Ok
  /-- The first attribute is separated from the name. -/
  sep : ∀ a as, h.atts = a :: as → a.before ≠ []
  trail : Blank h.trail

mutual
/-- `&body;`, `<!--body-->`, `<head/>`, and `<head> content </ w1 name w2>`. -/
inductive Item where
  | ref (body : List Nat)
  | comment (body : List Nat)
  | empty (h : Head)
  | elem (h : Head) (content : Content) (w1 w2 : List Nat)
/-- Character data (perhaps none), then an item and so on.  `openRef`: a reference that is not ended. -/
inductive Content where
  | nil (t : List Nat)
  | openRef (t body : List Nat)
  | cons (t : List Nat) (i : Item) (rest : Content)
end

mutual
def Item.render : Item → List Nat
  | .ref body => 38 :: (body ++ [59])
  | .comment body => 60 :: 33 :: 45 :: 45 :: (body ++ [45, 45, 62])
  | .empty h => 60 :: (h.render ++ [47, 62])
  | .elem h content w1 w2 => 60 :: (h.render ++ 62 :: (content.render ++ 60 :: 47 :: (w1 ++ (h.name ++ (w2 ++ [62])))))
def Content.render : Content → List Nat
  | .nil t => t
  | .openRef t body => t ++ 38 :: body
  | .cons t i rest => t ++ (i.render ++ rest.render)
end

/-- All references are ended. -/
def Content.closed : Content → Prop
  | .nil _ => True
  | .openRef _ _ => False
  | .cons _ _ rest => rest.closed

mutual
def Item.Ok : Item → Prop
  | .ref body => 59 ∉ body
  | .comment body => IsComment body
  | .empty h => h.Ok
  | .elem h content w1 w2 => h.Ok ∧ content.Ok ∧ content.closed ∧ Blank w1 ∧ Blank w2
def Content.Ok : Content → Prop
  | .nil t => IsChars t
  | .openRef t body => IsChars t ∧ 59 ∉ body
  | .cons t i rest => IsChars t ∧ i.Ok ∧ rest.Ok
end

/-- Where `parse_content` stops: at the end, or, silently, at an end tag, a processing instruction, or a `>` or `/>` not
in character data. -/
def Content.Stops : Content → List Nat → Prop
  | .nil t, r => r = [] ∨ [60, 47] <+: r ∨ (∃ body r', IsPI body ∧ r = 60 :: 63 :: (body ++ 63 :: 62 :: r')) ∨
      (t = [] ∧ ([62] <+: r ∨ [47, 62] <+: r))
  | .openRef _ _, r => r = []
  | .cons _ _ rest, r => rest.Stops r

/-- The ranges of the names and values of attributes that begin at `a`. -/
def attToks (a : Nat) : List Att → List Attr
  | [] => []
  | x :: xs =>
    let n := a + x.before.length
    let v := n + x.name.length + x.mid.length + 1 + x.after.length + 1
    (⟨n, n + x.name.length⟩, ⟨v, v + x.value.length⟩) :: attToks (a + x.render.length) xs

/-- The range of the name, where `a` is the address of `<`. -/
def Head.nameTok (a : Nat) (h : Head) : Tok := ⟨a + 1 + h.lead.length, a + 1 + h.lead.length + h.name.length⟩

/-- The attribute set for the callback (component XmlAttr). -/
def Head.attrs (mem : Mem) (a : Nat) (h : Head) : List Attr :=
  (XmlAttr.insertAll mem [] (attToks (a + 1 + h.lead.length + h.name.length) h.atts)).getD []

/-- The text of a reference: the character with the code of the entity in UTF-8 (component Entity), nothing if there is
none. -/
def refText (byName : List Entity.Entry) (body : List Nat) : List Nat :=
  match Entity.codeOfEntity byName body with
  | .ok cp => if cp = 0 then [] else (Unicode.encode8 cp).1
  | _ => []

def openRefText (byName : List Entity.Entry) (body : List Nat) : List Nat :=
  if body = [] then [] else refText byName body.dropLast

def Item.entire (a : Nat) (i : Item) : Tok := ⟨a, a + i.render.length⟩

def Item.isComment : Item → Bool
  | .comment _ => true
  | _ => false

/-- A range extended by character data from `p` to `q`. -/
def addChars (acc : Tok) (p q : Nat) : Tok := if p = q then acc else ⟨acc.first, q⟩

/-- A range extended by a reference or an element from `p` to `q`. -/
def addPiece (acc : Tok) (p q : Nat) : Tok := ⟨if acc.first = 0 then p else acc.first, q⟩

def addItem (acc : Tok) (p : Nat) (i : Item) : Tok := if i.isComment then acc else addPiece acc p (p + i.render.length)

/-- The content range for the callback, after the first item. -/
def Content.follow (acc : Tok) (a : Nat) : Content → Tok
  | .nil t => addChars acc a (a + t.length)
  | .openRef t body => addPiece (addChars acc a (a + t.length)) (a + t.length) (a + t.length + 1 + body.length)
  | .cons t i rest => rest.follow (addItem (addChars acc a (a + t.length)) (a + t.length) i) (a + t.length + i.render.length)

def lead (a : Nat) (t : List Nat) : Tok := if t = [] then .null else ⟨a, a + t.length⟩

/-- The content range that the callback of an element gets for the content at `a`.  See `C95_value_range` for what it is
when there are no comments, and `C95_value_range_violated` for what it is when there are. -/
def Content.range (a : Nat) : Content → Tok
  | .nil t => lead a t
  | .openRef t body => addPiece (lead a t) (a + t.length) (a + t.length + 1 + body.length)
  | .cons t i rest => rest.follow (addItem (lead a t) (a + t.length) i) (a + t.length + i.render.length)

def Item.head? : Item → Option Head
  | .empty h => some h
  | .elem h _ _ _ => some h
  | _ => none

/-- The range of the content of an element at `a`. -/
def Item.value (a : Nat) : Item → Tok
  | .elem h content _ _ => content.range (a + 1 + h.render.length + 1)
  | _ => .null

/-- The call of the client's function for the element at `a`. -/
def Item.call (mem : Mem) (a : Nat) (h : Head) (i : Item) : Call := ⟨i.entire a, h.nameTok a, h.attrs mem a, i.value a⟩

/-- What is copied of an end tag: the name, the two bytes before it and the one after it. -/
def endEcho (w1 name w2 : List Nat) : List Nat :=
  (60 :: 47 :: w1).drop w1.length ++ (name ++ (w2 ++ [62]).take 1)

/- `ItemSem c a i calls out calls'`: when the item `i` at the address `a` is parsed outside of preorder elements after the
calls `calls` of the client's function, it gives the output `out`, and then the calls are `calls'`. -/
mutual
inductive ItemSem (c : Cfg) : Nat → Item → List Call → List Nat → List Call → Prop where
  | ref {a body cs} : ItemSem c a (.ref body) cs (refText c.byName body) cs
  | comment {a body cs} : ItemSem c a (.comment body) cs [] cs
  | empty {a h cs r} : c.pred (h.nameTok a) = false → c.callback cs ((Item.empty h).call c.mem a h) = some r →
      ItemSem c a (.empty h) cs (r.text c.mem) (cs ++ [(Item.empty h).call c.mem a h])
  | elem {a h content w1 w2 cs o cs'} : c.pred (h.nameTok a) = false →
      ContentSem c (a + 1 + h.render.length + 1) content cs o cs' →
      ItemSem c a (.elem h content w1 w2) cs (60 :: (h.render ++ 62 :: (o ++ endEcho w1 h.name w2))) cs'
  /-- A preorder element for which the callback gives back its range. -/
  | same {a i h cs} : i.head? = some h → c.pred (h.nameTok a) = true →
      c.callback cs (i.call c.mem a h) = some (i.entire a) →
      ItemSem c a i cs i.render (cs ++ [i.call c.mem a h])
  /-- A preorder element for which the callback gives back another range: this is parsed in its place. -/
  | replaced {a i h cs r new rest o cs'} : i.head? = some h → c.pred (h.nameTok a) = true →
      c.callback cs (i.call c.mem a h) = some r → r ≠ i.entire a → r.first ≤ r.second →
      r.text c.mem = new.render ++ rest → new.Ok → new.Stops rest →
      ContentSem c r.first new (cs ++ [i.call c.mem a h]) o cs' →
      ItemSem c a i cs o cs'
inductive ContentSem (c : Cfg) : Nat → Content → List Call → List Nat → List Call → Prop where
  | nil {a t cs} : ContentSem c a (.nil t) cs t cs
  | openRef {a t body cs} : ContentSem c a (.openRef t body) cs (t ++ openRefText c.byName body) cs
  | cons {a t i rest cs o cs' o' cs''} : ItemSem c (a + t.length) i cs o cs' →
      ContentSem c (a + t.length + i.render.length) rest cs' o' cs'' →
      ContentSem c a (.cons t i rest) cs (t ++ (o ++ o')) cs''
end

/-- The text begins with a token of a kind with `p`, or is empty. -/
def Begins (l : List Nat) (p : Kind → Prop) : Prop := l = [] ∧ p .eof ∨ ∃ k sk n ad, Lexeme false l k sk n ad ∧ p k

/-- Character data that is as long as it can be. -/
def MaxChars (t r : List Nat) : Prop := IsChars t ∧ (t ≠ [] → CharsEnd r) ∧ (t = [] → Begins r (· ≠ .charData))

/-- `parse_element_sequence`: elements, each perhaps followed by character data, which is dropped, up to something else, which
is ignored. -/
inductive SeqSem (c : Cfg) : Nat → List Nat → List Call → List Nat → List Call → Prop where
  | stop {a l cs} : Begins l (· ≠ .openTag) → SeqSem c a l cs [] cs
  | step {a i t r cs o cs' o' cs''} : i.Ok → i.head? ≠ none → MaxChars t r → ItemSem c a i cs o cs' →
      SeqSem c (a + i.render.length + t.length) r cs' o' cs'' →
      SeqSem c a (i.render ++ (t ++ r)) cs (o ++ o') cs''

/-- A UTF-16 byte order mark. -/
def Bom16 (t : List Nat) : Prop := [0xFE, 0xFF] <+: t ∨ [0xFF, 0xFE] <+: t

/-- The prolog of a document: text, which is dropped, perhaps one processing instruction, and white space; `r` is the rest. -/
inductive Prolog : List Nat → List Nat → Prop where
  | plain {t r} : MaxChars t r → ¬ Bom16 t → Begins r (· ≠ .pi) → Prolog t r
  | pi {t body ws r} : MaxChars t (60 :: 63 :: (body ++ 63 :: 62 :: (ws ++ r))) → ¬ Bom16 t → IsPI body → Blank ws →
      (∀ d r', r = d :: r' → ¬ White d) → Prolog (t ++ 60 :: 63 :: (body ++ 63 :: 62 :: ws)) r

/-- What is parsed after the prolog: an element, or nothing, whatever is there. -/
inductive Root (c : Cfg) (a : Nat) : List Nat → List Nat → List Call → Prop where
  | none {r} : Begins r (· ≠ .openTag) → Root c a r [] []
  | elem {i r o cs} : i.Ok → i.head? ≠ none → ItemSem c a i [] o cs → Root c a (i.render ++ r) o cs

/-- The client does not replace elements, or has no preorder elements. -/
def NoRewrite (c : Cfg) : Prop :=
  (∀ t, c.pred t = false) ∨ ∀ cs k r, c.callback cs k = some r → r = k.entire

/-- The callback gives back the element it is called for. -/
def Identity (c : Cfg) : Prop := ∀ cs k, c.callback cs k = some k.entire

/- What is to be copied when the callback gives back the element it is called for: everything but comments, with references
replaced, and of end tags what `endEcho` says; preorder elements are copied as they are. -/
mutual
def Item.copy (c : Cfg) (a : Nat) : Item → List Nat
  | .ref body => refText c.byName body
  | .comment _ => []
  | .empty h => (Item.empty h).render
  | .elem h x w1 w2 => if c.pred (h.nameTok a) then (Item.elem h x w1 w2).render
      else 60 :: (h.render ++ 62 :: (x.copy c (a + 1 + h.render.length + 1) ++ endEcho w1 h.name w2))
def Content.copy (c : Cfg) (a : Nat) : Content → List Nat
  | .nil t => t
  | .openRef t body => t ++ openRefText c.byName body
  | .cons t i rest => t ++ (i.copy c (a + t.length) ++ rest.copy c (a + t.length + i.render.length))
end

/- No references, no comments and no white space in end tags. -/
mutual
def Item.plain : Item → Prop
  | .ref _ => False
  | .comment _ => False
  | .empty _ => True
  | .elem _ x w1 w2 => x.plain ∧ w1 = [] ∧ w2 = []
def Content.plain : Content → Prop
  | .nil _ => True
  | .openRef _ _ => False
  | .cons _ i rest => i.plain ∧ rest.plain
end

/-- No comments outside of elements. -/
def Content.uncommented : Content → Prop
  | .nil _ => True
  | .openRef _ _ => True
  | .cons _ i rest => i.isComment = false ∧ rest.uncommented

end Verif.Xml.Spec
