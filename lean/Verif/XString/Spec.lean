import Verif.Xml.Spec
/-!
Specification of marker replacement and of the glossary, in terms of the trees of the XML specification (Xml.Spec) only: nothing here mentions
the model of xstring.
-/
namespace Verif.XString.Spec
open Verif.Xml.Spec

/-- The value of the attribute `k`: if it is given more than once, the last one counts. -/
def lastAtt (as : List Att) (k : List Nat) : Option (List Nat) := (as.reverse.find? fun a => a.name = k).map (·.value)

/-- The same attributes with the same values, in any order. -/
def sameAtts (x y : List Att) : Bool := (x ++ y).all fun a => lastAtt x a.name == lastAtt y a.name

/-- Text with references and comments but without elements. -/
def simple : Content → Prop
  | .nil _ => True
  | .openRef _ _ => True
  | .cons _ (.ref _) rest => simple rest
  | .cons _ (.comment _) rest => simple rest
  | .cons _ _ _ => False

/- What becomes of a text when its elements named `mk` are replaced by what `v` says and those named `xs` are taken out.  Other elements stay,
but those without content (`<br/>`) are taken out as well (see `C119_empty_element_violated`); comments are taken out and references resolved. -/
mutual
def fillItem (byName : List Entity.Entry) (mk xs : List Nat) (v : Head → List Nat) : Item → List Nat
  | .ref b => refText byName b
  | .comment _ => []
  | .empty h => if h.name = mk then v h else []
  | .elem h x w1 w2 => if h.name = mk then v h else if h.name = xs then []
      else 60 :: (h.render ++ 62 :: (fill byName mk xs v x ++ endEcho w1 h.name w2))
def fill (byName : List Entity.Entry) (mk xs : List Nat) (v : Head → List Nat) : Content → List Nat
  | .nil t => t
  | .openRef t b => t ++ openRefText byName b
  | .cons t i rest => t ++ (fillItem byName mk xs v i ++ fill byName mk xs v rest)
end

/-- The text of simple content. -/
def plainText (byName : List Entity.Entry) : Content → List Nat
  | .nil t => t
  | .openRef t b => t ++ openRefText byName b
  | .cons t (.ref b) rest => t ++ (refText byName b ++ plainText byName rest)
  | .cons t _ rest => t ++ plainText byName rest

/- The outermost elements named `mk` or `xs`, in order. -/
mutual
def outerItem (mk xs : List Nat) : Item → List Item
  | .empty h => if h.name = mk ∨ h.name = xs then [.empty h] else []
  | .elem h x w1 w2 => if h.name = mk ∨ h.name = xs then [.elem h x w1 w2] else outer mk xs x
  | _ => []
def outer (mk xs : List Nat) : Content → List Item
  | .nil _ => []
  | .openRef _ _ => []
  | .cons _ i rest => outerItem mk xs i ++ outer mk xs rest
end

/-- The element of that name: its head and its content (`nil []` if it has none). -/
def named (nm : List Nat) : Item → Option (Head × Content)
  | .empty h => if h.name = nm then some (h, .nil []) else none
  | .elem h x _ _ => if h.name = nm then some (h, x) else none
  | _ => none

/-- The markers of a text, in order. -/
def marks (mk xs : List Nat) (x : Content) : List Head := (outer mk xs x).filterMap fun i => (named mk i).map (·.1)

/-- The replacement for a marker: the first with the same attributes. -/
def pick (ms : List (Head × Content)) (h : Head) : Option Content := (ms.find? fun m => sameAtts m.1.atts h.atts).map (·.2)

/-- All markers of the text have a replacement. -/
def viable (mk xs : List Nat) (ms : List (Head × Content)) (x : Content) : Bool := (marks mk xs x).all fun h => (pick ms h).isSome

/-- The text with its markers replaced. -/
def replaced (byName : List Entity.Entry) (mk xs : List Nat) (ms : List (Head × Content)) (x : Content) : List Nat :=
  fill byName mk xs (fun h => ((pick ms h).map (plainText byName)).getD []) x

/-- The candidate to be taken: a viable one with as many markers as any viable one has, the first of these. -/
def Best (mk xs : List Nat) (ms : List (Head × Content)) (cands : List Content) (x : Content) : Prop :=
  ∃ p s, cands = p ++ x :: s ∧ viable mk xs ms x ∧
    (∀ y ∈ p, viable mk xs ms y → (marks mk xs y).length < (marks mk xs x).length) ∧
    ∀ y ∈ s, viable mk xs ms y → (marks mk xs y).length ≤ (marks mk xs x).length

/- The elements named `xs`, also those inside of others, but not those inside of elements named `mk`, in the order of their start tags. -/
mutual
def allItem (mk xs : List Nat) : Item → List (Head × Content)
  | .empty h => if h.name = xs then [(h, .nil [])] else []
  | .elem h x _ _ => if h.name = xs then (h, x) :: allContent mk xs x else if h.name = mk then [] else allContent mk xs x
  | _ => []
def allContent (mk xs : List Nat) : Content → List (Head × Content)
  | .nil _ => []
  | .openRef _ _ => []
  | .cons _ i rest => allItem mk xs i ++ allContent mk xs rest
end

/-- Elements, each followed by some text, perhaps none. -/
def seqRender (l : List (Item × List Nat)) : List Nat := l.flatMap fun q => q.1.render ++ q.2

def SeqOk (l : List (Item × List Nat)) : Prop := ∀ q ∈ l, q.1.Ok ∧ q.1.head? ≠ none ∧ IsChars q.2

/- A text without its tags: comments are taken out, references resolved, and elements named `mk` left as they are. -/
mutual
def stripItem (byName : List Entity.Entry) (mk : List Nat) : Item → List Nat
  | .ref b => refText byName b
  | .comment _ => []
  | .empty h => if h.name = mk then (Item.empty h).render else []
  | .elem h x w1 w2 => if h.name = mk then (Item.elem h x w1 w2).render else strip byName mk x
def strip (byName : List Entity.Entry) (mk : List Nat) : Content → List Nat
  | .nil t => t
  | .openRef t b => t ++ openRefText byName b
  | .cons t i rest => t ++ (stripItem byName mk i ++ strip byName mk rest)
end

/- No comments inside of the elements outside of those named `mk`. -/
mutual
def bareItem (mk : List Nat) : Item → Prop
  | .elem h x _ _ => h.name = mk ∨ (x.uncommented ∧ bare mk x)
  | _ => True
def bare (mk : List Nat) : Content → Prop
  | .cons _ i rest => bareItem mk i ∧ bare mk rest
  | _ => True
end

end Verif.XString.Spec
