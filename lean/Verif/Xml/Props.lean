import Verif.Xml.Mono
/-!
**C91**–**C95**: the XML lexer and parser.

A text is given by a range of addresses; `c` has the memory and the client's functions.  The parsing functions take a number
of rounds; `Gives p r o cs` says that with any sufficiently large number of rounds `p` succeeds on the range `r`, with the
output `o` and the calls `cs` of the client's function.
-/
namespace Verif.Xml
open Verif.Xml.Spec
open Verif.XmlAttr (Mem Tok Attr)

variable {c : Cfg}

def Gives (p : Nat → M Unit) (r : Tok) (o : List Nat) (cs : List Call) : Prop :=
  ∃ n0, ∀ n, n0 ≤ n → ∃ s, p n (St.new r) = .ok () s ∧ s.out = o ∧ s.calls = cs

/-- With enough rounds there is an exception. -/
def Throws (p : Nat → M Unit) (r : Tok) : Prop := ∃ n0, ∀ n, n0 ≤ n → p n (St.new r) = .throw

/-- With enough rounds there is undefined behaviour. -/
def Overreads (p : Nat → M Unit) (r : Tok) : Prop := ∃ n0, ∀ n, n0 ≤ n → p n (St.new r) = .ub

/-! ### C91: tokens -/

/-- **C91** – one token is recognized exactly as the grammar says, and the lexer throws exactly for the texts that begin
with a token that is not ended properly; there is no third possibility. -/
theorem C91_token (inTag : Bool) {l : List Nat} (hl : l ≠ []) :
    (∀ k sk n ad, parseToken inTag l = .tok k sk n ad ↔ Lexeme inTag l k sk n ad) ∧
    (parseToken inTag l = .throw ↔ LexError inTag l) ∧ parseToken inTag l ≠ .no := by
  rcases parseToken_total inTag hl with ⟨k, sk, n, ad, hp, hx⟩ | ⟨hp, hx⟩
  · refine ⟨fun k' sk' n' ad' => ⟨fun h => ?_, fun h => parseToken_tok h⟩, ⟨fun h => ?_, fun h => parseToken_throw h⟩, ?_⟩
    · rw [hp] at h; cases h; exact hx
    · rw [hp] at h; cases h
    · rw [hp]; simp
  · refine ⟨fun k' sk' n' ad' => ⟨fun h => ?_, fun h => parseToken_tok h⟩, ⟨fun _ => hx, fun h => parseToken_throw h⟩, ?_⟩
    · rw [hp] at h; cases h
    · rw [hp]; simp

/-- **C91** – the lexer gets ahead with every token; the token is within what was read; and this is within the text, except
for an attribute value without its second quote, with which the lexer goes one past the end. -/
theorem C91_progress {inTag : Bool} {l : List Nat} {k sk n ad} (h : parseToken inTag l = .tok k sk n ad) (hl : l ≠ []) :
    0 < ad ∧ sk + n ≤ ad ∧ sk + n ≤ l.length ∧
      (ad ≤ l.length ∨ (ad = l.length + 1 ∧ inTag = true ∧ ∃ t v, l = t :: v ∧ Quote t ∧ IsValue t v)) := by
  have hx := ((C91_token inTag hl).1 k sk n ad).mp h
  cases hx with
  | attOpen t v ht hv => exact ⟨by omega, by omega, by simp; omega, .inr ⟨by simp, rfl, t, v, rfl, ht, hv⟩⟩
  | name nm r hn _ =>
    obtain ⟨⟨_, _, rfl, _⟩, _⟩ := hn
    simp
  | chars t r hne =>
    have : t.length ≠ 0 := by simpa using hne
    simp; omega
  | _ => simp <;> omega

/-- **C91** – a request for a token skips the white space if it is to be skipped, gives the end if nothing is left, and
otherwise the token of the grammar with its range; `<` and `</` begin the inside of a tag, where names, values and equals signs
are recognized and white space is skipped, and `>` and `/>` end it. -/
theorem C91_get_token (mem : Mem) {s : Lx} (hp : s.pending = none) {ws l : List Nat} (hle : s.first ≤ s.last)
    (ht : (Tok.mk s.first s.last).text mem = ws ++ l) (hw : s.skipWhite = false → ws = []) (hb : Blank ws)
    (hl : s.skipWhite = true → ∀ d r, l = d :: r → ¬ White d) :
    (l = [] → ∃ s', getToken mem s = .ok ⟨.eof, ⟨s.last, s.last⟩⟩ s') ∧
    (LexError s.namePossible l → getToken mem s = .throw) ∧
    ∀ k sk n ad, Lexeme s.namePossible l k sk n ad → ∃ s', getToken mem s =
        .ok ⟨k, ⟨s.first + ws.length + sk, s.first + ws.length + sk + n⟩⟩ s' ∧
      s'.first = s.first + ws.length + ad ∧ s'.last = s.last ∧ s'.pending = none ∧
      (s'.namePossible = match k with
        | .openTag => true
        | .openSlash => true
        | .closeTag => false
        | .slashClose => false
        | _ => s.namePossible) ∧
      (s'.skipWhite = match k with
        | .openTag => true
        | .openSlash => true
        | .closeTag => false
        | .slashClose => false
        | _ => s.skipWhite) := by
  obtain ⟨f, la, np, sw, pend, cur⟩ := s
  simp only at hp hle ht hw hl ⊢
  subst hp
  have hh : Here mem la f (ws ++ l) := ⟨hle, ht⟩
  have hs : Skips sw ws l := ⟨hw, hb, hl⟩
  rw [getToken_at mem hh hs]
  refine ⟨fun h => ?_, fun h => ?_, fun k sk n ad hx => ?_⟩
  · rw [if_pos h]; exact ⟨_, rfl⟩
  · rw [if_neg (error_ne h), parseToken_throw h]
  · rw [if_neg (Lexeme.ne hx), parseToken_tok hx]
    refine ⟨_, rfl, ?_⟩
    cases k <;> simp [Lx.after]

/-! ### C92: what is accepted -/

theorem new_at {a last : Nat} : At c.mem { St.new ⟨a, last⟩ with lx := { (Lx.new ⟨a, last⟩) with skipWhite := false } }
    (pos a last) false [] [] := by
  refine ⟨?_, rfl, rfl, rfl⟩
  unfold Same pos lxAt
  rw [← getToken_cur _ _ ⟨.eof, .null⟩]
  rfl

/-- **C92** – `parse_content` accepts every well-formed content, up to where it stops, and gives its output and its calls. -/
theorem C92_content {a last : Nat} {x : Content} {r o : List Nat} {cs : List Call} (hle : a ≤ last)
    (ht : (Tok.mk a last).text c.mem = x.render ++ r) (hx : x.Ok) (hs : x.Stops r) (h : ContentSem c a x [] o cs) :
    Gives (parseContent c) ⟨a, last⟩ o cs := by
  obtain ⟨n0, h0⟩ := (contentSem_run h).parse hx hs (last := last) ⟨hle, ht⟩
  refine ⟨n0, fun n hn => ?_⟩
  obtain ⟨s, e, hA⟩ := h0 n hn (s := St.new ⟨a, last⟩) rfl rfl rfl
  exact ⟨s, e, by simpa [St.new] using hA.out, hA.calls⟩

/-- **C92** – `parse_element_sequence` accepts every sequence of well-formed elements. -/
theorem C92_sequence {a last : Nat} {l o : List Nat} {cs : List Call} (hle : a ≤ last)
    (ht : (Tok.mk a last).text c.mem = l) (h : SeqSem c a l [] o cs) : Gives (parseElementSequence c) ⟨a, last⟩ o cs := by
  obtain ⟨n0, h0⟩ := seq_run h
  refine ⟨n0, fun n hn => ?_⟩
  obtain ⟨s, e, ho, hc⟩ := h0 n hn (last := last) ⟨hle, ht⟩ new_at
  exact ⟨s, e, by simpa using ho, hc⟩

/-- **C92** – `parse_document` accepts every document: the prolog and a well-formed element, if what comes after this can be
read. -/
theorem C92_document {a last : Nat} {p r o : List Nat} {i : Item} {cs : List Call} (hle : a ≤ last)
    (ht : (Tok.mk a last).text c.mem = p ++ (i.render ++ r)) (hp : Prolog p (i.render ++ r)) (hi : i.Ok) (hd : i.head? ≠ none)
    (hr : ¬ LexError false r) (h : ItemSem c (a + p.length) i [] o cs) : Gives (parseDocument c) ⟨a, last⟩ o cs := by
  refine root_run (last := last) ⟨hle, ht⟩ hp (.inr ⟨i, r, rfl, hi, hd, h, ?_⟩)
  by_cases h0 : r = []
  · exact .inl ⟨h0, trivial⟩
  · rcases parseToken_total false h0 with ⟨k, sk, n, ad, _, hx⟩ | ⟨_, hx⟩
    · exact .inr ⟨k, sk, n, ad, hx, trivial⟩
    · exact absurd hx hr

/-! ### C93: nothing else is accepted -/

/-- **C93** – what `parse_content` accepts is well-formed content up to where it stops – all tags are balanced, names match –
and the output and the calls are those of this content. -/
theorem C93_content {n a last : Nat} {s : St} (h : parseContent c n (St.new ⟨a, last⟩) = .ok () s) :
    a ≤ last ∧ ∃ x r, (Tok.mk a last).text c.mem = Content.render x ++ r ∧ x.Ok ∧ x.Stops r ∧ ContentSem c a x [] s.out s.calls := by
  obtain ⟨hle, x, r, o, cs, h1, h2, h3, h4, h5, h6⟩ := (sound c n).parse rfl rfl rfl rfl h
  refine ⟨hle, x, r, h1, h2, h3, ?_⟩
  rw [h5, h6]
  exact h4

/-- **C93** – what `parse_element_sequence` accepts is a sequence of well-formed elements up to where it stops. -/
theorem C93_sequence {n a last : Nat} {s : St} (h : parseElementSequence c n (St.new ⟨a, last⟩) = .ok () s) :
    a ≤ last ∧ SeqSem c a ((Tok.mk a last).text c.mem) [] s.out s.calls := by
  by_cases hle : a ≤ last
  · obtain ⟨o, h1, h2⟩ := seq_sound n (here_of_le c.mem hle) new_at h
    refine ⟨hle, ?_⟩
    rw [h2]
    exact h1
  · exfalso
    have hg : getToken c.mem { (Lx.new ⟨a, last⟩) with skipWhite := false } = .ub := (new_at (c := c)).lx.trans (get_past (by omega))
    have e : parseElementSequence c n (St.new ⟨a, last⟩) =
      elementSequenceLoop c n { St.new ⟨a, last⟩ with lx := { (Lx.new ⟨a, last⟩) with skipWhite := false } } := rfl
    rw [e] at h
    match n with
    | 0 => simp [elementSequenceLoop, stuck] at h
    | 1 => simp [elementSequenceLoop, isElement, stuck, bind_eq] at h
    | n + 2 =>
      unfold elementSequenceLoop at h
      rw [isElement_eq] at h
      simp [isToken, bind_eq, lex, hg] at h

/-- **C93** – what `parse_document` accepts is a prolog with a well-formed element after it, or with no start tag after it. -/
theorem C93_document {n a last : Nat} {s : St} (hle : a ≤ last) (h : parseDocument c n (St.new ⟨a, last⟩) = .ok () s) :
    ∃ p r, (Tok.mk a last).text c.mem = p ++ r ∧ Prolog p r ∧ Root c (a + p.length) r s.out s.calls :=
  root_sound (here_of_le c.mem hle) h

/-! ### C94: the parser comes to an end within the text -/

/-- What the parser may end with. -/
def Ends (r : R St Unit) (l : List Nat) : Prop := (∃ s, r = .ok () s) ∨ r = .throw ∨ (r = .ub ∧ OpenValue l)

theorem Good.ends {r : R St Unit} {l : List Nat} (h : Good r l) : Ends r l := by
  cases r with
  | ok u s => exact .inl ⟨s, rfl⟩
  | throw => exact .inr (.inl rfl)
  | ub => exact .inr (.inr ⟨rfl, h⟩)
  | stuck => exact h.elim

/-- **C94** – if the callback replaces no preorder elements, each of the three functions comes to an end on every text, in a
number of rounds that is linear in its length, and it either returns or throws, unless the text has a quote that could begin
an attribute value with no such quote, `<` or `&` after it; only then can it read past the end. -/
theorem C94_ends_partial (hc : NoRewrite c) {a last n : Nat} (hle : a ≤ last) (hn : 2 * (last - a) + 7 ≤ n) :
    Ends (parseContent c n (St.new ⟨a, last⟩)) ((Tok.mk a last).text c.mem) ∧
    Ends (parseElementSequence c n (St.new ⟨a, last⟩)) ((Tok.mk a last).text c.mem) ∧
    Ends (parseDocument c n (St.new ⟨a, last⟩)) ((Tok.mk a last).text c.mem) := by
  have hh := here_of_le c.mem hle
  have hlen : ((Tok.mk a last).text c.mem).length = last - a := XmlAttr.Tok.text_length _ _
  exact ⟨(good_parseContent hc hh (by omega)).ends, (good_sequence hc hh (by omega)).ends, (good_document hc hh (by omega)).ends⟩

/-- **C94** – the number of rounds does not matter: whatever one of the functions ends with in some number of rounds, it ends
with in every larger number. -/
theorem C94_rounds {n m : Nat} (hm : n ≤ m) (s : St) :
    (parseContent c n s ≠ .stuck → parseContent c m s = parseContent c n s) ∧
    (parseElementSequence c n s ≠ .stuck → parseElementSequence c m s = parseElementSequence c n s) ∧
    (parseDocument c n s ≠ .stuck → parseDocument c m s = parseDocument c n s) :=
  ⟨fun h => Le.all (fun k => (mono c k).parse) h m hm, fun h => Le.all sequence_mono h m hm,
    fun h => Le.all document_mono h m hm⟩

/-! ### C95: what the client gets and what is copied -/

mutual
theorem Item.plain_copy (i : Item) (a : Nat) (h : i.plain) : i.copy c a = i.render := by
  match i with
  | .ref _ => exact h.elim
  | .comment _ => exact h.elim
  | .empty _ => rfl
  | .elem hd x w1 w2 =>
    obtain ⟨hx, rfl, rfl⟩ := h
    simp only [Item.copy]
    split
    · rfl
    · simp [Content.plain_copy x _ hx, endEcho, Item.render]
theorem Content.plain_copy (x : Content) (a : Nat) (h : x.plain) : x.copy c a = x.render := by
  match x with
  | .nil _ => rfl
  | .openRef _ _ => exact h.elim
  | .cons t i rest => simp [Content.copy, Content.render, Item.plain_copy i _ h.1, Content.plain_copy rest _ h.2]
end

theorem content_copy (hid : Identity c) {a : Nat} {x : Content} {cs cs' : List Call} {o : List Nat} (h : ContentSem c a x cs o cs') :
    ∀ {last r}, Here c.mem last a (x.render ++ r) → o = x.copy c a := by
  refine ContentSem.rec (motive_1 := fun a i cs o cs' _ => ∀ {last r}, Here c.mem last a (i.render ++ r) → o = i.copy c a)
    (motive_2 := fun a x cs o cs' _ => ∀ {last r}, Here c.mem last a (x.render ++ r) → o = x.copy c a) ?_ ?_ ?_ ?_ ?_ ?_ ?_ ?_ ?_ h
  · intro a body cs last r _; rfl
  · intro a body cs last r _; rfl
  · intro a h cs r hp hc last r' hh
    rw [hid] at hc
    cases hc
    exact hh.text
  · intro a h x w1 w2 cs o cs' hp _ ih last r hh
    have e : (Item.elem h x w1 w2).render ++ r = (60 :: (h.render ++ [62])) ++ (x.render ++ (60 :: 47 :: (w1 ++ (h.name ++ (w2 ++ 62 :: r))))) := by
      simp [Item.render]
    rw [e] at hh
    have hd := hh.drop
    have := ih (last := last) (r := 60 :: 47 :: (w1 ++ (h.name ++ (w2 ++ 62 :: r)))) (by
      convert hd using 1
      simp; omega)
    simp [Item.copy, hp, this]
  · intro a i h cs hd hp hc last r hh
    cases i with
    | ref _ => simp [Item.head?] at hd
    | comment _ => simp [Item.head?] at hd
    | empty _ => rfl
    | elem h' x w1 w2 =>
      simp only [Item.head?, Option.some.injEq] at hd
      subst hd
      simp [Item.copy, hp]
  · intro a i h cs r new rest o cs' hd hp hc hne
    rw [hid] at hc
    cases hc
    exact absurd rfl hne
  · intro a t cs last r _; rfl
  · intro a t body cs last r _; rfl
  · intro a t i rest cs o cs' o' cs'' _ _ h1 h2 last r hh
    simp only [Content.render, List.append_assoc] at hh
    rw [h1 hh.drop, h2 hh.drop.drop]
    rfl

/-- **C95** – if the callback gives back the elements it is called for, the output is the content with comments removed,
references replaced and end tags copied as `endEcho` says. -/
theorem C95_copy (hid : Identity c) {n a last : Nat} {s : St} (h : parseContent c n (St.new ⟨a, last⟩) = .ok () s) :
    ∃ x r, (Tok.mk a last).text c.mem = Content.render x ++ r ∧ x.Ok ∧ x.Stops r ∧ s.out = x.copy c a := by
  obtain ⟨hle, x, r, h1, h2, h3, h4⟩ := C93_content h
  exact ⟨x, r, h1, h2, h3, content_copy hid h4 (last := last) ⟨hle, h1⟩⟩

/-- The calls for which a callback that gives back its elements is called exist. -/
theorem content_sem_exists (hid : Identity c) : (∀ (i : Item) (a : Nat) (cs : List Call), ∃ o cs', ItemSem c a i cs o cs') ∧
    ∀ (x : Content) (a : Nat) (cs : List Call), ∃ o cs', ContentSem c a x cs o cs' := by
  have hi : ∀ (i : Item) (a : Nat) (cs : List Call), ∃ o cs', ItemSem c a i cs o cs' := by
    intro i
    refine Item.rec (motive_1 := fun i => ∀ (a : Nat) (cs : List Call), ∃ o cs', ItemSem c a i cs o cs')
      (motive_2 := fun x => ∀ (a : Nat) (cs : List Call), ∃ o cs', ContentSem c a x cs o cs') ?_ ?_ ?_ ?_ ?_ ?_ ?_ i
    · intro b a cs; exact ⟨_, _, .ref⟩
    · intro b a cs; exact ⟨_, _, .comment⟩
    · intro h a cs
      cases hp : c.pred (h.nameTok a) with
      | true => exact ⟨_, _, .same rfl hp (hid _ _)⟩
      | false => exact ⟨_, _, .empty hp (hid _ _)⟩
    · intro h x w1 w2 ih a cs
      cases hp : c.pred (h.nameTok a) with
      | true => exact ⟨_, _, .same rfl hp (hid _ _)⟩
      | false =>
        obtain ⟨o, cs', hx⟩ := ih (a + 1 + h.render.length + 1) cs
        exact ⟨_, _, .elem hp hx⟩
    · intro t a cs; exact ⟨_, _, .nil⟩
    · intro t b a cs; exact ⟨_, _, .openRef⟩
    · intro t i x h1 h2 a cs
      obtain ⟨o, cs', hi⟩ := h1 (a + t.length) cs
      obtain ⟨o', cs'', hx⟩ := h2 (a + t.length + i.render.length) cs'
      exact ⟨_, _, .cons hi hx⟩
  refine ⟨hi, ?_⟩
  intro x
  refine Content.rec (motive_1 := fun i => True)
    (motive_2 := fun x => ∀ (a : Nat) (cs : List Call), ∃ o cs', ContentSem c a x cs o cs') ?_ ?_ ?_ ?_ ?_ ?_ ?_ x
  · simp
  · simp
  · simp
  · simp
  · intro t a cs; exact ⟨_, _, .nil⟩
  · intro t b a cs; exact ⟨_, _, .openRef⟩
  · intro t i x _ h2 a cs
    obtain ⟨o, cs', hi⟩ := hi i (a + t.length) cs
    obtain ⟨o', cs'', hx⟩ := h2 (a + t.length + i.render.length) cs'
    exact ⟨_, _, .cons hi hx⟩

/-- **C95** – if the callback gives back the elements it is called for, well-formed content without comments, references and
white space in end tags is copied byte for byte. -/
theorem C95_verbatim (hid : Identity c) {a last : Nat} {x : Content} (hle : a ≤ last)
    (ht : (Tok.mk a last).text c.mem = x.render) (hx : x.Ok) (hp : x.plain) (hs : x.Stops []) :
    ∃ cs, Gives (parseContent c) ⟨a, last⟩ x.render cs := by
  obtain ⟨o, cs, hsem⟩ := (content_sem_exists hid).2 x a []
  have ho := content_copy hid hsem (last := last) (r := []) ⟨hle, by simpa using ht⟩
  rw [Content.plain_copy x a hp] at ho
  subst ho
  exact ⟨cs, C92_content hle (by simpa using ht) hx hs hsem⟩

theorem follow_range (x : Content) : ∀ {acc : Tok} {a : Nat}, acc.first ≠ 0 → acc.second = a → x.uncommented →
    x.follow acc a = ⟨acc.first, a + x.render.length⟩ := by
  intro acc a h0 h1 hu
  have hch : ∀ t : List Nat, addChars acc a (a + t.length) = ⟨acc.first, a + t.length⟩ := by
    intro t
    unfold addChars
    split
    · next h =>
      obtain ⟨f, s⟩ := acc
      simp only at h1
      rw [← h, ← h1]
    · rfl
  match x with
  | .nil t => simp [Content.follow, Content.render, hch]
  | .openRef t b => simp [Content.follow, Content.render, hch, addPiece, h0]; omega
  | .cons t i rest =>
    simp only [Content.follow, hch, addItem, hu.1, Bool.false_eq_true, if_false, addPiece, h0]
    rw [follow_range rest (by exact h0) rfl hu.2]
    simp [Content.render]; omega

theorem range_uncommented {a : Nat} (ha : a ≠ 0) {x : Content} (hx : x.uncommented) :
    x.range a = if x.render = [] then .null else ⟨a, a + x.render.length⟩ := by
  cases x with
  | nil t => rfl
  | openRef t b =>
    simp only [Content.range, Content.render, lead]
    by_cases ht : t = []
    · simp [ht, addPiece, Tok.null]; omega
    · simp [ht, addPiece, ha]; omega
  | cons t i rest =>
    have hpos := Item.render_pos i
    have hne : i.render ≠ [] := by intro h; simp [h] at hpos
    have hr : ¬ (Content.cons t i rest).render = [] := by simp [Content.render, hne]
    rw [if_neg hr]
    simp only [Content.range, Content.render, lead, addItem, hx.1, Bool.false_eq_true, if_false]
    by_cases ht : t = []
    · subst ht
      simp only [if_true, addPiece, Tok.null, List.length_nil, Nat.add_zero, List.nil_append]
      rw [follow_range rest (by exact ha) rfl hx.2]
      simp; omega
    · simp only [ht, if_false, addPiece, ha]
      rw [follow_range rest (by exact ha) rfl hx.2]
      simp; omega

/-- **C95** – when a preorder element is parsed and its content has no comment (those inside of inner elements do not count),
the callback is called once, with the range of the whole element, the range of its name, its attributes, and as content all
that is between the tags, or the null range if this is empty. -/
theorem C95_value_range_partial {a last : Nat} {h : Head} {x : Content} {w1 w2 : List Nat} (hid : Identity c) (ha : a ≠ 0)
    (hle : a ≤ last) (ht : (Tok.mk a last).text c.mem = (Item.elem h x w1 w2).render) (hok : (Item.elem h x w1 w2).Ok)
    (hp : c.pred (h.nameTok a) = true) (hx : x.uncommented) :
    Gives (parseContent c) ⟨a, last⟩ (Item.elem h x w1 w2).render
      [⟨⟨a, last⟩, h.nameTok a, h.attrs c.mem a,
        if x.render = [] then .null
        else ⟨a + 1 + h.render.length + 1, a + 1 + h.render.length + 1 + x.render.length⟩⟩] := by
  have hlen : ((Tok.mk a last).text c.mem).length = last - a := XmlAttr.Tok.text_length _ _
  have hl : last = a + (Item.elem h x w1 w2).render.length := by rw [ht] at hlen; omega
  have hs : ItemSem c a (.elem h x w1 w2) [] _ _ := .same (h := h) rfl hp (hid _ _)
  have hc : ContentSem c a (.cons [] (.elem h x w1 w2) (.nil [])) [] _ _ :=
    .cons (by simpa using hs) .nil
  have hg := C92_content (x := .cons [] (.elem h x w1 w2) (.nil [])) (r := []) hle (by simpa [Content.render] using ht)
    ⟨⟨by simp, by simp, by simp⟩, hok, ⟨by simp, by simp, by simp⟩⟩ (.inl rfl) hc
  have e : (Item.elem h x w1 w2).call c.mem a h = ⟨⟨a, last⟩, h.nameTok a, h.attrs c.mem a,
        if x.render = [] then .null
        else ⟨a + 1 + h.render.length + 1, a + 1 + h.render.length + 1 + x.render.length⟩⟩ := by
    rw [← range_uncommented (by omega) hx, hl]; rfl
  rw [← e]
  simpa using hg

/-! ### What is not so

The range of all these texts begins at 8; the client's callback gives back the element it is called for. -/

/-- Memory with the bytes `l` from the address `a` on. -/
def page (a : Nat) (l : List Nat) : Mem := fun p => if a ≤ p then l.getD (p - a) 0 else 0

def at8 (l : List Nat) : Tok := ⟨8, 8 + l.length⟩

def client (pre : Bool) (l : List Nat) : Cfg := ⟨page 8 l, [], fun _ => pre, fun _ k => some k.entire⟩

/-- What can be seen of a result. -/
def look : R St Unit → Option (Option (List Nat × List Call))
  | .ok () s => some (some (s.out, s.calls))
  | .throw => some none
  | _ => none

def isUb : R St Unit → Bool
  | .ub => true
  | _ => false

theorem Gives.of {p : Nat → M Unit} (hp : ∀ n, Le (p n) (p (n + 1))) (n : Nat) {r : Tok} {o : List Nat} {cs : List Call}
    (h : look (p n (St.new r)) = some (some (o, cs))) : Gives p r o cs := by
  refine ⟨n, fun m hm => ?_⟩
  have e := Le.all hp (n := n) (s := St.new r) (by intro h'; rw [h'] at h; simp [look] at h) m hm
  rw [e]
  match hq : p n (St.new r), h with
  | .ok () s, h =>
    simp only [look, Option.some.injEq, Prod.mk.injEq] at h
    exact ⟨s, rfl, h.1, h.2⟩
  | .throw, h => simp [look] at h
  | .ub, h => simp [look] at h
  | .stuck, h => simp [look] at h

theorem Throws.of {p : Nat → M Unit} (hp : ∀ n, Le (p n) (p (n + 1))) (n : Nat) {r : Tok}
    (h : look (p n (St.new r)) = some none) : Throws p r := by
  refine ⟨n, fun m hm => ?_⟩
  have e := Le.all hp (n := n) (s := St.new r) (by intro h'; rw [h'] at h; simp [look] at h) m hm
  rw [e]
  cases hq : p n (St.new r) <;> simp [hq, look] at h ⊢

theorem Overreads.of {p : Nat → M Unit} (hp : ∀ n, Le (p n) (p (n + 1))) (n : Nat) {r : Tok}
    (h : isUb (p n (St.new r)) = true) : Overreads p r := by
  refine ⟨n, fun m hm => ?_⟩
  have e := Le.all hp (n := n) (s := St.new r) (by intro h'; rw [h'] at h; simp [isUb] at h) m hm
  rw [e]
  cases hq : p n (St.new r) <;> simp [hq, isUb] at h ⊢

theorem content_mono (c : Cfg) (n : Nat) : Le (parseContent c n) (parseContent c (n + 1)) := (mono c n).parse

/-- **C92** – character data that begins with `>` is well-formed XML, but `<a>></a>` is not accepted. -/
theorem C92_any_text_violated :
    Throws (parseContent (client false [60, 97, 62, 62, 60, 47, 97, 62])) (at8 [60, 97, 62, 62, 60, 47, 97, 62]) :=
  .of (content_mono _) 30 (by decide +kernel)

/-- **C92** – a processing instruction in the content is well-formed XML, but `<a><?x?></a>` is not accepted. -/
theorem C92_pi_in_content_violated :
    Throws (parseContent (client false [60, 97, 62, 60, 63, 120, 63, 62, 60, 47, 97, 62])) (at8 [60, 97, 62, 60, 63, 120, 63, 62, 60, 47, 97, 62]) :=
  .of (content_mono _) 30 (by decide +kernel)

/-- **C92** – a comment before the root element is well-formed XML, but in `<!----><a/>` the element is not parsed, and this is not reported. -/
theorem C92_comment_before_root_violated :
    Gives (parseDocument (client false [60, 33, 45, 45, 45, 45, 62, 60, 97, 47, 62])) (at8 [60, 33, 45, 45, 45, 45, 62, 60, 97, 47, 62]) [] [] :=
  .of document_mono 30 (by decide +kernel)

/-- **C92** – white space before the first element of a sequence: in ` <a/>` no element is parsed, and this is not reported. -/
theorem C92_sequence_leading_text_violated :
    Gives (parseElementSequence (client false [32, 60, 97, 47, 62])) (at8 [32, 60, 97, 47, 62]) [] [] :=
  .of sequence_mono 30 (by decide +kernel)

/-- **C93** – `a</b>c` is not well-formed content, but is accepted, up to the end tag. -/
theorem C93_content_stop_violated :
    Gives (parseContent (client false [97, 60, 47, 98, 62, 99])) (at8 [97, 60, 47, 98, 62, 99]) [97] [] :=
  .of (content_mono _) 30 (by decide +kernel)

/-- **C93** – `&amp` is not well-formed content, but is accepted. -/
theorem C93_open_reference_violated :
    Gives (parseContent (client false [38, 97, 109, 112])) (at8 [38, 97, 109, 112]) [] [] :=
  .of (content_mono _) 30 (by decide +kernel)

/-- **C93** – `ab<c/>` is not a document, but is accepted, and the text before the element is dropped. -/
theorem C93_leading_text_violated :
    Gives (parseDocument (client false [97, 98, 60, 99, 47, 62])) (at8 [97, 98, 60, 99, 47, 62]) [60, 99, 47, 62] [⟨⟨10, 14⟩, ⟨11, 12⟩, [], .null⟩] :=
  .of document_mono 30 (by decide +kernel)

/-- **C94** – for `<a b="c` the lexer goes past the end of the text. -/
theorem C94_overread_violated :
    Overreads (parseContent (client false [60, 97, 32, 98, 61, 34, 99])) (at8 [60, 97, 32, 98, 61, 34, 99]) :=
  .of (content_mono _) 30 (by decide +kernel)

/-- **C95** – `<a>x</a >` is copied without its last byte. -/
theorem C95_end_tag_violated :
    Gives (parseContent (client false [60, 97, 62, 120, 60, 47, 97, 32, 62])) (at8 [60, 97, 62, 120, 60, 47, 97, 32, 62]) [60, 97, 62, 120, 60, 47, 97, 32] [] :=
  .of (content_mono _) 30 (by decide +kernel)

/-- **C95** – with a comment in front, the content range that the callback gets does not begin at the content: for the preorder
element `<a><!---->x</a>` it goes from the null pointer to the end of `x`. -/
theorem C95_value_range_violated :
    Gives (parseContent (client true [60, 97, 62, 60, 33, 45, 45, 45, 45, 62, 120, 60, 47, 97, 62])) (at8 [60, 97, 62, 60, 33, 45, 45, 45, 45, 62, 120, 60, 47, 97, 62])
      [60, 97, 62, 60, 33, 45, 45, 45, 45, 62, 120, 60, 47, 97, 62] [⟨⟨8, 23⟩, ⟨9, 10⟩, [], ⟨0, 19⟩⟩] :=
  .of (content_mono _) 30 (by decide +kernel)

end Verif.Xml
