import Verif.Xml.Tags
/-! The steps of `is_content`. -/
namespace Verif.Xml
open Verif.Xml.Spec
open Verif.XmlAttr (Mem Tok Attr)

variable {c : Cfg}

theorem skips_none (l : List Nat) : Skips false [] l := by simp [Skips, Blank]

/-- The next token. -/
def Next (mem : Mem) (L : Lx) (p : Kind → Prop) : Prop := ∃ t L', getToken mem L = .ok t L' ∧ p t.kind

/-- The kinds of tokens where content ends. -/
def Kind.Ends (k : Kind) : Prop := k ≠ .charData ∧ k ≠ .reference ∧ k ≠ .openTag ∧ k ≠ .comment

theorem tokNext_no {k : Kind} {s : St} {L pre out calls} {p : Kind → Prop} (h : At c.mem s L pre out calls) (hn : Next c.mem L p)
    (hk : ∀ k', p k' → k' ≠ k) : Run c.mem (isToken c k s) none L pre out calls := by
  obtain ⟨t, L', hg, hp⟩ := hn
  exact run_isToken_no h hg (hk _ hp)

theorem pos_lexeme {mem : Mem} {a last : Nat} {l : List Nat} {k sk n ad} (hh : Here mem last a l) (hx : Lexeme false l k sk n ad)
    {p : Kind → Prop} (hp : p k) : Next mem (pos a last) p := by
  obtain ⟨L, h1, _⟩ := get_tok (ws := []) hh (skips_none l) hx
  exact ⟨_, L, h1, hp⟩

theorem pos_eof {mem : Mem} {a last : Nat} (hh : Here mem last a []) {p : Kind → Prop} (hp : p .eof) : Next mem (pos a last) p := by
  obtain ⟨L, h1, _⟩ := get_eof (b := false) (w := false) hh (skips_none [])
  exact ⟨_, L, h1, hp⟩

theorem pos_tok {k : Kind} {s : St} {a last : Nat} {l : List Nat} {pre out calls sk n ad}
    (h : At c.mem s (pos a last) pre out calls) (hh : Here c.mem last a l) (hx : Lexeme false l k sk n ad) :
    Run c.mem (isToken c k s) (some ⟨a + sk, a + sk + n⟩) (nextLx (a + ad) last false false k) pre out calls :=
  tok_yes (ws := []) h hh (skips_none l) hx

/-- The character data at the beginning. -/
def Spec.Content.chars : Content → List Nat
  | .nil t => t
  | .openRef t _ => t
  | .cons t _ _ => t

/-- What is after it. -/
def Spec.Content.body : Content → List Nat
  | .nil _ => []
  | .openRef _ b => 38 :: b
  | .cons _ i rest => i.render ++ rest.render

theorem Content.render_eq (x : Content) : x.render = x.chars ++ x.body := by
  cases x <;> simp [Content.render, Content.chars, Content.body]

theorem Content.chars_ok {x : Content} (h : x.Ok) : IsChars x.chars := by
  cases x <;> simp_all [Content.Ok, Content.chars]

/-- Where an item begins there is a token of one of these kinds. -/
theorem item_lexeme {i : Item} (h : i.Ok) (r : List Nat) : ∃ k sk n ad, Lexeme false (i.render ++ r) k sk n ad ∧
    ((∃ body, i = .ref body ∧ k = .reference ∧ sk = 0 ∧ n = i.render.length ∧ ad = i.render.length) ∨
     (∃ body, i = .comment body ∧ k = .comment ∧ sk = 0 ∧ n = i.render.length ∧ ad = i.render.length) ∨
     (i.head? ≠ none ∧ k = .openTag)) := by
  have hopen : ∀ (h : Head) (l : List Nat), h.Ok → Lexeme false (60 :: (h.render ++ l)) .openTag 0 1 1 := by
    intro h l ho
    have hfirst : ∀ x r, h.render ++ l = x :: r → White x ∨ NameStart x := by
      intro x r hx
      obtain ⟨⟨d, t, hd, hd'⟩, _⟩ := ho.name
      unfold Head.render at hx
      cases hl : h.lead with
      | nil => rw [hl, hd] at hx; simp at hx; rw [← hx.1]; exact .inr hd'
      | cons y ys =>
        have := ho.lead y (by simp [hl])
        rw [hl] at hx; simp at hx; rw [← hx.1]; exact .inl this
    have hno : ∀ y t, (¬ White y ∧ ¬ NameStart y) → ¬ (y :: t) <+: h.render ++ l := by
      rintro y t hy ⟨r, hr⟩
      have := hfirst y (t ++ r) (by simpa using hr.symm)
      tauto
    refine .openTag _ (hno _ _ ?_) (hno _ _ ?_) (hno _ _ ?_) <;> unfold White NameStart <;> omega
  cases i with
  | ref body =>
    refine ⟨_, _, _, _, ?_, .inl ⟨body, rfl, rfl, rfl, rfl, rfl⟩⟩
    have := Lexeme.ref (b := false) body r h
    simpa [Item.render] using this
  | comment body =>
    refine ⟨_, _, _, _, ?_, .inr (.inl ⟨body, rfl, rfl, rfl, rfl, rfl⟩)⟩
    have := Lexeme.comment (b := false) body r h
    simpa [Item.render] using this
  | empty hd =>
    refine ⟨.openTag, 0, 1, 1, ?_, .inr (.inr ⟨by simp [Item.head?], rfl⟩)⟩
    simpa [Item.render] using hopen hd _ h
  | elem hd content w1 w2 =>
    refine ⟨.openTag, 0, 1, 1, ?_, .inr (.inr ⟨by simp [Item.head?], rfl⟩)⟩
    simpa [Item.render] using hopen hd _ h.1

/-- Where content stops there is a token at which it ends. -/
theorem stops_next {mem : Mem} {a last : Nat} {t r : List Nat} (hs : (Content.nil t).Stops r) (hh : Here mem last a r) :
    Next mem (pos a last) Kind.Ends ∧ (t ≠ [] → CharsEnd r) := by
  rcases hs with rfl | ⟨r, rfl⟩ | ⟨body, r', hb, rfl⟩ | ⟨rfl, ⟨r, rfl⟩ | ⟨r, rfl⟩⟩
  · exact ⟨pos_eof hh (by simp [Kind.Ends]), fun _ => .inl rfl⟩
  · exact ⟨pos_lexeme hh (.openSlash r) (by simp [Kind.Ends]), fun _ => .inr (.inl ⟨_, rfl⟩)⟩
  · exact ⟨pos_lexeme hh (.pi body r' hb) (by simp [Kind.Ends]), fun _ => .inr (.inl ⟨_, rfl⟩)⟩
  · exact ⟨pos_lexeme hh (.closeTag r) (by simp [Kind.Ends]), by simp⟩
  · exact ⟨pos_lexeme hh (.slashClose r) (by simp [Kind.Ends]), by simp⟩

/-- After the character data at the beginning of content there is another token. -/
theorem after_chars {mem : Mem} {a last : Nat} {x : Content} {r : List Nat} (hx : x.Ok) (hs : x.Stops r)
    (hh : Here mem last a (x.body ++ r)) : Next mem (pos a last) (· ≠ .charData) ∧ (x.chars ≠ [] → CharsEnd (x.body ++ r)) := by
  cases x with
  | nil t =>
    obtain ⟨⟨k, L, h1, h2⟩, h3⟩ := stops_next hs hh
    exact ⟨⟨k, L, h1, h2.1⟩, h3⟩
  | openRef t b =>
    simp only [Content.Stops] at hs
    subst hs
    rw [List.append_nil] at hh ⊢
    exact ⟨pos_lexeme hh (.refOpen b hx.2) (by simp), fun _ => .inr (.inr ⟨_, rfl⟩)⟩
  | cons t i rest =>
    obtain ⟨k, sk, n, ad, hl, hk⟩ := item_lexeme hx.2.1 (rest.render ++ r)
    simp only [Content.body, List.append_assoc] at hh ⊢
    refine ⟨pos_lexeme hh hl (by rcases hk with ⟨_, _, rfl, _⟩ | ⟨_, _, rfl, _⟩ | ⟨_, rfl⟩ <;> simp), fun _ => ?_⟩
    cases i <;> simp [Item.render, CharsEnd]

/-- Content begins with a token that can be read. -/
theorem content_next {mem : Mem} {a last : Nat} {x : Content} {r : List Nat} (hx : x.Ok) (hs : x.Stops r)
    (hh : Here mem last a (x.render ++ r)) : Next mem (pos a last) (fun _ => True) := by
  rw [Content.render_eq, List.append_assoc] at hh
  obtain ⟨⟨k, L, h1, h2⟩, h3⟩ := after_chars hx hs hh.drop
  by_cases ht : x.chars = []
  · rw [ht] at h1
    exact ⟨k, L, by simpa using h1, trivial⟩
  · exact pos_lexeme hh (.chars _ _ ht (Content.chars_ok hx) (h3 ht) (by simp)) trivial

/-- The character data at the beginning of content is read. -/
theorem run_chars {s : St} {a last : Nat} {x : Content} {r : List Nat} {pre out calls} (hx : x.Ok) (hs : x.Stops r)
    (hh : Here c.mem last a (x.render ++ r)) (hA : At c.mem s (pos a last) pre out calls) :
    Run c.mem (isToken c .charData s) (if x.chars = [] then none else some ⟨a, a + x.chars.length⟩)
      (pos (a + x.chars.length) last) pre out calls := by
  rw [Content.render_eq, List.append_assoc] at hh
  obtain ⟨h1, h3⟩ := after_chars hx hs hh.drop
  by_cases ht : x.chars = []
  · rw [ht] at h1
    simp only [ht, if_true, List.length_nil, Nat.add_zero] at h1 ⊢
    exact tokNext_no hA h1 fun k hk => hk
  · simp only [ht, if_false]
    have := pos_tok hA hh (.chars _ _ ht (Content.chars_ok hx) (h3 ht) (by simp))
    exact this

theorem isContent_step {s : St} {a last n : Nat} {x : Content} {r : List Nat} {pre out calls} (hx : x.Ok) (hs : x.Stops r)
    (hh : Here c.mem last a (x.render ++ r)) (hA : At c.mem s (pos a last) pre out calls) :
    ∃ s1, isContent c (n + 1) s = contentLoop c n (if pre then lead a x.chars else .null) s1 ∧
      At c.mem s1 (pos (a + x.chars.length) last) pre (if pre then out else out ++ x.chars) calls := by
  obtain ⟨s1, h1, hA1⟩ := run_chars hx hs hh hA
  have ht := (Content.render_eq x ▸ hh : Here c.mem last a ((x.chars ++ x.body) ++ r))
  rw [List.append_assoc] at ht
  by_cases hc : x.chars = []
  · refine ⟨s1, ?_, ?_⟩
    · simp only [isContent, bind_eq, h1, hc, if_true, lead]
      cases pre <;> simp
    · cases pre <;> simpa [hc] using hA1
  · cases pre with
    | true =>
      refine ⟨s1, ?_, by simpa using hA1⟩
      simp [isContent, bind_eq, h1, hc, lead, getPreorder, hA1.pre]
    | false =>
      refine ⟨{ s1 with out := s1.out ++ x.chars }, ?_, ⟨hA1.lx, hA1.pre, by simp [hA1.out], hA1.calls⟩⟩
      simp [isContent, bind_eq, h1, hc, getPreorder, hA1.pre, output, ht.text]

theorem contentTail_step {s : St} {a last n : Nat} {acc : Tok} {x : Content} {r : List Nat} {pre out calls} (hx : x.Ok)
    (hs : x.Stops r) (hh : Here c.mem last a (x.render ++ r)) (hA : At c.mem s (pos a last) pre out calls) :
    ∃ s1, contentTail c (n + 1) acc s = contentLoop c n (if pre then addChars acc a (a + x.chars.length) else acc) s1 ∧
      At c.mem s1 (pos (a + x.chars.length) last) pre (if pre then out else out ++ x.chars) calls := by
  obtain ⟨s1, h1, hA1⟩ := run_chars hx hs hh hA
  have ht := (Content.render_eq x ▸ hh : Here c.mem last a ((x.chars ++ x.body) ++ r))
  rw [List.append_assoc] at ht
  by_cases hc : x.chars = []
  · refine ⟨s1, ?_, ?_⟩
    · simp only [contentTail, bind_eq, h1, hc, if_true, addChars]
      cases pre <;> simp
    · cases pre <;> simpa [hc] using hA1
  · cases pre with
    | true =>
      refine ⟨s1, ?_, by simpa using hA1⟩
      simp [contentTail, bind_eq, h1, hc, addChars, getPreorder, hA1.pre]
    | false =>
      refine ⟨{ s1 with out := s1.out ++ x.chars }, ?_, ⟨hA1.lx, hA1.pre, by simp [hA1.out], hA1.calls⟩⟩
      simp [contentTail, bind_eq, h1, hc, getPreorder, hA1.pre, output, ht.text]

theorem isElement_none {s : St} {L : Lx} {n : Nat} {pre out calls} (hA : At c.mem s L pre out calls)
    (hn : Next c.mem L (· ≠ .openTag)) : Run c.mem (isElement c (n + 1) s) none L pre out calls := by
  rw [isElement_eq]
  refine (tokNext_no hA hn fun k hk => hk).bind fun s1 h1 => ?_
  exact ⟨s1, rfl, h1⟩

/-- Content ends. -/
theorem contentLoop_stop {s : St} {L : Lx} {n : Nat} {acc : Tok} {pre out calls} (hA : At c.mem s L pre out calls)
    (hn : Next c.mem L Kind.Ends) : Run c.mem (contentLoop c (n + 2) acc s) acc L pre out calls := by
  obtain ⟨t, L', hg, h1, h2, h3, h4⟩ := hn
  unfold contentLoop
  refine (run_isToken_no hA hg h2).bind fun s1 hA1 => ?_
  refine (isElement_none hA1 ⟨t, L', hg, h3⟩).bind fun s2 hA2 => ?_
  refine (run_isToken_no hA2 hg h4).bind fun s3 hA3 => ?_
  exact ⟨s3, rfl, hA3⟩

theorem transformReference_ref (body : List Nat) : transformReference c (38 :: (body ++ [59])) = refText c.byName body := by
  cases body with
  | nil => simp [transformReference, refText]; rfl
  | cons d b => simp [transformReference, refText, List.dropLast]; rfl

theorem transformReference_open (body : List Nat) : transformReference c (38 :: body) = openRefText c.byName body := by
  cases body with
  | nil => simp [transformReference, openRefText]
  | cons d b => simp [transformReference, openRefText, refText]; rfl

/-- A reference in content. -/
theorem contentLoop_ref {s : St} {a last n m : Nat} {acc : Tok} {l r : List Nat} {pre out calls}
    (hA : At c.mem s (pos a last) pre out calls) (hh : Here c.mem last a (l ++ r)) (hx : Lexeme false (l ++ r) .reference 0 m m)
    (hl : m = l.length) : ∃ s1, contentLoop c (n + 1) acc s =
        contentTail c n (if pre then addPiece acc a (a + l.length) else acc) s1 ∧
      At c.mem s1 (pos (a + l.length) last) pre (if pre then out else out ++ transformReference c l) calls := by
  subst hl
  obtain ⟨s1, h1, hA1⟩ := pos_tok hA hh hx
  have hne : l.length ≠ 0 := by
    intro h0
    have hl0 : l = [] := by simpa using h0
    subst hl0
    generalize hr : [] ++ r = r' at hx
    generalize h0' : ([] : List Nat).length = z at hx
    cases hx <;> simp at h0'
  have hsz : (Tok.mk (a + 0) (a + 0 + l.length)).size ≠ 0 := by simp only [Tok.size]; omega
  simp only [nextLx] at hA1
  cases pre with
  | true =>
    refine ⟨s1, ?_, hA1⟩
    simp only [contentLoop, bind_eq, h1]
    rw [if_pos hsz]
    simp [bind_eq, getPreorder, hA1.pre, addPiece]
  | false =>
    refine ⟨{ s1 with out := s1.out ++ transformReference c l }, ?_, ⟨hA1.lx, hA1.pre, by simp [hA1.out], hA1.calls⟩⟩
    simp only [contentLoop, bind_eq, h1]
    rw [if_pos hsz]
    simp [bind_eq, getPreorder, hA1.pre, output, hh.text]

theorem contentLoop_comment {s : St} {a last n m : Nat} {acc : Tok} {l r : List Nat} {pre out calls}
    (hA : At c.mem s (pos a last) pre out calls) (hh : Here c.mem last a (l ++ r)) (hx : Lexeme false (l ++ r) .comment 0 m m)
    (hl : m = l.length) : ∃ s1, contentLoop c (n + 2) acc s = contentTail c (n + 1) acc s1 ∧
      At c.mem s1 (pos (a + l.length) last) pre out calls := by
  subst hl
  have hn : ∀ k, k ≠ .comment → Next c.mem (pos a last) (· ≠ k) := fun k hk => pos_lexeme hh hx hk.symm
  obtain ⟨s1, h1, hA1⟩ := tokNext_no (k := .reference) hA (hn _ (by simp)) fun k hk => hk
  obtain ⟨s2, h2, hA2⟩ := isElement_none (n := n) hA1 (hn _ (by simp))
  obtain ⟨s3, h3, hA3⟩ := pos_tok hA2 hh hx
  refine ⟨s3, ?_, hA3⟩
  simp only [contentLoop, bind_eq, h1, h2, h3]

/-- An element in content. -/
theorem contentLoop_elem {s : St} {a last n : Nat} {acc e : Tok} {i : Item} {r : List Nat} {pre pre' out out' calls calls'}
    {L : Lx} (hA : At c.mem s (pos a last) pre out calls) (hh : Here c.mem last a (i.render ++ r)) (hi : i.Ok)
    (hd : i.head? ≠ none)
    (hel : ∀ s, At c.mem s (pos a last) pre out calls → Run c.mem (isElement c n s) (some e) L pre' out' calls') :
    ∃ s1, contentLoop c (n + 1) acc s = (if e.size ≠ 0 then
        (if pre' then contentTail c n ⟨if acc.first = 0 then e.first else acc.first, e.second⟩ s1
         else contentTail c n acc { s1 with out := s1.out ++ e.text c.mem }) else contentTail c n acc s1) ∧
      At c.mem s1 L pre' out' calls' := by
  obtain ⟨k, sk, m, ad, hx, hk⟩ := item_lexeme hi r
  have hk' : k = .openTag := by
    rcases hk with ⟨_, rfl, _⟩ | ⟨_, rfl, _⟩ | ⟨_, h⟩
    · simp [Item.head?] at hd
    · simp [Item.head?] at hd
    · exact h
  subst hk'
  obtain ⟨s1, h1, hA1⟩ := tokNext_no (k := .reference) hA (pos_lexeme hh hx (p := (· ≠ .reference)) (by simp)) fun k hk => hk
  obtain ⟨s2, h2, hA2⟩ := hel s1 hA1
  refine ⟨s2, ?_, hA2⟩
  simp only [contentLoop, bind_eq, h1, h2]
  by_cases hsz : e.size ≠ 0
  · rw [if_pos hsz, if_pos hsz]
    simp only [bind_eq, getPreorder, hA2.pre]
    cases pre' <;> simp [output, bind_eq, hA2.pre]
  · rw [if_neg hsz, if_neg hsz]

end Verif.Xml
