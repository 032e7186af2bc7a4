import Verif.Xml.Steps
/-! Preorder elements: the text is read and nothing is given to the client until the end of the outermost one. -/
namespace Verif.Xml
open Verif.Xml.Spec
open Verif.XmlAttr (Mem Tok Attr)

variable {c : Cfg}

/-- The content range from the first item on. -/
def Spec.Content.after (acc : Tok) (a : Nat) : Content → Tok
  | .nil _ => acc
  | .openRef _ body => addPiece acc a (a + 1 + body.length)
  | .cons _ i rest => rest.follow (addItem acc a i) (a + i.render.length)

theorem Content.follow_eq (acc : Tok) (a : Nat) (x : Content) :
    x.follow acc a = x.after (addChars acc a (a + x.chars.length)) (a + x.chars.length) := by
  cases x <;> simp [Content.follow, Content.after, Content.chars]

theorem Content.range_eq (a : Nat) (x : Content) : x.range a = x.after (lead a x.chars) (a + x.chars.length) := by
  cases x <;> simp [Content.range, Content.after, Content.chars]

theorem Content.closed_stops (x : Content) {r : List Nat} (hx : x.closed) (h : [60, 47] <+: r) : x.Stops r := by
  match x with
  | .nil _ => exact .inr (.inl h)
  | .openRef _ _ => exact hx.elim
  | .cons _ _ rest => exact Content.closed_stops rest hx h

theorem Content.length_eq (x : Content) : x.render.length = x.chars.length + x.body.length := by
  rw [Content.render_eq]; simp

theorem tokenRangeEqual_of {mem : Mem} {x y : Tok} (h : x.text mem = y.text mem) : XmlAttr.tokenRangeEqual mem x y = true :=
  (XmlAttr.tokenRangeEqual_iff mem x y).mpr h

section
variable {s s1 : St} {a last n : Nat} {parent : Bool} {out : List Nat} {calls : List Call} {r : List Nat} {h : Head}
  {attrs : List Attr} {openTag start : Tok}

/-- The end of an empty element in preorder mode. -/
theorem rest_empty {pre : Bool} (hA : At c.mem s (tag a last) pre out calls) {ws : List Nat} (hb : Blank ws)
    (hh : Here c.mem last a (ws ++ 47 :: 62 :: r)) :
    ∃ s1, elementRest c n openTag start true parent attrs s = (do
        let e ← contentCallback c n ⟨openTag.first, a + ws.length + 2⟩ start attrs .null parent
        return some e) s1 ∧ At c.mem s1 (pos (a + ws.length + 2) last) pre out calls := by
  obtain ⟨s1, h1, hA1⟩ := tok_yes hA hh (skips_cons hb (by unfold White; omega)) (Lexeme.slashClose r)
  refine ⟨s1, ?_, hA1⟩
  simp only [elementRest]
  rw [bind_eq, h1]
  simp

/-- The end of an element with content in preorder mode. -/
theorem rest_elem {ws : List Nat} {x : Content} {w1 w2 : List Nat} {nm : List Nat} {v : Tok} {q : Nat}
    (hA : At c.mem s (tag a last) true out calls) (hb : Blank ws)
    (hh : Here c.mem last a (ws ++ 62 :: (x.render ++ 60 :: 47 :: (w1 ++ (nm ++ (w2 ++ 62 :: r))))))
    (hb1 : Blank w1) (hb2 : Blank w2) (hn : IsName nm) (hstart : start.text c.mem = nm)
    (hq : q = a + ws.length + 1 + x.render.length + 2 + w1.length + nm.length + w2.length + 1)
    (hcont : ∀ s, At c.mem s (pos (a + ws.length + 1) last) true out calls →
      Run c.mem (isContent c n s) v (pos (a + ws.length + 1 + x.render.length) last) true out calls) :
    ∃ s1, elementRest c n openTag start true parent attrs s = (do
        let e ← contentCallback c n ⟨openTag.first, q⟩ start attrs v parent
        return some e) s1 ∧ At c.mem s1 (pos q last) true out calls := by
  have hsk := skips_cons (ws := ws) (d := 62) (r := (x.render ++ 60 :: 47 :: (w1 ++ (nm ++ (w2 ++ 62 :: r))))) hb (by unfold White; omega)
  obtain ⟨s1, h1, hA1⟩ := tok_no (k := .slashClose) hA hh hsk (Lexeme.closeTag _) (by simp)
  obtain ⟨s2, h2, hA2⟩ := req_yes hA1 hh hsk (Lexeme.closeTag _)
  simp only [nextLx] at hA2
  obtain ⟨s3, h3, hA3⟩ := hcont s2 hA2
  have hh2 : Here c.mem last (a + ws.length + 1) (x.render ++ 60 :: 47 :: (w1 ++ (nm ++ (w2 ++ 62 :: r)))) :=
    Here.drop (l1 := [62]) hh.drop
  obtain ⟨s4, h4, hA4⟩ := run_isETag hA3 hh2.drop hb1 hb2 hn
  subst hq
  refine ⟨s4, ?_, hA4⟩
  have htxt : (Tok.mk (a + ws.length + 1 + x.render.length + 2 + w1.length)
      (a + ws.length + 1 + x.render.length + 2 + w1.length + nm.length)).text c.mem = nm := by
    have := (Here.drop (l1 := [60, 47]) hh2.drop).drop.text
    exact this
  have hte := tokenRangeEqual_of (hstart.trans htxt.symm)
  simp only [elementRest]
  rw [bind_eq, h1]
  simp [bind_eq, pure_eq, h2, h3, h4, hte]

end

/-- From the items to all of the content. -/
theorem run_content {x : Content} {n1 : Nat} (hn1 : ∀ n, n1 ≤ n → ∀ {s a last r acc out calls},
    x.Stops r → Here c.mem last a (x.body ++ r) → At c.mem s (pos a last) true out calls →
    Run c.mem (contentLoop c n acc s) (x.after acc a) (pos (a + x.body.length) last) true out calls)
    (hx : x.Ok) {s : St} {a last n : Nat} {r out : List Nat} {calls : List Call} (hst : x.Stops r)
    (hh : Here c.mem last a (x.render ++ r)) (hA : At c.mem s (pos a last) true out calls) (hn : n1 + 1 ≤ n) :
    Run c.mem (isContent c n s) (x.range a) (pos (a + x.render.length) last) true out calls := by
  obtain ⟨m, rfl⟩ : ∃ m, n = m + 1 := ⟨n - 1, by omega⟩
  obtain ⟨s3, h3, hA3⟩ := isContent_step (n := m) hx hst hh hA
  rw [h3, Content.range_eq, Content.length_eq x, ← Nat.add_assoc]
  rw [Content.render_eq, List.append_assoc] at hh
  exact hn1 m (by omega) (acc := lead a x.chars) hst hh.drop hA3

mutual
theorem pre_item (c : Cfg) : ∀ (i : Item), i.Ok → i.head? ≠ none → ∃ n0, ∀ n, n0 ≤ n → ∀ {s a last b w ws r out calls},
    At c.mem s (lxAt a last b w) true out calls → Here c.mem last a (ws ++ (i.render ++ r)) → Skips w ws (i.render ++ r) →
    Run c.mem (isElement c n s) (some (i.entire (a + ws.length))) (pos (a + ws.length + i.render.length) last) true out calls
  | .ref _, _, h => (h rfl).elim
  | .comment _, _, h => (h rfl).elim
  | .empty h, ho, _ => by
    refine ⟨h.atts.length + 3, fun n hn => ?_⟩
    intro s a last b w ws r out calls hA hh hs
    obtain ⟨m, rfl⟩ : ∃ m, n = m + 2 := ⟨n - 2, by omega⟩
    have e : (Item.empty h).render ++ r = 60 :: (h.render ++ 47 :: 62 :: r) := by simp [Item.render]
    rw [e] at hh hs
    obtain ⟨s1, h1, hA1, hh1⟩ := run_open (n := m + 1) hA hh hs ho (.inr ⟨r, rfl⟩) (by omega)
    simp only [Bool.not_true, Bool.false_and, Bool.or_false] at h1 hA1
    obtain ⟨s2, h2, hA2⟩ := rest_empty (n := m + 1) (parent := false) (openTag := ⟨a + ws.length, a + ws.length + 1⟩)
      (start := h.nameTok (a + ws.length)) (attrs := h.attrs c.mem (a + ws.length)) hA1 ho.trail hh1
    rw [h1, h2]
    have hl : h.trail.length ≤ h.render.length := by simp [Head.render]; omega
    refine ⟨s2, ?_, hA2.tag ?_⟩
    · simp only [contentCallback, bind_eq]
      simp [pure_eq, Item.entire, Item.render]
      omega
    · simp [Item.render]; omega
  | .elem h x w1 w2, ho, _ => by
    obtain ⟨n1, hn1⟩ := pre_body c x ho.2.1
    refine ⟨h.atts.length + n1 + 4, fun n hn => ?_⟩
    intro s a last b w ws r out calls hA hh hs
    obtain ⟨m, rfl⟩ : ∃ m, n = m + 3 := ⟨n - 3, by omega⟩
    have e : (Item.elem h x w1 w2).render ++ r =
      60 :: (h.render ++ 62 :: (x.render ++ 60 :: 47 :: (w1 ++ (h.name ++ (w2 ++ 62 :: r))))) := by simp [Item.render]
    rw [e] at hh hs
    obtain ⟨s1, h1, hA1, hh1⟩ := run_open (n := m + 2) hA hh hs ho.1 (.inl ⟨_, rfl⟩) (by omega)
    simp only [Bool.not_true, Bool.false_and, Bool.or_false] at h1 hA1
    have hl : h.trail.length ≤ h.render.length := by simp [Head.render]; omega
    have hstart : (h.nameTok (a + ws.length)).text c.mem = h.name := by
      have : Here c.mem last (a + ws.length + 1) (h.lead ++ (h.name ++ (renderAtts h.atts ++ (h.trail ++
          62 :: (x.render ++ 60 :: 47 :: (w1 ++ (h.name ++ (w2 ++ 62 :: r)))))))) := by
        have := Here.drop (l1 := [60]) hh.drop
        simpa [Head.render] using this
      exact this.drop.text
    have hhx : Here c.mem last (a + ws.length + 1 + h.render.length - h.trail.length + h.trail.length + 1)
        (x.render ++ 60 :: 47 :: (w1 ++ (h.name ++ (w2 ++ 62 :: r)))) := Here.drop (l1 := [62]) hh1.drop
    have hst := Content.closed_stops x (r := 60 :: 47 :: (w1 ++ (h.name ++ (w2 ++ 62 :: r)))) ho.2.2.1 (by simp)
    obtain ⟨s2, h2, hA2⟩ := rest_elem (n := m + 2) (parent := false) (openTag := ⟨a + ws.length, a + ws.length + 1⟩)
      (start := h.nameTok (a + ws.length)) (attrs := h.attrs c.mem (a + ws.length)) (v := x.range (a + ws.length + 1 + h.render.length + 1))
      hA1 ho.1.trail hh1 ho.2.2.2.1 ho.2.2.2.2 ho.1.name hstart rfl (by
        intro s' hA'
        have e1 : a + ws.length + 1 + h.render.length - h.trail.length + h.trail.length + 1 = a + ws.length + 1 + h.render.length + 1 := by
          omega
        rw [e1] at hhx hA' ⊢
        exact run_content hn1 ho.2.1 hst hhx hA' (by omega))
    rw [h1, h2]
    refine ⟨s2, ?_, hA2.tag ?_⟩
    · simp only [contentCallback, bind_eq]
      simp [pure_eq, Item.entire, Item.render]
      omega
    · simp [Item.render]; omega

theorem pre_body (c : Cfg) : ∀ (x : Content), x.Ok → ∃ n0, ∀ n, n0 ≤ n → ∀ {s a last r acc out calls},
    x.Stops r → Here c.mem last a (x.body ++ r) → At c.mem s (pos a last) true out calls →
    Run c.mem (contentLoop c n acc s) (x.after acc a) (pos (a + x.body.length) last) true out calls
  | .nil t, _ => by
    refine ⟨2, fun n hn => ?_⟩
    intro s a last r acc out calls hs hh hA
    obtain ⟨m, rfl⟩ : ∃ m, n = m + 2 := ⟨n - 2, by omega⟩
    exact contentLoop_stop hA (stops_next hs hh).1
  | .openRef t body, ho => by
    refine ⟨4, fun n hn => ?_⟩
    intro s a last r acc out calls hs hh hA
    obtain ⟨m, rfl⟩ : ∃ m, n = m + 4 := ⟨n - 4, by omega⟩
    simp only [Content.Stops] at hs
    subst hs
    obtain ⟨s1, h1, hA1⟩ := contentLoop_ref (n := m + 3) (acc := acc) hA hh
      (by simpa [Content.body] using Lexeme.refOpen body ho.2) (by simp [Content.body])
    simp only [if_true] at h1 hA1
    rw [h1]
    have hnil : (Content.nil []).Stops [] := .inl rfl
    obtain ⟨s2, h2, hA2⟩ := contentTail_step (n := m + 2) (x := .nil []) (r := [])
      (acc := addPiece acc a (a + (Content.openRef t body).body.length)) (by simp [Content.Ok, IsChars]) hnil
      (by simpa [Content.render] using hh.drop) hA1
    simp only [if_true, Content.chars, List.length_nil, Nat.add_zero, addChars] at h2 hA2
    rw [h2]
    have := contentLoop_stop (n := m) (acc := addPiece acc a (a + (Content.openRef t body).body.length)) hA2
      (stops_next hnil (by simpa using hh.drop)).1
    simp only [Content.after]
    convert this using 2
    simp [Content.body]; omega
  | .cons t i rest, ho => by
    obtain ⟨n2, hn2⟩ := pre_body c rest ho.2.2
    have hrest : ∀ n, n2 + 1 ≤ n → ∀ {s a last r acc out calls}, rest.Stops r → Here c.mem last a (rest.render ++ r) →
        At c.mem s (pos a last) true out calls →
        Run c.mem (contentTail c n acc s) (rest.follow acc a) (pos (a + rest.render.length) last) true out calls := by
      intro n hn s a last r acc out calls hs hh hA
      obtain ⟨m, rfl⟩ : ∃ m, n = m + 1 := ⟨n - 1, by omega⟩
      obtain ⟨s1, h1, hA1⟩ := contentTail_step (n := m) (acc := acc) ho.2.2 hs hh hA
      rw [h1]
      rw [Content.render_eq, List.append_assoc] at hh
      have := hn2 m (by omega) (acc := addChars acc a (a + rest.chars.length)) hs hh.drop hA1
      rw [Content.follow_eq, Content.length_eq, ← Nat.add_assoc]
      exact this
    obtain ⟨n1, hn1⟩ : ∃ n1, i.head? ≠ none → ∀ n, n1 ≤ n → ∀ {s a last b w ws r out calls},
        At c.mem s (lxAt a last b w) true out calls → Here c.mem last a (ws ++ (i.render ++ r)) → Skips w ws (i.render ++ r) →
        Run c.mem (isElement c n s) (some (i.entire (a + ws.length))) (pos (a + ws.length + i.render.length) last) true out calls := by
      by_cases hd : i.head? ≠ none
      · obtain ⟨n1, hn1⟩ := pre_item c i ho.2.1 hd
        exact ⟨n1, fun _ => hn1⟩
      · exact ⟨0, fun h => absurd h hd⟩
    refine ⟨n1 + n2 + 3, fun n hn => ?_⟩
    intro s a last r acc out calls hs hh hA
    obtain ⟨m, rfl⟩ : ∃ m, n = m + 2 := ⟨n - 2, by omega⟩
    simp only [Content.body, List.append_assoc] at hh
    simp only [Content.after, Content.body, List.length_append, ← Nat.add_assoc]
    obtain ⟨k, sk, len, ad, hx, hk⟩ := item_lexeme ho.2.1 (rest.render ++ r)
    rcases hk with ⟨body, rfl, rfl, rfl, rfl, rfl⟩ | ⟨body, rfl, rfl, rfl, rfl, rfl⟩ | ⟨hd, rfl⟩
    · obtain ⟨s1, h1, hA1⟩ := contentLoop_ref (n := m + 1) (acc := acc) hA hh hx rfl
      simp only [if_true] at h1 hA1
      rw [h1]
      simp only [addItem, Item.isComment]
      exact hrest (m + 1) (by omega) hs hh.drop hA1
    · obtain ⟨s1, h1, hA1⟩ := contentLoop_comment (n := m) (acc := acc) hA hh hx rfl
      rw [h1]
      simp only [addItem, Item.isComment]
      exact hrest (m + 1) (by omega) hs hh.drop hA1
    · have hsz : (i.entire a).size ≠ 0 := by
        simp only [Item.entire, Tok.size]
        have : i.render ≠ [] := by cases i <;> simp [Item.render]
        have : i.render.length ≠ 0 := by simpa using this
        omega
      obtain ⟨s1, h1, hA1⟩ := contentLoop_elem (n := m + 1) (acc := acc) (e := i.entire a) hA hh ho.2.1 hd (fun s' hA' => by
        have := hn1 hd (m + 1) (by omega) (ws := []) hA' hh (skips_none _)
        exact this)
      rw [if_pos hsz] at h1
      simp only [if_true] at h1
      rw [h1]
      have hcm : i.isComment = false := by cases i <;> simp_all [Item.isComment, Item.head?]
      simp only [addItem, hcm]
      have := hrest (m + 1) (by omega) (acc := addPiece acc a (a + i.render.length)) hs hh.drop hA1
      exact this
end

end Verif.Xml
