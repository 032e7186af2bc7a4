import Verif.Xml.Pre
/-! Every text of the specification is parsed, with the effects of the specification. -/
namespace Verif.Xml
open Verif.Xml.Spec
open Verif.XmlAttr (Mem Tok Attr)

variable {c : Cfg}

theorem Head.trail_le (h : Head) : h.trail.length ≤ h.render.length := by simp [Head.render]; omega

theorem Head.name_text {mem : Mem} {a last : Nat} {h : Head} {l : List Nat} (hh : Here mem last a (60 :: (h.render ++ l))) :
    (h.nameTok a).text mem = h.name := by
  have : Here mem last (a + 1) (h.lead ++ (h.name ++ (renderAtts h.atts ++ (h.trail ++ l)))) := by
    have := Here.drop (l1 := [60]) hh
    simpa [Head.render] using this
  exact this.drop.text

/-- An outermost preorder element, up to its callback. -/
theorem run_parent (i : Item) (hi : i.Ok) {h : Head} (hd : i.head? = some h) : ∃ n0, ∀ n, n0 ≤ n →
    ∀ {s a last b w ws r out calls}, At c.mem s (lxAt a last b w) false out calls → Here c.mem last a (ws ++ (i.render ++ r)) →
    Skips w ws (i.render ++ r) → c.pred (h.nameTok (a + ws.length)) = true →
    ∃ s1, isElement c (n + 1) s = (do
        let e ← contentCallback c n (i.entire (a + ws.length)) (h.nameTok (a + ws.length)) (h.attrs c.mem (a + ws.length))
          (i.value (a + ws.length)) true
        return some e) s1 ∧
      At c.mem s1 (pos (a + ws.length + i.render.length) last) true out calls := by
  cases i with
  | ref _ => simp [Item.head?] at hd
  | comment _ => simp [Item.head?] at hd
  | empty h' =>
    simp only [Item.head?, Option.some.injEq] at hd
    subst hd
    refine ⟨h'.atts.length + 1, fun n hn => ?_⟩
    intro s a last b w ws r out calls hA hh hs hp
    have e : (Item.empty h').render ++ r = 60 :: (h'.render ++ 47 :: 62 :: r) := by simp [Item.render]
    rw [e] at hh hs
    obtain ⟨s1, h1, hA1, hh1⟩ := run_open (n := n) hA hh hs hi (.inr ⟨r, rfl⟩) (by omega)
    simp only [hp, Bool.not_false, Bool.and_self, Bool.or_true] at h1 hA1
    obtain ⟨s2, h2, hA2⟩ := rest_empty (n := n) (parent := true) (openTag := ⟨a + ws.length, a + ws.length + 1⟩)
      (start := h'.nameTok (a + ws.length)) (attrs := h'.attrs c.mem (a + ws.length)) hA1 hi.trail hh1
    have hl := Head.trail_le h'
    have eq : a + ws.length + 1 + h'.render.length - h'.trail.length + h'.trail.length + 2 =
        a + ws.length + (Item.empty h').render.length := by simp [Item.render]; omega
    rw [eq] at h2 hA2
    exact ⟨s2, by rw [h1, h2]; rfl, hA2⟩
  | elem h' x w1 w2 =>
    simp only [Item.head?, Option.some.injEq] at hd
    subst hd
    obtain ⟨n1, hn1⟩ := pre_body c x hi.2.1
    refine ⟨h'.atts.length + n1 + 2, fun n hn => ?_⟩
    intro s a last b w ws r out calls hA hh hs hp
    have e : (Item.elem h' x w1 w2).render ++ r =
      60 :: (h'.render ++ 62 :: (x.render ++ 60 :: 47 :: (w1 ++ (h'.name ++ (w2 ++ 62 :: r))))) := by simp [Item.render]
    rw [e] at hh hs
    obtain ⟨s1, h1, hA1, hh1⟩ := run_open (n := n) hA hh hs hi.1 (.inl ⟨_, rfl⟩) (by omega)
    simp only [hp, Bool.not_false, Bool.and_self, Bool.or_true] at h1 hA1
    have hl := Head.trail_le h'
    have hhx : Here c.mem last (a + ws.length + 1 + h'.render.length - h'.trail.length + h'.trail.length + 1)
        (x.render ++ 60 :: 47 :: (w1 ++ (h'.name ++ (w2 ++ 62 :: r)))) := Here.drop (l1 := [62]) hh1.drop
    have hst := Content.closed_stops x (r := 60 :: 47 :: (w1 ++ (h'.name ++ (w2 ++ 62 :: r)))) hi.2.2.1 (by simp)
    obtain ⟨s2, h2, hA2⟩ := rest_elem (n := n) (parent := true) (openTag := ⟨a + ws.length, a + ws.length + 1⟩)
      (start := h'.nameTok (a + ws.length)) (attrs := h'.attrs c.mem (a + ws.length)) (v := x.range (a + ws.length + 1 + h'.render.length + 1))
      hA1 hi.1.trail hh1 hi.2.2.2.1 hi.2.2.2.2 hi.1.name (Head.name_text hh.drop) rfl (by
        intro s' hA'
        have e1 : a + ws.length + 1 + h'.render.length - h'.trail.length + h'.trail.length + 1 = a + ws.length + 1 + h'.render.length + 1 := by
          omega
        rw [e1] at hhx hA' ⊢
        exact run_content hn1 hi.2.1 hst hhx hA' (by omega))
    have eq : a + ws.length + 1 + h'.render.length - h'.trail.length + h'.trail.length + 1 + x.render.length + 2 + w1.length +
        h'.name.length + w2.length + 1 = a + ws.length + (Item.elem h' x w1 w2).render.length := by simp [Item.render]; omega
    rw [eq] at h2 hA2
    exact ⟨s2, by rw [h1, h2]; rfl, hA2⟩

/-- What is to be proved of an item. -/
def ItemRun (c : Cfg) (a : Nat) (i : Item) (cs : List Call) (o : List Nat) (cs' : List Call) : Prop :=
  i.Ok → (∀ body, i = .ref body → o = refText c.byName body ∧ cs' = cs) ∧ (∀ body, i = .comment body → o = [] ∧ cs' = cs) ∧
    (i.head? ≠ none → ∃ n0, ∀ n, n0 ≤ n → ∀ {s p last b w ws r out}, a = p + ws.length →
      At c.mem s (lxAt p last b w) false out cs → Here c.mem last p (ws ++ (i.render ++ r)) → Skips w ws (i.render ++ r) →
      Next c.mem (pos (a + i.render.length) last) (fun _ => True) →
      Run c.mem (isElement c n s) (some .null) (pos (a + i.render.length) last) false (out ++ o) cs')

/-- What is to be proved of content. -/
def ContentRun (c : Cfg) (a : Nat) (x : Content) (cs : List Call) (o : List Nat) (cs' : List Call) : Prop :=
  x.Ok → ∃ o', o = x.chars ++ o' ∧ ∃ n0, ∀ n, n0 ≤ n → ∀ {s last r out}, x.Stops r →
    Here c.mem last (a + x.chars.length) (x.body ++ r) → At c.mem s (pos (a + x.chars.length) last) false out cs →
    Run c.mem (contentLoop c n .null s) .null (pos (a + x.render.length) last) false (out ++ o') cs'

theorem ContentRun.content {a : Nat} {x : Content} {cs : List Call} {o : List Nat} {cs' : List Call}
    (h : ContentRun c a x cs o cs') (hx : x.Ok) : ∃ n0, ∀ n, n0 ≤ n → ∀ {s last r out}, x.Stops r →
      Here c.mem last a (x.render ++ r) → At c.mem s (pos a last) false out cs →
      Run c.mem (isContent c n s) .null (pos (a + x.render.length) last) false (out ++ o) cs' := by
  obtain ⟨o', rfl, n0, h0⟩ := h hx
  refine ⟨n0 + 1, fun n hn => ?_⟩
  intro s last r out hs hh hA
  obtain ⟨m, rfl⟩ : ∃ m, n = m + 1 := ⟨n - 1, by omega⟩
  obtain ⟨s1, h1, hA1⟩ := isContent_step (n := m) hx hs hh hA
  rw [Content.render_eq, List.append_assoc] at hh
  simp only [Bool.false_eq_true, if_false] at h1 hA1
  rw [h1, ← List.append_assoc]
  exact h0 m (by omega) hs hh.drop hA1

theorem ContentRun.tail {a : Nat} {x : Content} {cs : List Call} {o : List Nat} {cs' : List Call}
    (h : ContentRun c a x cs o cs') (hx : x.Ok) : ∃ n0, ∀ n, n0 ≤ n → ∀ {s last r out}, x.Stops r →
      Here c.mem last a (x.render ++ r) → At c.mem s (pos a last) false out cs →
      Run c.mem (contentTail c n .null s) .null (pos (a + x.render.length) last) false (out ++ o) cs' := by
  obtain ⟨o', rfl, n0, h0⟩ := h hx
  refine ⟨n0 + 1, fun n hn => ?_⟩
  intro s last r out hs hh hA
  obtain ⟨m, rfl⟩ : ∃ m, n = m + 1 := ⟨n - 1, by omega⟩
  obtain ⟨s1, h1, hA1⟩ := contentTail_step (n := m) (acc := .null) hx hs hh hA
  rw [Content.render_eq, List.append_assoc] at hh
  simp only [Bool.false_eq_true, if_false] at h1 hA1
  rw [h1, ← List.append_assoc]
  exact h0 m (by omega) hs hh.drop hA1

theorem null_size : Tok.null.size = 0 := rfl
theorem null_text (mem : Mem) : Tok.null.text mem = [] := rfl

/-- `parse_content` of a new parser. -/
theorem ContentRun.parse {a last : Nat} {x : Content} {cs : List Call} {o : List Nat} {cs' : List Call}
    (h : ContentRun c a x cs o cs') (hx : x.Ok) {r : List Nat} (hs : x.Stops r) (hh : Here c.mem last a (x.render ++ r)) :
    ∃ n0, ∀ n, n0 ≤ n → ∀ {s : St}, s.lx = Lx.new ⟨a, last⟩ → s.preorder = false → s.calls = cs →
      Run c.mem (parseContent c n s) () (pos (a + x.render.length) last) false (s.out ++ o) cs' := by
  obtain ⟨n0, h0⟩ := h.content hx
  refine ⟨n0 + 2, fun n hn => ?_⟩
  intro s h1 h2 h3
  obtain ⟨m, rfl⟩ : ∃ m, n = m + 2 := ⟨n - 2, by omega⟩
  have hA : At c.mem { s with lx := { s.lx with skipWhite := false } } (pos a last) false s.out cs := by
    refine ⟨?_, h2, rfl, h3⟩
    unfold Same pos lxAt
    rw [← getToken_cur _ _ ⟨.eof, .null⟩]
    simp [h1, Lx.new]
  obtain ⟨s1, e1, hA1⟩ := h0 m (by omega) hs hh hA
  refine ⟨s1, ?_, hA1⟩
  simp only [parseContent, parseContentLoop, bind_eq, lex, e1, null_size]
  simp [pure_eq]

theorem itemRun_same {a : Nat} {i : Item} {h : Head} {cs : List Call} (hd : i.head? = some h)
    (hp : c.pred (h.nameTok a) = true) (hc : c.callback cs (i.call c.mem a h) = some (i.entire a)) :
    ItemRun c a i cs i.render (cs ++ [i.call c.mem a h]) := by
  intro hi
  refine ⟨by rintro body rfl; simp [Item.head?] at hd, by rintro body rfl; simp [Item.head?] at hd, fun _ => ?_⟩
  obtain ⟨n0, h0⟩ := run_parent (c := c) i hi hd
  refine ⟨n0 + 2, fun n hn => ?_⟩
  intro s p last b w ws r out ha hA hh hs hnext
  subst ha
  obtain ⟨m, rfl⟩ : ∃ m, n = m + 2 := ⟨n - 2, by omega⟩
  obtain ⟨s1, h1, hA1⟩ := h0 (m + 1) (by omega) hA hh hs hp
  rw [h1]
  refine ⟨{ s1 with out := s1.out ++ i.render, calls := s1.calls ++ [i.call c.mem (p + ws.length) h], preorder := false }, ?_,
    ⟨hA1.lx, rfl, by simp [hA1.out], by simp [hA1.calls]⟩⟩
  have ht : (i.entire (p + ws.length)).text c.mem = i.render := hh.drop.text
  have hc' : c.callback s1.calls ⟨i.entire (p + ws.length), h.nameTok (p + ws.length), h.attrs c.mem (p + ws.length),
      i.value (p + ws.length)⟩ = some (i.entire (p + ws.length)) := by rw [hA1.calls]; exact hc
  simp only [contentCallback, bind_eq, if_true, call, hc', output, ht, setPreorder, pure_eq]
  rfl

theorem itemRun_replaced {a : Nat} {i : Item} {h : Head} {cs cs' : List Call} {t : Tok} {new : Content} {rest o : List Nat}
    (hd : i.head? = some h) (hp : c.pred (h.nameTok a) = true) (hc : c.callback cs (i.call c.mem a h) = some t)
    (hne : t ≠ i.entire a) (hle : t.first ≤ t.second) (ht : t.text c.mem = new.render ++ rest) (hok : new.Ok)
    (hst : new.Stops rest) (hr : ContentRun c t.first new (cs ++ [i.call c.mem a h]) o cs') : ItemRun c a i cs o cs' := by
  intro hi
  refine ⟨by rintro body rfl; simp [Item.head?] at hd, by rintro body rfl; simp [Item.head?] at hd, fun _ => ?_⟩
  obtain ⟨n0, h0⟩ := run_parent (c := c) i hi hd
  obtain ⟨n1, h1⟩ := hr.parse (last := t.second) hok hst (ht ▸ here_of_le c.mem hle)
  refine ⟨n0 + n1 + 2, fun n hn => ?_⟩
  intro s p last b w ws r out ha hA hh hs hnext
  subst ha
  obtain ⟨m, rfl⟩ : ∃ m, n = m + 2 := ⟨n - 2, by omega⟩
  obtain ⟨s1, e1, hA1⟩ := h0 (m + 1) (by omega) hA hh hs hp
  rw [e1]
  have hA2 : At c.mem { s1 with calls := s1.calls ++ [i.call c.mem (p + ws.length) h] } (pos (p + ws.length + i.render.length) last)
    true out (cs ++ [i.call c.mem (p + ws.length) h]) := ⟨hA1.lx, hA1.pre, hA1.out, by simp [hA1.calls]⟩
  obtain ⟨tk, L', hg, _⟩ := hnext
  obtain ⟨s3, e3, hA3⟩ := run_nextPosition hA2 hg
  obtain ⟨s4, e4, hA4⟩ := h1 m (by omega) (s := { s3 with lx := Lx.new t, preorder := false }) rfl rfl hA3.calls
  have hA4o : s4.out = out ++ o := by rw [hA4.out, ← hA3.out]
  refine ⟨{ s4 with lx := s3.lx, preorder := false }, ?_, ⟨hA3.lx, rfl, hA4o, hA4.calls⟩⟩
  have hc' : c.callback s1.calls ⟨i.entire (p + ws.length), h.nameTok (p + ws.length), h.attrs c.mem (p + ws.length),
      i.value (p + ws.length)⟩ = some t := by rw [hA1.calls]; exact hc
  simp only [Item.call] at e3
  simp only [contentCallback, bind_eq, if_true, call, hc', if_neg hne.symm, e3, subParse, e4, setPreorder, pure_eq]

theorem endEcho_text {mem : Mem} {q last : Nat} {w1 nm w2 r : List Nat}
    (hh : Here mem last q (60 :: 47 :: (w1 ++ (nm ++ (w2 ++ 62 :: r))))) :
    (Tok.mk (q + 2 + w1.length - 2) (q + 2 + w1.length + nm.length + 1)).text mem = endEcho w1 nm w2 := by
  obtain ⟨d, w3, hd⟩ : ∃ d w3, w2 ++ 62 :: r = d :: w3 ∧ [d] = (w2 ++ [62]).take 1 := by
    cases w2 with
    | nil => exact ⟨62, r, rfl, rfl⟩
    | cons x xs => exact ⟨x, xs ++ 62 :: r, rfl, rfl⟩
  have e : (60 :: 47 :: (w1 ++ (nm ++ (w2 ++ 62 :: r)))) =
      (60 :: 47 :: w1).take w1.length ++ ((60 :: 47 :: w1).drop w1.length ++ (nm ++ [d]) ++ w3) := by
    rw [hd.1]
    have : (60 :: 47 :: (w1 ++ (nm ++ d :: w3))) = (60 :: 47 :: w1) ++ ((nm ++ [d]) ++ w3) := by simp
    rw [this]
    conv => lhs; lhs; rw [← List.take_append_drop w1.length (60 :: 47 :: w1)]
    simp only [List.append_assoc]
  rw [e] at hh
  have := hh.drop.text
  have h1 : (List.take w1.length (60 :: 47 :: w1)).length = w1.length := by simp; omega
  rw [h1] at this
  have h2 : ((60 :: 47 :: w1).drop w1.length ++ (nm ++ [d])).length = 2 + nm.length + 1 := by
    simp only [List.length_append, List.length_drop, List.length_cons, List.length_nil]; omega
  rw [h2] at this
  unfold endEcho
  rw [← hd.2, ← this]
  congr 2 <;> omega

theorem itemRun_empty {a : Nat} {h : Head} {cs : List Call} {t : Tok} (hp : c.pred (h.nameTok a) = false)
    (hc : c.callback cs ((Item.empty h).call c.mem a h) = some t) :
    ItemRun c a (.empty h) cs (t.text c.mem) (cs ++ [(Item.empty h).call c.mem a h]) := by
  intro ho
  refine ⟨by simp, by simp, fun _ => ⟨h.atts.length + 2, fun n hn => ?_⟩⟩
  intro s p last b w ws r out ha hA hh hs hnext
  subst ha
  obtain ⟨m, rfl⟩ : ∃ m, n = m + 1 := ⟨n - 1, by omega⟩
  have e : (Item.empty h).render ++ r = 60 :: (h.render ++ 47 :: 62 :: r) := by simp [Item.render]
  rw [e] at hh hs
  obtain ⟨s1, h1, hA1, hh1⟩ := run_open (n := m) hA hh hs ho (.inr ⟨r, rfl⟩) (by omega)
  simp only [hp, Bool.not_false, Bool.and_false, Bool.or_false] at h1 hA1
  obtain ⟨s2, h2, hA2⟩ := tok_yes hA1 hh1 (skips_cons ho.trail (by unfold White; omega)) (Lexeme.slashClose r)
  have hl := Head.trail_le h
  have eq : p + ws.length + 1 + h.render.length - h.trail.length + h.trail.length + 2 =
        p + ws.length + (Item.empty h).render.length := by simp [Item.render]; omega
  simp only [nextLx, eq] at hA2
  simp only [Nat.add_zero, eq] at h2
  rw [h1]
  refine ⟨{ s2 with out := s2.out ++ t.text c.mem, calls := s2.calls ++ [(Item.empty h).call c.mem (p + ws.length) h] }, ?_,
    ⟨hA2.lx, hA2.pre, by simp [hA2.out], by simp [hA2.calls]⟩⟩
  have hc' : c.callback s2.calls ⟨⟨p + ws.length, p + ws.length + (Item.empty h).render.length⟩, h.nameTok (p + ws.length),
    h.attrs c.mem (p + ws.length), .null⟩ = some t := by rw [hA2.calls]; exact hc
  simp only [elementRest]
  rw [bind_eq, h2]
  simp [bind_eq, call, hc', output, pure_eq, Item.call, Item.entire, Item.value]

theorem itemRun_elem {a : Nat} {h : Head} {x : Content} {w1 w2 : List Nat} {cs cs' : List Call} {o : List Nat}
    (hp : c.pred (h.nameTok a) = false) (hr : ContentRun c (a + 1 + h.render.length + 1) x cs o cs') :
    ItemRun c a (.elem h x w1 w2) cs (60 :: (h.render ++ 62 :: (o ++ endEcho w1 h.name w2))) cs' := by
  intro ho
  obtain ⟨n1, hn1⟩ := hr.content ho.2.1
  refine ⟨by simp, by simp, fun _ => ⟨h.atts.length + n1 + 3, fun n hn => ?_⟩⟩
  intro s p last b w ws r out ha hA hh hs hnext
  subst ha
  obtain ⟨m, rfl⟩ : ∃ m, n = m + 1 := ⟨n - 1, by omega⟩
  have e : (Item.elem h x w1 w2).render ++ r =
      60 :: (h.render ++ 62 :: (x.render ++ 60 :: 47 :: (w1 ++ (h.name ++ (w2 ++ 62 :: r))))) := by simp [Item.render]
  rw [e] at hh hs
  obtain ⟨s1, h1, hA1, hh1⟩ := run_open (n := m) hA hh hs ho.1 (.inl ⟨_, rfl⟩) (by omega)
  simp only [hp, Bool.not_false, Bool.and_false, Bool.or_false] at h1 hA1
  have hl := Head.trail_le h
  have hsk := skips_cons (ws := h.trail) (d := 62) (r := (x.render ++ 60 :: 47 :: (w1 ++ (h.name ++ (w2 ++ 62 :: r)))))
    ho.1.trail (by unfold White; omega)
  obtain ⟨s2, h2, hA2⟩ := tok_no (k := .slashClose) hA1 hh1 hsk (Lexeme.closeTag _) (by simp)
  obtain ⟨s3, h3, hA3⟩ := req_yes hA2 hh1 hsk (Lexeme.closeTag _)
  have eq : p + ws.length + 1 + h.render.length - h.trail.length + h.trail.length + 1 = p + ws.length + 1 + h.render.length + 1 := by
    omega
  have hhx : Here c.mem last (p + ws.length + 1 + h.render.length - h.trail.length + h.trail.length + 1)
        (x.render ++ 60 :: 47 :: (w1 ++ (h.name ++ (w2 ++ 62 :: r)))) := Here.drop (l1 := [62]) hh1.drop
  simp only [nextLx] at hA3
  rw [eq] at hA3 hhx
  simp only [Nat.add_zero, eq] at h3
  have ht : (Tok.mk (p + ws.length) (p + ws.length + 1 + h.render.length + 1)).text c.mem = 60 :: (h.render ++ [62]) := by
    have h0 : Here c.mem last (p + ws.length) ((60 :: (h.render ++ [62])) ++
      (x.render ++ 60 :: 47 :: (w1 ++ (h.name ++ (w2 ++ 62 :: r))))) := by simpa using hh.drop
    have := h0.text
    rw [← this]
    congr 2
    simp; omega
  have hst := Content.closed_stops x (r := 60 :: 47 :: (w1 ++ (h.name ++ (w2 ++ 62 :: r)))) ho.2.2.1 (by simp)
  have hA3' : At c.mem { s3 with out := s3.out ++ (60 :: (h.render ++ [62])) } (pos (p + ws.length + 1 + h.render.length + 1) last)
    false (out ++ (60 :: (h.render ++ [62]))) cs := ⟨hA3.lx, hA3.pre, by simp [hA3.out], hA3.calls⟩
  obtain ⟨s4, h4, hA4⟩ := hn1 m (by omega) hst hhx hA3'
  obtain ⟨s5, h5, hA5⟩ := run_isETag hA4 hhx.drop ho.2.2.2.1 ho.2.2.2.2 ho.1.name
  have hte := tokenRangeEqual_of ((Head.name_text hh.drop).trans
    (Here.drop (l1 := [60, 47]) hhx.drop).drop.text.symm)
  have hecho := endEcho_text hhx.drop
  rw [h1]
  refine ⟨{ s5 with out := s5.out ++ endEcho w1 h.name w2 }, ?_, ⟨?_, hA5.pre, by simp [hA5.out], hA5.calls⟩⟩
  · simp only [elementRest]
    rw [bind_eq, h2]
    simp only [bind_eq, h3, Bool.not_false, if_true, output, ht, h4, h5]
    simp only [List.length_cons, List.length_nil, Nat.zero_add, Nat.reduceAdd] at hte
    simp [hte, bind_eq, output, pure_eq, null_text, hecho]
  · refine (hA5.tag ?_).lx
    simp [Item.render]; omega

theorem contentRun_nil {a : Nat} {t : List Nat} {cs : List Call} : ContentRun c a (.nil t) cs t cs := by
  intro _
  refine ⟨[], by simp [Content.chars], 2, fun n hn => ?_⟩
  intro s last r out hs hh hA
  obtain ⟨m, rfl⟩ : ∃ m, n = m + 2 := ⟨n - 2, by omega⟩
  rw [List.append_nil]
  exact contentLoop_stop hA (stops_next hs hh).1

theorem contentRun_openRef {a : Nat} {t body : List Nat} {cs : List Call} :
    ContentRun c a (.openRef t body) cs (t ++ openRefText c.byName body) cs := by
  intro ho
  refine ⟨openRefText c.byName body, by simp [Content.chars], 4, fun n hn => ?_⟩
  intro s last r out hs hh hA
  obtain ⟨m, rfl⟩ : ∃ m, n = m + 4 := ⟨n - 4, by omega⟩
  simp only [Content.Stops] at hs
  subst hs
  obtain ⟨s1, h1, hA1⟩ := contentLoop_ref (n := m + 3) (acc := .null) hA hh
      (by simpa [Content.body] using Lexeme.refOpen body ho.2) (by simp [Content.body])
  simp only [Bool.false_eq_true, if_false] at h1 hA1
  rw [h1]
  have hnil : (Content.nil []).Stops [] := .inl rfl
  obtain ⟨s2, h2, hA2⟩ := contentTail_step (n := m + 2) (x := .nil []) (r := []) (acc := .null)
    (by simp [Content.Ok, IsChars]) hnil (by simpa [Content.render] using hh.drop) hA1
  simp only [Bool.false_eq_true, if_false, Content.chars, List.length_nil, Nat.add_zero, List.append_nil] at h2 hA2
  rw [h2]
  have := contentLoop_stop (n := m) (acc := .null) hA2 (stops_next hnil (by simpa [Content.chars] using hh.drop)).1
  have e : transformReference c (Content.openRef t body).body = openRefText c.byName body := transformReference_open body
  rw [e] at this
  have e2 : a + t.length + (Content.openRef t body).body.length = a + (Content.openRef t body).render.length := by
    simp [Content.body, Content.render]; omega
  rw [e2] at this
  exact this

theorem contentRun_cons {a : Nat} {t : List Nat} {i : Item} {rest : Content} {cs cs' cs'' : List Call} {o o' : List Nat}
    (h1 : ItemRun c (a + t.length) i cs o cs') (h2 : ContentRun c (a + t.length + i.render.length) rest cs' o' cs'') :
    ContentRun c a (.cons t i rest) cs (t ++ (o ++ o')) cs'' := by
  intro ho
  obtain ⟨hi1, hi2, hi3⟩ := h1 ho.2.1
  obtain ⟨n2, hn2⟩ := h2.tail ho.2.2
  obtain ⟨n1, hn1⟩ : ∃ n1, i.head? ≠ none → ∀ n, n1 ≤ n → ∀ {s p last b w ws r out}, a + t.length = p + ws.length →
      At c.mem s (lxAt p last b w) false out cs → Here c.mem last p (ws ++ (i.render ++ r)) → Skips w ws (i.render ++ r) →
      Next c.mem (pos (a + t.length + i.render.length) last) (fun _ => True) →
      Run c.mem (isElement c n s) (some .null) (pos (a + t.length + i.render.length) last) false (out ++ o) cs' := by
    by_cases hd : i.head? ≠ none
    · obtain ⟨n1, hn1⟩ := hi3 hd
      exact ⟨n1, fun _ => hn1⟩
    · exact ⟨0, fun h => absurd h hd⟩
  refine ⟨o ++ o', by simp [Content.chars], n1 + n2 + 3, fun n hn => ?_⟩
  intro s last r out hs hh hA
  obtain ⟨m, rfl⟩ : ∃ m, n = m + 2 := ⟨n - 2, by omega⟩
  simp only [Content.body, List.append_assoc, Content.chars] at hh hA
  have er : a + (Content.cons t i rest).render.length = a + t.length + i.render.length + rest.render.length := by
    simp [Content.render]; omega
  rw [er]
  have hs' : rest.Stops r := hs
  obtain ⟨k, sk, len, ad, hx, hk⟩ := item_lexeme ho.2.1 (rest.render ++ r)
  rcases hk with ⟨body, rfl, rfl, rfl, rfl, rfl⟩ | ⟨body, rfl, rfl, rfl, rfl, rfl⟩ | ⟨hd, rfl⟩
  · obtain ⟨s1, e1, hA1⟩ := contentLoop_ref (n := m + 1) (acc := .null) hA hh hx rfl
    simp only [Bool.false_eq_true, if_false] at e1 hA1
    obtain ⟨rfl, rfl⟩ := hi1 body rfl
    have e : transformReference c (Item.ref body).render = refText c.byName body := transformReference_ref body
    rw [e] at hA1
    rw [e1, ← List.append_assoc]
    exact hn2 (m + 1) (by omega) hs' hh.drop hA1
  · obtain ⟨s1, e1, hA1⟩ := contentLoop_comment (n := m) (acc := .null) hA hh hx rfl
    obtain ⟨rfl, rfl⟩ := hi2 body rfl
    rw [e1]
    exact hn2 (m + 1) (by omega) hs' hh.drop hA1
  · obtain ⟨s1, e1, hA1⟩ := contentLoop_elem (n := m + 1) (acc := .null) (e := .null) hA hh ho.2.1 hd (fun s' hA' =>
      hn1 hd (m + 1) (by omega) (ws := []) (by simp) hA' hh (skips_none _) (content_next ho.2.2 hs' hh.drop))
    rw [if_neg (by simp [null_size])] at e1
    rw [e1, ← List.append_assoc]
    exact hn2 (m + 1) (by omega) hs' hh.drop hA1

theorem itemSem_run {a : Nat} {i : Item} {cs cs' : List Call} {o : List Nat} (h : ItemSem c a i cs o cs') :
    ItemRun c a i cs o cs' := by
  refine ItemSem.rec (motive_1 := fun a i cs o cs' _ => ItemRun c a i cs o cs')
    (motive_2 := fun a x cs o cs' _ => ContentRun c a x cs o cs') ?_ ?_ ?_ ?_ ?_ ?_ ?_ ?_ ?_ h
  · intro a body cs _; exact ⟨by rintro b ⟨⟩; exact ⟨rfl, rfl⟩, by simp, by simp [Item.head?]⟩
  · intro a body cs _; exact ⟨by simp, by simp, by simp [Item.head?]⟩
  · intro a h cs r hp hc; exact itemRun_empty hp hc
  · intro a h x w1 w2 cs o cs' hp _ ih; exact itemRun_elem hp ih
  · intro a i h cs hd hp hc; exact itemRun_same hd hp hc
  · intro a i h cs r new rest o cs' hd hp hc hne hle ht hok hst _ ih; exact itemRun_replaced hd hp hc hne hle ht hok hst ih
  · intro a t cs; exact contentRun_nil
  · intro a t body cs; exact contentRun_openRef
  · intro a t i rest cs o cs' o' cs'' _ _ h1 h2; exact contentRun_cons h1 h2

theorem contentSem_run {a : Nat} {x : Content} {cs cs' : List Call} {o : List Nat} (h : ContentSem c a x cs o cs') :
    ContentRun c a x cs o cs' := by
  refine ContentSem.rec (motive_1 := fun a i cs o cs' _ => ItemRun c a i cs o cs')
    (motive_2 := fun a x cs o cs' _ => ContentRun c a x cs o cs') ?_ ?_ ?_ ?_ ?_ ?_ ?_ ?_ ?_ h
  · intro a body cs _; exact ⟨by rintro b ⟨⟩; exact ⟨rfl, rfl⟩, by simp, by simp [Item.head?]⟩
  · intro a body cs _; exact ⟨by simp, by simp, by simp [Item.head?]⟩
  · intro a h cs r hp hc; exact itemRun_empty hp hc
  · intro a h x w1 w2 cs o cs' hp _ ih; exact itemRun_elem hp ih
  · intro a i h cs hd hp hc; exact itemRun_same hd hp hc
  · intro a i h cs r new rest o cs' hd hp hc hne hle ht hok hst _ ih; exact itemRun_replaced hd hp hc hne hle ht hok hst ih
  · intro a t cs; exact contentRun_nil
  · intro a t body cs; exact contentRun_openRef
  · intro a t i rest cs o cs' o' cs'' _ _ h1 h2; exact contentRun_cons h1 h2

end Verif.Xml
