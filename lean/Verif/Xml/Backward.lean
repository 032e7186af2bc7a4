import Verif.Xml.Forward
/-! Everything that is parsed is a text of the specification, with the effects of the specification. -/
namespace Verif.Xml
open Verif.Xml.Spec
open Verif.XmlAttr (Mem Tok Attr)

variable {c : Cfg}

theorem get_past {mem : Mem} {a last : Nat} {b w : Bool} (h : last < a) : getToken mem (lxAt a last b w) = .ub := by
  simp [getToken, lxAt, h]

theorem isAttribute_inv {s s' : St} {a last : Nat} {pre : Bool} {out : List Nat} {calls : List Call} {l : List Nat}
    {v : Option Attr} (hA : At c.mem s (tag a last) pre out calls) (hh : Here c.mem last a l) (hr : isAttribute c s = .ok v s') :
    (v = none ∧ At c.mem s' (tag a last) pre out calls) ∨
    (∃ x r, l = x.render ++ r ∧ Att.Ok x ∧ v = some (⟨a + x.before.length, a + x.before.length + x.name.length⟩,
        ⟨a + x.before.length + x.name.length + x.mid.length + 1 + x.after.length + 1,
         a + x.before.length + x.name.length + x.mid.length + 1 + x.after.length + 1 + x.value.length⟩) ∧
      At c.mem s' (tag (a + x.render.length) last) pre out calls) ∨
    (v ≠ none ∧ At c.mem s' (tag (last + 1) last) pre out calls ∧ ∃ pre t v, l = pre ++ t :: v ∧ Quote t ∧ IsValue t v) := by
  unfold isAttribute at hr
  obtain ⟨v1, s1, h1, hr⟩ := bind_ok hr
  rcases tok_inv hA hh h1 with ⟨rfl, hA1, _⟩ | ⟨h, _⟩ | ⟨ws, l', sk, n, ad, rfl, hs, hx, rfl, hA1⟩
  · obtain ⟨rfl, rfl⟩ := pure_ok hr
    exact .inl ⟨rfl, hA1⟩
  · cases h
  · right
    cases hx with
    | name nm r hn hnr =>
    simp only [nextLx] at hA1
    have hh1 := hh.drop.drop
    obtain ⟨v2, s2, h2, hr⟩ := bind_ok hr
    obtain ⟨ws2, l2, sk, n, ad, e2, hs2, hx2, rfl, hA2⟩ := req_inv hA1 hh1 h2 (by simp)
    cases hx2 with
    | equals r2 =>
    subst e2
    simp only [nextLx] at hA2
    have hh2 : Here c.mem last (a + ws.length + nm.length + ws2.length + 1) r2 := Here.drop (l1 := [61]) hh1.drop
    obtain ⟨v3, s3, h3, hr⟩ := bind_ok hr
    obtain ⟨ws3, l3, sk, n, ad, e3, hs3, hx3, rfl, hA3⟩ := req_inv hA2 hh2 h3 (by simp)
    obtain ⟨rfl, rfl⟩ := pure_ok hr
    subst e3
    simp only [nextLx] at hA3
    cases hx3 with
    | attValue t v r3 ht hv =>
      left
      refine ⟨⟨ws, nm, ws2, ws3, t, v⟩, r3, by simp [Att.render], ⟨hs.2.1, hn, hs2.2.1, hs3.2.1, ht, hv⟩, rfl, hA3.tag ?_⟩
      simp [Att.render]; omega
    | attOpen t v ht hv =>
      right
      refine ⟨by simp, hA3.tag ?_, ws ++ (nm ++ (ws2 ++ 61 :: ws3)), t, v, by simp, ht, hv⟩
      have := hh.len
      simp at this; omega

theorem attrs_past {s s' : St} {a last n : Nat} {pre : Bool} {out : List Nat} {calls : List Call} {set set' : List Attr}
    (hA : At c.mem s (tag a last) pre out calls) (h : last < a) : isAttributeSet c n set s ≠ .ok set' s' := by
  have hg : getToken c.mem s.lx = .ub := hA.lx.trans (get_past h)
  cases n with
  | zero => simp [isAttributeSet, stuck]
  | succ n => simp [isAttributeSet, isAttribute, isToken, bind_eq, lex, hg]

theorem attrs_inv {last : Nat} {pre : Bool} {out : List Nat} {calls : List Call} {s' : St} {set' : List Attr} (n : Nat) :
    ∀ {s : St} {a : Nat} {l : List Nat} {set : List Attr}, At c.mem s (tag a last) pre out calls → Here c.mem last a l →
      isAttributeSet c n set s = .ok set' s' →
      ∃ xs r, l = renderAtts xs ++ r ∧ (∀ x ∈ xs, Att.Ok x) ∧ XmlAttr.insertAll c.mem set (attToks a xs) = some set' ∧
        At c.mem s' (tag (a + (renderAtts xs).length) last) pre out calls := by
  induction n with
  | zero => intro s a l set _ _ h; simp [isAttributeSet, stuck] at h
  | succ n ih =>
    intro s a l set hA hh h
    unfold isAttributeSet at h
    obtain ⟨v, s1, h1, hr⟩ := bind_ok h
    rcases isAttribute_inv hA hh h1 with ⟨rfl, hA1⟩ | ⟨x, r, rfl, hx, rfl, hA1⟩ | ⟨hne, hA1, _⟩
    · obtain ⟨rfl, rfl⟩ := pure_ok hr
      exact ⟨[], l, by simp [renderAtts], by simp, by simp [attToks, XmlAttr.insertAll], by simpa [renderAtts] using hA1⟩
    · generalize hv : (_, _) = x' at hr
      simp only at hr
      cases hset : XmlAttr.insert c.mem set x' with
      | none => simp [hset, ub] at hr
      | some set1 =>
        simp only [hset] at hr
        obtain ⟨xs, r', rfl, hxs, hi, hA2⟩ := ih hA1 hh.drop hr
        refine ⟨x :: xs, r', by simp [renderAtts], ?_, ?_, hA2.tag ?_⟩
        · intro y hy
          rcases List.mem_cons.mp hy with rfl | hy
          · exact hx
          · exact hxs y hy
        · simp only [attToks, XmlAttr.insertAll]
          rw [hv, hset]
          exact hi
        · simp [renderAtts]; omega
    · cases v with
      | none => exact absurd rfl hne
      | some x =>
        simp only at hr
        cases hset : XmlAttr.insert c.mem set x with
        | none => simp [hset, ub] at hr
        | some set1 =>
          simp only [hset] at hr
          exact absurd hr (attrs_past hA1 (by omega))

/-- The parts of an element, in the states of the parser. -/
structure Sound (c : Cfg) (n : Nat) : Prop where
  element : ∀ {s s' : St} {a last : Nat} {b w pre : Bool} {out : List Nat} {cs : List Call} {l : List Nat} {e : Tok},
    At c.mem s (lxAt a last b w) pre out cs → Here c.mem last a l → isElement c n s = .ok (some e) s' →
    ∃ ws i r h, l = ws ++ (i.render ++ r) ∧ Skips w ws (i.render ++ r) ∧ Item.Ok i ∧ i.head? = some h ∧
      (pre = true → e = i.entire (a + ws.length) ∧ At c.mem s' (pos (a + ws.length + i.render.length) last) true out cs) ∧
      (pre = false → e = .null ∧ ∃ o cs', ItemSem c (a + ws.length) i cs o cs' ∧
        At c.mem s' (pos (a + ws.length + i.render.length) last) false (out ++ o) cs')
  content : ∀ {s s' : St} {a last : Nat} {pre : Bool} {out : List Nat} {cs : List Call} {l : List Nat} {v : Tok},
    At c.mem s (pos a last) pre out cs → Here c.mem last a l → isContent c n s = .ok v s' →
    ∃ x r, l = Content.render x ++ r ∧ x.Ok ∧ x.Stops r ∧
      (pre = true → v = x.range a ∧ At c.mem s' (pos (a + x.render.length) last) true out cs) ∧
      (pre = false → v = .null ∧ ∃ o cs', ContentSem c a x cs o cs' ∧ At c.mem s' (pos (a + x.render.length) last) false (out ++ o) cs')
  tail : ∀ {s s' : St} {a last : Nat} {pre : Bool} {out : List Nat} {cs : List Call} {l : List Nat} {acc v : Tok},
    At c.mem s (pos a last) pre out cs → Here c.mem last a l → contentTail c n acc s = .ok v s' →
    ∃ x r, l = Content.render x ++ r ∧ x.Ok ∧ x.Stops r ∧
      (pre = true → v = x.follow acc a ∧ At c.mem s' (pos (a + x.render.length) last) true out cs) ∧
      (pre = false → v = acc ∧ ∃ o cs', ContentSem c a x cs o cs' ∧ At c.mem s' (pos (a + x.render.length) last) false (out ++ o) cs')
  loop : ∀ {s s' : St} {a last : Nat} {pre : Bool} {out : List Nat} {cs : List Call} {l t : List Nat} {acc v : Tok},
    At c.mem s (pos a last) pre out cs → Here c.mem last a l → IsChars t → (t ≠ [] → CharsEnd l) →
    (t = [] → Next c.mem (pos a last) (· ≠ .charData)) → contentLoop c n acc s = .ok v s' →
    ∃ x r, l = Content.body x ++ r ∧ x.chars = t ∧ x.Ok ∧ x.Stops r ∧
      (pre = true → v = x.after acc a ∧ At c.mem s' (pos (a + x.body.length) last) true out cs) ∧
      (pre = false → v = acc ∧ ∃ o cs', (∀ a0, a = a0 + t.length → ContentSem c a0 x cs (t ++ o) cs') ∧
        At c.mem s' (pos (a + x.body.length) last) false (out ++ o) cs')
  callback : ∀ {s s' : St} {L : Lx} {pre : Bool} {out : List Nat} {cs : List Call} {old start value e : Tok} {attrs : List Attr},
    At c.mem s L pre out cs → contentCallback c n old start attrs value true s = .ok e s' →
    e = .null ∧ ∃ t, c.callback cs ⟨old, start, attrs, value⟩ = some t ∧
      ((t = old ∧ At c.mem s' L false (out ++ old.text c.mem) (cs ++ [⟨old, start, attrs, value⟩])) ∨
       (t ≠ old ∧ t.first ≤ t.second ∧ ∃ new rest o cs', t.text c.mem = Content.render new ++ rest ∧ new.Ok ∧ new.Stops rest ∧
          ContentSem c t.first new (cs ++ [⟨old, start, attrs, value⟩]) o cs' ∧ At c.mem s' L false (out ++ o) cs'))
  parse : ∀ {s s' : St} {a last : Nat} {out : List Nat} {cs : List Call}, s.lx = Lx.new ⟨a, last⟩ → s.preorder = false →
    s.out = out → s.calls = cs → parseContent c n s = .ok () s' →
    a ≤ last ∧ ∃ x r o cs', (Tok.mk a last).text c.mem = Content.render x ++ r ∧ x.Ok ∧ x.Stops r ∧ ContentSem c a x cs o cs' ∧
      s'.out = out ++ o ∧ s'.calls = cs'
  parseLoop : ∀ {s s' : St} {a last : Nat} {out : List Nat} {cs : List Call}, At c.mem s (pos a last) false out cs →
    parseContentLoop c n s = .ok () s' →
    a ≤ last ∧ ∃ x r o cs', (Tok.mk a last).text c.mem = Content.render x ++ r ∧ x.Ok ∧ x.Stops r ∧ ContentSem c a x cs o cs' ∧
      s'.out = out ++ o ∧ s'.calls = cs'

theorem sound_zero : Sound c 0 where
  element := by intros; rename_i h; simp [isElement, stuck] at h
  content := by intros; rename_i h; simp [isContent, stuck] at h
  tail := by intros; rename_i h; simp [contentTail, stuck] at h
  loop := by intros; rename_i h; simp [contentLoop, stuck] at h
  callback := by intros; rename_i h; simp [contentCallback, stuck] at h
  parse := by intros; rename_i h; simp [parseContent, stuck] at h
  parseLoop := by intros; rename_i h; simp [parseContentLoop, stuck] at h

theorem Content.closed_of_stops (x : Content) {r : List Nat} (h : x.Stops r) (hr : r ≠ []) : x.closed := by
  match x with
  | .nil _ => trivial
  | .openRef _ _ => exact absurd h hr
  | .cons _ _ rest => exact Content.closed_of_stops rest h hr

theorem isETag_inv {s s' : St} {a last : Nat} {pre : Bool} {out : List Nat} {cs : List Call} {l : List Nat} {nt ct : Tok}
    (hA : At c.mem s (pos a last) pre out cs) (hh : Here c.mem last a l) (hr : isETag c s = .ok (some (nt, ct)) s') :
    ∃ w1 nm w2 r, l = 60 :: 47 :: (w1 ++ (nm ++ (w2 ++ 62 :: r))) ∧ Blank w1 ∧ Blank w2 ∧ IsName nm ∧
      nt = ⟨a + 2 + w1.length, a + 2 + w1.length + nm.length⟩ ∧
      ct.second = a + 2 + w1.length + nm.length + w2.length + 1 ∧
      At c.mem s' (pos (a + 2 + w1.length + nm.length + w2.length + 1) last) pre out cs := by
  unfold isETag at hr
  obtain ⟨v1, s1, h1, hr⟩ := bind_ok hr
  rcases tok_inv hA hh h1 with ⟨rfl, _⟩ | ⟨h, _⟩ | ⟨ws, l', sk, n, ad, rfl, hs, hx, rfl, hA1⟩
  · obtain ⟨h, _⟩ := pure_ok hr; cases h
  · cases h
  · obtain rfl := hs.1 rfl
    cases hx with
    | openSlash r =>
    simp only [nextLx, List.length_nil, Nat.add_zero] at hA1
    have hh1 : Here c.mem last (a + 2) r := Here.drop (l1 := [60, 47]) hh
    obtain ⟨v2, s2, h2, hr⟩ := bind_ok hr
    obtain ⟨w1, l2, sk, n, ad, rfl, hs2, hx2, rfl, hA2⟩ := req_inv hA1 hh1 h2 (by simp)
    cases hx2 with
    | name nm r2 hn hnr =>
    simp only [nextLx] at hA2
    obtain ⟨v3, s3, h3, hr⟩ := bind_ok hr
    obtain ⟨w2, l3, sk, n, ad, rfl, hs3, hx3, rfl, hA3⟩ := req_inv hA2 hh1.drop.drop h3 (by simp)
    cases hx3 with
    | closeTag r3 =>
    obtain ⟨h, rfl⟩ := pure_ok hr
    simp only [Option.some.injEq, Prod.mk.injEq] at h
    obtain ⟨rfl, rfl⟩ := h
    exact ⟨w1, nm, w2, r3, by simp, hs2.2.1, hs3.2.1, hn, rfl, rfl, hA3⟩

/-- The start tag of an element that is parsed. -/
theorem open_inv {n : Nat} {s s' : St} {a last : Nat} {b w pre : Bool} {out : List Nat} {cs : List Call} {l : List Nat} {e : Tok}
    (hA : At c.mem s (lxAt a last b w) pre out cs) (hh : Here c.mem last a l) (hr : isElement c (n + 1) s = .ok (some e) s') :
    ∃ ws lead nm atts r s1, l = ws ++ 60 :: (lead ++ (nm ++ (renderAtts atts ++ r))) ∧
      Skips w ws (60 :: (lead ++ (nm ++ (renderAtts atts ++ r)))) ∧ Blank lead ∧ IsName nm ∧ (∀ x ∈ atts, Att.Ok x) ∧
      (∀ x xs, atts = x :: xs → x.before ≠ []) ∧
      At c.mem s1 (tag (a + ws.length + 1 + lead.length + nm.length + (renderAtts atts).length) last)
        (pre || (!pre && c.pred ((Head.mk lead nm atts []).nameTok (a + ws.length)))) out cs ∧
      elementRest c n ⟨a + ws.length, a + ws.length + 1⟩ ((Head.mk lead nm atts []).nameTok (a + ws.length))
        (pre || (!pre && c.pred ((Head.mk lead nm atts []).nameTok (a + ws.length))))
        (!pre && c.pred ((Head.mk lead nm atts []).nameTok (a + ws.length)))
        ((Head.mk lead nm atts []).attrs c.mem (a + ws.length)) s1 = .ok (some e) s' := by
  rw [isElement_eq] at hr
  obtain ⟨v1, s1, h1, hr⟩ := bind_ok hr
  rcases tok_inv hA hh h1 with ⟨rfl, _⟩ | ⟨h, _⟩ | ⟨ws, l', sk, m, ad, rfl, hs, hx, rfl, hA1⟩
  · obtain ⟨h, _⟩ := pure_ok hr; cases h
  · cases h
  · cases hx with
    | openTag r hx1 hx2 hx3 =>
    simp only [nextLx] at hA1
    have hh1 : Here c.mem last (a + ws.length + 1) r := Here.drop (l1 := [60]) hh.drop
    simp only at hr
    obtain ⟨v2, s2, h2, hr⟩ := bind_ok hr
    obtain ⟨w1, l2, sk, m, ad, rfl, hs2, hx2, rfl, hA2⟩ := req_inv hA1 hh1 h2 (by simp)
    cases hx2 with
    | name nm r2 hn hnr =>
    simp only [nextLx] at hA2
    obtain ⟨md, s3, h3, hr⟩ := bind_ok hr
    simp only [getPreorder] at h3
    cases h3
    obtain ⟨_, s4, h4, hr⟩ := bind_ok hr
    simp only [setPreorder, hA2.pre] at h4
    cases h4
    obtain ⟨at', s5, h5, hr⟩ := bind_ok hr
    have hh2 := hh1.drop.drop
    have hA4 : At c.mem { s2 with preorder := (pre || (!pre && c.pred (Tok.mk (a + ws.length + 1 + w1.length + 0) (a + ws.length + 1 + w1.length + 0 + nm.length)))) }
      (tag (a + ws.length + 1 + w1.length + nm.length) last)
      (pre || (!pre && c.pred (Tok.mk (a + ws.length + 1 + w1.length + 0) (a + ws.length + 1 + w1.length + 0 + nm.length)))) out cs :=
      ⟨hA2.lx, rfl, hA2.out, hA2.calls⟩
    obtain ⟨xs, r3, rfl, hxs, hi, hA5⟩ := attrs_inv n hA4 hh2 h5
    refine ⟨ws, w1, nm, xs, r3, s5, rfl, hs, hs2.2.1, hn, hxs, ?_, hA5, ?_⟩
    · rintro x xs' rfl hb
      have hxo := hxs x (by simp)
      obtain ⟨⟨d, t, hd, hd'⟩, _⟩ := hxo.name
      refine hnr d (t ++ (x.mid ++ 61 :: (x.after ++ x.tick :: (x.value ++ x.tick :: (renderAtts xs' ++ r3))))) ?_ (.inl hd')
      simp [renderAtts, Att.render, hb, hd]
    · rw [hA2.pre] at hr
      have ha : (Head.mk w1 nm xs []).attrs c.mem (a + ws.length) = at' := by
        simp only [Head.attrs, hi]; rfl
      rw [ha]
      exact hr

theorem item_same_of {a : Nat} {i : Item} {h : Head} {cs : List Call} (hd : i.head? = some h) (hp : c.pred (h.nameTok a) = true)
    {t : Tok} {o : List Nat} {cs' : List Call} (htext : (i.entire a).text c.mem = i.render)
    (hc : c.callback cs (i.call c.mem a h) = some t) {P : List Nat → List Call → Prop}
    (hrest : (t = i.entire a ∧ P ((i.entire a).text c.mem) (cs ++ [i.call c.mem a h])) ∨
       (t ≠ i.entire a ∧ t.first ≤ t.second ∧ ∃ new rest o cs', t.text c.mem = Content.render new ++ rest ∧ new.Ok ∧ new.Stops rest ∧
          ContentSem c t.first new (cs ++ [i.call c.mem a h]) o cs' ∧ P o cs')) :
    ∃ o cs', ItemSem c a i cs o cs' ∧ P o cs' := by
  rcases hrest with ⟨rfl, hP⟩ | ⟨hne, hle, new, rest, o, cs', h1, h2, h3, h4, hP⟩
  · exact ⟨_, _, .same hd hp hc, htext ▸ hP⟩
  · exact ⟨o, cs', .replaced hd hp hc hne hle h1 h2 h3 h4, hP⟩

theorem ite_output_ok {α : Type} {b : Bool} {l : List Nat} {s s' : St} {L pre out cs} {f : M α} {v : α}
    (hA : At c.mem s L pre out cs)
    (h : (if b = true then (do output l; f) else f) s = .ok v s') :
    ∃ s1, At c.mem s1 L pre (if b then out ++ l else out) cs ∧ f s1 = .ok v s' := by
  cases b with
  | true =>
    simp only [if_true, output, bind_eq] at h
    refine ⟨_, ?_, h⟩
    exact ⟨hA.lx, hA.pre, by simp [hA.out], hA.calls⟩
  | false =>
    simp only [Bool.false_eq_true, if_false] at h
    exact ⟨s, hA, h⟩

theorem sound_element {n : Nat} (ih : Sound c n) {s s' : St} {a last : Nat} {b w pre : Bool} {out : List Nat} {cs : List Call}
    {l : List Nat} {e : Tok} (hA : At c.mem s (lxAt a last b w) pre out cs) (hh : Here c.mem last a l)
    (hr : isElement c (n + 1) s = .ok (some e) s') :
    ∃ ws i r h, l = ws ++ (i.render ++ r) ∧ Skips w ws (i.render ++ r) ∧ Item.Ok i ∧ i.head? = some h ∧
      (pre = true → e = i.entire (a + ws.length) ∧ At c.mem s' (pos (a + ws.length + i.render.length) last) true out cs) ∧
      (pre = false → e = .null ∧ ∃ o cs', ItemSem c (a + ws.length) i cs o cs' ∧
        At c.mem s' (pos (a + ws.length + i.render.length) last) false (out ++ o) cs') := by
  obtain ⟨ws, lead, nm, atts, r, s1, rfl, hs, hlead, hn, hatts, hsep, hA1, hr⟩ := open_inv hA hh hr
  generalize hnt : (Head.mk lead nm atts []).nameTok (a + ws.length) = nt at hA1 hr
  generalize hats : (Head.mk lead nm atts []).attrs c.mem (a + ws.length) = ats at hr
  generalize hq : a + ws.length + 1 + lead.length + nm.length + (renderAtts atts).length = q at hA1
  have hh1 : Here c.mem last q r := by
    have := (Here.drop (l1 := [60]) hh.drop).drop.drop.drop
    rw [← hq]; exact this
  simp only [elementRest] at hr
  obtain ⟨v1, s2, h2, hr⟩ := bind_ok hr
  rcases tok_inv hA1 hh1 h2 with ⟨rfl, hA2, _⟩ | ⟨h, _⟩ | ⟨ws2, l', sk, m, ad, rfl, hs2, hx, rfl, hA2⟩
  · -- an element with content
    simp only at hr
    obtain ⟨v3, s3, h3, hr⟩ := bind_ok hr
    obtain ⟨trail, l2, sk, m, ad, rfl, hs3, hx3, rfl, hA3⟩ := req_inv hA2 hh1 h3 (by simp)
    cases hx3 with
    | closeTag r2 =>
    simp only [nextLx] at hA3
    have hh2 : Here c.mem last (q + trail.length + 1) r2 := Here.drop (l1 := [62]) hh1.drop
    obtain ⟨s4, hA4, hr⟩ := ite_output_ok hA3 hr
    obtain ⟨content, s5, h5, hr⟩ := bind_ok hr
    obtain ⟨x, r3, rfl, hxo, hxs, hx1, hx2⟩ := ih.content hA4 hh2 h5
    obtain ⟨v6, s6, h6, hr⟩ := bind_ok hr
    cases v6 with
    | none => simp [throw] at hr
    | some p =>
    obtain ⟨et, ct⟩ := p
    simp only at hr
    -- the head of the item
    let hd : Head := ⟨lead, nm, atts, trail⟩
    have hdn : hd.nameTok (a + ws.length) = nt := hnt
    have hda : hd.attrs c.mem (a + ws.length) = ats := hats
    have hdok : hd.Ok := ⟨hlead, hn, hatts, hsep, hs3.2.1⟩
    have hdr : hd.render = lead ++ (nm ++ (renderAtts atts ++ trail)) := rfl
    have hqx : q + trail.length + 1 = a + ws.length + 1 + hd.render.length + 1 := by
      rw [hdr, ← hq]; simp; omega
    have fin : ∀ {pre2 out2 cs2}, At c.mem s5 (pos (q + trail.length + 1 + x.render.length) last) pre2 out2 cs2 →
        XmlAttr.tokenRangeEqual c.mem nt et = true → ∃ w1 w2 r4, r3 = 60 :: 47 :: (w1 ++ (nm ++ (w2 ++ 62 :: r4))) ∧
          (Item.elem hd x w1 w2).Ok ∧ et = ⟨q + trail.length + 1 + x.render.length + 2 + w1.length,
            q + trail.length + 1 + x.render.length + 2 + w1.length + nm.length⟩ ∧
          ct.second = a + ws.length + (Item.elem hd x w1 w2).render.length ∧
          At c.mem s6 (pos (a + ws.length + (Item.elem hd x w1 w2).render.length) last) pre2 out2 cs2 ∧
          (Tok.mk (et.first - 2) (et.second + 1)).text c.mem = endEcho w1 nm w2 := by
      intro pre2 out2 cs2 hA5 hte
      obtain ⟨w1, nm', w2, r4, rfl, hb1, hb2, hn', rfl, hct, hA6⟩ := isETag_inv hA5 hh2.drop h6
      have htx : nt.text c.mem = nm := by
        rw [← hnt]
        exact (Here.drop (l1 := [60]) hh.drop).drop.text
      have htx' : (Tok.mk (q + trail.length + 1 + x.render.length + 2 + w1.length)
        (q + trail.length + 1 + x.render.length + 2 + w1.length + nm'.length)).text c.mem = nm' :=
          (Here.drop (l1 := [60, 47]) hh2.drop).drop.text
      have : nm = nm' := by
        rw [← htx, ← htx']
        exact (XmlAttr.tokenRangeEqual_iff _ _ _).mp hte
      subst this
      have eend : q + trail.length + 1 + x.render.length + 2 + w1.length + nm.length + w2.length + 1 =
          a + ws.length + (Item.elem hd x w1 w2).render.length := by
        rw [hqx]; simp [Item.render, hd]; omega
      refine ⟨w1, w2, r4, rfl, ⟨hdok, hxo, Content.closed_of_stops x hxs (by simp), hb1, hb2⟩, rfl, hct.trans eend,
        hA6.tag eend, endEcho_text hh2.drop⟩
    have hall : ∀ {w1 w2 r4}, r3 = 60 :: 47 :: (w1 ++ (nm ++ (w2 ++ 62 :: r4))) →
        60 :: (lead ++ (nm ++ (renderAtts atts ++ (trail ++ 62 :: (x.render ++ r3))))) = (Item.elem hd x w1 w2).render ++ r4 := by
      rintro w1 w2 r4 rfl
      simp [Item.render, Head.render, hd]
    by_cases hte : XmlAttr.tokenRangeEqual c.mem nt et = true
    swap
    · simp [hte, throw] at hr
    simp only [hte, Bool.not_true, Bool.false_eq_true, if_false] at hr
    cases pre with
    | true =>
      simp only [Bool.not_true, Bool.false_and, Bool.or_false, Bool.false_eq_true, if_false] at hr hx1 hA4
      obtain ⟨rfl, hA5⟩ := hx1 trivial
      obtain ⟨w1, w2, r4, e3, hok, _, hct, hA6, _⟩ := fin hA5 hte
      obtain ⟨v7, s7, h7, hr⟩ := bind_ok hr
      cases n with
      | zero => simp [contentCallback, stuck] at h7
      | succ n =>
      simp only [contentCallback, Bool.false_eq_true, if_false] at h7
      obtain ⟨rfl, rfl⟩ := pure_ok h7
      obtain ⟨h8, rfl⟩ := pure_ok hr
      simp only [Option.some.injEq] at h8
      refine ⟨ws, .elem hd x w1 w2, r4, hd, by rw [hall e3], by rw [← hall e3]; exact hs, hok, rfl, fun _ => ⟨?_, hA6⟩, by simp⟩
      rw [← h8, hct]; rfl
    | false =>
      simp only [Bool.not_false, Bool.true_and, Bool.false_or] at hr hx1 hx2 hA4
      cases hp : c.pred nt with
      | true =>
        simp only [hp, Bool.not_true, Bool.false_eq_true, if_false] at hr hx1 hA4
        obtain ⟨rfl, hA5⟩ := hx1 trivial
        obtain ⟨w1, w2, r4, e3, hok, _, hct, hA6, _⟩ := fin hA5 hte
        obtain ⟨v7, s7, h7, hr⟩ := bind_ok hr
        obtain ⟨h8, rfl⟩ := pure_ok hr
        simp only [Option.some.injEq] at h8
        subst h8
        obtain ⟨he, t, hc, hrest⟩ := ih.callback hA6 h7
        refine ⟨ws, .elem hd x w1 w2, r4, hd, by rw [hall e3], by rw [← hall e3]; exact hs, hok, rfl, by simp, fun _ => ⟨he, ?_⟩⟩
        have hcall : (Item.elem hd x w1 w2).call c.mem (a + ws.length) hd =
            ⟨⟨a + ws.length, ct.second⟩, nt, ats, x.range (q + trail.length + 1)⟩ := by
          simp only [Item.call, Item.entire, Item.value, hct, hdn, hda, hqx]
        have hent : (Item.elem hd x w1 w2).entire (a + ws.length) = ⟨a + ws.length, ct.second⟩ := by
          simp only [Item.entire, hct]
        have htext : ((Item.elem hd x w1 w2).entire (a + ws.length)).text c.mem = (Item.elem hd x w1 w2).render := by
          have := hh.drop
          rw [hall e3] at this
          exact this.text
        refine item_same_of (i := .elem hd x w1 w2) (h := hd) rfl (hdn ▸ hp) (o := []) (cs' := []) htext (hcall ▸ hc)
          (P := fun o cs' => At c.mem s7 (pos (a + ws.length + (Item.elem hd x w1 w2).render.length) last) false (out ++ o) cs') ?_
        rw [hcall, hent]
        exact hrest
      | false =>
        simp only [hp, Bool.not_false, if_true] at hr hx2 hA4
        obtain ⟨rfl, o, cs', hsem, hA5⟩ := hx2 trivial
        obtain ⟨w1, w2, r4, e3, hok, _, hct, hA6, hecho⟩ := fin hA5 hte
        obtain ⟨_, s7, h7, hr⟩ := bind_ok hr
        obtain ⟨_, s8, h8, hr⟩ := bind_ok hr
        obtain ⟨h9, rfl⟩ := pure_ok hr
        simp only [Option.some.injEq] at h9
        simp only [output, null_text, List.append_nil] at h7
        cases h7
        simp only [output, hecho] at h8
        cases h8
        refine ⟨ws, .elem hd x w1 w2, r4, hd, by rw [hall e3], by rw [← hall e3]; exact hs, hok, rfl, by simp, fun _ => ⟨h9.symm, ?_⟩⟩
        have htag : (Tok.mk (a + ws.length) (q + trail.length + 0 + 1)).text c.mem = 60 :: (hd.render ++ [62]) := by
          have h0 : Here c.mem last (a + ws.length) ((60 :: (hd.render ++ [62])) ++ (x.render ++ r3)) := by
            have := hh.drop
            simpa [Head.render, hd] using this
          rw [← h0.text]
          congr 2
          rw [Nat.add_zero, hqx]; simp; omega
        refine ⟨_, cs', .elem (hdn ▸ hp) (hqx ▸ hsem), ⟨hA6.lx, hA6.pre, ?_, hA6.calls⟩⟩
        simp only [hA6.out, htag]
        simp [hd]
  · cases h
  · -- an empty element
    cases hx with
    | slashClose r2 =>
    simp only [nextLx] at hA2
    let hd : Head := ⟨lead, nm, atts, ws2⟩
    have hdn : hd.nameTok (a + ws.length) = nt := hnt
    have hda : hd.attrs c.mem (a + ws.length) = ats := hats
    have hdok : hd.Ok := ⟨hlead, hn, hatts, hsep, hs2.2.1⟩
    have eend : q + ws2.length + 2 = a + ws.length + (Item.empty hd).render.length := by
      rw [← hq]; simp [Item.render, Head.render, hd]; omega
    have hall : 60 :: (lead ++ (nm ++ (renderAtts atts ++ (ws2 ++ 47 :: 62 :: r2)))) = (Item.empty hd).render ++ r2 := by
      simp [Item.render, Head.render, hd]
    rw [hall] at hs hh
    rw [hall]
    simp only [Nat.add_zero] at hr
    rw [eend] at hr hA2
    refine ⟨ws, .empty hd, r2, hd, rfl, hs, hdok, rfl, ?_, ?_⟩
    · rintro rfl
      simp only [Bool.not_true, Bool.false_and, Bool.or_false, if_true] at hr hA2
      obtain ⟨v7, s7, h7, hr⟩ := bind_ok hr
      cases n with
      | zero => simp [contentCallback, stuck] at h7
      | succ n =>
      simp only [contentCallback, Bool.false_eq_true, if_false] at h7
      obtain ⟨rfl, rfl⟩ := pure_ok h7
      obtain ⟨h8, rfl⟩ := pure_ok hr
      simp only [Option.some.injEq] at h8
      exact ⟨h8.symm, hA2⟩
    · rintro rfl
      simp only [Bool.not_false, Bool.true_and, Bool.false_or] at hr hA2
      cases hp : c.pred nt with
      | true =>
        simp only [hp, if_true] at hr hA2
        obtain ⟨v7, s7, h7, hr⟩ := bind_ok hr
        obtain ⟨h8, rfl⟩ := pure_ok hr
        simp only [Option.some.injEq] at h8
        subst h8
        obtain ⟨he, t, hc, hrest⟩ := ih.callback hA2 h7
        refine ⟨he, ?_⟩
        have hcall : (Item.empty hd).call c.mem (a + ws.length) hd =
            ⟨⟨a + ws.length, a + ws.length + (Item.empty hd).render.length⟩, nt, ats, .null⟩ := by
          simp only [Item.call, Item.entire, Item.value, hdn, hda]
        refine item_same_of (i := .empty hd) (h := hd) rfl (hdn ▸ hp) (o := []) (cs' := []) hh.drop.text (hcall ▸ hc)
          (P := fun o cs' => At c.mem s7 (pos (a + ws.length + (Item.empty hd).render.length) last) false (out ++ o) cs') ?_
        rw [hcall]
        exact hrest
      | false =>
        simp only [hp, Bool.false_eq_true, if_false] at hr hA2
        obtain ⟨t, s7, h7, hr⟩ := bind_ok hr
        obtain ⟨_, s8, h8, hr⟩ := bind_ok hr
        obtain ⟨h9, rfl⟩ := pure_ok hr
        simp only [Option.some.injEq] at h9
        refine ⟨h9.symm, ?_⟩
        have hcall : (Item.empty hd).call c.mem (a + ws.length) hd =
            ⟨⟨a + ws.length, a + ws.length + (Item.empty hd).render.length⟩, nt, ats, .null⟩ := by
          simp only [Item.call, Item.entire, Item.value, hdn, hda]
        unfold call at h7
        split at h7
        · cases h7
        · next t' hc =>
          cases h7
          simp only [output] at h8
          cases h8
          rw [hA2.calls] at hc
          refine ⟨_, _, .empty (hdn ▸ hp) (hcall ▸ hc), ⟨hA2.lx, hA2.pre, by simp [hA2.out], ?_⟩⟩
          simp [hA2.calls, hcall]

end Verif.Xml
