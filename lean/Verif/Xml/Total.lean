import Verif.Xml.Sound
/-! The parser comes to an end, and reads past the end only after a value without its second quote. -/
namespace Verif.Xml
open Verif.Xml.Spec
open Verif.XmlAttr (Mem Tok Attr)

variable {c : Cfg} {α β : Type}

theorem OpenValue.append {l : List Nat} (h : OpenValue l) (p : List Nat) : OpenValue (p ++ l) := by
  obtain ⟨q, t, v, rfl, h1, h2⟩ := h
  exact ⟨p ++ q, t, v, by simp, h1, h2⟩

/-- The call ends properly, or by reading past a value that is not ended in `l`. -/
def Good (r : R St α) (l : List Nat) : Prop := match r with
  | .ok _ _ => True
  | .throw => True
  | .ub => OpenValue l
  | .stuck => False

theorem Good.bind {x : M α} {f : α → M β} {s : St} {l : List Nat} (hx : Good (x s) l)
    (hf : ∀ v s', x s = .ok v s' → Good (f v s') l) : Good ((x >>= f) s) l := by
  rw [bind_eq]
  cases h : x s with
  | ok v s' => exact hf v s' h
  | throw => trivial
  | ub => rw [h] at hx; exact hx
  | stuck => rw [h] at hx; exact hx

theorem Good.append {r : R St α} {l : List Nat} (h : Good r l) (p : List Nat) : Good r (p ++ l) := by
  cases r with
  | ub => exact OpenValue.append h p
  | ok => trivial
  | throw => trivial
  | stuck => exact h

theorem good_pure (v : α) (s : St) (l : List Nat) : Good ((Pure.pure v : M α) s) l := trivial
theorem good_throw (s : St) (l : List Nat) : Good ((throw : M α) s) l := trivial
theorem good_output (o : List Nat) (s : St) (l : List Nat) : Good (output o s) l := trivial
theorem good_call (k : Call) (s : St) (l : List Nat) : Good (call c k s) l := by
  unfold call
  cases c.callback s.calls k <;> trivial

/-- Asking for a token. -/
theorem good_get {a last : Nat} (b w : Bool) {l : List Nat} (hh : Here c.mem last a l) :
    getToken c.mem (lxAt a last b w) = .throw ∨ ∃ t L, getToken c.mem (lxAt a last b w) = .ok t L ∧
      ∃ p l', l = p ++ l' ∧ ((∃ b' w', Same c.mem L (lxAt (a + p.length) last b' w') ) ∨
        (OpenValue l ∧ ∃ b' w', Same c.mem L (lxAt (last + 1) last b' w'))) := by
  obtain ⟨ws, l', rfl, hs, h | ⟨k, sk, n, ad, L, hx, hg, hS⟩ | ⟨_, h⟩⟩ := get_cases b w hh
  · obtain ⟨rfl, L, hg, hS⟩ := h
    have := hh.len
    refine .inr ⟨_, L, hg, ws, [], rfl, .inl ⟨b, w, ?_⟩⟩
    simp at this
    rwa [← this]
  · refine .inr ⟨_, L, hg, ?_⟩
    have hn : ∀ q, ∃ b' w', nextLx q last b w k = lxAt q last b' w' := by
      intro q; cases k <;> exact ⟨_, _, rfl⟩
    obtain ⟨b', w', hn'⟩ := hn (a + ws.length + ad)
    rw [hn'] at hS
    have hlen := hh.len
    have key : ad ≤ l'.length ∨ (OpenValue l' ∧ ad = l'.length + 1) := by
      cases hx with
      | attOpen t v ht hv => exact .inr ⟨⟨[], t, v, rfl, ht, hv⟩, by simp⟩
      | _ => left; simp <;> omega
    rcases key with h | ⟨h, e⟩
    · refine ⟨ws ++ l'.take ad, l'.drop ad, by simp, .inl ⟨b', w', ?_⟩⟩
      have : a + (ws ++ l'.take ad).length = a + ws.length + ad := by simp; omega
      rwa [this]
    · refine ⟨[], ws ++ l', rfl, .inr ⟨OpenValue.append h ws, b', w', ?_⟩⟩
      have : a + ws.length + ad = last + 1 := by simp at hlen; omega
      rwa [← this]
  · exact .inl h

theorem good_isToken {s : St} {a last : Nat} {b w : Bool} {l : List Nat} (k : Kind) (hS : Same c.mem s.lx (lxAt a last b w))
    (hh : Here c.mem last a l) : Good (isToken c k s) l := by
  rcases good_get b w hh with h | ⟨t, L, hg, _⟩
  · have := hS.trans h
    simp [isToken, bind_eq, lex, this, Good]
  · have hA : At c.mem s (lxAt a last b w) s.preorder s.out s.calls := ⟨hS, rfl, rfl, rfl⟩
    by_cases hk : t.kind = k
    · obtain ⟨s', h, _⟩ := run_isToken_yes hA hg hk
      rw [h]; trivial
    · obtain ⟨s', h, _⟩ := run_isToken_no hA hg hk
      rw [h]; trivial

theorem good_nextPosition {s : St} {L : Lx} {l : List Nat} (hS : Same c.mem s.lx L)
    (h : (∃ a last b w r, L = lxAt a last b w ∧ Here c.mem last a r ∧ ∃ p, l = p ++ r) ∨ OpenValue l) (hst : getToken c.mem L ≠ .stuck) :
    Good (nextPosition c s) l := by
  have hA : At c.mem s L s.preorder s.out s.calls := ⟨hS, rfl, rfl, rfl⟩
  cases hg : getToken c.mem L with
  | ok t L' =>
    obtain ⟨s', h, _⟩ := run_nextPosition hA hg
    rw [h]; trivial
  | throw => simp [nextPosition, bind_eq, lex, hS.trans hg, Good]
  | stuck => exact absurd hg hst
  | ub =>
    simp only [nextPosition, bind_eq, lex, hS.trans hg, Good]
    rcases h with ⟨a, last, b, w, r, rfl, hr, p, rfl⟩ | h
    · rcases good_get b w hr with h' | ⟨_, _, h', _⟩ <;> rw [hg] at h' <;> cases h'
    · exact h

theorem get_ne_stuck (mem : Mem) (s : Lx) : getToken mem s ≠ .stuck := by
  unfold getToken
  split
  · simp
  · simp only
    generalize (if s.skipWhite = true then skipWhiteSpace mem s else s.first) = q
    split
    · simp
    · split
      · simp
      · split <;> simp

theorem good_require {s : St} {a last : Nat} {b w : Bool} {l : List Nat} (k : Kind) (hS : Same c.mem s.lx (lxAt a last b w))
    (hh : Here c.mem last a l) : Good (requireToken c k s) l := by
  rcases good_get b w hh with h | ⟨t, L, hg, p, l', rfl, hL⟩
  · have := hS.trans h
    simp [requireToken, bind_eq, lex, this, Good]
  · have hA : At c.mem s (lxAt a last b w) s.preorder s.out s.calls := ⟨hS, rfl, rfl, rfl⟩
    by_cases hk : t.kind = k
    · obtain ⟨s', h, _⟩ := run_require hA hg hk
      rw [h]; trivial
    · have e : requireToken c k s = (do nextPosition c; throw) { s with lx := L } := by
        simp only [requireToken, bind_eq, lex, hS.trans hg, hk, if_false]
      rw [e]
      have h0 : Good (nextPosition c { s with lx := L }) (p ++ l') := by
        rcases hL with ⟨b', w', hS'⟩ | ⟨ho, b', w', hS'⟩
        · exact good_nextPosition (s := { s with lx := L }) hS'
            (.inl ⟨_, _, _, _, l', rfl, hh.drop, p, rfl⟩) (get_ne_stuck _ _)
        · exact good_nextPosition (s := { s with lx := L }) hS' (.inr ho) (get_ne_stuck _ _)
      exact h0.bind fun _ _ _ => good_throw _ _

theorem good_isAttribute {s : St} {a last : Nat} {l : List Nat} {pre : Bool} {out : List Nat} {cs : List Call}
    (hA : At c.mem s (tag a last) pre out cs) (hh : Here c.mem last a l) : Good (isAttribute c s) l := by
  unfold isAttribute
  refine (good_isToken _ hA.lx hh).bind fun v s1 h1 => ?_
  rcases tok_inv hA hh h1 with ⟨rfl, _⟩ | ⟨h, _⟩ | ⟨ws, l', sk, n, ad, rfl, hs, hx, rfl, hA1⟩
  · exact good_pure _ _ _
  · cases h
  · cases hx with
    | name nm r hn hnr =>
    simp only [nextLx] at hA1
    have hh1 := hh.drop.drop
    rw [← List.append_assoc]
    refine ((good_require _ hA1.lx hh1).append _).bind fun v2 s2 h2 => ?_
    obtain ⟨ws2, l2, sk, n, ad, rfl, hs2, hx2, rfl, hA2⟩ := req_inv hA1 hh1 h2 (by simp)
    cases hx2 with
    | equals r2 =>
    simp only [nextLx] at hA2
    have hh2 : Here c.mem last (a + ws.length + nm.length + ws2.length + 1) r2 := Here.drop (l1 := [61]) hh1.drop
    have e : (ws ++ nm) ++ (ws2 ++ 61 :: r2) = ((ws ++ nm) ++ (ws2 ++ [61])) ++ r2 := by simp
    rw [e]
    exact ((good_require _ hA2.lx hh2).append _).bind fun _ _ _ => good_pure _ _ _

theorem attrs_past_good {s : St} {a last n : Nat} {pre : Bool} {out : List Nat} {calls : List Call} {set : List Attr}
    {l : List Nat} (hA : At c.mem s (tag a last) pre out calls) (h : last < a) (ho : OpenValue l) :
    Good (isAttributeSet c (n + 1) set s) l := by
  have hg : getToken c.mem s.lx = .ub := hA.lx.trans (get_past h)
  simp [isAttributeSet, isAttribute, isToken, bind_eq, lex, hg, Good, ho]

theorem good_attrs {last : Nat} {pre : Bool} {out : List Nat} {calls : List Call} (n : Nat) :
    ∀ {s : St} {a : Nat} {l : List Nat} {set : List Attr}, At c.mem s (tag a last) pre out calls → Here c.mem last a l →
      XmlAttr.Sorted c.mem set → l.length + 2 ≤ n → Good (isAttributeSet c n set s) l := by
  induction n with
  | zero => intro s a l set _ _ _ h; omega
  | succ n ih =>
    intro s a l set hA hh hset hn
    unfold isAttributeSet
    refine (good_isAttribute hA hh).bind fun v s1 h1 => ?_
    cases v with
    | none => exact good_pure _ _ _
    | some x =>
      obtain ⟨set1, _, hi, hs1, _⟩ := XmlAttr.insert_spec hset x
      simp only [hi]
      rcases isAttribute_inv hA hh h1 with ⟨h, hA1⟩ | ⟨y, r, rfl, hx, _, hA1⟩ | ⟨_, hA1, ho⟩
      · cases h
      · refine (ih hA1 hh.drop hs1 ?_).append _
        have : 0 < y.render.length := by simp [Att.render]; omega
        simp at hn; omega
      · obtain ⟨m, rfl⟩ : ∃ m, n = m + 1 := ⟨n - 1, by omega⟩
        exact attrs_past_good hA1 (by omega) ho

theorem good_isETag {s : St} {a last : Nat} {l : List Nat} {pre : Bool} {out : List Nat} {cs : List Call}
    (hA : At c.mem s (pos a last) pre out cs) (hh : Here c.mem last a l) : Good (isETag c s) l := by
  unfold isETag
  refine (good_isToken _ hA.lx hh).bind fun v s1 h1 => ?_
  rcases tok_inv hA hh h1 with ⟨rfl, _⟩ | ⟨h, _⟩ | ⟨ws, l', sk, n, ad, rfl, hs, hx, rfl, hA1⟩
  · exact good_pure _ _ _
  · cases h
  · cases hx with
    | openSlash r =>
    obtain rfl := hs.1 rfl
    simp only [nextLx, List.length_nil, Nat.add_zero] at hA1
    have hh1 : Here c.mem last (a + 2) r := Here.drop (l1 := [60, 47]) hh
    have e : [] ++ 60 :: 47 :: r = [60, 47] ++ r := rfl
    rw [e]
    refine ((good_require _ hA1.lx hh1).append _).bind fun v2 s2 h2 => ?_
    obtain ⟨ws2, l2, sk, n, ad, rfl, hs2, hx2, rfl, hA2⟩ := req_inv hA1 hh1 h2 (by simp)
    cases hx2 with
    | name nm r2 hn hnr =>
    simp only [nextLx] at hA2
    have e : [60, 47] ++ (ws2 ++ (nm ++ r2)) = ([60, 47] ++ (ws2 ++ nm)) ++ r2 := by simp
    rw [e]
    exact ((good_require _ hA2.lx hh1.drop.drop).append _).bind fun _ _ _ => good_pure _ _ _

structure Total (c : Cfg) (n : Nat) : Prop where
  element : ∀ {s : St} {a last : Nat} {b w pre : Bool} {out : List Nat} {cs : List Call} {l : List Nat},
    At c.mem s (lxAt a last b w) pre out cs → Here c.mem last a l → 2 * l.length + 3 ≤ n → Good (isElement c n s) l
  content : ∀ {s : St} {a last : Nat} {pre : Bool} {out : List Nat} {cs : List Call} {l : List Nat},
    At c.mem s (pos a last) pre out cs → Here c.mem last a l → 2 * l.length + 5 ≤ n → Good (isContent c n s) l
  tail : ∀ {s : St} {a last : Nat} {pre : Bool} {out : List Nat} {cs : List Call} {l : List Nat} {acc : Tok},
    At c.mem s (pos a last) pre out cs → Here c.mem last a l → 2 * l.length + 5 ≤ n → Good (contentTail c n acc s) l
  loop : ∀ {s : St} {a last : Nat} {pre : Bool} {out : List Nat} {cs : List Call} {l : List Nat} {acc : Tok},
    At c.mem s (pos a last) pre out cs → Here c.mem last a l → 2 * l.length + 4 ≤ n → Good (contentLoop c n acc s) l

theorem good_callback {n : Nat} {old start value : Tok} {ats : List Attr} {parent : Bool} {s : St} {l : List Nat}
    (hc : parent = true → ∀ cs k r, c.callback cs k = some r → r = k.entire) :
    Good (contentCallback c (n + 1) old start ats value parent s) l := by
  cases parent with
  | false => simp only [contentCallback, Bool.false_eq_true, if_false]; exact good_pure _ _ _
  | true =>
    simp only [contentCallback, if_true]
    refine (good_call _ _ _).bind fun t s1 h1 => ?_
    unfold call at h1
    split at h1
    · cases h1
    next t' hcb =>
    cases h1
    rw [if_pos (hc rfl _ _ _ hcb).symm]
    exact (good_output _ _ _).bind fun _ _ _ => trivial

theorem ite_output_good {b : Bool} {o l : List Nat} {s : St} {L pre out cs} {f : M α}
    (hA : At c.mem s L pre out cs) (h : ∀ s1, At c.mem s1 L pre (if b then out ++ o else out) cs → Good (f s1) l) :
    Good ((if b = true then (do output o; f) else f) s) l := by
  cases b with
  | true =>
    simp only [if_true, output, bind_eq]
    exact h _ ⟨hA.lx, hA.pre, by simp [hA.out], hA.calls⟩
  | false =>
    simp only [Bool.false_eq_true, if_false]
    exact h s hA

theorem total_element (hc : NoRewrite c) {n : Nat} (ih : Total c n) {s : St} {a last : Nat} {b w pre : Bool} {out : List Nat}
    {cs : List Call} {l : List Nat} (hA : At c.mem s (lxAt a last b w) pre out cs) (hh : Here c.mem last a l)
    (hn : 2 * l.length + 3 ≤ n + 1) : Good (isElement c (n + 1) s) l := by
  obtain ⟨n', rfl⟩ : ∃ n', n = n' + 1 := ⟨n - 1, by omega⟩
  rw [isElement_eq]
  refine (good_isToken _ hA.lx hh).bind fun v1 s1 h1 => ?_
  rcases tok_inv hA hh h1 with ⟨rfl, _⟩ | ⟨h, _⟩ | ⟨ws, l', sk, m, ad, rfl, hs, hx, rfl, hA1⟩
  · exact good_pure _ _ _
  · cases h
  cases hx with
  | openTag r hx1 hx2 hx3 =>
  simp only [nextLx] at hA1
  have hh1 : Here c.mem last (a + ws.length + 1) r := Here.drop (l1 := [60]) hh.drop
  have e : ws ++ 60 :: r = (ws ++ [60]) ++ r := by simp
  rw [e]
  refine Good.append ?_ _
  refine (good_require _ hA1.lx hh1).bind fun v2 s2 h2 => ?_
  obtain ⟨w1, l2, sk, m, ad, rfl, hs2, hx2, rfl, hA2⟩ := req_inv hA1 hh1 h2 (by simp)
  cases hx2 with
  | name nm r2 hnm hnr =>
  have hnl : 0 < nm.length := by obtain ⟨⟨d, t, rfl, _⟩, _⟩ := hnm; simp
  simp only [nextLx] at hA2
  have hh2 := hh1.drop.drop
  rw [← List.append_assoc]
  refine Good.append ?_ _
  generalize hnt : Tok.mk (a + ws.length + 1 + w1.length + 0) (a + ws.length + 1 + w1.length + 0 + nm.length) = nt
  simp only [bind_eq, getPreorder, setPreorder]
  simp only [hA2.pre]
  have hlen : (r2.length : Nat) + 2 ≤ n' + 1 := by simp at hn; omega
  have hA4 : At c.mem { s2 with preorder := pre || !pre && c.pred nt } (tag (a + ws.length + 1 + w1.length + nm.length) last)
    (pre || !pre && c.pred nt) out cs := ⟨hA2.lx, rfl, hA2.out, hA2.calls⟩
  have := (good_attrs (n' + 1) hA4 hh2 List.Pairwise.nil hlen).bind
    (f := fun attrs => elementRest c (n' + 1) ⟨a + ws.length + 0, a + ws.length + 0 + 1⟩ nt (pre || !pre && c.pred nt) (!pre && c.pred nt) attrs)
  rw [bind_eq] at this
  refine this ?_
  clear this
  intro ats s3 h3
  obtain ⟨xs, r3, rfl, hxs, hi, hA5⟩ := attrs_inv _ hA4 hh2 h3
  refine Good.append ?_ _
  have hh3 := hh2.drop
  have hcb : (!pre && c.pred nt) = true → ∀ cs k r, c.callback cs k = some r → r = k.entire := by
    intro hp
    rcases hc with hc | hc
    · rw [hc] at hp; simp at hp
    · exact hc
  simp only [elementRest]
  refine (good_isToken _ hA5.lx hh3).bind fun v4 s4 h4 => ?_
  rcases tok_inv hA5 hh3 h4 with ⟨rfl, hA6, _⟩ | ⟨h, _⟩ | ⟨_, _, _, _, _, _, _, _, rfl, _⟩
  · refine (good_require _ hA6.lx hh3).bind fun v5 s5 h5 => ?_
    obtain ⟨trail, l2, sk, m, ad, rfl, hs3, hx3, rfl, hA7⟩ := req_inv hA6 hh3 h5 (by simp)
    cases hx3 with
    | closeTag r4 =>
    simp only [nextLx] at hA7
    have hh4 : Here c.mem last (a + ws.length + 1 + w1.length + nm.length + (renderAtts xs).length + trail.length + 1) r4 :=
      Here.drop (l1 := [62]) hh3.drop
    have e : trail ++ 62 :: r4 = (trail ++ [62]) ++ r4 := by simp
    rw [e]
    refine Good.append ?_ _
    refine ite_output_good hA7 fun s6 hA8 => ?_
    refine (ih.content hA8 hh4 (by simp at hn; omega)).bind fun v7 s7 h7 => ?_
    obtain ⟨x, r5, rfl, _, _, hp, hq⟩ := (sound c (n' + 1)).content hA8 hh4 h7
    have hA9 : ∃ pre out cs, At c.mem s7 (pos (a + ws.length + 1 + w1.length + nm.length + (renderAtts xs).length + trail.length + 1 +
        x.render.length) last) pre out cs := by
      cases hpre : (pre || !pre && c.pred nt) with
      | true => exact ⟨_, _, _, (hp hpre).2⟩
      | false => obtain ⟨_, o, cs', _, h⟩ := hq hpre; exact ⟨_, _, _, h⟩
    obtain ⟨_, _, _, hA9⟩ := hA9
    refine ((good_isETag hA9 hh4.drop).append _).bind fun v8 s8 h8 => ?_
    cases v8 with
    | none => exact good_throw _ _
    | some p =>
      obtain ⟨et, ct⟩ := p
      simp only
      split
      · exact good_throw _ _
      · split
        · exact (good_output _ _ _).bind fun _ _ _ => (good_output _ _ _).bind fun _ _ _ => good_pure _ _ _
        · exact (good_callback hcb).bind fun _ _ _ => good_pure _ _ _
  · cases h
  · simp only
    split
    · exact (good_callback hcb).bind fun _ _ _ => good_pure _ _ _
    · exact (good_call _ _ _).bind fun _ _ _ => (good_output _ _ _).bind fun _ _ _ => good_pure _ _ _

theorem good_getPreorder (s : St) (l : List Nat) : Good (getPreorder s) l := trivial

theorem total_loop {n : Nat} (ih : Total c n) {s : St} {a last : Nat} {pre : Bool} {out : List Nat}
    {cs : List Call} {l : List Nat} {acc : Tok} (hA : At c.mem s (pos a last) pre out cs) (hh : Here c.mem last a l)
    (hn : 2 * l.length + 4 ≤ n + 1) : Good (contentLoop c (n + 1) acc s) l := by
  unfold contentLoop
  refine (good_isToken _ hA.lx hh).bind fun v1 s1 h1 => ?_
  have rest : ∀ {p l' : List Nat} {s2 : St} {pre' out' cs'} (acc' : Tok), l = p ++ l' → 0 < p.length →
      At c.mem s2 (pos (a + p.length) last) pre' out' cs' → Good (contentTail c n acc' s2) l := by
    rintro p l' s2 pre' out' cs' acc' rfl hp hA2
    exact (ih.tail hA2 hh.drop (by simp at hn; omega)).append _
  rcases tok_inv hA hh h1 with ⟨rfl, hA1, _⟩ | ⟨h, _⟩ | ⟨ws, l', sk, m, ad, e, hs, hx, rfl, hA1⟩
  · simp only
    refine (ih.element hA1 hh (by omega)).bind fun v2 s2 h2 => ?_
    cases v2 with
    | some e =>
      obtain ⟨ws, i, r, h, rfl, hs, _, _, hp, hq⟩ := (sound c n).element hA1 hh h2
      obtain rfl := hs.1 rfl
      have hpos := Item.render_pos i
      have hA2 : ∃ pre out cs, At c.mem s2 (pos (a + i.render.length) last) pre out cs := by
        cases pre with
        | true => exact ⟨_, _, _, (hp rfl).2⟩
        | false => obtain ⟨_, o, cs', _, h⟩ := hq rfl; exact ⟨_, _, _, h⟩
      obtain ⟨_, _, _, hA2⟩ := hA2
      simp only
      split
      · refine (good_getPreorder _ _).bind fun b s3 h3 => ?_
        obtain ⟨rfl, rfl⟩ := getPreorder_ok h3
        split
        · exact rest (p := i.render) (l' := r) _ rfl hpos hA2
        · refine (good_output _ _ _).bind fun _ s4 h4 => ?_
          simp only [output] at h4; cases h4
          exact rest (p := i.render) (l' := r) _ rfl hpos (s2 := { s3 with out := s3.out ++ _ }) ⟨hA2.lx, hA2.pre, rfl, hA2.calls⟩
      · exact rest (p := i.render) (l' := r) _ rfl hpos hA2
    | none =>
      simp only
      obtain ⟨hA2, _⟩ := isElement_none_inv hA1 h2
      refine (good_isToken _ hA2.lx hh).bind fun v3 s3 h3 => ?_
      rcases tok_inv hA2 hh h3 with ⟨rfl, hA3, _⟩ | ⟨h, _⟩ | ⟨ws, l', sk, m, ad, e, hs, hx, rfl, hA3⟩
      · exact good_pure _ _ _
      · cases h
      · obtain rfl := hs.1 rfl
        cases hx with
        | comment body r hb =>
        refine rest (pre' := pre) (out' := out) (cs' := cs) (p := 60 :: 33 :: 45 :: 45 :: (body ++ [45, 45, 62])) (l' := r) _ (by simp [e]) (by simp) ?_
        simpa [nextLx] using hA3
  · cases h
  · obtain rfl := hs.1 rfl
    have hA2 : ∃ p r, l = p ++ r ∧ 0 < p.length ∧ At c.mem s1 (pos (a + p.length) last) pre out cs := by
      cases hx with
      | ref body r hb =>
        exact ⟨38 :: (body ++ [59]), r, by simp [e], by simp, by simpa [nextLx] using hA1⟩
      | refOpen body hb =>
        exact ⟨38 :: body, [], by simp [e], by simp, by simpa [nextLx] using hA1⟩
    obtain ⟨p, r, hl, hp, hA2⟩ := hA2
    simp only
    split
    · refine (good_getPreorder _ _).bind fun b s3 h3 => ?_
      obtain ⟨rfl, rfl⟩ := getPreorder_ok h3
      split
      · exact rest _ hl hp hA2
      · refine (good_output _ _ _).bind fun _ s4 h4 => ?_
        simp only [output] at h4; cases h4
        exact rest _ hl hp (s2 := { s3 with out := s3.out ++ _ }) ⟨hA2.lx, hA2.pre, rfl, hA2.calls⟩
    · exact rest _ hl hp hA2

theorem total_content {n : Nat} (ih : Total c n) {s : St} {a last : Nat} {pre : Bool} {out : List Nat}
    {cs : List Call} {l : List Nat} (hA : At c.mem s (pos a last) pre out cs) (hh : Here c.mem last a l)
    (hn : 2 * l.length + 5 ≤ n + 1) : Good (isContent c (n + 1) s) l := by
  unfold isContent
  refine (good_isToken _ hA.lx hh).bind fun v1 s1 h1 => ?_
  obtain ⟨t, r, rfl, _, _, _, rfl, hA1⟩ := chars_inv hA hh h1
  have rest : ∀ {s2 : St} {pre' out' cs'} (acc' : Tok), At c.mem s2 (pos (a + t.length) last) pre' out' cs' →
      Good (contentLoop c n acc' s2) (t ++ r) := by
    intro s2 pre' out' cs' acc' hA2
    exact (ih.loop hA2 hh.drop (by simp at hn; omega)).append _
  by_cases ht : t = []
  · simp only [ht, if_true]; subst ht; exact rest _ hA1
  · simp only [ht, if_false]
    refine (good_getPreorder _ _).bind fun b s3 h3 => ?_
    obtain ⟨rfl, rfl⟩ := getPreorder_ok h3
    split
    · exact rest _ hA1
    · refine (good_output _ _ _).bind fun _ s4 h4 => ?_
      simp only [output] at h4; cases h4
      exact rest (s2 := { s3 with out := s3.out ++ _ }) _ ⟨hA1.lx, hA1.pre, rfl, hA1.calls⟩

theorem total_tail {n : Nat} (ih : Total c n) {s : St} {a last : Nat} {pre : Bool} {out : List Nat}
    {cs : List Call} {l : List Nat} {acc : Tok} (hA : At c.mem s (pos a last) pre out cs) (hh : Here c.mem last a l)
    (hn : 2 * l.length + 5 ≤ n + 1) : Good (contentTail c (n + 1) acc s) l := by
  unfold contentTail
  refine (good_isToken _ hA.lx hh).bind fun v1 s1 h1 => ?_
  obtain ⟨t, r, rfl, _, _, _, rfl, hA1⟩ := chars_inv hA hh h1
  have rest : ∀ {s2 : St} {pre' out' cs'} (acc' : Tok), At c.mem s2 (pos (a + t.length) last) pre' out' cs' →
      Good (contentLoop c n acc' s2) (t ++ r) := by
    intro s2 pre' out' cs' acc' hA2
    exact (ih.loop hA2 hh.drop (by simp at hn; omega)).append _
  by_cases ht : t = []
  · simp only [ht, if_true]; subst ht; exact rest _ hA1
  · simp only [ht, if_false]
    refine (good_getPreorder _ _).bind fun b s3 h3 => ?_
    obtain ⟨rfl, rfl⟩ := getPreorder_ok h3
    split
    · exact rest _ hA1
    · refine (good_output _ _ _).bind fun _ s4 h4 => ?_
      simp only [output] at h4; cases h4
      exact rest (s2 := { s3 with out := s3.out ++ _ }) _ ⟨hA1.lx, hA1.pre, rfl, hA1.calls⟩

theorem total (hc : NoRewrite c) (n : Nat) : Total c n := by
  induction n with
  | zero => exact ⟨by intros; omega, by intros; omega, by intros; omega, by intros; omega⟩
  | succ n ih =>
    exact ⟨fun h1 h2 h3 => total_element hc ih h1 h2 h3, fun h1 h2 h3 => total_content ih h1 h2 h3,
      fun h1 h2 h3 => total_tail ih h1 h2 h3, fun h1 h2 h3 => total_loop ih h1 h2 h3⟩

end Verif.Xml
