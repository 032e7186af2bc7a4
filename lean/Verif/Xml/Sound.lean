import Verif.Xml.Backward
/-! The rest of the soundness proof: content and replaced elements. -/
namespace Verif.Xml
open Verif.Xml.Spec
open Verif.XmlAttr (Mem Tok Attr)

variable {c : Cfg}

theorem chars_inv {s s' : St} {a last : Nat} {pre : Bool} {out : List Nat} {cs : List Call} {l : List Nat} {v : Option Tok}
    (hA : At c.mem s (pos a last) pre out cs) (hh : Here c.mem last a l) (hr : isToken c .charData s = .ok v s') :
    ∃ t r, l = t ++ r ∧ IsChars t ∧ (t ≠ [] → CharsEnd r) ∧ (t = [] → Next c.mem (pos (a + t.length) last) (· ≠ .charData)) ∧
      v = (if t = [] then none else some ⟨a, a + t.length⟩) ∧ At c.mem s' (pos (a + t.length) last) pre out cs := by
  rcases tok_inv hA hh hr with ⟨rfl, hA1, t, L, hg, hk⟩ | ⟨h, _⟩ | ⟨ws, l', sk, n, ad, rfl, hs, hx, rfl, hA1⟩
  · exact ⟨[], l, rfl, by simp [IsChars], by simp, fun _ => ⟨t, L, hg, hk⟩, by simp, hA1⟩
  · cases h
  · obtain rfl := hs.1 rfl
    cases hx with
    | chars t r hne hc he _ =>
    refine ⟨t, r, rfl, hc, fun _ => he, fun h => absurd h hne, by simp [hne], ?_⟩
    simpa [nextLx] using hA1

theorem elementRest_some {n : Nat} {o st : Tok} {p q : Bool} {ats : List Attr} {s s' : St} :
    elementRest c n o st p q ats s ≠ .ok none s' := by
  intro hr
  simp only [elementRest] at hr
  obtain ⟨v, s1, _, hr⟩ := bind_ok hr
  cases v with
  | some cl =>
    cases p with
    | true =>
      obtain ⟨_, _, _, hr⟩ := bind_ok hr
      cases (pure_ok hr).1
    | false =>
      obtain ⟨_, _, _, hr⟩ := bind_ok hr
      obtain ⟨_, _, _, hr⟩ := bind_ok hr
      cases (pure_ok hr).1
  | none =>
    obtain ⟨_, s2, _, hr⟩ := bind_ok hr
    obtain ⟨s3, _, hr⟩ := ite_output_ok (c := c) (L := s2.lx) (pre := s2.preorder) (out := s2.out) (cs := s2.calls)
      ⟨Same.refl _, rfl, rfl, rfl⟩ hr
    obtain ⟨_, _, _, hr⟩ := bind_ok hr
    obtain ⟨w, _, _, hr⟩ := bind_ok hr
    cases w with
    | none => simp [throw] at hr
    | some w =>
      obtain ⟨et, ct⟩ := w
      simp only at hr
      split at hr
      · simp [throw] at hr
      · split at hr
        · obtain ⟨_, _, _, hr⟩ := bind_ok hr
          obtain ⟨_, _, _, hr⟩ := bind_ok hr
          cases (pure_ok hr).1
        · obtain ⟨_, _, _, hr⟩ := bind_ok hr
          cases (pure_ok hr).1

theorem isElement_none_inv {n : Nat} {s s' : St} {L : Lx} {pre out cs} (hA : At c.mem s L pre out cs)
    (hr : isElement c n s = .ok none s') : At c.mem s' L pre out cs ∧ Next c.mem L (· ≠ .openTag) := by
  cases n with
  | zero => simp [isElement, stuck] at hr
  | succ n =>
    rw [isElement_eq] at hr
    obtain ⟨v, s1, h1, hr⟩ := bind_ok hr
    obtain ⟨t, L', hg, ⟨hk, rfl, hA1⟩ | ⟨hk, rfl, hA1⟩⟩ := isToken_inv hA h1
    · obtain ⟨_, _, _, hr⟩ := bind_ok hr
      obtain ⟨_, _, _, hr⟩ := bind_ok hr
      obtain ⟨_, _, _, hr⟩ := bind_ok hr
      obtain ⟨_, _, _, hr⟩ := bind_ok hr
      exact absurd hr elementRest_some
    · obtain ⟨_, rfl⟩ := pure_ok hr
      exact ⟨hA1, t, L', hg, hk⟩

theorem Content.of_render_nil {x : Content} {r : List Nat} (h : [] = x.render ++ r) : x = .nil [] ∧ r = [] := by
  cases x with
  | nil t => simp [Content.render] at h; simp [h]
  | openRef t b => simp [Content.render] at h
  | cons t i rest => cases i <;> simp [Content.render, Item.render] at h

theorem Item.render_pos (i : Item) : 0 < i.render.length := by cases i <;> simp [Item.render]

theorem getPreorder_ok {s s' : St} {b : Bool} (h : getPreorder s = .ok b s') : b = s.preorder ∧ s' = s := by
  simp only [getPreorder] at h; cases h; exact ⟨rfl, rfl⟩

/-- After character data there is no more of it. -/
theorem not_chars {a last : Nat} {l t : List Nat} {tk : Token} {L : Lx} (hh : Here c.mem last a l)
    (he : t ≠ [] → CharsEnd l) (hn : t = [] → Next c.mem (pos a last) (· ≠ .charData))
    (hg : getToken c.mem (pos a last) = .ok tk L) : tk.kind ≠ .charData := by
  by_cases ht : t = []
  · obtain ⟨tk', L', hg', hk⟩ := hn ht
    rw [hg] at hg'; cases hg'; exact hk
  · obtain ⟨ws, l', rfl, hs, h | ⟨sk, n, ad, hx, _, _⟩⟩ := get_inv hh hg
    · obtain ⟨_, rfl, _⟩ := h; simp
    · obtain rfl := hs.1 rfl
      intro hk
      rw [hk] at hx
      have he := he ht
      cases hx with
      | chars u r hne hc _ _ =>
        obtain ⟨d, u', rfl⟩ := List.exists_cons_of_ne_nil hne
        have := hc.1 d (by simp)
        rcases he with h | ⟨r', h⟩ | ⟨r', h⟩
        · simp at h
        · simp at h; omega
        · simp at h; omega

/-- Content with the character data that was read before. -/
theorem sound_cons {a last : Nat} {pre : Bool} {out : List Nat} {cs : List Call} {r0 t : List Nat} {acc v : Tok} {s1 s' : St}
    {n : Nat} (ih : Sound c n) {i : Item} (ht : IsChars t) (hi : i.Ok) {o : List Nat} {cs1 : List Call}
    (hh : Here c.mem last a (i.render ++ r0))
    (hsem : pre = false → ItemSem c a i cs o cs1) (hcs : pre = true → cs1 = cs)
    (hA1 : At c.mem s1 (pos (a + i.render.length) last) pre (if pre then out else out ++ o) cs1)
    (hr : contentTail c n (if pre then addItem acc a i else acc) s1 = .ok v s') :
    ∃ x r, i.render ++ r0 = Content.body x ++ r ∧ x.chars = t ∧ x.Ok ∧ x.Stops r ∧
      (pre = true → v = x.after acc a ∧ At c.mem s' (pos (a + x.body.length) last) true out cs) ∧
      (pre = false → v = acc ∧ ∃ o cs', (∀ a0, a = a0 + t.length → ContentSem c a0 x cs (t ++ o) cs') ∧
        At c.mem s' (pos (a + x.body.length) last) false (out ++ o) cs') := by
  obtain ⟨x, r, rfl, hx, hxs, h1, h2⟩ := ih.tail hA1 hh.drop hr
  refine ⟨.cons t i x, r, by simp [Content.body], rfl, ⟨ht, hi, hx⟩, hxs, ?_, ?_⟩
  · rintro rfl
    obtain ⟨rfl, hA2⟩ := h1 rfl
    obtain rfl := hcs rfl
    refine ⟨rfl, ?_⟩
    simp only [Content.body, List.length_append, ← Nat.add_assoc]
    exact hA2
  · rintro rfl
    obtain ⟨rfl, o', cs', hs, hA2⟩ := h2 rfl
    refine ⟨rfl, o ++ o', cs', ?_, ?_⟩
    · rintro a0 rfl
      exact .cons (hsem rfl) hs
    · simp only [Content.body, List.length_append, ← Nat.add_assoc]
      simp only [Bool.false_eq_true, if_false] at hA2
      rw [← List.append_assoc]
      exact hA2

theorem sound_loop {n : Nat} (ih : Sound c n) {s s' : St} {a last : Nat} {pre : Bool} {out : List Nat} {cs : List Call}
    {l t : List Nat} {acc v : Tok} (hA : At c.mem s (pos a last) pre out cs) (hh : Here c.mem last a l) (ht : IsChars t)
    (he : t ≠ [] → CharsEnd l) (hn : t = [] → Next c.mem (pos a last) (· ≠ .charData))
    (hr : contentLoop c (n + 1) acc s = .ok v s') :
    ∃ x r, l = Content.body x ++ r ∧ x.chars = t ∧ x.Ok ∧ x.Stops r ∧
      (pre = true → v = x.after acc a ∧ At c.mem s' (pos (a + x.body.length) last) true out cs) ∧
      (pre = false → v = acc ∧ ∃ o cs', (∀ a0, a = a0 + t.length → ContentSem c a0 x cs (t ++ o) cs') ∧
        At c.mem s' (pos (a + x.body.length) last) false (out ++ o) cs') := by
  have hr0 := hr
  unfold contentLoop at hr
  obtain ⟨v1, s1, h1, hr⟩ := bind_ok hr
  rcases tok_inv hA hh h1 with ⟨rfl, hA1, tk, L, hg, hk1⟩ | ⟨h, _⟩ | ⟨ws, l', sk, m, ad, rfl, hs, hx, rfl, hA1⟩
  · simp only at hr
    obtain ⟨v2, s2, h2, hr⟩ := bind_ok hr
    cases v2 with
    | some e =>
      simp only at hr
      obtain ⟨ws, i, r, h, rfl, hs, hi, hd, hp, hq⟩ := ih.element hA1 hh h2
      obtain rfl := hs.1 rfl
      simp only [List.length_nil, Nat.add_zero, List.nil_append] at hp hq hh
      have hnc : i.isComment = false := by cases i <;> simp_all [Item.head?, Item.isComment]
      cases pre with
      | true =>
        obtain ⟨rfl, hA2⟩ := hp rfl
        have hpos := Item.render_pos i
        have hsz : (i.entire a).size ≠ 0 := by simp only [Item.entire, Tok.size]; omega
        rw [if_pos hsz] at hr
        obtain ⟨b, s3, h3, hr⟩ := bind_ok hr
        obtain ⟨rfl, rfl⟩ := getPreorder_ok h3
        rw [hA2.pre] at hr
        simp only [if_true] at hr
        refine sound_cons (pre := true) (o := []) ih ht hi hh (by simp) (fun _ => rfl) (by simpa using hA2) (acc := acc) ?_
        simp only [if_true, addItem, hnc, Bool.false_eq_true, if_false, addPiece]
        exact hr
      | false =>
        obtain ⟨rfl, o, cs', hsem, hA2⟩ := hq rfl
        rw [if_neg (by simp [null_size])] at hr
        exact sound_cons (pre := false) ih ht hi hh (fun _ => hsem) (by simp) (by simpa using hA2) (acc := acc) hr
    | none =>
      simp only at hr
      obtain ⟨hA2, tk2, L2, hg2, hk2⟩ := isElement_none_inv hA1 h2
      obtain ⟨v3, s3, h3, hr⟩ := bind_ok hr
      rw [hg] at hg2; cases hg2
      rcases tok_inv hA2 hh h3 with ⟨rfl, hA3, tk3, L3, hg3, hk3⟩ | ⟨h, _⟩ | ⟨ws, l', sk, m, ad, rfl, hs, hx, rfl, hA3⟩
      · obtain ⟨rfl, rfl⟩ := pure_ok hr
        rw [hg] at hg3; cases hg3
        have hk4 := not_chars hh he hn hg
        refine ⟨.nil t, l, by simp [Content.body], rfl, ht, ?_, ?_, ?_⟩
        · obtain ⟨ws, l', rfl, hs, h | ⟨sk, m, ad, hx, _, _⟩⟩ := get_inv hh hg
          · obtain rfl := hs.1 rfl
            exact .inl (by simpa using h.1)
          · obtain rfl := hs.1 rfl
            have ht0 : ∀ d r, ([] : List Nat) ++ l' = d :: r → d ≠ 60 → d ≠ 38 → t = [] := by
              intro d r hd h60 h38
              by_contra hne
              rcases he hne with h | ⟨r', h⟩ | ⟨r', h⟩
              · rw [hd] at h; simp at h
              · rw [hd] at h; simp at h; omega
              · rw [hd] at h; simp at h; omega
            generalize hkk : tk.kind = k at hx hk1 hk2 hk3 hk4
            cases hx with
            | pi body r hb => exact .inr (.inr (.inl ⟨body, r, hb, by simp⟩))
            | comment => exact absurd rfl hk3
            | openSlash r => exact .inr (.inl ⟨r, by simp⟩)
            | openTag => exact absurd rfl hk2
            | closeTag r => exact .inr (.inr (.inr ⟨ht0 62 r rfl (by omega) (by omega), .inl ⟨r, by simp⟩⟩))
            | slashClose r => exact .inr (.inr (.inr ⟨ht0 47 _ rfl (by omega) (by omega), .inr ⟨r, by simp⟩⟩))
            | ref => exact absurd rfl hk1
            | refOpen => exact absurd rfl hk1
            | chars => exact absurd rfl hk4
        · rintro rfl
          exact ⟨rfl, by simpa [Content.body] using hA3⟩
        · rintro rfl
          refine ⟨rfl, [], cs, fun a0 _ => by simpa using ContentSem.nil, by simpa [Content.body] using hA3⟩
      · cases h
      · obtain rfl := hs.1 rfl
        cases hx with
        | comment body r hb =>
        have e : ([] ++ 60 :: 33 :: 45 :: 45 :: (body ++ 45 :: 45 :: 62 :: r)) = (Item.comment body).render ++ r := by
          simp [Item.render]
        rw [e] at hh ⊢
        have hA3' : At c.mem s3 (pos (a + (Item.comment body).render.length) last) pre out cs := by
          simpa [nextLx, Item.render] using hA3
        refine sound_cons (o := []) ih ht (i := .comment body) hb hh (fun _ => .comment) (fun _ => rfl) (by simpa using hA3')
          (acc := acc) ?_
        simpa [addItem, Item.isComment] using hr
  · cases h
  · obtain rfl := hs.1 rfl
    cases hx with
    | ref body r hb =>
      have e : ([] ++ 38 :: (body ++ 59 :: r)) = (Item.ref body).render ++ r := by simp [Item.render]
      have hx : Lexeme false ((Item.ref body).render ++ r) .reference 0 (Item.ref body).render.length (Item.ref body).render.length := by
        rw [← e]; simpa [Item.render] using Lexeme.ref (b := false) body r hb
      rw [e] at hh ⊢
      obtain ⟨s2, e2, hA2⟩ := contentLoop_ref (n := n) (acc := acc) hA hh hx rfl
      rw [hr0] at e2
      refine sound_cons (s1 := s2) (o := refText c.byName body) ih ht (i := .ref body) hb hh (fun _ => .ref) (fun _ => rfl) ?_ (acc := acc) ?_
      · have et : transformReference c (Item.ref body).render = refText c.byName body := transformReference_ref body
        rwa [et] at hA2
      · simpa [addItem, Item.isComment] using e2.symm
    | refOpen body hb =>
      simp only [List.nil_append] at hh ⊢
      have hh' : Here c.mem last a (38 :: body ++ []) := by simpa using hh
      obtain ⟨s2, e2, hA2⟩ := contentLoop_ref (n := n) (acc := acc) (l := 38 :: body) (r := []) hA hh'
        (by simpa using Lexeme.refOpen (b := false) body hb) (by simp)
      rw [hr0] at e2
      obtain ⟨x, r, hxr, hx, hxs, h1, h2⟩ := ih.tail hA2 hh'.drop e2.symm
      obtain ⟨rfl, rfl⟩ := Content.of_render_nil hxr
      refine ⟨.openRef t body, [], by simp [Content.body], rfl, ⟨ht, hb⟩, rfl, ?_, ?_⟩
      · rintro rfl
        obtain ⟨rfl, hA3⟩ := h1 rfl
        refine ⟨?_, by simpa [Content.body, Content.render] using hA3⟩
        simp [Content.follow, Content.after, addChars]
        congr 1; omega
      · rintro rfl
        obtain ⟨rfl, o, cs', hsem, hA3⟩ := h2 rfl
        cases hsem
        refine ⟨by simp, openRefText c.byName body, _, fun a0 _ => .openRef, ?_⟩
        rw [← transformReference_open (c := c)]
        simpa [Content.body, Content.render] using hA3

theorem sound_content {n : Nat} (ih : Sound c n) {s s' : St} {a last : Nat} {pre : Bool} {out : List Nat} {cs : List Call}
    {l : List Nat} {v : Tok} (hA : At c.mem s (pos a last) pre out cs) (hh : Here c.mem last a l)
    (hr : isContent c (n + 1) s = .ok v s') :
    ∃ x r, l = Content.render x ++ r ∧ x.Ok ∧ x.Stops r ∧
      (pre = true → v = x.range a ∧ At c.mem s' (pos (a + x.render.length) last) true out cs) ∧
      (pre = false → v = .null ∧ ∃ o cs', ContentSem c a x cs o cs' ∧ At c.mem s' (pos (a + x.render.length) last) false (out ++ o) cs') := by
  unfold isContent at hr
  obtain ⟨v1, s1, h1, hr⟩ := bind_ok hr
  obtain ⟨t, r, rfl, ht, he, hn, rfl, hA1⟩ := chars_inv hA hh h1
  have key : ∀ {s2 : St} {acc : Tok}, At c.mem s2 (pos (a + t.length) last) pre (if pre then out else out ++ t) cs →
      contentLoop c n acc s2 = .ok v s' → acc = (if pre then lead a t else .null) →
      ∃ x r', t ++ r = Content.render x ++ r' ∧ x.Ok ∧ x.Stops r' ∧
      (pre = true → v = x.range a ∧ At c.mem s' (pos (a + x.render.length) last) true out cs) ∧
      (pre = false → v = .null ∧ ∃ o cs', ContentSem c a x cs o cs' ∧ At c.mem s' (pos (a + x.render.length) last) false (out ++ o) cs') := by
    rintro s2 acc hA2 h2 rfl
    obtain ⟨x, r', rfl, rfl, hx, hxs, hp, hq⟩ := ih.loop hA2 hh.drop ht he hn h2
    refine ⟨x, r', by rw [Content.render_eq, List.append_assoc], hx, hxs, ?_, ?_⟩
    · rintro rfl
      obtain ⟨rfl, hA3⟩ := hp rfl
      rw [Content.range_eq, Content.length_eq, ← Nat.add_assoc]
      exact ⟨by simp, by simpa using hA3⟩
    · rintro rfl
      obtain ⟨rfl, o, cs', hsem, hA3⟩ := hq rfl
      refine ⟨by simp, _, cs', hsem a rfl, ?_⟩
      rw [Content.length_eq, ← Nat.add_assoc, ← List.append_assoc]
      simpa using hA3
  by_cases ht0 : t = []
  · subst ht0
    simp only [if_true] at hr
    refine key ?_ hr (by cases pre <;> simp [lead])
    cases pre <;> simpa using hA1
  · simp only [ht0, if_false] at hr
    obtain ⟨b, s2, h2, hr⟩ := bind_ok hr
    obtain ⟨rfl, rfl⟩ := getPreorder_ok h2
    rw [hA1.pre] at hr
    cases pre with
    | true => exact key (by simpa using hA1) hr (by simp [lead, ht0])
    | false =>
      simp only [Bool.false_eq_true, if_false] at hr
      obtain ⟨_, s3, h3, hr⟩ := bind_ok hr
      simp only [output] at h3
      cases h3
      refine key ?_ hr (by simp)
      exact ⟨hA1.lx, hA1.pre, by simp [hA1.out, hh.text], hA1.calls⟩

theorem sound_tail {n : Nat} (ih : Sound c n) {s s' : St} {a last : Nat} {pre : Bool} {out : List Nat} {cs : List Call}
    {l : List Nat} {acc v : Tok} (hA : At c.mem s (pos a last) pre out cs) (hh : Here c.mem last a l)
    (hr : contentTail c (n + 1) acc s = .ok v s') :
    ∃ x r, l = Content.render x ++ r ∧ x.Ok ∧ x.Stops r ∧
      (pre = true → v = x.follow acc a ∧ At c.mem s' (pos (a + x.render.length) last) true out cs) ∧
      (pre = false → v = acc ∧ ∃ o cs', ContentSem c a x cs o cs' ∧ At c.mem s' (pos (a + x.render.length) last) false (out ++ o) cs') := by
  unfold contentTail at hr
  obtain ⟨v1, s1, h1, hr⟩ := bind_ok hr
  obtain ⟨t, r, rfl, ht, he, hn, rfl, hA1⟩ := chars_inv hA hh h1
  have key : ∀ {s2 : St} {acc' : Tok}, At c.mem s2 (pos (a + t.length) last) pre (if pre then out else out ++ t) cs →
      contentLoop c n acc' s2 = .ok v s' → acc' = (if pre then addChars acc a (a + t.length) else acc) →
      ∃ x r', t ++ r = Content.render x ++ r' ∧ x.Ok ∧ x.Stops r' ∧
      (pre = true → v = x.follow acc a ∧ At c.mem s' (pos (a + x.render.length) last) true out cs) ∧
      (pre = false → v = acc ∧ ∃ o cs', ContentSem c a x cs o cs' ∧ At c.mem s' (pos (a + x.render.length) last) false (out ++ o) cs') := by
    rintro s2 acc' hA2 h2 rfl
    obtain ⟨x, r', rfl, rfl, hx, hxs, hp, hq⟩ := ih.loop hA2 hh.drop ht he hn h2
    refine ⟨x, r', by rw [Content.render_eq, List.append_assoc], hx, hxs, ?_, ?_⟩
    · rintro rfl
      obtain ⟨rfl, hA3⟩ := hp rfl
      rw [Content.follow_eq, Content.length_eq, ← Nat.add_assoc]
      exact ⟨by simp, by simpa using hA3⟩
    · rintro rfl
      obtain ⟨rfl, o, cs', hsem, hA3⟩ := hq rfl
      refine ⟨by simp, _, cs', hsem a rfl, ?_⟩
      rw [Content.length_eq, ← Nat.add_assoc, ← List.append_assoc]
      simpa using hA3
  by_cases ht0 : t = []
  · subst ht0
    simp only [if_true] at hr
    refine key ?_ hr (by cases pre <;> simp [addChars])
    cases pre <;> simpa using hA1
  · simp only [ht0, if_false] at hr
    obtain ⟨b, s2, h2, hr⟩ := bind_ok hr
    obtain ⟨rfl, rfl⟩ := getPreorder_ok h2
    rw [hA1.pre] at hr
    cases pre with
    | true => exact key (by simpa using hA1) hr (by simp [addChars, ht0])
    | false =>
      simp only [Bool.false_eq_true, if_false] at hr
      obtain ⟨_, s3, h3, hr⟩ := bind_ok hr
      simp only [output] at h3
      cases h3
      refine key ?_ hr (by simp)
      exact ⟨hA1.lx, hA1.pre, by simp [hA1.out, hh.text], hA1.calls⟩

theorem sound_callback {n : Nat} (ih : Sound c n) {s s' : St} {L : Lx} {pre : Bool} {out : List Nat} {cs : List Call}
    {old start value e : Tok} {attrs : List Attr} (hA : At c.mem s L pre out cs)
    (hr : contentCallback c (n + 1) old start attrs value true s = .ok e s') :
    e = .null ∧ ∃ t, c.callback cs ⟨old, start, attrs, value⟩ = some t ∧
      ((t = old ∧ At c.mem s' L false (out ++ old.text c.mem) (cs ++ [⟨old, start, attrs, value⟩])) ∨
       (t ≠ old ∧ t.first ≤ t.second ∧ ∃ new rest o cs', t.text c.mem = Content.render new ++ rest ∧ new.Ok ∧ new.Stops rest ∧
          ContentSem c t.first new (cs ++ [⟨old, start, attrs, value⟩]) o cs' ∧ At c.mem s' L false (out ++ o) cs')) := by
  simp only [contentCallback, if_true] at hr
  obtain ⟨t, s1, h1, hr⟩ := bind_ok hr
  unfold call at h1
  split at h1
  · cases h1
  next t' hc =>
  cases h1
  rw [hA.calls] at hc
  by_cases hto : old = t
  · rw [if_pos hto] at hr
    obtain ⟨_, s2, h2, hr⟩ := bind_ok hr
    obtain ⟨_, s3, h3, hr⟩ := bind_ok hr
    obtain ⟨rfl, rfl⟩ := pure_ok hr
    simp only [output] at h2; cases h2
    simp only [setPreorder] at h3; cases h3
    exact ⟨rfl, t, hc, .inl ⟨hto.symm, ⟨hA.lx, rfl, by simp [hA.out], by simp [hA.calls]⟩⟩⟩
  · rw [if_neg hto] at hr
    obtain ⟨_, s1, h1, hr⟩ := bind_ok hr
    obtain ⟨_, s2, h2, hr⟩ := bind_ok hr
    obtain ⟨_, s3, h3, hr⟩ := bind_ok hr
    obtain ⟨rfl, rfl⟩ := pure_ok hr
    simp only [setPreorder] at h3; cases h3
    obtain ⟨hA1, _⟩ := nextPosition_inv (L := L) (pre := pre) (out := out) (calls := cs ++ [⟨old, start, attrs, value⟩])
      (s := { s with calls := s.calls ++ [⟨old, start, attrs, value⟩] }) ⟨hA.lx, hA.pre, hA.out, by simp [hA.calls]⟩ h1
    unfold subParse at h2
    split at h2
    · next s4 h4 =>
      cases h2
      obtain ⟨hle, x, r, o, cs', ht, hx, hxs, hsem, ho, hcs⟩ := ih.parse (s := { s1 with lx := Lx.new t, preorder := false }) (a := t.first) (last := t.second) rfl rfl hA1.out hA1.calls h4
      exact ⟨rfl, t, hc, .inr ⟨Ne.symm hto, hle, x, r, o, cs', ht, hx, hxs, hsem, ⟨hA1.lx, rfl, ho, hcs⟩⟩⟩
    · cases h2
    · cases h2
    · cases h2

theorem sound_parseLoop {n : Nat} (ih : Sound c n) {s s' : St} {a last : Nat} {out : List Nat} {cs : List Call}
    (hA : At c.mem s (pos a last) false out cs) (hr : parseContentLoop c (n + 1) s = .ok () s') :
    a ≤ last ∧ ∃ x r o cs', (Tok.mk a last).text c.mem = Content.render x ++ r ∧ x.Ok ∧ x.Stops r ∧ ContentSem c a x cs o cs' ∧
      s'.out = out ++ o ∧ s'.calls = cs' := by
  unfold parseContentLoop at hr
  obtain ⟨v, s1, h1, hr⟩ := bind_ok hr
  by_cases hle : a ≤ last
  · refine ⟨hle, ?_⟩
    obtain ⟨x, r, ht, hx, hxs, _, hq⟩ := ih.content hA (here_of_le c.mem hle) h1
    obtain ⟨rfl, o, cs', hsem, hA1⟩ := hq rfl
    rw [if_neg (by simp [null_size])] at hr
    obtain ⟨_, rfl⟩ := pure_ok hr
    exact ⟨x, r, o, cs', ht, hx, hxs, hsem, hA1.out, hA1.calls⟩
  · exfalso
    have hg : getToken c.mem s.lx = .ub := hA.lx.trans (get_past (by omega))
    cases n with
    | zero => simp [isContent, stuck] at h1
    | succ n => simp [isContent, isToken, bind_eq, lex, hg] at h1

theorem sound_parse {n : Nat} (ih : Sound c n) {s s' : St} {a last : Nat} {out : List Nat} {cs : List Call}
    (hl : s.lx = Lx.new ⟨a, last⟩) (hp : s.preorder = false) (ho : s.out = out) (hc : s.calls = cs)
    (hr : parseContent c (n + 1) s = .ok () s') :
    a ≤ last ∧ ∃ x r o cs', (Tok.mk a last).text c.mem = Content.render x ++ r ∧ x.Ok ∧ x.Stops r ∧ ContentSem c a x cs o cs' ∧
      s'.out = out ++ o ∧ s'.calls = cs' := by
  unfold parseContent at hr
  obtain ⟨_, s1, h1, hr⟩ := bind_ok hr
  simp only [lex] at h1
  cases h1
  refine ih.parseLoop (s := { s with lx := { s.lx with skipWhite := false } }) (a := a) (last := last) ⟨?_, hp, ho, hc⟩ hr
  unfold Same pos lxAt
  rw [← getToken_cur _ _ ⟨.eof, .null⟩]
  simp [hl, Lx.new]

theorem sound (c : Cfg) (n : Nat) : Sound c n := by
  induction n with
  | zero => exact sound_zero
  | succ n ih =>
    exact ⟨fun h1 h2 h3 => sound_element ih h1 h2 h3, fun h1 h2 h3 => sound_content ih h1 h2 h3,
      fun h1 h2 h3 => sound_tail ih h1 h2 h3, fun h1 h2 h3 h4 h5 h6 => sound_loop ih h1 h2 h3 h4 h5 h6,
      fun h1 h2 => sound_callback ih h1 h2, fun h1 h2 h3 h4 h5 => sound_parse ih h1 h2 h3 h4 h5,
      fun h1 h2 => sound_parseLoop ih h1 h2⟩

end Verif.Xml
