import Verif.Xml.Tokens
import Verif.XmlAttr.Props
/-! Tags: attributes, start tags and end tags, in both directions. -/
namespace Verif.Xml
open Verif.Xml.Spec
open Verif.XmlAttr (Mem Tok Attr)

variable {c : Cfg}

section
variable {k : Kind} {s s' : St} {a last : Nat} {b w : Bool} {ws l : List Nat} {pre : Bool} {out : List Nat} {calls : List Call}
  {sk n ad : Nat}

theorem tok_yes (h : At c.mem s (lxAt a last b w) pre out calls) (hh : Here c.mem last a (ws ++ l)) (hs : Skips w ws l)
    (hx : Lexeme b l k sk n ad) : Run c.mem (isToken c k s) (some ⟨a + ws.length + sk, a + ws.length + sk + n⟩)
      (nextLx (a + ws.length + ad) last b w k) pre out calls := by
  obtain ⟨L, h1, h2⟩ := get_tok hh hs hx
  exact (run_isToken_yes h h1 rfl).same h2

theorem tok_no {k' : Kind} (h : At c.mem s (lxAt a last b w) pre out calls) (hh : Here c.mem last a (ws ++ l))
    (hs : Skips w ws l) (hx : Lexeme b l k' sk n ad) (hk : k' ≠ k) :
    Run c.mem (isToken c k s) none (lxAt a last b w) pre out calls := by
  obtain ⟨L, h1, h2⟩ := get_tok hh hs hx
  exact run_isToken_no h h1 hk

theorem req_yes (h : At c.mem s (lxAt a last b w) pre out calls) (hh : Here c.mem last a (ws ++ l)) (hs : Skips w ws l)
    (hx : Lexeme b l k sk n ad) : Run c.mem (requireToken c k s) ⟨a + ws.length + sk, a + ws.length + sk + n⟩
      (nextLx (a + ws.length + ad) last b w k) pre out calls := by
  obtain ⟨L, h1, h2⟩ := get_tok hh hs hx
  exact (run_require h h1 rfl).same h2

theorem tok_inv {v : Option Tok} (h : At c.mem s (lxAt a last b w) pre out calls) (hh : Here c.mem last a l)
    (hr : isToken c k s = .ok v s') :
    (v = none ∧ At c.mem s' (lxAt a last b w) pre out calls ∧ ∃ t L, getToken c.mem (lxAt a last b w) = .ok t L ∧ t.kind ≠ k) ∨
    (k = .eof ∧ v = some ⟨last, last⟩) ∨
    ∃ ws l' sk n ad, l = ws ++ l' ∧ Skips w ws l' ∧ Lexeme b l' k sk n ad ∧
      v = some ⟨a + ws.length + sk, a + ws.length + sk + n⟩ ∧ At c.mem s' (nextLx (a + ws.length + ad) last b w k) pre out calls := by
  obtain ⟨t, L', hg, h1⟩ := isToken_inv h hr
  rcases h1 with ⟨hk, rfl, hA⟩ | ⟨hk, rfl, hA⟩
  · obtain ⟨ws, l', e, hs, h2⟩ := get_inv hh hg
    rcases h2 with ⟨_, rfl, _⟩ | ⟨sk, n, ad, hx, hrange, hS⟩
    · exact .inr (.inl ⟨hk.symm, rfl⟩)
    · subst hk
      exact .inr (.inr ⟨ws, l', sk, n, ad, e, hs, hx, by rw [hrange], hA.same hS⟩)
  · exact .inl ⟨rfl, hA, t, L', hg, hk⟩

theorem req_inv {v : Tok} (h : At c.mem s (lxAt a last b w) pre out calls) (hh : Here c.mem last a l)
    (hr : requireToken c k s = .ok v s') (hk : k ≠ .eof) :
    ∃ ws l' sk n ad, l = ws ++ l' ∧ Skips w ws l' ∧ Lexeme b l' k sk n ad ∧
      v = ⟨a + ws.length + sk, a + ws.length + sk + n⟩ ∧ At c.mem s' (nextLx (a + ws.length + ad) last b w k) pre out calls := by
  obtain ⟨t, L', hg, rfl, rfl, hA⟩ := require_inv h hr
  obtain ⟨ws, l', e, hs, h2⟩ := get_inv hh hg
  rcases h2 with ⟨_, rfl, _⟩ | ⟨sk, n, ad, hx, hrange, hS⟩
  · exact absurd rfl hk
  · exact ⟨ws, l', sk, n, ad, e, hs, hx, hrange, hA.same hS⟩

end

theorem skips_name {ws nm r : List Nat} (hb : Blank ws) (hn : IsName nm) : Skips true ws (nm ++ r) := by
  refine ⟨by simp, hb, fun _ c r' h hw => ?_⟩
  obtain ⟨⟨d, t, rfl, hd⟩, _⟩ := hn
  simp at h
  rw [h.1] at hd
  unfold NameStart White at *
  omega

theorem skips_cons {ws : List Nat} {d : Nat} {r : List Nat} (hb : Blank ws) (hd : ¬ White d) : Skips true ws (d :: r) := by
  refine ⟨by simp, hb, fun _ c r' h hw => ?_⟩
  simp at h
  exact hd (h.1 ▸ hw)

theorem not_nameChar_blank {ws r : List Nat} {d : Nat} (hb : Blank ws) (hd : ¬ NameChar d) :
    ∀ e r', ws ++ d :: r = e :: r' → ¬ NameChar e := by
  intro e r' h
  cases ws with
  | nil => simp at h; rw [← h.1]; exact hd
  | cons x ws =>
    simp at h
    have := hb x (by simp)
    rw [← h.1]
    unfold White at this
    unfold NameChar NameStart
    omega

theorem At.tag {s : St} {a a' last : Nat} {b w : Bool} {pre : Bool} {out : List Nat} {calls : List Call}
    (h : At c.mem s (lxAt a last b w) pre out calls) (e : a = a') : At c.mem s (lxAt a' last b w) pre out calls := e ▸ h

/-- An attribute is read. -/
theorem run_isAttribute {s : St} {a last : Nat} {pre : Bool} {out : List Nat} {calls : List Call} {x : Att} {r : List Nat}
    (h : At c.mem s (tag a last) pre out calls) (hh : Here c.mem last a (x.render ++ r)) (hx : x.Ok) :
    Run c.mem (isAttribute c s) (some (⟨a + x.before.length, a + x.before.length + x.name.length⟩,
        ⟨a + x.before.length + x.name.length + x.mid.length + 1 + x.after.length + 1,
         a + x.before.length + x.name.length + x.mid.length + 1 + x.after.length + 1 + x.value.length⟩))
      (tag (a + x.render.length) last) pre out calls := by
  have e : x.render ++ r = x.before ++ (x.name ++ (x.mid ++ 61 :: (x.after ++ x.tick :: (x.value ++ x.tick :: r)))) := by
    simp [Att.render]
  rw [e] at hh
  have hh1 := hh.drop.drop
  have hh2 : Here c.mem last (a + x.before.length + x.name.length + x.mid.length + 1)
    (x.after ++ x.tick :: (x.value ++ x.tick :: r)) := by
    have := hh1.drop (l1 := x.mid) (l2 := 61 :: (x.after ++ x.tick :: (x.value ++ x.tick :: r)))
    exact Here.drop (l1 := [61]) this
  unfold isAttribute
  refine (tok_yes h hh (skips_name hx.before hx.name)
    (Lexeme.name _ _ hx.name (not_nameChar_blank hx.mid (by unfold NameChar NameStart; omega)))).bind fun s1 h1 => ?_
  simp only [nextLx, Nat.add_zero] at h1 ⊢
  refine (req_yes h1 hh1 (skips_cons hx.mid (by unfold White; omega)) (Lexeme.equals _)).bind fun s2 h2 => ?_
  simp only [nextLx, Nat.add_zero] at h2 ⊢
  refine (req_yes h2 hh2 (skips_cons hx.after (by have := hx.tick; unfold Quote at this; unfold White; omega))
    (Lexeme.attValue _ _ _ hx.tick hx.value)).bind fun s3 h3 => ?_
  simp only [nextLx] at h3
  refine ⟨s3, ?_, h3.tag (by simp [Att.render]; omega)⟩
  rfl

/-- The end of a tag: `>` or `/>`. -/
def IsEnd (l : List Nat) : Prop := [62] <+: l ∨ [47, 62] <+: l

theorem IsEnd.skips {ws l : List Nat} (hb : Blank ws) (h : IsEnd l) : Skips true ws l := by
  rcases h with ⟨r, rfl⟩ | ⟨r, rfl⟩ <;> exact skips_cons hb (by unfold White; omega)

theorem IsEnd.lexeme {l : List Nat} (h : IsEnd l) {b : Bool} : ∃ k n, Lexeme b l k 0 n n ∧ (k = .closeTag ∨ k = .slashClose) := by
  rcases h with ⟨r, rfl⟩ | ⟨r, rfl⟩
  · exact ⟨_, _, .closeTag r, .inl rfl⟩
  · exact ⟨_, _, .slashClose r, .inr rfl⟩

theorem run_isAttribute_none {s : St} {a last : Nat} {pre : Bool} {out : List Nat} {calls : List Call} {ws l : List Nat}
    (h : At c.mem s (tag a last) pre out calls) (hh : Here c.mem last a (ws ++ l)) (hb : Blank ws) (he : IsEnd l) :
    Run c.mem (isAttribute c s) none (tag a last) pre out calls := by
  obtain ⟨k, n, hx, hk⟩ := he.lexeme
  unfold isAttribute
  refine (tok_no h hh (he.skips hb) hx (by rcases hk with rfl | rfl <;> simp)).bind fun s1 h1 => ?_
  exact ⟨s1, rfl, h1⟩

theorem run_isAttributeSet {last : Nat} {pre : Bool} {out : List Nat} {calls : List Call} {ws l : List Nat} {xs : List Att} :
    ∀ {s : St} {a : Nat} {n : Nat} {set set' : List Attr}, At c.mem s (tag a last) pre out calls →
      Here c.mem last a (renderAtts xs ++ (ws ++ l)) → Blank ws → IsEnd l → (∀ x ∈ xs, x.Ok) → xs.length < n →
      XmlAttr.insertAll c.mem set (attToks a xs) = some set' →
      Run c.mem (isAttributeSet c n set s) set' (tag (a + (renderAtts xs).length) last) pre out calls := by
  induction xs with
  | nil =>
    intro s a n set set' h hh hb he _ hn hi
    obtain ⟨m, rfl⟩ : ∃ m, n = m + 1 := ⟨n - 1, by simp at hn; omega⟩
    simp only [attToks, XmlAttr.insertAll, Option.some.injEq] at hi
    subst hi
    unfold isAttributeSet
    refine (run_isAttribute_none h (by simpa [renderAtts] using hh) hb he).bind fun s1 h1 => ?_
    exact ⟨s1, rfl, h1⟩
  | cons x xs ih =>
    intro s a n set set' h hh hb he hxs hn hi
    obtain ⟨m, rfl⟩ : ∃ m, n = m + 1 := ⟨n - 1, by simp at hn; omega⟩
    have e : renderAtts (x :: xs) = x.render ++ renderAtts xs := by simp [renderAtts]
    rw [e, List.append_assoc] at hh
    unfold isAttributeSet
    refine (run_isAttribute h hh (hxs x (by simp))).bind fun s1 h1 => ?_
    simp only [attToks, XmlAttr.insertAll] at hi
    split at hi
    · simp at hi
    · next set1 hset1 =>
      simp only [hset1]
      have := ih (n := m) h1 hh.drop hb he (fun y hy => hxs y (by simp [hy])) (by simp at hn; omega) hi
      refine this.same ?_
      unfold Same
      congr 2
      simp [e]; omega

theorem insertAll_some (mem : Mem) (l : List Attr) : XmlAttr.insertAll mem [] l = some ((XmlAttr.insertAll mem [] l).getD []) := by
  obtain ⟨s, h, _⟩ := XmlAttr.C89_insert_lookup (mem := mem) l
  simp [h]

/-- The rest of `is_element` after the attributes. -/
def elementRest (c : Cfg) (n : Nat) (openTag start : Tok) (preorder parent : Bool) (attrs : List Attr) : M (Option Tok) := do
  match ← isToken c .slashClose with
  | some close =>
    let entire : Tok := ⟨openTag.first, close.second⟩
    if preorder then do
      let e ← contentCallback c n entire start attrs .null parent
      return some e
    else do
      let r ← call c ⟨entire, start, attrs, .null⟩
      output (r.text c.mem)
      return some .null
  | none => do
    let closeOfOpen ← requireToken c .closeTag
    if !preorder then output ((Tok.mk openTag.first closeOfOpen.second).text c.mem)
    let content ← isContent c n
    match ← isETag c with
    | none => throw
    | some (endTag, close) =>
      if !XmlAttr.tokenRangeEqual c.mem start endTag then throw
      else if !preorder then do
        output (content.text c.mem)
        output ((Tok.mk (endTag.first - 2) (endTag.second + 1)).text c.mem)
        return some .null
      else do
        let e ← contentCallback c n ⟨openTag.first, close.second⟩ start attrs content parent
        return some e

theorem isElement_eq (c : Cfg) (n : Nat) : isElement c (n + 1) = (do
    match ← isToken c .openTag with
    | none => return none
    | some openTag => do
      let start ← requireToken c .name
      let mode ← getPreorder
      let parent := !mode && c.pred start
      setPreorder (mode || parent)
      let attrs ← isAttributeSet c n []
      elementRest c n openTag start (mode || parent) parent attrs) := rfl

/-- A start tag is read up to `>` or `/>`. -/
theorem run_open {s : St} {a last n : Nat} {b w pre : Bool} {out : List Nat} {calls : List Call} {ws l : List Nat} {h : Head}
    (hA : At c.mem s (lxAt a last b w) pre out calls) (hh : Here c.mem last a (ws ++ 60 :: (h.render ++ l)))
    (hs : Skips w ws (60 :: (h.render ++ l))) (ho : h.Ok) (he : IsEnd l) (hn : h.atts.length < n) :
    ∃ s1, isElement c (n + 1) s = elementRest c n ⟨a + ws.length, a + ws.length + 1⟩ (h.nameTok (a + ws.length))
        (pre || (!pre && c.pred (h.nameTok (a + ws.length)))) (!pre && c.pred (h.nameTok (a + ws.length)))
        (h.attrs c.mem (a + ws.length)) s1 ∧
      At c.mem s1 (tag (a + ws.length + 1 + h.render.length - h.trail.length) last)
        (pre || (!pre && c.pred (h.nameTok (a + ws.length)))) out calls ∧
      Here c.mem last (a + ws.length + 1 + h.render.length - h.trail.length) (h.trail ++ l) := by
  have e : h.render ++ l = h.lead ++ (h.name ++ (renderAtts h.atts ++ (h.trail ++ l))) := by simp [Head.render]
  have hfirst : ∀ x r, h.render ++ l = x :: r → White x ∨ NameStart x := by
    intro x r hx
    rw [e] at hx
    obtain ⟨⟨d, t, hd, hd'⟩, _⟩ := ho.name
    cases hl : h.lead with
    | nil => rw [hl, hd] at hx; simp at hx; rw [← hx.1]; exact .inr hd'
    | cons y ys =>
      have := ho.lead y (by simp [hl])
      rw [hl] at hx; simp at hx; rw [← hx.1]; exact .inl this
  have hno : ∀ y t, (¬ White y ∧ ¬ NameStart y) → ¬ (y :: t) <+: h.render ++ l := by
    rintro y t hy ⟨r, hr⟩
    have := hfirst y (t ++ r) (by simpa using hr.symm)
    tauto
  have lex1 : Lexeme b (60 :: (h.render ++ l)) .openTag 0 1 1 := by
    refine .openTag _ (hno _ _ ?_) (hno _ _ ?_) (hno _ _ ?_) <;> unfold White NameStart <;> omega
  obtain ⟨s1, h1, hA1⟩ := tok_yes hA hh hs lex1
  have hh1 : Here c.mem last (a + ws.length + 1) (h.lead ++ (h.name ++ (renderAtts h.atts ++ (h.trail ++ l)))) := by
    rw [e] at hh
    exact Here.drop (l1 := [60]) hh.drop
  have hafter : ∀ x r, renderAtts h.atts ++ (h.trail ++ l) = x :: r → ¬ NameChar x := by
    cases hat : h.atts with
    | nil =>
      rcases he with ⟨r, rfl⟩ | ⟨r, rfl⟩ <;> simp only [renderAtts, List.flatMap_nil, List.nil_append] <;>
        exact not_nameChar_blank ho.trail (by unfold NameChar NameStart; omega)
    | cons x xs =>
      intro y r hy
      have hne := ho.sep x xs hat
      have hbl := (ho.atts x (by simp [hat])).before
      obtain ⟨z, zs, hz⟩ := List.exists_cons_of_ne_nil hne
      have := hbl z (by simp [hz])
      simp [renderAtts, Att.render, hz] at hy
      rw [← hy.1]
      unfold White at this; unfold NameChar NameStart; omega
  simp only [nextLx] at hA1
  obtain ⟨s2, h2, hA2⟩ := req_yes hA1 hh1 (skips_name ho.lead ho.name) (Lexeme.name _ _ ho.name hafter)
  simp only [nextLx, Nat.add_zero] at hA2
  have hh2 := hh1.drop.drop
  have hA3 : At c.mem { s2 with preorder := (pre || (!pre && c.pred (h.nameTok (a + ws.length)))) }
    (tag (a + ws.length + 1 + h.lead.length + h.name.length) last)
    (pre || (!pre && c.pred (h.nameTok (a + ws.length)))) out calls := ⟨hA2.lx, rfl, hA2.out, hA2.calls⟩
  obtain ⟨s4, h4, hA4⟩ := run_isAttributeSet hA3 hh2 ho.trail he ho.atts hn (insertAll_some _ _)
  refine ⟨s4, ?_, hA4.tag ?_, ?_⟩
  · rw [isElement_eq]
    have hp : s2.preorder = pre := hA2.pre
    have h2' : requireToken c .name s1 = .ok (h.nameTok (a + ws.length)) s2 := by rw [h2]; rfl
    simp only [bind_eq, h1, h2', getPreorder, setPreorder, hp]
    simp only [h4]
    rfl
  · simp [Head.render]; omega
  · have := hh2.drop (l1 := renderAtts h.atts)
    convert this using 1
    simp [Head.render]; omega

theorem run_isETag {s : St} {a last : Nat} {pre : Bool} {out : List Nat} {calls : List Call} {w1 nm w2 r : List Nat}
    (hA : At c.mem s (pos a last) pre out calls) (hh : Here c.mem last a (60 :: 47 :: (w1 ++ (nm ++ (w2 ++ 62 :: r)))))
    (hb1 : Blank w1) (hb2 : Blank w2) (hn : IsName nm) :
    Run c.mem (isETag c s) (some (⟨a + 2 + w1.length, a + 2 + w1.length + nm.length⟩,
      ⟨a + 2 + w1.length + nm.length + w2.length, a + 2 + w1.length + nm.length + w2.length + 1⟩))
      (pos (a + 2 + w1.length + nm.length + w2.length + 1) last) pre out calls := by
  have hh1 : Here c.mem last (a + 2) (w1 ++ (nm ++ (w2 ++ 62 :: r))) := Here.drop (l1 := [60, 47]) hh
  unfold isETag
  refine (tok_yes hA (ws := []) hh (by simp [Skips, Blank]) (Lexeme.openSlash _)).bind fun s1 h1 => ?_
  simp only [nextLx, List.length_nil, Nat.add_zero] at h1 ⊢
  refine (req_yes h1 hh1 (skips_name hb1 hn)
    (Lexeme.name _ _ hn (not_nameChar_blank hb2 (by unfold NameChar NameStart; omega)))).bind fun s2 h2 => ?_
  simp only [nextLx, Nat.add_zero] at h2 ⊢
  refine (req_yes h2 hh1.drop.drop (skips_cons hb2 (by unfold White; omega)) (Lexeme.closeTag _)).bind fun s3 h3 => ?_
  exact ⟨s3, rfl, h3⟩

end Verif.Xml
