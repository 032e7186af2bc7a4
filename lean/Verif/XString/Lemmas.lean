import Verif.XString.Model
import Verif.XString.Spec
import Verif.Xml.Props
import Verif.Xml.Unique
import Verif.XmlAttr.Props
namespace Verif.XString
open Verif.XmlAttr (Mem Tok Attr tokenRangeEqual tokenRangeLess tokenRangeEqual_iff)
open Verif.XmlAttr.Spec (value Built)
open Verif.Xml (Call Cfg St R Here)
open Verif.Xml.Spec
open Spec

/-! ### Attributes -/

theorem att_texts {mem : Mem} {last : Nat} : ∀ (as : List Att) {a : Nat} {r : List Nat}, Here mem last a (renderAtts as ++ r) →
    (attToks a as).map (fun t => (t.1.text mem, t.2.text mem)) = as.map fun x => (x.name, x.value) := by
  intro as
  induction as with
  | nil => intros; rfl
  | cons x xs ih =>
    intro a r hh
    simp only [renderAtts, List.flatMap_cons, List.append_assoc] at hh
    have h2 := ih hh.drop
    simp only [attToks, List.map_cons, h2, List.cons.injEq, and_true, Prod.mk.injEq]
    simp only [Att.render, List.append_assoc, List.cons_append] at hh
    have h3 := hh.drop
    refine ⟨h3.text, ?_⟩
    have h4 : Here mem last _ ([61] ++ _) := h3.drop.drop
    have h5 : Here mem last _ ([x.tick] ++ _) := h4.drop.drop
    have h6 := h5.drop.text
    simpa using h6

theorem lastGiven_texts {mem : Mem} {ts : List Attr} {as : List Att}
    (h : ts.map (fun t => (t.1.text mem, t.2.text mem)) = as.map fun x => (x.name, x.value)) (k : List Nat) :
    (XmlAttr.Spec.lastGiven mem ts k).map (fun t => t.2.text mem) = lastAtt as k := by
  unfold XmlAttr.Spec.lastGiven lastAtt
  have h' : ts.reverse.map (fun t => (t.1.text mem, t.2.text mem)) = as.reverse.map fun x => (x.name, x.value) := by
    rw [List.map_reverse, List.map_reverse, h]
  revert h'
  generalize ts.reverse = ts, as.reverse = as
  intro h
  induction ts generalizing as with
  | nil => cases as with
    | nil => rfl
    | cons _ _ => simp at h
  | cons t ts ih => cases as with
    | nil => simp at h
    | cons x xs =>
      simp only [List.map_cons, List.cons.injEq, Prod.mk.injEq] at h
      obtain ⟨⟨h1, h2⟩, h3⟩ := h
      simp only [List.find?_cons, h1]
      by_cases hk : x.name = k
      · simp [hk, h2]
      · simp [hk, ih _ h3]

theorem insertAll_built {mem : Mem} (as : List Attr) : ∀ {s s' : List Attr}, Built mem s → XmlAttr.insertAll mem s as = some s' → Built mem s' := by
  induction as with
  | nil => intro s s' hs h; cases h; exact hs
  | cons a as ih =>
    intro s s' hs h
    rw [XmlAttr.insertAll] at h
    cases hi : XmlAttr.insert mem s a with
    | none => rw [hi] at h; simp at h
    | some s1 => rw [hi] at h; exact ih (.insert hs hi) h

theorem head_attrs {mem : Mem} {last a : Nat} {h : Head} {l : List Nat} (hh : Here mem last a (60 :: (h.render ++ l))) :
    Built mem (h.attrs mem a) ∧ (∀ k, value mem (h.attrs mem a) k = lastAtt h.atts k) := by
  have h0 : Here mem last (a + 1) (h.lead ++ (h.name ++ (renderAtts h.atts ++ (h.trail ++ l)))) := by
    have := Here.drop (l1 := [60]) hh
    simpa [Head.render] using this
  have h1 := h0.drop.drop
  have h2 := att_texts _ h1
  obtain ⟨s, h3, h4, h5⟩ := XmlAttr.insertAll_spec (mem := mem) (attToks (a + 1 + h.lead.length + h.name.length) h.atts) (s := []) List.Pairwise.nil
  have e : h.attrs mem a = s := by unfold Head.attrs; rw [h3]; rfl
  rw [e]
  refine ⟨insertAll_built _ .empty h3, fun k => ?_⟩
  rw [← lastGiven_texts h2 k]
  have := congrArg (Option.map (fun t : Tok => t.text mem)) (h5 k)
  rw [Option.map_map] at this
  unfold value
  refine Eq.trans ?_ (this.trans ?_)
  · rfl
  · cases XmlAttr.Spec.lastGiven mem (attToks (a + 1 + h.lead.length + h.name.length) h.atts) k <;> rfl

theorem lastAtt_none {as : List Att} {k : List Nat} : lastAtt as k = none ↔ ∀ a ∈ as, a.name ≠ k := by
  simp [lastAtt, List.find?_eq_none]

theorem sameAtts_iff (x y : List Att) : sameAtts x y = true ↔ ∀ k, lastAtt x k = lastAtt y k := by
  unfold sameAtts
  rw [List.all_eq_true]
  constructor
  · intro h k
    by_cases hk : ∃ a ∈ x ++ y, a.name = k
    · obtain ⟨a, ha, rfl⟩ := hk
      simpa using h a ha
    · have e1 : lastAtt x k = none := lastAtt_none.mpr fun a ha e => hk ⟨a, List.mem_append_left _ ha, e⟩
      have e2 : lastAtt y k = none := lastAtt_none.mpr fun a ha e => hk ⟨a, List.mem_append_right _ ha, e⟩
      rw [e1, e2]
  · intro h a _
    simpa using h a.name

theorem equal_attrs {mem : Mem} {l1 l2 a1 a2 : Nat} {h1 h2 : Head} {r1 r2 : List Nat} (hh1 : Here mem l1 a1 (60 :: (h1.render ++ r1)))
    (hh2 : Here mem l2 a2 (60 :: (h2.render ++ r2))) :
    XmlAttr.equal mem (h1.attrs mem a1) (h2.attrs mem a2) = sameAtts h1.atts h2.atts := by
  obtain ⟨b1, v1⟩ := head_attrs hh1
  obtain ⟨b2, v2⟩ := head_attrs hh2
  rw [Bool.eq_iff_iff, XmlAttr.C90_equal b1 b2, sameAtts_iff]
  simp only [v1, v2]

theorem idOf_text {L : Lib} {last a : Nat} {h : Head} {l : List Nat} (hh : Here L.mem last a (60 :: (h.render ++ l))) :
    (idOf L (h.attrs L.mem a)).text L.mem = (lastAtt h.atts (L.id.text L.mem)).getD [] := by
  obtain ⟨b, v⟩ := head_attrs hh
  unfold idOf
  rw [XmlAttr.lookup_spec (XmlAttr.built_sorted b), ← v]
  unfold value
  simp only [Option.getD_some]
  cases (h.attrs L.mem a).find? fun t => decide (t.1.text L.mem = L.id.text L.mem) <;> rfl

/-! ### Parsing with a client that answers with simple text -/

theorem item_here {mem : Mem} {last a : Nat} {i : Item} {h : Head} {r : List Nat} (hd : i.head? = some h) (hh : Here mem last a (i.render ++ r)) :
    ∃ l, Here mem last a (60 :: (h.render ++ l)) := by
  cases i with
  | ref _ => simp [Item.head?] at hd
  | comment _ => simp [Item.head?] at hd
  | empty g =>
    simp only [Item.head?, Option.some.injEq] at hd
    subst hd
    exact ⟨47 :: 62 :: r, by simpa [Item.render] using hh⟩
  | elem g x w1 w2 =>
    simp only [Item.head?, Option.some.injEq] at hd
    subst hd
    exact ⟨_, by simpa [Item.render] using hh⟩

theorem elem_here {mem : Mem} {last a : Nat} {h : Head} {x : Content} {w1 w2 r : List Nat} (hh : Here mem last a ((Item.elem h x w1 w2).render ++ r)) :
    Here mem last (a + 1 + h.render.length + 1) (x.render ++ (60 :: 47 :: (w1 ++ (h.name ++ (w2 ++ 62 :: r))))) := by
  have e : (Item.elem h x w1 w2).render ++ r = (60 :: (h.render ++ [62])) ++ (x.render ++ (60 :: 47 :: (w1 ++ (h.name ++ (w2 ++ 62 :: r))))) := by
    simp [Item.render]
  rw [e] at hh
  have := hh.drop
  convert this using 1
  simp; omega

/- What parsing gives when the client's answers have the texts `ans`. -/
mutual
def runItem (p : List Nat → Bool) (mem : Mem) (byName : List Entity.Entry) (ans : List Call → Call → List Nat) :
    Nat → Item → List Call → List Nat × List Call
  | _, .ref b, cs => (refText byName b, cs)
  | _, .comment _, cs => ([], cs)
  | a, .empty h, cs => (ans cs ((Item.empty h).call mem a h), cs ++ [(Item.empty h).call mem a h])
  | a, .elem h x w1 w2, cs =>
    if p h.name then (ans cs ((Item.elem h x w1 w2).call mem a h), cs ++ [(Item.elem h x w1 w2).call mem a h])
    else
      let r := runContent p mem byName ans (a + 1 + h.render.length + 1) x cs
      (60 :: (h.render ++ 62 :: (r.1 ++ endEcho w1 h.name w2)), r.2)
def runContent (p : List Nat → Bool) (mem : Mem) (byName : List Entity.Entry) (ans : List Call → Call → List Nat) :
    Nat → Content → List Call → List Nat × List Call
  | _, .nil t, cs => (t, cs)
  | _, .openRef t b, cs => (t ++ openRefText byName b, cs)
  | a, .cons t i rest, cs =>
    let r := runItem p mem byName ans (a + t.length) i cs
    let q := runContent p mem byName ans (a + t.length + i.render.length) rest r.2
    (t ++ (r.1 ++ q.1), q.2)
end

/-- The text of a range reads as simple content. -/
def Reads (mem : Mem) (t : Tok) (x : Content) : Prop := t.first ≤ t.second ∧ t.text mem = x.render ∧ x.Ok

structure Answers (c : Cfg) (p : List Nat → Bool) (ans : List Call → Call → List Nat) : Prop where
  pred : ∀ t, c.pred t = p (t.text c.mem)
  pre : ∀ cs k, p (k.name.text c.mem) = true → ∃ r, c.callback cs k = some r ∧
    ((r = k.entire ∧ ans cs k = r.text c.mem) ∨ ∃ y, Reads c.mem r y ∧ simple y ∧ ans cs k = plainText c.byName y)
  post : ∀ cs k, p (k.name.text c.mem) = false → ∃ r, c.callback cs k = some r ∧ ans cs k = r.text c.mem

theorem simple_sem {c : Cfg} : ∀ (x : Content) {a : Nat} {cs : List Call}, simple x → ContentSem c a x cs (plainText c.byName x) cs := by
  intro x
  refine Content.rec (motive_1 := fun _ => True)
    (motive_2 := fun x => ∀ {a : Nat} {cs : List Call}, simple x → ContentSem c a x cs (plainText c.byName x) cs) ?_ ?_ ?_ ?_ ?_ ?_ ?_ x
  · simp
  · simp
  · simp
  · simp
  · intro t a cs _; exact .nil
  · intro t b a cs _; exact .openRef
  · intro t i rest _ ih a cs h
    cases i with
    | ref b => exact .cons .ref (ih h)
    | comment b => simpa [plainText] using ContentSem.cons (t := t) (.comment (c := c) (body := b)) (ih (a := a + t.length + (Item.comment b).render.length) h)
    | empty _ => exact h.elim
    | elem _ _ _ _ => exact h.elim

/-- Simple text is not the text of an element. -/
theorem simple_ne {x : Content} {i : Item} {h : Head} (hx : x.Ok) (hs : simple x) (hi : i.Ok) (hd : i.head? = some h) : x.render ≠ i.render := by
  intro e
  have hi' : ∃ d t, i.render = 60 :: d :: t ∧ (White d ∨ NameStart d) := by
    cases i with
    | ref _ => simp [Item.head?] at hd
    | comment _ => simp [Item.head?] at hd
    | empty g =>
      obtain ⟨d, t, h1, h2⟩ := Xml.head_first (h := g) hi [47, 62]
      exact ⟨d, t, by rw [Item.render, h1], h2⟩
    | elem g y w1 w2 =>
      unfold Item.Ok at hi
      obtain ⟨d, t, h1, h2⟩ := Xml.head_first hi.1 (62 :: (y.render ++ 60 :: 47 :: (w1 ++ (g.name ++ (w2 ++ [62])))))
      exact ⟨d, t, by rw [Item.render, h1], h2⟩
  obtain ⟨d, t, e1, e2⟩ := hi'
  rw [e1] at e
  cases x with
  | nil u =>
    unfold Content.Ok at hx
    simp only [Content.render] at e
    exact (hx.1 60 (by simp [e])).1 rfl
  | openRef u b =>
    unfold Content.Ok at hx
    simp only [Content.render] at e
    cases u with
    | nil => simp at e
    | cons q u =>
      simp only [List.cons_append, List.cons.injEq] at e
      exact (hx.1.1 q (by simp)).1 e.1
  | cons u j rest =>
    unfold Content.Ok at hx
    simp only [Content.render] at e
    cases u with
    | nil =>
      cases j with
      | ref b => simp [Item.render] at e
      | comment b =>
        simp only [Item.render, List.nil_append, List.cons_append, List.cons.injEq] at e
        unfold White NameStart at e2
        omega
      | empty _ => exact hs
      | elem _ _ _ _ => exact hs
    | cons q u =>
      simp only [List.cons_append, List.cons.injEq] at e
      exact (hx.1.1 q (by simp)).1 e.1

theorem Content.stops_nil (x : Content) : x.Stops [] := by
  refine Content.rec (motive_1 := fun _ => True) (motive_2 := fun x => x.Stops []) ?_ ?_ ?_ ?_ ?_ ?_ ?_ x
  · simp
  · simp
  · simp
  · simp
  · intro t; exact .inl rfl
  · intro t b; rfl
  · intro t i x _ h; exact h

theorem pre_sem {c : Cfg} {p : List Nat → Bool} {ans : List Call → Call → List Nat} (hA : Answers c p ans) {i : Item} {h : Head} {a last : Nat}
    {r : List Nat} (cs : List Call) (hi : i.Ok) (hd : i.head? = some h) (hh : Here c.mem last a (i.render ++ r)) (hp : p h.name = true) :
    ItemSem c a i cs (ans cs (i.call c.mem a h)) (cs ++ [i.call c.mem a h]) := by
  obtain ⟨l, hl⟩ := item_here hd hh
  have hn : (i.call c.mem a h).name.text c.mem = h.name := Xml.Head.name_text hl
  have hpred : c.pred (h.nameTok a) = true := by rw [hA.pred, Xml.Head.name_text hl, hp]
  have htext : (i.entire a).text c.mem = i.render := hh.text
  obtain ⟨q, hq, h1 | ⟨y, hy, hs, h2⟩⟩ := hA.pre cs (i.call c.mem a h) (by rw [hn, hp])
  · have e : ans cs (i.call c.mem a h) = i.render := by rw [h1.2, h1.1]; exact htext
    rw [e]
    refine .same hd hpred ?_
    rw [hq, h1.1]; rfl
  · rw [h2]
    refine .replaced (new := y) (rest := []) hd hpred hq ?_ hy.1 (by simp [hy.2.1]) hy.2.2 (Content.stops_nil y) (simple_sem y hs)
    intro e
    apply simple_ne hy.2.2 hs hi hd
    rw [← hy.2.1, e, htext]

mutual
theorem item_sem {c : Cfg} {p : List Nat → Bool} {ans : List Call → Call → List Nat} (hA : Answers c p ans) (i : Item) {a last : Nat} {r : List Nat}
    (cs : List Call) (hok : i.Ok) (hh : Here c.mem last a (i.render ++ r)) :
    ItemSem c a i cs (runItem p c.mem c.byName ans a i cs).1 (runItem p c.mem c.byName ans a i cs).2 := by
  match i with
  | .ref b => exact .ref
  | .comment b => exact .comment
  | .empty h =>
    cases hp : p h.name with
    | true => exact pre_sem hA cs hok rfl hh hp
    | false =>
      obtain ⟨l, hl⟩ := item_here (h := h) rfl hh
      have hn := Xml.Head.name_text hl
      obtain ⟨q, hq, h1⟩ := hA.post cs ((Item.empty h).call c.mem a h) (by rw [← hp, ← hn]; rfl)
      simp only [runItem]
      rw [h1]
      exact .empty (by rw [hA.pred, hn, hp]) hq
  | .elem h x w1 w2 =>
    have hok' := hok
    unfold Item.Ok at hok'
    cases hp : p h.name with
    | true =>
      simp only [runItem, hp, if_true]
      exact pre_sem hA cs hok rfl hh hp
    | false =>
      obtain ⟨l, hl⟩ := item_here (h := h) rfl hh
      have hn := Xml.Head.name_text hl
      simp only [runItem, hp, Bool.false_eq_true, if_false]
      exact .elem (by rw [hA.pred, hn, hp]) (content_sem hA x cs hok'.2.1 (elem_here hh))
theorem content_sem {c : Cfg} {p : List Nat → Bool} {ans : List Call → Call → List Nat} (hA : Answers c p ans) (x : Content) {a last : Nat}
    {r : List Nat} (cs : List Call) (hok : x.Ok) (hh : Here c.mem last a (x.render ++ r)) :
    ContentSem c a x cs (runContent p c.mem c.byName ans a x cs).1 (runContent p c.mem c.byName ans a x cs).2 := by
  match x with
  | .nil t => exact .nil
  | .openRef t b => exact .openRef
  | .cons t i rest =>
    unfold Content.Ok at hok
    simp only [Content.render, List.append_assoc] at hh
    exact .cons (item_sem hA i cs hok.2.1 hh.drop) (content_sem hA rest _ hok.2.2 hh.drop.drop)
end

/- The calls that are made. -/
mutual
def callsItem (p : List Nat → Bool) (mem : Mem) : Nat → Item → List Call
  | a, .empty h => [(Item.empty h).call mem a h]
  | a, .elem h x w1 w2 => if p h.name then [(Item.elem h x w1 w2).call mem a h] else callsContent p mem (a + 1 + h.render.length + 1) x
  | _, _ => []
def callsContent (p : List Nat → Bool) (mem : Mem) : Nat → Content → List Call
  | _, .nil _ => []
  | _, .openRef _ _ => []
  | a, .cons t i rest => callsItem p mem (a + t.length) i ++ callsContent p mem (a + t.length + i.render.length) rest
end

mutual
theorem item_calls (p : List Nat → Bool) (mem : Mem) (bn : List Entity.Entry) (ans : List Call → Call → List Nat) (i : Item) (a : Nat) (cs : List Call) :
    (runItem p mem bn ans a i cs).2 = cs ++ callsItem p mem a i := by
  match i with
  | .ref b => simp [runItem, callsItem]
  | .comment b => simp [runItem, callsItem]
  | .empty h => simp [runItem, callsItem]
  | .elem h x w1 w2 =>
    simp only [runItem, callsItem]
    split
    · rfl
    · exact content_calls p mem bn ans x _ cs
theorem content_calls (p : List Nat → Bool) (mem : Mem) (bn : List Entity.Entry) (ans : List Call → Call → List Nat) (x : Content) (a : Nat)
    (cs : List Call) : (runContent p mem bn ans a x cs).2 = cs ++ callsContent p mem a x := by
  match x with
  | .nil t => simp [runContent, callsContent]
  | .openRef t b => simp [runContent, callsContent]
  | .cons t i rest =>
    simp only [runContent, callsContent]
    rw [content_calls p mem bn ans rest, item_calls p mem bn ans i, List.append_assoc]
end

/-- The parse of a text by such a client. -/
theorem parse_answers {c : Cfg} {p : List Nat → Bool} {ans : List Call → Call → List Nat} (hA : Answers c p ans) {t : Tok} {x : Content}
    (h : Reads c.mem t x) : Xml.Gives (Xml.parseContent c) t (runContent p c.mem c.byName ans t.first x []).1 (callsContent p c.mem t.first x) := by
  obtain ⟨a, last⟩ := t
  have hs := content_sem hA x (a := a) (last := last) (r := []) [] h.2.2 ⟨h.1, by simpa using h.2.1⟩
  have := Xml.C92_content (r := []) h.1 (by simpa using h.2.1) h.2.2 (Content.stops_nil x) hs
  simpa [content_calls] using this

end Verif.XString
