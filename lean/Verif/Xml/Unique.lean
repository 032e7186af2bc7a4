import Verif.Xml.Spec
import Mathlib.Tactic.ByContra
/-!
The grammar is unambiguous: a text is that of at most one tree.
-/
namespace Verif.Xml
open Verif.Xml.Spec

/-- `r` does not go on with a `P`. -/
def Stop (P : Nat → Prop) (r : List Nat) : Prop := ∀ d t, r = d :: t → ¬ P d

theorem stop_cons {P : Nat → Prop} {d : Nat} {t : List Nat} (h : ¬ P d) : Stop P (d :: t) := by
  intro d' t' e
  simp only [List.cons.injEq] at e
  rw [← e.1]; exact h

theorem span_unique {P : Nat → Prop} {a b r s : List Nat} (ha : ∀ c ∈ a, P c) (hb : ∀ c ∈ b, P c) (hr : Stop P r) (hs : Stop P s)
    (e : a ++ r = b ++ s) : a = b ∧ r = s := by
  induction a generalizing b with
  | nil =>
    cases b with
    | nil => exact ⟨rfl, e⟩
    | cons d b => exact absurd (hb d (by simp)) (hr d _ (by simpa using e))
  | cons c a ih =>
    cases b with
    | nil => exact absurd (ha c (by simp)) (hs c _ (by simpa using e.symm))
    | cons d b =>
      simp only [List.cons_append, List.cons.injEq] at e
      obtain ⟨h1, h2⟩ := ih (fun c hc => ha c (by simp [hc])) (fun c hc => hb c (by simp [hc])) e.2
      exact ⟨by rw [e.1, h1], h2⟩

theorem nameStart_not_white {n : Nat} (h : NameStart n) : ¬ White n := by
  unfold NameStart at h; unfold White; omega

theorem white_not_name {n : Nat} (h : White n) : ¬ NameChar n := by
  unfold White at h; unfold NameChar NameStart; omega

theorem name_stop {nm r : List Nat} (h : IsName nm) : Stop White (nm ++ r) := by
  obtain ⟨⟨d, t, rfl, hd⟩, _⟩ := h
  exact stop_cons (nameStart_not_white hd)

/-- What is after the head of a tag. -/
def TagEnd (r : List Nat) : Prop := ∃ d t, r = d :: t ∧ (d = 62 ∨ d = 47)

theorem TagEnd.white {r : List Nat} (h : TagEnd r) : Stop White r := by
  obtain ⟨d, t, rfl, h⟩ := h
  exact stop_cons (by unfold White; omega)

theorem blank_name_stop {w r : List Nat} (hw : Blank w) (hr : Stop NameChar r) : Stop NameChar (w ++ r) := by
  cases w with
  | nil => exact hr
  | cons d w => exact stop_cons (white_not_name (hw d (by simp)))

theorem att_unique {a b : Att} (ha : a.Ok) (hb : b.Ok) {r s : List Nat} (e : a.render ++ r = b.render ++ s) : a = b ∧ r = s := by
  obtain ⟨a1, a2, a3, a4, a5, a6⟩ := a
  obtain ⟨b1, b2, b3, b4, b5, b6⟩ := b
  obtain ⟨ha1, ha2, ha3, ha4, ha5, ha6⟩ := ha
  obtain ⟨hb1, hb2, hb3, hb4, hb5, hb6⟩ := hb
  simp only [Att.render, List.append_assoc, List.cons_append] at *
  obtain ⟨e1, e⟩ := span_unique ha1 hb1 (name_stop ha2) (name_stop hb2) e
  have h61 : ∀ t : List Nat, Stop NameChar (61 :: t) := fun t => stop_cons (by unfold NameChar NameStart; omega)
  obtain ⟨e2, e⟩ := span_unique ha2.2 hb2.2 (blank_name_stop ha3 (h61 _)) (blank_name_stop hb3 (h61 _)) e
  have h61' : ∀ t : List Nat, Stop White (61 :: t) := fun t => stop_cons (by unfold White; omega)
  obtain ⟨e3, e⟩ := span_unique ha3 hb3 (h61' _) (h61' _) e
  simp only [List.cons.injEq, true_and] at e
  have hq : ∀ {q : Nat} {t : List Nat}, Quote q → Stop White (q :: t) := by
    intro q t h
    exact stop_cons (by unfold Quote at h; unfold White; omega)
  obtain ⟨e4, e⟩ := span_unique ha4 hb4 (hq ha5) (hq hb5) e
  simp only [List.cons.injEq] at e
  obtain ⟨e5, e⟩ := e
  subst e5
  obtain ⟨e6, e⟩ := span_unique (P := fun c => c ≠ a5) (fun c hc => (ha6 c hc).1) (fun c hc => (hb6 c hc).1)
    (stop_cons (by simp)) (stop_cons (by simp)) e
  simp only [List.cons.injEq, true_and] at e
  subst e1 e2 e3 e4 e6
  exact ⟨rfl, by simpa using e⟩

theorem atts_unique {as bs : List Att} (ha : ∀ a ∈ as, a.Ok) (hb : ∀ b ∈ bs, b.Ok) {w w' r s : List Nat} (hw : Blank w) (hw' : Blank w')
    (hr : TagEnd r) (hs : TagEnd s) (e : renderAtts as ++ (w ++ r) = renderAtts bs ++ (w' ++ s)) : as = bs ∧ w = w' ∧ r = s := by
  have clash : ∀ {b : Att} {w r z : List Nat}, b.Ok → Blank w → TagEnd r → w ++ r ≠ b.render ++ z := by
    intro b w r z hb hw hr e
    simp only [Att.render, List.append_assoc] at e
    obtain ⟨-, e⟩ := span_unique hw hb.before hr.white (name_stop hb.name) e
    obtain ⟨d, t, h1, h2⟩ := hr
    obtain ⟨⟨d', t', h3, h4⟩, _⟩ := hb.name
    rw [h1, h3] at e
    simp only [List.cons_append, List.cons.injEq] at e
    unfold NameStart at h4
    omega
  induction as generalizing bs with
  | nil =>
    cases bs with
    | nil =>
      obtain ⟨e1, e2⟩ := span_unique hw hw' hr.white hs.white (by simpa [renderAtts] using e)
      exact ⟨rfl, e1, e2⟩
    | cons b bs =>
      simp only [renderAtts, List.flatMap_nil, List.flatMap_cons, List.nil_append, List.append_assoc] at e
      exact absurd e (clash (hb b (by simp)) hw hr)
  | cons a as ih =>
    cases bs with
    | nil =>
      simp only [renderAtts, List.flatMap_nil, List.flatMap_cons, List.nil_append, List.append_assoc] at e
      exact absurd e.symm (clash (ha a (by simp)) hw' hs)
    | cons b bs =>
      simp only [renderAtts, List.flatMap_cons, List.append_assoc] at e
      obtain ⟨e1, e⟩ := att_unique (ha a (by simp)) (hb b (by simp)) e
      obtain ⟨e2, e3, e4⟩ := ih (fun a h => ha a (by simp [h])) (fun b h => hb b (by simp [h])) (bs := bs) e
      exact ⟨by rw [e1, e2], e3, e4⟩

theorem head_after {h : Head} (hh : h.Ok) {r : List Nat} (hr : TagEnd r) : Stop NameChar (renderAtts h.atts ++ (h.trail ++ r)) := by
  cases e : h.atts with
  | nil =>
    obtain ⟨d, t, rfl, h⟩ := hr
    have h0 : Stop NameChar (d :: t) := stop_cons (by unfold NameChar NameStart; omega)
    simpa [renderAtts] using blank_name_stop hh.trail h0
  | cons a as =>
    have h1 := hh.sep a as e
    have h2 := (hh.atts a (by rw [e]; simp)).before
    cases eb : a.before with
    | nil => exact absurd eb h1
    | cons d t =>
      simp only [renderAtts, List.flatMap_cons, Att.render, eb, List.cons_append]
      exact stop_cons (white_not_name (h2 d (by rw [eb]; simp)))

theorem head_unique {h g : Head} (hh : h.Ok) (hg : g.Ok) {r s : List Nat} (hr : TagEnd r) (hs : TagEnd s)
    (e : h.render ++ r = g.render ++ s) : h = g ∧ r = s := by
  simp only [Head.render, List.append_assoc] at e
  obtain ⟨e1, e⟩ := span_unique hh.lead hg.lead (name_stop hh.name) (name_stop hg.name) e
  obtain ⟨e2, e⟩ := span_unique hh.name.2 hg.name.2 (head_after hh hr) (head_after hg hs) e
  obtain ⟨e3, e4, e5⟩ := atts_unique hh.atts hg.atts hh.trail hg.trail hr hs e
  obtain ⟨h1, h2, h3, h4⟩ := h
  obtain ⟨g1, g2, g3, g4⟩ := g
  simp only at e1 e2 e3 e4
  subst e1 e2 e3 e4
  exact ⟨rfl, e5⟩

/-- The second byte of a tag. -/
theorem head_first {h : Head} (hh : h.Ok) (r : List Nat) : ∃ d t, h.render ++ r = d :: t ∧ (White d ∨ NameStart d) := by
  simp only [Head.render, List.append_assoc]
  cases e : h.lead with
  | nil =>
    obtain ⟨⟨d, t, h1, h2⟩, _⟩ := hh.name
    exact ⟨d, _, by rw [h1]; rfl, .inr h2⟩
  | cons d t => exact ⟨d, _, rfl, .inl (hh.lead d (by rw [e]; simp))⟩

theorem comment_unique {a b r s : List Nat} (ha : IsComment a) (hb : IsComment b)
    (e : a ++ ([45, 45, 62] ++ r) = b ++ ([45, 45, 62] ++ s)) : a = b ∧ r = s := by
  have key : ∀ {a b r s : List Nat}, IsComment b → a ++ ([45, 45, 62] ++ r) = b ++ ([45, 45, 62] ++ s) → b.length ≤ a.length := by
    intro a b r s hb e
    by_contra hlt
    have hlt : a.length < b.length := by omega
    apply hb
    have e' : a ++ ([45, 45] ++ (62 :: r)) = (b ++ [45]) ++ ([45, 62] ++ s) := by simpa using e
    have hp : a ++ [45, 45] <+: b ++ [45] := by
      have h1 : a ++ [45, 45] <+: (b ++ [45]) ++ ([45, 62] ++ s) := ⟨62 :: r, by rw [← e']; simp⟩
      have h2 : b ++ [45] <+: (b ++ [45]) ++ ([45, 62] ++ s) := ⟨_, rfl⟩
      exact List.prefix_of_prefix_length_le h1 h2 (by simp; omega)
    exact List.IsInfix.trans (List.IsSuffix.isInfix ⟨a, rfl⟩) hp.isInfix
  have hl : a.length = b.length := Nat.le_antisymm (key ha e.symm) (key hb e)
  obtain ⟨h1, h2⟩ := List.append_inj e hl
  exact ⟨h1, by simpa using h2⟩

theorem item_start {i : Item} (hi : i.Ok) (r : List Nat) :
    ∃ t, (i.render ++ r = 38 :: t ∧ ∃ b, i = .ref b) ∨ (i.render ++ r = 60 :: 33 :: t ∧ ∃ b, i = .comment b) ∨
      (i.render ++ r = 60 :: t ∧ (∃ h, i.head? = some h) ∧ ∃ d t', t = d :: t' ∧ (White d ∨ NameStart d)) := by
  match i, hi with
  | .ref b, _ => exact ⟨_, .inl ⟨by simp only [Item.render, List.cons_append]; rfl, b, rfl⟩⟩
  | .comment b, _ => exact ⟨_, .inr (.inl ⟨by simp only [Item.render, List.cons_append]; rfl, b, rfl⟩)⟩
  | .empty h, hi =>
    refine ⟨_, .inr (.inr ⟨by simp only [Item.render, List.cons_append, List.append_assoc]; rfl, ⟨h, rfl⟩, ?_⟩)⟩
    exact head_first (by simpa [Item.Ok] using hi) _
  | .elem h x w1 w2, hi =>
    refine ⟨_, .inr (.inr ⟨by simp only [Item.render, List.cons_append, List.append_assoc]; rfl, ⟨h, rfl⟩, ?_⟩)⟩
    unfold Item.Ok at hi
    exact head_first hi.1 _

theorem item_chars_stop {i : Item} (hi : i.Ok) (r : List Nat) : Stop (fun c => c ≠ 60 ∧ c ≠ 38) (i.render ++ r) := by
  obtain ⟨t, h | h | h⟩ := item_start hi r <;> rw [h.1] <;> exact stop_cons (by simp)

theorem item_not_end {i : Item} (hi : i.Ok) (r z : List Nat) : i.render ++ r ≠ 60 :: 47 :: z := by
  obtain ⟨t, h | h | ⟨h1, -, d, t', h2, h3⟩⟩ := item_start hi r
  · rw [h.1]; simp
  · rw [h.1]; simp
  · rw [h1, h2]
    intro e
    simp only [List.cons.injEq, true_and] at e
    unfold White NameStart at h3
    omega

mutual
theorem item_unique (i j : Item) (hi : i.Ok) (hj : j.Ok) {r s : List Nat} (e : i.render ++ r = j.render ++ s) : i = j ∧ r = s := by
  obtain ⟨ti, si⟩ := item_start hi r
  obtain ⟨tj, sj⟩ := item_start hj s
  rcases si with ⟨i1, bi, rfl⟩ | ⟨i1, bi, rfl⟩ | ⟨i1, ⟨hdi, i2⟩, di, ti', i3, i4⟩
  · rcases sj with ⟨j1, bj, rfl⟩ | ⟨j1, bj, rfl⟩ | ⟨j1, ⟨hdj, j2⟩, dj, tj', j3, j4⟩
    · simp only [Item.render, List.cons_append, List.append_assoc, List.cons.injEq, true_and] at e
      obtain ⟨e1, e2⟩ := span_unique (P := fun c => c ≠ 59) (fun c hc h => hi (h ▸ hc)) (fun c hc h => hj (h ▸ hc)) (stop_cons (by simp))
        (stop_cons (by simp)) e
      simp only [List.cons.injEq, true_and] at e2
      exact ⟨by rw [e1], by simpa using e2⟩
    · rw [i1, j1] at e; simp at e
    · rw [i1, j1] at e; simp at e
  · rcases sj with ⟨j1, bj, rfl⟩ | ⟨j1, bj, rfl⟩ | ⟨j1, ⟨hdj, j2⟩, dj, tj', j3, j4⟩
    · rw [i1, j1] at e; simp at e
    · simp only [Item.render, List.cons_append, List.append_assoc, List.cons.injEq, true_and] at e
      obtain ⟨e1, e2⟩ := comment_unique (a := bi) (b := bj) (r := r) (s := s) hi hj (by simpa using e)
      exact ⟨by rw [e1], e2⟩
    · rw [i1, j1, j3] at e
      simp only [List.cons.injEq, true_and] at e
      unfold White NameStart at j4
      omega
  · rcases sj with ⟨j1, bj, rfl⟩ | ⟨j1, bj, rfl⟩ | ⟨j1, ⟨hdj, j2⟩, dj, tj', j3, j4⟩
    · rw [i1, j1] at e; simp at e
    · rw [i1, j1, i3] at e
      simp only [List.cons.injEq, true_and] at e
      unfold White NameStart at i4
      omega
    · match i, j, hi, hj with
      | .ref _, _, _, _ => simp [Item.head?] at i2
      | .comment _, _, _, _ => simp [Item.head?] at i2
      | _, .ref _, _, _ => simp [Item.head?] at j2
      | _, .comment _, _, _ => simp [Item.head?] at j2
      | .empty h, .empty g, hi, hj =>
        simp only [Item.render, List.cons_append, List.append_assoc, List.cons.injEq, true_and] at e
        obtain ⟨e1, e2⟩ := head_unique (by simpa [Item.Ok] using hi) (by simpa [Item.Ok] using hj) ⟨47, _, rfl, .inr rfl⟩ ⟨47, _, rfl, .inr rfl⟩ e
        exact ⟨by rw [e1], by simpa using e2⟩
      | .empty h, .elem g y v1 v2, hi, hj =>
        unfold Item.Ok at hj
        simp only [Item.render, List.cons_append, List.append_assoc, List.cons.injEq, true_and] at e
        obtain ⟨e1, e2⟩ := head_unique (by simpa [Item.Ok] using hi) hj.1 ⟨47, _, rfl, .inr rfl⟩ ⟨62, _, rfl, .inl rfl⟩ e
        simp at e2
      | .elem h x w1 w2, .empty g, hi, hj =>
        unfold Item.Ok at hi
        simp only [Item.render, List.cons_append, List.append_assoc, List.cons.injEq, true_and] at e
        obtain ⟨e1, e2⟩ := head_unique hi.1 (by simpa [Item.Ok] using hj) ⟨62, _, rfl, .inl rfl⟩ ⟨47, _, rfl, .inr rfl⟩ e
        simp at e2
      | .elem h x w1 w2, .elem g y v1 v2, hi, hj =>
        unfold Item.Ok at hi hj
        obtain ⟨h1, h2, h3, h4, h5⟩ := hi
        obtain ⟨g1, g2, g3, g4, g5⟩ := hj
        simp only [Item.render, List.cons_append, List.append_assoc, List.cons.injEq, true_and] at e
        obtain ⟨e1, e2⟩ := head_unique h1 g1 ⟨62, _, rfl, .inl rfl⟩ ⟨62, _, rfl, .inl rfl⟩ e
        simp only [List.cons.injEq, true_and] at e2
        subst e1
        obtain ⟨e3, e4⟩ := content_unique x y h2 g2 h3 g3 e2
        obtain ⟨e5, e6⟩ := span_unique h4 g4 (name_stop h1.name) (name_stop h1.name) e4
        have e7 := List.append_cancel_left e6
        obtain ⟨e8, e9⟩ := span_unique h5 g5 (stop_cons (by unfold White; omega)) (stop_cons (by unfold White; omega)) e7
        subst e3 e5 e8
        exact ⟨rfl, by simpa using e9⟩
theorem content_unique (x y : Content) (hx : x.Ok) (hy : y.Ok) (cx : x.closed) (cy : y.closed) {r s : List Nat}
    (e : x.render ++ 60 :: 47 :: r = y.render ++ 60 :: 47 :: s) : x = y ∧ r = s := by
  have stop : ∀ t : List Nat, Stop (fun c => c ≠ 60 ∧ c ≠ 38) (60 :: t) := fun t => stop_cons (by simp)
  match x, y, hx, hy, cx, cy with
  | .openRef _ _, _, _, _, cx, _ => exact cx.elim
  | _, .openRef _ _, _, _, _, cy => exact cy.elim
  | .nil t, .nil u, hx, hy, _, _ =>
    unfold Content.Ok at hx hy
    simp only [Content.render] at e
    obtain ⟨e1, e2⟩ := span_unique hx.1 hy.1 (stop _) (stop _) e
    exact ⟨by rw [e1], by simpa using e2⟩
  | .nil t, .cons u j ys, hx, hy, _, _ =>
    unfold Content.Ok at hx hy
    simp only [Content.render, List.append_assoc] at e
    obtain ⟨e1, e2⟩ := span_unique hx.1 hy.1.1 (stop _) (item_chars_stop hy.2.1 _) e
    exact absurd e2.symm (item_not_end hy.2.1 _ _)
  | .cons t i xs, .nil u, hx, hy, _, _ =>
    unfold Content.Ok at hx hy
    simp only [Content.render, List.append_assoc] at e
    obtain ⟨e1, e2⟩ := span_unique hx.1.1 hy.1 (item_chars_stop hx.2.1 _) (stop _) e
    exact absurd e2 (item_not_end hx.2.1 _ _)
  | .cons t i xs, .cons u j ys, hx, hy, cx, cy =>
    unfold Content.Ok at hx hy
    unfold Content.closed at cx cy
    simp only [Content.render, List.append_assoc] at e
    obtain ⟨e1, e2⟩ := span_unique hx.1.1 hy.1.1 (item_chars_stop hx.2.1 _) (item_chars_stop hy.2.1 _) e
    obtain ⟨e3, e4⟩ := item_unique i j hx.2.1 hy.2.1 e2
    obtain ⟨e5, e6⟩ := content_unique xs ys hx.2.2 hy.2.2 cx cy e4
    exact ⟨by rw [e1, e3, e5], e6⟩
end

/-- **C93** – the grammar is unambiguous: the text of a well-formed item is that of no other, nor is another one the beginning of it. -/
theorem C93_unambiguous {i j : Item} (hi : i.Ok) (hj : j.Ok) {r s : List Nat} (e : i.render ++ r = j.render ++ s) : i = j ∧ r = s :=
  item_unique i j hi hj e

end Verif.Xml
