import Verif.XString.Replace
namespace Verif.XString
open Verif.XmlAttr (Mem Tok Attr tokenRangeEqual tokenRangeLess tokenRangeEqual_iff tokenRangeLess_iff)
open Verif.XmlAttr.Spec (value Built Shortlex)
open Verif.Xml (Call Cfg St R Here)
open Verif.Xml.Spec
open Spec

variable {L : Lib}

/-! ### The multimap -/

def keyText (L : Lib) (e : Entry) : List Nat := e.key.text L.mem

/-- The order of a multimap. -/
def Ordered (L : Lib) (g : Glossary) : Prop := g.Pairwise fun x y => ¬ Shortlex (keyText L y) (keyText L x)

theorem insert_mem (L : Lib) (e x : Entry) (g : Glossary) : x ∈ insertEntry L e g ↔ x = e ∨ x ∈ g := by
  induction g with
  | nil => simp [insertEntry]
  | cons y ys ih =>
    unfold insertEntry
    split
    · simp
    · simp only [List.mem_cons, ih]; tauto

theorem not_less_trans {x y z : List Nat} (h1 : ¬ Shortlex y x) (h2 : ¬ Shortlex z y) : ¬ Shortlex z x := by
  intro h
  rcases XmlAttr.Shortlex.tri x y with a | rfl | a
  · exact h2 (XmlAttr.Shortlex.trans h a)
  · exact h2 h
  · exact h1 a

theorem insert_ordered {g : Glossary} (h : Ordered L g) (e : Entry) : Ordered L (insertEntry L e g) := by
  induction g with
  | nil => exact List.pairwise_singleton _ _
  | cons y ys ih =>
    obtain ⟨h1, h2⟩ := List.pairwise_cons.mp h
    unfold insertEntry
    by_cases hl : tokenRangeLess L.mem e.key y.key = true
    · rw [if_pos hl]
      rw [tokenRangeLess_iff] at hl
      have hl' : ¬ Shortlex (keyText L y) (keyText L e) := fun h' => XmlAttr.Shortlex.asymm hl h'
      refine List.pairwise_cons.mpr ⟨fun z hz => ?_, h⟩
      rcases List.mem_cons.mp hz with rfl | hz
      · exact hl'
      · exact not_less_trans hl' (h1 z hz)
    · rw [if_neg hl]
      rw [tokenRangeLess_iff] at hl
      refine List.pairwise_cons.mpr ⟨fun z hz => ?_, ih h2⟩
      rcases (insert_mem L e z ys).mp hz with rfl | hz
      · exact hl
      · exact h1 z hz

theorem insert_filter {g : Glossary} (h : Ordered L g) (e : Entry) (k : List Nat) :
    (insertEntry L e g).filter (fun x => keyText L x = k) =
      g.filter (fun x => keyText L x = k) ++ if keyText L e = k then [e] else [] := by
  induction g with
  | nil => by_cases hk : keyText L e = k <;> simp [insertEntry, hk]
  | cons y ys ih =>
    obtain ⟨h1, h2⟩ := List.pairwise_cons.mp h
    unfold insertEntry
    by_cases hl : tokenRangeLess L.mem e.key y.key = true
    · rw [if_pos hl]
      rw [tokenRangeLess_iff] at hl
      by_cases hk : keyText L e = k
      · have hno : ∀ z ∈ y :: ys, ¬ keyText L z = k := by
          intro z hz e1
          have hl' : Shortlex (keyText L e) (keyText L y) := hl
          rcases List.mem_cons.mp hz with rfl | hz
          · rw [e1, hk] at hl'; exact XmlAttr.Shortlex.irrefl _ hl'
          · have := h1 z hz
            rw [e1, ← hk] at this
            exact this hl'
        have hn : (y :: ys).filter (fun x => decide (keyText L x = k)) = [] := by
          rw [List.filter_eq_nil_iff]; simpa using hno
        rw [List.filter_cons, hn]; simp [hk]
      · simp [List.filter_cons, hk]
    · rw [if_neg hl]
      simp only [List.filter_cons, ih h2]
      split <;> simp

theorem takeWhile_filter {g : Glossary} (h : Ordered L g) {id : Tok} (hb : ∀ x ∈ g, ¬ Shortlex (keyText L x) (id.text L.mem)) :
    (g.takeWhile fun x => !tokenRangeLess L.mem id x.key) = g.filter fun x => keyText L x = id.text L.mem := by
  induction g with
  | nil => rfl
  | cons y ys ih =>
    obtain ⟨h1, h2⟩ := List.pairwise_cons.mp h
    rw [List.takeWhile_cons, List.filter_cons]
    have hy := hb y (by simp)
    by_cases hl : Shortlex (id.text L.mem) (keyText L y)
    · have e1 : tokenRangeLess L.mem id y.key = true := (tokenRangeLess_iff _ _ _).mpr hl
      have e2 : ¬ keyText L y = id.text L.mem := by intro e; rw [e] at hl; exact XmlAttr.Shortlex.irrefl _ hl
      have e3 : ys.filter (fun x => decide (keyText L x = id.text L.mem)) = [] := by
        rw [List.filter_eq_nil_iff]
        intro z hz e
        have := h1 z hz
        simp only [decide_eq_true_eq] at e
        rw [e] at this
        exact this hl
      simp [e1, e2, e3]
    · have e1 : tokenRangeLess L.mem id y.key = false := by
        rw [← Bool.not_eq_true, tokenRangeLess_iff]; exact hl
      have e2 : keyText L y = id.text L.mem := by
        rcases XmlAttr.Shortlex.tri (keyText L y) (id.text L.mem) with a | a | a
        · exact absurd a hy
        · exact a
        · exact absurd a hl
      simp [e1, e2, ih h2 (fun x hx => hb x (List.mem_cons_of_mem _ hx))]

theorem range_filter {g : Glossary} (h : Ordered L g) (id : Tok) :
    rangeForKey L g id = g.filter fun x => keyText L x = id.text L.mem := by
  unfold rangeForKey
  induction g with
  | nil => rfl
  | cons y ys ih =>
    obtain ⟨h1, h2⟩ := List.pairwise_cons.mp h
    rw [List.dropWhile_cons]
    by_cases hl : tokenRangeLess L.mem y.key id = true
    · rw [if_pos hl, ih h2, List.filter_cons]
      rw [tokenRangeLess_iff] at hl
      have : ¬ keyText L y = id.text L.mem := by intro e; unfold keyText at e; rw [e] at hl; exact XmlAttr.Shortlex.irrefl _ hl
      simp [this]
    · rw [if_neg hl]
      rw [tokenRangeLess_iff] at hl
      refine takeWhile_filter h fun x hx => ?_
      rcases List.mem_cons.mp hx with rfl | hx
      · exact hl
      · exact fun h' => not_less_trans hl (h1 x hx) h'

/-! ### Calls and elements -/

/-- The call is for that element. -/
def CallOf (L : Lib) (lo hi : Nat) (k : Call) (i : Item) : Prop :=
  ∃ a last r h, Here L.mem last a (i.render ++ r) ∧ i.head? = some h ∧ i.Ok ∧ k = i.call L.mem a h ∧ lo ≤ a ∧ a + i.render.length ≤ hi

theorem CallOf.mono {lo lo' hi hi' : Nat} {k : Call} {i : Item} (h : CallOf L lo hi k i) (h1 : lo' ≤ lo) (h2 : hi ≤ hi') : CallOf L lo' hi' k i := by
  obtain ⟨a, last, r, g, e1, e2, e3, e4, e5, e6⟩ := h
  exact ⟨a, last, r, g, e1, e2, e3, e4, by omega, by omega⟩

/-- One element after the other. -/
def After (k1 k2 : Call) : Prop := k1.entire.second ≤ k2.entire.first

def preCalls (L : Lib) (cs : List Call) : List Call := cs.filter fun k => L.pred k.name

theorem pre_call {i : Item} {h : Head} {a last : Nat} {r : List Nat} (hd : i.head? = some h) (hh : Here L.mem last a (i.render ++ r)) :
    L.pred (i.call L.mem a h).name = L.p h.name := by
  obtain ⟨l, hl⟩ := item_here hd hh
  rw [pred_p]
  exact congrArg L.p (Xml.Head.name_text hl)

mutual
theorem item_outer (i : Item) {a last : Nat} {r : List Nat} (hok : i.Ok) (hh : Here L.mem last a (i.render ++ r)) :
    List.Forall₂ (CallOf L a (a + i.render.length)) (preCalls L (callsItem L.p L.mem a i)) (outerItem L.mk' L.xs i) := by
  match i with
  | .ref b => exact .nil
  | .comment b => exact .nil
  | .empty h =>
    simp only [callsItem, preCalls, outerItem, List.filter_cons, List.filter_nil]
    rw [pre_call (h := h) rfl hh]
    by_cases hp : L.p h.name = true
    · rw [if_pos hp, if_pos ((p_iff _).mp hp)]
      exact .cons ⟨a, last, r, h, hh, rfl, hok, rfl, Nat.le_refl _, Nat.le_refl _⟩ .nil
    · rw [if_neg hp, if_neg (by rwa [← p_iff])]
      exact .nil
  | .elem h x w1 w2 =>
    simp only [callsItem, outerItem]
    by_cases hp : L.p h.name = true
    · rw [if_pos hp, if_pos ((p_iff _).mp hp)]
      simp only [preCalls, List.filter_cons, List.filter_nil]
      rw [pre_call (h := h) rfl hh, if_pos hp]
      exact .cons ⟨a, last, r, h, hh, rfl, hok, rfl, Nat.le_refl _, Nat.le_refl _⟩ .nil
    · rw [if_neg hp, if_neg (by rwa [← p_iff])]
      unfold Item.Ok at hok
      refine (content_outer x hok.2.1 (elem_here hh)).imp fun k i hk => hk.mono (by omega) ?_
      simp [Item.render]; omega
theorem content_outer (x : Content) {a last : Nat} {r : List Nat} (hok : x.Ok) (hh : Here L.mem last a (x.render ++ r)) :
    List.Forall₂ (CallOf L a (a + x.render.length)) (preCalls L (callsContent L.p L.mem a x)) (outer L.mk' L.xs x) := by
  match x with
  | .nil t => exact .nil
  | .openRef t b => exact .nil
  | .cons t i rest =>
    unfold Content.Ok at hok
    simp only [Content.render, List.append_assoc] at hh
    simp only [callsContent, outer, preCalls, List.filter_append]
    refine List.rel_append ((item_outer i hok.2.1 hh.drop).imp fun k i hk => hk.mono (by omega) ?_)
      ((content_outer rest hok.2.2 hh.drop.drop).imp fun k i hk => hk.mono (by omega) ?_) <;> simp [Content.render] <;> omega
end

/-- Bounds of all calls. -/
def Within (lo hi : Nat) (k : Call) : Prop := lo ≤ k.entire.first ∧ k.entire.first ≤ k.entire.second ∧ k.entire.second ≤ hi

mutual
theorem item_within (p : List Nat → Bool) (mem : Mem) (i : Item) (a : Nat) :
    (∀ k ∈ callsItem p mem a i, Within a (a + i.render.length) k) ∧ (callsItem p mem a i).Pairwise After := by
  match i with
  | .ref b => simp [callsItem]
  | .comment b => simp [callsItem]
  | .empty h =>
    simp only [callsItem, List.mem_singleton, forall_eq, List.pairwise_singleton, and_true]
    exact ⟨Nat.le_refl _, Nat.le_add_right _ _, Nat.le_refl _⟩
  | .elem h x w1 w2 =>
    simp only [callsItem]
    split
    · simp only [List.mem_singleton, forall_eq, List.pairwise_singleton, and_true]
      exact ⟨Nat.le_refl _, Nat.le_add_right _ _, Nat.le_refl _⟩
    · obtain ⟨h1, h2⟩ := content_within p mem x (a + 1 + h.render.length + 1)
      refine ⟨fun k hk => ?_, h2⟩
      obtain ⟨e1, e2, e3⟩ := h1 k hk
      refine ⟨by omega, e2, Nat.le_trans e3 ?_⟩
      simp [Item.render]; omega
theorem content_within (p : List Nat → Bool) (mem : Mem) (x : Content) (a : Nat) :
    (∀ k ∈ callsContent p mem a x, Within a (a + x.render.length) k) ∧ (callsContent p mem a x).Pairwise After := by
  match x with
  | .nil t => simp [callsContent]
  | .openRef t b => simp [callsContent]
  | .cons t i rest =>
    obtain ⟨h1, h2⟩ := item_within p mem i (a + t.length)
    obtain ⟨h3, h4⟩ := content_within p mem rest (a + t.length + i.render.length)
    simp only [callsContent]
    refine ⟨fun k hk => ?_, List.pairwise_append.mpr ⟨h2, h4, fun k hk k' hk' => ?_⟩⟩
    · have hl : (Content.cons t i rest).render.length = t.length + (i.render.length + rest.render.length) := by simp [Content.render]
      rcases List.mem_append.mp hk with hk | hk
      · obtain ⟨e1, e2, e3⟩ := h1 k hk
        exact ⟨by omega, e2, by omega⟩
      · obtain ⟨e1, e2, e3⟩ := h3 k hk
        exact ⟨by omega, e2, by omega⟩
    · exact Nat.le_trans (h1 k hk).2.2 (h3 k' hk').1
end

end Verif.XString
