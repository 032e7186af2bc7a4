import Verif.XString.Store
namespace Verif.XString
open Verif.XmlAttr (Mem Tok Attr tokenRangeEqual tokenRangeLess tokenRangeEqual_iff tokenRangeLess_iff)
open Verif.Xml (Call Cfg St R Here)
open Verif.Xml.Spec
open Spec

variable {L : Lib}

theorem lookup_answer (attrs : List Attr) (g : Glossary) (cs : List Call) (k : Call) (hne : L.mk' ≠ L.xs) :
    (lookupCfg L attrs g none).callback cs k = some (if k.name.text L.mem = L.mk' then k.entire else k.value) := by
  simp only [lookupCfg, Lib.pred, xstrLookup, closestMatch, eq_decide]
  by_cases h1 : k.name.text L.mem = L.xs
  · have : ¬ k.name.text L.mem = L.mk' := by rw [h1]; exact fun e => hne e.symm
    simp only [h1, if_neg (fun e : L.xs = L.mk' => hne e.symm), decide_true, Bool.true_or, if_true]
  · by_cases h2 : k.name.text L.mem = L.mk' <;> simp [h1, h2, hne]

theorem lookup_empty (attrs : List Attr) (g : Glossary) (hne : L.mk' ≠ L.xs) {h : Head} {a last : Nat} {r : List Nat} (cs : List Call)
    (hh : Here L.mem last a ((Item.empty h).render ++ r)) :
    ItemSem (lookupCfg L attrs g none) a (.empty h) cs (stripItem L.byName L.mk' (.empty h)) (cs ++ [(Item.empty h).call L.mem a h]) := by
  obtain ⟨l, hl⟩ := item_here (h := h) rfl hh
  have hn : ((Item.empty h).call L.mem a h).name.text L.mem = h.name := Xml.Head.name_text hl
  have hb := lookup_answer attrs g cs ((Item.empty h).call L.mem a h) hne
  rw [hn] at hb
  by_cases hm : h.name = L.mk'
  · rw [if_pos hm] at hb
    have := ItemSem.same (c := lookupCfg L attrs g none) (i := .empty h) (a := a) (cs := cs) (h := h) rfl rfl hb
    have e : stripItem L.byName L.mk' (.empty h) = (Item.empty h).render := by simp only [stripItem]; rw [if_pos hm]
    rw [e]
    exact this
  · rw [if_neg hm] at hb
    have := ItemSem.replaced (c := lookupCfg L attrs g none) (i := .empty h) (a := a) (cs := cs) (h := h) (r := .null) (new := .nil []) (rest := [])
      (o := []) (cs' := cs ++ [(Item.empty h).call L.mem a h]) rfl rfl hb (by
        intro e
        have h1 := congrArg Tok.first e
        have h2 := congrArg Tok.second e
        have h3 := Xml.Item.render_pos (Item.empty h)
        simp only [Tok.null, Item.entire] at h1 h2
        omega) (Nat.le_refl _) rfl ⟨by simp, by simp, by simp⟩ (.inl rfl) .nil
    simpa [stripItem, hm] using this

mutual
theorem lookup_item (attrs : List Attr) (g : Glossary) (hne : L.mk' ≠ L.xs) (i : Item) {a last : Nat} {r : List Nat} (ha : a ≠ 0) (cs : List Call)
    (hok : i.Ok) (hh : Here L.mem last a (i.render ++ r)) (hb : bareItem L.mk' i) :
    ∃ cs', ItemSem (lookupCfg L attrs g none) a i cs (stripItem L.byName L.mk' i) cs' := by
  match i with
  | .ref b => exact ⟨cs, .ref⟩
  | .comment b => exact ⟨cs, .comment⟩
  | .empty h => exact ⟨_, lookup_empty attrs g hne cs hh⟩
  | .elem h x w1 w2 =>
    have hok' := hok
    unfold Item.Ok at hok'
    obtain ⟨l, hl⟩ := item_here (h := h) rfl hh
    have hn : ((Item.elem h x w1 w2).call L.mem a h).name.text L.mem = h.name := Xml.Head.name_text hl
    have hcb := lookup_answer attrs g cs ((Item.elem h x w1 w2).call L.mem a h) hne
    rw [hn] at hcb
    by_cases hm : h.name = L.mk'
    · rw [if_pos hm] at hcb
      have e : stripItem L.byName L.mk' (.elem h x w1 w2) = (Item.elem h x w1 w2).render := by simp only [stripItem]; rw [if_pos hm]
      rw [e]
      exact ⟨_, .same (c := lookupCfg L attrs g none) (h := h) rfl rfl hcb⟩
    · rw [if_neg hm] at hcb
      have e : stripItem L.byName L.mk' (.elem h x w1 w2) = strip L.byName L.mk' x := by simp only [stripItem]; rw [if_neg hm]
      rw [e]
      unfold bareItem at hb
      obtain ⟨hu, hb'⟩ := hb.resolve_left hm
      have hv : ((Item.elem h x w1 w2).call L.mem a h).value = if x.render = [] then .null
          else ⟨a + 1 + h.render.length + 1, a + 1 + h.render.length + 1 + x.render.length⟩ := by
        show (Item.elem h x w1 w2).value a = _
        simp only [Item.value]
        exact Xml.range_uncommented (by omega) hu
      have hr : Reads L.mem ((Item.elem h x w1 w2).call L.mem a h).value x := by
        rw [hv]
        by_cases hx : x.render = []
        · rw [if_pos hx]; exact ⟨Nat.le_refl _, by rw [hx]; rfl, hok'.2.1⟩
        · rw [if_neg hx]; exact ⟨Nat.le_add_right _ _, (elem_here hh).text, hok'.2.1⟩
      have hdiff : ((Item.elem h x w1 w2).call L.mem a h).value ≠ (Item.elem h x w1 w2).entire a := by
        intro e
        rw [hv] at e
        have h3 := congrArg Tok.first e
        split at h3
        · simp only [Tok.null, Item.entire] at h3; omega
        · simp only [Item.entire] at h3; omega
      by_cases hx : x.render = []
      · have hx' : strip L.byName L.mk' x = [] := by
          cases x with
          | nil t => simpa [Content.render, strip] using hx
          | openRef t b => simp [Content.render] at hx
          | cons t i rest =>
            have := Xml.Item.render_pos i
            simp only [Content.render, List.append_eq_nil_iff] at hx
            rw [hx.2.1] at this
            simp at this
        rw [hx']
        exact ⟨_, .replaced (c := lookupCfg L attrs g none) (h := h) (new := .nil []) (rest := []) rfl rfl hcb hdiff hr.1
          (by rw [show (lookupCfg L attrs g none).mem = L.mem from rfl, hr.2.1, hx]; rfl) ⟨by simp, by simp, by simp⟩ (.inl rfl) .nil⟩
      · have hf : ((Item.elem h x w1 w2).call L.mem a h).value.first = a + 1 + h.render.length + 1 := by rw [hv, if_neg hx]
        obtain ⟨cs', h1⟩ := lookup_content attrs g hne x (a := a + 1 + h.render.length + 1) (by omega)
          (cs ++ [(Item.elem h x w1 w2).call L.mem a h]) hok'.2.1 (elem_here hh) hb'
        refine ⟨cs', .replaced (c := lookupCfg L attrs g none) (h := h) (new := x) (rest := []) rfl rfl hcb hdiff hr.1
          (by rw [List.append_nil]; exact hr.2.1) hok'.2.1 (Content.stops_nil x) ?_⟩
        rw [hf]
        exact h1
theorem lookup_content (attrs : List Attr) (g : Glossary) (hne : L.mk' ≠ L.xs) (x : Content) {a last : Nat} {r : List Nat} (ha : a ≠ 0) (cs : List Call)
    (hok : x.Ok) (hh : Here L.mem last a (x.render ++ r)) (hb : bare L.mk' x) :
    ∃ cs', ContentSem (lookupCfg L attrs g none) a x cs (strip L.byName L.mk' x) cs' := by
  match x with
  | .nil t => exact ⟨cs, .nil⟩
  | .openRef t b => exact ⟨cs, .openRef⟩
  | .cons t i rest =>
    unfold Content.Ok at hok
    unfold bare at hb
    simp only [Content.render, List.append_assoc] at hh
    obtain ⟨c1, h1⟩ := lookup_item attrs g hne i (a := a + t.length) (by omega) cs hok.2.1 hh.drop hb.1
    obtain ⟨c2, h2⟩ := lookup_content attrs g hne rest (a := a + t.length + i.render.length) (by omega) c1 hok.2.2 hh.drop.drop hb.2
    exact ⟨c2, .cons h1 h2⟩
end

end Verif.XString
