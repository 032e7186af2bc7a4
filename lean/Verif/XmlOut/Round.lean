import Verif.XmlOut.Layout
import Verif.Xml.Props
/-!
The text of a value is that of an XML element that stands for the value.
-/
namespace Verif.XmlOut
open Verif.Expr
open Verif.XmlOut.Spec
open Verif.Xml.Spec
open Verif.Cel.Spec (norm normAll normMembers)
open Verif.Cel (sortKeys)

variable {D O : Type} {c : Cfg D O} {r : Reader D}

theorem codes_append (a b : Str) : codes (a ++ b) = codes a ++ codes b := by simp [codes]

theorem blank_tabs (d : Nat) : Blank (codes (tabs d)) := by
  intro x hx
  simp [codes, tabs] at hx
  exact .inr (by omega)

theorem blank_newline : Blank (codes "\n".toList) := by
  intro x hx
  simp [codes] at hx
  exact .inr (by omega)

theorem Blank.append {a b : List Nat} (ha : Blank a) (hb : Blank b) : Blank (a ++ b) := by
  intro x hx
  rcases List.mem_append.mp hx with h | h
  · exact ha x h
  · exact hb x h

theorem Blank.chars {t : List Nat} (h : Blank t) : IsChars t := by
  refine ⟨fun x hx => ?_, ?_, ?_⟩
  · rcases h x hx with h | h <;> omega
  · rintro ⟨u, rfl⟩
    rcases h 62 (by simp) with h | h <;> omega
  · rintro ⟨u, rfl⟩
    rcases h 47 (by simp) with h | h <;> omega

theorem isChars_of {t : List Nat} (h : ∀ x ∈ t, x ≠ 60 ∧ x ≠ 38 ∧ x ≠ 62) : IsChars t := by
  refine ⟨fun x hx => ⟨(h x hx).1, (h x hx).2.1⟩, ?_, ?_⟩
  · rintro ⟨u, rfl⟩
    exact (h 62 (by simp)).2.2 rfl
  · rintro ⟨u, rfl⟩
    exact (h 62 (by simp)).2.2 rfl

/-- The names of the elements. -/
def tags : List String := ["xml", "empty", "bool", "integer", "double", "ident", "string", "array", "dict", "key", "xml_unknown"]

instance (n : Nat) : Decidable (NameStart n) := by unfold NameStart; infer_instance
instance (n : Nat) : Decidable (NameChar n) := by unfold NameChar; infer_instance

theorem tags_names : ∀ t ∈ tags, (∃ c ∈ (codes t.toList).head?, NameStart c) ∧ ∀ c ∈ codes t.toList, NameChar c := by decide +kernel

theorem head_ok {t : String} (h : t ∈ tags) : (Head.mk [] (codes t.toList) [] []).Ok := by
  obtain ⟨⟨a, h1, h2⟩, h3⟩ := tags_names t h
  refine ⟨by simp [Blank], ⟨?_, h3⟩, by simp, by simp, by simp [Blank]⟩
  cases e : codes t.toList with
  | nil => rw [e] at h1; simp at h1
  | cons b l => rw [e] at h1; simp at h1; subst h1; exact ⟨b, l, rfl, h2⟩

theorem element_ok {t : String} (h : t ∈ tags) {x : Content} (hx : x.Ok) (hc : x.closed) : (element t x).Ok :=
  ⟨head_ok h, hx, hc, by simp [Blank], by simp [Blank]⟩

theorem element_render (t : String) {x : Content} {s : Str} (h : x.render = codes s) : (element t x).render = codes (tagged t s) := by
  simp [element, Item.render, Head.render, renderAtts, h, codes, tagged]

theorem leaf_ok {t : String} (h : t ∈ tags) {s : List Nat} (hs : IsChars s) : (element t (.nil s)).Ok := element_ok h hs trivial

theorem leaf_render (t : String) (s : Str) : (element t (.nil (codes s))).render = codes (tagged t s) := element_render t rfl

theorem digits_chars (n : Int) : IsChars (codes (digits n)) := by
  apply isChars_of
  rw [← intText_eq]
  have key : ∀ (m : Nat) (x : Nat), x ∈ codes (Nat.toDigits 10 m) → 48 ≤ x ∧ x ≤ 57 := by
    intro m x hx
    obtain ⟨ch, hch, rfl⟩ := List.mem_map.mp hx
    have := Nat.isDigit_of_mem_toDigits (by decide) (by decide) hch
    simpa [Char.isDigit, UInt32.le_iff_toNat_le] using this
  intro x hx
  unfold intText at hx
  split at hx
  · simp only [codes, List.map_cons, List.mem_cons] at hx
    rcases hx with rfl | hx
    · decide
    · have := key _ x hx; omega
  · have := key _ x hx; omega

/-- An escaped string as content, after the character data `u`. -/
theorem escape_content {byCode byName : List Entity.Entry} (h : Entity.Sorted byCode byName) (s : List Nat) (hs : ∀ x ∈ s, x < 256) :
    ∀ u : List Nat, (∀ x ∈ u, x ≠ 60 ∧ x ≠ 38 ∧ x ≠ 62) → ∀ t, Entity.entityEscape byCode s = some t →
      ∃ x : Content, x.render = u ++ t ∧ x.Ok ∧ x.closed ∧ TextOnly x := by
  induction s with
  | nil =>
    intro u hu t ht
    simp only [Entity.entityEscape, Option.some.injEq] at ht
    subst ht
    exact ⟨.nil u, by simp [Content.render], isChars_of hu, trivial, .nil⟩
  | cons a s ih =>
    intro u hu t ht
    have hpl := Entity.entityEscape_plain h (s := a :: s) hs ht
    unfold Entity.entityEscape at ht
    split at ht
    case h_2 => cases ht
    next p q hp hq =>
    simp only [Option.some.injEq] at ht
    subst ht
    have ih' := ih (fun x hx => hs x (by simp [hx]))
    -- the text of one byte: itself, or a reference
    have hone : p = [a] ∧ a ≠ 38 ∨ ∃ b, p = 38 :: (b ++ [59]) ∧ 59 ∉ b := by
      unfold Entity.escapeByte at hp
      rcases Entity.codePointIndexFind_spec h a with ⟨h1, h2⟩ | ⟨e, he, hec, h1⟩
      · rw [h1] at hp
        simp only at hp
        split at hp
        · simp only [Option.some.injEq] at hp
          right
          have hn := Entity.nybble_ok a (hs a (by simp))
          refine ⟨[35, 120, Entity.nybble ((a >>> 4) &&& 15), Entity.nybble (a &&& 15)], by rw [← hp]; rfl, ?_⟩
          simp only [List.mem_cons, List.not_mem_nil, or_false, not_or]
          refine ⟨by decide, by decide, ?_, ?_⟩
          · rintro e; rw [← e] at hn; simp at hn
          · rintro e; rw [← e] at hn; simp at hn
        · simp only [Option.some.injEq] at hp
          left
          refine ⟨hp.symm, ?_⟩
          rintro rfl
          obtain ⟨e, he, hec⟩ := Entity.set_has_specials 38 (by simp)
          exact h2 e he hec
      · rw [h1] at hp
        simp only [Option.some.injEq] at hp
        right
        refine ⟨e.1, by rw [← hp]; simp, ?_⟩
        intro hm
        have := (Entity.set_names_ok e he).2 59 hm
        omega
    rcases hone with ⟨rfl, ha⟩ | ⟨b, rfl, hb⟩
    · obtain ⟨x, h1, h2, h3, h4⟩ := ih' (u ++ [a]) (by
        intro x hx
        rcases List.mem_append.mp hx with hx | hx
        · exact hu x hx
        · have := hpl a (by simp)
          simp only [List.mem_singleton] at hx
          subst hx
          exact ⟨this.2.2.2.2.1, ha, this.2.2.2.2.2⟩) q hq
      exact ⟨x, by rw [h1]; simp, h2, h3, h4⟩
    · obtain ⟨x, h1, h2, h3, h4⟩ := ih' [] (by simp) q hq
      refine ⟨.cons u (.ref b) x, by simp [Content.render, Item.render, h1], ⟨isChars_of hu, hb, h2⟩, h3, .cons h4⟩

theorem codes_ofNat (s : List Nat) (h : ∀ x ∈ s, x < 128) : codes (s.map Char.ofNat) = s := by
  unfold codes
  rw [List.map_map]
  conv_rhs => rw [← List.map_id s]
  apply List.map_congr_left
  intro x hx
  have := h x hx
  have hv : Nat.isValidChar x := .inl (by omega)
  simp [Char.ofNat, hv, Char.toNat, Char.ofNatAux]

/-- What there is to show of the text of a value. -/
def Tree (c : Cfg D O) (r : Reader D) (d : Nat) (v : Val D O) : Prop :=
  ∃ i : Item, i.render = codes (text c d v) ∧ i.Ok ∧ i.head? ≠ none ∧ Reads r i v

theorem tree_leaf {v : Val D O} {d : Nat} (t : String) (ht : t ∈ tags) (s : Str) (hs : IsChars (codes s)) (e : text c d v = tagged t s)
    (hr : Reads r (element t (.nil (codes s))) v) : Tree c r d v :=
  ⟨_, by rw [leaf_render, e], leaf_ok ht hs, by simp [element, Item.head?], hr⟩

theorem tree_string (hs : Entity.Sorted c.byCode r.byName) (s : Str) (h : ∀ x ∈ s, 0 < x.toNat ∧ x.toNat < 128) (d : Nat) :
    Tree c r d (.str s : Val D O) := by
  have hc : ∀ x ∈ codes s, 0 < x ∧ x < 128 := by
    intro x hx
    obtain ⟨ch, h1, rfl⟩ := List.mem_map.mp hx
    exact h ch h1
  obtain ⟨t, ht, hu⟩ := Entity.C86_round_trip_partial hs (codes s) hc
  have hpl := Entity.entityEscape_plain hs (fun x hx => by have := hc x hx; omega) ht
  obtain ⟨x, h1, h2, h3, h4⟩ := escape_content hs (codes s) (fun x hx => by have := hc x hx; omega) [] (by simp) t ht
  have ht' : Entity.entityEscape c.byCode (s.map Char.toNat) = some t := ht
  have e : x.render = codes (escaped c s) := by
    unfold escaped
    rw [ht']
    simp only [h1, List.nil_append]
    exact (codes_ofNat t fun x hx => by have := (hpl x hx).2.1; omega).symm
  refine ⟨element "string" x, ?_, element_ok (by simp [tags]) h2 h3, by simp [element, Item.head?], .string h4 ?_⟩
  · rw [element_render "string" e, text]
  · rw [h1, List.nil_append, hu]

theorem tree_empty (d : Nat) : Tree c r d (.empty : Val D O) := by
  refine ⟨.empty ⟨[], codes "empty".toList, [], []⟩, ?_, head_ok (by simp [tags]), by simp [Item.head?], .empty⟩
  rw [text]
  unfold emptyTag
  decide +kernel

mutual
theorem tree (hs : Entity.Sorted c.byCode r.byName) (v : Val D O) (h : Ok c r v) (d : Nat) : Tree c r d v := by
  match v with
  | .empty =>
    exact tree_empty d
  | .bool true => exact tree_leaf "bool" (by simp [tags]) "true".toList (isChars_of (by decide)) (by simp [text]) .true_
  | .bool false => exact tree_leaf "bool" (by simp [tags]) "false".toList (isChars_of (by decide)) (by simp [text]) .false_
  | .num x =>
    unfold Ok NumOk at h
    cases e : c.int x with
    | some n =>
      rw [e] at h
      refine tree_leaf "integer" (by simp [tags]) (digits n) (digits_chars n) (by simp [text, number, e]) ?_
      have h' : r.ofInt n = x := h
      rw [← h']; exact .int
    | none =>
      rw [e] at h
      have h' : IsChars (codes (c.show_ x)) ∧ r.decimal (c.show_ x) = x := h
      refine tree_leaf "double" (by simp [tags]) (c.show_ x) h'.1 (by simp [text, number, e]) ?_
      have := Reads.double (O := O) (r := r) (s := c.show_ x)
      rwa [h'.2] at this
  | .name n => exact tree_leaf "ident" (by simp [tags]) n (by unfold Ok at h; exact h) (by simp [text]) .ident
  | .str s => exact tree_string hs s (by unfold Ok at h; exact h) d
  | .arr vs =>
    obtain ⟨x, is, h1, h2, h3, h4, h5⟩ := tree_all hs vs (by unfold Ok at h; exact h) (d + 1) d _ blank_newline
    refine ⟨element "array" x, ?_, element_ok (by simp [tags]) h2 h3, by simp [element, Item.head?], .array h4 h5⟩
    rw [element_render "array" (s := "\n".toList ++ textAll c (d + 1) vs ++ tabs d) (by rw [h1]; simp only [codes_append])]
    simp only [text]
  | .dict ms =>
    obtain ⟨x, is, h1, h2, h3, h4, h5⟩ := tree_members hs ms (by unfold Ok at h; exact h) (d + 1) d _ blank_newline
    refine ⟨element "dict" x, ?_, element_ok (by simp [tags]) h2 h3, by simp [element, Item.head?], .dict h4 h5⟩
    rw [element_render "dict" (s := "\n".toList ++ textMembers c (d + 1) ms ++ tabs d) (by rw [h1]; simp only [codes_append])]
    simp only [text]
  | .other o => unfold Ok at h; exact h.elim
theorem tree_all (hs : Entity.Sorted c.byCode r.byName) (vs : List (Val D O)) (h : OkAll c r vs) (d e : Nat) (w : List Nat) (hw : Blank w) :
    ∃ (x : Content) (is : List Item), x.render = w ++ codes (textAll c d vs) ++ codes (tabs e) ∧ x.Ok ∧ x.closed ∧ Children x is ∧
      ReadsAll r is vs := by
  match vs with
  | [] =>
    have hb := Blank.append hw (blank_tabs e)
    exact ⟨.nil (w ++ codes (tabs e)), [], by simp [Content.render, textAll, codes], Blank.chars hb, trivial, .nil hb, .nil⟩
  | v :: vs =>
    unfold OkAll at h
    obtain ⟨i, i1, i2, i3, i4⟩ := tree hs v h.1 d
    obtain ⟨x, is, h1, h2, h3, h4, h5⟩ := tree_all hs vs h.2 d e _ blank_newline
    have hb := Blank.append hw (blank_tabs d)
    refine ⟨.cons (w ++ codes (tabs d)) i x, i :: is, ?_, ⟨Blank.chars hb, i2, h2⟩, h3, .cons hb i3 h4, .cons i4 h5⟩
    simp only [Content.render, i1, h1, textAll, codes_append, List.append_assoc]
theorem tree_members (hs : Entity.Sorted c.byCode r.byName) (ms : List (Str × Val D O)) (h : OkMembers c r ms) (d e : Nat) (w : List Nat)
    (hw : Blank w) :
    ∃ (x : Content) (is : List Item), x.render = w ++ codes (textMembers c d ms) ++ codes (tabs e) ∧ x.Ok ∧ x.closed ∧ Children x is ∧
      ReadsMembers r is ms := by
  match ms with
  | [] =>
    have hb := Blank.append hw (blank_tabs e)
    exact ⟨.nil (w ++ codes (tabs e)), [], by simp [Content.render, textMembers, codes], Blank.chars hb, trivial, .nil hb, .nil⟩
  | (k, v) :: ms =>
    unfold OkMembers at h
    obtain ⟨i, i1, i2, i3, i4⟩ := tree hs v h.2.1 d
    obtain ⟨x, is, h1, h2, h3, h4, h5⟩ := tree_members hs ms h.2.2 d e _ blank_newline
    have hb := Blank.append hw (blank_tabs d)
    have hb' := Blank.append blank_newline (blank_tabs d)
    refine ⟨.cons (w ++ codes (tabs d)) (element "key" (.nil (codes k))) (.cons (codes "\n".toList ++ codes (tabs d)) i x),
      element "key" (.nil (codes k)) :: i :: is, ?_, ⟨Blank.chars hb, leaf_ok (by simp [tags]) h.1, Blank.chars hb', i2, h2⟩, h3,
      .cons hb (by simp [element, Item.head?]) (.cons hb' i3 h4), .cons i4 h5⟩
    simp only [Content.render, i1, h1, textMembers, codes_append, List.append_assoc, leaf_render]
end

theorem okMembers_iff (ms : List (Str × Val D O)) : OkMembers c r ms ↔ ∀ m ∈ ms, NameOk m.1 ∧ Ok c r m.2 := by
  induction ms with
  | nil => simp [OkMembers]
  | cons m ms ih => obtain ⟨k, v⟩ := m; simp [OkMembers, ih, and_assoc]

theorem okAll_iff (vs : List (Val D O)) : OkAll c r vs ↔ ∀ v ∈ vs, Ok c r v := by
  induction vs with
  | nil => simp [OkAll]
  | cons v vs ih => simp [OkAll, ih]

mutual
theorem ok_norm (v : Val D O) (h : Ok c r v) : Ok c r (norm v) := by
  match v with
  | .empty => exact h
  | .bool _ => exact h
  | .num _ => exact h
  | .name _ => exact h
  | .str _ => exact h
  | .other _ => exact h
  | .arr vs =>
    unfold Ok at h
    simp only [norm]
    unfold Ok
    exact okAll_norm vs h
  | .dict ms =>
    unfold Ok at h
    simp only [norm]
    unfold Ok
    rw [okMembers_iff]
    intro m hm
    exact okMembers_norm ms h m (Cel.mem_sortKeys.mp hm)
theorem okAll_norm (vs : List (Val D O)) (h : OkAll c r vs) : OkAll c r (normAll vs) := by
  match vs with
  | [] => exact h
  | v :: vs =>
    unfold OkAll at h
    simp only [normAll]
    unfold OkAll
    exact ⟨ok_norm v h.1, okAll_norm vs h.2⟩
theorem okMembers_norm (ms : List (Str × Val D O)) (h : OkMembers c r ms) : ∀ m ∈ normMembers ms, NameOk m.1 ∧ Ok c r m.2 := by
  match ms with
  | [] => simp [normMembers]
  | (k, v) :: ms =>
    unfold OkMembers at h
    intro m hm
    simp only [normMembers, List.mem_cons] at hm
    rcases hm with rfl | hm
    · exact ⟨h.1, ok_norm v h.2.1⟩
    · exact okMembers_norm ms h.2.2 m hm
end

end Verif.XmlOut
