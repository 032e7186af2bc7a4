import Verif.XmlOut.Round
import Verif.Xml.Unique
import Verif.Cel.Props
/-!
C102: what `begin_xml << value << end_xml` writes.  C103: reading it back.
-/
namespace Verif.XmlOut
open Verif.Expr
open Verif.XmlOut.Spec
open Verif.Xml.Spec
open Verif.Xml (Gives Throws parseDocument parseContent)
open Verif.XmlAttr (Tok)
open Verif.Cel (Tag Elem St M seq skip write manip push drop all sortKeys)
open Verif.Cel.Spec (norm normAll normMembers)

variable {D O : Type} {c : Cfg D O} {r : Reader D}

/-! ### C102 -/

/-- C102: whatever was written before, `os << value` inside of a format – if it is not in the place of the name of a member – writes the
text of the value on lines of its own, throws nothing, and leaves depth and nesting as they were. -/
theorem C102_put (v : Val D O) (out : Str) (d : Nat) (st : List Elem)
    (hk : ∀ n st', st ≠ ⟨.seq, 0⟩ :: ⟨.bag, n⟩ :: st') :
    ∃ st', put c v ⟨out, d, st⟩ = (⟨out ++ (tabs d ++ text c d (norm v) ++ "\n".toList), d, st'⟩, false) ∧
      st'.map (·.tag) = st.map (·.tag) := by
  refine ⟨counted st, ?_, ?_⟩
  · have h : keyPos st = false := by
      unfold keyPos
      split
      · next n st' => exact absurd rfl (hk n st')
      · rfl
    have := text_prints (c := c) v d st h out
    rw [this]
    simp [indents, tabs]
  · unfold counted
    split <;> simp

theorem beginXml_eq : beginXml [] = ⟨"<xml>\n".toList, 0, [⟨.format, 0⟩]⟩ := by
  simp [beginXml, beginFormat, seq, push, eventPush, St.tag, indents]

theorem endFormat_eq (out : Str) (k : Nat) :
    endFormat ⟨out, 0, [⟨.format, k⟩]⟩ = (⟨out ++ "</xml>".toList, 0, []⟩, false) := by
  simp [endFormat, seq, eventPop, drop, St.tag, indents]

/-- C102: `os << begin_xml << value << end_xml` is the document of the value. -/
theorem C102_serialize (v : Val D O) : serialize c v = document c (norm v) := by
  unfold serialize
  have h := text_prints (c := c) v 0 [⟨.format, 0⟩] rfl
  rw [beginXml_eq]
  simp only [seq, h _, counted]
  rw [endFormat_eq]
  simp [document, tagged, indents]

/-- C102: the same for a dictionary. -/
theorem C102_dictionary (ms : List (Str × Val D O)) : serializeDictionary c ms = document c (norm (.dict ms)) := by
  unfold serializeDictionary
  have h := dict_puts (c := c) ms (members_print ms) 0 [⟨.format, 0⟩]
  rw [beginXml_eq]
  simp only [seq, h _]
  rw [endFormat_eq]
  simp [document, tagged, close]

/-- C102: the same for an array. -/
theorem C102_array (vs : List (Val D O)) : serializeArray c vs = document c (norm (.arr vs)) := by
  unfold serializeArray
  have h := array_puts (c := c) vs (all_prints vs) 0 (r := [⟨.format, 0⟩]) (by simp)
  rw [beginXml_eq]
  simp only [seq, h _]
  rw [endFormat_eq]
  simp [document, tagged, close]

/-- C102: the text does not depend on the order of the members in the hash table. -/
theorem C102_order_independent (ms ms' : List (Str × Val D O)) (hp : ms.Perm ms') (hn : (ms.map (·.1)).Nodup) :
    serializeDictionary c ms = serializeDictionary c ms' := by
  rw [C102_dictionary, C102_dictionary]
  congr 1
  simp only [norm, Cel.normMembers_eq]
  congr 1
  have hp' : (sortKeys (ms.map fun m => (m.1, norm m.2))).Perm (sortKeys (ms'.map fun m => (m.1, norm m.2))) :=
    (List.mergeSort_perm _ _).trans ((hp.map _).trans (List.mergeSort_perm _ _).symm)
  refine hp'.eq_of_pairwise ?_ (Cel.sortKeys_sorted _) (Cel.sortKeys_sorted _)
  intro a b ha hb h1 h2
  have e : a.1 = b.1 := Cel.keyLe_antisymm _ _ h1 h2
  have ha' : a ∈ ms.map fun m => (m.1, norm m.2) := Cel.mem_sortKeys.mp ha
  have hb' : b ∈ ms.map fun m => (m.1, norm m.2) := (hp.map _).mem_iff.mpr (Cel.mem_sortKeys.mp hb)
  have hnd : ((ms.map fun m => (m.1, norm m.2)).map (·.1)).Nodup := by rw [List.map_map]; exact hn
  exact List.inj_on_of_nodup_map hnd ha' hb' e

/-- C102: `end_xml` does not take the format away from the stream: what is written after it still is XML. -/
theorem C102_after_end_violated (v : Val D O) (out : Str) (k : Nat) :
    (seq endFormat (put c v) ⟨out, 0, [⟨.format, k⟩]⟩).1.out =
      out ++ ("</xml>".toList ++ (text c 0 (norm v) ++ "\n".toList)) := by
  have h := text_prints (c := c) v 0 [] rfl
  simp only [seq, endFormat_eq, h _]
  simp [indents]

/-! ### C103 -/

theorem codes_inj {a b : Str} (h : codes a = codes b) : a = b :=
  List.map_injective_iff.mpr (fun _ _ h => Char.toNat_inj.mp h) h

theorem toDigits_inj {a b : Nat} (h : Nat.toDigits 10 a = Nat.toDigits 10 b) : a = b := by
  have := congrArg (fun l => Nat.ofDigitChars 10 l 0) h
  simpa [Nat.ofDigitChars_toDigits] using this

theorem digits_inj {n m : Int} (h : digits n = digits m) : n = m := by
  rw [← intText_eq, ← intText_eq] at h
  have hd : ∀ (k : Nat) (l : Str), Nat.toDigits 10 k ≠ '-' :: l := by
    intro k l e
    have := Nat.isDigit_of_mem_toDigits (b := 10) (c := '-') (n := k) (by decide) (by decide) (by rw [e]; simp)
    exact absurd this (by decide)
  unfold intText at h
  split at h <;> split at h
  · simp only [List.cons.injEq, true_and] at h
    have := toDigits_inj h
    omega
  · exact absurd h.symm (hd _ _)
  · exact absurd h (hd _ _)
  · have := toDigits_inj h
    omega

theorem children_unique {x : Content} {is is' : List Item} (h : Children x is) (h' : Children x is') : is = is' := by
  induction h generalizing is' with
  | nil _ => cases h'; rfl
  | cons _ _ _ ih => cases h' with | cons _ _ h => rw [ih h]

theorem element_inj {t t' : String} {x x' : Content} (h : element t x = element t' x') : t = t' ∧ x = x' := by
  simp only [element, Item.elem.injEq, Head.mk.injEq, true_and, and_true] at h
  refine ⟨?_, h.2⟩
  have := codes_inj h.1
  exact String.toList_inj.mp this

theorem empty_ne {h : Head} {t : String} {x : Content} (e : Item.empty h = element t x) : False := by simp [element] at e

mutual
theorem Reads.unique {i i' : Item} {v v' : Val D O} (e : i = i') (h : Reads r i v) (h' : Reads r i' v') : v = v' := by
  match h with
  | .empty => cases h' <;> first | rfl | exact (empty_ne e).elim
  | .true_ =>
    cases h' <;> first
      | rfl
      | exact (empty_ne e.symm).elim
      | exact absurd (element_inj e).1 (by decide)
      | exact absurd (element_inj e).2 (by simp [codes])
  | .false_ =>
    cases h' <;> first
      | rfl
      | exact (empty_ne e.symm).elim
      | exact absurd (element_inj e).1 (by decide)
      | exact absurd (element_inj e).2 (by simp [codes])
  | .int =>
    cases h' <;> first
      | exact (empty_ne e.symm).elim
      | exact absurd (element_inj e).1 (by decide)
      | skip
    have := (element_inj e).2
    rw [digits_inj (codes_inj (Content.nil.inj this))]
  | .double =>
    cases h' <;> first
      | exact (empty_ne e.symm).elim
      | exact absurd (element_inj e).1 (by decide)
      | skip
    have := (element_inj e).2
    rw [codes_inj (Content.nil.inj this)]
  | .ident =>
    cases h' <;> first
      | exact (empty_ne e.symm).elim
      | exact absurd (element_inj e).1 (by decide)
      | skip
    have := (element_inj e).2
    rw [codes_inj (Content.nil.inj this)]
  | .string _ h1 =>
    cases h' <;> first
      | exact (empty_ne e.symm).elim
      | exact absurd (element_inj e).1 (by decide)
      | skip
    next h2 =>
    have := (element_inj e).2
    rw [this, h2] at h1
    rw [codes_inj (Entity.Res.ok.inj h1)]
  | .array h1 h2 =>
    cases h' <;> first
      | exact (empty_ne e.symm).elim
      | exact absurd (element_inj e).1 (by decide)
      | skip
    next h3 h4 =>
    have := (element_inj e).2
    subst this
    rw [ReadsAll.unique (children_unique h1 h3) h2 h4]
  | .dict h1 h2 =>
    cases h' <;> first
      | exact (empty_ne e.symm).elim
      | exact absurd (element_inj e).1 (by decide)
      | skip
    next h3 h4 =>
    have := (element_inj e).2
    subst this
    rw [ReadsMembers.unique (children_unique h1 h3) h2 h4]
theorem ReadsAll.unique {is is' : List Item} {vs vs' : List (Val D O)} (e : is = is') (h : ReadsAll r is vs) (h' : ReadsAll r is' vs') :
    vs = vs' := by
  match h with
  | .nil => cases h' with
    | nil => rfl
    | cons _ _ => cases e
  | .cons h1 h2 => cases h' with
    | nil => cases e
    | cons h3 h4 =>
      simp only [List.cons.injEq] at e
      rw [Reads.unique e.1 h1 h3, ReadsAll.unique e.2 h2 h4]
theorem ReadsMembers.unique {is is' : List Item} {ms ms' : List (Str × Val D O)} (e : is = is') (h : ReadsMembers r is ms)
    (h' : ReadsMembers r is' ms') : ms = ms' := by
  match h with
  | .nil => cases h' with
    | nil => rfl
    | cons _ _ => cases e
  | .cons h1 h2 => cases h' with
    | nil => cases e
    | cons h3 h4 =>
      simp only [List.cons.injEq] at e
      have := codes_inj (Content.nil.inj (element_inj e.1).2)
      rw [this, Reads.unique e.2.1 h1 h3, ReadsMembers.unique e.2.2 h2 h4]
end

/-- C103: an XML element stands for at most one value. -/
theorem C103_reads_unique {i : Item} {v v' : Val D O} (h : Reads r i v) (h' : Reads r i v') : v = v' := Reads.unique rfl h h'

/-- C103: if names are character data, strings are ASCII without NUL, numbers can be read back and there is nothing else, then the text is
a well-formed `xml` element around one element, which stands for the value. -/
theorem C103_round_trip_partial (hs : Entity.Sorted c.byCode r.byName) (v : Val D O) (h : Ok c r v) :
    ∃ x i, codes (serialize c v) = (element "xml" x).render ∧ (element "xml" x).Ok ∧ Children x [i] ∧ Reads r i (norm v) := by
  obtain ⟨i, h1, h2, h3, h4⟩ := tree hs (norm v) (ok_norm v h) 0
  refine ⟨.cons (codes "\n".toList) i (.nil (codes "\n".toList)), i, ?_, ?_, .cons blank_newline h3 (.nil blank_newline), h4⟩
  · rw [C102_serialize, document, element_render "xml" (s := "\n".toList ++ text c 0 (norm v) ++ "\n".toList)]
    simp only [Content.render, h1, codes_append, List.append_assoc]
  · exact element_ok (by simp [tags]) ⟨Blank.chars blank_newline, h2, Blank.chars blank_newline⟩ trivial

/-- C103: if the text of a value is the text of some well-formed item at all, then only this item can be meant; so a reader that
does as the types of the elements say finds the value and nothing else. -/
theorem C103_only_reading_partial (hs : Entity.Sorted c.byCode r.byName) (v : Val D O) (h : Ok c r v) {j : Item} {rest : List Nat}
    (hj : j.Ok) (e : codes (serialize c v) = j.render ++ rest) :
    rest = [] ∧ ∃ x i, j = element "xml" x ∧ Children x [i] ∧ ∀ w : Val D O, Reads r i w ↔ w = norm v := by
  obtain ⟨x, i, h1, h2, h3, h4⟩ := C103_round_trip_partial hs v h
  obtain ⟨e1, e2⟩ := Xml.C93_unambiguous (r := rest) (s := []) hj h2 (by rw [← e, h1]; simp)
  exact ⟨e2, x, i, e1, h3, fun w => ⟨fun hw => C103_reads_unique hw h4, fun hw => hw ▸ h4⟩⟩

/-- C103: two such values with the same text are equal up to the order of members. -/
theorem C103_injective_partial (hs : Entity.Sorted c.byCode r.byName) (v v' : Val D O) (h : Ok c r v) (h' : Ok c r v')
    (e : serialize c v = serialize c v') : norm v = norm v' := by
  obtain ⟨x, i, h1, h2, h3, h4⟩ := C103_round_trip_partial hs v h
  obtain ⟨y, j, g1, g2, g3, g4⟩ := C103_round_trip_partial hs v' h'
  obtain ⟨e1, -⟩ := Xml.C93_unambiguous (r := []) (s := []) h2 g2 (by rw [← h1, ← g1, e])
  have hxy := (element_inj e1).2
  subst hxy
  have hij := children_unique h3 g3
  simp only [List.cons.injEq, and_true] at hij
  exact Reads.unique hij h4 g4

/-- C103: the text is accepted by the XML parser of the library, for a client that gives back each element it is called for. -/
theorem C103_accepted_partial (hs : Entity.Sorted c.byCode r.byName) (v : Val D O) (h : Ok c r v) {cl : Xml.Cfg} (hid : Identity cl)
    {a last : Nat} (hle : a ≤ last) (ht : (Tok.mk a last).text cl.mem = codes (serialize c v)) :
    ∃ o cs, Gives (parseDocument cl) ⟨a, last⟩ o cs := by
  obtain ⟨x, i, h1, h2, h3, h4⟩ := C103_round_trip_partial hs v h
  obtain ⟨o, cs, hsem⟩ := (Xml.content_sem_exists hid).1 (element "xml" x) a []
  have hopen : Begins ((element "xml" x).render ++ []) (· ≠ .charData) ∧ Begins ((element "xml" x).render ++ []) (· ≠ .pi) := by
    have hl : Lexeme false ((element "xml" x).render ++ []) .openTag 0 1 1 := by
      have : (element "xml" x).render ++ [] = 60 :: 120 :: (((element "xml" x).render).drop 2) := by
        simp [element, Item.render, Head.render, codes]
      rw [this]
      exact .openTag _ (by simp) (by simp) (by simp)
    exact ⟨.inr ⟨_, _, _, _, hl, by simp⟩, .inr ⟨_, _, _, _, hl, by simp⟩⟩
  refine ⟨o, cs, Xml.C92_document (p := []) (i := element "xml" x) (r := []) hle (by rw [ht, h1]; simp) ?_ h2 (by simp [element, Item.head?]) ?_
    (by simpa using hsem)⟩
  · refine .plain ⟨⟨by simp, by simp, by simp⟩, by simp, fun _ => hopen.1⟩ ?_ hopen.2
    rintro (⟨u, hu⟩ | ⟨u, hu⟩) <;> simp at hu
  · intro he; cases he

/-- C103: a client of the parser that asks for the element of a string is given a range whose text, unescaped, is the string. -/
theorem C103_string_value_partial (hs : Entity.Sorted c.byCode r.byName) (s : Str) (hc : ∀ x ∈ s, 0 < x.toNat ∧ x.toNat < 128) (d : Nat)
    {cl : Xml.Cfg} (hid : Identity cl) (hp : ∀ t, cl.pred t = true) {a last : Nat} (ha : a ≠ 0) (hle : a ≤ last)
    (ht : (Tok.mk a last).text cl.mem = codes (text c d (.str s))) :
    ∃ call, Gives (parseContent cl) ⟨a, last⟩ (codes (text c d (.str s))) [call] ∧ call.name.text cl.mem = codes "string".toList ∧
      Entity.entityUnescape r.byName (call.value.text cl.mem) = .ok (codes s) := by
  obtain ⟨i, h1, h2, h3, h4⟩ := tree_string (O := O) hs s hc d
  generalize hv : (.str s : Val D O) = v at h4
  cases h4 <;> try (cases hv; done)
  next x s' htx hu =>
  cases hv
  have ht' : (Tok.mk a last).text cl.mem = (element "string" x).render := by rw [ht, h1]
  have hg := Xml.C95_value_range_partial (c := cl) (h := ⟨[], codes "string".toList, [], []⟩) (x := x) (w1 := []) (w2 := []) hid ha hle ht' h2 (hp _)
    (by
      clear h1 h2 h3 hu ht'
      induction htx with
      | nil => trivial
      | cons _ ih => exact ⟨rfl, ih⟩)
  rw [← h1]
  have hat : Xml.Here cl.mem last a ([60] ++ (codes "string".toList ++ ([62] ++ (x.render ++ (60 :: 47 :: (codes "string".toList ++ [62])))))) := by
    refine ⟨hle, ht'.trans ?_⟩
    simp [element, Item.render, Head.render, renderAtts]
  refine ⟨_, hg, ?_, ?_⟩
  · simpa [Head.nameTok] using hat.drop.text
  · by_cases hx : x.render = []
    · simp only [hx, if_true]
      rw [hx] at hu
      exact hu
    · simp only [hx, if_false]
      have h5 := hat.drop.drop.drop.text
      have e : a + 1 + (Head.render ⟨[], codes "string".toList, [], []⟩).length + 1 =
          a + [60].length + (codes "string".toList).length + [62].length := by
        simp [Head.render, renderAtts]
      rw [e, h5]
      exact hu

/-! ### What is not read back -/

theorem names_ok (n : Str) (i : Item) (hi : i.Ok) (v : Val D O) (hv : v = .name n) (h : Reads r i v) : IsChars (codes n) := by
  cases h <;> try (cases hv; done)
  cases hv
  unfold element Item.Ok Content.Ok at hi
  exact hi.2.1

/-- C103 does not hold for all names: they are not escaped.  If there is a `<` or `&` in a name, then there is no well-formed element
with the text that is written for it and that stands for the name. -/
theorem C103_name_violated (n : Str) (hn : '<' ∈ n ∨ '&' ∈ n) (d : Nat) :
    ¬ ∃ (i : Item), i.Ok ∧ i.render = codes (text c d (.name n : Val D O)) ∧ Reads r i (.name n : Val D O) := by
  rintro ⟨i, h1, -, h3⟩
  have := (names_ok n i h1 _ rfl h3).1
  rcases hn with h | h
  · exact (this '<'.toNat (List.mem_map.mpr ⟨_, h, rfl⟩)).1 rfl
  · exact (this '&'.toNat (List.mem_map.mpr ⟨_, h, rfl⟩)).2 rfl

/-- C103: two different values with the same text: an array of one name, and an array of two. -/
theorem C103_collision_violated :
    serialize c (.arr [.name "a</ident>\n\t<ident>b".toList]) = serialize c (.arr [.name "a".toList, .name "b".toList]) := by
  rw [C102_serialize, C102_serialize]
  simp [document, norm, normAll, text, textAll, tagged, tabs]

/-- C103: the XML parser of the library throws on what is written for the name `a<b`. -/
theorem C103_rejected_violated :
    ∃ t, codes (serialize c (.name "a<b".toList)) = t ∧ Throws (parseDocument (Xml.client false t)) (Xml.at8 t) := by
  refine ⟨_, rfl, ?_⟩
  have e : codes (serialize c (.name "a<b".toList)) = [60, 120, 109, 108, 62, 10, 60, 105, 100, 101, 110, 116, 62, 97, 60, 98, 60, 47, 105,
      100, 101, 110, 116, 62, 10, 60, 47, 120, 109, 108, 62] := by
    rw [C102_serialize]
    simp [document, norm, text, tagged, codes]
  rw [e]
  exact .of Xml.document_mono 60 (by decide +kernel)

/-- C103: a string with a byte from 128 on, or with a NUL, is not read back: the text unescaped is another string. -/
theorem C103_bytes_violated (hs : Entity.Sorted c.byCode r.byName) (s : Str) (hb : ∀ x ∈ s, x.toNat < 256)
    (hx : (∀ x ∈ s, 0 < x.toNat) ∧ (∃ x ∈ s, 128 ≤ x.toNat) ∨ (∀ x ∈ s, x.toNat < 128) ∧ ∃ x ∈ s, x.toNat = 0) (d : Nat) :
    ∃ t u, text c d (.str s : Val D O) = tagged "string" t ∧ Entity.entityUnescape r.byName (codes t) = .ok u ∧ u ≠ codes s := by
  have hbc : ∀ x ∈ codes s, x < 256 := by
    intro x hx
    obtain ⟨ch, h1, rfl⟩ := List.mem_map.mp hx
    exact hb ch h1
  have key : ∃ t u, Entity.entityEscape c.byCode (codes s) = some t ∧ Entity.entityUnescape r.byName t = .ok u ∧ u ≠ codes s := by
    rcases hx with ⟨h1, ch, h2, h3⟩ | ⟨h1, ch, h2, h3⟩
    · refine Entity.C86_round_trip_violated hs (codes s) ?_ ⟨ch.toNat, List.mem_map.mpr ⟨ch, h2, rfl⟩, h3⟩
      intro x hx
      refine ⟨?_, hbc x hx⟩
      obtain ⟨ch, h4, rfl⟩ := List.mem_map.mp hx
      exact h1 ch h4
    · obtain ⟨t, u, h4, h5, -, h6⟩ := Entity.C86_nul_violated hs (codes s) (by
        intro x hx
        obtain ⟨ch, h4, rfl⟩ := List.mem_map.mp hx
        exact h1 ch h4) (by rw [← h3]; exact List.mem_map.mpr ⟨ch, h2, rfl⟩)
      exact ⟨t, u, h4, h5, h6⟩
  obtain ⟨t, u, h1, h2, h3⟩ := key
  have h1' : Entity.entityEscape c.byCode (s.map Char.toNat) = some t := h1
  refine ⟨t.map Char.ofNat, u, ?_, ?_, h3⟩
  · simp only [text, escaped, h1']
  · rw [codes_ofNat t fun x hx => by have := (Entity.entityEscape_plain hs hbc h1 x hx).2.1; omega, h2]

end Verif.XmlOut
