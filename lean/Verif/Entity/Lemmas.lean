import Verif.Entity.Model
import Verif.Table.Props
import Mathlib.Data.List.Nodup

namespace Verif.Entity

/-! ### the orders -/

theorem strLess_irrefl : ∀ a, strLess a a = false
  | [] => rfl
  | a :: as => by simp [strLess, strLess_irrefl as]

theorem strLess_trans : ∀ a b c, strLess a b = true → strLess b c = true → strLess a c = true
  | [], [], _, h, _ => by simp [strLess] at h
  | [], _ :: _, [], _, h => by simp [strLess] at h
  | [], _ :: _, _ :: _, _, _ => by simp [strLess]
  | _ :: _, [], _, h, _ => by simp [strLess] at h
  | _ :: _, _ :: _, [], _, h => by simp [strLess] at h
  | a :: as, b :: bs, c :: cs, h1, h2 => by
    have ih := strLess_trans as bs cs
    simp only [strLess] at h1 h2 ⊢
    grind

theorem strLess_ntrans : ∀ a b c, strLess a b = false → strLess b c = false → strLess a c = false
  | [], [], [], _, _ => rfl
  | [], [], _ :: _, _, h => by simp [strLess] at h
  | [], _ :: _, _, h, _ => by simp [strLess] at h
  | _ :: _, _, [], _, _ => by simp [strLess]
  | _ :: _, [], _ :: _, _, h => by simp [strLess] at h
  | a :: as, b :: bs, c :: cs, h1, h2 => by
    have ih := strLess_ntrans as bs cs
    simp only [strLess] at h1 h2 ⊢
    grind

theorem strLess_eq : ∀ a b, strLess a b = false → strLess b a = false → a = b
  | [], [], _, _ => rfl
  | [], _ :: _, h, _ => by simp [strLess] at h
  | _ :: _, [], _, h => by simp [strLess] at h
  | a :: as, b :: bs, h1, h2 => by
    have ih := strLess_eq as bs
    simp only [strLess] at h1 h2
    grind

theorem strLess_strictWeak : StrictWeak strLess := ⟨strLess_irrefl, strLess_trans, strLess_ntrans⟩

/-- `byCode` and `byName` are results of `sort` on the indexes over the table. -/
structure Sorted (byCode byName : List Entry) : Prop where
  code : Table.SortResult id Prod.snd (fun a b => decide (a < b)) codePointSet byCode
  name : Table.SortResult id Prod.fst strLess codePointSet byName

theorem codePointIndexFind_spec {byCode byName : List Entry} (h : Sorted byCode byName) (c : Nat) :
    (codePointIndexFind byCode c = some none ∧ ∀ e ∈ codePointSet, e.2 ≠ c) ∨
    ∃ e ∈ codePointSet, e.2 = c ∧ codePointIndexFind byCode c = some (some e) := by
  obtain ⟨k, h1, h2, h3, h4⟩ := Table.C84_find_partial strictWeak_nat_lt
    (by intro a b; simp only [decide_eq_false_iff_not]; omega) h.code c
  unfold codePointIndexFind
  rw [h1]
  by_cases hk : k < byCode.length
  · right
    have := h4 _ (List.getElem?_eq_getElem hk)
    exact ⟨byCode[k], this.1, this.2, by simp [List.getElem?_eq_getElem hk]⟩
  · left
    refine ⟨by simp [List.getElem?_eq_none (Nat.le_of_not_lt hk)], ?_⟩
    exact fun e he hec => hk (h3.mp ⟨e, he, hec⟩)

theorem entityNameIndexFind_spec {byCode byName : List Entry} (h : Sorted byCode byName)
    (n : List Nat) :
    (entityNameIndexFind byName n = some none ∧ ∀ e ∈ codePointSet, e.1 ≠ n) ∨
    ∃ e ∈ codePointSet, e.1 = n ∧ entityNameIndexFind byName n = some (some e) := by
  obtain ⟨k, h1, h2, h3, h4⟩ := Table.C84_find_partial strLess_strictWeak strLess_eq h.name n
  unfold entityNameIndexFind
  rw [h1]
  by_cases hk : k < byName.length
  · right
    have := h4 _ (List.getElem?_eq_getElem hk)
    exact ⟨byName[k], this.1, this.2, by simp [List.getElem?_eq_getElem hk]⟩
  · left
    refine ⟨by simp [List.getElem?_eq_none (Nat.le_of_not_lt hk)], ?_⟩
    exact fun e he hec => hk (h3.mp ⟨e, he, hec⟩)

/-! ### facts about the table, checked by evaluation of the whole table -/

theorem set_names_nodup : (codePointSet.map Prod.fst).Nodup := by decide +kernel

theorem set_names_ok : ∀ e ∈ codePointSet, e.1 ≠ [] ∧ ∀ c ∈ e.1,
    (48 ≤ c ∧ c ≤ 57) ∨ (65 ≤ c ∧ c ≤ 90) ∨ (97 ≤ c ∧ c ≤ 122) := by decide +kernel

theorem set_codes_pos : ∀ e ∈ codePointSet, 0 < e.2 ∧ e.2 < 65536 := by decide +kernel

theorem set_has_specials : ∀ c ∈ [34, 38, 39, 60, 62], ∃ e ∈ codePointSet, e.2 = c := by
  decide +kernel

theorem set_name_inj {e e' : Entry} (h : e ∈ codePointSet) (h' : e' ∈ codePointSet)
    (hn : e.1 = e'.1) : e = e' :=
  List.inj_on_of_nodup_map set_names_nodup h h' hn

/-! ### escaping -/

theorem escapeByte_some {byCode byName : List Entry} (h : Sorted byCode byName) (c : Nat) :
    ∃ t, escapeByte byCode c = some t := by
  unfold escapeByte
  rcases codePointIndexFind_spec h c with ⟨h1, -⟩ | ⟨e, -, -, h1⟩
  · rw [h1]; simp only; split <;> exact ⟨_, rfl⟩
  · rw [h1]; exact ⟨_, rfl⟩

theorem entityEscape_some {byCode byName : List Entry} (h : Sorted byCode byName) (s : List Nat) :
    ∃ t, entityEscape byCode s = some t := by
  induction s with
  | nil => exact ⟨[], rfl⟩
  | cons c cs ih =>
    obtain ⟨a, ha⟩ := escapeByte_some h c
    obtain ⟨b, hb⟩ := ih
    exact ⟨a ++ b, by simp [entityEscape, ha, hb]⟩

/-! ### unescaping -/

theorem splitAt_not_mem {x : Nat} {l : List Nat} (h : x ∉ l) : splitAt x l = none := by
  induction l with
  | nil => rfl
  | cons c cs ih =>
    simp only [List.mem_cons, not_or] at h
    simp [splitAt, ih h.2, Ne.symm h.1]

theorem splitAt_append {x : Nat} {l r : List Nat} (h : x ∉ l) :
    splitAt x (l ++ x :: r) = some (l, r) := by
  induction l with
  | nil => simp [splitAt]
  | cons c cs ih =>
    simp only [List.mem_cons, not_or] at h
    simp [splitAt, ih h.2, Ne.symm h.1]

theorem splitAt_none {x : Nat} {l : List Nat} (h : splitAt x l = none) : x ∉ l := by
  induction l with
  | nil => simp
  | cons c cs ih =>
    unfold splitAt at h
    split at h
    · cases h
    · next hc =>
      split at h
      · next h' =>
        simp only [List.mem_cons, not_or]
        exact ⟨fun e => hc e.symm, ih h'⟩
      · cases h

theorem splitAt_eq {x : Nat} {l a b : List Nat} (h : splitAt x l = some (a, b)) :
    l = a ++ x :: b ∧ x ∉ a := by
  induction l generalizing a b with
  | nil => simp [splitAt] at h
  | cons c cs ih =>
    unfold splitAt at h
    split at h
    · next hc =>
      simp only [Option.some.injEq, Prod.mk.injEq] at h
      obtain ⟨rfl, rfl⟩ := h
      simp [hc]
    · next hc =>
      split at h
      · cases h
      · next a' b' h' =>
        simp only [Option.some.injEq, Prod.mk.injEq] at h
        obtain ⟨rfl, rfl⟩ := h
        obtain ⟨e, hn⟩ := ih h'
        refine ⟨by simp [e], ?_⟩
        simp only [List.mem_cons, not_or]
        exact ⟨fun e => hc e.symm, hn⟩

theorem prepend_prepend (a b : List Nat) (r : Res (List Nat)) :
    (r.prepend b).prepend a = r.prepend (a ++ b) := by
  cases r <;> simp [Res.prepend]

theorem unescape_none {byName : List Entry} {v : List Nat} (h : splitAt 38 v = none) :
    entityUnescape byName v = .ok v := by
  rw [entityUnescape]
  split
  · rfl
  · next h1 => rw [h] at h1; cases h1

theorem unescape_open {byName : List Entry} {v text after : List Nat}
    (h : splitAt 38 v = some (text, after)) (h2 : splitAt 59 after = none) :
    entityUnescape byName v = .ok text := by
  rw [entityUnescape]
  split
  · next h1 => rw [h] at h1; cases h1
  · next t a h1 =>
    rw [h] at h1
    simp only [Option.some.injEq, Prod.mk.injEq] at h1
    obtain ⟨rfl, rfl⟩ := h1
    split
    · rfl
    · next h3 => rw [h2] at h3; cases h3

theorem unescape_entity {byName : List Entry} {v text after entity rest : List Nat}
    (h : splitAt 38 v = some (text, after)) (h2 : splitAt 59 after = some (entity, rest)) :
    entityUnescape byName v =
      match codeOfEntity byName entity with
      | .rangeError => .rangeError
      | .ub => .ub
      | .ok cp =>
        (entityUnescape byName rest).prepend
          (text ++ if cp != 0 then (Unicode.encode8 cp).1 else []) := by
  rw [entityUnescape]
  split
  · next h1 => rw [h] at h1; cases h1
  · next t a h1 =>
    rw [h] at h1
    simp only [Option.some.injEq, Prod.mk.injEq] at h1
    obtain ⟨rfl, rfl⟩ := h1
    split
    · next h3 => rw [h2] at h3; cases h3
    · next en r h3 =>
      rw [h2] at h3
      simp only [Option.some.injEq, Prod.mk.injEq] at h3
      obtain ⟨rfl, rfl⟩ := h3
      rfl

/-- A byte other than `&` is copied. -/
theorem unescape_cons {byName : List Entry} {c : Nat} (hc : c ≠ 38) (t : List Nat) :
    entityUnescape byName (c :: t) = (entityUnescape byName t).prepend [c] := by
  cases h : splitAt 38 t with
  | none =>
    rw [unescape_none h, unescape_none (by simp [splitAt, hc, h])]
    rfl
  | some p =>
    obtain ⟨text, after⟩ := p
    have h' : splitAt 38 (c :: t) = some (c :: text, after) := by simp [splitAt, hc, h]
    cases h2 : splitAt 59 after with
    | none => rw [unescape_open h h2, unescape_open h' h2]; rfl
    | some q =>
      obtain ⟨entity, rest⟩ := q
      rw [unescape_entity h h2, unescape_entity h' h2]
      cases codeOfEntity byName entity with
      | ok cp => simp only [prepend_prepend]; rfl
      | rangeError => rfl
      | ub => rfl

/-- An entity is replaced by the UTF-8 of its code point. -/
theorem unescape_amp {byName : List Entry} {name : List Nat} (hn : 59 ∉ name) (t : List Nat)
    {cp : Nat} (h : codeOfEntity byName name = .ok cp) :
    entityUnescape byName (38 :: name ++ [59] ++ t) =
      (entityUnescape byName t).prepend (if cp != 0 then (Unicode.encode8 cp).1 else []) := by
  have h1 : splitAt 38 (38 :: name ++ [59] ++ t) = some ([], name ++ 59 :: t) := by simp [splitAt]
  rw [unescape_entity h1 (splitAt_append hn), h]
  rfl

/-- An alphanumeric name of the table is looked up in the name index. -/
theorem codeOfEntity_name {byCode byName : List Entry} (h : Sorted byCode byName) {e : Entry}
    (he : e ∈ codePointSet) : codeOfEntity byName e.1 = .ok e.2 := by
  obtain ⟨hne, hch⟩ := set_names_ok e he
  have hfind : entityNameIndexFind byName e.1 = some (some e) := by
    rcases entityNameIndexFind_spec h e.1 with ⟨-, h2⟩ | ⟨e', he', hn, h2⟩
    · exact absurd rfl (h2 e he)
    · rw [h2, set_name_inj he' he hn]
  unfold codeOfEntity
  split
  · next ds heq => have := hch 35 (by rw [heq]; simp); omega
  · next d ds _ heq => have := hch 35 (by rw [heq]; simp); omega
  · rw [hfind]

/-- The two digits written for a byte read back as the byte. -/
theorem xatoi_nybbles : ∀ c < 256, xatoi 0 [nybble ((c >>> 4) &&& 15), nybble (c &&& 15)] = c := by
  decide +kernel

theorem nybble_ok : ∀ c < 256,
    nybble ((c >>> 4) &&& 15) ∈ [48,49,50,51,52,53,54,55,56,57,65,66,67,68,69,70] ∧
    nybble (c &&& 15) ∈ [48,49,50,51,52,53,54,55,56,57,65,66,67,68,69,70] := by
  decide +kernel

/-- What one byte turns into: its UTF-8 as a Latin-1 character, nothing for NUL. -/
def roundTripByte (c : Nat) : List Nat := if c = 0 then [] else (Unicode.encode8 c).1

theorem unescape_escapeByte {byCode byName : List Entry} (h : Sorted byCode byName) {c : Nat}
    (hc : c < 256) {t : List Nat} (ht : escapeByte byCode c = some t) (rest : List Nat) :
    entityUnescape byName (t ++ rest) = (entityUnescape byName rest).prepend (roundTripByte c) := by
  have hrt : (if c != 0 then (Unicode.encode8 c).1 else []) = roundTripByte c := by
    unfold roundTripByte
    by_cases h0 : c = 0 <;> simp [h0]
  unfold escapeByte at ht
  rcases codePointIndexFind_spec h c with ⟨h1, h2⟩ | ⟨e, he, hec, h1⟩
  · rw [h1] at ht
    simp only at ht
    split at ht
    · next hne =>
      simp only [Option.some.injEq] at ht
      obtain ⟨n1, n2⟩ := nybble_ok c hc
      have hsemi : 59 ∉ [35, 120, nybble ((c >>> 4) &&& 15), nybble (c &&& 15)] := by
        simp only [List.mem_cons, List.not_mem_nil, or_false, not_or] at n1 n2 ⊢
        omega
      have hcode : codeOfEntity byName [35, 120, nybble ((c >>> 4) &&& 15), nybble (c &&& 15)] =
          .ok c := by
        simp only [codeOfEntity]
        rw [xatoi_nybbles c hc]
      have := unescape_amp hsemi rest hcode
      rw [← ht, ← hrt, ← this]
      rfl
    · next hne =>
      simp only [Option.some.injEq] at ht
      have hprint : 32 ≤ c ∧ c ≤ 126 := by
        unfold needsEscape at hne
        simp at hne; omega
      have hamp : c ≠ 38 := by
        rintro rfl
        obtain ⟨e, he, hec⟩ := set_has_specials 38 (by simp)
        exact h2 e he hec
      rw [← ht]
      have : roundTripByte c = [c] := by
        unfold roundTripByte Unicode.encode8
        simp [show c ≠ 0 by omega, show c < 2 ^ 7 by omega]
      rw [this]
      exact unescape_cons hamp rest
  · rw [h1] at ht
    simp only [Option.some.injEq] at ht
    have hsemi : 59 ∉ e.1 := by
      intro hm
      have := (set_names_ok e he).2 59 hm
      omega
    have := unescape_amp hsemi rest (codeOfEntity_name h he)
    rw [hec, hrt] at this
    rw [← ht, ← this]

theorem unescape_escape {byCode byName : List Entry} (h : Sorted byCode byName) (s : List Nat)
    (hs : ∀ c ∈ s, c < 256) {t : List Nat} (ht : entityEscape byCode s = some t) :
    entityUnescape byName t = .ok (s.flatMap roundTripByte) := by
  induction s generalizing t with
  | nil =>
    simp only [entityEscape, Option.some.injEq] at ht
    rw [← ht, unescape_none rfl]
    rfl
  | cons c cs ih =>
    obtain ⟨a, ha⟩ := escapeByte_some h c
    obtain ⟨b, hb⟩ := entityEscape_some h cs
    simp only [entityEscape, ha, hb, Option.some.injEq] at ht
    rw [← ht, unescape_escapeByte h (hs c (by simp)) ha, ih (fun x hx => hs x (by simp [hx])) hb]
    simp [Res.prepend]

theorem roundTripByte_ascii {c : Nat} (h0 : c ≠ 0) (h : c < 128) : roundTripByte c = [c] := by
  unfold roundTripByte Unicode.encode8
  simp [h0, show c < 2 ^ 7 by omega]

theorem roundTripByte_high : ∀ c < 256, 128 ≤ c → (roundTripByte c).length = 2 := by
  decide +kernel

/-! ### what the escaped text looks like -/

/-- The bytes of escaped text: printable, none of `"`, `'`, `<`, `>`. -/
def Plain (c : Nat) : Prop := 32 ≤ c ∧ c ≤ 126 ∧ c ≠ 34 ∧ c ≠ 39 ∧ c ≠ 60 ∧ c ≠ 62

theorem escapeByte_plain {byCode byName : List Entry} (h : Sorted byCode byName) {c : Nat}
    (hc : c < 256) {t : List Nat} (ht : escapeByte byCode c = some t) : ∀ x ∈ t, Plain x := by
  unfold escapeByte at ht
  unfold Plain
  rcases codePointIndexFind_spec h c with ⟨h1, h2⟩ | ⟨e, he, hec, h1⟩
  · rw [h1] at ht
    simp only at ht
    split at ht
    · simp only [Option.some.injEq] at ht
      obtain ⟨n1, n2⟩ := nybble_ok c hc
      intro x hx
      rw [← ht] at hx
      simp only [List.mem_cons, List.not_mem_nil, or_false] at n1 n2 hx
      omega
    · next hne =>
      simp only [Option.some.injEq] at ht
      have hprint : 32 ≤ c ∧ c ≤ 126 := by
        unfold needsEscape at hne
        simp at hne; omega
      intro x hx
      rw [← ht] at hx
      simp only [List.mem_singleton] at hx
      subst hx
      have key : ∀ y ∈ [34, 38, 39, 60, 62], x ≠ y := by
        rintro y hy rfl
        obtain ⟨e, he, hec⟩ := set_has_specials x hy
        exact h2 e he hec
      exact ⟨hprint.1, hprint.2, key 34 (by simp), key 39 (by simp), key 60 (by simp),
        key 62 (by simp)⟩
  · rw [h1] at ht
    simp only [Option.some.injEq] at ht
    intro x hx
    rw [← ht] at hx
    simp only [List.mem_append, List.mem_cons, List.not_mem_nil, or_false] at hx
    rcases hx with (rfl | hx) | rfl
    · omega
    · have := (set_names_ok e he).2 x hx
      omega
    · omega

theorem entityEscape_plain {byCode byName : List Entry} (h : Sorted byCode byName) {s : List Nat}
    (hs : ∀ c ∈ s, c < 256) {t : List Nat} (ht : entityEscape byCode s = some t) :
    ∀ x ∈ t, Plain x := by
  induction s generalizing t with
  | nil =>
    simp only [entityEscape, Option.some.injEq] at ht
    rw [← ht]; simp
  | cons c cs ih =>
    obtain ⟨a, ha⟩ := escapeByte_some h c
    obtain ⟨b, hb⟩ := entityEscape_some h cs
    simp only [entityEscape, ha, hb, Option.some.injEq] at ht
    intro x hx
    rw [← ht] at hx
    rcases List.mem_append.mp hx with hx | hx
    · exact escapeByte_plain h (hs c (by simp)) ha x hx
    · exact ih (fun y hy => hs y (by simp [hy])) hb x hx

/-- `needs_entity_escape` is right about one byte: escaped text starts with `&`. -/
theorem escapeByte_changed {byCode byName : List Entry} (h : Sorted byCode byName) {c : Nat}
    {t : List Nat} (ht : escapeByte byCode c = some t) :
    (needsEscape c = true ∨ ∃ e, codePointIndexFind byCode c = some (some e)) ∧ 2 ≤ t.length ∨
    (needsEscape c = false ∧ codePointIndexFind byCode c = some none) ∧ t = [c] := by
  unfold escapeByte at ht
  rcases codePointIndexFind_spec h c with ⟨h1, h2⟩ | ⟨e, he, hec, h1⟩
  · rw [h1] at ht
    simp only at ht
    split at ht
    · next hn =>
      simp only [Option.some.injEq] at ht
      left; exact ⟨Or.inl hn, by rw [← ht]; simp⟩
    · next hn =>
      simp only [Option.some.injEq] at ht
      right; exact ⟨⟨by simpa using hn, h1⟩, ht.symm⟩
  · rw [h1] at ht
    simp only [Option.some.injEq] at ht
    left; exact ⟨Or.inr ⟨e, h1⟩, by rw [← ht]; simp⟩

theorem entityEscape_length {byCode byName : List Entry} (h : Sorted byCode byName) {s t : List Nat}
    (ht : entityEscape byCode s = some t) : s.length ≤ t.length := by
  induction s generalizing t with
  | nil => simp
  | cons c cs ih =>
    obtain ⟨a, ha⟩ := escapeByte_some h c
    obtain ⟨b, hb⟩ := entityEscape_some h cs
    simp only [entityEscape, ha, hb, Option.some.injEq] at ht
    have := ih hb
    have h2 : 1 ≤ a.length := by
      rcases escapeByte_changed h ha with ⟨-, h⟩ | ⟨-, h⟩
      · omega
      · simp [h]
    rw [← ht]; simp; omega

theorem needsEntityEscape_spec {byCode byName : List Entry} (h : Sorted byCode byName)
    {s t : List Nat} (ht : entityEscape byCode s = some t) :
    needsEntityEscape byCode s = some (decide (t ≠ s)) := by
  induction s generalizing t with
  | nil =>
    simp only [entityEscape, Option.some.injEq] at ht
    simp [needsEntityEscape, ← ht]
  | cons c cs ih =>
    obtain ⟨a, ha⟩ := escapeByte_some h c
    obtain ⟨b, hb⟩ := entityEscape_some h cs
    simp only [entityEscape, ha, hb, Option.some.injEq] at ht
    rcases escapeByte_changed h ha with ⟨h1, h2⟩ | ⟨⟨h1, h2⟩, h3⟩
    · have hl := entityEscape_length h hb
      have hne : t ≠ c :: cs := by
        intro he
        have := congrArg List.length he
        rw [← ht] at this
        simp at this; omega
      simp only [hne, ne_eq, not_false_eq_true, decide_true]
      unfold needsEntityEscape
      rcases h1 with h1 | ⟨e, h1⟩
      · simp [h1]
      · rw [h1]; split <;> rfl
    · unfold needsEntityEscape
      rw [h2, h1, ih hb]
      simp [← ht, h3]

end Verif.Entity
