import Verif.Xml.Spec
/-! The recognizing functions of the lexer give exactly the tokens of the specification. -/
namespace Verif.Xml
open Verif.Xml.Spec

theorem isSpace_iff (c : Nat) : isSpace c = true ↔ White c := by simp [isSpace, White]

theorem nameStart_iff (c : Nat) : nameStart c = true ↔ NameStart c := by simp [nameStart, NameStart, or_assoc]

theorem nameChar_iff (c : Nat) : nameChar c = true ↔ NameChar c := by
  simp [nameChar, NameChar, nameStart_iff, or_assoc]

theorem charByte_iff (c : Nat) : charByte c = true ↔ c ≠ 60 ∧ c ≠ 38 := by simp [charByte]

/-- The longest beginning of a list with a property. -/
theorem takeWhile_split {p : Nat → Bool} (l : List Nat) : ∃ t r, l = t ++ r ∧ l.takeWhile p = t ∧ (∀ c ∈ t, p c = true) ∧
    ∀ c r', r = c :: r' → p c = false := by
  refine ⟨l.takeWhile p, l.dropWhile p, (List.takeWhile_append_dropWhile).symm, rfl, ?_, ?_⟩
  · intro c h; exact List.all_eq_true.mp (List.all_takeWhile) c h
  · intro c r' h
    have := List.head_dropWhile_not (l := l) p (by rw [h]; simp)
    simpa [h] using this

theorem takeWhile_eq {p : Nat → Bool} {t r : List Nat} (ht : ∀ c ∈ t, p c = true) (hr : ∀ c r', r = c :: r' → p c = false) :
    (t ++ r).takeWhile p = t := by
  rw [List.takeWhile_append_of_pos ht]
  cases r with
  | nil => simp
  | cons c r' => simp [hr c r' rfl]

theorem infix_cons2 {x y c : Nat} {l : List Nat} : [x, y] <:+: c :: l ↔ (c = x ∧ l.head? = some y) ∨ [x, y] <:+: l := by
  rw [List.infix_cons_iff]
  constructor
  · rintro (h | h)
    · obtain ⟨r, hr⟩ := h
      simp at hr
      left; simp [← hr.2, hr.1]
    · exact .inr h
  · rintro (⟨rfl, h⟩ | h)
    · left
      cases l with
      | nil => simp at h
      | cons d l => simp at h; subst h; exact ⟨l, rfl⟩
    · exact .inr h

theorem piLen_some {r : List Nat} : ∀ {n}, piLen r = some n → ∃ body r', IsPI body ∧ r = body ++ 63 :: 62 :: r' ∧
    n = body.length + 2 := by
  induction r with
  | nil => simp [piLen]
  | cons c r ih =>
    intro n h
    unfold piLen at h
    split at h
    · next hc =>
      simp at hc h
      obtain ⟨rfl, hr⟩ := hc
      cases r with
      | nil => simp at hr
      | cons d r => simp at hr; subst hr; exact ⟨[], r, by simp [IsPI], rfl, by simp [← h]⟩
    · next hc =>
      simp at h hc
      obtain ⟨m, hm, rfl⟩ := h
      obtain ⟨body, r', hb, rfl, rfl⟩ := ih hm
      refine ⟨c :: body, r', ?_, rfl, by simp⟩
      unfold IsPI at hb ⊢
      rw [infix_cons2]
      rintro (⟨rfl, h⟩ | h)
      · apply hc rfl
        cases body <;> simp_all
      · exact hb h

theorem piLen_none {r : List Nat} : piLen r = none ↔ ¬ [63, 62] <:+: r := by
  induction r with
  | nil => simp [piLen]
  | cons c r ih =>
    unfold piLen
    rw [infix_cons2]
    split
    · next h => simp at h; simp [h]
    · next h => simp at h; rw [Option.map_eq_none_iff, ih]; grind

theorem piLen_append {body : List Nat} (r : List Nat) (h : IsPI body) : piLen (body ++ 63 :: 62 :: r) = some (body.length + 2) := by
  induction body with
  | nil => simp [piLen]
  | cons c body ih =>
    unfold IsPI at h ih
    rw [infix_cons2] at h
    simp only [List.cons_append, piLen]
    split
    · next hc =>
      simp at hc
      cases body <;> simp_all
    · rw [ih (fun hh => h (.inr hh))]; simp; try omega

theorem commentLen_some {r : List Nat} : ∀ {n}, commentLen r = some n → ∃ body r', IsComment body ∧
    r = body ++ 45 :: 45 :: 62 :: r' ∧ n = body.length + 3 := by
  induction r with
  | nil => simp [commentLen]
  | cons c r ih =>
    intro n h
    unfold commentLen at h
    split at h
    · next hc =>
      simp at hc h
      obtain ⟨rfl, hr⟩ := hc
      obtain ⟨h1, rfl⟩ := h
      cases r with
      | nil => simp at hr
      | cons d r =>
        simp at hr h1; subst hr
        cases r with
        | nil => simp at h1
        | cons e r => simp at h1; subst h1; exact ⟨[], r, by simp [IsComment, infix_cons2], rfl, by simp⟩
    · next hc =>
      simp at h hc
      obtain ⟨m, hm, rfl⟩ := h
      obtain ⟨body, r', hb, rfl, rfl⟩ := ih hm
      refine ⟨c :: body, r', ?_, rfl, by simp⟩
      unfold IsComment at hb ⊢
      rw [List.cons_append, infix_cons2]
      rintro (⟨rfl, h⟩ | h)
      · apply hc rfl
        cases body <;> simp_all
      · exact hb h

theorem commentLen_append {body : List Nat} (r : List Nat) (h : IsComment body) :
    commentLen (body ++ 45 :: 45 :: 62 :: r) = some (body.length + 3) := by
  induction body with
  | nil => simp [commentLen]
  | cons c body ih =>
    unfold IsComment at h ih
    rw [List.cons_append, infix_cons2] at h
    simp only [List.cons_append, commentLen]
    split
    · next hc =>
      simp at hc
      cases body <;> simp_all
    · rw [ih (fun hh => h (.inr hh))]; simp; try omega

theorem attLen_some {t : Nat} {r : List Nat} : ∀ {n}, attLen t r = some n → ∃ v r', IsValue t v ∧ r = v ++ r' ∧ n = v.length ∧
    (r' = [] ∨ ∃ r'', r' = t :: r'') := by
  induction r with
  | nil => intro n h; simp [attLen] at h; exact ⟨[], [], by simp [IsValue], rfl, by simp [← h], .inl rfl⟩
  | cons c r ih =>
    intro n h
    unfold attLen at h
    split at h
    · simp at h
    · next hc =>
      split at h
      · next ht => simp at ht h; subst ht; exact ⟨[], c :: r, by simp [IsValue], rfl, by simp [← h], .inr ⟨r, rfl⟩⟩
      · next ht =>
        simp at h
        obtain ⟨m, hm, rfl⟩ := h
        obtain ⟨v, r', hv, rfl, rfl, h'⟩ := ih hm
        refine ⟨c :: v, r', ?_, rfl, by simp, h'⟩
        simp at hc ht
        intro d hd
        rcases List.mem_cons.mp hd with rfl | hd
        · exact ⟨ht, hc.1, hc.2⟩
        · exact hv d hd

theorem attLen_none {t : Nat} {r : List Nat} : attLen t r = none → ∃ v c r', IsValue t v ∧ r = v ++ c :: r' ∧
    (c = 60 ∨ c = 38) := by
  induction r with
  | nil => simp [attLen]
  | cons c r ih =>
    intro h
    unfold attLen at h
    split at h
    · next hc => simp at hc; exact ⟨[], c, r, by simp [IsValue], rfl, hc⟩
    · next hc =>
      split at h
      · simp at h
      · next ht =>
        simp at h
        obtain ⟨v, d, r', hv, rfl, h'⟩ := ih h
        refine ⟨c :: v, d, r', ?_, rfl, h'⟩
        simp at hc ht
        intro d hd
        rcases List.mem_cons.mp hd with rfl | hd
        · exact ⟨ht, hc.1, hc.2⟩
        · exact hv d hd

theorem attLen_append {t : Nat} {v r : List Nat} (hv : IsValue t v) (hr : r = [] ∨ (t ≠ 60 ∧ t ≠ 38 ∧ ∃ r', r = t :: r')) :
    attLen t (v ++ r) = some v.length := by
  induction v with
  | nil => rcases hr with rfl | ⟨h1, h2, r', rfl⟩ <;> simp [attLen, *]
  | cons c v ih =>
    have h := hv c (by simp)
    simp [attLen, h, ih (fun d hd => hv d (by simp [hd]))]

theorem attLen_bad {t c : Nat} {v r : List Nat} (hv : IsValue t v) (hc : c = 60 ∨ c = 38) : attLen t (v ++ c :: r) = none := by
  induction v with
  | nil => simp [attLen, hc]
  | cons d v ih =>
    have h := hv d (by simp)
    simp [attLen, h, ih (fun e he => hv e (by simp [he]))]

theorem refLen_split (r : List Nat) : (∃ body r', 59 ∉ body ∧ r = body ++ 59 :: r' ∧ refLen r = body.length + 1) ∨
    (59 ∉ r ∧ refLen r = r.length) := by
  induction r with
  | nil => simp [refLen]
  | cons c r ih =>
    unfold refLen
    split
    · next h => simp at h; subst h; exact .inl ⟨[], r, by simp, rfl, by simp⟩
    · next h =>
      simp at h
      rcases ih with ⟨body, r', hb, rfl, h'⟩ | ⟨hb, h'⟩
      · exact .inl ⟨c :: body, r', by simp [hb]; omega, rfl, by simp [h']⟩
      · exact .inr ⟨by simp [hb]; omega, by simp [h']⟩

theorem refLen_append {body : List Nat} (r : List Nat) (h : 59 ∉ body) : refLen (body ++ 59 :: r) = body.length + 1 := by
  induction body with
  | nil => simp [refLen]
  | cons c b ih => simp at h; simp [refLen, ih h.2]; omega

theorem refLen_open {body : List Nat} (h : 59 ∉ body) : refLen body = body.length := by
  induction body with
  | nil => simp [refLen]
  | cons c b ih => simp at h; simp [refLen, ih h.2]; omega

theorem or_no_left (x : Scan) : Scan.or .no x = x := rfl
theorem or_tok_left (k s n a) (x : Scan) : Scan.or (.tok k s n a) x = .tok k s n a := rfl
theorem or_throw_left (x : Scan) : Scan.or .throw x = .throw := rfl

/-- What can be said of a text in a token position: the two possible results. -/
theorem parseToken_total (b : Bool) {l : List Nat} (hl : l ≠ []) :
    (∃ k s n a, parseToken b l = .tok k s n a ∧ Lexeme b l k s n a) ∨ (parseToken b l = .throw ∧ LexError b l) := by
  cases l with
  | nil => exact absurd rfl hl
  | cons c r =>
  by_cases h60 : c = 60
  · subst h60
    cases r with
    | nil => left; exact ⟨_, _, _, _, rfl, .openTag _ (by simp) (by simp) (by simp)⟩
    | cons d r =>
      by_cases h63 : d = 63
      · subst h63
        cases hp : piLen r with
        | none => right; exact ⟨by simp [parseToken, isPI, hp, Scan.or], .pi _ (piLen_none.mp hp)⟩
        | some n =>
          left
          obtain ⟨body, r', hb, rfl, rfl⟩ := piLen_some hp
          exact ⟨_, _, _, _, by simp [parseToken, isPI, hp, Scan.or], .pi body r' hb⟩
      have e1 : isPI (60 :: d :: r) = .no := by
        unfold isPI; split
        · next h => simp at h; omega
        · rfl
      by_cases hcm : d = 33 ∧ [45, 45] <+: r
      · obtain ⟨rfl, r, rfl⟩ := hcm
        simp only [List.cons_append, List.nil_append] at *
        cases hp : commentLen r with
        | none =>
          right
          refine ⟨by simp [parseToken, e1, isComment, hp, Scan.or], .comment _ ?_⟩
          rintro ⟨body, r', hb, rfl⟩
          rw [commentLen_append _ hb] at hp
          simp at hp
        | some n =>
          left
          obtain ⟨body, r', hb, rfl, rfl⟩ := commentLen_some hp
          exact ⟨_, _, _, _, by simp [parseToken, e1, isComment, hp, Scan.or], .comment body r' hb⟩
      have e2 : isComment (60 :: d :: r) = .no := by
        unfold isComment; split
        · next h => simp at h; exact absurd ⟨h.1, by rw [h.2]; simp⟩ hcm
        · rfl
      left
      by_cases h47 : d = 47
      · subst h47
        exact ⟨_, _, _, _, by simp [parseToken, e1, e2, isTagOpen, Scan.or], .openSlash r⟩
      · refine ⟨.openTag, 0, 1, 1, ?_, .openTag _ ?_ ?_ ?_⟩
        · have : isTagOpen (60 :: d :: r) = .tok .openTag 0 1 1 := by
            unfold isTagOpen; split
            · next h => simp at h; omega
            · rfl
            · next h => simp at h
          simp [parseToken, e1, e2, this, Scan.or]
        · rintro ⟨x, h⟩; simp at h; omega
        · rintro ⟨x, h⟩; simp at h; omega
        · rintro ⟨x, h⟩; simp at h; exact hcm ⟨h.1.symm, by rw [← h.2]; simp⟩
  have e1 : isPI (c :: r) = .no := by
    unfold isPI; split
    · next h => simp at h; omega
    · rfl
  have e2 : isComment (c :: r) = .no := by
    unfold isComment; split
    · next h => simp at h; omega
    · rfl
  have e3 : isTagOpen (c :: r) = .no := by
    unfold isTagOpen; split
    · next h => simp at h; omega
    · next h => simp at h; omega
    · rfl
  by_cases h62 : c = 62
  · subst h62; left
    exact ⟨_, _, _, _, by simp [parseToken, e1, e2, e3, isTagClose, Scan.or], .closeTag r⟩
  by_cases hsc : c = 47 ∧ [62] <+: r
  · obtain ⟨rfl, r, rfl⟩ := hsc; left
    simp only [List.cons_append, List.nil_append] at *
    exact ⟨_, _, _, _, by simp [parseToken, e1, e2, e3, isTagClose, Scan.or], .slashClose r⟩
  have e4 : isTagClose (c :: r) = .no := by
    unfold isTagClose; split
    · next h => simp at h; omega
    · next h => simp at h; exact absurd ⟨h.1, by rw [h.2]; simp⟩ hsc
    · rfl
  have e5 : parseToken b (c :: r) = (if b then (isName (c :: r)).or <| (isEquals (c :: r)).or <| isAttValue (c :: r) else .no).or
      ((isReference (c :: r)).or (isCharData (c :: r))) := by
    simp only [parseToken, e1, e2, e3, e4, or_no_left]
  have last : (b = true → ¬ NameStart c ∧ c ≠ 61 ∧ ¬ Quote c) →
      ∃ k s n a, (isReference (c :: r)).or (isCharData (c :: r)) = .tok k s n a ∧ Lexeme b (c :: r) k s n a := by
    intro hb
    by_cases h38 : c = 38
    · subst h38
      rcases refLen_split r with ⟨body, r', h1, h2, h3⟩ | ⟨h1, h2⟩
      · subst h2
        exact ⟨_, _, _, _, by simp [isReference, h3, Scan.or], .ref body r' h1⟩
      · exact ⟨_, _, _, _, by simp [isReference, h2, Scan.or], .refOpen r h1⟩
    · have e6 : isReference (c :: r) = .no := by
        unfold isReference; split
        · next h => simp at h; omega
        · rfl
      obtain ⟨t, r', hl, ht, hp, hr⟩ := takeWhile_split (p := charByte) (c :: r)
      have hc : charByte c = true := (charByte_iff c).mpr ⟨h60, h38⟩
      have hne : t ≠ [] := by rw [← ht]; simp [hc]
      obtain ⟨d, t', rfl⟩ := List.exists_cons_of_ne_nil hne
      simp only [List.cons_append, List.cons.injEq] at hl
      obtain ⟨rfl, rfl⟩ := hl
      refine ⟨.charData, 0, (c :: t').length, (c :: t').length, by simp only [e6, or_no_left, isCharData, ht], ?_⟩
      refine Lexeme.chars (c :: t') r' hne ⟨fun d hd => (charByte_iff d).mp (hp d hd), ?_, ?_⟩ ?_ ?_
      · rintro ⟨x, h⟩; simp at h; omega
      · rintro ⟨x, h⟩; simp at h; exact hsc ⟨h.1.symm, by rw [← h.2]; simp⟩
      · cases r' with
        | nil => exact .inl rfl
        | cons d r' =>
          have := hr d r' rfl
          have : d = 60 ∨ d = 38 := by simp [charByte] at this; omega
          rcases this with rfl | rfl
          · exact .inr (.inl ⟨_, rfl⟩)
          · exact .inr (.inr ⟨_, rfl⟩)
      · intro hbt d t'' h; simp at h; rw [← h.1]; exact hb hbt
  cases b with
  | false =>
    left
    obtain ⟨k, s, n, a, h1, h2⟩ := last (by simp)
    exact ⟨k, s, n, a, by rw [e5]; simpa [or_no_left] using h1, h2⟩
  | true =>
    by_cases hn : nameStart c = true
    · left
      obtain ⟨t, r', hl, ht, hp, hr⟩ := takeWhile_split (p := nameChar) (c :: r)
      have hc : nameChar c = true := by simp [nameChar, hn]
      have hne : t ≠ [] := by rw [← ht]; simp [hc]
      obtain ⟨d, t', rfl⟩ := List.exists_cons_of_ne_nil hne
      simp only [List.cons_append, List.cons.injEq] at hl
      obtain ⟨rfl, rfl⟩ := hl
      refine ⟨.name, 0, (c :: t').length, (c :: t').length, ?_, ?_⟩
      · rw [e5]
        simp only [if_true, isName, hn, ht, or_tok_left]
      · refine Lexeme.name (c :: t') r' ⟨⟨c, t', rfl, (nameStart_iff c).mp hn⟩, fun d hd => (nameChar_iff d).mp (hp d hd)⟩ ?_
        intro d r'' h hd
        have := hr d r'' h
        rw [(nameChar_iff d).mpr hd] at this
        simp at this
    have e6 : isName (c :: r) = .no := by simp [isName, hn]
    by_cases h61 : c = 61
    · subst h61; left
      exact ⟨_, _, _, _, by rw [e5]; simp [e6, isEquals, Scan.or], .equals r⟩
    have e7 : isEquals (c :: r) = .no := by
      unfold isEquals; split
      · next h => simp at h; omega
      · rfl
    by_cases hq : c = 34 ∨ c = 39
    · cases ha : attLen c r with
      | none =>
        right
        obtain ⟨v, d, r', hv, rfl, hd⟩ := attLen_none ha
        exact ⟨by rw [e5]; simp [e6, e7, isAttValue, hq, ha, Scan.or], .attValue c v d r' hq hv hd⟩
      | some n =>
        left
        obtain ⟨v, r', hv, rfl, rfl, h'⟩ := attLen_some ha
        refine ⟨.attValue, 1, v.length, v.length + 2, by rw [e5]; simp [e6, e7, isAttValue, hq, ha, Scan.or], ?_⟩
        rcases h' with rfl | ⟨r'', rfl⟩
        · rw [List.append_nil]; exact .attOpen c v hq hv
        · exact .attValue c v r'' hq hv
    have e8 : isAttValue (c :: r) = .no := by
      simp only [isAttValue, beq_iff_eq, Bool.or_eq_true]; rw [if_neg hq]
    left
    obtain ⟨k, s, n, a, h1, h2⟩ := last (fun _ => ⟨fun h => hn ((nameStart_iff c).mpr h), h61, hq⟩)
    exact ⟨k, s, n, a, by rw [e5]; simpa [e6, e7, e8, or_no_left] using h1, h2⟩

theorem isPI_no {c d : Nat} {r : List Nat} (h : ¬ (c = 60 ∧ d = 63)) : isPI (c :: d :: r) = .no := by
  unfold isPI; split
  · next e => simp at e; omega
  · rfl

theorem isName_append {nm r : List Nat} (hn : IsName nm) (hr : ∀ c r', r = c :: r' → ¬ NameChar c) :
    isName (nm ++ r) = .tok .name 0 nm.length nm.length := by
  obtain ⟨⟨c, t, rfl, hc⟩, ha⟩ := hn
  have : ((c :: t) ++ r).takeWhile nameChar = c :: t :=
    takeWhile_eq (fun d hd => (nameChar_iff d).mpr (ha d hd)) fun d r' h => by
      have := hr d r' h
      rw [← nameChar_iff] at this
      simpa using this
  simp only [List.cons_append] at this ⊢
  simp [isName, (nameStart_iff c).mpr hc, this]

theorem parseToken_tok {b : Bool} {l : List Nat} {k s n a} (h : Lexeme b l k s n a) : parseToken b l = .tok k s n a := by
  have start : ∀ c r, c ≠ 60 → isPI (c :: r) = .no ∧ isComment (c :: r) = .no ∧ isTagOpen (c :: r) = .no := by
    intro c r hc
    refine ⟨?_, ?_, ?_⟩
    · unfold isPI; split
      · next e => simp at e; omega
      · rfl
    · unfold isComment; split
      · next e => simp at e; omega
      · rfl
    · unfold isTagOpen; split
      · next e => simp at e; omega
      · next e => simp at e; omega
      · rfl
  have close : ∀ c r, c ≠ 62 → c ≠ 47 → isTagClose (c :: r) = .no := by
    intro c r h1 h2
    unfold isTagClose; split
    · next e => simp at e; omega
    · next e => simp at e; omega
    · rfl
  cases h with
  | pi body r hb => simp [parseToken, isPI, piLen_append r hb, Scan.or]
  | comment body r hb => simp [parseToken, isPI, isComment, commentLen_append r hb, Scan.or]
  | openSlash r => simp [parseToken, isPI, isComment, isTagOpen, Scan.or]
  | openTag r h1 h2 h3 =>
    have e1 : isPI (60 :: r) = .no := by
      unfold isPI; split
      · next e => simp at e; rw [e] at h2; simp at h2
      · rfl
    have e2 : isComment (60 :: r) = .no := by
      unfold isComment; split
      · next e => simp at e; rw [e] at h3; simp at h3
      · rfl
    have e3 : isTagOpen (60 :: r) = .tok .openTag 0 1 1 := by
      unfold isTagOpen; split
      · next e => simp at e; rw [e] at h1; simp at h1
      · rfl
      · next e => simp at e
    simp [parseToken, e1, e2, e3, Scan.or]
  | closeTag r =>
    obtain ⟨e1, e2, e3⟩ := start 62 r (by omega)
    simp [parseToken, e1, e2, e3, isTagClose, Scan.or]
  | slashClose r =>
    obtain ⟨e1, e2, e3⟩ := start 47 (62 :: r) (by omega)
    simp [parseToken, e1, e2, e3, isTagClose, Scan.or]
  | name nm r hn hr =>
    have h := isName_append hn hr
    obtain ⟨⟨c, t, rfl, hc⟩, ha⟩ := hn
    have hc' : c ≠ 60 ∧ c ≠ 62 ∧ c ≠ 47 := by unfold NameStart at hc; omega
    simp only [List.cons_append] at h ⊢
    obtain ⟨e1, e2, e3⟩ := start c (t ++ r) hc'.1
    simp [parseToken, e1, e2, e3, close c _ hc'.2.1 hc'.2.2, h, Scan.or]
  | equals r =>
    obtain ⟨e1, e2, e3⟩ := start 61 r (by omega)
    simp [parseToken, e1, e2, e3, close, isName, nameStart, isEquals, Scan.or]
  | attValue t v r ht hv =>
    obtain ⟨e1, e2, e3⟩ := start t (v ++ t :: r) (by unfold Quote at ht; omega)
    have e4 := close t (v ++ t :: r) (by unfold Quote at ht; omega) (by unfold Quote at ht; omega)
    have e5 : attLen t (v ++ t :: r) = some v.length :=
      attLen_append hv (.inr ⟨by unfold Quote at ht; omega, by unfold Quote at ht; omega, r, rfl⟩)
    rcases ht with rfl | rfl <;>
    simp [parseToken, e1, e2, e3, e4, e5, isName, nameStart, isEquals, isAttValue, Scan.or]
  | attOpen t v ht hv =>
    obtain ⟨e1, e2, e3⟩ := start t v (by unfold Quote at ht; omega)
    have e4 := close t v (by unfold Quote at ht; omega) (by unfold Quote at ht; omega)
    have e5 : attLen t v = some v.length := by
      have := attLen_append (r := []) hv (.inl rfl)
      simpa using this
    rcases ht with rfl | rfl <;>
    simp [parseToken, e1, e2, e3, e4, e5, isName, nameStart, isEquals, isAttValue, Scan.or]
  | ref body r hb =>
    obtain ⟨e1, e2, e3⟩ := start 38 (body ++ 59 :: r) (by omega)
    have e4 := close 38 (body ++ 59 :: r) (by omega) (by omega)
    cases b <;> simp [parseToken, e1, e2, e3, e4, isName, nameStart, isEquals, isAttValue, isReference, refLen_append r hb,
      Scan.or]
  | refOpen body hb =>
    obtain ⟨e1, e2, e3⟩ := start 38 body (by omega)
    have e4 := close 38 body (by omega) (by omega)
    cases b <;> simp [parseToken, e1, e2, e3, e4, isName, nameStart, isEquals, isAttValue, isReference, refLen_open hb,
      Scan.or]
  | chars t r hne ht hr hb =>
    obtain ⟨c, t', rfl⟩ := List.exists_cons_of_ne_nil hne
    obtain ⟨h1, h2, h3⟩ := ht
    have hc := h1 c (by simp)
    have hw : ((c :: t') ++ r).takeWhile charByte = c :: t' :=
      takeWhile_eq (fun d hd => (charByte_iff d).mpr (h1 d hd)) fun d r' h => by
        rcases hr with rfl | ⟨x, rfl⟩ | ⟨x, rfl⟩ <;> simp at h <;> simp [charByte, ← h.1]
    simp only [List.cons_append] at hw ⊢
    obtain ⟨e1, e2, e3⟩ := start c (t' ++ r) hc.1
    have e4 : isTagClose (c :: (t' ++ r)) = .no := by
      unfold isTagClose; split
      · next e => simp at e; rw [e.1] at h2; simp at h2
      · next e =>
        simp at e
        obtain ⟨rfl, e⟩ := e
        cases t' with
        | nil => rcases hr with rfl | ⟨x, rfl⟩ | ⟨x, rfl⟩ <;> simp at e
        | cons d t' => simp at e; rw [e.1] at h3; simp at h3
      · rfl
    have e6 : isReference (c :: (t' ++ r)) = .no := by
      unfold isReference; split
      · next e => simp at e; omega
      · rfl
    have e7 : isCharData (c :: (t' ++ r)) = .tok .charData 0 (c :: t').length (c :: t').length := by simp [isCharData, hw]
    cases b with
    | false => simp only [parseToken, e1, e2, e3, e4, e6, e7, Scan.or]; simp
    | true =>
      obtain ⟨g1, g2, g3⟩ := hb rfl c t' rfl
      have e8 : isName (c :: (t' ++ r)) = .no := by simp [isName, nameStart_iff, g1]
      have e9 : isEquals (c :: (t' ++ r)) = .no := by
        unfold isEquals; split
        · next e => simp at e; omega
        · rfl
      have e10 : isAttValue (c :: (t' ++ r)) = .no := by
        unfold Quote at g3
        simp only [isAttValue, beq_iff_eq, Bool.or_eq_true]; rw [if_neg g3]
      simp only [parseToken, e1, e2, e3, e4, e6, e7, e8, e9, e10, Scan.or, if_true]

theorem parseToken_throw {b : Bool} {l : List Nat} (h : LexError b l) : parseToken b l = .throw := by
  have hl : l ≠ [] := by cases h <;> simp
  rcases parseToken_total b hl with ⟨k, s, n, a, h1, h2⟩ | ⟨h1, _⟩
  · exfalso
    cases h with
    | pi r hr => simp [parseToken, isPI, piLen_none.mpr hr, Scan.or] at h1
    | comment r hr =>
      cases hc : commentLen r with
      | none => simp [parseToken, isPI, isComment, hc, Scan.or] at h1
      | some n => obtain ⟨body, r', hb, rfl, _⟩ := commentLen_some hc; exact hr ⟨body, r', hb, rfl⟩
    | attValue t v c r ht hv hc =>
      have e5 : attLen t (v ++ c :: r) = none := attLen_bad hv hc
      rcases ht with rfl | rfl <;>
      simp [parseToken, isPI, isComment, isTagOpen, isTagClose, e5, isName, nameStart, isEquals, isAttValue, Scan.or] at h1
  · exact h1

end Verif.Xml
