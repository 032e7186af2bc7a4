import Verif.Json.Decide
/-
The claims C31, C32, C33 and C44.
-/
namespace Verif.Json
open Spec

variable {N : Type}

theorem parse_object {strtod : List Nat → Option N} {s r : List Nat} {v : Value N} (h : isObject strtod (2 * s.length + 2) s = .ok (some v) r) : parse strtod s = .ok v r := by
  unfold parse
  exact (bind_ok h).trans rfl

theorem parse_array {strtod : List Nat → Option N} {s s1 r : List Nat} {v : Value N} (h0 : isObject strtod (2 * s.length + 2) s = .ok none s1)
    (h : isArray strtod (2 * s.length + 2) s1 = .ok (some v) r) : parse strtod s = .ok v r := by
  unfold parse
  refine (bind_ok h0).trans ?_
  exact (bind_ok h).trans rfl

theorem parse_complete {strtod : List Nat → Option N} {w t w' r : List Nat} {c : Nat} {v : Value N} (hw : IsWs w) (h : Text Taken strtod t v) (hv : v.isContainer)
    (hw' : IsWs w') (hc : ws c = false) : parse strtod (w ++ (t ++ (w' ++ c :: r))) = .ok v (c :: r) := by
  have hl : 2 * t.length ≤ 2 * (w ++ (t ++ (w' ++ c :: r))).length + 2 := by simp only [List.length_append]; omega
  cases v with
  | obj ms => exact parse_object ((complete _).object h hl hw' hc w hw)
  | arr vs =>
    have key := (complete _).array h hl hw' hc (r := r) [] wsNil
    refine parse_array (s1 := t ++ (w' ++ c :: r)) ?_ key
    obtain ⟨d, s, e, hd, hd'⟩ : ∃ d s, t = d :: s ∧ ws d = false ∧ d ≠ 0x7B := by
      cases h with
      | arr0 w _ => exact ⟨_, _, rfl, rfl, by decide⟩
      | arr t vs _ => exact ⟨_, _, rfl, rfl, by decide⟩
    rw [isObject, e, List.cons_append]
    exact (bind_ok (isStructural_no hd hd' hw _)).trans rfl
  | null => cases hv
  | bool b => cases hv
  | num x => cases hv
  | str s => cases hv

/-- **C44.** For every input, the parser returns a value exactly if the input starts, up to white space, with a JSON text (with the escapes that the library
    takes) of an array or object; the value is the value of that text and the rest is what follows it and its white space. -/
theorem C44_parser_accepts_exactly_the_grammar (strtod : List Nat → Option N) (s r : List Nat) (v : Value N) :
    parse strtod s = .ok v r ↔
      ∃ w t w', IsWs w ∧ IsWs w' ∧ Text Taken strtod t v ∧ v.isContainer ∧ s = w ++ t ++ w' ++ r ∧ ∃ c r', r = c :: r' ∧ ¬ IsWs [c] := by
  have hws : ∀ c, ws c = false ↔ ¬ IsWs [c] := by
    intro c
    rw [Bool.eq_false_iff, not_iff_not, ws_iff]
    constructor
    · intro h x hx; rw [List.mem_singleton] at hx; subst hx; exact h
    · intro h; exact h c (by simp)
  constructor
  · intro h
    unfold parse at h
    replace h := bind_inv h
    obtain ⟨o, s1, h1, h⟩ := h
    obtain ⟨w, c, r', g1, g2, g3, g4⟩ := (sound _).object h1
    rcases g4 with ⟨v', t, w', rfl, ⟨ms, rfl⟩, g5, g6, g7⟩ | ⟨rfl, _, g5⟩
    · cases h
      exact ⟨w, t, w', g1, g6, g5, trivial, by rw [g7]; simp, c, r', g2, (hws c).1 g3⟩
    · simp only at h
      replace h := bind_inv h
      obtain ⟨o, s2, h2, h⟩ := h
      obtain ⟨w1, c1, r1, k1, k2, k3, k4⟩ := (sound _).array h2
      rcases k4 with ⟨v', t, w', rfl, ⟨ms, rfl⟩, k5, k6, k7⟩ | ⟨rfl, _⟩
      · cases h
        exact ⟨w ++ w1, t, w', wsApp g1 k1, k6, k5, trivial, by rw [g5, k7]; simp, c1, r1, k2, (hws c1).1 k3⟩
      · cases h
  · rintro ⟨w, t, w', h1, h2, h3, h4, rfl, c, r', rfl, h5⟩
    have := parse_complete (r := r') h1 h3 h4 h2 ((hws c).2 h5)
    simpa using this

/-- A text has one value. -/
theorem C44_unambiguous {strtod : List Nat → Option N} {t : List Nat} {v v' : Value N} (h : Text Taken strtod t v) (h' : Text Taken strtod t v')
    (hv : v.isContainer) (hv' : v'.isContainer) : v = v' := by
  have a := parse_complete (w := []) (w' := []) (c := 0) (r := []) wsNil h hv wsNil rfl
  have b := parse_complete (w := []) (w' := []) (c := 0) (r := []) wsNil h' hv' wsNil rfl
  rw [a] at b
  cases b
  rfl

/-- numbers for the examples: their texts -/
def asText : List Nat → Option (List Nat) := some

example : parse asText (ascii " { \"a\" : [ 1 , null ] } x" ++ [0]) = .ok (.obj [([0x61], .arr [.num [0x31], .null])]) (ascii "x" ++ [0]) := eqRes_eq (by decide +kernel)

/-- The escapes of the library are not those of the RFC. -/
theorem C44_rfc_grammar_violated : ∃ (t : List Nat) (v : Value (List Nat)), parse asText (t ++ [0]) = .ok v [0] ∧ ∀ v', ¬ Text Rfc asText t v' := by
  refine ⟨ascii "[\"\\uDC00\"]", .arr [.str [0xED, 0xB0, 0x80]], eqRes_eq (by decide +kernel), ?_⟩
  intro v' h
  have hno : ∀ {x y : List Nat}, ¬ Rfc (0x75 :: 0x44 :: 0x43 :: 0x30 :: 0x30 :: x) y := by
    intro x y h
    generalize hz : 0x75 :: 0x44 :: 0x43 :: 0x30 :: 0x30 :: x = z at h
    cases h with
    | simple c b h => cases hz
    | bmp h v h1 h2 =>
      cases h1 with
      | mk a b c d va vb vc vd ha hb hc hd =>
        cases hz
        cases ha; cases hb; cases hc; cases hd
        exact h2 (by decide)
    | pair h g hi lo h1 h2 h3 h4 h5 h6 =>
      cases h1 with
      | mk a b c d va vb vc vd ha hb hc hd =>
        cases hz
        cases ha; cases hb; cases hc; cases hd
        revert h4; decide
  have hcase : ∀ {x b : List Nat}, Rfc x b → (∃ c b', x = [c] ∧ (c, b') ∈ Spec.simple) ∨ 5 ≤ x.length := by
    intro x b h
    cases h with
    | simple c b h => exact Or.inl ⟨c, b, rfl, h⟩
    | bmp h v h1 h2 =>
      refine Or.inr ?_
      obtain ⟨a, b, c, d, e⟩ : ∃ a b c d, h = [a, b, c, d] := by
        cases h1 with
        | mk a b c d => exact ⟨a, b, c, d, rfl⟩
      rw [e]; simp
    | pair h g hi lo h1 h2 _ _ _ _ =>
      refine Or.inr ?_
      obtain ⟨a, b, c, d, e⟩ : ∃ a b c d, h = [a, b, c, d] := by
        cases h1 with
        | mk a b c d => exact ⟨a, b, c, d, rfl⟩
      rw [e]; simp
  have hch : ∀ {t s r : List Nat}, Chars Rfc t s → t ++ 0x22 :: r = [0x5C, 0x75, 0x44, 0x43, 0x30, 0x30, 0x22, 0x5D] → False := by
    intro t s r h e
    cases h with
    | nil => cases e
    | raw c t s h1 h2 h3 h4 => rw [List.cons_append, List.cons.injEq] at e; exact h3 e.1
    | esc x b t s h1 h2 =>
      rw [List.cons_append, List.cons.injEq, List.append_assoc] at e
      replace e := e.2
      rcases hcase h1 with ⟨c, b', rfl, hc⟩ | hlen
      · rw [List.cons_append, List.cons.injEq] at e
        obtain ⟨rfl, e⟩ := e
        revert hc
        simp only [Spec.simple]
        simp
      · match x, hlen, h1, e with
        | a :: b' :: c :: d :: f :: x, _, h1, e =>
          simp only [List.cons_append, List.cons.injEq] at e
          obtain ⟨rfl, rfl, rfl, rfl, rfl, e⟩ := e
          exact hno h1
  have hval : ∀ {t : List Nat} {v : Value (List Nat)} {w : List Nat} {r : List Nat}, Text Rfc asText t v → IsWs w →
      w ++ (t ++ r) = [0x22, 0x5C, 0x75, 0x44, 0x43, 0x30, 0x30, 0x22, 0x5D] → False := by
    intro t v w r h hw e
    cases w with
    | cons c w =>
      rw [List.cons_append, List.cons.injEq] at e
      have := hw c (by simp)
      omega
    | nil =>
      rw [List.nil_append] at e
      cases h with
      | str t s h =>
        rw [List.cons_append, List.cons.injEq, List.append_assoc] at e
        exact hch h e.2
      | num t x h _ =>
        obtain ⟨c, s, rfl, hc⟩ := number_head h
        rw [List.cons_append, List.cons.injEq] at e
        obtain ⟨rfl, e⟩ := e
        rcases hc with hc | hc
        · omega
        · revert hc; decide
      | null => cases e
      | «true» => cases e
      | «false» => cases e
      | arr0 w h => cases e
      | arr t vs h => cases e
      | obj0 w h => cases e
      | obj t ms h => cases e
  generalize hz : ascii "[\"\\uDC00\"]" = z at h
  have hz' : z = 0x5B :: [0x22, 0x5C, 0x75, 0x44, 0x43, 0x30, 0x30, 0x22, 0x5D] := hz.symm
  cases h with
  | arr0 w h =>
    injection hz' with _ hz'
    cases w with
    | nil => cases hz'
    | cons c w =>
      rw [List.cons_append, List.cons.injEq] at hz'
      have := h c (by simp)
      omega
  | arr t vs h =>
    injection hz' with _ hz'
    cases h with
    | one w t w' v h1 h2 h3 => exact hval h2 h1 (by rw [← hz', List.append_assoc, List.append_assoc])
    | cons w t w' t' v vs h1 h2 h3 h4 => exact hval h2 h1 (r := w' ++ 0x2C :: t' ++ [0x5D]) (by rw [← hz']; simp only [List.append_assoc])
  | num t x h _ =>
    obtain ⟨c, s, rfl, hc⟩ := number_head h
    cases hz'
    rcases hc with hc | hc
    · omega
    · revert hc; decide
  | null => cases hz'
  | «true» => cases hz'
  | «false» => cases hz'
  | str t s h => cases hz'
  | obj0 w h => cases hz'
  | obj t ms h => cases hz'

/-- **C31.** What `generate` writes for an array or object, `parse` reads back as the same value, to the last character. -/
theorem C31_generated_text_parses_back (strtod : List Nat → Option N) (toText : N → List Nat) (v : Value N) (h : Storable strtod toText v) (n : Nat) (t : List Nat)
    (ht : generate toText v n = some t) : parse strtod (t ++ [0]) = .ok v [0] := by
  have hv : v.isContainer ∧ t = gen toText v n := by
    cases v <;> first | (cases ht; exact ⟨trivial, rfl⟩) | cases ht
  obtain ⟨hv, rfl⟩ := hv
  have := parse_complete (w := []) (w' := []) (c := 0) (r := []) wsNil (gen_text (fun _ _ => bmp_taken) h n) hv wsNil rfl
  simpa using this

/-- `generate` takes every array and object, and what it writes is a JSON text by the RFC with that value. -/
theorem C31_generated_text_is_json (strtod : List Nat → Option N) (toText : N → List Nat) (v : Value N) (h : Storable strtod toText v) (hv : v.isContainer) (n : Nat) :
    ∃ t, generate toText v n = some t ∧ Text Rfc strtod t v := by
  have := gen_text (E := Rfc) (fun _ _ => bmp_rfc) h n
  cases v <;> first | exact ⟨_, rfl, this⟩ | cases hv

/-- Other values are refused. -/
theorem C31_other_values_throw (toText : N → List Nat) (v : Value N) (hv : ¬ v.isContainer) (n : Nat) : generate toText v n = none := by
  cases v <;> first | rfl | exact absurd trivial hv

/-- a value with everything in it -/
def sample : Value (List Nat) := .obj [([0x61, 0x22], .arr [.num [0x2D, 0x31, 0x2E, 0x35], .str [0x00, 0x1F, 0x0A, 0x5C, 0xE2, 0x82, 0xAC], .obj []]), ([], .bool false)]

theorem sample_storable : Storable asText id sample := by
  refine Storable.obj _ ?_ (by decide) (by decide)
  intro m hm
  simp only [List.mem_cons, List.not_mem_nil, or_false] at hm
  rcases hm with rfl | rfl
  · refine Storable.arr _ ?_
    intro v hv
    simp only [List.mem_cons, List.not_mem_nil, or_false] at hv
    rcases hv with rfl | rfl | rfl
    · exact Storable.num _ (Number.mk [0x2D] [0x31] [0x2E, 0x35] [] (Or.inr rfl) (IntPart.digits 0x31 [] (by decide) (by decide) (by simp)) (FracPart.some 0x35 [] (by decide) (by simp)) ExpPart.none) rfl
    · exact Storable.str _
    · exact Storable.obj [] (by simp) (by simp) (by simp)
  · exact Storable.bool false

example : parse asText (gen id sample 0 ++ [0]) = .ok sample [0] := C31_generated_text_parses_back asText id sample sample_storable 0 _ rfl

/-- What is missing of C31 without the conditions: a name with a 0 in it does not come back. -/
theorem C31_nul_in_name_violated : ∃ (v v' : Value (List Nat)) (t : List Nat), v.isContainer ∧ generate id v 0 = some t ∧ parse asText (t ++ [0]) = .ok v' [0] ∧ v' ≠ v := by
  refine ⟨.obj [([0x61, 0, 0x62], .null)], .obj [([0x61], .null)], _, trivial, rfl, eqRes_eq (by decide +kernel), ?_⟩
  intro e
  cases e

/-- **C32, partial.** Every JSON text whose escapes denote characters outside of the surrogate range, has in the parser the value of RFC 8259: simple escapes, and
    `\uXXXX` as the UTF-8 of the character.  (Missing: surrogate pairs.) -/
theorem C32_escapes_have_their_meaning_partial (strtod : List Nat → Option N) (w t w' : List Nat) (v : Value N) (hw : IsWs w) (hw' : IsWs w')
    (h : Text RfcBmp strtod t v) (hv : v.isContainer) : parse strtod (w ++ t ++ w' ++ [0]) = .ok v [0] := by
  have := parse_complete (c := 0) (r := []) hw (Text.mono (fun _ _ => bmp_taken) h) hv hw' rfl
  simpa using this

/-- the same for one string -/
theorem C32_string_partial (strtod : List Nat → Option N) (t s : List Nat) (h : Chars RfcBmp t s) :
    parse strtod ([0x5B, 0x22] ++ t ++ [0x22, 0x5D, 0]) = .ok (.arr [.str s]) [0] := by
  have := C32_escapes_have_their_meaning_partial strtod [] _ [] _ wsNil wsNil (Text.arr _ _ (Elems.one [] _ [] _ wsNil (Text.str t s h) wsNil)) trivial
  simpa using this

example : Chars RfcBmp (ascii "x\\n\\u20AC\\\"") [0x78, 0x0A, 0xE2, 0x82, 0xAC, 0x22] :=
  Chars.raw 0x78 _ _ (by decide) (by decide) (by decide)
    (Chars.esc [0x6E] [0x0A] _ _ (RfcBmp.simple _ _ (by decide))
      (Chars.esc (0x75 :: [0x32, 0x30, 0x41, 0x43]) [0xE2, 0x82, 0xAC] _ _
        (RfcBmp.bmp _ 0x20AC (Hex4.mk 0x32 0x30 0x41 0x43 2 0 10 12 rfl rfl rfl rfl) (by decide))
        (Chars.esc [0x22] [0x22] _ _ (RfcBmp.simple _ _ (by decide)) Chars.nil)))

/-- The full claim fails: a JSON text with a surrogate pair (😀) is refused. -/
theorem C32_surrogate_pair_violated : ∃ (t : List Nat) (v : Value (List Nat)), Text Rfc asText t v ∧ v.isContainer ∧ parse asText (t ++ [0]) = .throw := by
  refine ⟨0x5B :: (([] ++ (0x22 :: ((0x5C :: ((0x75 :: ([0x44, 0x38, 0x33, 0x44] ++ 0x5C :: 0x75 :: [0x44, 0x45, 0x30, 0x30])) ++ [])) ++ [0x22])) ++ []) ++ [0x5D]),
    .arr [.str (Verif.Unicode.utf8Spec 0x1F600 ++ [])], ?_, trivial, eqRes_eq (by decide +kernel)⟩
  exact Text.arr _ _ (Elems.one [] _ [] _ wsNil (Text.str _ _ (Chars.esc _ _ _ _
    (Rfc.pair _ _ 0xD83D 0xDE00 (Hex4.mk 0x44 0x38 0x33 0x44 13 8 3 13 rfl rfl rfl rfl) (Hex4.mk 0x44 0x45 0x30 0x30 13 14 0 0 rfl rfl rfl rfl) (by decide) (by decide) (by decide) (by decide))
    Chars.nil)) wsNil)

/-- and the form that the parser takes for a pair gives another character -/
theorem C32_pair_value_violated : parse asText (ascii "[\"\\uD83DuDE00\"]" ++ [0]) = .ok (.arr [.str (Verif.Unicode.utf8Spec 0xF600)]) [0] := eqRes_eq (by decide +kernel)

/-- **C33, partial.** For every 0-terminated input that does not end with `true`, `false` or `null`, the parser stays inside of the input and ends: it returns a value and
    a position inside of the input, or throws. -/
theorem C33_parser_stays_inside_partial (strtod : List Nat → Option N) (u : List Nat) (h0 : 0 ∉ u) (hu : ∀ l ∈ [ascii "true", ascii "false", ascii "null"], ¬ l <:+ u) :
    parse strtod (u ++ [0]) = .throw ∨ ∃ v r, parse strtod (u ++ [0]) = .ok v r ∧ r ≠ [] ∧ r <:+ u ++ [0] := by
  have := safe_parse (P := False) (strtod := strtod) (s := u ++ [0]) ⟨u, rfl, h0, Or.inr hu⟩
  unfold Safe at this
  cases hp : parse strtod (u ++ [0]) with
  | ok v r =>
    refine Or.inr ⟨v, r, rfl, ?_⟩
    rw [C44_parser_accepts_exactly_the_grammar] at hp
    obtain ⟨w, t, w', _, _, _, _, e, c, r', rfl, _⟩ := hp
    exact ⟨by simp, w ++ t ++ w', by rw [e]⟩
  | throw => exact Or.inl rfl
  | oob => rw [hp] at this; exact this.elim
  | fuel => rw [hp] at this; exact this.elim

/-- For every 0-terminated input it ends (at the latest when it reads beyond the input). -/
theorem C33_parser_terminates (strtod : List Nat → Option N) (u : List Nat) (h0 : 0 ∉ u) : parse strtod (u ++ [0]) ≠ .fuel := by
  have := safe_parse (P := True) (strtod := strtod) (s := u ++ [0]) ⟨u, rfl, h0, Or.inl trivial⟩
  unfold Safe at this
  intro hp
  rw [hp] at this
  exact this

example : parse asText (ascii "[tru" ++ [0]) = .throw := eqRes_eq (by decide +kernel)
example : (0 ∉ ascii "[\"\\u12" ∧ ∀ l ∈ [ascii "true", ascii "false", ascii "null"], ¬ l <:+ ascii "[\"\\u12") := by decide

/-- The full claim fails: on `[true` it reads beyond the end. -/
theorem C33_constant_at_end_violated : parse asText (ascii "[true" ++ [0]) = .oob := eqRes_eq (by decide +kernel)

end Verif.Json
