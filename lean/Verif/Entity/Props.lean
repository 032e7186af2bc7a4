import Verif.Entity.Lemmas

/-
C86, C87: XML entity escaping of strings.
-/
namespace Verif.Entity

variable {byCode byName : List Entry}

/-! ### C86 -/

/-- C86 (partial): `entity_unescape(entity_escape(s)) == s` for every string of ASCII characters
    other than NUL.  Missing: bytes 0x80..0xFF and NUL, see the violations. -/
theorem C86_round_trip_partial (h : Sorted byCode byName) (s : List Nat)
    (hs : ∀ c ∈ s, 0 < c ∧ c < 128) :
    ∃ t, entityEscape byCode s = some t ∧ entityUnescape byName t = .ok s := by
  obtain ⟨t, ht⟩ := entityEscape_some h s
  refine ⟨t, ht, ?_⟩
  rw [unescape_escape h s (fun c hc => by have := hs c hc; omega) ht]
  congr 1
  clear ht
  induction s with
  | nil => rfl
  | cons c cs ih =>
    have := hs c (by simp)
    rw [List.flatMap_cons, ih (fun x hx => hs x (by simp [hx])),
      roundTripByte_ascii (by omega) this.2]
    rfl

/-- C86: what the round trip is for every string of bytes: neither function throws or reads out of
    bounds, NUL bytes disappear and every other byte comes back as the UTF-8 encoding of the
    Latin-1 character it denotes. -/
theorem C86_round_trip_bytes (h : Sorted byCode byName) (s : List Nat) (hs : ∀ c ∈ s, c < 256) :
    ∃ t, entityEscape byCode s = some t ∧
      entityUnescape byName t =
        .ok ((s.filter (· ≠ 0)).flatMap fun c => (Unicode.encode8 c).1) := by
  obtain ⟨t, ht⟩ := entityEscape_some h s
  refine ⟨t, ht, ?_⟩
  rw [unescape_escape h s hs ht]
  congr 1
  clear ht hs
  induction s with
  | nil => rfl
  | cons c cs ih =>
    rw [List.flatMap_cons, ih]
    by_cases h0 : c = 0
    · simp [h0, roundTripByte]
    · simp [h0, roundTripByte]

/-- C86 (violated): no string without NUL that has a byte with the high bit set, so no string with
    a non ASCII character in UTF-8, survives the round trip. -/
theorem C86_round_trip_violated (h : Sorted byCode byName) (s : List Nat)
    (hs : ∀ c ∈ s, 0 < c ∧ c < 256) (hhigh : ∃ c ∈ s, 128 ≤ c) :
    ∃ t u, entityEscape byCode s = some t ∧ entityUnescape byName t = .ok u ∧ u ≠ s := by
  obtain ⟨t, ht⟩ := entityEscape_some h s
  refine ⟨t, _, ht, unescape_escape h s (fun c hc => (hs c hc).2) ht, ?_⟩
  intro he
  have hlen := congrArg List.length he
  have hge : ∀ s : List Nat, (∀ c ∈ s, 0 < c ∧ c < 256) →
      s.length ≤ (s.flatMap roundTripByte).length ∧
      ((∃ c ∈ s, 128 ≤ c) → s.length < (s.flatMap roundTripByte).length) := by
    intro s
    induction s with
    | nil => simp
    | cons c cs ih =>
      intro hs
      obtain ⟨i1, i2⟩ := ih (fun x hx => hs x (by simp [hx]))
      have hc := hs c (by simp)
      have hl : (roundTripByte c).length = if c < 128 then 1 else 2 := by
        by_cases h128 : c < 128
        · simp [h128, roundTripByte_ascii (by omega) h128]
        · simp [h128, roundTripByte_high c hc.2 (by omega)]
      simp only [List.flatMap_cons, List.length_append, List.length_cons, hl]
      refine ⟨by split <;> omega, ?_⟩
      rintro ⟨x, hx, hxh⟩
      rcases List.mem_cons.mp hx with rfl | hx
      · rw [if_neg (by omega)]; omega
      · have := i2 ⟨x, hx, hxh⟩
        split <;> omega
  have := (hge s hs).2 hhigh
  omega

/-- C86 (violated): a NUL character is lost. -/
theorem C86_nul_violated (h : Sorted byCode byName) (s : List Nat) (hs : ∀ c ∈ s, c < 128)
    (h0 : 0 ∈ s) :
    ∃ t u, entityEscape byCode s = some t ∧ entityUnescape byName t = .ok u ∧
      u = s.filter (· ≠ 0) ∧ u ≠ s := by
  obtain ⟨t, ht⟩ := entityEscape_some h s
  have hu : s.flatMap roundTripByte = s.filter (· ≠ 0) := by
    clear ht h0
    induction s with
    | nil => rfl
    | cons c cs ih =>
      rw [List.flatMap_cons, ih (fun x hx => hs x (by simp [hx]))]
      by_cases hc : c = 0
      · simp [hc, roundTripByte]
      · simp [hc, roundTripByte_ascii hc (hs c (by simp))]
  refine ⟨t, _, ht, unescape_escape h s (fun c hc => by have := hs c hc; omega) ht, hu, ?_⟩
  rw [hu]
  intro he
  rw [← he] at h0
  simpa using (List.mem_filter.mp h0).2

/-! ### C87 -/

/-- C87: `needs_entity_escape(s)` is true exactly if `entity_escape(s) != s`. -/
theorem C87_needs_entity_escape (h : Sorted byCode byName) (s : List Nat) :
    ∃ t, entityEscape byCode s = some t ∧
      needsEntityEscape byCode s = some (decide (t ≠ s)) := by
  obtain ⟨t, ht⟩ := entityEscape_some h s
  exact ⟨t, ht, needsEntityEscape_spec h ht⟩

/-- C87: escaped text is printable ASCII without quotes and angle brackets, so that it can be put
    between quotes or tags. -/
theorem C87_escaped_is_plain (h : Sorted byCode byName) (s : List Nat) (hs : ∀ c ∈ s, c < 256) :
    ∃ t, entityEscape byCode s = some t ∧
      ∀ x ∈ t, 32 ≤ x ∧ x ≤ 126 ∧ x ≠ 34 ∧ x ≠ 39 ∧ x ≠ 60 ∧ x ≠ 62 := by
  obtain ⟨t, ht⟩ := entityEscape_some h s
  exact ⟨t, ht, entityEscape_plain h hs ht⟩

/-- C87: the two overloads of `entity_map_find` are inverse to each other on the table, and a code
    point without a name is a `range_error`. -/
theorem C87_entity_map_find (h : Sorted byCode byName) (cp : Nat) :
    (∃ e ∈ codePointSet, e.2 = cp ∧ entityOfCode byCode cp = .ok e.1 ∧
      codeOfEntity byName e.1 = .ok cp) ∨
    ((∀ e ∈ codePointSet, e.2 ≠ cp) ∧ entityOfCode byCode cp = .rangeError) := by
  unfold entityOfCode
  rcases codePointIndexFind_spec h cp with ⟨h1, h2⟩ | ⟨e, he, hec, h1⟩
  · right; exact ⟨h2, by rw [h1]⟩
  · left; exact ⟨e, he, hec, by rw [h1], by rw [codeOfEntity_name h he, hec]⟩

/-- C87: a name that is neither in the table nor a numeric reference is a `range_error`. -/
theorem C87_unknown_name (h : Sorted byCode byName) (n : List Nat) (hn : ∀ e ∈ codePointSet, e.1 ≠ n)
    (h35 : ∀ d ds, n ≠ 35 :: d :: ds) : codeOfEntity byName n = .rangeError := by
  unfold codeOfEntity
  split
  · next ds => exact absurd rfl (h35 _ _)
  · next d ds _ => exact absurd rfl (h35 _ _)
  · rcases entityNameIndexFind_spec h n with ⟨h1, -⟩ | ⟨e, he, hen, -⟩
    · rw [h1]
    · exact absurd hen (hn e he)

/-- The value of a hexadecimal digit. -/
def hexValue (c : Nat) : Nat := if c ≤ 57 then c - 48 else if c ≤ 70 then c - 55 else c - 87

/-- C87: a decimal reference denotes the number written, modulo 2^32. -/
theorem C87_decimal_reference (d : Nat) (ds : List Nat) (h : ∀ c ∈ d :: ds, 48 ≤ c ∧ c ≤ 57) :
    codeOfEntity byName (35 :: d :: ds) =
      .ok ((d :: ds).foldl (fun a c => 10 * a + (c - 48)) 0 % 2 ^ 32) := by
  have key : ∀ (l : List Nat) (r : Nat), (∀ c ∈ l, 48 ≤ c ∧ c ≤ 57) →
      datoi (r % 2 ^ 32) l = l.foldl (fun a c => 10 * a + (c - 48)) r % 2 ^ 32 := by
    intro l
    induction l with
    | nil => intro r _; rfl
    | cons c cs ih =>
      intro r hl
      have hc := hl c (by simp)
      have hd : isDigit c = true := by simp [isDigit, hc]
      rw [datoi, if_pos hd, List.foldl_cons, ← ih _ (fun x hx => hl x (by simp [hx]))]
      congr 1
      omega
  have hd := h d (by simp)
  have := key (d :: ds) 0 h
  unfold codeOfEntity
  split
  · next heq => simp only [List.cons.injEq] at heq; omega
  · next d' ds' _ heq =>
    simp only [List.cons.injEq, true_and] at heq
    obtain ⟨rfl, rfl⟩ := heq
    rw [← this]
  · next h1 h2 => exact absurd rfl (h2 _ _)

/-- C87: a hexadecimal reference denotes the number written, modulo 2^32. -/
theorem C87_hexadecimal_reference (ds : List Nat)
    (h : ∀ c ∈ ds, (48 ≤ c ∧ c ≤ 57) ∨ (65 ≤ c ∧ c ≤ 70) ∨ (97 ≤ c ∧ c ≤ 102)) :
    codeOfEntity byName (35 :: 120 :: ds) =
      .ok (ds.foldl (fun a c => 16 * a + hexValue c) 0 % 2 ^ 32) := by
  have key : ∀ (l : List Nat) (r : Nat),
      (∀ c ∈ l, (48 ≤ c ∧ c ≤ 57) ∨ (65 ≤ c ∧ c ≤ 70) ∨ (97 ≤ c ∧ c ≤ 102)) →
      xatoi (r % 2 ^ 32) l = l.foldl (fun a c => 16 * a + hexValue c) r % 2 ^ 32 := by
    intro l
    induction l with
    | nil => intro r _; rfl
    | cons c cs ih =>
      intro r hl
      have hc := hl c (by simp)
      have hx : isXDigit c = true := by
        simp only [isXDigit, isDigit, Bool.or_eq_true, Bool.and_eq_true, decide_eq_true_eq]; omega
      rw [xatoi, if_pos hx, List.foldl_cons, ← ih _ (fun x hx => hl x (by simp [hx]))]
      dsimp only
      by_cases hd : isDigit c = true
      · rw [if_pos hd]
        have : 48 ≤ c ∧ c ≤ 57 := by simpa [isDigit] using hd
        congr 1
        unfold hexValue
        rw [if_pos this.2]; omega
      · rw [if_neg hd]
        have : ¬ (48 ≤ c ∧ c ≤ 57) := by simpa [isDigit] using hd
        have e : (r % 2 ^ 32 * 16 % 2 ^ 32 + (toLower c + 4294967199 + 10)) % 2 ^ 32 = (16 * r + hexValue c) % 2 ^ 32 := by
          unfold hexValue toLower
          split <;> split <;> (try split) <;> omega
        rw [e]
  have := key ds 0 h
  simp only [codeOfEntity]
  rw [← this]

/-- C87: a hexadecimal reference ends with the first character that is not a hexadecimal digit; what comes after it does not matter. -/
theorem C87_hexadecimal_reference_end (ds : List Nat) (c : Nat) (rest : List Nat)
    (hc : ¬ ((48 ≤ c ∧ c ≤ 57) ∨ (65 ≤ c ∧ c ≤ 70) ∨ (97 ≤ c ∧ c ≤ 102))) :
    codeOfEntity byName (35 :: 120 :: (ds ++ c :: rest)) = codeOfEntity byName (35 :: 120 :: ds) := by
  have hx : isXDigit c = false := by
    cases h : isXDigit c
    · rfl
    · refine absurd ?_ hc
      simp only [isXDigit, isDigit, Bool.or_eq_true, Bool.and_eq_true, decide_eq_true_eq] at h; omega
  have key : ∀ (l : List Nat) (r : Nat), xatoi r (l ++ c :: rest) = xatoi r l := by
    intro l
    induction l with
    | nil => intro r; simp [xatoi, hx]
    | cons d l ih => intro r; simp only [List.cons_append, xatoi, ih]
  simp only [codeOfEntity, key]

/-- C87: a decimal reference ends with the first character that is not a digit; what comes after it does not matter. -/
theorem C87_decimal_reference_end (d : Nat) (hd : d ≠ 120) (ds : List Nat) (c : Nat) (rest : List Nat) (hc : ¬ (48 ≤ c ∧ c ≤ 57)) :
    codeOfEntity byName (35 :: d :: (ds ++ c :: rest)) = codeOfEntity byName (35 :: d :: ds) := by
  have hx : isDigit c = false := by
    cases h : isDigit c
    · rfl
    · refine absurd ?_ hc
      simpa [isDigit] using h
  have key : ∀ (l : List Nat) (r : Nat), datoi r (l ++ c :: rest) = datoi r l := by
    intro l
    induction l with
    | nil => intro r; simp [datoi, hx]
    | cons d l ih => intro r; simp only [List.cons_append, datoi, ih]
  have e : ∀ l, codeOfEntity byName (35 :: d :: l) = .ok (datoi 0 (d :: l)) := by
    intro l
    unfold codeOfEntity
    split
    · next heq => simp only [List.cons.injEq] at heq; exact absurd heq.2.1 hd
    · next heq =>
      simp only [List.cons.injEq, true_and] at heq
      obtain ⟨rfl, rfl⟩ := heq
      rfl
    · next h2 => exact absurd rfl (h2 _ _)
  rw [e, e, ← List.cons_append, key]

/-- C87: the grammar of unescaping: text up to `&` is copied, the entity up to `;` is replaced by
    the UTF-8 of its code point, and an unknown entity is an exception. -/
theorem C87_unescape_step (text entity rest : List Nat) (ht : 38 ∉ text) (he : 59 ∉ entity) :
    entityUnescape byName (text ++ 38 :: entity ++ 59 :: rest) =
      match codeOfEntity byName entity with
      | .rangeError => .rangeError
      | .ub => .ub
      | .ok cp => (entityUnescape byName rest).prepend
          (text ++ if cp != 0 then (Unicode.encode8 cp).1 else []) := by
  apply unescape_entity (after := entity ++ 59 :: rest)
  · rw [List.append_assoc]; exact splitAt_append ht
  · exact splitAt_append he

/-- C87 (partial): if `needs_entity_unescape(s)` is false and `s` has no `&`, then
    `entity_unescape(s) == s`.  Missing: strings with a `&` and no `;` after it. -/
theorem C87_needs_entity_unescape_partial (s : List Nat) (h : 38 ∉ s) :
    needsEntityUnescape s = false ∧ entityUnescape byName s = .ok s := by
  refine ⟨?_, unescape_none (splitAt_not_mem h)⟩
  simp [needsEntityUnescape, splitAt_not_mem h]

/-- C87: if `needs_entity_unescape(s)` is true, there is a `&` with a later `;`. -/
theorem C87_needs_entity_unescape_true (s : List Nat) :
    needsEntityUnescape s = true ↔
      ∃ a b c, s = a ++ 38 :: b ++ 59 :: c ∧ 38 ∉ a ∧ 59 ∉ b := by
  unfold needsEntityUnescape
  constructor
  · intro h
    split at h
    · cases h
    · next a r h1 =>
      obtain ⟨h2, h3⟩ := splitAt_eq h1
      obtain ⟨⟨b, c⟩, h4⟩ := Option.isSome_iff_exists.mp h
      obtain ⟨h5, h6⟩ := splitAt_eq h4
      exact ⟨a, b, c, by rw [h2, h5]; simp, h3, h6⟩
  · rintro ⟨a, b, c, rfl, h1, h2⟩
    rw [List.append_assoc]
    simp only [List.cons_append]
    rw [splitAt_append h1]
    simp [splitAt_append h2]

/-- C87 (violated): a string with a `&` and no `;` after it is said not to need unescaping, but
    `entity_unescape` drops everything from the `&` on. -/
theorem C87_unescape_truncates_violated (a b : List Nat) (ha : 38 ∉ a) (hb : 59 ∉ b) :
    needsEntityUnescape (a ++ 38 :: b) = false ∧
      entityUnescape byName (a ++ 38 :: b) = .ok a := by
  refine ⟨?_, unescape_open (splitAt_append ha) (splitAt_not_mem hb)⟩
  simp [needsEntityUnescape, splitAt_append ha, splitAt_not_mem hb]

end Verif.Entity
