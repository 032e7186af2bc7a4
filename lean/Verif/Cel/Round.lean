import Verif.Cel.Read
/-!
Every value that is `Ok` is read back from its text.
-/
namespace Verif.Cel
open Verif.Expr
open Verif.Cel.Spec
open Verif.Lex (Opts)
open Verif.Lex.Spec (Lexes Lexeme Strings End isSpace isWord isQuote Stops symbols)
open Verif.Expr.Spec (Derives eval evalList evalMembers dictOf)

variable {D O S : Type} {c : Cfg D O} {o : Opts D} {E : Env D O S}

/-- The text of `w`, followed by something that ends it, is a phrase that denotes `w'`. -/
def ReadsAs (c : Cfg D O) (o : Opts D) (E : Env D O S) (w w' : Val D O) : Prop :=
  ∃ ts x, (∀ d rest us, Follow rest → T o rest us → T o (text c d w ++ rest) (ts ++ us)) ∧
    Derives .expression ts (.e x) ∧ ∀ s, eval E x s = .ok w' s

/-- It denotes `w`. -/
abbrev Reads (c : Cfg D O) (o : Opts D) (E : Env D O S) (w : Val D O) : Prop := ReadsAs c o E w w

theorem Derives.up {ts : List (Tok D)} {x : Expr.Spec.Expr D O} (h : Derives (.level 0) ts (.e x)) : Derives .expression ts (.e x) := by
  refine .expr ?_
  have : ∀ k, k ≤ 10 → Derives (.level k) ts (.e x) := by
    intro k
    induction k with
    | zero => intro _; exact h
    | succ k ih => intro hk; exact .level (by omega) (ih (by omega))
  exact this 10 (by omega)

theorem Derives.prim {ts : List (Tok D)} {x : Expr.Spec.Expr D O} (h : Derives .primary ts (.e x)) : Derives .expression ts (.e x) :=
  Derives.up (.postfix (.primary h))

theorem IsIdent.true : IsIdent "true".toList := ⟨'t', "rue".toList, rfl, by decide, by simp [isWord]⟩
theorem IsIdent.false : IsIdent "false".toList := ⟨'f', "alse".toList, rfl, by decide, by simp [isWord]⟩
theorem IsIdent.empty : IsIdent "empty".toList := ⟨'e', "mpty".toList, rfl, by decide, by simp [isWord]⟩
theorem IsIdent.unescape : IsIdent "xml_unescape".toList := ⟨'x', "ml_unescape".toList, rfl, by decide, by simp [isWord]⟩

theorem Follow.word {rest : Str} (h : Follow rest) : Stops isWord rest := h.stops (by simp [isWord])

theorem reads_kw {w : Val D O} {n : Str} (hn : n ∈ ["true".toList, "false".toList, "empty".toList]) (ht : ∀ d, text c d w = n)
    (hd : Derives .primary [.kw n] (.e (.const w))) : Reads c o E w := by
  refine ⟨[.kw n], .const w, ?_, Derives.prim hd, fun s => by simp [eval]⟩
  intro d rest us hf h
  rw [ht]
  have hi : IsIdent n := by
    simp at hn
    rcases hn with rfl | rfl | rfl
    exacts [IsIdent.true, IsIdent.false, IsIdent.empty]
  exact (h.word hf.word hi).2 (.inl hn)

theorem reads_num {x : D} (h : NumOk c E.num o x) : Reads c o E (.num x : Val D O) := by
  rcases h with ⟨h1, h2⟩ | ⟨s, h1, h2, h3⟩
  · refine ⟨[.num x], .const (.num x), ?_, Derives.prim (.num x), fun s => by simp [eval]⟩
    intro d rest us hf h
    have := h.dec hf h1
    rw [h2] at this
    simpa [text] using this
  · refine ⟨[.sym .subtract, .num (o.decimal s)], .un .neg (.const (.num (o.decimal s))), ?_,
      Derives.up (.neg (.postfix (.primary (.num _)))), fun s => by simp [eval, Expr.Spec.Res.bind, Expr.Spec.unary, Expr.Spec.number, h3]⟩
    intro d rest us hf h
    have h4 := h.dec hf h2
    obtain ⟨ch, y, rfl, h5, h6⟩ := h2
    have h7 := T.minus h4 (by rintro rfl; revert h5; decide)
    simpa [text, h1] using h7

theorem reads_name {n : Str} (h : IsIdent n) : Reads c o E (.name n : Val D O) := by
  by_cases hk : IsKeyword o n
  · refine ⟨[.sym .at, .kw n], .const (.name n), ?_, Derives.prim (.nameK n), fun s => by simp [eval]⟩
    intro d rest us hf ht
    exact ((ht.word hf.word h).2 hk).sym (ch := '@') (by decide) (by decide) (by decide)
  · refine ⟨[.sym .at, .ident n], .const (.name n), ?_, Derives.prim (.nameI n), fun s => by simp [eval]⟩
    intro d rest us hf ht
    exact ((ht.word hf.word h).1 hk).sym (ch := '@') (by decide) (by decide) (by decide)

theorem reads_plain {s : Str} (hq : '"' ∉ s) (h0 : '\x00' ∉ s) (d : Nat) (rest : Str) (us : List (Tok D)) (hf : Follow rest)
    (h : T o rest us) : T o ("\"".toList ++ s ++ "\"".toList ++ rest) ([.str s] ++ us) := by
  have := h.str hf hq h0
  simpa using this

theorem map_ofNat_toNat (s : Str) : (s.map Char.toNat).map Char.ofNat = s := by
  rw [List.map_map]
  conv => rhs; rw [← List.map_id s]
  apply List.map_congr_left
  intro a _
  simp

theorem toNat_ofNat_ascii {x : Nat} (h : x ≤ 126) : (Char.ofNat x).toNat = x := by
  have : x.isValidChar := .inl (by omega)
  simp [Char.ofNat, this, Char.toNat, Char.ofNatAux]

theorem map_toNat_ofNat {t : List Nat} (h : ∀ x ∈ t, x ≤ 126) : (t.map Char.ofNat).map Char.toNat = t := by
  rw [List.map_map]
  conv => rhs; rw [← List.map_id t]
  apply List.map_congr_left
  intro a ha
  exact toNat_ofNat_ascii (h a ha)

/-- What the environment and the options of the parser have to be. -/
structure Setting (c : Cfg D O) (o : Opts D) (E : Env D O S) (byName : List Entity.Entry) : Prop where
  sorted : Entity.Sorted c.byCode byName
  unescape : E.unescape = Spec.unescape byName
  keyword : o.keyword "xml_unescape".toList = false

/-- A string that is not escaped. -/
theorem reads_quoted {s : Str} (hq : '"' ∉ s) (h0 : '\x00' ∉ s) (he : quoted c s = "\"".toList ++ s ++ "\"".toList) :
    Reads c o E (.str s : Val D O) := by
  refine ⟨[.str s], .const (.str s), ?_, Derives.prim (.str s), fun s => by simp [eval]⟩
  intro d rest us hf ht
  simp only [text, he]
  exact reads_plain hq h0 d rest us hf ht

/-- A string that is escaped. -/
theorem reads_escaped {byName : List Entity.Entry} (hs : Setting c o E byName) {s : Str} {t u : List Nat} (hsafe : c.safe = true)
    (h1 : Entity.entityEscape c.byCode (s.map Char.toNat) = some t) (he : t ≠ s.map Char.toNat)
    (h3 : ∀ x ∈ t, 32 ≤ x ∧ x ≤ 126 ∧ x ≠ 34 ∧ x ≠ 39 ∧ x ≠ 60 ∧ x ≠ 62) (h2 : Entity.entityUnescape byName t = .ok u) :
    ReadsAs c o E (.str s : Val D O) (.str (u.map Char.ofNat)) := by
  have h126 : ∀ x ∈ t, x ≤ 126 := fun x hx => (h3 x hx).2.1
  have hq : '"' ∉ t.map Char.ofNat := by
    intro hm
    obtain ⟨x, hx, hx'⟩ := List.mem_map.mp hm
    have := toNat_ofNat_ascii (h126 x hx)
    rw [hx'] at this
    exact (h3 x hx).2.2.1 this.symm
  have h0 : '\x00' ∉ t.map Char.ofNat := by
    intro hm
    obtain ⟨x, hx, hx'⟩ := List.mem_map.mp hm
    have := toNat_ofNat_ascii (h126 x hx)
    rw [hx'] at this
    have h4 := (h3 x hx).1
    rw [← this] at h4
    exact absurd h4 (by decide)
  refine ⟨[.ident "xml_unescape".toList, .sym .openParen] ++ ([.str (t.map Char.ofNat)] ++ [.sym .closeParen]),
    .call "xml_unescape".toList [.const (.str (t.map Char.ofNat))], ?_,
    Derives.prim (.call _ (.arg (Derives.prim (.str _)))), ?_⟩
  · intro d rest us hf ht
    have e : text c d (.str s : Val D O) ++ rest =
        "xml_unescape".toList ++ ('(' :: ("\"".toList ++ t.map Char.ofNat ++ "\"".toList ++ (')' :: rest))) := by
      simp [text, quoted, h1, hsafe, he]
    rw [e]
    have hk : ¬ IsKeyword o "xml_unescape".toList := by
      rintro (h | h)
      · revert h; decide
      · rw [hs.keyword] at h; cases h
    have h5 := ht.sym (ch := ')') (y := .closeParen) (by decide) (by decide) (by decide)
    have h6 := reads_plain hq h0 d _ _ ⟨[], _, rfl, by simp, .inr ⟨')', rest, rfl, by simp⟩⟩ h5
    have h7 := h6.sym (ch := '(') (y := .openParen) (by decide) (by decide) (by decide)
    have h8 := (h7.word (n := "xml_unescape".toList) (by intro d hd; simp at hd; subst hd; simp [isWord]) IsIdent.unescape).1 hk
    simpa using h8
  · intro st
    have hu : E.unescape (t.map Char.ofNat) = some (u.map Char.ofNat) := by
      rw [hs.unescape]
      unfold Spec.unescape
      rw [map_toNat_ofNat h126, h2]
    simp [eval, evalList, Expr.Spec.Res.bind, Expr.Spec.callValue, Expr.Spec.builtin, hu]

theorem reads_str {byName : List Entity.Entry} (hs : Setting c o E byName) {s : Str} (h : StrOk c s) : Reads c o E (.str s : Val D O) := by
  unfold StrOk at h
  cases hsafe : c.safe with
  | false =>
    rw [hsafe] at h
    simp only [Bool.false_eq_true, if_false] at h
    refine reads_quoted h.1 h.2 ?_
    simp only [quoted, hsafe]
    split <;> simp
  | true =>
    rw [hsafe, if_pos rfl] at h
    have ha : ∀ x ∈ s.map Char.toNat, 0 < x ∧ x < 128 := by simpa using h
    obtain ⟨t, h1, h2⟩ := Entity.C86_round_trip_partial hs.sorted _ ha
    obtain ⟨t', h1', h3⟩ := Entity.C87_escaped_is_plain hs.sorted _ fun x hx => Nat.lt_trans (ha x hx).2 (by omega)
    rw [h1] at h1'
    cases h1'
    by_cases he : t = s.map Char.toNat
    · have hq : '"' ∉ s := fun hm => (h3 34 (he ▸ List.mem_map.mpr ⟨_, hm, rfl⟩)).2.2.1 rfl
      have h0 : '\x00' ∉ s := fun hm => absurd (h _ hm).1 (by decide)
      exact reads_quoted hq h0 (by simp [quoted, h1, he])
    · have := reads_escaped hs hsafe h1 he h3 h2
      rwa [map_ofNat_toNat] at this

/-! ### Arrays and dictionaries -/

def ReadsMore (c : Cfg D O) (o : Opts D) (E : Env D O S) (ws : List (Val D O)) : Prop :=
  ∃ ts xs, (∀ d rest us, Follow rest → T o rest us → T o (textMore c d ws ++ rest) (ts ++ us)) ∧
    (∀ d rest, Follow rest → Follow (textMore c d ws ++ rest)) ∧
    (∀ ts0 xs0, Derives .args ts0 (.es xs0) → Derives .args (ts0 ++ ts) (.es (xs0 ++ xs))) ∧ ∀ s, evalList E xs s = .ok ws s

theorem ReadsMore.nil : ReadsMore c o E [] :=
  ⟨[], [], by simp [textMore], by simp [textMore], by simp, by simp [evalList]⟩

theorem ReadsMore.cons {w : Val D O} {ws : List (Val D O)} (h : Reads c o E w) (h' : ReadsMore c o E ws) : ReadsMore c o E (w :: ws) := by
  obtain ⟨ts, x, h1, h2, h3⟩ := h
  obtain ⟨ts', xs, h4, h5, h6, h7⟩ := h'
  refine ⟨.sym .comma :: (ts ++ ts'), x :: xs, ?_, ?_, ?_, ?_⟩
  · intro d rest us hf ht
    have := (((h1 d _ _ (h5 d rest hf) (h4 d rest us hf ht)).space (ch := ' ') (by decide)).sym (ch := ',') (y := .comma) (by decide) (by decide) (by decide))
    simpa [textMore] using this
  · intro d rest hf
    simp only [textMore]
    exact Follow.comma _
  · intro ts0 xs0 h0
    have := h6 _ _ (.argMore h0 h2)
    simpa using this
  · intro s
    simp [evalList, h3, h7, Expr.Spec.Res.bind]

theorem reads_arr {ws : List (Val D O)} (h : ∀ w ∈ ws, Reads c o E w) : Reads c o E (.arr ws : Val D O) := by
  cases ws with
  | nil =>
    refine ⟨[.sym .openBracket, .sym .closeBracket], _, ?_, Derives.prim .emptyArray, fun s => by simp [eval]⟩
    intro d rest us hf ht
    have := ((ht.sym (ch := ']') (y := .closeBracket) (by decide) (by decide) (by decide)).space (ch := ' ') (by decide)).sym (ch := '[')
      (y := .openBracket) (by decide) (by decide) (by decide)
    simpa [text] using this
  | cons w ws =>
    obtain ⟨ts, x, h1, h2, h3⟩ := h w (by simp)
    have hm : ReadsMore c o E ws := by
      have hws : ∀ w ∈ ws, Reads c o E w := fun w hw => h w (by simp [hw])
      clear h
      induction ws with
      | nil => exact .nil
      | cons w ws ih => exact .cons (hws w (by simp)) (ih fun w hw => hws w (by simp [hw]))
    obtain ⟨ts', xs, h4, h5, h6, h7⟩ := hm
    refine ⟨_, _, ?_, Derives.prim (.array (h6 _ _ (.arg h2))), ?_⟩
    · intro d rest us hf ht
      have hf1 : Follow (' ' :: ']' :: rest) := ⟨[' '], _, rfl, by simp [isSpace], .inr ⟨']', rest, rfl, by simp⟩⟩
      have g1 := (ht.sym (ch := ']') (y := .closeBracket) (by decide) (by decide) (by decide)).space (ch := ' ') (by decide)
      have g2 := h1 d _ _ (h5 d _ hf1) (h4 d _ _ hf1 g1)
      have g3 := (g2.space (ch := ' ') (by decide)).sym (ch := '[') (y := .openBracket) (by decide) (by decide) (by decide)
      simpa [text] using g3
    · intro s
      simp [eval, evalList, h3, h7, Expr.Spec.Res.bind]

def ReadsMembers (c : Cfg D O) (o : Opts D) (E : Env D O S) (ms : List (Str × Val D O)) : Prop :=
  ∃ ts xs, (∀ d rest us, Follow rest → T o rest us → T o (textMembers c d ms ++ rest) (ts ++ us)) ∧
    (∀ d rest, Follow rest → Follow (textMembers c d ms ++ rest)) ∧
    (∀ ts0 xs0, Derives .named ts0 (.ms xs0) → Derives .named (ts0 ++ ts) (.ms (xs0 ++ xs))) ∧ ∀ s, evalMembers E xs s = .ok ms s

theorem tabs_space (d : Nat) : ∀ ch ∈ tabs d, isSpace ch := by
  intro ch hc
  simp [tabs] at hc
  simp [isSpace, hc.2]

theorem T.key {k rest : Str} {us : List (Tok D)} (h : T o rest us) (hk : IsIdent k ∧ ¬ IsKeyword o k) :
    T o (k ++ ": ".toList ++ rest) (.ident k :: .sym .colon :: us) := by
  have h1 := (h.space (ch := ' ') (by decide)).sym (ch := ':') (y := .colon) (by decide) (by decide) (by decide)
  have h2 := (h1.word (n := k) (by intro d hd; simp at hd; subst hd; simp [isWord]) hk.1).1 hk.2
  simpa using h2

theorem ReadsMembers.nil : ReadsMembers c o E [] :=
  ⟨[], [], by simp [textMembers], by simp [textMembers], by simp, by simp [evalMembers]⟩

theorem ReadsMembers.cons {k : Str} {w : Val D O} {ms : List (Str × Val D O)} (hk : IsIdent k ∧ ¬ IsKeyword o k) (h : Reads c o E w)
    (h' : ReadsMembers c o E ms) : ReadsMembers c o E ((k, w) :: ms) := by
  obtain ⟨ts, x, h1, h2, h3⟩ := h
  obtain ⟨ts', xs, h4, h5, h6, h7⟩ := h'
  refine ⟨.sym .comma :: .ident k :: .sym .colon :: (ts ++ ts'), (k, x) :: xs, ?_, ?_, ?_, ?_⟩
  · intro d rest us hf ht
    have g := (T.key (h1 d _ _ (h5 d rest hf) (h4 d rest us hf ht)) hk).spaces (ws := '\n' :: tabs d)
      (by simp [isSpace]; simpa [isSpace] using tabs_space d)
    have := g.sym (ch := ',') (y := .comma) (by decide) (by decide) (by decide)
    simpa [textMembers] using this
  · intro d rest hf
    simp only [textMembers]
    exact Follow.comma _
  · intro ts0 xs0 h0
    have := h6 _ _ (.memberMore k h0 h2)
    simpa using this
  · intro s
    simp [evalMembers, h3, h7, Expr.Spec.Res.bind]

theorem dictOf_nodup {ms : List (Str × Val D O)} (h : (ms.map (·.1)).Nodup) : dictOf ms = ms := by
  induction ms with
  | nil => rfl
  | cons m ms ih =>
    obtain ⟨k, v⟩ := m
    simp at h
    simp only [dictOf]
    rw [ih h.2]
    congr 1
    rw [List.filter_eq_self]
    rintro ⟨k', v'⟩ hm
    have : k' ≠ k := by rintro rfl; exact h.1 _ hm
    simpa using this

theorem reads_dict {ms : List (Str × Val D O)} (hn : (ms.map (·.1)).Nodup)
    (h : ∀ m ∈ ms, (IsIdent m.1 ∧ ¬ IsKeyword o m.1) ∧ Reads c o E m.2) : Reads c o E (.dict ms : Val D O) := by
  cases ms with
  | nil =>
    refine ⟨[.sym .openBrace, .sym .closeBrace], _, ?_, Derives.prim .emptyDict, fun s => by simp [eval]⟩
    intro d rest us hf ht
    have := ((ht.sym (ch := '}') (y := .closeBrace) (by decide) (by decide) (by decide)).space (ch := ' ') (by decide)).sym (ch := '{')
      (y := .openBrace) (by decide) (by decide) (by decide)
    simpa [text] using this
  | cons m ms =>
    obtain ⟨k, w⟩ := m
    obtain ⟨hk, ts, x, h1, h2, h3⟩ := h (k, w) (by simp)
    have hm : ReadsMembers c o E ms := by
      have hms : ∀ m ∈ ms, (IsIdent m.1 ∧ ¬ IsKeyword o m.1) ∧ Reads c o E m.2 := fun m hm => h m (by simp [hm])
      clear * - hms
      induction ms with
      | nil => exact .nil
      | cons m ms ih => exact .cons (hms m (by simp)).1 (hms m (by simp)).2 (ih fun m hm => hms m (by simp [hm]))
    obtain ⟨ts', xs, h4, h5, h6, h7⟩ := hm
    refine ⟨_, _, ?_, Derives.prim (.dict (h6 _ _ (.member k h2))), ?_⟩
    · intro d rest us hf ht
      have hsp : ∀ ch ∈ '\n' :: tabs d, isSpace ch := by simp [isSpace]; simpa [isSpace] using tabs_space d
      have hsp' : ∀ ch ∈ '\n' :: tabs (d + 1), isSpace ch := by simp [isSpace]; simpa [isSpace] using tabs_space (d + 1)
      have hf1 : Follow ('\n' :: tabs d ++ '}' :: rest) := ⟨'\n' :: tabs d, _, rfl, hsp, .inr ⟨'}', rest, rfl, by simp⟩⟩
      have g1 := (ht.sym (ch := '}') (y := .closeBrace) (by decide) (by decide) (by decide)).spaces hsp
      have g2 := h1 (d + 1) _ _ (h5 (d + 1) _ hf1) (h4 (d + 1) _ _ hf1 g1)
      have g3 := ((T.key g2 hk).spaces hsp').sym (ch := '{') (y := .openBrace) (by decide) (by decide) (by decide)
      simpa [text] using g3
    · intro s
      simp only [eval, List.cons_append, List.nil_append, evalMembers, h3, h7, Expr.Spec.Res.bind]
      rw [dictOf_nodup hn]

mutual
theorem reads_ok {byName : List Entity.Entry} (hs : Setting c o E byName) (w : Val D O) (h : Ok c E.num o w) : Reads c o E w := by
  match w with
  | .empty => exact reads_kw (n := "empty".toList) (by simp) (fun _ => rfl) .kwEmpty
  | .bool true => exact reads_kw (n := "true".toList) (by simp) (fun _ => rfl) .kwTrue
  | .bool false => exact reads_kw (n := "false".toList) (by simp) (fun _ => rfl) .kwFalse
  | .num x => exact reads_num (by simpa [Ok] using h)
  | .name n => exact reads_name (by simpa [Ok] using h)
  | .str s => exact reads_str hs (by simpa [Ok] using h)
  | .arr vs => exact reads_arr (reads_all hs vs (by simpa [Ok] using h))
  | .dict ms =>
    have : (ms.map (·.1)).Nodup ∧ OkMembers c E.num o ms := by simpa [Ok] using h
    exact reads_dict this.1 (reads_members hs ms this.2)
  | .other _ => simp [Ok] at h
theorem reads_all {byName : List Entity.Entry} (hs : Setting c o E byName) (ws : List (Val D O)) (h : OkAll c E.num o ws) :
    ∀ w ∈ ws, Reads c o E w := by
  match ws with
  | [] => simp
  | w :: ws =>
    have h' : Ok c E.num o w ∧ OkAll c E.num o ws := by simpa [OkAll] using h
    intro w' hw
    rcases List.mem_cons.mp hw with e | hw
    · rw [e]; exact reads_ok hs w h'.1
    · exact reads_all hs ws h'.2 w' hw
theorem reads_members {byName : List Entity.Entry} (hs : Setting c o E byName) (ms : List (Str × Val D O)) (h : OkMembers c E.num o ms) :
    ∀ m ∈ ms, (IsIdent m.1 ∧ ¬ IsKeyword o m.1) ∧ Reads c o E m.2 := by
  match ms with
  | [] => simp
  | (k, w) :: ms =>
    have h' : (IsIdent k ∧ ¬ IsKeyword o k) ∧ Ok c E.num o w ∧ OkMembers c E.num o ms := by simpa [OkMembers] using h
    intro m hm
    rcases List.mem_cons.mp hm with e | hm
    · rw [e]; exact ⟨h'.1, reads_ok hs w h'.2.1⟩
    · exact reads_members hs ms h'.2.2 m hm
end

end Verif.Cel
