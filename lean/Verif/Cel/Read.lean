import Verif.Cel.Layout
import Verif.Lex.Props
/-!
The text of a value is lexed and parsed as an expression whose meaning is the value.
-/
namespace Verif.Cel
open Verif.Expr
open Verif.Cel.Spec
open Verif.Lex (Opts)
open Verif.Lex.Spec (Lexes Lexeme Strings End isSpace isWord isQuote Stops symbols)
open Verif.Expr.Spec (Derives eval evalList evalMembers)

variable {D O S : Type} {c : Cfg D O} {o : Opts D}

/-- The tokens of a text. -/
def T (o : Opts D) (s : Str) (ts : List (Tok D)) : Prop :=
  ∃ items e, Lexes o [] s items (.eof e) ∧ items.map (·.tok) = ts

theorem lexes_shift {seen s : Str} {items : List (Lex.Spec.Item D)} {e : End} (h : Lexes o seen s items e) :
    ∀ seen' f, e = .eof f → ∃ items' f', Lexes o seen' s items' (.eof f') ∧ items'.map (·.tok) = items.map (·.tok) := by
  induction h with
  | eof hw => intro seen' f _; exact ⟨[], _, .eof hw, rfl⟩
  | bad => intro _ f he; cases he
  | @token seen ws x m t rest items e hw hx hb _ ih =>
    intro seen' f he
    obtain ⟨items', f', h1, h2⟩ := ih (seen' ++ ws ++ m) f he
    exact ⟨_, f', .token hw hx hb h1, by simp [h2]⟩
  | @comment seen ws x m t rest items e hw hx hb _ ih =>
    intro seen' f he
    obtain ⟨items', f', h1, h2⟩ := ih (seen' ++ ws ++ m) f he
    exact ⟨_, f', .comment hw hx hb h1, h2⟩

theorem T.nil : T o [] [] := ⟨[], _, .eof (by simp), rfl⟩

theorem T.token {x m rest : Str} {t : Tok D} {ts : List (Tok D)} (h : T o rest ts) (hx : Lexeme o x m t rest)
    (hc : Lex.Spec.isComment t = false) : T o (x ++ rest) (t :: ts) := by
  obtain ⟨items, e, h1, rfl⟩ := h
  obtain ⟨items', e', h2, h3⟩ := lexes_shift h1 ([] ++ [] ++ m) e rfl
  exact ⟨_, e', .token (ws := []) (by simp) hx (by simp [hc]) h2, by simp [h3]⟩

theorem T.space {s : Str} {ts : List (Tok D)} {ch : Char} (h : T o s ts) (hc : isSpace ch) : T o (ch :: s) ts := by
  obtain ⟨items, e, h1, rfl⟩ := h
  cases h1 with
  | eof hw => exact ⟨[], _, .eof (ws := ch :: s) (by simp [hc]; exact hw), rfl⟩
  | @token _ ws x m t rest items e hw hx hb hl =>
    obtain ⟨items', e', h2, h3⟩ := lexes_shift hl ([] ++ (ch :: ws) ++ m) e rfl
    exact ⟨_, e', .token (ws := ch :: ws) (by simp [hc]; exact hw) hx hb h2, by simp [h3]⟩
  | @comment _ ws x m t rest items e hw hx hb hl =>
    obtain ⟨items', e', h2, h3⟩ := lexes_shift hl ([] ++ (ch :: ws) ++ m) e rfl
    exact ⟨_, e', .comment (ws := ch :: ws) (by simp [hc]; exact hw) hx hb h2, h3⟩

theorem T.unspace {s : Str} {ts : List (Tok D)} {ch : Char} (h : T o (ch :: s) ts) (hc : isSpace ch) : T o s ts := by
  obtain ⟨items, e, h1, rfl⟩ := h
  generalize hs : ch :: s = s' at h1
  cases h1 with
  | eof hw =>
    subst hs
    exact ⟨[], _, .eof (fun d hd => hw d (by simp [hd])), rfl⟩
  | @token _ ws x m t rest items e hw hx hb hl =>
    cases ws with
    | nil =>
      obtain ⟨c', x', rfl, h0, _⟩ := Lex.parseToken_complete o hx ⟨0, 0, 0⟩
      simp at hs
      exact absurd (hs.1 ▸ hc) h0
    | cons w ws =>
      simp at hs
      obtain ⟨items', e', h2, h3⟩ := lexes_shift hl ([] ++ ws ++ m) e rfl
      refine ⟨⟨t, [] ++ ws⟩ :: items', e', ?_, by simp only [List.map_cons, h3]⟩
      rw [hs.2, ← List.append_assoc]
      exact .token (fun d hd => hw d (by simp [hd])) hx hb h2
  | @comment _ ws x m t rest items e hw hx hb hl =>
    cases ws with
    | nil =>
      obtain ⟨c', x', rfl, h0, _⟩ := Lex.parseToken_complete o hx ⟨0, 0, 0⟩
      simp at hs
      exact absurd (hs.1 ▸ hc) h0
    | cons w ws =>
      simp at hs
      obtain ⟨items', e', h2, h3⟩ := lexes_shift hl ([] ++ ws ++ m) e rfl
      refine ⟨_, e', ?_, h3⟩
      rw [hs.2, ← List.append_assoc]
      exact .comment (fun d hd => hw d (by simp [hd])) hx hb h2

theorem T.spaces {s ws : Str} {ts : List (Tok D)} (h : T o s ts) (hw : ∀ d ∈ ws, isSpace d) : T o (ws ++ s) ts := by
  induction ws with
  | nil => exact h
  | cons w ws ih => exact (ih fun d hd => hw d (by simp [hd])).space (hw w (by simp))

theorem T.unspaces {s ws : Str} {ts : List (Tok D)} (h : T o (ws ++ s) ts) (hw : ∀ d ∈ ws, isSpace d) : T o s ts := by
  induction ws with
  | nil => exact h
  | cons w ws ih => exact ih (T.unspace h (hw w (by simp))) fun d hd => hw d (by simp [hd])

/-- Symbols that no longer symbol begins with. -/
theorem T.sym {s : Str} {ts : List (Tok D)} {ch : Char} {y : Sym} (h : T o s ts) (hm : ([ch], y) ∈ symbols)
    (hn : ∀ p ∈ symbols, p.1.head? = some ch → p.1 = [ch]) (hc : ch ≠ '/') : T o (ch :: s) (.sym y :: ts) := by
  have hx : Lexeme o [ch] [ch] (.sym y) s := by
    refine .symbol hm ?_ ?_
    · intro x' y' hxy hp
      obtain ⟨k, hk⟩ := hp
      cases x' with
      | nil => simp
      | cons a as =>
        simp at hk
        have := hn _ hxy (by simp [hk.1])
        simp only at this
        rw [this]
    · rintro (⟨k, hk⟩ | ⟨k, hk⟩)
      · simp at hk; exact hc hk.1.symm
      · simp at hk; exact hc hk.1.symm
  exact h.token hx rfl

theorem T.minus {s : Str} {ts : List (Tok D)} {ch : Char} (h : T o (ch :: s) ts) (hc : ch ≠ '>') :
    T o ('-' :: ch :: s) (.sym .subtract :: ts) := by
  have hx : Lexeme o ['-'] ['-'] (.sym .subtract) (ch :: s) := by
    refine .symbol (by decide) ?_ (by simp)
    intro x' y' hxy hp
    have key : ∀ p ∈ symbols, p.1.head? = some '-' → p.1 = ['-'] ∨ p.1 = ['-', '>'] := by decide
    obtain ⟨k, hk⟩ := hp
    cases x' with
    | nil => simp
    | cons a as =>
      have ha : a = '-' := by simp at hk; exact hk.1
      rcases key _ hxy (by simp [ha]) with h1 | h1
      · simp only at h1; simp [h1]
      · simp only at h1
        rw [h1] at hk
        simp at hk
        exact absurd hk.1.symm hc
  exact h.token hx rfl

/-- What comes after a value. -/
def Follow (rest : Str) : Prop :=
  ∃ ws r, rest = ws ++ r ∧ (∀ d ∈ ws, isSpace d) ∧ (r = [] ∨ ∃ ch r', r = ch :: r' ∧ ch ∈ [',', ']', '}', ')'])

theorem Follow.stops {rest : Str} (h : Follow rest) {p : Char → Prop}
    (hp : ∀ ch ∈ [' ', '\t', '\n', '\x0b', '\x0c', '\r', ',', ']', '}', ')'], ¬ p ch) : Stops p rest := by
  obtain ⟨ws, r, rfl, hw, hr⟩ := h
  intro d hd
  cases ws with
  | nil =>
    rcases hr with rfl | ⟨ch, r', rfl, hch⟩
    · simp at hd
    · simp at hd; subst hd
      apply hp
      simp at hch ⊢
      tauto
  | cons w ws =>
    simp at hd; subst hd
    apply hp
    have := hw w (by simp)
    simp [isSpace] at this
    simp; tauto

theorem Follow.comma (r : Str) : Follow (',' :: r) := ⟨[], _, rfl, by simp, .inr ⟨',', r, rfl, by simp⟩⟩

theorem Follow.nil : Follow [] := ⟨[], [], rfl, by simp, .inl rfl⟩

theorem Follow.spaces {ws r : Str} (h : Follow r) (hw : ∀ d ∈ ws, isSpace d) : Follow (ws ++ r) := by
  obtain ⟨ws', r', rfl, h1, h2⟩ := h
  exact ⟨ws ++ ws', r', by simp, by simp; rintro d (hd | hd); exacts [hw d hd, h1 d hd], h2⟩

theorem T.str {s rest : Str} {ts : List (Tok D)} (h : T o rest ts) (hf : Follow rest) (hq : '"' ∉ s) (h0 : '\x00' ∉ s) :
    T o ('"' :: (s ++ '"' :: rest)) (.str s :: ts) := by
  obtain ⟨ws, r, rfl, hw, hr⟩ := hf
  have hst : Stops (fun ch => isSpace ch ∨ isQuote ch) r := by
    intro d hd
    rcases hr with rfl | ⟨ch, r', rfl, hch⟩
    · simp at hd
    · simp at hd hch; subst hd
      rcases hch with rfl | rfl | rfl | rfl <;> simp [isSpace, isQuote]
  have hb : Lex.Spec.beforeNul s = s := by
    unfold Lex.Spec.beforeNul
    clear * - h0
    induction s with
    | nil => rfl
    | cons d s ih =>
      have : d ≠ '\x00' := fun e => h0 (by simp [e])
      rw [List.takeWhile_cons, if_pos (by simpa using this), ih fun h => h0 (by simp [h])]
  have hx : Lexeme o _ _ (.str (Lex.Spec.beforeNul s)) r := .string (.last (q := '"') (body := s) (ws := ws) (.inr rfl) hq hw hst)
  have := (h.unspaces hw).token hx rfl
  rw [hb] at this
  simpa using this

theorem T.word {n rest : Str} {ts : List (Tok D)} (h : T o rest ts) (hs : Stops isWord rest) (hn : IsIdent n) :
    (¬ IsKeyword o n → T o (n ++ rest) (.ident n :: ts)) ∧ (IsKeyword o n → T o (n ++ rest) (.kw n :: ts)) := by
  obtain ⟨ch, x, rfl, h1, h2⟩ := hn
  refine ⟨fun hk => ?_, fun hk => ?_⟩
  · have : Lexeme o (ch :: x) (ch :: x) (.ident (ch :: x)) rest := .ident h1 h2 hs ⟨fun e => hk (.inl e), by
      cases hb : o.keyword (ch :: x) with
      | true => exact absurd (.inr hb) hk
      | false => rfl⟩
    exact h.token this rfl
  · exact h.token (Lexeme.keyword h1 h2 hs hk) rfl

theorem T.dec {s rest : Str} {ts : List (Tok D)} (h : T o rest ts) (hf : Follow rest) (hd : IsDecimal s) :
    T o (s ++ rest) (.num (o.decimal s) :: ts) := by
  obtain ⟨ch, x, rfl, h1, h2⟩ := hd
  refine h.token (.dec h1 h2 (hf.stops (by decide)) ?_) rfl
  rintro ⟨y, d, s, -, rfl, hy, -⟩
  have := hf.stops (p := fun ch => ch = 'x' ∨ ch = 'X') (by decide)
  exact this y (by simp) hy

end Verif.Cel
