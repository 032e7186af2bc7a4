import Verif.Lex.Lemmas
import Mathlib.Data.List.Infix
import Mathlib.Tactic.Ring
/-
Comments, strings and punctuation; then `parse_token` against the lexical grammar.
-/
namespace Verif.Lex
open Verif.Expr Spec

variable {D α β : Type}

/-! ### Comments -/

theorem lineCommentLoop_run (n : Nat) (buf body e rest : Str) (p : Pos) (h : (body ++ e ++ rest).length < n)
    (hb : ∀ c ∈ body, ¬ isLineEndChar c) (he : LineEnd e rest) :
    lineCommentLoop n buf (St (body ++ e ++ rest) p) = .ok (buf ++ body) (St rest (advance p (body ++ e))) := by
  induction n generalizing body p buf with
  | zero => omega
  | succ n ih =>
      rw [lineCommentLoop]
      cases body with
      | cons c body =>
          simp only [List.cons_append, List.length_cons] at h
          simp only [bind_run, List.cons_append, getChar_cons, isLineEnd_other (hb c (by simp)), Bool.false_eq_true, if_false]
          rw [ih _ _ _ (by simpa using h) (fun c hc => hb c (by simp [hc])), advance_other _ _ _ (hb c (by simp))]
          simp
      | nil =>
          rcases he with rfl | rfl | ⟨rfl, h1⟩ | ⟨rfl, rfl⟩
          · simp [bind_run, getChar_cons, isLineEnd_lf, pure_run]
          · simp [bind_run, getChar_cons, isLineEnd_crlf, pure_run]
          · simp [bind_run, getChar_cons, isLineEnd_cr _ _ h1, pure_run]
          · simp [bind_run, getChar_nil, pure_run, advance]

theorem lineEnd_exists (s : Str) : ∃ body e rest, s = body ++ e ++ rest ∧ (∀ c ∈ body, ¬ isLineEndChar c) ∧ LineEnd e rest := by
  induction s with
  | nil => exact ⟨[], [], [], rfl, by simp, .inr (.inr (.inr ⟨rfl, rfl⟩))⟩
  | cons c s ih =>
      by_cases hc : isLineEndChar c
      · rcases hc with rfl | rfl
        · exact ⟨[], ['\n'], s, rfl, by simp, .inl rfl⟩
        · by_cases h : s.head? = some '\n'
          · obtain ⟨s', rfl⟩ : ∃ s', s = '\n' :: s' := by
              cases s with
              | nil => simp at h
              | cons d s => exact ⟨s, by simp at h; rw [h]⟩
            exact ⟨[], ['\r', '\n'], s', rfl, by simp, .inr (.inl rfl)⟩
          · exact ⟨[], ['\r'], s, rfl, by simp, .inr (.inr (.inl ⟨rfl, h⟩))⟩
      · obtain ⟨b, e, r, rfl, hb, he⟩ := ih
        exact ⟨c :: b, e, r, rfl, by simpa using ⟨hc, hb⟩, he⟩

theorem infix_cons_star {c : Char} {s : Str} :
    ['*', '/'] <:+: c :: s ↔ (c = '*' ∧ s.head? = some '/') ∨ ['*', '/'] <:+: s := by
  rw [List.infix_cons_iff]
  apply or_congr_left
  cases s with
  | nil => simp
  | cons d s => simp [List.cons_prefix_cons, eq_comm]

theorem normalise_other {c : Char} (h : ¬ isLineEndChar c) (s : Str) : normalise (c :: s) = c :: normalise s := by
  simp only [isLineEndChar, not_or] at h
  rw [normalise]
  all_goals grind

theorem normalise_lf (s : Str) : normalise ('\n' :: s) = '\n' :: normalise s := by
  rw [normalise] <;> simp

theorem normalise_crlf (s : Str) : normalise ('\r' :: '\n' :: s) = '\n' :: normalise s := by
  rw [normalise]

theorem normalise_cr (s : Str) (h : s.head? ≠ some '\n') : normalise ('\r' :: s) = '\n' :: normalise s := by
  cases s with
  | nil => rfl
  | cons d s =>
      rw [normalise]
      intro s' e; simp at e; simp [e.1] at h

theorem blockCommentLoop_run (n : Nat) (buf body rest : Str) (p : Pos) (h : (body ++ '*' :: '/' :: rest).length < n)
    (hb : ¬ ['*', '/'] <:+: body ++ ['*']) :
    blockCommentLoop n buf (St (body ++ '*' :: '/' :: rest) p) =
      .ok (buf ++ normalise body) (St rest (advance p (body ++ ['*', '/']))) := by
  induction n generalizing body p buf with
  | zero => omega
  | succ n ih =>
      rw [blockCommentLoop]
      cases body with
      | nil =>
          simp only [List.nil_append, bind_run, getChar_cons, if_true, peekChar_St, List.head?_cons, ignoreChar_cons, pure_run,
            normalise, List.append_nil, move_move]
          rw [advance_plain p ['*', '/'] (by simp [isLineEndChar])]
          rfl
      | cons c body =>
          simp only [List.cons_append, List.length_cons] at h
          rw [List.cons_append, infix_cons_star, not_or] at hb
          simp only [bind_run, List.cons_append, getChar_cons]
          by_cases hc : c = '*'
          · subst hc
            have h1 : (body ++ '*' :: '/' :: rest).head? ≠ some '/' := by
              intro e; apply hb.1
              cases body <;> simp_all
            simp only [if_true, bind_run, peekChar_St, h1, if_false]
            rw [ih _ _ _ (by simpa using h) hb.2, normalise_other (by simp [isLineEndChar]),
              advance_other _ _ _ (by simp [isLineEndChar])]
            simp
          · simp only [hc, if_false, bind_run]
            by_cases hl : isLineEndChar c
            · rcases hl with rfl | rfl
              · rw [isLineEnd_lf]
                simp only [if_true]
                rw [ih _ _ _ (by simpa using h) hb.2, normalise_lf, advance_lf]
                simp [advance]
              · cases body with
                | nil =>
                    rw [isLineEnd_cr _ _ (by simp)]
                    simp only [if_true]
                    rw [ih _ _ _ (by simpa using h) hb.2]
                    simp [normalise, advance]
                | cons d body =>
                    by_cases hd : d = '\n'
                    · subst hd
                      rw [List.cons_append, isLineEnd_crlf]
                      rw [List.cons_append, infix_cons_star, not_or] at hb
                      simp only [if_true]
                      simp only [List.cons_append, List.length_cons] at h
                      rw [ih _ _ _ (by omega) hb.2.2, normalise_crlf, List.cons_append, advance_crlf]
                      simp [advance]
                    · rw [isLineEnd_cr _ _ (by simpa using hd)]
                      simp only [if_true]
                      rw [ih _ _ _ (by simpa using h) hb.2, normalise_cr _ (by simpa using hd), List.cons_append,
                        advance_cr p (d :: (body ++ ['*', '/'])) (by simpa using hd)]
                      simp [advance]
            · rw [isLineEnd_other hl]
              simp only [Bool.false_eq_true, if_false]
              rw [ih _ _ _ (by simpa using h) hb.2, normalise_other hl, advance_other _ _ _ hl]
              simp

theorem blockCommentLoop_throw (n : Nat) (buf s : Str) (p : Pos) (h : s.length < n) (hs : ¬ ['*', '/'] <:+: s) :
    blockCommentLoop n buf (St s p) = .throw := by
  induction n generalizing s p buf with
  | zero => omega
  | succ n ih =>
      rw [blockCommentLoop]
      cases s with
      | nil => rfl
      | cons c s =>
          simp only [List.length_cons] at h
          rw [infix_cons_star, not_or] at hs
          simp only [bind_run, getChar_cons]
          by_cases hc : c = '*'
          · have h1 : s.head? ≠ some '/' := fun e => hs.1 ⟨hc, e⟩
            simp only [hc, if_true, bind_run, peekChar_St, h1, if_false]
            exact ih _ _ _ (by omega) hs.2
          · simp only [hc, if_false, bind_run]
            by_cases hl : isLineEndChar c
            · rcases hl with rfl | rfl
              · rw [isLineEnd_lf]
                exact ih _ _ _ (by omega) hs.2
              · cases s with
                | nil =>
                    rw [isLineEnd_cr _ _ (by simp)]
                    exact ih _ _ _ (by omega) hs.2
                | cons d s =>
                    by_cases hd : d = '\n'
                    · subst hd
                      rw [isLineEnd_crlf]
                      rw [infix_cons_star, not_or] at hs
                      simp only [List.length_cons] at h
                      exact ih _ _ _ (by omega) hs.2.2
                    · rw [isLineEnd_cr _ _ (by simpa using hd)]
                      exact ih _ _ _ (by omega) hs.2
            · rw [isLineEnd_other hl]
              exact ih _ _ _ (by omega) hs.2

theorem blockEnd_exists (s : Str) (h : ['*', '/'] <:+: s) :
    ∃ body rest, s = body ++ '*' :: '/' :: rest ∧ ¬ ['*', '/'] <:+: body ++ ['*'] := by
  induction s with
  | nil => simp at h
  | cons c s ih =>
      by_cases hc : c = '*' ∧ s.head? = some '/'
      · obtain ⟨rfl, h2⟩ := hc
        cases s with
        | nil => simp at h2
        | cons d s =>
            simp only [List.head?_cons, Option.some.injEq] at h2
            subst h2
            refine ⟨[], s, rfl, ?_⟩
            rw [List.nil_append, infix_cons_star]
            simp
      · rw [infix_cons_star] at h
        obtain ⟨b, r, rfl, hb⟩ := ih (h.resolve_left hc)
        refine ⟨c :: b, r, rfl, ?_⟩
        rw [List.cons_append, infix_cons_star, not_or]
        refine ⟨?_, hb⟩
        rintro ⟨rfl, e⟩
        apply hc
        refine ⟨rfl, ?_⟩
        cases b <;> simp_all

/-! ### Strings -/

theorem quotedLoop_run (q c : Char) (n : Nat) (buf body s : Str) (p : Pos) (h : (body ++ q :: s).length < n) (hb : q ∉ body) :
    quotedLoop q n c buf (St (body ++ q :: s) p) = .ok (q, buf ++ body) (St s (p.move (body.length + 1))) := by
  induction n generalizing body p buf c with
  | zero => omega
  | succ n ih =>
      rw [quotedLoop]
      cases body with
      | nil => simp [bind_run, getChar_cons, pure_run]
      | cons d body =>
          simp only [List.mem_cons, not_or] at hb
          simp only [List.cons_append, List.length_cons] at h
          simp only [List.cons_append, bind_run, getChar_cons, Ne.symm hb.1, if_false]
          rw [ih _ _ _ _ (by omega) hb.2, move_move]
          simp only [List.append_assoc, List.singleton_append, List.length_cons]
          congr 2; congr 1; omega

theorem quotedLoop_end (q c : Char) (n : Nat) (buf s : Str) (p : Pos) (h : s.length < n) (hb : q ∉ s) :
    quotedLoop q n c buf (St s p) = .ok ((c :: s).getLast (by simp), buf ++ s) (St [] (p.move s.length)) := by
  induction n generalizing s p buf c with
  | zero => omega
  | succ n ih =>
      rw [quotedLoop]
      cases s with
      | nil => simp [bind_run, getChar_nil, pure_run, move_zero]
      | cons d s =>
          simp only [List.mem_cons, not_or] at hb
          simp only [List.length_cons] at h
          simp only [bind_run, getChar_cons, Ne.symm hb.1, if_false]
          rw [ih _ _ _ _ (by omega) hb.2, move_move]
          simp only [List.append_assoc, List.singleton_append, List.length_cons, List.getLast_cons_cons]
          congr 2; congr 1; omega

theorem takeWhile_space {ws rest : Str} (hw : ∀ c ∈ ws, isSpace c) (hr : Stops isSpace rest) :
    (ws ++ rest).takeWhile isspace = ws ∧ (ws ++ rest).dropWhile isspace = rest := by
  induction ws with
  | nil =>
      cases rest with
      | nil => simp
      | cons c r =>
          have : ¬ isspace c = true := by rw [isspace_iff]; exact hr c (by simp)
          exact ⟨List.takeWhile_cons_of_neg this, List.dropWhile_cons_of_neg this⟩
  | cons c ws ih =>
      have hc : isspace c = true := by rw [isspace_iff]; exact hw c (by simp)
      obtain ⟨h1, h2⟩ := ih (fun c hc => hw c (by simp [hc]))
      rw [List.cons_append, List.takeWhile_cons_of_pos hc, List.dropWhile_cons_of_pos hc]
      exact ⟨by rw [h1], h2⟩

theorem quote_not_space {q : Char} (h : isQuote q) : ¬ isSpace q := by
  rcases h with rfl | rfl <;> simp [isSpace]

theorem quote_not_lineEnd {q : Char} (h : isQuote q) : ¬ isLineEndChar q := by
  rcases h with rfl | rfl <;> simp [isLineEndChar]

theorem strings_head {x m v rest : Str} (h : Strings x m v rest) : ∃ q x', x = q :: x' ∧ isQuote q := by
  cases h with
  | last hq => exact ⟨_, _, rfl, hq⟩
  | more hq => exact ⟨_, _, rfl, hq⟩
  | lone hq => exact ⟨_, _, rfl, hq⟩

theorem hide_cons_quote {q : Char} (h : isQuote q) (s : Str) : hide (q :: s) = q :: hide s := by
  simp [hide, quote_not_lineEnd h]

theorem strings_head_m {x m v rest : Str} (h : Strings x m v rest) : ∃ q m', m = q :: m' ∧ isQuote q := by
  cases h with
  | last hq => exact ⟨_, _, by rw [List.cons_append, hide_cons_quote hq]; rfl, hq⟩
  | more hq => exact ⟨_, _, by rw [List.cons_append, hide_cons_quote hq]; rfl, hq⟩
  | lone hq => exact ⟨_, _, rfl, hq⟩

theorem advance_quoted (q : Char) (body m : Str) (p : Pos) :
    advance p (hide (q :: body ++ [q]) ++ m) = advance (p.move (body.length + 2)) m := by
  rw [advance_append _ _ _ (joins_of_left (hide_plain _)), advance_hide]
  congr 2
  simp; omega

theorem stringLoop_run {x m v rest : Str} (h : Strings x m v rest) (n : Nat) (q : Char) (x' buf : Str) (p : Pos)
    (hx : x = q :: x') (hn : (x' ++ rest).length < n) :
    ∃ l, stringLoop n q buf (St (x' ++ rest) (p.move 1)) = .ok (buf ++ v) l ∧ At l rest (advance p m) := by
  induction h generalizing n q x' buf p with
  | @last q' body ws rest hq hb hw hr =>
      simp only [List.cons_append, List.cons.injEq] at hx
      obtain ⟨rfl, rfl⟩ := hx
      obtain ⟨n, rfl⟩ : ∃ k, n = k + 1 := ⟨n - 1, by omega⟩
      rw [stringLoop]
      have e : body ++ q' :: ws ++ rest = body ++ q' :: (ws ++ rest) := by simp
      simp only [bind_run, fuel_run, e]
      rw [quotedLoop_run _ _ _ _ _ _ _ (by simp) hb]
      simp only [ne_eq, not_true_eq_false, if_false, bind_run]
      have hr' : Stops isSpace rest := fun c hc h => hr c hc (Or.inl h)
      obtain ⟨h1, h2⟩ := takeWhile_space hw hr'
      rw [skipWhiteSpace_run (Or.inl rfl), h1, h2, move_move, advance_quoted]
      simp only [getChar_after]
      have e2 : (1 : Int) + (body.length + 1) = body.length + 2 := by omega
      rw [e2]
      cases rest with
      | nil => exact ⟨_, rfl, Or.inl rfl⟩
      | cons c r =>
          have hc : c ≠ '\'' ∧ c ≠ '"' := by
            have := hr c (by simp)
            simp only [isQuote, not_or] at this
            exact this.2
          simp only [getChar_cons]
          simp only [hc, ne_eq, not_false_eq_true, and_self, if_true, bind_run, putbackChar_St, pure_run]
          exact ⟨_, rfl, Or.inr rfl⟩
  | @more q' body ws x m v rest hq hb hw hs ih =>
      simp only [List.cons_append, List.cons.injEq] at hx
      obtain ⟨rfl, rfl⟩ := hx
      obtain ⟨n, rfl⟩ : ∃ k, n = k + 1 := ⟨n - 1, by omega⟩
      obtain ⟨c, y, rfl, hc⟩ := strings_head hs
      rw [stringLoop]
      have e : body ++ q' :: ws ++ c :: y ++ rest = body ++ q' :: (ws ++ c :: (y ++ rest)) := by simp
      simp only [bind_run, fuel_run, e]
      rw [quotedLoop_run _ _ _ _ _ _ _ (by simp) hb]
      simp only [ne_eq, not_true_eq_false, if_false, bind_run]
      have hr' : Stops isSpace (c :: (y ++ rest)) := by
        intro d hd; simp at hd; subst hd; exact quote_not_space hc
      obtain ⟨h1, h2⟩ := takeWhile_space hw hr'
      rw [skipWhiteSpace_run (Or.inl rfl), h1, h2, move_move, List.append_assoc, advance_quoted]
      simp only [getChar_after, getChar_cons]
      have e2 : (1 : Int) + (body.length + 1) = body.length + 2 := by omega
      rw [e2]
      have hc' : ¬ (¬ c = '\'' ∧ ¬ c = '"') := by
        rcases hc with rfl | rfl <;> simp
      simp only [hc', if_false]
      obtain ⟨l, hl, ha⟩ := ih n c y (buf ++ body) (advance (p.move (body.length + 2)) ws) rfl (by
        simp at hn ⊢; omega)
      refine ⟨l, by rw [hl]; simp, ?_⟩
      rw [advance_append]
      · exact ha
      · obtain ⟨q2, m', rfl, hq2⟩ := strings_head_m hs
        apply joins_of_right
        intro d hd; simp at hd; subst hd
        rcases hq2 with rfl | rfl <;> simp
  | @lone q' hq =>
      simp only [List.cons.injEq] at hx
      obtain ⟨rfl, rfl⟩ := hx
      obtain ⟨n, rfl⟩ : ∃ k, n = k + 1 := ⟨n - 1, by omega⟩
      rw [stringLoop]
      simp only [List.append_nil, bind_run, fuel_run]
      have e := quotedLoop_end q' q' 1 buf [] (p.move 1) (by simp) (by simp)
      simp only [List.getLast_singleton, List.append_nil, List.length_nil] at e
      simp only [List.length_nil, Nat.zero_add, Nat.add_zero, e]
      simp only [ne_eq, not_true_eq_false, if_false, bind_run]
      rw [skipWhiteSpace_run (Or.inl rfl)]
      refine ⟨_, rfl, Or.inl ?_⟩
      have := advance_other p q' [] (quote_not_lineEnd hq)
      simp only [advance] at this
      simp [after, advance, this, St, move_move]

theorem span_space (s : Str) : ∃ ws rest, s = ws ++ rest ∧ (∀ c ∈ ws, isSpace c) ∧ Stops isSpace rest := by
  refine ⟨s.takeWhile isspace, s.dropWhile isspace, (List.takeWhile_append_dropWhile).symm, ?_, ?_⟩
  · intro c hc
    rw [← isspace_iff]
    exact List.all_eq_true.1 List.all_takeWhile c hc
  · intro c hc
    rw [← isspace_iff]
    have := List.head?_dropWhile_not (p := isspace) s
    rw [Option.mem_def] at hc
    rw [hc] at this
    simpa using this

theorem stringLoop_total (n : Nat) (q : Char) (buf s : Str) (p : Pos) (hq : isQuote q) (hn : s.length < n) :
    (∃ x m v rest, q :: s = x ++ rest ∧ Strings x m v rest) ∨ stringLoop n q buf (St s (p.move 1)) = .throw := by
  induction n generalizing q buf s p with
  | zero => omega
  | succ n ih =>
      by_cases hm : q ∈ s
      · obtain ⟨body, s', rfl, hb⟩ := List.eq_append_cons_of_mem hm
        obtain ⟨ws, rest, rfl, hw, hr⟩ := span_space s'
        cases rest with
        | nil =>
            left
            exact ⟨_, _, _, [], by simp, Strings.last hq hb hw (by simp [Stops])⟩
        | cons c r =>
            by_cases hc : isQuote c
            · rcases ih c (buf ++ body) r (advance (p.move (body.length + 2)) ws) hc (by simp at hn; omega) with h | h
              · obtain ⟨x, m, v, rest, e, hs⟩ := h
                left
                refine ⟨_, _, _, rest, ?_, Strings.more hq hb hw hs⟩
                simp [e]
              · right
                rw [stringLoop]
                simp only [bind_run, fuel_run]
                rw [quotedLoop_run _ _ _ _ _ _ _ (by simp) hb]
                simp only [ne_eq, not_true_eq_false, if_false, bind_run]
                obtain ⟨h1, h2⟩ := takeWhile_space hw hr
                rw [skipWhiteSpace_run (Or.inl rfl), h1, h2, move_move]
                simp only [getChar_after, getChar_cons]
                have e2 : (1 : Int) + (body.length + 1) = body.length + 2 := by omega
                have hc' : ¬ (¬ c = '\'' ∧ ¬ c = '"') := by
                  rcases hc with rfl | rfl <;> simp
                simp only [hc', if_false, e2]
                exact h
            · left
              refine ⟨_, _, _, c :: r, ?_, Strings.last hq hb hw (rest := c :: r) ?_⟩
              · simp
              · intro d hd
                simp at hd; subst hd
                rw [not_or]
                exact ⟨hr c (by simp), hc⟩
      · cases s with
        | nil => left; exact ⟨_, _, _, _, rfl, Strings.lone hq⟩
        | cons c s =>
            right
            rw [stringLoop]
            simp only [bind_run, fuel_run]
            rw [quotedLoop_end _ _ _ _ _ _ (by simp) hm]
            have : ((q :: c :: s).getLast (by simp)) ≠ q := by
              rw [List.getLast_cons_cons]
              intro e
              exact hm (e ▸ List.getLast_mem (by simp))
            simp only [ne_eq, this, not_false_eq_true, if_true]
            rfl

end Verif.Lex
