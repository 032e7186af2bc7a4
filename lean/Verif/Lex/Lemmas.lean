import Verif.Lex.Spec
import Mathlib.Tactic.Common
/-
The functions of the lexical analyser compute the pieces of the lexical grammar.
-/
namespace Verif.Lex
open Verif.Expr Spec

variable {D α β : Type}

theorem pure_run (a : α) (l : L) : (pure a : M α) l = .ok a l := rfl
theorem bind_run (x : M α) (f : α → M β) (l : L) : (x >>= f) l = match x l with
  | .ok a l => f a l
  | .throw => .throw
  | .ub => .ub
  | .stuck => .stuck := rfl

/-- Nothing put back. -/
abbrev St (s : Str) (p : Pos) : L := ⟨[], s, p⟩

/-- The first character, if any, has been put back. -/
def after : Str → Pos → L
  | [], p => ⟨[], [], p⟩
  | c :: s, p => ⟨[c], s, p⟩

theorem move_move (p : Pos) (a b : Int) : (p.move a).move b = p.move (a + b) := by
  simp [Pos.move, Int.add_assoc]
theorem move_zero (p : Pos) : p.move 0 = p := by simp [Pos.move]

/-! ### Characters -/

theorem isdigit_iff (c : Char) : isdigit c = c.isDigit := by
  rfl

theorem isalpha_iff (c : Char) : isalpha c = c.isAlpha := by
  have h1 : c.isUpper = (65 ≤ c.toNat && c.toNat ≤ 90) := by
    rw [Char.isUpper, Bool.eq_iff_iff]; simp only [Bool.and_eq_true, decide_eq_true_eq]; exact Iff.rfl
  have h2 : c.isLower = (97 ≤ c.toNat && c.toNat ≤ 122) := by
    rw [Char.isLower, Bool.eq_iff_iff]; simp only [Bool.and_eq_true, decide_eq_true_eq]; exact Iff.rfl
  rw [isalpha, Char.isAlpha, h1, h2]

theorem isalnum_iff (c : Char) : isalnum c = (c.isAlpha || c.isDigit) := by
  rw [isalnum, isalpha_iff, isdigit_iff]

theorem char_le (a b : Char) : a ≤ b ↔ a.toNat ≤ b.toNat := by
  rw [Char.le_def, UInt32.le_iff_toNat_le]; rfl

theorem char_eq (a b : Char) : a = b ↔ a.toNat = b.toNat := by
  rw [Char.ext_iff, ← UInt32.toNat_inj]; rfl

theorem isxdigit_iff (c : Char) : isxdigit c = true ↔ isHex c := by
  simp only [isxdigit, isHex, isdigit_iff, char_le, Bool.or_eq_true, Bool.and_eq_true, decide_eq_true_eq]
  have e1 : 'a'.toNat = 97 := rfl
  have e2 : 'f'.toNat = 102 := rfl
  have e3 : 'A'.toNat = 65 := rfl
  have e4 : 'F'.toNat = 70 := rfl
  rw [e1, e2, e3, e4]
  tauto

theorem isspace_iff (c : Char) : isspace c = true ↔ isSpace c := by
  simp only [isspace, isSpace, List.mem_cons, List.not_mem_nil, or_false, char_eq, Bool.or_eq_true, Bool.and_eq_true,
    decide_eq_true_eq, beq_iff_eq]
  have e1 : ' '.toNat = 32 := rfl
  have e2 : '\t'.toNat = 9 := rfl
  have e3 : '\n'.toNat = 10 := rfl
  have e4 : '\x0b'.toNat = 11 := rfl
  have e5 : '\x0c'.toNat = 12 := rfl
  have e6 : '\r'.toNat = 13 := rfl
  rw [e1, e2, e3, e4, e5, e6]
  omega

theorem hexDigit_eq {c : Char} (h : isHex c) : hexDigit c = hexValue c := by
  have h' := (isxdigit_iff c).2 h
  simp only [hexDigit, hexValue, ← isdigit_iff, isxdigit, isdigit, Char.isLower, Bool.or_eq_true, Bool.and_eq_true,
    decide_eq_true_eq] at *
  have e0 : '0'.toNat = 48 := rfl
  have e1 : 'a'.toNat = 97 := rfl
  have e3 : 'A'.toNat = 65 := rfl
  have e4 : (c.val ≥ 97 ∧ c.val ≤ 122) ↔ (97 ≤ c.toNat ∧ c.toNat ≤ 122) := by
    exact Iff.rfl
  rw [e0, e1, e3]
  split_ifs <;> grind

/-! ### Positions -/

theorem advance_lf (p : Pos) (s : Str) : advance p ('\n' :: s) = advance ⟨p.line + 1, p.pos + 1, p.pos + 1⟩ s := by
  rw [advance]
theorem advance_crlf (p : Pos) (s : Str) :
    advance p ('\r' :: '\n' :: s) = advance ⟨p.line + 1, p.pos + 2, p.pos + 2⟩ s := by rw [advance]
theorem advance_cr (p : Pos) (s : Str) (h : s.head? ≠ some '\n') :
    advance p ('\r' :: s) = advance ⟨p.line + 1, p.pos + 1, p.pos + 1⟩ s := by
  cases s with
  | nil => rfl
  | cons c s => rw [advance]; intro s' e; simp at e; simp [e.1] at h
theorem advance_other (p : Pos) (c : Char) (s : Str) (h : ¬ isLineEndChar c) :
    advance p (c :: s) = advance (p.move 1) s := by
  simp only [isLineEndChar, not_or] at h
  rw [advance]
  · rfl
  all_goals grind

/-- `a` does not end in the middle of "\r\n". -/
def Joins (a b : Str) : Prop := a.getLast? = some '\r' → b.head? ≠ some '\n'

theorem advance_append (p : Pos) (a b : Str) (h : Joins a b) : advance p (a ++ b) = advance (advance p a) b := by
  fun_induction advance p a with
  | case1 p => rfl
  | case2 p s ih =>
      rw [List.cons_append, List.cons_append, advance_crlf]
      apply ih
      intro e; apply h
      cases s with
      | nil => simp at e
      | cons c s => simpa [List.getLast?_cons_cons] using e
  | case3 p s hs ih =>
      have hh : s.head? ≠ some '\n' := by
        cases s with
        | nil => simp
        | cons c s => intro e; simp at e; exact hs s (by rw [e])
      rw [List.cons_append, advance_cr]
      · apply ih
        intro e; apply h
        cases s with
        | nil => simp at e
        | cons c s => simpa [List.getLast?_cons_cons] using e
      · cases s with
        | nil => simpa using h (by simp)
        | cons c s => simpa using hh
  | case4 p s ih =>
      rw [List.cons_append, advance_lf]
      apply ih
      intro e; apply h
      cases s with
      | nil => simp at e
      | cons c s => simpa [List.getLast?_cons_cons] using e
  | case5 p c s h1 h2 h3 ih =>
      rw [List.cons_append, advance_other]
      · apply ih
        intro e; apply h
        cases s with
        | nil => simp at e
        | cons c s => simpa [List.getLast?_cons_cons] using e
      · rintro (e | e)
        · exact h3 e
        · exact h2 e

theorem joins_of_left {a b : Str} (h : ∀ c ∈ a, ¬ isLineEndChar c) : Joins a b := by
  intro e
  exact absurd (List.mem_of_getLast? e) (fun hm => h _ hm (Or.inr rfl))

theorem joins_of_right {a b : Str} (h : ∀ c ∈ b.head?, c ≠ '\n') : Joins a b := by
  intro _ e
  exact h _ (by rw [e]; rfl) rfl

theorem advance_plain (p : Pos) (s : Str) (h : ∀ c ∈ s, ¬ isLineEndChar c) : advance p s = p.move s.length := by
  induction s generalizing p with
  | nil => simp [advance, move_zero]
  | cons c s ih =>
      rw [advance_other _ _ _ (h c (by simp)), ih _ (fun c hc => h c (by simp [hc])), move_move]
      congr 1; simp; omega

theorem hide_plain (s : Str) : ∀ c ∈ hide s, ¬ isLineEndChar c := by
  intro c hc
  simp only [hide, List.mem_map] at hc
  obtain ⟨d, -, rfl⟩ := hc
  split_ifs with h
  · simp [isLineEndChar]
  · exact h

theorem hide_eq_iff (s : Str) : hide s = s ↔ ∀ c ∈ s, ¬ isLineEndChar c := by
  constructor
  · intro h; rw [← h]; exact hide_plain s
  · intro h
    unfold hide
    conv => rhs; rw [← List.map_id s]
    apply List.map_congr_left
    intro c hc
    simp [h c hc]

theorem advance_hide (p : Pos) (s : Str) : advance p (hide s) = p.move s.length := by
  rw [advance_plain _ _ (hide_plain s)]; simp [hide]

/-! ### Reading characters -/

theorem getChar_nil (p : Pos) : getChar (St [] p) = .ok none (St [] p) := rfl
theorem getChar_cons (c : Char) (s : Str) (p : Pos) : getChar (St (c :: s) p) = .ok (some c) (St s (p.move 1)) := rfl
theorem getChar_after (s : Str) (p : Pos) : getChar (after s p) = getChar (St s p) := by cases s <;> rfl
theorem peekChar_St (s : Str) (p : Pos) : peekChar (St s p) = .ok s.head? (St s p) := rfl
theorem ignoreChar_cons (c : Char) (s : Str) (p : Pos) : ignoreChar (St (c :: s) p) = .ok () (St s (p.move 1)) := rfl
theorem putbackChar_St (c : Char) (s : Str) (p : Pos) : putbackChar c (St s (p.move 1)) = .ok () (after (c :: s) p) := by
  simp [putbackChar, after, move_move, move_zero]
theorem fuel_run (l : L) : fuel l = .ok (l.pb.length + l.inp.length + 1) l := rfl

theorem isLineEnd_other {c : Char} (h : ¬ isLineEndChar c) (l : L) : isLineEnd c l = .ok false l := by
  simp only [isLineEndChar, not_or] at h
  simp [isLineEnd, h]
theorem isLineEnd_lf (s : Str) (p : Pos) :
    isLineEnd '\n' (St s (p.move 1)) = .ok true (St s (advance p ['\n'])) := by
  simp [isLineEnd, advance, Pos.move]
theorem isLineEnd_crlf (s : Str) (p : Pos) :
    isLineEnd '\r' (St ('\n' :: s) (p.move 1)) = .ok true (St s (advance p ['\r', '\n'])) := by
  simp [isLineEnd, advance, Pos.move, Int.add_assoc]
theorem isLineEnd_cr (s : Str) (p : Pos) (h : s.head? ≠ some '\n') :
    isLineEnd '\r' (St s (p.move 1)) = .ok true (St s (advance p ['\r'])) := by
  cases s with
  | nil => simp [isLineEnd, advance, Pos.move]
  | cons c s =>
      have : c ≠ '\n' := by simpa using h
      simp [isLineEnd, advance, Pos.move, this]

/-! ### White space -/

theorem lineEnd_space {c : Char} (h : isLineEndChar c) : isspace c = true := by
  rcases h with rfl | rfl <;> decide

theorem skipLoop_run (n : Nat) (s : Str) (p : Pos) (h : s.length < n) :
    skipLoop n (St s p) = .ok () (after (s.dropWhile isspace) (advance p (s.takeWhile isspace))) := by
  induction n generalizing s p with
  | zero => omega
  | succ n ih =>
      rw [skipLoop]
      cases s with
      | nil => simp [bind_run, getChar_nil, pure_run, after, advance]
      | cons c s =>
          simp only [bind_run, getChar_cons]
          simp only [List.length_cons] at h
          by_cases hl : isLineEndChar c
          · have hc := lineEnd_space hl
            rw [List.dropWhile_cons_of_pos hc, List.takeWhile_cons_of_pos hc]
            rcases hl with rfl | rfl
            · rw [isLineEnd_lf]
              simp only [Bool.not_true, Bool.false_and, Bool.false_eq_true, if_false]
              rw [ih _ _ (by omega), advance_lf]
              simp [advance]
            · cases s with
              | nil =>
                  rw [isLineEnd_cr _ _ (by simp)]
                  simp only [Bool.not_true, Bool.false_and, Bool.false_eq_true, if_false]
                  rw [ih _ _ (by omega)]
                  simp [advance]
              | cons d s =>
                  simp only [List.length_cons] at h
                  by_cases hd : d = '\n'
                  · subst hd
                    rw [isLineEnd_crlf]
                    simp only [Bool.not_true, Bool.false_and, Bool.false_eq_true, if_false]
                    rw [ih _ _ (by omega), List.dropWhile_cons_of_pos (by decide), List.takeWhile_cons_of_pos (by decide),
                      advance_crlf]
                    simp [advance]
                  · rw [isLineEnd_cr _ _ (by simpa using hd)]
                    simp only [Bool.not_true, Bool.false_and, Bool.false_eq_true, if_false]
                    rw [ih _ _ (by simp only [List.length_cons]; omega), advance_cr p (List.takeWhile isspace (d :: s))]
                    · rfl
                    · rw [List.takeWhile_cons]
                      split_ifs <;> simp [hd]
          · rw [isLineEnd_other hl]
            by_cases hc : isspace c = true
            · rw [List.dropWhile_cons_of_pos hc, List.takeWhile_cons_of_pos hc]
              simp only [hc, Bool.not_true, Bool.not_false, Bool.true_and, Bool.false_eq_true, if_false]
              rw [ih _ _ (by omega), advance_other _ _ _ hl]
            · rw [List.dropWhile_cons_of_neg hc, List.takeWhile_cons_of_neg hc]
              simp only [hc, Bool.not_false, Bool.true_and, if_true]
              rw [putbackChar_St]
              rfl

theorem skipLoop_after (n : Nat) (s : Str) (p : Pos) : skipLoop n (after s p) = skipLoop n (St s p) := by
  cases n with
  | zero => rfl
  | succ n => rw [skipLoop]; simp only [bind_run, getChar_after]

theorem after_fuel (s : Str) (p : Pos) : (after s p).pb.length + (after s p).inp.length = s.length := by
  cases s <;> simp [after]; omega

/-- Between tokens: at most one character has been put back. -/
def At (l : L) (s : Str) (p : Pos) : Prop := l = St s p ∨ l = after s p

theorem At.getChar {l : L} {s : Str} {p : Pos} (h : At l s p) : getChar l = Lex.getChar (St s p) := by
  rcases h with rfl | rfl
  · rfl
  · exact getChar_after s p

theorem skipWhiteSpace_run {l : L} {s : Str} {p : Pos} (h : At l s p) :
    skipWhiteSpace l = .ok () (after (s.dropWhile isspace) (advance p (s.takeWhile isspace))) := by
  unfold skipWhiteSpace
  simp only [bind_run, fuel_run]
  rcases h with rfl | rfl
  · rw [skipLoop_run]; simp
  · rw [skipLoop_after, skipLoop_run]; rw [after_fuel]; omega

/-! ### Numbers -/

theorem hexLoop_run (n v : Nat) (s : Str) (p : Pos) (h : s.length < n) :
    hexLoop n v (St s p) = .ok ((s.takeWhile isxdigit).foldl (fun v c => (v * 16 + hexDigit c) % 2 ^ 64) v)
      (after (s.dropWhile isxdigit) (p.move (s.takeWhile isxdigit).length)) := by
  induction n generalizing s p v with
  | zero => omega
  | succ n ih =>
      rw [hexLoop]
      cases s with
      | nil => simp [bind_run, getChar_nil, pure_run, after, move_zero]
      | cons c s =>
          simp only [bind_run, getChar_cons]
          simp only [List.length_cons] at h
          by_cases hc : isxdigit c = true
          · rw [List.dropWhile_cons_of_pos hc, List.takeWhile_cons_of_pos hc]
            simp only [hc, Bool.not_true, Bool.false_eq_true, if_false]
            rw [ih _ _ _ (by omega), move_move]
            simp only [List.foldl_cons, List.length_cons]
            congr 3; omega
          · rw [List.dropWhile_cons_of_neg hc, List.takeWhile_cons_of_neg hc]
            simp only [hc, Bool.not_false, if_true, bind_run, putbackChar_St, pure_run]
            simp [move_zero]

def numChar (c : Char) : Bool := isdigit c || c == '.'
def wordChar (c : Char) : Bool := isalnum c || c == '_'

theorem decLoop_run (n : Nat) (t s : Str) (p : Pos) (h : s.length < n) :
    decLoop n t (St s p) = .ok (t ++ s.takeWhile numChar)
      (after (s.dropWhile numChar) (p.move (s.takeWhile numChar).length)) := by
  induction n generalizing s p t with
  | zero => omega
  | succ n ih =>
      rw [decLoop]
      cases s with
      | nil => simp [bind_run, getChar_nil, pure_run, after, move_zero]
      | cons c s =>
          simp only [bind_run, getChar_cons]
          simp only [List.length_cons] at h
          by_cases hc : numChar c = true
          · rw [List.dropWhile_cons_of_pos hc, List.takeWhile_cons_of_pos hc]
            have : (!isdigit c && c != '.') = false := by
              simp only [numChar, Bool.or_eq_true, beq_iff_eq] at hc
              rcases hc with hc | hc <;> simp [hc]
            simp only [this, Bool.false_eq_true, if_false]
            rw [ih _ _ _ (by omega), move_move]
            simp only [List.append_assoc, List.singleton_append, List.length_cons]
            congr 2; congr 1; omega
          · rw [List.dropWhile_cons_of_neg hc, List.takeWhile_cons_of_neg hc]
            have : (!isdigit c && c != '.') = true := by
              simp only [numChar, Bool.or_eq_true, beq_iff_eq, not_or] at hc
              simp [hc]
            simp only [this, if_true, bind_run, putbackChar_St, pure_run]
            simp [move_zero]

/-! ### Words -/

theorem identLoop_run (n : Nat) (c : Char) (buf s : Str) (p : Pos) (h : s.length < n) (hc : wordChar c = true) :
    identLoop n c buf (St s p) = .ok (buf ++ c :: s.takeWhile wordChar)
      (after (s.dropWhile wordChar) (p.move (s.takeWhile wordChar).length)) := by
  induction n generalizing s p c buf with
  | zero => omega
  | succ n ih =>
      rw [identLoop]
      simp only [show (isalnum c || c == '_') = true from hc, if_true]
      cases s with
      | nil => simp [bind_run, getChar_nil, pure_run, after, move_zero]
      | cons d s =>
          simp only [bind_run, getChar_cons]
          simp only [List.length_cons] at h
          by_cases hd : wordChar d = true
          · rw [List.dropWhile_cons_of_pos hd, List.takeWhile_cons_of_pos hd]
            rw [ih _ _ _ _ (by omega) hd, move_move]
            simp only [List.append_assoc, List.singleton_append, List.length_cons]
            congr 2; congr 1; omega
          · rw [List.dropWhile_cons_of_neg hd, List.takeWhile_cons_of_neg hd]
            cases n with
            | zero => omega
            | succ n =>
              rw [identLoop]
              simp only [wordChar, Bool.not_eq_true] at hd
              simp only [hd, Bool.false_eq_true, if_false, bind_run, putbackChar_St, pure_run]
              simp [move_zero]

end Verif.Lex
