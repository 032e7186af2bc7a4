import Verif.ErrFmt.Spec
/-!
C111: the report of an error in a stream.  C112: lines.
-/
namespace Verif.ErrFmt
open Spec

theorem detab_append (a b : Str) : detab (a ++ b) = detab a ++ detab b := by simp [detab]

theorem shows_detab (s : Str) : Shows s (detab s) := by
  unfold Shows detab
  induction s with
  | nil => exact .nil
  | cons a l ih =>
    refine .cons ?_ ih
    by_cases h : a = '\t'
    · simp [h]
    · simp [h]

theorem detab_blank {s : Str} (h : ∀ c ∈ s, Blank c) : detab s = List.replicate s.length ' ' := by
  unfold detab
  rw [List.eq_replicate_iff]
  refine ⟨by simp, ?_⟩
  intro b hb
  rw [List.mem_map] at hb
  obtain ⟨c, hc, rfl⟩ := hb
  rcases h c hc with rfl | rfl <;> simp

theorem detab_null {s : Str} (h : ∀ c ∈ s, c = '\x00') : detab s = List.replicate s.length '\x00' := by
  unfold detab
  rw [List.eq_replicate_iff]
  refine ⟨by simp, ?_⟩
  intro b hb
  rw [List.mem_map] at hb
  obtain ⟨c, hc, rfl⟩ := hb
  rw [h c hc]; decide

theorem detab_notBlank {c : Char} (h : ¬ Blank c) : (if c = '\t' then ' ' else c) ≠ ' ' := by
  have h1 : c ≠ '\t' := fun e => h (Or.inr e)
  have h2 : c ≠ ' ' := fun e => h (Or.inl e)
  simp [h1, h2]

theorem findIdx_replicate (k : Nat) (x : Char) (c : Char) (l : Str) (hc : c ≠ x) :
    (List.replicate k x ++ c :: l).findIdx? (· ≠ x) = some k := by
  induction k with
  | zero => simp [List.findIdx?_cons, hc]
  | succ k ih =>
    rw [List.replicate_succ, List.cons_append, List.findIdx?_cons]
    simp only [ne_eq, not_true_eq_false, decide_false, Bool.false_eq_true, if_false]
    rw [show (fun x_1 => decide (¬ x_1 = x)) = (fun x_1 : Char => decide (x_1 ≠ x)) from rfl, ih]
    rfl

theorem trimNulls_eq {shown nulls : Str} (hl : ∃ l c, shown = l ++ [c] ∧ c ≠ '\x00') (n : Nat) (hn : nulls = List.replicate n '\x00') :
    trimNulls (shown ++ nulls) = shown := by
  obtain ⟨l, c, rfl, hc⟩ := hl
  subst hn
  unfold trimNulls
  have : (l ++ [c] ++ List.replicate n '\x00').reverse = List.replicate n '\x00' ++ c :: l.reverse := by simp
  rw [this, findIdx_replicate n _ c _ hc]
  simp only []
  exact List.take_left' (by simp; omega)

theorem toWidth_eq {w : Int} (h1 : -2 ^ 31 ≤ w) (h2 : w < 2 ^ 31) : toWidth w = w := by
  unfold toWidth
  exact Int.bmod_eq_of_le (by omega) (by omega)

/-- The general form: the line and the caret. -/
theorem snippet_parts {p : Pos} {line blank shown nulls : Str} (hs : p.snippet = some line) (hp : Parts line blank shown nulls) :
    formatSnippet p = detab shown ++ '\n' ::
      padded (toWidth ((if p.pos = -1 then (shown.length : Int) else p.pos - p.start) - blank.length)) '^' ++ ['\n'] := by
  obtain ⟨heq, hb, ⟨c, l, hc, hcb⟩, hlast, hnull⟩ := hp
  unfold formatSnippet
  have hne : line ≠ [] := by rw [heq, hc]; simp
  simp only [hs, Option.getD_some, hne, if_false]
  have hd : detab line = List.replicate blank.length ' ' ++ (detab shown ++ List.replicate nulls.length '\x00') := by
    rw [heq, detab_append, detab_append, detab_blank hb, detab_null hnull, List.append_assoc]
  have hlead : (detab line).findIdx? (· ≠ ' ') = some blank.length := by
    rw [hd, hc]
    show (List.replicate blank.length ' ' ++ ((if c = '\t' then ' ' else c) :: (detab l ++ _))).findIdx? _ = _
    exact findIdx_replicate _ _ _ _ (detab_notBlank hcb)
  rw [hlead]
  simp only []
  have hdrop : (detab line).drop blank.length = detab shown ++ List.replicate nulls.length '\x00' := by
    rw [hd]; exact List.drop_left' (by simp)
  rw [hdrop, trimNulls_eq _ nulls.length rfl]
  · simp [detab]
  · obtain ⟨l', c', e, hc'⟩ := hlast
    refine ⟨detab l', if c' = '\t' then ' ' else c', by rw [e, detab_append]; rfl, ?_⟩
    split
    · decide
    · exact hc'

/-- **Full statement**: the caret is under the column that is reported.  What holds: the line without its blanks and the caret under the
column before that, if that is not in the blanks. -/
theorem C111_snippet_partial {p : Pos} {line blank shown nulls : Str} (hs : p.snippet = some line) (hp : Parts line blank shown nulls)
    (hpos : p.start + blank.length < p.pos) (h0 : 0 ≤ p.start) (hbig : p.pos - p.start - blank.length < 2 ^ 31) :
    ∃ t k, Shows shown t ∧ formatSnippet p = t ++ '\n' :: caretLine k ∧ (blank.length : Int) + k + 1 = p.pos - p.start := by
  refine ⟨detab shown, (p.pos - p.start - blank.length - 1).toNat, shows_detab _, ?_, by omega⟩
  rw [snippet_parts hs hp]
  have : p.pos ≠ -1 := by omega
  rw [if_neg this, toWidth_eq (by omega) hbig]
  simp [padded, caretLine]

/-- In the blanks, or before the line: the caret is under the first character. -/
theorem C111_left {p : Pos} {line blank shown nulls : Str} (hs : p.snippet = some line) (hp : Parts line blank shown nulls)
    (hpos : p.pos ≤ p.start + blank.length) (h0 : p.pos ≠ -1) (hbig : -2 ^ 31 ≤ p.pos - p.start - blank.length) :
    ∃ t, Shows shown t ∧ formatSnippet p = t ++ '\n' :: caretLine 0 := by
  refine ⟨detab shown, shows_detab _, ?_⟩
  rw [snippet_parts hs hp, if_neg h0, toWidth_eq hbig (by omega)]
  have : (p.pos - p.start - (blank.length : Int) - 1).toNat = 0 := by omega
  simp [padded, caretLine, this]

/-- The column that is reported is not the one above the caret. -/
theorem C111_column_violated : ∃ p : Pos, ∃ line, p.snippet = some line ∧ Parts line [] line [] ∧ 0 ≤ p.start ∧ p.start < p.pos ∧
    p.pos < p.start + line.length ∧ showPos p = "f:1:3".toList ∧ formatSnippet p = line ++ '\n' :: caretLine 1 := by
  refine ⟨⟨1, 0, 2, ['f'], some "abcd".toList⟩, "abcd".toList, rfl, ?_, by decide, by decide, by decide, by decide +kernel, by decide +kernel⟩
  exact ⟨rfl, by simp, ⟨'a', "bcd".toList, rfl, by simp [Blank]⟩, ⟨"abc".toList, 'd', rfl, by decide⟩, by simp⟩

/-- Without a position, the caret should be under the end of the line; the blanks are subtracted twice. -/
theorem C111_unknown_violated : ∃ p : Pos, ∃ line blank shown, p.pos = -1 ∧ p.snippet = some line ∧ Parts line blank shown [] ∧
    formatSnippet p = shown ++ '\n' :: caretLine 0 ∧ shown.length = 4 := by
  refine ⟨⟨1, 0, -1, ['f'], some "   abcd".toList⟩, "   abcd".toList, "   ".toList, "abcd".toList, rfl, rfl, ?_, by decide +kernel, rfl⟩
  exact ⟨rfl, by simp [Blank], ⟨'a', "bcd".toList, rfl, by simp [Blank]⟩, ⟨"abc".toList, 'd', rfl, by decide⟩, by simp⟩

/-- The report of an error that was made at `p` and passed on at the positions `ps`, in this order. -/
theorem C111_report (what : Str) (p : Pos) (ps : List Pos) :
    formatError (ps.foldl (fun e q => Err.wrap ⟨e.what, some e.positions⟩ q true true) (Err.new what p)) =
      some (showPos p ++ ": error: ".toList ++ what ++ "\n".toList ++ formatSnippet p ++
        (ps.map fun q => showPos q ++ "\n".toList ++ formatSnippet q).flatten) := by
  have : ∀ (ps pre : List Pos), ps.foldl (fun e q => Err.wrap ⟨e.what, some e.positions⟩ q true true) ⟨what, pre⟩ = ⟨what, pre ++ ps⟩ := by
    intro ps
    induction ps with
    | nil => intro pre; simp
    | cons q ps ih => intro pre; rw [List.foldl_cons]; show List.foldl _ (Err.mk what (pre ++ [q])) ps = _; rw [ih]; simp
  rw [Err.new, this]
  unfold formatError
  simp

/-- An exception of another kind gets the one position, and its text is kept. -/
theorem C111_other (what : Str) (p : Pos) : Err.wrap ⟨what, none⟩ p true true = Err.new what p := rfl

/-- Without memory for the position the error has none, and its report reads the first of no positions. -/
theorem C111_memory_violated : ∃ what p copyOk pushOk, formatError (Err.wrap ⟨what, none⟩ p copyOk pushOk) = none :=
  ⟨[], .mk0, true, false, rfl⟩

/-! ### Lines -/

theorem getLine_spec (text acc : Str) : ∃ line rest, getLine acc text = (rest, acc ++ line) ∧ FirstLine text line rest := by
  induction text generalizing acc with
  | nil => exact ⟨[], [], by simp [getLine], by simp [FirstLine]⟩
  | cons c l ih =>
    by_cases hc : c ≠ '\n' ∧ c ≠ '\r'
    · obtain ⟨line, rest, h1, h2, h3⟩ := ih (acc ++ [c])
      refine ⟨c :: line, rest, ?_, ?_, ?_⟩
      · rw [getLine]; simp only [isLineEnd, hc, if_true, and_self, ne_eq, not_false_eq_true]; rw [h1]; simp
      · intro x hx
        rcases List.mem_cons.1 hx with rfl | hx
        · exact hc
        · exact h2 x hx
      · rcases h3 with ⟨rfl, rfl⟩ | rfl | rfl | ⟨rfl, h⟩
        · exact Or.inl ⟨rfl, rfl⟩
        · exact Or.inr (Or.inl rfl)
        · exact Or.inr (Or.inr (Or.inl rfl))
        · exact Or.inr (Or.inr (Or.inr ⟨rfl, h⟩))
    · cases l with
      | nil =>
        refine ⟨[], [], by rw [getLine]; simp [isLineEnd, hc], by simp, ?_⟩
        by_cases hn : c = '\n'
        · subst hn; exact Or.inr (Or.inl rfl)
        · have : c = '\r' := by
            by_cases hr : c = '\r'
            · exact hr
            · exact absurd ⟨hn, hr⟩ hc
          subst this
          exact Or.inr (Or.inr (Or.inr ⟨rfl, by simp⟩))
      | cons d l =>
        by_cases hcr : c = '\r' ∧ d = '\n'
        · refine ⟨[], l, by rw [getLine]; simp [isLineEnd, hcr], by simp, ?_⟩
          obtain ⟨rfl, rfl⟩ := hcr
          exact Or.inr (Or.inr (Or.inl rfl))
        · refine ⟨[], d :: l, by rw [getLine]; simp only [isLineEnd, hc, hcr, if_false]; simp, by simp, ?_⟩
          by_cases hn : c = '\n'
          · subst hn; exact Or.inr (Or.inl rfl)
          · have : c = '\r' := by
              by_cases hr : c = '\r'
              · exact hr
              · exact absurd ⟨hn, hr⟩ hc
            subst this
            refine Or.inr (Or.inr (Or.inr ⟨rfl, ?_⟩))
            intro h
            exact hcr ⟨rfl, by simpa using h⟩

/-- `get_line` gives the first line and what comes after it. -/
theorem C112_get_line (text : Str) : FirstLine text (getLine [] text).2 (getLine [] text).1 := by
  obtain ⟨line, rest, h1, h2⟩ := getLine_spec text []
  rw [h1]; simpa using h2

theorem getLine_of_firstLine {text line rest : Str} (acc : Str) (h : FirstLine text line rest) : getLine acc text = (rest, acc ++ line) := by
  obtain ⟨hn, h⟩ := h
  induction line generalizing text acc with
  | nil =>
    rcases h with ⟨rfl, rfl⟩ | rfl | rfl | ⟨rfl, g⟩
    · simp [getLine]
    · cases rest <;> simp [getLine, isLineEnd]
    · simp [getLine, isLineEnd]
    · cases rest with
      | nil => simp [getLine, isLineEnd]
      | cons d l =>
        have : d ≠ '\n' := by simpa using g
        simp [getLine, isLineEnd, this]
  | cons a line ih =>
    have ha := hn a List.mem_cons_self
    have hn' : ∀ c ∈ line, c ≠ '\n' ∧ c ≠ '\r' := fun c hc => hn c (List.mem_cons_of_mem _ hc)
    have step : ∀ t, getLine acc (a :: t) = getLine (acc ++ [a]) t := by
      intro t; rw [getLine]; simp [isLineEnd, ha]
    rcases h with ⟨rfl, rfl⟩ | rfl | rfl | ⟨rfl, g⟩
    · rw [step, ih (acc ++ [a]) hn' (Or.inl ⟨rfl, rfl⟩)]; simp
    · rw [List.cons_append, step, ih (acc ++ [a]) hn' (Or.inr (Or.inl rfl))]; simp
    · rw [List.cons_append, step, ih (acc ++ [a]) hn' (Or.inr (Or.inr (Or.inl rfl)))]; simp
    · rw [List.cons_append, step, ih (acc ++ [a]) hn' (Or.inr (Or.inr (Or.inr ⟨rfl, g⟩)))]; simp

/-- A line and a rest are enough: there is no other first line. -/
theorem C112_unique {text l1 r1 l2 r2 : Str} (h1 : FirstLine text l1 r1) (h2 : FirstLine text l2 r2) : l1 = l2 ∧ r1 = r2 := by
  have e1 := getLine_of_firstLine [] h1
  have e2 := getLine_of_firstLine [] h2
  rw [e1] at e2
  simpa [and_comm] using e2

/-- The two ways to ask for the end of a line – before and after the first character is read – agree. -/
theorem C112_agree (c : Char) (l : Str) :
    isLineEnd (c :: l) = some (if (isLineEndC l c).1 = 0 then (false, c :: l) else (true, (isLineEndC l c).2)) ∧
    (c :: l).drop (isLineEndC l c).1 = (if (isLineEndC l c).1 = 0 then c :: l else (isLineEndC l c).2) := by
  unfold isLineEnd isLineEndC
  by_cases hn : c = '\n'
  · subst hn
    cases l <;> simp
  · by_cases hr : c = '\r'
    · subst hr
      cases l with
      | nil => simp
      | cons d l =>
        by_cases hd : d = '\n'
        · simp [hd]
        · simp [hd]
    · simp [hn, hr]

end Verif.ErrFmt
