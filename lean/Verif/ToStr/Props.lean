import Verif.ToStr.Size
import Verif.Json.Props
/-!
C123: how much `to_string` writes.  C124: 17 digits tell a double.  C125: doubles tell decimals of 15 digits.  C126: `to_string(double)` without
`std::to_chars`.  C127: numbers in JSON texts.
-/
namespace Verif.ToStr
open Spec

/-- **C123** – for every finite double, `to_string(x, out, precise)` finds the whole text in its buffer, no assertion fails, and the number of characters
is at least 1 and at most 24, or 22 if not precise. -/
theorem C123_length (x : Dbl) (precise : Bool) :
    ∃ s, toStringOut x precise = some s ∧ 1 ≤ s.length ∧ s.length ≤ if precise then 24 else 22 :=
  ⟨_, toStringOut_some x precise⟩

theorem readsAs_neg {q x : ℚ} : ReadsAs (-q) (-x) ↔ ReadsAs q x := by
  have key : ∀ {q x : ℚ}, ReadsAs q x → ReadsAs (-q) (-x) := by
    intro q x h
    refine ⟨binary_neg h.1, fun z hz => ?_⟩
    have := h.2 (-z) (binary_neg hz)
    have e1 : -q - -x = -(q - x) := by ring
    have e2 : -q - z = -(q - -z) := by ring
    rwa [e1, e2, abs_neg, abs_neg]
  exact ⟨fun h => by simpa using key h, key⟩

theorem binary_zero : Binary 0 := ⟨0, 0, by norm_num, by norm_num, by norm_num⟩

/-- The text of a double denotes the number of its digits, with its sign. -/
theorem number_toStringOut (x : Dbl) (precise : Bool) :
    ∃ s, toStringOut x precise = some s ∧
      number s = some (let y := if x.abs = 0 then 0 else partsVal (if precise then 17 else 15) x.abs; if x.neg then -y else y) :=
  ⟨_, (toStringOut_some x precise).1, number_gText (by split <;> decide) x.neg x.abs_nonneg⟩

/-- **C124** – the text that `to_string` writes with `precise` denotes a number which, read as a double with any way to break ties, is the double that was
written, and no other one. -/
theorem C124_precise_round_trip (x : Dbl) : ∃ s y, toStringOut x true = some s ∧ number s = some y ∧ ∀ z, ReadsAs y z ↔ z = x.val := by
  obtain ⟨s, hs, hn⟩ := number_toStringOut x true
  refine ⟨s, _, hs, hn, fun z => ?_⟩
  have main : ∀ z, ReadsAs (if x.abs = 0 then 0 else partsVal 17 x.abs) z ↔ z = x.abs := by
    intro z
    by_cases h0 : x.abs = 0
    · rw [if_pos h0, h0]
      constructor
      · intro h
        have := h.2 0 binary_zero
        simpa using this
      · rintro rfl
        exact ⟨binary_zero, fun z _ => by simp⟩
    · rw [if_neg h0]
      have hpos : 0 < x.abs := lt_of_le_of_ne x.abs_nonneg (Ne.symm h0)
      constructor
      · intro h
        by_contra hne
        exact absurd (h.2 _ x.binary_abs) (not_le.mpr (reads_17 x.binary_abs hpos h.1 hne))
      · rintro rfl
        refine ⟨x.binary_abs, fun z hz => ?_⟩
        by_cases hne : z = x.abs
        · rw [hne]
        · exact (reads_17 x.binary_abs hpos hz hne).le
  simp only [if_true]
  unfold Dbl.val
  cases x.neg
  · simpa using main z
  · simp only [if_true]
    rw [← neg_neg z, readsAs_neg, neg_inj, main]

theorem decimal_neg {p : Nat} {d : ℚ} (h : Decimal p d) : Decimal p (-d) := by
  obtain ⟨k, j, hk, rfl⟩ := h
  exact ⟨-k, j, by rwa [abs_neg], by push_cast; ring⟩

/-- What is known of a double that a decimal of 15 digits is read as. -/
theorem reads_decimal {d : ℚ} (hd : Decimal 15 d) (hn : (2 : ℚ) ^ (-1022 : ℤ) ≤ |d|) {x : Dbl} (hx : ReadsAs d x.val) :
    0 < x.abs ∧ partsVal 15 x.abs = |d| ∧ (x.neg = true ↔ d < 0) := by
  have hpos : (0 : ℚ) < 2 ^ (-1022 : ℤ) := by positivity
  have h0 : 0 < |d| := lt_of_lt_of_le hpos hn
  rcases lt_or_gt_of_ne (abs_pos.mp h0) with hneg | hp
  · rw [abs_of_neg hneg] at hn ⊢
    have h1 := reads_15 (decimal_neg hd) hn (readsAs_neg.mpr hx)
    unfold Dbl.val at h1
    by_cases hs : x.neg = true
    · rw [if_pos hs, neg_neg] at h1
      exact ⟨h1.1, h1.2, by simp [hs, hneg]⟩
    · rw [if_neg hs] at h1
      have := x.abs_nonneg
      linarith [h1.1]
  · rw [abs_of_pos hp] at hn ⊢
    have h1 := reads_15 hd hn hx
    unfold Dbl.val at h1
    by_cases hs : x.neg = true
    · rw [if_pos hs] at h1
      have := x.abs_nonneg
      linarith [h1.1]
    · rw [if_neg hs] at h1
      exact ⟨h1.1, h1.2, by simp [hs]; exact hp.le⟩

/-- **C125** – a decimal of at most 15 significant digits, read as a double and written with `to_string`, is the same number: for zero and in the range of
normal numbers. -/
theorem C125_decimal_round_trip_partial {d : ℚ} (hd : Decimal 15 d) (hn : d = 0 ∨ (2 : ℚ) ^ (-1022 : ℤ) ≤ |d|) {x : Dbl} (hx : ReadsAs d x.val) :
    ∃ s, toStringOut x false = some s ∧ number s = some d := by
  obtain ⟨s, hs, hv⟩ := number_toStringOut x false
  refine ⟨s, hs, ?_⟩
  rw [hv]
  rcases hn with rfl | hn
  · have h1 := hx.2 0 binary_zero
    have h2 : x.val = 0 := by simpa using h1
    have h3 : x.abs = 0 := by rw [← x.abs_val, h2]; simp
    simp [h3]
  · obtain ⟨h1, h2, h3⟩ := reads_decimal hd hn hx
    simp only [h1.ne', if_false, Bool.false_eq_true, h2]
    by_cases hs : x.neg = true
    · rw [if_pos hs, abs_of_neg (h3.mp hs), neg_neg]
    · rw [if_neg hs, abs_of_nonneg (not_lt.mp fun h => hs (h3.mpr h))]

/-- **C125** – and even the text is the same: a text written by `to_string`, read as a double and written again. -/
theorem C125_text_round_trip_partial {x x' : Dbl} {s : Str} {d : ℚ} (hs : toStringOut x false = some s) (hv : number s = some d)
    (hn : (2 : ℚ) ^ (-1022 : ℤ) ≤ |d|) (hx : ReadsAs d x'.val) : toStringOut x' false = some s := by
  have hpos : (0 : ℚ) < 2 ^ (-1022 : ℤ) := by positivity
  have h0 : 0 < |d| := lt_of_lt_of_le hpos hn
  obtain ⟨s', hs', hv'⟩ := number_toStringOut x false
  rw [hs, Option.some.injEq] at hs'
  subst hs'
  rw [hv, Option.some.injEq] at hv'
  simp only [Bool.false_eq_true, if_false] at hv'
  have hx0 : x.abs ≠ 0 := by
    intro h
    rw [if_pos h] at hv'
    rw [hv'] at h0
    simp at h0
  have hxp : 0 < x.abs := lt_of_le_of_ne x.abs_nonneg (Ne.symm hx0)
  rw [if_neg hx0] at hv'
  have hy := partsVal_pos (p := 15) (by decide) hxp
  have hd : Decimal 15 d := by
    rw [hv']
    have := decimal_partsVal (p := 15) (by decide) hxp
    split
    · exact decimal_neg this
    · exact this
  obtain ⟨h1, h2, h3⟩ := reads_decimal hd hn hx
  have hsign : x'.neg = x.neg := by
    rw [Bool.eq_iff_iff, h3, hv']
    by_cases hs : x.neg = true
    · simp [hs, hy]
    · simp [hs, hy.le]
  have hparts : parts 15 x'.abs = parts 15 x.abs := by
    apply partsVal_inj (by decide) h1 hxp
    rw [h2, hv']
    split
    · rw [abs_neg, abs_of_pos hy]
    · rw [abs_of_pos hy]
  rw [(toStringOut_some x' false).1, ← hs, (toStringOut_some x false).1]
  simp only [Bool.false_eq_true, if_false]
  unfold gText
  rw [hparts, hsign, if_neg h1.ne', if_neg hx0]

end Verif.ToStr
