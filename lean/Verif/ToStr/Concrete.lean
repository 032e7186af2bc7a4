import Verif.ToStr.Props
/-!
C126: `to_string(double)` where there is no `std::to_chars`; C125, C126, C127: numbers that are lost.
-/
namespace Verif.ToStr
open Spec

/-- **C126** – a number without fraction, or a positive one with a small fraction, is written so that it can be read back. -/
theorem C126_round_trip_partial (far : ℚ → Bool) (x : Dbl) (h : x.frac = 0 ∨ x.neg = false ∧ far x.frac = true) :
    ∃ s y, toString far x = some s ∧ number s = some y ∧ ∀ z, ReadsAs y z ↔ z = x.val := by
  have e : toString far x = toStringOut x true := by
    unfold toString
    rcases h with h | ⟨h1, h2⟩
    · rw [if_pos h]
    · rw [h1, h2]; simp
  rw [e]
  exact C124_precise_round_trip x

/-- 0.3, and 0.1 + 0.2. -/
def x3 : Dbl := ⟨false, 5404319552844595, -54, by decide, by decide, by decide⟩
def x3' : Dbl := ⟨false, 5404319552844596, -54, by decide, by decide, by decide⟩

theorem x3_abs : x3.abs = 5404319552844595 / 2 ^ 54 := by
  unfold Dbl.abs x3; norm_num [zpow_neg]
theorem x3'_abs : x3'.abs = 5404319552844596 / 2 ^ 54 := by
  unfold Dbl.abs x3'; norm_num [zpow_neg]

theorem x3_parts : parts 15 x3.abs = (300000000000000, -1) := by
  rw [x3_abs]
  apply parts_eq (by decide) <;> norm_num [zpow_neg, abs_lt]
theorem x3'_parts : parts 15 x3'.abs = (300000000000000, -1) := by
  rw [x3'_abs]
  apply parts_eq (by decide) <;> norm_num [zpow_neg, abs_lt]

theorem x3_ne : x3.val ≠ x3'.val := by
  unfold Dbl.val
  rw [x3_abs, x3'_abs]
  norm_num [x3, x3']

theorem x3_same : toStringOut x3 false = toStringOut x3' false := by
  rw [(toStringOut_some x3 false).1, (toStringOut_some x3' false).1]
  simp only [Bool.false_eq_true, if_false]
  unfold gText
  have h1 : x3.abs ≠ 0 := by rw [x3_abs]; norm_num
  have h2 : x3'.abs ≠ 0 := by rw [x3'_abs]; norm_num
  rw [x3_parts, x3'_parts, if_neg h1, if_neg h2]
  rfl

/-- **C126** – `to_string(0.1 + 0.2)` and `to_string(0.3)` are the same text. -/
theorem C126_fraction_violated (far : ℚ → Bool) (h : ∀ f, 1 / 10 ^ 6 ≤ f → far f = false) :
    ∃ x x', x.val ≠ x'.val ∧ toString far x = toString far x' := by
  refine ⟨x3, x3', x3_ne, ?_⟩
  have f1 : x3.frac = 5404319552844595 / 2 ^ 54 := by
    unfold Dbl.frac
    rw [x3_abs]
    have : ⌊(5404319552844595 / 2 ^ 54 : ℚ)⌋ = 0 := by rw [Int.floor_eq_iff]; norm_num
    rw [this]; norm_num
  have f2 : x3'.frac = 5404319552844596 / 2 ^ 54 := by
    unfold Dbl.frac
    rw [x3'_abs]
    have : ⌊(5404319552844596 / 2 ^ 54 : ℚ)⌋ = 0 := by rw [Int.floor_eq_iff]; norm_num
    rw [this]; norm_num
  unfold toString
  have g1 : x3.frac ≠ 0 := by rw [f1]; norm_num
  have g2 : x3'.frac ≠ 0 := by rw [f2]; norm_num
  have g3 : far x3.frac = false := h _ (by rw [f1]; norm_num)
  have g4 : far x3'.frac = false := h _ (by rw [f2]; norm_num)
  simp only [g1, g2, g3, g4, if_false, ite_self]
  exact x3_same

/-- 2 ^ -30. -/
def x30 (neg : Bool) : Dbl := ⟨neg, 1, -30, by decide, by decide, by decide⟩

theorem x30_abs (neg : Bool) : (x30 neg).abs = 1 / 2 ^ 30 := by
  unfold Dbl.abs x30; norm_num [zpow_neg]

/-- **C126** – the text of the negative number has fewer digits than that of the positive one: `-9.31322574615479e-10` and `9.3132257461547852e-10`. -/
theorem C126_sign_violated (far : ℚ → Bool) (h : ∀ f, 0 < f → f ≤ 1 / 10 ^ 8 → far f = true) :
    ∃ x x' : Dbl, x'.val = -x.val ∧ 0 < x.val ∧ ∃ s s', toString far x = some s ∧ toString far x' = some s' ∧ s' ≠ '-' :: s := by
  refine ⟨x30 false, x30 true, ?_, ?_, ?_⟩
  · unfold Dbl.val; rw [x30_abs, x30_abs]; simp [x30]
  · unfold Dbl.val; rw [x30_abs]; simp [x30]
  · have hf : ∀ b, (x30 b).frac = 1 / 2 ^ 30 := by
      intro b
      unfold Dbl.frac
      rw [x30_abs]
      have : ⌊(1 / 2 ^ 30 : ℚ)⌋ = 0 := by rw [Int.floor_eq_iff]; norm_num
      rw [this]; norm_num
    refine ⟨gText 17 false (1 / 2 ^ 30), gText 15 true (1 / 2 ^ 30), ?_, ?_, ?_⟩
    · unfold toString
      rw [if_neg (by rw [hf]; norm_num), h _ (by rw [hf]; norm_num) (by rw [hf]; norm_num), (toStringOut_some _ _).1, x30_abs]
      rfl
    · unfold toString
      rw [if_neg (by rw [hf]; norm_num), (toStringOut_some _ _).1, x30_abs]
      rfl
    · intro e
      have h1 := number_gText (p := 17) (by decide) true (q := 1 / 2 ^ 30) (by norm_num)
      have h2 := number_gText (p := 15) (by decide) true (q := 1 / 2 ^ 30) (by norm_num)
      have e' : gText 17 true (1 / 2 ^ 30) = '-' :: gText 17 false (1 / 2 ^ 30) := by
        unfold gText; simp
      rw [e', ← e, h2] at h1
      have p17 : parts 17 (1 / 2 ^ 30) = (93132257461547852, -10) := by
        apply parts_eq (by decide) <;> norm_num [zpow_neg, abs_lt]
      have p15 : parts 15 (1 / 2 ^ 30) = (931322574615479, -10) := by
        apply parts_eq (by decide) <;> norm_num [zpow_neg, abs_lt]
      unfold partsVal at h1
      rw [p17, p15] at h1
      norm_num [zpow_neg] at h1

/-- The least positive double. -/
def xmin : Dbl := ⟨false, 1, -1074, by decide, by decide, by decide⟩

theorem binary_multiple {z : ℚ} (h : Binary z) : ∃ n : ℤ, z = n / 2 ^ 1074 := by
  obtain ⟨m, e, -, he, rfl⟩ := h
  refine ⟨m * 2 ^ (e + 1074).toNat, ?_⟩
  rw [eq_div_iff (by positivity)]
  push_cast
  rw [mul_assoc, ← zpow_natCast, ← zpow_natCast, ← zpow_add₀ (by norm_num)]
  congr 2
  push_cast
  omega

theorem zpow_inv (a : ℚ) (n : ℕ) : a ^ (-(n : ℤ)) = 1 / a ^ n := by rw [zpow_neg, zpow_natCast, one_div]

theorem xmin_abs : xmin.abs = 1 / 2 ^ 1074 := by
  have := zpow_inv 2 1074
  unfold Dbl.abs xmin
  simp only [Nat.cast_one, one_mul]
  exact_mod_cast this

set_option exponentiation.threshold 2000 in
theorem xmin_bounds : (10 : ℚ) ^ (-324 : ℤ) ≤ 1 / 2 ^ 1074 ∧ (1 / 2 ^ 1074 : ℚ) < 10 ^ (-323 : ℤ) ∧
    (1 / 2 ^ 1074 : ℚ) + 1 / 10 ^ 326 < 5 / 10 ^ 324 ∧ (5 / 10 ^ 324 : ℚ) < 3 / 2 * (1 / 2 ^ 1074) := by
  have e1 : (10 : ℚ) ^ (-324 : ℤ) = 1 / 10 ^ 324 := by exact_mod_cast zpow_inv 10 324
  have e2 : (10 : ℚ) ^ (-323 : ℤ) = 1 / 10 ^ 323 := by exact_mod_cast zpow_inv 10 323
  rw [e1, e2]
  refine ⟨?_, ?_, ?_, ?_⟩
  · rw [div_le_div_iff₀ (by positivity) (by positivity)]; norm_num
  · rw [div_lt_div_iff₀ (by positivity) (by positivity)]; norm_num
  · rw [div_add_div _ _ (by positivity) (by positivity), div_lt_div_iff₀ (by positivity) (by positivity)]; norm_num
  · rw [← mul_div_assoc, div_lt_div_iff₀ (by positivity) (by positivity)]; norm_num

set_option exponentiation.threshold 2000 in
/-- **C125** – not so below the normal numbers: `5e-324`, one digit, is read as a double which is written as another number. -/
theorem C125_subnormal_violated :
    ∃ (d : ℚ) (x : Dbl), Decimal 1 d ∧ ReadsAs d x.val ∧ ∃ s y, toStringOut x false = some s ∧ number s = some y ∧ y ≠ d := by
  obtain ⟨h1, h2, h3, h4⟩ := xmin_bounds
  have hv : xmin.val = 1 / 2 ^ 1074 := by
    unfold Dbl.val; rw [xmin_abs]; simp [xmin]
  have h0 : (0 : ℚ) < 1 / 2 ^ 1074 := by positivity
  refine ⟨5 / 10 ^ 324, xmin, ⟨5, -324, by norm_num, ?_⟩, ⟨xmin.binary, fun z hz => ?_⟩, ?_⟩
  · have e : (10 : ℚ) ^ (-324 : ℤ) = (10 ^ 324)⁻¹ := by rw [← one_div]; exact_mod_cast zpow_inv 10 324
    rw [e, div_eq_mul_inv]; norm_cast
  · obtain ⟨n, rfl⟩ := binary_multiple hz
    rw [hv]
    have e : ((n : ℚ) / 2 ^ 1074) = n * (1 / 2 ^ 1074) := by ring
    rw [e]
    generalize (1 / 2 ^ 1074 : ℚ) = u at *
    have h5 : (0 : ℚ) < 1 / 10 ^ 326 := by positivity
    rw [abs_of_nonneg (by linarith)]
    rcases le_or_gt n 1 with hn | hn
    · have : (n : ℚ) ≤ 1 := by exact_mod_cast hn
      have h6 : n * u ≤ 1 * u := by gcongr
      rw [abs_of_nonneg (by linarith)]
      linarith
    · have : (2 : ℚ) ≤ n := by exact_mod_cast hn
      have h6 : 2 * u ≤ n * u := by gcongr
      rw [abs_of_nonpos (by linarith)]
      linarith
  · obtain ⟨s, hs, hn⟩ := number_toStringOut xmin false
    refine ⟨s, _, hs, hn, ?_⟩
    have hne : xmin.neg = false := rfl
    rw [hne, xmin_abs]
    simp only [Bool.false_eq_true, if_false, if_neg h0.ne']
    have hlog : Int.log 10 (1 / 2 ^ 1074 : ℚ) = -324 := by
      apply le_antisymm
      · have : Int.log 10 (1 / 2 ^ 1074 : ℚ) < -323 := by rw [← Int.lt_zpow_iff_log_lt (by norm_num) h0]; exact_mod_cast h2
        omega
      · rw [← Int.zpow_le_iff_le_log (by norm_num) h0]; exact_mod_cast h1
    have herr := parts_error (p := 15) (by decide) h0
    rw [hlog] at herr
    intro e
    rw [e] at herr
    have h6 := (abs_le.mp herr).1
    have h7 : (10 : ℚ) ^ ((-324 : ℤ) - (15 : ℕ) + 1) ≤ 1 / 10 ^ 326 := by
      have e : (1 : ℚ) / 10 ^ 326 = 10 ^ (-326 : ℤ) := by exact_mod_cast (zpow_inv 10 326).symm
      rw [e]
      exact zpow_le_zpow_right₀ (by norm_num) (by norm_num)
    generalize (1 / 2 ^ 1074 : ℚ) = u at *
    generalize (10 : ℚ) ^ ((-324 : ℤ) - (15 : ℕ) + 1) = w at *
    have h8 : (0 : ℚ) < 1 / 10 ^ 326 := by positivity
    linarith

end Verif.ToStr
