import Verif.ToStr.Text
/-!
Lemmas: the length of the text, and that the digits are determined by the number.
-/
namespace Verif.ToStr
open Spec

theorem length_strip (s : Str) : (strip s).length ≤ s.length := by
  obtain ⟨n, e⟩ := strip_append s
  conv_rhs => rw [e, List.length_append]
  omega

theorem length_pointText {dec k w : Nat} (hw : 0 < w) (h : k / 10 ^ dec < 10 ^ w) : (pointText dec k).length ≤ w + 1 + dec := by
  have h1 := (Nat.length_toDigits_le_iff (b := 10) (by decide) hw).mpr h
  have h2 := length_strip (pad dec (k % 10 ^ dec))
  rw [length_pad] at h2
  unfold pointText
  rw [List.length_append]
  split
  · simp; omega
  · simp only [List.length_cons]; omega

theorem length_expText {x : Int} (h : x.natAbs < 1000) : (expText x).length ≤ 5 := by
  unfold expText
  simp only [List.cons_append, List.length_cons, List.length_append]
  split
  · have := (Nat.length_toDigits_le_iff (b := 10) (n := x.natAbs) (k := 1) (by decide) (by decide)).mpr (by omega)
    simp; omega
  · have := (Nat.length_toDigits_le_iff (b := 10) (n := x.natAbs) (k := 3) (by decide) (by decide)).mpr (by omega)
    simp; omega

theorem length_gText {p : Nat} (hp : 0 < p) (neg : Bool) {q : ℚ} (hq : 0 ≤ q) (hr : q ≠ 0 → (parts p q).2.natAbs < 1000) :
    1 ≤ (gText p neg q).length ∧ (gText p neg q).length ≤ p + 7 := by
  unfold gText
  rw [List.length_append]
  have hs : (if neg then ['-'] else [] : Str).length ≤ 1 := by split <;> simp
  generalize (if neg then ['-'] else [] : Str) = sg at hs ⊢
  by_cases h0 : q = 0
  · simp only [if_pos h0, List.length_cons, List.length_nil]; omega
  · have hq' : 0 < q := lt_of_le_of_ne hq (Ne.symm h0)
    simp only [if_neg h0]
    obtain ⟨h1, h2, -, -⟩ := parts_cases hp hq'
    have h3 := hr h0
    generalize parts p q = kx at h1 h2 h3
    obtain ⟨k, x⟩ := kx
    simp only at h1 h2 h3 ⊢
    split
    · rename_i hx
      obtain ⟨c, s, e, -⟩ := pointText_head (p - 1 - x).toNat k
      constructor
      · rw [e, List.length_cons]; omega
      · by_cases hx0 : 0 ≤ x
        · have : k / 10 ^ (p - 1 - x).toNat < 10 ^ (x.toNat + 1) := by
            rw [Nat.div_lt_iff_lt_mul (by positivity), ← pow_add]
            have : x.toNat + 1 + (p - 1 - x).toNat = p := by omega
            rwa [this]
          have := length_pointText (by omega) this
          omega
        · have : k / 10 ^ (p - 1 - x).toNat < 10 ^ 1 := by
            rw [Nat.div_lt_iff_lt_mul (by positivity), ← pow_add]
            exact lt_of_lt_of_le h2 (Nat.pow_le_pow_right (by decide) (by omega))
          have := length_pointText (by omega) this
          omega
    · obtain ⟨c, s, e, -⟩ := pointText_head (p - 1) k
      have h4 := length_expText h3
      have : k / 10 ^ (p - 1) < 10 ^ 1 := by
        rw [Nat.div_lt_iff_lt_mul (by positivity), ← pow_add]
        have : 1 + (p - 1) = p := by omega
        rwa [this]
      have h5 := length_pointText (by omega) this
      rw [List.length_append]
      constructor
      · rw [e, List.length_cons]; omega
      · omega

theorem Dbl.abs_nonneg (x : Dbl) : 0 ≤ x.abs := by unfold Dbl.abs; positivity

theorem Dbl.binary_abs (x : Dbl) : Binary x.abs :=
  ⟨x.m, x.e, by rw [Nat.abs_cast]; exact_mod_cast x.hm, x.he, by unfold Dbl.abs; push_cast; rfl⟩

theorem binary_neg {z : ℚ} (h : Binary z) : Binary (-z) := by
  obtain ⟨m, e, hm, he, rfl⟩ := h
  exact ⟨-m, e, by rwa [abs_neg], he, by push_cast; ring⟩

theorem Dbl.binary (x : Dbl) : Binary x.val := by
  unfold Dbl.val
  split
  · exact binary_neg x.binary_abs
  · exact x.binary_abs

theorem Dbl.abs_val (x : Dbl) : |x.val| = x.abs := by
  unfold Dbl.val
  split
  · rw [_root_.abs_neg, abs_of_nonneg x.abs_nonneg]
  · rw [abs_of_nonneg x.abs_nonneg]

set_option exponentiation.threshold 2000 in
/-- The decimal exponents of doubles. -/
theorem Dbl.log_abs (x : Dbl) (h : x.abs ≠ 0) : -324 ≤ Int.log 10 x.abs ∧ Int.log 10 x.abs ≤ 308 := by
  have h0 : 0 < x.abs := lt_of_le_of_ne x.abs_nonneg (Ne.symm h)
  have hm : 1 ≤ x.m := by
    rcases Nat.eq_zero_or_pos x.m with e | e
    · exact absurd (by unfold Dbl.abs; rw [e]; simp) h
    · exact e
  constructor
  · rw [← Int.zpow_le_iff_le_log (by norm_num) h0]
    have h1 : (2 : ℚ) ^ (-1074 : ℤ) ≤ x.abs := by
      unfold Dbl.abs
      have h2 : (2 : ℚ) ^ (-1074 : ℤ) ≤ 2 ^ x.e := zpow_le_zpow_right₀ (by norm_num) x.he
      have h3 : (1 : ℚ) ≤ x.m := by exact_mod_cast hm
      calc (2 : ℚ) ^ (-1074 : ℤ) = 1 * 2 ^ (-1074 : ℤ) := by ring
        _ ≤ x.m * 2 ^ x.e := by gcongr
    refine le_trans ?_ h1
    rw [zpow_neg, zpow_neg, inv_le_inv₀ (by positivity) (by positivity)]
    have : (2 : ℕ) ^ 1074 ≤ 10 ^ 324 := by norm_num
    exact_mod_cast this
  · have : Int.log 10 x.abs < 309 := by
      rw [← Int.lt_zpow_iff_log_lt (by norm_num) h0]
      have h1 : x.abs < 2 ^ 1024 := by
        unfold Dbl.abs
        have h2 : (2 : ℚ) ^ x.e ≤ 2 ^ (971 : ℤ) := zpow_le_zpow_right₀ (by norm_num) x.he'
        have h3 : (x.m : ℚ) < 2 ^ 53 := by exact_mod_cast x.hm
        have h4 : (2 : ℚ) ^ (971 : ℤ) = 2 ^ 971 := by exact_mod_cast zpow_natCast (2 : ℚ) 971
        calc (x.m : ℚ) * 2 ^ x.e ≤ x.m * 2 ^ (971 : ℤ) := by gcongr
          _ < 2 ^ 53 * 2 ^ (971 : ℤ) := by gcongr
          _ = 2 ^ 1024 := by rw [h4, ← pow_add]
      refine lt_of_lt_of_le h1 ?_
      have h5 : ((10 : ℕ) : ℚ) ^ (309 : ℤ) = 10 ^ 309 := by exact_mod_cast zpow_natCast (10 : ℚ) 309
      rw [h5]
      have : (2 : ℕ) ^ 1024 ≤ 10 ^ 309 := by norm_num
      exact_mod_cast this
    omega

theorem toStringOut_some (x : Dbl) (precise : Bool) :
    toStringOut x precise = some (gText (if precise then 17 else 15) x.neg x.abs) ∧
      1 ≤ (gText (if precise then 17 else 15) x.neg x.abs).length ∧
      (gText (if precise then 17 else 15) x.neg x.abs).length ≤ if precise then 24 else 22 := by
  have h := length_gText (p := if precise then 17 else 15) (by split <;> decide) x.neg x.abs_nonneg (by
    intro h
    have h0 : 0 < x.abs := lt_of_le_of_ne x.abs_nonneg (Ne.symm h)
    obtain ⟨-, -, h1, -⟩ := parts_cases (p := if precise then 17 else 15) (by split <;> decide) h0
    obtain ⟨h2, h3⟩ := x.log_abs h
    omega)
  have h' : (gText (if precise then 17 else 15) x.neg x.abs).length ≤ if precise then 24 else 22 := by
    cases precise <;> exact h.2
  refine ⟨?_, h.1, h'⟩
  unfold toStringOut
  simp only
  rw [if_pos]
  cases precise
  · simp only [Bool.false_eq_true, if_false] at h h' ⊢; omega
  · simp only [if_true] at h h' ⊢; omega

/-- The digits and the exponent are determined by the number. -/
theorem partsVal_inj {p : Nat} (hp : 0 < p) {q q' : ℚ} (hq : 0 < q) (hq' : 0 < q') (h : partsVal p q = partsVal p q') : parts p q = parts p q' := by
  obtain ⟨h1, h2, -, -⟩ := parts_cases hp hq
  obtain ⟨h1', h2', -, -⟩ := parts_cases hp hq'
  unfold partsVal at h
  generalize parts p q = kx at h h1 h2
  generalize parts p q' = kx' at h h1' h2'
  obtain ⟨k, x⟩ := kx
  obtain ⟨k', x'⟩ := kx'
  simp only at h h1 h2 h1' h2'
  have key : ∀ {k k' : ℕ} {x x' : ℤ}, 10 ^ (p - 1) ≤ k → k' < 10 ^ p → (k : ℚ) * 10 ^ (x - p + 1) = k' * 10 ^ (x' - p + 1) → x ≤ x' := by
    intro k k' x x' hk hk' e
    by_contra hlt
    have h3 : (10 : ℚ) ^ (p - 1) * 10 ^ (x - p + 1) < 10 ^ p * 10 ^ (x' - p + 1) := by
      have a1 : (10 : ℚ) ^ (p - 1) ≤ k := by exact_mod_cast hk
      have a2 : (k' : ℚ) < 10 ^ p := by exact_mod_cast hk'
      calc (10 : ℚ) ^ (p - 1) * 10 ^ (x - p + 1) ≤ k * 10 ^ (x - p + 1) := by gcongr
        _ = k' * 10 ^ (x' - p + 1) := e
        _ < 10 ^ p * 10 ^ (x' - p + 1) := by gcongr
    rw [← zpow_natCast, ← zpow_natCast, ← zpow_add₀ (by norm_num), ← zpow_add₀ (by norm_num), zpow_lt_zpow_iff_right₀ (by norm_num)] at h3
    omega
  have hx : x = x' := le_antisymm (key h1 h2' h) (key h1' h2 h.symm)
  subst hx
  have : (k : ℚ) = k' := mul_right_cancel₀ (by positivity) h
  have : k = k' := by exact_mod_cast this
  rw [this]

/-- The digits of a concrete number. -/
theorem parts_eq {p : Nat} (hp : 0 < p) {q : ℚ} {k : ℕ} {x : ℤ} (h1 : (10 : ℚ) ^ x ≤ q) (h2 : q < 10 ^ (x + 1))
    (h : |q - k * 10 ^ (x - p + 1)| < 10 ^ (x - p + 1) / 2) (hk : k < 10 ^ p) : parts p q = (k, x) := by
  have hq : 0 < q := lt_of_lt_of_le (by positivity) h1
  have hx : Int.log 10 q = x := by
    apply le_antisymm
    · have : Int.log 10 q < x + 1 := by rw [← Int.lt_zpow_iff_log_lt (by norm_num) hq]; exact_mod_cast h2
      omega
    · rw [← Int.zpow_le_iff_le_log (by norm_num) hq]; exact_mod_cast h1
  have hU : (0 : ℚ) < 10 ^ (x - p + 1) := by positivity
  have h3 : |q / 10 ^ (x - p + 1) - (k : ℤ)| < 1 / 2 := by
    have : q / 10 ^ (x - p + 1) - (k : ℤ) = (q - k * 10 ^ (x - p + 1)) / 10 ^ (x - p + 1) := by push_cast; field_simp
    rw [this, abs_div, abs_of_pos hU, div_lt_iff₀ hU]
    linarith
  have h4 := roundEven_nearest (q / 10 ^ (x - p + 1)) k
  have hr : roundEven (q / 10 ^ (x - p + 1)) = k := by
    have h5 := abs_sub_le (roundEven (q / 10 ^ (x - p + 1)) : ℚ) (q / 10 ^ (x - p + 1)) (k : ℤ)
    rw [abs_sub_comm (roundEven (q / 10 ^ (x - p + 1)) : ℚ) (q / 10 ^ (x - p + 1))] at h5
    have h6 : |((roundEven (q / 10 ^ (x - p + 1)) - k : ℤ) : ℚ)| < 1 := by push_cast; push_cast at h3 h4 h5; linarith
    have h7 : |roundEven (q / 10 ^ (x - p + 1)) - k| < 1 := by exact_mod_cast h6
    have := Int.abs_lt_one_iff.mp h7
    omega
  unfold parts
  simp only [hx, hr, Int.toNat_natCast]
  rw [if_neg hk.ne]

end Verif.ToStr
