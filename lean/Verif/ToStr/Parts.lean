import Verif.ToStr.Arith
/-!
Lemmas: the digits of a number, and the double that is read from them.
-/
namespace Verif.ToStr
open Spec

theorem roundEven_nearest (q : ℚ) (n : ℤ) : |q - roundEven q| ≤ |q - n| := by
  by_cases h : n = roundEven q
  · rw [h]
  · have h1 := roundEven_near q
    have h2 : (1 : ℚ) ≤ |((roundEven q - n : ℤ) : ℚ)| := by
      have : (1 : ℤ) ≤ |roundEven q - n| := Int.one_le_abs (sub_ne_zero.mpr (Ne.symm h))
      exact_mod_cast this
    push_cast at h2
    have h3 := abs_sub_le ((roundEven q : ℚ)) q n
    rw [abs_sub_comm ((roundEven q : ℚ)) q] at h3
    linarith

/-- The number that the digits stand for. -/
def partsVal (p : Nat) (q : ℚ) : ℚ := (parts p q).1 * 10 ^ ((parts p q).2 - p + 1)

theorem log_le {q : ℚ} (hq : 0 < q) : (10 : ℚ) ^ Int.log 10 q ≤ q ∧ q < (10 : ℚ) ^ (Int.log 10 q + 1) :=
  ⟨by exact_mod_cast Int.zpow_log_le_self (b := 10) (by norm_num) hq, by exact_mod_cast Int.lt_zpow_succ_log_self (b := 10) (by norm_num) q⟩

theorem parts_raw {p : Nat} (hp : 0 < p) {q : ℚ} (hq : 0 < q) :
    (10 : ℤ) ^ (p - 1) ≤ roundEven (q / 10 ^ (Int.log 10 q - p + 1)) ∧ roundEven (q / 10 ^ (Int.log 10 q - p + 1)) ≤ (10 : ℤ) ^ p := by
  obtain ⟨h1, h2⟩ := log_le hq
  set x := Int.log 10 q
  have hU : (0 : ℚ) < 10 ^ (x - p + 1) := by positivity
  have e1 : (10 : ℚ) ^ x = 10 ^ (p - 1) * 10 ^ (x - p + 1) := by
    rw [← zpow_natCast, ← zpow_add₀ (by norm_num)]; congr 1; omega
  have e2 : (10 : ℚ) ^ (x + 1) = 10 ^ p * 10 ^ (x - p + 1) := by
    rw [← zpow_natCast, ← zpow_add₀ (by norm_num)]; congr 1; omega
  have h3 : (10 : ℚ) ^ (p - 1) ≤ q / 10 ^ (x - p + 1) := by rw [le_div_iff₀ hU, ← e1]; exact h1
  have h4 : q / 10 ^ (x - p + 1) < (10 : ℚ) ^ p := by rw [div_lt_iff₀ hU, ← e2]; exact h2
  have h5 := abs_le.mp (roundEven_near (q / 10 ^ (x - p + 1)))
  set r := roundEven (q / 10 ^ (x - p + 1))
  constructor
  · have : ((10 : ℤ) ^ (p - 1) : ℚ) < (r : ℚ) + 1 := by push_cast; linarith [h5.2]
    have : (10 : ℤ) ^ (p - 1) < r + 1 := by exact_mod_cast this
    omega
  · have : (r : ℚ) < ((10 : ℤ) ^ p : ℚ) + 1 := by push_cast; linarith [h5.1]
    have : r < (10 : ℤ) ^ p + 1 := by exact_mod_cast this
    omega

theorem parts_cases {p : Nat} (hp : 0 < p) {q : ℚ} (hq : 0 < q) :
    10 ^ (p - 1) ≤ (parts p q).1 ∧ (parts p q).1 < 10 ^ p ∧ ((parts p q).2 = Int.log 10 q ∨ (parts p q).2 = Int.log 10 q + 1) ∧
      partsVal p q = roundEven (q / 10 ^ (Int.log 10 q - p + 1)) * 10 ^ (Int.log 10 q - p + 1) := by
  obtain ⟨h1, h2⟩ := parts_raw hp hq
  unfold partsVal
  unfold parts
  simp only
  set x := Int.log 10 q
  set r := roundEven (q / 10 ^ (x - p + 1))
  have hr : (r.toNat : ℤ) = r := Int.toNat_of_nonneg (le_trans (by positivity) h1)
  have hrq : (r.toNat : ℚ) = (r : ℚ) := by exact_mod_cast congrArg (Int.cast (R := ℚ)) hr
  split
  · rename_i h
    refine ⟨le_refl _, ?_, Or.inr rfl, ?_⟩
    · exact Nat.pow_lt_pow_right (by norm_num) (by omega)
    · rw [← hrq, h]
      push_cast
      rw [← zpow_natCast, ← zpow_natCast, ← zpow_add₀ (by norm_num), ← zpow_add₀ (by norm_num)]
      congr 1
      omega
  · rename_i h
    refine ⟨?_, ?_, Or.inl rfl, ?_⟩
    · have : ((10 ^ (p - 1) : ℕ) : ℤ) ≤ (r.toNat : ℤ) := by rw [hr]; exact_mod_cast h1
      exact_mod_cast this
    · have : (r.toNat : ℤ) ≤ ((10 ^ p : ℕ) : ℤ) := by rw [hr]; exact_mod_cast h2
      have : r.toNat ≤ 10 ^ p := by exact_mod_cast this
      omega
    · rw [hrq]

/-- The error is at most half a unit of the last digit. -/
theorem parts_error {p : Nat} (hp : 0 < p) {q : ℚ} (hq : 0 < q) : |q - partsVal p q| ≤ 10 ^ (Int.log 10 q - p + 1) / 2 := by
  rw [(parts_cases hp hq).2.2.2]
  set x := Int.log 10 q
  have hU : (0 : ℚ) < 10 ^ (x - p + 1) := by positivity
  have e : q - roundEven (q / 10 ^ (x - p + 1)) * 10 ^ (x - p + 1) = (q / 10 ^ (x - p + 1) - roundEven (q / 10 ^ (x - p + 1))) * 10 ^ (x - p + 1) := by
    field_simp
  rw [e, abs_mul, abs_of_pos hU]
  have := roundEven_near (q / 10 ^ (x - p + 1))
  have := mul_le_mul_of_nonneg_right this hU.le
  linarith

/-- No decimal of as many digits is nearer. -/
theorem parts_nearest {p : Nat} (hp : 0 < p) {q : ℚ} (hq : 0 < q) {d : ℚ} (hd : Decimal p d) : |q - partsVal p q| ≤ |q - d| := by
  obtain ⟨h1, h2⟩ := log_le hq
  rw [(parts_cases hp hq).2.2.2]
  set x := Int.log 10 q
  have hU : (0 : ℚ) < 10 ^ (x - p + 1) := by positivity
  have e1 : (10 : ℚ) ^ x = ((10 ^ (p - 1) : ℤ) : ℚ) * 10 ^ (x - p + 1) := by
    push_cast
    rw [← zpow_natCast, ← zpow_add₀ (by norm_num)]; congr 1; omega
  have mult : ∀ n : ℤ, |q - roundEven (q / 10 ^ (x - p + 1)) * 10 ^ (x - p + 1)| ≤ |q - n * 10 ^ (x - p + 1)| := by
    intro n
    have e : ∀ r : ℤ, q - r * 10 ^ (x - p + 1) = (q / 10 ^ (x - p + 1) - r) * 10 ^ (x - p + 1) := by
      intro r; field_simp
    rw [e, e, abs_mul, abs_mul]
    exact mul_le_mul_of_nonneg_right (roundEven_nearest _ n) (abs_nonneg _)
  obtain ⟨k, j, hk, rfl⟩ := hd
  by_cases h : x - p + 1 ≤ j
  · have := mult (k * 10 ^ (j - (x - p + 1)).toNat)
    convert this using 3
    push_cast
    rw [mul_assoc, ← zpow_natCast, ← zpow_add₀ (by norm_num)]
    congr 2
    omega
  · have hlt : k * (10 : ℚ) ^ j ≤ 10 ^ x := by
      have hkq : (k : ℚ) ≤ 10 ^ p := by
        have : k ≤ 10 ^ p := le_trans (le_abs_self k) hk.le
        exact_mod_cast this
      calc (k : ℚ) * 10 ^ j ≤ 10 ^ p * 10 ^ j := by gcongr
        _ = 10 ^ (j + p) := by rw [← zpow_natCast, ← zpow_add₀ (by norm_num)]; congr 1; omega
        _ ≤ 10 ^ x := zpow_le_zpow_right₀ (by norm_num) (by omega)
    have := mult (10 ^ (p - 1))
    rw [← e1] at this
    refine le_trans this ?_
    rw [abs_of_nonneg (by linarith), abs_of_nonneg (by linarith)]
    linarith

theorem partsVal_pos {p : Nat} (hp : 0 < p) {q : ℚ} (hq : 0 < q) : 0 < partsVal p q := by
  have h := (parts_cases hp hq).1
  have : 0 < (parts p q).1 := lt_of_lt_of_le (by positivity) h
  unfold partsVal
  positivity

theorem decimal_partsVal {p : Nat} (hp : 0 < p) {q : ℚ} (hq : 0 < q) : Decimal p (partsVal p q) := by
  have h := (parts_cases hp hq).2.1
  exact ⟨(parts p q).1, _, by rw [Nat.abs_cast]; exact_mod_cast h, by unfold partsVal; push_cast; rfl⟩

/-- Different numbers of 53 bits. -/
theorem binary_apart {x z : ℚ} (hx : Binary x) (hz : Binary z) (h : x ≠ z) : |x| / 2 ^ 53 ≤ |x - z| := by
  obtain ⟨m, e, hm, he, rfl⟩ := hx
  obtain ⟨n, f, hn, hf, rfl⟩ := hz
  exact_mod_cast apart (b := 2) (p := 53) (emin := -1074) (by norm_num) (by norm_num) (by exact_mod_cast hm) he (by norm_num)
    (by exact_mod_cast hn) hf (by norm_num) h

/-- Different decimals. -/
theorem decimal_apart {p : Nat} (hp : 0 < p) {x z : ℚ} (hx : Decimal p x) (hz : Decimal p z) (h : x ≠ z) : |x| / 10 ^ p ≤ |x - z| := by
  obtain ⟨m, e, hm, rfl⟩ := hx
  obtain ⟨n, f, hn, rfl⟩ := hz
  exact_mod_cast apart (b := 10) (p := p) (emin := min e f) (by norm_num) hp (by exact_mod_cast hm) (min_le_left _ _) (by norm_num)
    (by exact_mod_cast hn) (min_le_right _ _) (by norm_num) h

/-- 17 digits tell a double. -/
theorem reads_17 {x : ℚ} (hx : Binary x) (h0 : 0 < x) {z : ℚ} (hz : Binary z) (hne : z ≠ x) : |partsVal 17 x - x| < |partsVal 17 x - z| := by
  have h1 := parts_error (p := 17) (by norm_num) h0
  obtain ⟨h2, -⟩ := log_le h0
  have h3 := binary_apart hx hz (Ne.symm hne)
  rw [abs_of_pos h0] at h3
  rw [abs_sub_comm] at h1
  set y := partsVal 17 x
  have h4 : (10 : ℚ) ^ (Int.log 10 x - (17 : ℕ) + 1) = 10 ^ Int.log 10 x / 10 ^ 16 := by
    rw [eq_div_iff (by norm_num), ← zpow_natCast, ← zpow_add₀ (by norm_num)]; congr 1; push_cast; omega
  rw [h4] at h1
  have h5 : |y - x| < |x - z| / 2 := by
    have : x / 10 ^ 16 < x / 2 ^ 53 := by
      apply div_lt_div_of_pos_left h0 <;> norm_num
    have : (10 : ℚ) ^ Int.log 10 x / 10 ^ 16 ≤ x / 10 ^ 16 := by gcongr
    linarith
  have h6 := abs_sub_le x y z
  rw [abs_sub_comm x y] at h6
  linarith

/-- A decimal of 15 digits is told by the double that it is read as. -/
theorem reads_15 {d x : ℚ} (hd : Decimal 15 d) (hn : (2 : ℚ) ^ (-1022 : ℤ) ≤ d) (hx : ReadsAs d x) : 0 < x ∧ partsVal 15 x = d := by
  have hd0 : 0 < d := lt_of_lt_of_le (by positivity) hn
  obtain ⟨z, hz, hzd⟩ := binary_near (q := d) (by rwa [abs_of_pos hd0])
  have h1 := le_trans (hx.2 z hz) hzd
  rw [abs_of_pos hd0] at h1
  have hx0 : 0 < x := by
    have := (abs_le.mp h1).2
    have : d / 2 ^ 53 < d := by apply div_lt_self hd0; norm_num
    linarith
  refine ⟨hx0, ?_⟩
  by_contra hne
  have h2 := parts_nearest (p := 15) (by norm_num) hx0 hd
  have h3 := decimal_apart (p := 15) (by norm_num) hd (decimal_partsVal (p := 15) (by norm_num) hx0) (Ne.symm hne)
  rw [abs_of_pos hd0] at h3
  have h4 := abs_sub_le d x (partsVal 15 x)
  rw [abs_sub_comm x d] at h2
  have h5 : 2 * (d / 2 ^ 53) < d / 10 ^ 15 := by
    rw [← mul_div_assoc, div_lt_div_iff₀ (by norm_num) (by norm_num)]
    nlinarith
  linarith

end Verif.ToStr
