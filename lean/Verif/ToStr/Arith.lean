import Verif.ToStr.Spec
import Mathlib.Tactic.Linarith
import Mathlib.Tactic.Ring
import Mathlib.Tactic.NormNum
import Mathlib.Tactic.FieldSimp
import Mathlib.Tactic.Positivity
import Mathlib.Algebra.Order.Field.Power
/-!
Lemmas: distances of numbers of limited precision in any base.
-/
namespace Verif.ToStr
open Spec

/-- Either the significand is full or the exponent is the least one. -/
theorem normalize {b : ℕ} (hb : 1 < b) {p : ℕ} (hp : 0 < p) {emin : ℤ} : ∀ (n : ℕ) (m e : ℤ), |m| < (b : ℤ) ^ p → e = emin + n →
    ∃ m' e' : ℤ, (m : ℚ) * (b : ℚ) ^ e = m' * (b : ℚ) ^ e' ∧ |m'| < (b : ℤ) ^ p ∧ emin ≤ e' ∧ ((b : ℤ) ^ (p - 1) ≤ |m'| ∨ e' = emin) := by
  have hb0 : (b : ℚ) ≠ 0 := by positivity
  intro n
  induction n with
  | zero => intro m e hm he; exact ⟨m, e, rfl, hm, by omega, Or.inr (by simpa using he)⟩
  | succ n ih =>
    intro m e hm he
    by_cases h : (b : ℤ) ^ (p - 1) ≤ |m|
    · exact ⟨m, e, rfl, hm, by omega, Or.inl h⟩
    · obtain ⟨m', e', h1, h2⟩ := ih (m * b) (e - 1) (by
        rw [abs_mul, Nat.abs_cast]
        have hbp : (0 : ℤ) < b := by omega
        calc |m| * (b : ℤ) < (b : ℤ) ^ (p - 1) * b := mul_lt_mul_of_pos_right (not_le.mp h) hbp
          _ = (b : ℤ) ^ p := by rw [← pow_succ]; congr 1; omega) (by push_cast at he; omega)
      refine ⟨m', e', ?_, h2⟩
      rw [← h1, zpow_sub_one₀ hb0]
      push_cast
      field_simp

/-- Different numbers with `p` digits in base `b` are not near to each other. -/
theorem apart {b : ℕ} (hb : 1 < b) {p : ℕ} (hp : 0 < p) {emin : ℤ} {x z : ℚ} {m e n f : ℤ} (hm : |m| < (b : ℤ) ^ p) (he : emin ≤ e)
    (hx : x = m * (b : ℚ) ^ e) (hn : |n| < (b : ℤ) ^ p) (hf : emin ≤ f) (hz : z = n * (b : ℚ) ^ f) (hne : x ≠ z) :
    |x| / (b : ℚ) ^ p ≤ |x - z| := by
  have hb0 : (0 : ℚ) < b := by positivity
  obtain ⟨m', e', h1, hm', he', hd⟩ := normalize hb hp (emin := emin) (e - emin).toNat m e hm (by omega)
  rw [h1] at hx
  clear h1 hm he
  have hP : (0 : ℚ) < (b : ℚ) ^ p := by positivity
  have hE : (0 : ℚ) < (b : ℚ) ^ e' := by positivity
  have hm'q : |(m' : ℚ)| < (b : ℚ) ^ p := by exact_mod_cast hm'
  have hnq : |(n : ℚ)| ≤ (b : ℚ) ^ p - 1 := by
    have : |n| ≤ (b : ℤ) ^ p - 1 := by omega
    exact_mod_cast this
  rw [div_le_iff₀ hP]
  by_cases hfe : e' ≤ f
  · -- multiples of the same power
    have hz' : z = ((n * (b : ℤ) ^ (f - e').toNat : ℤ) : ℚ) * (b : ℚ) ^ e' := by
      rw [hz]
      push_cast
      rw [mul_assoc, ← zpow_natCast, ← zpow_add₀ hb0.ne']
      congr 2
      omega
    set n' : ℤ := n * (b : ℤ) ^ (f - e').toNat with hn'
    have hd1 : m' ≠ n' := by
      intro h
      exact hne (by rw [hx, hz', h])
    have h1 : (1 : ℚ) ≤ |((m' - n' : ℤ) : ℚ)| := by
      have : (1 : ℤ) ≤ |m' - n'| := Int.one_le_abs (sub_ne_zero.mpr hd1)
      exact_mod_cast this
    have h2 : x - z = ((m' - n' : ℤ) : ℚ) * (b : ℚ) ^ e' := by
      rw [hx, hz']; push_cast; ring
    rw [h2, abs_mul, abs_of_pos hE, hx, abs_mul, abs_of_pos hE]
    calc |(m' : ℚ)| * (b : ℚ) ^ e' ≤ (b : ℚ) ^ p * (b : ℚ) ^ e' := by gcongr
      _ ≤ |((m' - n' : ℤ) : ℚ)| * (b : ℚ) ^ p * (b : ℚ) ^ e' := by
        have := mul_le_mul_of_nonneg_right h1 (mul_pos hP hE).le
        linarith
      _ = _ := by ring
  · rcases hd with hd | hd
    · -- `z` has a smaller exponent
      have hdq : (b : ℚ) ^ (p - 1) ≤ |(m' : ℚ)| := by exact_mod_cast hd
      have hzle : |z| ≤ ((b : ℚ) ^ p - 1) * ((b : ℚ) ^ e' / b) := by
        rw [hz, abs_mul, abs_of_pos (by positivity : (0 : ℚ) < (b : ℚ) ^ f)]
        have h3 : (b : ℚ) ^ f ≤ (b : ℚ) ^ e' / b := by
          rw [div_eq_mul_inv, ← zpow_sub_one₀ hb0.ne']
          exact zpow_le_zpow_right₀ (by exact_mod_cast hb.le) (by omega)
        have h4 : (0 : ℚ) ≤ (b : ℚ) ^ p - 1 := le_trans (abs_nonneg _) hnq
        calc |(n : ℚ)| * (b : ℚ) ^ f ≤ ((b : ℚ) ^ p - 1) * (b : ℚ) ^ f := by gcongr
          _ ≤ _ := by gcongr
      have hxe : |x| = |(m' : ℚ)| * (b : ℚ) ^ e' := by rw [hx, abs_mul, abs_of_pos hE]
      have htri : |x| - |z| ≤ |x - z| := abs_sub_abs_le_abs_sub x z
      have hpp : (b : ℚ) ^ p = (b : ℚ) ^ (p - 1) * b := by rw [← pow_succ]; congr 1; omega
      have hxge : (b : ℚ) ^ (p - 1) * (b : ℚ) ^ e' ≤ |x| := by rw [hxe]; gcongr
      have h4 : (0 : ℚ) ≤ (b : ℚ) ^ p - 1 := le_trans (abs_nonneg _) hnq
      -- `|x| (b^p - 1) ≥ b^p |z|`
      have h5 : (b : ℚ) ^ p * |z| ≤ |x| * ((b : ℚ) ^ p - 1) := by
        calc (b : ℚ) ^ p * |z| ≤ (b : ℚ) ^ p * (((b : ℚ) ^ p - 1) * ((b : ℚ) ^ e' / b)) := by gcongr
          _ = (b : ℚ) ^ (p - 1) * (b : ℚ) ^ e' * ((b : ℚ) ^ p - 1) := by
            rw [hpp]; field_simp
          _ ≤ _ := by gcongr
      calc |x| ≤ (|x| - |z|) * (b : ℚ) ^ p := by linarith
        _ ≤ _ := by gcongr
    · omega

theorem roundEven_near (q : ℚ) : |q - roundEven q| ≤ 1 / 2 := by
  have h1 := Int.floor_le q
  have h2 := Int.lt_floor_add_one q
  unfold roundEven
  simp only
  split
  · rw [abs_le]; constructor <;> linarith
  · split
    · push_cast; rw [abs_le]; constructor <;> linarith
    · split
      · rw [abs_le]; constructor <;> linarith
      · push_cast; rw [abs_le]; constructor <;> linarith

/-- Nothing is nearer to `q` than a number of 53 bits at a relative distance of `2 ^ -53`. -/
theorem binary_near {q : ℚ} (hq : (2 : ℚ) ^ (-1022 : ℤ) ≤ |q|) : ∃ z, Binary z ∧ |q - z| ≤ |q| / 2 ^ 53 := by
  have hpos : 0 < |q| := lt_of_lt_of_le (by positivity) hq
  set l := Int.log 2 |q| with hl
  have h1 : (2 : ℚ) ^ l ≤ |q| := by exact_mod_cast Int.zpow_log_le_self (b := 2) (by norm_num) hpos
  have h2 : |q| < (2 : ℚ) ^ (l + 1) := by exact_mod_cast Int.lt_zpow_succ_log_self (b := 2) (by norm_num) |q|
  have hl' : -1022 ≤ l := by
    rw [hl, ← Int.zpow_le_iff_le_log (by norm_num) hpos]
    exact_mod_cast hq
  set e := l - 52 with he
  have hE : (0 : ℚ) < 2 ^ e := by positivity
  have hle : (2 : ℚ) ^ l = 2 ^ 52 * 2 ^ e := by
    rw [← zpow_natCast, ← zpow_add₀ (by norm_num)]; congr 1; push_cast; omega
  have hle' : (2 : ℚ) ^ (l + 1) = 2 ^ 53 * 2 ^ e := by
    rw [← zpow_natCast, ← zpow_add₀ (by norm_num)]; congr 1; push_cast; omega
  set m := roundEven (q / 2 ^ e) with hm
  have hr := roundEven_near (q / 2 ^ e)
  rw [← hm] at hr
  have herr : |q - m * 2 ^ e| ≤ |q| / 2 ^ 53 := by
    have : q - m * 2 ^ e = (q / 2 ^ e - m) * 2 ^ e := by field_simp
    rw [this, abs_mul, abs_of_pos hE]
    calc |q / 2 ^ e - m| * 2 ^ e ≤ 1 / 2 * 2 ^ e := by gcongr
      _ = 2 ^ 52 * 2 ^ e / 2 ^ 53 := by ring
      _ ≤ _ := by rw [← hle]; gcongr
  have hmb : |m| ≤ 2 ^ 53 := by
    have h3 : |q / 2 ^ e| < 2 ^ 53 := by
      rw [abs_div, abs_of_pos hE, div_lt_iff₀ hE, ← hle']; exact h2
    have h4 : |(m : ℚ)| < 2 ^ 53 + 1 := by
      have := abs_sub_abs_le_abs_sub (m : ℚ) (q / 2 ^ e)
      rw [abs_sub_comm] at this
      linarith
    have : |m| < 2 ^ 53 + 1 := by exact_mod_cast h4
    omega
  refine ⟨m * 2 ^ e, ?_, herr⟩
  by_cases h : |m| < 2 ^ 53
  · exact ⟨m, e, h, by omega, rfl⟩
  · have hmm : |m| = 2 ^ 53 := by omega
    have : ∃ s : ℤ, |s| = 1 ∧ m = s * 2 ^ 53 := by
      rcases abs_eq (by positivity) |>.mp hmm with h | h
      · exact ⟨1, by simp, by rw [h]; ring⟩
      · exact ⟨-1, by simp, by rw [h]; ring⟩
    obtain ⟨s, hs, hms⟩ := this
    refine ⟨s * 2 ^ 52, e + 1, ?_, by omega, ?_⟩
    · rw [abs_mul, hs]; norm_num
    · rw [hms, zpow_add_one₀ (by norm_num)]; push_cast; ring

end Verif.ToStr
