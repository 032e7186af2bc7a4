import Verif.ToStr.Json
/-!
Non-vacuity: every number in range is read as some double, so that there is a `Reader`; texts from the documentation (adobe/string/to_string.hpp:38-75).
-/
namespace Verif.ToStr
open Spec

theorem log_range {q : ℚ} (hq : 0 < q) (hr : q < 2 ^ 1023) : Int.log 2 q ≤ 1022 := by
  have : Int.log 2 q < 1023 := by
    rw [← Int.lt_zpow_iff_log_lt (by norm_num) hq]
    have e : ((2 : ℕ) : ℚ) ^ (1023 : ℤ) = 2 ^ 1023 := zpow_natCast (2 : ℚ) 1023
    rwa [e]
  omega

/-- Every positive number that is not too large is read as some double. -/
theorem nearest_pos {q : ℚ} (hq : 0 < q) (hl : Int.log 2 q ≤ 1022) (s : Bool) : ∃ x : Dbl, x.neg = s ∧ ReadsAs q x.abs := by
  have h1 : (2 : ℚ) ^ Int.log 2 q ≤ q := by exact_mod_cast Int.zpow_log_le_self (b := 2) (by norm_num) hq
  have h2 : q < (2 : ℚ) ^ (Int.log 2 q + 1) := by exact_mod_cast Int.lt_zpow_succ_log_self (b := 2) (by norm_num) q
  set l := Int.log 2 q
  set e := max (l - 52) (-1074) with he
  have hE : (0 : ℚ) < 2 ^ e := by positivity
  set r := roundEven (q / 2 ^ e) with hrdef
  have hr0 := abs_le.mp (roundEven_near (q / 2 ^ e))
  rw [← hrdef] at hr0
  have hqe : 0 < q / 2 ^ e := by positivity
  have hqe' : q / 2 ^ e < 2 ^ 53 := by
    rw [div_lt_iff₀ hE]
    refine lt_of_lt_of_le h2 ?_
    rw [← zpow_natCast, ← zpow_add₀ (by norm_num)]
    exact zpow_le_zpow_right₀ (by norm_num) (by push_cast; omega)
  have hrn : 0 ≤ r := by
    have : (-1 : ℚ) < r := by linarith [hr0.2]
    have : (-1 : ℤ) < r := by exact_mod_cast this
    omega
  have hrb : r ≤ 2 ^ 53 := by
    have : (r : ℚ) < ((2 ^ 53 + 1 : ℤ) : ℚ) := by push_cast; linarith [hr0.1]
    have : r < 2 ^ 53 + 1 := by exact_mod_cast this
    omega
  -- nothing is nearer
  have near : ∀ z, Binary z → |q - r * 2 ^ e| ≤ |q - z| := by
    have mult : ∀ n : ℤ, |q - r * 2 ^ e| ≤ |q - n * 2 ^ e| := by
      intro n
      have e' : ∀ r : ℤ, q - r * 2 ^ e = (q / 2 ^ e - r) * 2 ^ e := by intro r; field_simp
      rw [e', e', abs_mul, abs_mul]
      exact mul_le_mul_of_nonneg_right (roundEven_nearest _ n) (abs_nonneg _)
    rintro z ⟨m, f, hm, hf, rfl⟩
    by_cases h : e ≤ f
    · have := mult (m * 2 ^ (f - e).toNat)
      convert this using 3
      push_cast
      rw [mul_assoc, ← zpow_natCast, ← zpow_add₀ (by norm_num)]
      congr 2
      omega
    · have hlt : m * (2 : ℚ) ^ f ≤ 2 ^ l := by
        have hmq : (m : ℚ) ≤ 2 ^ 53 := by
          have : m ≤ 2 ^ 53 := le_trans (le_abs_self m) hm.le
          exact_mod_cast this
        calc (m : ℚ) * 2 ^ f ≤ 2 ^ 53 * 2 ^ f := by gcongr
          _ = 2 ^ (53 + f) := by rw [← zpow_natCast, ← zpow_add₀ (by norm_num)]; norm_num
          _ ≤ 2 ^ l := zpow_le_zpow_right₀ (by norm_num) (by omega)
      have e1 : (2 : ℚ) ^ l = ((2 ^ 52 : ℤ) : ℚ) * 2 ^ e := by
        have : l = (52 : ℕ) + e := by omega
        rw [this, zpow_add₀ (by norm_num), zpow_natCast]
        push_cast
        rfl
      have := mult (2 ^ 52)
      rw [← e1] at this
      refine le_trans this ?_
      rw [abs_of_nonneg (by linarith), abs_of_nonneg (by linarith)]
      linarith
  have he1 : -1074 ≤ e := le_max_right _ _
  have he2 : e ≤ 970 := by omega
  clear_value e r
  by_cases hb : r = 2 ^ 53
  · refine ⟨⟨s, 2 ^ 52, e + 1, by norm_num, by omega, by omega⟩, rfl, ?_⟩
    have hv : (⟨s, 2 ^ 52, e + 1, by norm_num, by omega, by omega⟩ : Dbl).abs = r * 2 ^ e := by
      unfold Dbl.abs
      simp only
      rw [hb, zpow_add_one₀ (by norm_num)]
      push_cast
      ring
    refine ⟨Dbl.binary_abs _, ?_⟩
    rw [hv]
    exact near
  · have hrlt : r.toNat < 2 ^ 53 := by omega
    refine ⟨⟨s, r.toNat, e, hrlt, by omega, by omega⟩, rfl, ?_⟩
    have hv : (⟨s, r.toNat, e, hrlt, by omega, by omega⟩ : Dbl).abs = r * 2 ^ e := by
      unfold Dbl.abs
      simp only
      have : (r.toNat : ℤ) = r := Int.toNat_of_nonneg hrn
      have : (r.toNat : ℚ) = r := by exact_mod_cast congrArg (Int.cast (R := ℚ)) this
      rw [this]
    refine ⟨Dbl.binary_abs _, ?_⟩
    rw [hv]
    exact near

theorem mantissa_nonneg {s : Str} {q : ℚ} (h : mantissa s = some q) : 0 ≤ q := by
  unfold mantissa at h
  split at h
  · obtain ⟨n, -, rfl⟩ := Option.map_eq_some_iff.mp h
    positivity
  · obtain ⟨n, -, h⟩ := Option.bind_eq_some_iff.mp h
    obtain ⟨d, -, rfl⟩ := Option.map_eq_some_iff.mp h
    positivity

theorem unsigned_nonneg {s : Str} {q : ℚ} (h : unsigned s = some q) : 0 ≤ q := by
  unfold unsigned at h
  split at h
  · exact mantissa_nonneg h
  · obtain ⟨m, hm, h⟩ := Option.bind_eq_some_iff.mp h
    obtain ⟨d, -, rfl⟩ := Option.map_eq_some_iff.mp h
    have := mantissa_nonneg hm
    positivity

theorem ofNat_minus {n : Nat} (h : Char.ofNat n = '-') : n = '-'.toNat := by
  by_cases hv : n.isValidChar
  · have e : Char.ofNat n = Char.ofNatAux n hv := by unfold Char.ofNat; rw [dif_pos hv]
    rw [← h, e]
    simp [Char.ofNatAux, Char.toNat]
  · have e : Char.ofNat n = '\x00' := by unfold Char.ofNat; rw [dif_neg hv]; rfl
    rw [e] at h
    exact absurd h (by decide)

/-- The sign of what a text denotes. -/
theorem number_sign_of {t : List Nat} {d : ℚ} (h : number (chars t) = some d) :
    (t.head? = some '-'.toNat → d ≤ 0) ∧ (t.head? ≠ some '-'.toNat → 0 ≤ d) := by
  cases t with
  | nil =>
    refine ⟨fun h => by simp at h, fun _ => ?_⟩
    exact unsigned_nonneg (s := []) h
  | cons n t =>
    simp only [List.head?_cons, Option.some.injEq, ne_eq]
    have hc : chars (n :: t) = Char.ofNat n :: chars t := rfl
    rw [hc] at h
    unfold number at h
    split at h
    · rename_i heq
      simp only [List.cons.injEq] at heq
      obtain ⟨q, hq, rfl⟩ := Option.map_eq_some_iff.mp h
      have := unsigned_nonneg hq
      exact ⟨fun _ => by linarith, fun hne => absurd (ofNat_minus heq.1) hne⟩
    · rename_i hne
      refine ⟨fun hn => ?_, fun _ => unsigned_nonneg h⟩
      exfalso
      refine hne (chars t) ?_
      rw [hn]
      rfl

/-- There are readers. -/
theorem reader_exists : ∃ strtod, Reader strtod := by
  have key : ∀ t : List Nat, ∃ o : Option Dbl, ∀ d, number (chars t) = some d → |d| < 2 ^ 1023 →
      ∃ x, o = some x ∧ ReadsAs d x.val ∧ (x.neg = true ↔ t.head? = some '-'.toNat) := by
    intro t
    by_cases h : ∃ d, number (chars t) = some d ∧ |d| < 2 ^ 1023
    · obtain ⟨d, hd, hb⟩ := h
      obtain ⟨hs1, hs2⟩ := number_sign_of hd
      have : ∃ x : Dbl, ReadsAs d x.val ∧ (x.neg = true ↔ t.head? = some '-'.toNat) := by
        by_cases hh : t.head? = some '-'.toNat
        · have hle := hs1 hh
          rcases hle.lt_or_eq with hlt | rfl
          · obtain ⟨x, hx, hr⟩ := nearest_pos (q := -d) (neg_pos.mpr hlt) (log_range (neg_pos.mpr hlt) (by rw [← abs_of_neg hlt]; exact hb)) true
            refine ⟨x, ?_, by rw [hx]; exact ⟨fun h => (by first | exact hh | exact absurd h (by decide)), fun h => (by first | rfl | exact absurd h hh)⟩⟩
            unfold Dbl.val
            rw [if_pos hx, ← neg_neg d]
            exact readsAs_neg.mpr hr
          · refine ⟨⟨true, 0, 0, by decide, by decide, by decide⟩, ?_, ⟨fun h => (by first | exact hh | exact absurd h (by decide)), fun h => (by first | rfl | exact absurd h hh)⟩⟩
            have : (⟨true, 0, 0, by decide, by decide, by decide⟩ : Dbl).val = 0 := by simp [Dbl.val, Dbl.abs]
            rw [this]
            exact ⟨binary_zero, fun z _ => by simp⟩
        · have hle := hs2 hh
          rcases hle.lt_or_eq with hlt | rfl
          · obtain ⟨x, hx, hr⟩ := nearest_pos hlt (log_range hlt (by rw [← abs_of_pos hlt]; exact hb)) false
            refine ⟨x, ?_, by rw [hx]; exact ⟨fun h => (by first | exact hh | exact absurd h (by decide)), fun h => (by first | rfl | exact absurd h hh)⟩⟩
            unfold Dbl.val
            rw [hx]
            exact hr
          · refine ⟨⟨false, 0, 0, by decide, by decide, by decide⟩, ?_, ⟨fun h => (by first | exact hh | exact absurd h (by decide)), fun h => (by first | rfl | exact absurd h hh)⟩⟩
            have : (⟨false, 0, 0, by decide, by decide, by decide⟩ : Dbl).val = 0 := by simp [Dbl.val, Dbl.abs]
            rw [this]
            exact ⟨binary_zero, fun z _ => by simp⟩
      obtain ⟨x, hx⟩ := this
      refine ⟨some x, fun d' hd' _ => ⟨x, rfl, ?_⟩⟩
      rw [hd, Option.some.injEq] at hd'
      rw [← hd']
      exact hx
    · exact ⟨none, fun d hd hb => absurd ⟨d, hd, hb⟩ h⟩
  choose f hf using key
  exact ⟨f, fun t d h1 h2 => hf t d h1 h2⟩

/-- C127 applies: the array of 0.3 and 0, for some reader. -/
example : ∃ strtod v', Reader strtod ∧
    Verif.Json.parse strtod ((Verif.Json.generate jsonText (.arr [.num x3, .num ⟨false, 0, 0, by decide, by decide, by decide⟩]) 0).getD [] ++ [0]) =
      .ok v' [0] := by
  obtain ⟨f, hf⟩ := reader_exists
  have hp : Plain (.arr [.num x3, .num ⟨false, 0, 0, by decide, by decide, by decide⟩]) := by
    refine ⟨Or.inr ⟨?_, ?_⟩, Or.inl (by simp [Dbl.abs]), trivial⟩
    · have h1 : (2 : ℚ) ^ (-1021 : ℤ) ≤ 2 ^ (-2 : ℤ) := zpow_le_zpow_right₀ (by norm_num) (by norm_num)
      refine le_trans h1 ?_
      rw [x3_abs]; norm_num [zpow_neg]
    · have h1 : (1 : ℚ) ≤ 2 ^ 1022 := one_le_pow₀ (by norm_num)
      refine le_trans ?_ h1
      rw [x3_abs]; norm_num
  obtain ⟨v', h1, -⟩ := C127_stable_partial hf hp (n := 0) rfl
  exact ⟨f, v', hf, h1⟩

/-- C125 applies: 0.3 is read as the double of that name, and written as `0.3`. -/
example : Decimal 15 (3 / 10) ∧ toStringOut x3 false = some "0.3".toList := by
  refine ⟨⟨3, -1, by norm_num, by norm_num [zpow_neg]⟩, ?_⟩
  rw [(toStringOut_some x3 false).1]
  simp only [Bool.false_eq_true, if_false]
  have h0 : x3.abs ≠ 0 := by rw [x3_abs]; norm_num
  unfold gText
  rw [if_neg h0, x3_parts]
  decide

/-- The digits of 0.3, precisely. -/
example : toStringOut x3 true = some "0.29999999999999999".toList := by
  rw [(toStringOut_some x3 true).1]
  have h0 : x3.abs ≠ 0 := by rw [x3_abs]; norm_num
  have h1 : parts 17 x3.abs = (29999999999999999, -1) := by
    rw [x3_abs]
    apply parts_eq (by decide) <;> norm_num [zpow_neg, abs_lt]
  unfold gText
  rw [if_neg h0]
  simp only [if_true, h1]
  decide

/-- `-20.5` and `42`. -/
example : toStringOut ⟨true, 41, -1, by decide, by decide, by decide⟩ false = some "-20.5".toList := by
  rw [(toStringOut_some _ false).1]
  have ha : (⟨true, 41, -1, by decide, by decide, by decide⟩ : Dbl).abs = 41 / 2 := by norm_num [Dbl.abs, zpow_neg]
  rw [ha]
  have h1 : parts 15 (41 / 2) = (205000000000000, 1) := by
    apply parts_eq (by decide) <;> norm_num [zpow_neg, abs_lt]
  unfold gText
  rw [if_neg (by norm_num : ¬ (41 / 2 : ℚ) = 0)]
  simp only [Bool.false_eq_true, if_false, h1]
  decide

set_option exponentiation.threshold 2000 in
/-- The longest text: `-1.7976931348623157e+308`, of 24 characters. -/
example : toStringOut ⟨true, 2 ^ 53 - 1, 971, by decide, by decide, by decide⟩ true = some "-1.7976931348623157e+308".toList := by
  rw [(toStringOut_some _ true).1]
  have ha : (⟨true, 2 ^ 53 - 1, 971, by decide, by decide, by decide⟩ : Dbl).abs = (2 ^ 53 - 1) * 2 ^ 971 := by
    have : (2 : ℚ) ^ (971 : ℤ) = 2 ^ 971 := zpow_natCast (2 : ℚ) 971
    unfold Dbl.abs
    simp only
    rw [this]
    norm_num
  rw [ha]
  have e1 : (10 : ℚ) ^ (308 : ℤ) = 10 ^ 308 := zpow_natCast (10 : ℚ) 308
  have e2 : (10 : ℚ) ^ (308 + 1 : ℤ) = 10 ^ 309 := zpow_natCast (10 : ℚ) 309
  have e3 : (10 : ℚ) ^ ((308 : ℤ) - (17 : ℕ) + 1) = 10 ^ 292 := zpow_natCast (10 : ℚ) 292
  have h1 : parts 17 ((2 ^ 53 - 1) * 2 ^ 971) = (17976931348623157, 308) := by
    apply parts_eq (by decide)
    · rw [e1]; norm_num
    · rw [e2]; norm_num
    · rw [e3, abs_lt]; constructor <;> norm_num
    · norm_num
  have h0 : ((2 ^ 53 - 1) * 2 ^ 971 : ℚ) ≠ 0 := by positivity
  unfold gText
  rw [if_neg h0]
  simp only [if_true, h1]
  decide

end Verif.ToStr
