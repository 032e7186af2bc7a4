import Verif.ToStr.Parts
import Mathlib.Data.List.TakeWhile
/-!
Lemmas: the number that a text denotes.
-/
namespace Verif.ToStr
open Spec

theorem span_all {p : Char → Bool} {a : Str} (h : ∀ c ∈ a, p c = true) : a.span p = (a, []) := by
  rw [List.span_eq_takeWhile_dropWhile, List.takeWhile_eq_self_iff.mpr h, List.dropWhile_eq_nil_iff.mpr h]

theorem span_stop {p : Char → Bool} {a b : Str} {c : Char} (h : ∀ c ∈ a, p c = true) (hc : p c = false) : (a ++ c :: b).span p = (a, c :: b) := by
  rw [List.span_eq_takeWhile_dropWhile, List.takeWhile_append_of_pos h, List.dropWhile_append_of_pos h]
  simp [hc]

def Digits (s : Str) : Prop := ∀ c ∈ s, c.isDigit = true

theorem natural_digits {s : Str} (h : Digits s) (h0 : s ≠ []) : natural s = some (Nat.ofDigitChars 10 s 0) := by
  unfold natural
  rw [if_pos ⟨h0, List.all_eq_true.mpr h⟩]

theorem digits_toDigits (n : Nat) : Digits (Nat.toDigits 10 n) := fun _ h => Nat.isDigit_of_mem_toDigits (by decide) (by decide) h

theorem digit_isDigit (k : Nat) : ((k % 10).digitChar).isDigit = true := by
  have : k % 10 < 10 := Nat.mod_lt _ (by decide)
  generalize k % 10 = r at this
  match r, this with
  | 0, _ | 1, _ | 2, _ | 3, _ | 4, _ | 5, _ | 6, _ | 7, _ | 8, _ | 9, _ => decide

theorem digits_pad (n k : Nat) : Digits (pad n k) := by
  induction n generalizing k with
  | zero => intro c h; cases h
  | succ n ih =>
    intro c h
    rcases List.mem_append.mp h with h | h
    · exact ih _ c h
    · rw [List.mem_singleton.mp h]; exact digit_isDigit k

theorem length_pad (n k : Nat) : (pad n k).length = n := by
  induction n generalizing k with
  | zero => rfl
  | succ n ih => simp [pad, ih]

theorem value_pad (n k : Nat) (h : k < 10 ^ n) : Nat.ofDigitChars 10 (pad n k) 0 = k := by
  induction n generalizing k with
  | zero => simp at h; subst h; rfl
  | succ n ih =>
    have h1 : k / 10 < 10 ^ n := by rw [Nat.div_lt_iff_lt_mul (by decide)]; rwa [pow_succ] at h
    rw [pad, Nat.ofDigitChars_append, ih _ h1, Nat.ofDigitChars_cons_digitChar_of_lt_ten (Nat.mod_lt _ (by decide)), Nat.ofDigitChars_nil]
    omega

theorem strip_append (s : Str) : ∃ n, s = strip s ++ List.replicate n '0' := by
  have h := List.takeWhile_append_dropWhile (p := (· == '0')) (l := s.reverse)
  refine ⟨(s.reverse.takeWhile (· == '0')).length, ?_⟩
  have e : s.reverse.takeWhile (· == '0') = List.replicate (s.reverse.takeWhile (· == '0')).length '0' := by
    rw [List.eq_replicate_iff]
    exact ⟨rfl, fun b hb => by simpa using List.mem_takeWhile_imp hb⟩
  have := congrArg List.reverse h
  rw [List.reverse_append, List.reverse_reverse] at this
  conv_lhs => rw [← this]
  unfold strip
  congr 1
  conv_lhs => rw [e, List.reverse_replicate]

theorem strip_last (s : Str) : ∀ t, strip s ≠ t ++ ['0'] := by
  intro t e
  have := congrArg List.reverse e
  unfold strip at this
  rw [List.reverse_reverse, List.reverse_append] at this
  have h := List.head?_dropWhile_not (p := (· == '0')) (l := s.reverse)
  rw [this] at h
  simp at h

theorem digits_strip {s : Str} (h : Digits s) : Digits (strip s) := by
  obtain ⟨n, e⟩ := strip_append s
  intro c hc
  exact h c (by rw [e]; exact List.mem_append_left _ hc)

theorem digit_ne {c d : Char} (h : c.isDigit = true) (hd : d.isDigit = false) : (c != d) = true := by
  by_cases e : c = d
  · subst e; rw [h] at hd; cases hd
  · simpa using e

theorem mantissa_pointText (dec k : Nat) : mantissa (pointText dec k) = some ((k : ℚ) / 10 ^ dec) := by
  have hi := digits_toDigits (k / 10 ^ dec)
  have hi0 : Nat.toDigits 10 (k / 10 ^ dec) ≠ [] := Nat.toDigits_ne_nil
  have hf := digits_strip (digits_pad dec (k % 10 ^ dec))
  obtain ⟨n, e⟩ := strip_append (pad dec (k % 10 ^ dec))
  have hv := value_pad dec (k % 10 ^ dec) (Nat.mod_lt _ (by positivity))
  have hl := length_pad dec (k % 10 ^ dec)
  have hk : (k : ℚ) = (k / 10 ^ dec : ℕ) * 10 ^ dec + (k % 10 ^ dec : ℕ) := by
    have := Nat.div_add_mod' k (10 ^ dec)
    exact_mod_cast this.symm
  unfold pointText
  generalize hs : strip (pad dec (k % 10 ^ dec)) = f at hf e
  rw [e, Nat.ofDigitChars_append, Nat.ofDigitChars_replicate_zero] at hv
  rw [e, List.length_append, List.length_replicate] at hl
  have hne : ∀ c ∈ Nat.toDigits 10 (k / 10 ^ dec), (c != '.') = true := fun c hc => digit_ne (hi c hc) (by decide)
  cases f with
  | nil =>
    simp only [List.append_nil]
    unfold mantissa
    rw [span_all hne]
    simp only [natural_digits hi hi0, Option.map_some, Option.some.injEq, Nat.ofDigitChars_ten_toDigits]
    simp only [Nat.ofDigitChars_nil, mul_zero] at hv
    rw [← hv] at hk
    rw [hk]
    push_cast
    field_simp
    ring
  | cons c f =>
    simp only
    unfold mantissa
    rw [span_stop hne (by decide)]
    simp only [natural_digits hi hi0, natural_digits hf (by simp), Option.map_some, Option.bind_some, Option.some.injEq, Nat.ofDigitChars_ten_toDigits]
    rw [eq_div_iff (by positivity), hk]
    have hv' : ((k % 10 ^ dec : ℕ) : ℚ) = 10 ^ n * (Nat.ofDigitChars 10 (c :: f) 0 : ℕ) := by exact_mod_cast hv.symm
    rw [hv', ← hl, pow_add]
    field_simp
    rw [pow_add]
    ring

theorem pointText_chars (dec k : Nat) : ∀ c ∈ pointText dec k, c.isDigit = true ∨ c = '.' := by
  intro c hc
  have hf := digits_strip (digits_pad dec (k % 10 ^ dec))
  unfold pointText at hc
  rcases List.mem_append.mp hc with h | h
  · exact Or.inl (digits_toDigits _ c h)
  · split at h
    · cases h
    · rcases List.mem_cons.mp h with h | h
      · exact Or.inr h
      · exact Or.inl (hf c h)

theorem pointText_head (dec k : Nat) : ∃ c s, pointText dec k = c :: s ∧ c.isDigit = true := by
  unfold pointText
  cases h : Nat.toDigits 10 (k / 10 ^ dec) with
  | nil => exact absurd h Nat.toDigits_ne_nil
  | cons c s => exact ⟨c, _, rfl, digits_toDigits _ c (by rw [h]; simp)⟩

theorem pointText_not_e (dec k : Nat) : ∀ c ∈ pointText dec k, (c != 'e') = true := by
  intro c hc
  rcases pointText_chars dec k c hc with h | h
  · exact digit_ne h (by decide)
  · subst h; decide

theorem unsigned_pointText (dec k : Nat) : unsigned (pointText dec k) = some ((k : ℚ) / 10 ^ dec) := by
  unfold unsigned
  rw [span_all (pointText_not_e dec k)]
  exact mantissa_pointText dec k

theorem integer_expText (x : Int) :
    integer ((if x < 0 then '-' else '+') :: (if x.natAbs < 10 then ['0'] else []) ++ Nat.toDigits 10 x.natAbs) = some x := by
  have hd : Digits ((if x.natAbs < 10 then ['0'] else []) ++ Nat.toDigits 10 x.natAbs) := by
    intro c hc
    rcases List.mem_append.mp hc with h | h
    · split at h
      · rw [List.mem_singleton.mp h]; decide
      · cases h
    · exact digits_toDigits _ c h
  have h0 : (if x.natAbs < 10 then ['0'] else []) ++ Nat.toDigits 10 x.natAbs ≠ [] := by
    intro h
    exact Nat.toDigits_ne_nil (List.append_eq_nil_iff.mp h).2
  have hv : Nat.ofDigitChars 10 ((if x.natAbs < 10 then ['0'] else []) ++ Nat.toDigits 10 x.natAbs) 0 = x.natAbs := by
    rw [Nat.ofDigitChars_append]
    split
    · have : Nat.ofDigitChars 10 ['0'] 0 = 0 := by decide
      rw [this, Nat.ofDigitChars_ten_toDigits]
    · rw [Nat.ofDigitChars_nil, Nat.ofDigitChars_ten_toDigits]
  by_cases hx : x < 0
  · simp only [if_pos hx, List.cons_append, integer, natural_digits hd h0, hv, Option.map_some, Option.some.injEq]
    omega
  · simp only [if_neg hx, List.cons_append, integer, natural_digits hd h0, hv, Option.map_some, Option.some.injEq]
    omega

theorem unsigned_exp (dec k : Nat) (x : Int) : unsigned (pointText dec k ++ expText x) = some ((k : ℚ) / 10 ^ dec * 10 ^ x) := by
  unfold unsigned expText
  rw [List.cons_append, span_stop (pointText_not_e dec k) (by decide)]
  simp only [mantissa_pointText, integer_expText, Option.bind_some, Option.map_some]

theorem number_sign (neg : Bool) {s : Str} {q : ℚ} (h : unsigned s = some q) (hd : ∃ c t, s = c :: t ∧ c.isDigit = true) :
    number ((if neg then ['-'] else []) ++ s) = some (if neg then -q else q) := by
  obtain ⟨c, t, rfl, hc⟩ := hd
  cases neg
  · simp only [Bool.false_eq_true, if_false, List.nil_append]
    have : c ≠ '-' := by rintro rfl; revert hc; decide
    unfold number
    split
    · rename_i heq; simp only [List.cons.injEq] at heq; exact absurd heq.1 this
    · exact h
  · simp only [if_true, List.cons_append, List.nil_append, number, h, Option.map_some]

/-- What `%.*g` writes denotes the number of its digits. -/
theorem number_gText {p : Nat} (hp : 0 < p) (neg : Bool) {q : ℚ} (hq : 0 ≤ q) :
    number (gText p neg q) = some (let y := if q = 0 then 0 else partsVal p q; if neg then -y else y) := by
  unfold gText
  by_cases h0 : q = 0
  · simp only [if_pos h0]
    refine number_sign neg ?_ ⟨'0', [], rfl, by decide⟩
    have := unsigned_pointText 0 0
    have e : pointText 0 0 = ['0'] := by decide
    rw [e] at this
    simpa using this
  · have hq' : 0 < q := lt_of_le_of_ne hq (Ne.symm h0)
    simp only [if_neg h0]
    have hv : partsVal p q = (parts p q).1 * 10 ^ ((parts p q).2 - p + 1) := rfl
    rw [hv]
    generalize parts p q = kx
    obtain ⟨k, x⟩ := kx
    simp only
    apply number_sign
    · split
      · rename_i h
        rw [unsigned_pointText, div_eq_mul_inv, ← zpow_natCast, ← zpow_neg]
        congr 3
        omega
      · rw [unsigned_exp, div_eq_mul_inv, ← zpow_natCast, ← zpow_neg, mul_assoc, ← zpow_add₀ (by norm_num)]
        congr 3
        omega
    · split
      · exact pointText_head _ _
      · obtain ⟨c, s, e, hc⟩ := pointText_head (p - 1) k
        exact ⟨c, s ++ expText x, by rw [e]; rfl, hc⟩

end Verif.ToStr
