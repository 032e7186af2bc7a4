import Verif.Unicode.Model
import Verif.Unicode.Spec
namespace Verif.Unicode

theorem and_63 (x : Nat) : x &&& 0x3F = x % 64 := Nat.and_two_pow_sub_one_eq_mod x 6
theorem and_127 (x : Nat) : x &&& 0x7F = x % 128 := Nat.and_two_pow_sub_one_eq_mod x 7
theorem and_31 (x : Nat) : x &&& 0x1F = x % 32 := Nat.and_two_pow_sub_one_eq_mod x 5
theorem and_15 (x : Nat) : x &&& 0x0F = x % 16 := Nat.and_two_pow_sub_one_eq_mod x 4
theorem and_1023 (x : Nat) : x &&& 0x3FF = x % 1024 := Nat.and_two_pow_sub_one_eq_mod x 10

/-- disjoint or = addition -/
theorem or_add (a b k : Nat) (h : b < 2 ^ k) : (a <<< k) ||| b = a * 2 ^ k + b := by
  rw [Nat.shiftLeft_eq, Nat.mul_comm, Nat.two_pow_add_eq_or_of_lt h]

theorem addMask_80 (x : Nat) (h : x < 64) : addMask 0x80 x = 0x80 + x := by
  revert x; decide
theorem addMask_C0 (x : Nat) (h : x < 32) : addMask 0xC0 x = 0xC0 + x := by
  revert x; decide
theorem addMask_E0 (x : Nat) (h : x < 16) : addMask 0xE0 x = 0xE0 + x := by
  revert x; decide
theorem addMask_F0 (x : Nat) (h : x < 8) : addMask 0xF0 x = 0xF0 + x := by
  revert x; decide

theorem strip_80 (x : Nat) : stripMask 0x80 x = x % 128 := and_127 x
theorem strip_C0 (x : Nat) : stripMask 0xC0 x = x % 64 := and_63 x
theorem strip_E0 (x : Nat) : stripMask 0xE0 x = x % 32 := and_31 x
theorem strip_F0 (x : Nat) : stripMask 0xF0 x = x % 16 := and_15 x

theorem demote_eq (pos c : Nat) : demote pos c = c / 2 ^ ((pos - 1) * 6) % 64 := by
  unfold demote; rw [and_63, Nat.shiftRight_eq_div_pow]

theorem encode8_eq (c : Nat) (h : c < 2 ^ 21) : encode8 c = (utf8Spec c, true) := by
  unfold encode8 utf8Spec
  by_cases h1 : c < 2 ^ 7
  · rw [if_pos h1, if_pos (show c ≤ 0x7F by omega)]
  · rw [if_neg h1, if_neg (show ¬ c ≤ 0x7F by omega)]
    by_cases h2 : c < 2 ^ 11
    · rw [if_pos h2, if_pos (show c ≤ 0x7FF by omega)]
      simp only [demotion, header, demote_eq, Nat.reduceSub, Nat.reduceMul, Nat.reducePow, Nat.zero_mul, Nat.pow_zero,
        Nat.div_one, if_true]
      rw [addMask_80 _ (by omega), addMask_C0 _ (by omega), Nat.mod_eq_of_lt (a := c / 64) (by omega)]
    · rw [if_neg h2, if_neg (show ¬ c ≤ 0x7FF by omega)]
      by_cases h3 : c < 2 ^ 16
      · rw [if_pos h3, if_pos (show c ≤ 0xFFFF by omega)]
        simp only [demotion, header, demote_eq, Nat.reduceSub, Nat.reduceMul, Nat.reducePow, Nat.zero_mul, Nat.pow_zero,
          Nat.div_one, if_true, Bool.false_eq_true, if_false]
        rw [addMask_80 _ (by omega), addMask_80 _ (by omega), addMask_E0 _ (by omega),
          Nat.mod_eq_of_lt (a := c / 4096) (by omega)]
      · rw [if_neg h3, if_neg (show ¬ c ≤ 0xFFFF by omega), if_pos h]
        simp only [demotion, header, demote_eq, Nat.reduceSub, Nat.reduceMul, Nat.reducePow, Nat.zero_mul, Nat.pow_zero,
          Nat.div_one, if_true, Bool.false_eq_true, if_false]
        rw [addMask_80 _ (by omega), addMask_80 _ (by omega), addMask_80 _ (by omega), addMask_F0 _ (by omega),
          Nat.mod_eq_of_lt (a := c / 262144) (by omega)]

theorem encode16_eq (c : Nat) (h : c ≤ 0x10FFFF) : encode16 c = (utf16Spec c, true) := by
  unfold encode16 utf16Spec
  by_cases h1 : c < 0x10000
  · rw [if_pos h1, if_pos (show c ≤ 0xFFFF by omega)]
  · rw [if_neg h1, if_neg (show ¬ c ≤ 0xFFFF by omega), and_1023, Nat.shiftRight_eq_div_pow]
    have e1 : ((c - 0x10000) / 2 ^ 10 + 0xD800) % 65536 = 0xD800 + (c - 0x10000) / 1024 := by omega
    have e2 : ((c - 0x10000) % 1024 + 0xDC00) % 65536 = 0xDC00 + (c - 0x10000) % 1024 := by omega
    rw [e1, e2]

/-- decoding a standard UTF-8 sequence -/
theorem decode8_spec (junk c : Nat) (hc : IsScalar c) (rest : List Nat) :
    decode8 junk (utf8Spec c ++ rest) = some ⟨c, rest, true⟩ := by
  obtain ⟨h1, h2⟩ := hc
  have fin : ∀ (n : Nat), n = c → (some (⟨n, rest, true⟩ : Dec)).map (fun d => { d with ok := d.ok && !(decide (0x10FFFF < d.code)) &&
      !(decide (0xD800 ≤ d.code) && decide (d.code ≤ 0xDFFF)) }) = some ⟨c, rest, true⟩ := by
    intro n hn; subst hn
    have e1 : decide (0x10FFFF < n) = false := by simp; omega
    have e2 : (decide (0xD800 ≤ n) && decide (n ≤ 0xDFFF)) = false := by
      by_cases h : 0xD800 ≤ n
      · have : ¬ n ≤ 0xDFFF := by omega
        simp [this]
      · simp [h]
    simp only [Option.map_some, e1, e2, Bool.not_false, Bool.and_self]
  unfold utf8Spec
  by_cases c1 : c ≤ 0x7F
  · rw [if_pos c1]
    simp only [decode8, List.singleton_append]
    rw [if_pos (by omega)]
    exact fin c rfl
  · rw [if_neg c1]
    by_cases c2 : c ≤ 0x7FF
    · rw [if_pos c2]
      simp only [decode8, List.cons_append, List.nil_append]
      rw [if_neg (by omega), if_pos (by omega)]
      simp only [promotion, header, promote, strip_80, strip_C0, if_true, Nat.reduceSub, Nat.reduceMul, Nat.zero_mul,
        Nat.shiftLeft_zero, Option.map_some]
      have e : decide (0xC0 + c / 64 < 192) = false := by simp
      rw [e, or_add _ _ 6 (by omega)]
      exact fin _ (by omega)
    · rw [if_neg c2]
      by_cases c3 : c ≤ 0xFFFF
      · rw [if_pos c3]
        simp only [decode8, List.cons_append, List.nil_append]
        rw [if_neg (by omega), if_neg (by omega), if_pos (by omega)]
        simp only [promotion, header, promote, strip_80, strip_E0, if_true, Nat.reduceSub, Nat.reduceMul, Nat.zero_mul,
          Nat.shiftLeft_zero, Bool.false_eq_true, if_false]
        rw [or_add ((128 + c / 64 % 64) % 128) _ 6 (by omega), or_add _ _ 12 (by omega)]
        exact fin _ (by omega)
      · rw [if_neg c3]
        simp only [decode8, List.cons_append, List.nil_append]
        rw [if_neg (by omega), if_neg (by omega), if_neg (by omega), if_pos (by omega)]
        simp only [promotion, header, promote, strip_80, strip_F0, if_true, Nat.reduceSub, Nat.reduceMul, Nat.zero_mul,
          Nat.shiftLeft_zero, Bool.false_eq_true, if_false]
        rw [or_add ((128 + c / 64 % 64) % 128) _ 6 (by omega), or_add ((128 + c / 4096 % 64) % 128) _ 12 (by omega),
          or_add _ _ 18 (by omega)]
        exact fin _ (by omega)

theorem decode16_spec (junk c : Nat) (hc : IsScalar c) (rest : List Nat) :
    decode16 junk (utf16Spec c ++ rest) = some ⟨c, rest, true⟩ := by
  obtain ⟨h1, h2⟩ := hc
  unfold utf16Spec
  by_cases c1 : c ≤ 0xFFFF
  · rw [if_pos c1]
    simp only [decode16, List.singleton_append]
    by_cases c2 : c < 0xD800
    · rw [if_pos c2]
    · rw [if_neg c2, if_neg (by omega)]
      have : decide (c < 0xE000) = false := by simp; omega
      rw [this]; rfl
  · rw [if_neg c1]
    simp only [decode16, List.cons_append, List.nil_append]
    rw [if_neg (by omega), if_pos (by omega)]
    have e1 : decide (0xDC00 ≤ 0xDC00 + (c - 0x10000) % 1024) = true := by simp
    have e2 : decide (0xDC00 + (c - 0x10000) % 1024 ≤ 0xDFFF) = true := by simp; omega
    rw [e1, e2]
    simp only [Bool.and_self, Option.some.injEq, Dec.mk.injEq, and_true]
    omega

theorem decode32_spec (junk c : Nat) (rest : List Nat) : decode32 junk ([c] ++ rest) = some ⟨c, rest, true⟩ := rfl

/-- The standard encoding forms by width. -/
def spec : W → Nat → List Nat
  | .u8 => utf8Spec
  | .u16 => utf16Spec
  | .u32 => fun c => [c]

theorem decoder_spec (w : W) (junk c : Nat) (hc : IsScalar c) (rest : List Nat) :
    decoder w junk (spec w c ++ rest) = some ⟨c, rest, true⟩ := by
  cases w
  · exact decode8_spec junk c hc rest
  · exact decode16_spec junk c hc rest
  · rfl

theorem encoder_spec (w : W) (c : Nat) (hc : IsScalar c) : encoder w c = (spec w c, true) := by
  cases w
  · exact encode8_eq c (by have := hc.1; omega)
  · exact encode16_eq c hc.1
  · rfl

theorem spec_ne_nil (w : W) (c : Nat) : spec w c ≠ [] := by
  cases w
  · show utf8Spec c ≠ []; unfold utf8Spec; repeat' split
    all_goals simp
  · show utf16Spec c ≠ []; unfold utf16Spec; split <;> simp
  · simp [spec]

theorem loop_spec (s d : W) (junks : Nat → Nat) (cs : List Nat) (hcs : ∀ c ∈ cs, IsScalar c) (n : Nat)
    (hn : cs.length ≤ n) :
    loop (decoder s) (encoder d) junks n (cs.flatMap (spec s)) = .done (cs.flatMap (spec d)) true := by
  induction cs generalizing n with
  | nil => cases n <;> simp [loop]
  | cons c cs ih =>
    have hc := hcs c (by simp)
    simp only [List.flatMap_cons]
    cases n with
    | zero => simp at hn
    | succ n =>
      obtain ⟨b, t, hbt⟩ := List.exists_cons_of_ne_nil (spec_ne_nil s c)
      have hd := decoder_spec s (junks n) c hc (cs.flatMap (spec s))
      rw [hbt] at hd ⊢
      simp only [List.cons_append] at hd ⊢
      simp only [loop, hd]
      rw [ih (fun c h => hcs c (by simp [h])) n (by simp at hn; omega), encoder_spec d c hc]
      rfl

end Verif.Unicode
