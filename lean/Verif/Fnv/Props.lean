import Verif.Fnv.Model
import Mathlib.Tactic.FinCases
import Mathlib.Tactic.NormNum
/-
C37: the FNV-1a hash.
-/
namespace Verif.Fnv

/-- the constants in the header are the published ones: the offset basis is the FNV-0 hash of the signature -/
theorem constants : ∀ n ∈ [32, 64, 128, 256, 512, 1024], ∃ p, prime n = some p ∧ Spec.prime n = some p ∧
    offsetBasis n = some (Spec.fnv0 n p Spec.signature) ∧ p < 2 ^ n ∧ Spec.fnv0 n p Spec.signature < 2 ^ n := by
  intro n hn
  fin_cases hn
  · exact ⟨_, rfl, by decide +kernel, by decide +kernel, by decide +kernel, by decide +kernel⟩
  · exact ⟨_, rfl, by decide +kernel, by decide +kernel, by decide +kernel, by decide +kernel⟩
  · exact ⟨_, rfl, by decide +kernel, by decide +kernel, by decide +kernel, by decide +kernel⟩
  · exact ⟨_, rfl, by decide +kernel, by decide +kernel, by decide +kernel, by decide +kernel⟩
  · exact ⟨_, rfl, by decide +kernel, by decide +kernel, by decide +kernel, by decide +kernel⟩
  · exact ⟨_, rfl, by decide +kernel, by decide +kernel, by decide +kernel, by decide +kernel⟩

theorem rollup_mem {bits : Nat} (h0 : 0 < bits) (h : bits ≤ 1024) : rollup bits ∈ [32, 64, 128, 256, 512, 1024] ∧ bits ≤ rollup bits ∧
    Spec.width bits = some (rollup bits) := by
  have hne : bits ≠ 0 := by omega
  unfold rollup Spec.width
  by_cases h1 : bits ≤ 32
  · simp [h1, hne]
  by_cases h2 : bits ≤ 64
  · simp [h1, h2, hne]
  by_cases h3 : bits ≤ 128
  · simp [h1, h2, h3, hne]
  by_cases h4 : bits ≤ 256
  · simp [h1, h2, h3, h4, hne]
  by_cases h5 : bits ≤ 512
  · simp [h1, h2, h3, h4, h5, hne]
  · simp [h1, h2, h3, h4, h5, h, hne]

theorem mask_toNat {n m : Nat} (hm : m ≤ n) (v : BitVec n) : (mask n m v).toNat = v.toNat % 2 ^ m := by
  unfold mask
  split
  · next h => subst h; exact (Nat.mod_eq_of_lt v.isLt).symm
  · next h =>
    have hlt : m < n := lt_of_le_of_ne hm (Ne.symm h)
    have h1 : 2 ^ m < 2 ^ n := Nat.pow_lt_pow_right (by norm_num) hlt
    have hn : 1 < 2 ^ n := Nat.one_lt_two_pow (by omega)
    have e : ((1#n <<< m) - 1#n).toNat = 2 ^ m - 1 := by
      rw [BitVec.toNat_sub, BitVec.toNat_shiftLeft, BitVec.toNat_ofNat, Nat.mod_eq_of_lt hn, Nat.shiftLeft_eq, one_mul, Nat.mod_eq_of_lt h1]
      have : 0 < 2 ^ m := Nat.pow_pos (by norm_num)
      rw [show 2 ^ n - 1 + 2 ^ m = 2 ^ n + (2 ^ m - 1) by omega, Nat.add_mod_left, Nat.mod_eq_of_lt (by omega)]
    rw [BitVec.toNat_and, e, Nat.and_two_pow_sub_one_eq_mod]

theorem turn_toNat {n : Nat} (hn : 8 ≤ n) (p : Nat) (r : BitVec n) (b : BitVec 8) :
    (turn false (BitVec.ofNat n p) r b).toNat = (r.toNat ^^^ b.toNat) * p % 2 ^ n := by
  have : 2 ^ 8 ≤ 2 ^ n := Nat.pow_le_pow_right (by norm_num) hn
  have hb : b.toNat % 2 ^ n = b.toNat := Nat.mod_eq_of_lt (lt_of_lt_of_le b.isLt this)
  simp [turn, castByte, BitVec.toNat_mul, BitVec.toNat_xor, hb, Nat.mul_mod]

theorem loopRange_toNat {n : Nat} (hn : 8 ≤ n) (p : Nat) (bytes : List (BitVec 8)) : ∀ r : BitVec n,
    (loopRange false (BitVec.ofNat n p) r bytes).toNat = (bytes.map BitVec.toNat).foldl (fun h b => (h ^^^ b) * p % 2 ^ n) r.toNat := by
  induction bytes with
  | nil => intro r; rfl
  | cons b rest ih =>
    intro r
    rw [loopRange, ih, turn_toNat hn, List.map_cons, List.foldl_cons]

/-- For every width from 1 to 1024 and every sequence of bytes of an unsigned type, `fnv1a` is the published FNV-1a hash (of the next
    FNV width, reduced to the low bits). -/
theorem C37_is_published_fnv1a (bits : Nat) (h0 : 0 < bits) (h : bits ≤ 1024) (bytes : List (BitVec 8)) :
    ∃ v, fnv1a false bits bytes = some v ∧ Spec.hash bits (bytes.map BitVec.toNat) = some v ∧ v < 2 ^ bits := by
  obtain ⟨hm, hle, hw⟩ := rollup_mem h0 h
  obtain ⟨p, hp, hp', ho, hpl, hol⟩ := constants _ hm
  have h8 : 8 ≤ rollup bits := by
    revert hm; simp only [List.mem_cons, List.not_mem_nil, or_false]; omega
  refine ⟨_, by simp only [fnv1a, ho, hp]; rfl, ?_, ?_⟩
  · simp only [Spec.hash, hw, hp', Spec.fnv1a]
    rw [mask_toNat hle, loopRange_toNat h8, BitVec.toNat_ofNat, Nat.mod_eq_of_lt hol]
  · rw [mask_toNat hle]; exact Nat.mod_lt _ (Nat.pow_pos (by norm_num))

/-- Widths 0 and more than 1024 are rejected (at compile time). -/
theorem C37_other_widths (signed : Bool) (bits : Nat) (h : bits = 0 ∨ 1024 < bits) (bytes : List (BitVec 8)) : fnv1a signed bits bytes = none := by
  have : rollup bits = 0 := by
    unfold rollup
    rcases h with h | h
    · simp [h]
    · simp [show bits ≠ 0 by omega, show ¬ bits ≤ 32 by omega, show ¬ bits ≤ 64 by omega, show ¬ bits ≤ 128 by omega, show ¬ bits ≤ 256 by omega,
        show ¬ bits ≤ 512 by omega, show ¬ bits ≤ 1024 by omega]
  simp [fnv1a, this, offsetBasis]

theorem loopPred_eq (signed : Bool) {n : Nat} (p : BitVec n) (stop : BitVec 8 → Bool) (s : BitVec 8) (hs : stop s = true) (bytes rest : List (BitVec 8))
    (hb : ∀ b ∈ bytes, stop b = false) : ∀ r, loopPred signed p stop r (bytes ++ s :: rest) = some (loopRange signed p r bytes) := by
  induction bytes with
  | nil => intro r; simp [loopPred, loopRange, hs]
  | cons b bs ih =>
    intro r
    rw [List.cons_append, loopPred, hb b (by simp), loopRange]
    exact ih (fun b h => hb b (by simp [h])) _

/-- The two entry points agree: hashing up to the first byte that satisfies the predicate is hashing the range before it. -/
theorem C37_sentinel_agrees (signed : Bool) (bits : Nat) (stop : BitVec 8 → Bool) (s : BitVec 8) (hs : stop s = true) (bytes rest : List (BitVec 8))
    (hb : ∀ b ∈ bytes, stop b = false) : fnv1aPred signed bits stop (bytes ++ s :: rest) = fnv1a signed bits bytes := by
  unfold fnv1aPred fnv1a
  split
  · rw [loopPred_eq signed _ stop s hs bytes rest hb]; rfl
  · rfl

/-- Hashing is incremental: the hash of a concatenation continues from the hash of the first part (for the widths of the algorithm). -/
theorem C37_fold (signed : Bool) {n : Nat} (p : BitVec n) (xs ys : List (BitVec 8)) : ∀ r,
    loopRange signed p r (xs ++ ys) = loopRange signed p (loopRange signed p r xs) ys := by
  induction xs with
  | nil => intro r; rfl
  | cons x xs ih => intro r; exact ih _

/-- The same for plain `char` where that type is unsigned, or when all bytes are ASCII. -/
theorem C37_ascii (bits : Nat) (bytes : List (BitVec 8)) (ha : ∀ b ∈ bytes, b.toNat < 128) : fnv1a true bits bytes = fnv1a false bits bytes := by
  have key : ∀ n (p r : BitVec n), loopRange true p r bytes = loopRange false p r bytes := by
    intro n p
    induction bytes with
    | nil => intro r; rfl
    | cons b bs ih =>
      intro r
      have e : castByte true n b = castByte false n b := by
        have hb : b.msb = false := by
          rw [BitVec.msb_eq_decide]; have := ha b (by simp); simp; omega
        simp [castByte, BitVec.signExtend_eq_setWidth_of_msb_false hb]
      rw [loopRange, loopRange, ih (fun b h => ha b (by simp [h]))]
      simp only [turn, e]
  unfold fnv1a
  split
  · rw [key]
  · rfl

/-- The published hash is not what a `signed char` range with other bytes gets: the byte 0x80, 32 bits. -/
theorem C37_signed_char_violated : ∃ v w, fnv1a true 32 [0x80#8] = some v ∧ Spec.hash 32 [0x80] = some w ∧ v ≠ w :=
  ⟨_, _, rfl, rfl, by decide +kernel⟩

/-- "foobar": a published test vector -/
example : fnv1a false 32 [0x66#8, 0x6f#8, 0x6f#8, 0x62#8, 0x61#8, 0x72#8] = some 0xbf9cf968 := by decide +kernel
example : fnv1a true 64 [0x66#8, 0x6f#8, 0x6f#8, 0x62#8, 0x61#8, 0x72#8] = some 0x85944171f73967e8 := by decide +kernel
example : fnv1aPred true 64 (· == 0#8) [0x66#8, 0x6f#8, 0x6f#8, 0x62#8, 0x61#8, 0x72#8, 0#8, 1#8] = some 0x85944171f73967e8 := by decide +kernel
example : fnv1a false 56 [0x66#8, 0x6f#8, 0x6f#8, 0x62#8, 0x61#8, 0x72#8] = some 0x944171f73967e8 := by decide +kernel

end Verif.Fnv
