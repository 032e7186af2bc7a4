import Verif.Zuid.Text
/-!
The order is that of the texts.
-/
namespace Verif.Zuid
open Verif.Zuid.Spec

theorem lt_append {x y s t : Str} (h : x.length = y.length) : x ++ s < y ++ t ↔ x < y ∨ (x = y ∧ s < t) := by
  induction x generalizing y with
  | nil =>
    cases y with
    | nil => simp
    | cons d y => simp at h
  | cons c x ih =>
    cases y with
    | nil => simp at h
    | cons d y =>
      simp only [List.cons_append, List.cons_lt_cons_iff, List.cons.injEq]
      rw [ih (by simpa using h)]
      clear h ih
      tauto

theorem digit_lt : ∀ m < 16, ∀ n < 16, (digit m < digit n ↔ m < n) ∧ (digit m = digit n ↔ m = n) := by decide

theorem hex_inj {w v v' : Nat} (h : v < 16 ^ w) (h' : v' < 16 ^ w) : hex w v = hex w v' ↔ v = v' := by
  constructor
  · intro e
    rw [← ofHex_hex h, ← ofHex_hex h', e]
  · rintro rfl; rfl

theorem hex_lt {w v v' : Nat} (h : v < 16 ^ w) (h' : v' < 16 ^ w) : hex w v < hex w v' ↔ v < v' := by
  induction w generalizing v v' with
  | zero => simp at h h'; subst h h'; simp [hex]
  | succ w ih =>
    have d : v / 16 < 16 ^ w := by rw [Nat.div_lt_iff_lt_mul (by omega)]; rw [Nat.pow_succ] at h; exact h
    have d' : v' / 16 < 16 ^ w := by rw [Nat.div_lt_iff_lt_mul (by omega)]; rw [Nat.pow_succ] at h'; exact h'
    rw [hex, hex, lt_append (by simp [hex_length]), ih d d', hex_inj d d']
    have : [digit (v % 16)] < [digit (v' % 16)] ↔ v % 16 < v' % 16 := by
      rw [List.cons_lt_cons_iff, (digit_lt _ (Nat.mod_lt _ (by omega)) _ (Nat.mod_lt _ (by omega))).1]
      simp
    rw [this]
    omega

theorem hex_append {w v v' : Nat} (h : v < 16 ^ w) (h' : v' < 16 ^ w) {s t : Str} :
    hex w v ++ s < hex w v' ++ t ↔ v < v' ∨ (v = v' ∧ s < t) := by
  rw [lt_append (by simp [hex_length]), hex_lt h h', hex_inj h h']

theorem check_neg {n : Nat} {a b : BitVec n} {k : Int} : check a b k = -1 ↔ a.toNat < b.toNat ∨ (a.toNat = b.toNat ∧ k = -1) := by
  unfold check
  by_cases e : a = b
  · subst e; simp
  · have e' : a.toNat ≠ b.toNat := fun h => e (BitVec.eq_of_toNat_eq h)
    simp only [ne_eq, e, not_false_eq_true, if_true, e', false_and, or_false]
    by_cases l : a < b
    · simp [l, BitVec.lt_def.mp l]
    · simp only [l, if_false]
      rw [BitVec.lt_def] at l
      simp [l]

theorem check_zero {n : Nat} {a b : BitVec n} {k : Int} : check a b k = 0 ↔ a = b ∧ k = 0 := by
  unfold check
  by_cases e : a = b
  · simp [e]
  · simp only [ne_eq, e, not_false_eq_true, if_true, false_and, iff_false]
    split <;> decide

theorem bytes_neg {as bs : List Byte} (h : as.length = bs.length) {f : Byte → Str} (hf : f = fun b => hex 2 b.toNat) :
    compareBytes as bs = -1 ↔ as.flatMap f < bs.flatMap f := by
  induction as generalizing bs with
  | nil => cases bs with
    | nil => simp [compareBytes]
    | cons _ _ => simp at h
  | cons a as ih => cases bs with
    | nil => simp at h
    | cons b bs =>
      rw [compareBytes, check_neg, ih (by simpa using h), List.flatMap_cons, List.flatMap_cons]
      subst hf
      rw [hex_append (lt8 a) (lt8 b)]

theorem bytes_zero {as bs : List Byte} (h : as.length = bs.length) : compareBytes as bs = 0 ↔ as = bs := by
  induction as generalizing bs with
  | nil => cases bs with
    | nil => simp [compareBytes]
    | cons _ _ => simp at h
  | cons a as ih => cases bs with
    | nil => simp at h
    | cons b bs => rw [compareBytes, check_zero, ih (by simpa using h)]; simp

theorem cons_lt {c : Char} {s t : Str} : [c] ++ s < [c] ++ t ↔ s < t := by
  rw [lt_append rfl]
  simp

theorem lt_iff_text (a b : Uuid) : lt a b = true ↔ text a < text b := by
  unfold lt uuidCompare
  rw [beq_iff_eq, check_neg, check_neg, check_neg, bytes_neg (by simp) rfl]
  unfold text
  simp only [List.append_assoc]
  rw [hex_append (lt32 _) (lt32 _), lt_append (x := "-".toList) rfl, hex_append (lt16 _) (lt16 _), lt_append (x := "-".toList) rfl,
    hex_append (lt16 _) (lt16 _), lt_append (x := "-".toList) rfl]
  have key : ∀ x : Vector Byte 8, x.toList = x.toList.take 2 ++ x.toList.drop 2 := fun x => by simp
  have len : ∀ x : Vector Byte 8, (List.flatMap (fun b : Byte => hex 2 b.toNat) (x.toList.take 2)).length = 4 := by
    intro x
    rw [vector8]
    simp [hex_length]
  rw [lt_append (s := "-".toList ++ _) (by rw [len, len]), lt_append (x := "-".toList) rfl]
  conv_lhs => rw [key a.data4, key b.data4, List.flatMap_append, List.flatMap_append, lt_append (by rw [len, len])]
  simp only [List.lt_irrefl, false_or, true_and]

theorem eq_iff (a b : Uuid) : eq a b = true ↔ a = b := by
  unfold eq uuidCompare
  rw [beq_iff_eq, check_zero, check_zero, check_zero, bytes_zero (by simp)]
  obtain ⟨a1, a2, a3, a4⟩ := a
  obtain ⟨b1, b2, b3, b4⟩ := b
  simp only [Uuid.mk.injEq, Vector.toList_inj]

end Verif.Zuid
