import Mathlib.Data.Rat.Defs
import Mathlib.Data.Rat.Cast.Order
import Mathlib.Tactic.Ring
import Mathlib.Tactic.NormNum
import Mathlib.Tactic.Linarith
/-!
C107: numbers in an `any_regular_t`: the promotion of adobe/conversion.hpp.

Simplifications: numbers are the integer types of 1, 2, 4 and 8 bytes, `float` and `double`, with finite values; `bool` is not
distinguished from the unsigned type of 1 byte.  The conversion of an integer or a `float` to `double` is any function that gives a value
that is a `double` back as it is.
-/
namespace Verif.Any.Promote

inductive T where
  /-- an integer type of so many bytes -/
  | int (signed : Bool) (bytes : Nat)
  | float
  | double
deriving DecidableEq

def T.size : T → Nat
  | .int _ b => b
  | .float => 4
  | .double => 8

/-- models: adobe/conversion.hpp:20-24 `promote<T>::type` -/
def promote (t : T) : T := if 2 ≤ t.size ∧ t.size ≤ 4 then .double else t

/-- The finite values of the floating point type with `p` digits, least exponent `lo` and values below `2 ^ hi`. -/
def Dyadic (p : Nat) (lo hi : Int) (q : Rat) : Prop :=
  ∃ (m : Int) (k : Nat), m.natAbs < 2 ^ p ∧ (q = m * 2 ^ k ∧ (k : Int) + p ≤ hi ∨ q * 2 ^ k = m ∧ lo ≤ -(k : Int))

def IsDouble (q : Rat) : Prop := Dyadic 53 (-1074) 1024 q
def IsFloat (q : Rat) : Prop := Dyadic 24 (-149) 128 q

/-- The values of a type. -/
def T.has : T → Rat → Prop
  | .int true b, q => q.den = 1 ∧ -2 ^ (8 * b - 1) ≤ q.num ∧ q.num < 2 ^ (8 * b - 1)
  | .int false b, q => q.den = 1 ∧ 0 ≤ q.num ∧ q.num < 2 ^ (8 * b)
  | .float, q => IsFloat q
  | .double, q => IsDouble q

/-- A value in an `any_regular_t`. -/
structure Any where
  type : T
  val : Rat

/-- How numbers are converted to floating point. -/
structure Conv where
  toDouble : Rat → Rat
  toFloat : Rat → Option Rat
  double : ∀ q, IsDouble q → toDouble q = q
  float : ∀ q, IsFloat q → toFloat q = some q

/-- models: adobe/any_regular.hpp:504-507, 214, 318: the argument is converted to the promoted type. -/
def store (c : Conv) (t : T) (q : Rat) : Any := ⟨promote t, if promote t = t then q else c.toDouble q⟩

inductive Res where
  | ok (q : Rat)
  | badCast
  | ub

/-- `static_cast` from `double` to an integer type: not defined if the value, without its fraction, is not one of the type. -/
def toInt (signed : Bool) (b : Nat) (q : Rat) : Res :=
  let n := q.num.tdiv q.den
  if (if signed then -2 ^ (8 * b - 1) ≤ n ∧ n < 2 ^ (8 * b - 1) else 0 ≤ n ∧ n < (2 : Int) ^ (8 * b)) then .ok n else .ub

/-- models: adobe/any_regular.hpp:731-740 `cast<T>()`. -/
def cast (c : Conv) (x : Any) (t : T) : Res :=
  if x.type ≠ promote t then .badCast
  else if promote t = t then .ok x.val
  else match t with
    | .int s b => toInt s b x.val
    | .float => match c.toFloat x.val with
      | some q => .ok q
      | none => .ub
    | .double => .ok x.val

/-- models: adobe/any_regular.hpp:680-682 `==`. -/
def eq (x y : Any) : Bool := decide (x.type = y.type) && decide (x.val = y.val)

/-- The types that are promoted. -/
def Small (t : T) : Prop := t = .float ∨ ∃ s, t = .int s 2 ∨ t = .int s 4

theorem small_promote {t : T} (h : Small t) : promote t = .double ∧ promote t ≠ t := by
  rcases h with rfl | ⟨s, rfl | rfl⟩ <;> constructor <;> simp [promote, T.size]

theorem int_double (n : Int) (h : n.natAbs < 2 ^ 53) : IsDouble n := ⟨n, 0, h, .inl ⟨by simp, by decide⟩⟩

theorem float_double {q : Rat} (h : IsFloat q) : IsDouble q := by
  obtain ⟨m, k, hm, hk⟩ := h
  refine ⟨m, k, lt_trans hm (by norm_num), ?_⟩
  rcases hk with ⟨h1, h2⟩ | ⟨h1, h2⟩
  · exact .inl ⟨h1, by push_cast at h2 ⊢; omega⟩
  · exact .inr ⟨h1, by omega⟩

theorem int_of_den {q : Rat} (h : q.den = 1) : q = (q.num : Rat) := by
  rw [Rat.intCast_eq_divInt]
  conv_lhs => rw [← Rat.num_divInt_den q, h]
  rfl

/-- A value of a promoted type is a `double`. -/
theorem small_double {t : T} (ht : Small t) {q : Rat} (h : t.has q) : IsDouble q := by
  have key : ∀ n : Int, q.den = 1 → q.num = n → n.natAbs < 2 ^ 53 → IsDouble q := by
    intro n h1 h2 h3
    rw [int_of_den h1, h2]; exact int_double n h3
  rcases ht with rfl | ⟨s, rfl | rfl⟩
  · exact float_double h
  all_goals
    cases s <;> simp only [T.has] at h <;> refine key q.num h.1 rfl ?_ <;> obtain ⟨_, h2, h3⟩ := h <;>
      simp only [Nat.reduceMul, Nat.reduceSub, Int.reducePow, Int.reduceNeg] at h2 h3 <;> omega

/-- The type of the stored value is `double` for the promoted types, and the value is the number, exactly. -/
theorem C107_store (c : Conv) {t : T} (ht : Small t) {q : Rat} (h : t.has q) : store c t q = ⟨.double, q⟩ := by
  have hp := small_promote ht
  unfold store
  rw [if_neg hp.2, hp.1, c.double q (small_double ht h)]

/-- Any number that is stored as some promoted type can be had as any other which has that number. -/
theorem C107_cast (c : Conv) {t u : T} (ht : Small t) (hu : Small u ∨ u = .double) {q : Rat} (h : t.has q) (h' : u.has q) :
    cast c (store c t q) u = .ok q := by
  rw [C107_store c ht h]
  rcases hu with hu | rfl
  · have hp := small_promote hu
    unfold cast
    rw [if_neg (by simp [hp.1]), if_neg hp.2]
    rcases hu with rfl | ⟨s, rfl | rfl⟩
    · simp only [c.float q h']
    all_goals
      cases s <;> simp only [T.has] at h' <;> simp only [toInt, h'.1] <;> simp only [Nat.cast_one, Int.tdiv_one] <;>
        simp only [h'.2.1, h'.2.2, and_self, if_true, Bool.false_eq_true, if_false] <;> rw [← int_of_den h'.1]
  · unfold cast
    simp [promote, T.size]

/-- The same type gives the number back, whether it is promoted or not. -/
theorem C107_roundtrip (c : Conv) (t : T) {q : Rat} (h : t.has q) (ht : t.size = 1 ∨ t.size = 2 ∨ t.size = 4 ∨ t.size = 8) :
    cast c (store c t q) t = .ok q := by
  by_cases hp : promote t = t
  · simp [cast, store, hp]
  · have hs : Small t := by
      unfold promote at hp
      cases t with
      | float => exact .inl rfl
      | double => simp [T.size] at hp
      | int s b =>
        simp only [T.size] at ht hp
        rcases ht with rfl | rfl | rfl | rfl
        · simp at hp
        · exact .inr ⟨s, .inl rfl⟩
        · exact .inr ⟨s, .inr rfl⟩
        · simp at hp
    exact C107_cast c hs (.inl hs) h h

/-- Stored numbers of promoted types are equal if and only if the numbers are, whatever their types. -/
theorem C107_equal (c : Conv) {t u : T} (ht : Small t ∨ t = .double) (hu : Small u ∨ u = .double) {p q : Rat} (h : t.has p)
    (h' : u.has q) : eq (store c t p) (store c u q) = true ↔ p = q := by
  have e : ∀ {t : T} {p : Rat}, Small t ∨ t = .double → t.has p → store c t p = ⟨.double, p⟩ := by
    intro t p ht h
    rcases ht with ht | rfl
    · exact C107_store c ht h
    · simp [store, promote, T.size]
  rw [e ht h, e hu h']
  simp [eq]

/-- A number of a type of 1 or 8 bytes is not a number of the promoted types. -/
theorem C107_long_violated (c : Conv) (s : Bool) (b : Nat) (hb : b = 1 ∨ b = 8) (q : Rat) :
    cast c (store c (.int s b) q) (.int true 4) = .badCast ∧ cast c (store c (.int s b) q) .double = .badCast ∧
    eq (store c (.int s b) q) (store c (.int true 4) q) = false := by
  rcases hb with rfl | rfl <;> simp [cast, store, promote, T.size, eq]

/-- A number can be too big for the type that is asked for, which is not defined. -/
theorem C107_narrow_violated (c : Conv) : (T.int true 4).has 100000 ∧ cast c (store c (.int true 4) 100000) (.int true 2) = .ub := by
  have h : (T.int true 4).has 100000 := by
    simp only [T.has]
    norm_num
  refine ⟨h, ?_⟩
  rw [C107_store c (.inr ⟨true, .inr rfl⟩) h]
  have : ((100000 : Rat)).num = 100000 := by norm_num
  have hd : ((100000 : Rat)).den = 1 := by norm_num
  simp [cast, promote, T.size, toInt, this, hd]

example : (T.int false 2).has 65535 := by simp only [T.has]; norm_num
example : T.float.has (3 / 4) := ⟨3, 2, by norm_num, .inr ⟨by norm_num, by norm_num⟩⟩
/-- The conversions are there: not rounding at all, for what is a value. -/
noncomputable example : Conv := ⟨id, fun q => some q, fun _ _ => rfl, fun _ _ => rfl⟩

end Verif.Any.Promote
