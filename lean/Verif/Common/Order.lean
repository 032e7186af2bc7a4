/-
Order-theoretic vocabulary used by several specifications.
-/
namespace Verif

/-- A strict weak ordering given by a boolean comparator (the C++ `StrictWeakOrdering` concept). -/
structure StrictWeak {β : Type} (c : β → β → Bool) : Prop where
  irrefl : ∀ a, c a a = false
  trans : ∀ a b d, c a b = true → c b d = true → c a d = true
  /-- negative transitivity: incomparability is transitive -/
  ntrans : ∀ a b d, c a b = false → c b d = false → c a d = false

theorem StrictWeak.asymm {β : Type} {c : β → β → Bool} (h : StrictWeak c) {a b : β}
    (hab : c a b = true) : c b a = false := by
  cases hba : c b a with
  | false => rfl
  | true => have := h.trans _ _ _ hab hba; rw [h.irrefl] at this; exact absurd this (by simp)

theorem strictWeak_nat_lt : StrictWeak (fun a b : Nat => decide (a < b)) := by
  constructor
  · intro a; simp
  · intro a b d; simp only [decide_eq_true_eq]; omega
  · intro a b d; simp only [decide_eq_false_iff_not]; omega

theorem strictWeak_int_lt : StrictWeak (fun a b : Int => decide (a < b)) := by
  constructor
  · intro a; simp
  · intro a b d; simp only [decide_eq_true_eq]; omega
  · intro a b d; simp only [decide_eq_false_iff_not]; omega

end Verif
