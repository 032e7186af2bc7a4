import Verif.Select.Model
import Verif.Common.Order
/-
Property C04.  Specification: the *stable rank* of argument `i` in an argument list is the number of
arguments that precede it in the stable order (strictly smaller, or equivalent and written earlier).
-/
namespace Verif.Select

variable {T : Type}

/-- Argument `j` precedes argument `i` in the stable order of the argument list `args`. -/
def precedes (r : T → T → Bool) (args : List T) (j i : Nat) : Bool :=
  match args[j]?, args[i]? with
  | some y, some x => r y x || (!r x y && decide (j < i))
  | _, _ => false

/-- Number of arguments preceding argument `i` in the stable order. -/
def stableRank (r : T → T → Bool) (args : List T) (i : Nat) : Nat :=
  ((List.range args.length).filter fun j => precedes r args j i).length

/-- `v` is the argument of stable rank `k`. -/
def IsStableRank (r : T → T → Bool) (args : List T) (k : Nat) (v : T) : Prop :=
  ∃ i, args[i]? = some v ∧ stableRank r args i = k

/-- C04 (min / max): `min` is the argument of stable rank 0 and `max` the one of stable rank 1; so on
    equivalent arguments `min` returns the first and `max` the second. -/
theorem C04_min_max (r : T → T → Bool) (hr : StrictWeak r) (a b : T) :
    IsStableRank r [a, b] 0 (min a b r) ∧ IsStableRank r [a, b] 1 (max a b r) := by
  have haa := hr.irrefl a
  have hbb := hr.irrefl b
  unfold min max select_0_2 select_1_2
  cases hba : r b a with
  | true =>
    have hab := hr.asymm hba
    exact ⟨⟨1, by simp, by simp [stableRank, precedes, List.range, List.range.loop, *]⟩,
      ⟨0, by simp, by simp [stableRank, precedes, List.range, List.range.loop, *]⟩⟩
  | false =>
    cases hab : r a b <;>
    exact ⟨⟨0, by simp, by simp [stableRank, precedes, List.range, List.range.loop, *]⟩,
      ⟨1, by simp, by simp [stableRank, precedes, List.range, List.range.loop, *]⟩⟩

theorem rank3 (r : T → T → Bool) (hr : StrictWeak r) (a b c : T) :
    stableRank r [a, b, c] 0 = (r b a).toNat + (r c a).toNat ∧
    stableRank r [a, b, c] 1 = (!r b a).toNat + (r c b).toNat ∧
    stableRank r [a, b, c] 2 = (!r c a).toNat + (!r c b).toNat := by
  have haa := hr.irrefl a
  have hbb := hr.irrefl b
  have hcc := hr.irrefl c
  have or_not : ∀ x y, (r x y || !r y x) = !r y x := by
    intro x y
    cases h : r y x with
    | true => simp [hr.asymm h]
    | false => simp
  have e : List.range [a, b, c].length = [0, 1, 2] := rfl
  refine ⟨?_, ?_, ?_⟩
  · simp only [stableRank, e]
    cases h1 : r b a <;> cases h2 : r c a <;> simp [List.filter, precedes, haa, h1, h2]
  · simp only [stableRank, e]
    cases h1 : r b a <;> cases h2 : r c b <;> 
      simp_all [List.filter, precedes, hr.asymm]
  · simp only [stableRank, e]
    cases h1 : r c a <;> cases h2 : r c b <;> 
      simp_all [List.filter, precedes, hr.asymm]

/-- C04 (median): for every strict weak order and all three arguments `median` (a.k.a. `select_1_3`)
    satisfies its internal assertions and returns the argument of stable rank 1. -/
theorem C04_median (r : T → T → Bool) (hr : StrictWeak r) (a b c : T) :
    ∃ v, median a b c r = some v ∧ IsStableRank r [a, b, c] 1 v := by
  obtain ⟨h0, h1, h2⟩ := rank3 r hr a b c
  have key : ∀ (v : T) (i : Nat), [a,b,c][i]? = some v → stableRank r [a,b,c] i = 1 →
      ∃ w, some v = some w ∧ IsStableRank r [a, b, c] 1 w := fun v i h1 h2 => ⟨v, rfl, i, h1, h2⟩
  unfold median select_1_3 select_1_3_ab select_1_2
  cases hba : r b a with
  | true =>
    have hab := hr.asymm hba
    simp only [hab, if_true, if_false, Bool.false_eq_true]
    cases hca : r c a with
    | true =>
      cases hcb : r c b with
      | true => simp only [if_true]; exact key b 1 rfl (by rw [h1, hba, hcb]; rfl)
      | false =>
        simp only [if_true, if_false, Bool.false_eq_true]
        exact key c 2 rfl (by rw [h2, hca, hcb]; rfl)
    | false =>
      simp only [if_false, Bool.false_eq_true]
      exact key a 0 rfl (by rw [h0, hca, hba]; rfl)
  | false =>
    simp only [if_false, Bool.false_eq_true]
    cases hcb : r c b with
    | true =>
      cases hca : r c a with
      | true => simp only [if_true]; exact key a 0 rfl (by rw [h0, hca, hba]; rfl)
      | false =>
        simp only [if_true, if_false, Bool.false_eq_true]
        exact key c 2 rfl (by rw [h2, hca, hcb]; rfl)
    | false =>
      simp only [if_false, Bool.false_eq_true]
      exact key b 1 rfl (by rw [h1, hba, hcb]; rfl)

/-- Order-only characterisation: an element with at most one argument below and at most one above. -/
theorem median_between (r : T → T → Bool) (hr : StrictWeak r) (a b c v : T)
    (h : median a b c r = some v) :
    (v = a ∨ v = b ∨ v = c) ∧
    ((r v a = false ∧ r v b = false) ∨ (r v a = false ∧ r v c = false) ∨
      (r v b = false ∧ r v c = false)) ∧
    ((r a v = false ∧ r b v = false) ∨ (r a v = false ∧ r c v = false) ∨
      (r b v = false ∧ r c v = false)) := by
  have haa := hr.irrefl a
  have hbb := hr.irrefl b
  have hcc := hr.irrefl c
  have as := fun x y => @StrictWeak.asymm _ _ hr x y
  unfold median select_1_3 select_1_3_ab select_1_2 at h
  grind

/-- C04 (median is order independent up to equivalence): permuting the arguments changes the result
    at most to an equivalent element. -/
theorem C04_median_equiv (r : T → T → Bool) (hr : StrictWeak r) (a b c : T) :
    ∀ v w, median a b c r = some v →
      (median b a c r = some w ∨ median a c b r = some w ∨ median c b a r = some w) →
      r v w = false ∧ r w v = false := by
  intro v w hv hw
  have h1 := median_between r hr a b c v hv
  have h2 : (w = a ∨ w = b ∨ w = c) ∧
    ((r w a = false ∧ r w b = false) ∨ (r w a = false ∧ r w c = false) ∨
      (r w b = false ∧ r w c = false)) ∧
    ((r a w = false ∧ r b w = false) ∨ (r a w = false ∧ r c w = false) ∨
      (r b w = false ∧ r c w = false)) := by
    rcases hw with hw | hw | hw
    · have := median_between r hr _ _ _ w hw; grind
    · have := median_between r hr _ _ _ w hw; grind
    · have := median_between r hr _ _ _ w hw; grind
  clear hv hw
  obtain ⟨_, h1a, h1b⟩ := h1
  obtain ⟨_, h2a, h2b⟩ := h2
  have nt := hr.ntrans
  constructor
  · rcases h1a with ⟨_, _⟩ | ⟨_, _⟩ | ⟨_, _⟩ <;> rcases h2b with ⟨_, _⟩ | ⟨_, _⟩ | ⟨_, _⟩ <;>
      first
        | exact nt v a w (by assumption) (by assumption)
        | exact nt v b w (by assumption) (by assumption)
        | exact nt v c w (by assumption) (by assumption)
  · rcases h2a with ⟨_, _⟩ | ⟨_, _⟩ | ⟨_, _⟩ <;> rcases h1b with ⟨_, _⟩ | ⟨_, _⟩ | ⟨_, _⟩ <;>
      first
        | exact nt w a v (by assumption) (by assumption)
        | exact nt w b v (by assumption) (by assumption)
        | exact nt w c v (by assumption) (by assumption)

/-- C04 (clamp): with `lo ≤ hi` the result lies between the bounds, is `x` itself when `x` is in the
    bounds, otherwise the violated bound; `x` equivalent to a bound returns `x`. -/
theorem C04_clamp (r : T → T → Bool) (hr : StrictWeak r) (x lo hi : T) (h : r hi lo = false) :
    ∃ v, clamp x lo hi r = some v ∧ r v lo = false ∧ r hi v = false ∧
      (r x lo = false → r hi x = false → v = x) ∧
      (r x lo = true → v = lo) ∧ (r hi x = true → v = hi) := by
  unfold clamp select_1_3_ac select_0_2
  simp only [h]
  cases h1 : r x lo <;> cases h2 : r hi x
  · exact ⟨x, by simp, h1, h2, by simp, by simp, by simp⟩
  · exact ⟨hi, by simp, h, hr.irrefl hi, by simp, by simp, by simp⟩
  · exact ⟨lo, by simp, hr.irrefl lo, h, by simp, by simp, by simp⟩
  · have := hr.trans _ _ _ h2 h1; simp_all

/-- C04 (clamp fails loudly): if the bounds are in the wrong order the C++ assertion fires. -/
theorem C04_clamp_wrong_bounds (r : T → T → Bool) (x lo hi : T) (h : r hi lo = true) :
    clamp x lo hi r = none := by simp [clamp, select_1_3_ac, h]

/-- C04 (clamp_unordered): never asserts and agrees with `clamp` on ordered bounds up to
    equivalence. -/
theorem C04_clamp_unordered (r : T → T → Bool) (hr : StrictWeak r) (x lo hi : T)
    (h : r hi lo = false) :
    ∃ v w, clamp_unordered x lo hi r = some v ∧ clamp x lo hi r = some w ∧
      r v w = false ∧ r w v = false := by
  have h1 := hr.irrefl x
  have h2 := hr.irrefl lo
  have h3 := hr.irrefl hi
  have as := fun x y => @StrictWeak.asymm _ _ hr x y
  have t2 := hr.ntrans
  unfold clamp_unordered clamp select_1_3_ac select_1_3 select_1_3_ab select_0_2 select_1_2
  simp only [h]
  cases hba : r x lo with
  | true =>
    have := as _ _ hba
    have := t2 hi lo x h (by assumption)
    cases hhl : r lo hi <;> simp_all
  | false =>
    cases hcb : r hi x <;> simp_all

example : clamp (5 : Nat) 1 3 (fun a b => decide (a < b)) = some 3 := by decide
example : median (5 : Nat) 1 3 (fun a b => decide (a < b)) = some 3 := by decide
/-- stability is observable: elements equivalent but distinct -/
example : max (10 : Nat) 11 (fun a b => decide (a / 10 < b / 10)) = 11 := by decide

end Verif.Select
