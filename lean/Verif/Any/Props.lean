import Verif.Any.Sim
/-!
C105, C106: `any_regular_t` holds values; the memory of `any_regular_t` objects.
-/
namespace Verif.Any
open Spec

variable {Ty V : Type} {c : Conf Ty V} [DecidableEq Ty]

/-- The reasons for which an operation may throw. -/
def Reason (c : Conf Ty V) (a : Vars Ty V) : Op V → Prop
  | .mk _ v e => e.alloc = none ∧ c.loc (c.ty v) = false
  | .copy _ _ e | .set _ _ e => e.alloc = none ∨ e.copyThrows = true
  | .write x v => ∃ w, a x = some (.val w) ∧ c.ty w ≠ c.ty v
  | _ => False

theorem sim_step {s : St Ty V} {a a' g} (R : Rel c s a g) (op : Op V) (hf : op.fine s) (hc : op.calm c) (hm : mean c a op = some a') :
    Sim c s a a' (Reason c a op) (step c s op) := by
  cases op with
  | mk x v e => exact sim_mk R hf hm
  | copy x y e => exact sim_copy R hf hm
  | move x y => exact sim_move R hm
  | set x y e => exact sim_set R hf hm
  | setMove x y => exact sim_setMove R hm
  | assign x v e => exact sim_assign R hf hc hm
  | swap x y => exact sim_swap R hm
  | write x v => exact sim_write R hm
  | destroy x => exact sim_destroy R hm

theorem run_rel {s : St Ty V} {a} (h : Run c s a) : ∃ g, Rel c s a g := by
  induction h with
  | start => exact ⟨fun _ => none, ⟨by simp, by simp, by simp⟩, by simp, by simp, by simp⟩
  | ok op _ hf hc hs hm ih =>
    obtain ⟨g, R⟩ := ih
    rcases sim_step R op hf hc hm with ⟨s', g', h1, R'⟩ | ⟨_, h1⟩
    · rw [h1] at hs; cases hs; exact ⟨g', R'⟩
    · rw [h1] at hs; cases hs
  | throw op _ hf hc hs hm ih =>
    obtain ⟨g, R⟩ := ih
    rcases sim_step R op hf hc hm with ⟨s', g', h1, R'⟩ | ⟨_, h1⟩
    · rw [h1] at hs; cases hs
    · rw [h1] at hs; cases hs; exact ⟨g, R⟩

/-- Every operation that makes sense is defined; it throws only if an allocation or a copy does, or for the wrong type, and then nothing
has changed. -/
theorem C105_total {s : St Ty V} {a a'} (h : Run c s a) (op : Op V) (hf : op.fine s) (hc : op.calm c) (hm : mean c a op = some a') :
    (∃ s', step c s op = .ok () s' ∧ Run c s' a') ∨ (Reason c a op ∧ step c s op = .throw s) := by
  obtain ⟨g, R⟩ := run_rel h
  rcases sim_step R op hf hc hm with ⟨s', g', h1, _⟩ | h1
  · exact .inl ⟨s', h1, .ok op h hf hc h1 hm⟩
  · exact .inr h1

/-- A variable gives the value that it holds, and its type; for another type, `cast` throws. -/
theorem C105_cast {s : St Ty V} {a} (h : Run c s a) {x v} (hx : a x = some (.val v)) :
    typeInfo c s x = some (c.ty v) ∧ cast c s x (c.ty v) = .ok v () ∧ ∀ t, t ≠ c.ty v → cast c s x t = .throw () := by
  obtain ⟨g, R⟩ := run_rel h
  obtain ⟨o, _, ho, H⟩ := R.at hx
  have ht : o.type c = c.ty v := H.type
  refine ⟨by simp [typeInfo, ho, ht], ?_, ?_⟩
  · simp [cast, ho, ht, H.val v rfl]
  · intro t hne
    have : c.ty v ≠ t := fun hh => hne hh.symm
    simp [cast, ho, ht, this]

/-- Comparing two variables is comparing the types and then the values. -/
theorem C105_equals {s : St Ty V} {a} (h : Run c s a) {x y v w} (hx : a x = some (.val v)) (hy : a y = some (.val w)) :
    equals c s x y = .ok (decide (c.ty v = c.ty w) && c.eqv v w) () := by
  obtain ⟨g, R⟩ := run_rel h
  obtain ⟨o, _, ho, H⟩ := R.at hx
  obtain ⟨p, _, hp, H'⟩ := R.at hy
  have ht : o.type c = c.ty v := H.type
  have ht' : p.type c = c.ty w := H'.type
  by_cases hvw : c.ty v = c.ty w
  · simp [equals, ho, hp, ht, ht', hvw, H.val v rfl, H'.val w rfl]
  · simp [equals, ho, hp, ht, ht', hvw]

/-- A variable that has been moved from has kept its type. -/
theorem C105_moved {s : St Ty V} {a} (h : Run c s a) {x t} (hx : a x = some (.some t)) : typeInfo c s x = some t := by
  obtain ⟨g, R⟩ := run_rel h
  obtain ⟨o, _, ho, H⟩ := R.at hx
  have ht : o.type c = t := H.type
  simp [typeInfo, ho, ht]

/-- What is in scope is what should be, and nothing has been destructed twice or not been constructed. -/
theorem C105_scope {s : St Ty V} {a} (h : Run c s a) (x : Nat) : (a x = none ↔ s.vars x = none) ∧ s.vars x ≠ some .dead := by
  obtain ⟨g, R⟩ := run_rel h
  rw [R.abs x, R.vars x]
  cases g (.inl x) <;> simp

/-- What is allocated is owned by one variable that is in scope, and what variables point to is allocated. -/
theorem C106_owned {s : St Ty V} {a} (h : Run c s a) (p : Nat) :
    (s.heap p ≠ none ↔ ∃ x t, s.vars x = some (.live (.rem t (some p)))) ∧
    ∀ x y t u, s.vars x = some (.live (.rem t (some p))) → s.vars y = some (.live (.rem u (some p))) → x = y := by
  obtain ⟨g, R⟩ := run_rel h
  have hv : ∀ x t, s.vars x = some (.live (.rem t (some p))) → ∃ w, g (.inl x) = some (.rem t (some p), w) := by
    intro x t hx
    rw [R.vars x] at hx
    cases hg : g (.inl x) with
    | none => rw [hg] at hx; cases hx
    | some q =>
      obtain ⟨o, w⟩ := q
      rw [hg] at hx
      simp at hx; subst hx
      exact ⟨w, rfl⟩
  refine ⟨⟨?_, ?_⟩, ?_⟩
  · intro hp
    obtain ⟨i, o, w, hi, ho⟩ := R.good.leak p hp
    cases i with
    | inr n => rw [R.temps n] at hi; cases hi
    | inl x =>
      cases o with
      | loc v => cases ho
      | rem t q =>
        simp only [Obj.ptr] at ho; subst ho
        exact ⟨x, t, by rw [R.vars x, hi]; rfl⟩
  · rintro ⟨x, t, hx⟩
    obtain ⟨w, hg⟩ := hv x t hx
    obtain ⟨v, h1, _⟩ := (R.good.holds _ _ _ hg).ptr t p rfl
    rw [h1]; simp
  · intro x y t u hx hy
    obtain ⟨w, hg⟩ := hv x t hx
    obtain ⟨w', hg'⟩ := hv y u hy
    have := R.good.uniq _ _ _ _ _ _ p hg hg' rfl rfl
    cases this; rfl

/-- When all variables are out of scope, nothing is allocated. -/
theorem C106_no_leak {s : St Ty V} {a} (h : Run c s a) (ha : ∀ x, a x = none) (p : Nat) : s.heap p = none := by
  by_contra hp
  obtain ⟨x, t, hx⟩ := (C106_owned h p).1.1 hp
  have := ((C105_scope h x).1).1 (ha x)
  rw [this] at hx; cases hx

/-- A variable that holds a value of a small type owns no memory; one that holds another value owns one block with the value in it. -/
theorem C106_small {s : St Ty V} {a} (h : Run c s a) {x v} (hx : a x = some (.val v)) :
    if c.loc (c.ty v) then s.vars x = some (.live (.loc v))
    else ∃ p, s.vars x = some (.live (.rem (c.ty v) (some p))) ∧ s.heap p = some v := by
  obtain ⟨g, R⟩ := run_rel h
  obtain ⟨o, hg, ho, H⟩ := R.at hx
  have hv := H.val v rfl
  have hs : s.vars x = some (.live o) := by rw [R.vars x, hg]; rfl
  cases o with
  | loc u =>
    cases hv
    rw [if_pos (H.loc v rfl)]; exact hs
  | rem t p =>
    have ht : t = c.ty v := H.type
    have hl := H.rem t p rfl
    rw [ht] at hl
    rw [if_neg (by simp [hl])]
    cases p with
    | none => cases hv
    | some p => exact ⟨p, by rw [hs, ht], hv⟩

end Verif.Any
