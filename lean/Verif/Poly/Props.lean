import Verif.Poly.Sim
/-!
C118: `poly` holds values.
-/
namespace Verif.Poly
open Verif.Any Verif.Any.Spec

variable {Ty V : Type} {c : Conf Ty V} [DecidableEq Ty]

/-- Every operation that makes sense is defined and does what it means, or it throws because `new`, a copy or a move did (or for the wrong type),
and then nothing has changed: no variable, no memory. -/
theorem C118_total {s : St Ty V} {a a'} (h : Spec.Run c s a) (op : Op V) (hf : Spec.fine s op) (hm : Spec.mean c a op = some a') :
    (∃ s', Spec.step c s op = .ok () s' ∧ Spec.Run c s' a') ∨ (Spec.Reason c a op ∧ Spec.step c s op = .throw s) := by
  obtain ⟨g, R⟩ := run_rel h
  rcases sim_step R op hf hm with ⟨s', g', h1, _⟩ | h1
  · exact .inl ⟨s', h1, .ok op h hf h1 hm⟩
  · exact .inr h1

/-- A variable gives the value that it holds, and its type; for another type, `cast` throws. -/
theorem C118_cast {s : St Ty V} {a} (h : Spec.Run c s a) {x v} (hx : a x = some (.val v)) :
    typeInfo c s x = some (c.ty v) ∧ cast c s x (c.ty v) = .ok v () ∧ ∀ t, t ≠ c.ty v → cast c s x t = .throw () := by
  obtain ⟨g, R⟩ := run_rel h
  obtain ⟨o, _, ho, H⟩ := R.at hx
  have ht : o.type c = c.ty v := H.type
  refine ⟨by simp [typeInfo, ho, ht], ?_, ?_⟩
  · simp [cast, ho, ht, H.val v rfl]
  · intro t hne
    have : c.ty v ≠ t := fun hh => hne hh.symm
    simp [cast, ho, ht, this]

/-- Comparing two variables is comparing the types and then the values. -/
theorem C118_equals {s : St Ty V} {a} (h : Spec.Run c s a) {x y v w} (hx : a x = some (.val v)) (hy : a y = some (.val w)) :
    equals c s x y = .ok (decide (c.ty v = c.ty w) && c.eqv v w) () := by
  obtain ⟨g, R⟩ := run_rel h
  obtain ⟨o, _, ho, H⟩ := R.at hx
  obtain ⟨p, _, hp, H'⟩ := R.at hy
  have ht : o.type c = c.ty v := H.type
  have ht' : p.type c = c.ty w := H'.type
  by_cases hvw : c.ty v = c.ty w
  · simp [equals, ho, hp, ht, ht', hvw, H.val v rfl, H'.val w rfl]
  · simp [equals, ho, hp, ht, ht', hvw]

/-- A variable that has been moved from has kept its type. -/
theorem C118_moved {s : St Ty V} {a} (h : Spec.Run c s a) {x t} (hx : a x = some (.some t)) : typeInfo c s x = some t := by
  obtain ⟨g, R⟩ := run_rel h
  obtain ⟨o, _, ho, H⟩ := R.at hx
  have ht : o.type c = t := H.type
  simp [typeInfo, ho, ht]

/-- What is in scope is what should be. -/
theorem C118_scope {s : St Ty V} {a} (h : Spec.Run c s a) (x : Nat) : (a x = none ↔ s.vars x = none) ∧ s.vars x ≠ some .dead := by
  obtain ⟨g, R⟩ := run_rel h
  rw [R.abs x, R.vars x]
  cases g (.inl x) <;> simp

/-- What is allocated is owned by one variable that is in scope, and what variables point to is allocated. -/
theorem C118_owned {s : St Ty V} {a} (h : Spec.Run c s a) (p : Nat) :
    (s.heap p ≠ none ↔ ∃ x t, s.vars x = some (.live (.rem t (some p)))) ∧
    ∀ x y t u, s.vars x = some (.live (.rem t (some p))) → s.vars y = some (.live (.rem u (some p))) → x = y := by
  obtain ⟨g, R⟩ := run_rel h
  have hv : ∀ x t, s.vars x = some (.live (.rem t (some p))) → ∃ w, g (.inl x) = some (.rem t (some p), w) := by
    intro x t hx
    rw [R.vars x] at hx
    cases hg : g (.inl x) with
    | none => rw [hg] at hx; cases hx
    | some q =>
      obtain ⟨o, w⟩ := q
      rw [hg] at hx
      simp at hx; subst hx
      exact ⟨w, rfl⟩
  refine ⟨⟨?_, ?_⟩, ?_⟩
  · intro hp
    obtain ⟨i, o, w, hi, ho⟩ := R.good.leak p hp
    cases i with
    | inr n => rw [R.temps n] at hi; cases hi
    | inl x =>
      cases o with
      | loc v => cases ho
      | rem t q =>
        simp only [Obj.ptr] at ho; subst ho
        exact ⟨x, t, by rw [R.vars x, hi]; rfl⟩
  · rintro ⟨x, t, hx⟩
    obtain ⟨w, hg⟩ := hv x t hx
    obtain ⟨v, h1, _⟩ := (R.good.holds _ _ _ hg).ptr t p rfl
    rw [h1]; simp
  · intro x y t u hx hy
    obtain ⟨w, hg⟩ := hv x t hx
    obtain ⟨w', hg'⟩ := hv y u hy
    have := R.good.uniq _ _ _ _ _ _ p hg hg' rfl rfl
    cases this; rfl

/-- When all variables are out of scope, nothing is allocated, whatever has thrown. -/
theorem C118_no_leak {s : St Ty V} {a} (h : Spec.Run c s a) (ha : ∀ x, a x = none) (p : Nat) : s.heap p = none := by
  by_contra hp
  obtain ⟨x, t, hx⟩ := (C118_owned h p).1.1 hp
  have := ((C118_scope h x).1).1 (ha x)
  rw [this] at hx; cases hx

/-- A variable that holds a value of a small type owns no memory; one that holds another value owns one block with the value in it. -/
theorem C118_small {s : St Ty V} {a} (h : Spec.Run c s a) {x v} (hx : a x = some (.val v)) :
    if c.loc (c.ty v) then s.vars x = some (.live (.loc v))
    else ∃ p, s.vars x = some (.live (.rem (c.ty v) (some p))) ∧ s.heap p = some v := by
  obtain ⟨g, R⟩ := run_rel h
  obtain ⟨o, hg, ho, H⟩ := R.at hx
  have hv := H.val v rfl
  have hs : s.vars x = some (.live o) := by rw [R.vars x, hg]; rfl
  cases o with
  | loc u =>
    cases hv
    rw [if_pos (H.loc v rfl)]; exact hs
  | rem t p =>
    have ht : t = c.ty v := H.type
    have hl := H.rem t p rfl
    rw [ht] at hl
    rw [if_neg (by simp [hl])]
    cases p with
    | none => cases hv
    | some p => exact ⟨p, by rw [hs, ht], hv⟩

/-- The moved-from state is not one that `assign` accepts: whenever `y` holds a value on the heap, after `poly x(std::move(y))` the assignment
`y.assign(v)` of a value of the type that `y` had is not defined; neither is copying or comparing `y`. -/
theorem C118_moved_violated {s : St Ty V} {a} (h : Spec.Run c s a) {x y w v} (hx : a x = none) (hy : a y = some (.val w))
    (hl : c.loc (c.ty w) = false) (hv : c.ty v = c.ty w) (e : Env) :
    ∃ s', Spec.step c s (.move x y) = .ok () s' ∧ Spec.Run c s' (upd (upd a y (some (.some (c.ty w)))) x (some (.val w))) ∧
      assign c s' y v e = .ub ∧ (∀ z, copy c s' z y e = .ub) ∧ equals c s' y y = .ub ∧ cast c s' y (c.ty w) = .ub := by
  have hm : Spec.mean c a (.move x y) = some (upd (upd a y (some (.some (c.ty w)))) x (some (.val w))) := by
    simp [Spec.mean, hx, hy, Val.type]
  have hxy : y ≠ x := by rintro rfl; rw [hx] at hy; cases hy
  have hsm := C118_small h hy
  rw [if_neg (by simp [hl])] at hsm
  obtain ⟨p, hp, _⟩ := hsm
  have ho : s.obj y = some (.rem (c.ty w) (some p)) := by simp [St.obj, hp]
  rcases C118_total h (.move x y) trivial hm with ⟨s', h1, R⟩ | ⟨h1, _⟩
  · refine ⟨s', h1, R, ?_⟩
    simp only [Spec.step, move, ho, moveClone] at h1
    cases h1
    have ho' : ((s.put y (.rem (c.ty w) none)).put x (.rem (c.ty w) (some p))).obj y = some (.rem (c.ty w) none) := by
      simp [St.obj, St.put, upd, hxy]
    refine ⟨?_, ?_, ?_, ?_⟩
    · simp [assign, ho', Obj.type, hv, writeObj]
    · intro z; simp [copy, ho', clone, Obj.get]
    · simp [equals, ho', Obj.type, Obj.get]
    · simp [cast, ho', Obj.type, Obj.get]
  · exact h1.elim

end Verif.Poly
