import Verif.Json.Generate
/-
Comparison of values by computation, for the examples.
-/
namespace Verif.Json
open Spec

variable {N : Type} [DecidableEq N]

mutual

def eqValue : Value N → Value N → Bool
  | .null, .null => true
  | .bool a, .bool b => a == b
  | .num x, .num y => decide (x = y)
  | .str s, .str t => decide (s = t)
  | .arr vs, .arr us => eqValues vs us
  | .obj ms, .obj ns => eqMembers ms ns
  | _, _ => false

def eqValues : List (Value N) → List (Value N) → Bool
  | [], [] => true
  | v :: vs, u :: us => eqValue v u && eqValues vs us
  | _, _ => false

def eqMembers : List (List Nat × Value N) → List (List Nat × Value N) → Bool
  | [], [] => true
  | (k, v) :: vs, (l, u) :: us => decide (k = l) && (eqValue v u && eqMembers vs us)
  | _, _ => false

end

mutual

theorem eqValue_eq : ∀ (v u : Value N), eqValue v u = true → v = u
  | .null, u, h => by cases u <;> simp_all [eqValue]
  | .bool a, u, h => by cases u <;> simp_all [eqValue]
  | .num x, u, h => by cases u <;> simp_all [eqValue]
  | .str s, u, h => by cases u <;> simp_all [eqValue]
  | .arr vs, u, h => by
    cases u with
    | arr us => rw [eqValue] at h; rw [eqValues_eq vs us h]
    | _ => simp [eqValue] at h
  | .obj ms, u, h => by
    cases u with
    | obj ns => rw [eqValue] at h; rw [eqMembers_eq ms ns h]
    | _ => simp [eqValue] at h

theorem eqValues_eq : ∀ (vs us : List (Value N)), eqValues vs us = true → vs = us
  | [], us, h => by cases us <;> simp_all [eqValues]
  | v :: vs, us, h => by
    cases us with
    | nil => simp [eqValues] at h
    | cons u us =>
      rw [eqValues, Bool.and_eq_true] at h
      rw [eqValue_eq v u h.1, eqValues_eq vs us h.2]

theorem eqMembers_eq : ∀ (vs us : List (List Nat × Value N)), eqMembers vs us = true → vs = us
  | [], us, h => by cases us <;> simp_all [eqMembers]
  | (k, v) :: vs, us, h => by
    cases us with
    | nil => simp [eqMembers] at h
    | cons u us =>
      obtain ⟨l, u⟩ := u
      rw [eqMembers, Bool.and_eq_true, Bool.and_eq_true, decide_eq_true_eq] at h
      rw [h.1, eqValue_eq v u h.2.1, eqMembers_eq vs us h.2.2]

end

def eqRes : Res (Value N) → Res (Value N) → Bool
  | .ok v r, .ok v' r' => eqValue v v' && decide (r = r')
  | .throw, .throw => true
  | .oob, .oob => true
  | .fuel, .fuel => true
  | _, _ => false

theorem eqRes_eq {x y : Res (Value N)} (h : eqRes x y = true) : x = y := by
  cases x <;> cases y <;> simp_all [eqRes]
  exact eqValue_eq _ _ h.1

end Verif.Json
