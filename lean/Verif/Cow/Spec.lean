import Mathlib.Data.List.Basic
/-
What a client of `copy_on_write` may rely on: every handle is a plain variable of its own.
-/
namespace Verif.Cow.Spec

variable {V : Type}

/-- a variable: not existing, moved from, or holding a value -/
abbrev Vars (V : Type) := Nat → Option (Option V)

/-- what a client sees an operation do -/
inductive Ev (V : Type) where
  | construct (h : Nat) (v : V)
  | dflt (h : Nat)
  | copy (dst src : Nat)
  | move (dst src : Nat)
  | swap (a b : Nat)
  | destroy (h : Nat)
  | set (h : Nat) (v : V)
  | read (h : Nat) (v : V)
  | equal (a b : Nat) (r : Bool)
  | less (a b : Nat) (r : Bool)

def put {β : Type} (f : Nat → β) (a : Nat) (b : β) : Nat → β := fun x => if x = a then b else f x

/-- equality of variables; moved from variables are equal to each other only -/
def eqv (eq : V → V → Bool) : Option V → Option V → Bool
  | none, none => true
  | some a, some b => eq a b
  | _, _ => false

/-- order of variables: a moved from variable is less than all others -/
def ltv (lt : V → V → Bool) : Option V → Option V → Bool
  | _, none => false
  | none, some _ => true
  | some a, some b => lt a b

/-- the effect of an operation on plain variables of type `V`, `v0` being `V()`; `none`: plain variables would not have done
    that -/
def step [DecidableEq V] (eq lt : V → V → Bool) (v0 : V) (σ : Vars V) : Ev V → Option (Vars V)
  | .construct h v => if σ h = none then some (put σ h (some (some v))) else none
  | .dflt h => if σ h = none then some (put σ h (some (some v0))) else none
  | .copy d s => match σ d, σ s with
    | none, some x => some (put σ d (some x))
    | _, _ => none
  | .move d s => match σ d, σ s with
    | none, some x => some (put (put σ s (some none)) d (some x))
    | _, _ => none
  | .swap a b => match σ a, σ b with
    | some x, some y => some (put (put σ a (some y)) b (some x))
    | _, _ => none
  | .destroy h => match σ h with
    | some _ => some (put σ h none)
    | none => none
  | .set h v => match σ h with
    | some _ => some (put σ h (some (some v)))
    | none => none
  | .read h v => match σ h with
    | some (some x) => if x = v then some σ else none
    | _ => none
  | .equal a b r => match σ a, σ b with
    | some x, some y => if eqv eq x y = r then some σ else none
    | _, _ => none
  | .less a b r => match σ a, σ b with
    | some x, some y => if ltv lt x y = r then some σ else none
    | _, _ => none

def run [DecidableEq V] (eq lt : V → V → Bool) (v0 : V) (σ : Vars V) : List (Ev V) → Option (Vars V)
  | [] => some σ
  | e :: es => match step eq lt v0 σ e with
    | none => none
    | some σ => run eq lt v0 σ es

end Verif.Cow.Spec
