import Verif.Any.Model
/-!
Specification of `any_regular_t`: variables that hold values.
-/
namespace Verif.Any.Spec
open Verif.Any

variable {Ty V : Type}

/-- What a variable holds: a value, or (after having been moved from) some value of a type. -/
inductive Val (Ty V : Type) where
  | val (v : V)
  | some (t : Ty)

def Val.type (c : Conf Ty V) : Val Ty V → Ty
  | .val v => c.ty v
  | .some t => t

/-- The variables in scope. -/
abbrev Vars (Ty V : Type) := Nat → Option (Val Ty V)

/-- The operations. -/
inductive Op (V : Type) where
  /-- `any_regular_t x(v);` -/
  | mk (x : Nat) (v : V) (e : Env)
  /-- `any_regular_t x(y);` -/
  | copy (x y : Nat) (e : Env)
  /-- `any_regular_t x(std::move(y));` -/
  | move (x y : Nat)
  /-- `x = y;` -/
  | set (x y : Nat) (e : Env)
  /-- `x = std::move(y);` -/
  | setMove (x y : Nat)
  /-- `x.assign(v);` -/
  | assign (x : Nat) (v : V) (e : Env)
  /-- `swap(x, y);` -/
  | swap (x y : Nat)
  /-- `x.cast<T>() = v;` -/
  | write (x : Nat) (v : V)
  /-- The end of the scope of `x`. -/
  | destroy (x : Nat)

/-- The program. -/
def step [DecidableEq Ty] (c : Conf Ty V) (s : St Ty V) : Op V → Res Unit (St Ty V)
  | .mk x v e => Any.mk c s x v e
  | .copy x y e => Any.copy c s x y e
  | .move x y => Any.move c s x y
  | .set x y e => Any.set c s x y e
  | .setMove x y => Any.setMove c s x y
  | .assign x v e => Any.assign c s x v e
  | .swap x y => Any.swap c s x y
  | .write x v => Any.write c s x v
  | .destroy x => Any.destroy s x

/-- What an operation means when it does not throw; `none`: it makes no sense. -/
def mean (c : Conf Ty V) [DecidableEq Ty] (a : Vars Ty V) : Op V → Option (Vars Ty V)
  | .mk x v _ => if a x = none then some (upd a x (some (.val v))) else none
  | .copy x y _ => match a x, a y with
    | none, some (.val v) => some (upd a x (some (.val v)))
    | _, _ => none
  | .move x y => match a x, a y with
    | none, some w => some (upd (upd a y (some (.some (w.type c)))) x (some w))
    | _, _ => none
  | .set x y _ => match a x, a y with
    | some _, some (.val v) => some (upd a x (some (.val v)))
    | _, _ => none
  | .setMove x y => match a x, a y with
    | some _, some w => some (upd (upd a y (some (.some (w.type c)))) x (some w))
    | _, _ => none
  | .assign x v _ => match a x with
    | some _ => some (upd a x (some (.val v)))
    | none => none
  | .swap x y => match a x, a y with
    | some v, some w => some (upd (upd a x (some w)) y (some v))
    | _, _ => none
  | .write x v => match a x with
    | some (.val w) => if c.ty w = c.ty v then some (upd a x (some (.val v))) else some a
    | _ => none
  | .destroy x => match a x with
    | some _ => some (upd a x none)
    | none => none

/-- What the environment of an operation may do: the allocator gives memory which is not in use (`x.assign(v)` gives the old memory
of `x` back first), moving a value to the heap does not throw. -/
def Op.fine (s : St Ty V) : Op V → Prop
  | .mk _ _ e | .copy _ _ e | .set _ _ e => (∀ p, e.alloc = some p → s.heap p = none) ∧ e.moveThrows = false
  | .assign x _ e => (∀ p, e.alloc = some p → s.heap p = none ∨ ∃ t, s.obj x = some (.rem t (some p))) ∧ e.moveThrows = false
  | _ => True

/-- `x.assign(v)` does not throw. -/
def Op.calm (c : Conf Ty V) : Op V → Prop
  | .assign _ v e => c.loc (c.ty v) = true ∨ e.alloc ≠ none
  | _ => True

/-- A program and what it means.  An operation that throws means nothing. -/
inductive Run [DecidableEq Ty] (c : Conf Ty V) : St Ty V → Vars Ty V → Prop where
  | start : Run c ⟨fun _ => none, fun _ => none⟩ (fun _ => none)
  | ok {s a s' a'} (op : Op V) : Run c s a → op.fine s → op.calm c →
      step c s op = .ok () s' → mean c a op = some a' → Run c s' a'
  | throw {s a s' a'} (op : Op V) : Run c s a → op.fine s → op.calm c →
      step c s op = .throw s' → mean c a op = some a' → Run c s' a

end Verif.Any.Spec
