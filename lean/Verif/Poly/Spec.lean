import Verif.Poly.Model
import Verif.Any.Spec
/-!
Specification of `poly`: variables that hold values (the variables are those of Any/Spec.lean).
-/
namespace Verif.Poly.Spec
open Verif.Any Verif.Any.Spec

variable {Ty V : Type}

/-- The program: the operations of Any/Spec.lean, on `poly`. -/
def step [DecidableEq Ty] (c : Conf Ty V) (s : St Ty V) : Op V → Res Unit (St Ty V)
  | .mk x v e => Poly.mk c s x v e
  | .copy x y e => Poly.copy c s x y e
  | .move x y => Poly.move c s x y
  | .set x y e => Poly.set c s x y e
  | .setMove x y => Poly.setMove c s x y
  | .assign x v e => Poly.assign c s x v e
  | .swap x y => Poly.swap c s x y
  | .write x v => Poly.write c s x v
  | .destroy x => Poly.destroy s x

/-- What an operation means when it does not throw; `none`: it makes no sense.  A variable that has been moved from can be copied, compared or
cast no more; it can be destroyed, moved, swapped and assigned to - but not by `x.assign(v)` with a value of the type that it had. -/
def mean [DecidableEq Ty] (c : Conf Ty V) (a : Vars Ty V) : Op V → Option (Vars Ty V)
  | .mk x v _ => if a x = none then some (upd a x (some (.val v))) else none
  | .copy x y _ => match a x, a y with
    | none, some (.val v) => some (upd a x (some (.val v)))
    | _, _ => none
  | .move x y => match a x, a y with
    | none, some w => some (upd (upd a y (some (.some (w.type c)))) x (some w))
    | _, _ => none
  | .set x y _ => match a x, a y with
    | some _, some (.val v) => some (upd a x (some (.val v)))
    | _, _ => none
  | .setMove x y => match a x, a y with
    | some _, some w => some (upd (upd a y (some (.some (w.type c)))) x (some w))
    | _, _ => none
  | .assign x v _ => match a x with
    | some (.val _) => some (upd a x (some (.val v)))
    | some (.some t) => if t = c.ty v then none else some (upd a x (some (.val v)))
    | none => none
  | .swap x y => match a x, a y with
    | some v, some w => some (upd (upd a x (some w)) y (some v))
    | _, _ => none
  | .write x v => match a x with
    | some (.val w) => if c.ty w = c.ty v then some (upd a x (some (.val v))) else some a
    | _ => none
  | .destroy x => match a x with
    | some _ => some (upd a x none)
    | none => none

/-- All that is asked of the environment of an operation: `new` gives memory which is not in use. -/
def fine (s : St Ty V) : Op V → Prop
  | .mk _ _ e | .copy _ _ e | .set _ _ e | .assign _ _ e => ∀ p, e.alloc = some p → s.heap p = none
  | _ => True

/-- `new`, or a copy or a move on the way to the heap, throws. -/
def Fails (e : Env) : Prop := e.alloc = none ∨ e.copyThrows = true ∨ e.moveThrows = true

/-- The reasons for which an operation may throw. -/
def Reason (c : Conf Ty V) (a : Vars Ty V) : Op V → Prop
  | .mk _ _ e | .copy _ _ e | .set _ _ e | .assign _ _ e => Fails e
  | .write x v => ∃ w, a x = some (.val w) ∧ c.ty w ≠ c.ty v
  | _ => False

/-- A program and what it means.  An operation that throws means nothing. -/
inductive Run [DecidableEq Ty] (c : Conf Ty V) : St Ty V → Vars Ty V → Prop where
  | start : Run c ⟨fun _ => none, fun _ => none⟩ (fun _ => none)
  | ok {s a s' a'} (op : Op V) : Run c s a → fine s op → step c s op = .ok () s' → mean c a op = some a' → Run c s' a'
  | throw {s a s' a'} (op : Op V) : Run c s a → fine s op → step c s op = .throw s' → mean c a op = some a' → Run c s' a

end Verif.Poly.Spec
