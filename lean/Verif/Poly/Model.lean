import Verif.Any.Model
/-!
Model of `adobe::poly_base` / `adobe::poly`: adobe/poly.hpp, with values stored in the object (`poly_state_local`) or on the heap
(`poly_state_remote`).  Objects, the heap and what an environment may do are those of the model of `any_regular_t`, whose code this class shares in
part.

Simplifications, besides those of Any/Model.lean:
* `loc` is `is_small` (adobe/poly.hpp:168-174); constructing by moving a local value does not throw: the move constructor of `poly_state_local` is
  `noexcept` (line 137), so that a move that throws ends the program;
* `Env.copyThrows` stands for any of the copies of the argument on its way into the object (lines 101, 139, 183 and 267): nothing
  has been allocated by then;
* swapping local values (`std::swap` in `exchange`) does not throw;
* conversions between interfaces (`poly_base<J, K>`, `is_dynamic_convertible_*`, `poly_cast`) are not modelled; `assign(const poly_base<J, K>&)`
  names a member that does not exist and cannot be instantiated.
-/
namespace Verif.Poly
open Verif.Any

variable {Ty V : Type}

/-- models: adobe/poly.hpp:101 `::new value_type(std::move(x))`: a `new` expression gives the memory back when the constructor throws. -/
def newValue (h : Heap V) (v : V) (e : Env) : Res Nat (Heap V) :=
  match e.alloc with
  | none => .throw h
  | some p => if e.moveThrows then .throw h else .ok p (upd h p (some v))

/-- models: adobe/poly.hpp:101, 139, 183: the instance of a value in some storage. -/
def construct (c : Conf Ty V) (h : Heap V) (v : V) (e : Env) : Res (Obj Ty V) (Heap V) :=
  if e.copyThrows then .throw h
  else if c.loc (c.ty v) then .ok (.loc v) h
  else
    match newValue h v e with
    | .ok p h => .ok (.rem (c.ty v) (some p)) h
    | .throw h => .throw h
    | .ub => .ub

/-- models: adobe/poly.hpp:186-188 `clone`. -/
def clone (c : Conf Ty V) (h : Heap V) (o : Obj Ty V) (e : Env) : Res (Obj Ty V) (Heap V) :=
  match o.get h with
  | none => .ub
  | some v => construct c h v e

/-- models: adobe/poly.hpp:190-192 `move_clone`, with 97-99, 137 and 184: the new object and what is left of the old one. -/
def moveClone (c : Conf Ty V) : Obj Ty V → Obj Ty V × Obj Ty V
  | .loc v => (.loc v, .loc (c.gone v))
  | .rem t p => (.rem t p, .rem t none)

/-- models: adobe/poly.hpp:103 `~poly_state_remote`; `none`: not defined. -/
def destruct (h : Heap V) : Obj Ty V → Option (Heap V)
  | .loc _ => some h
  | .rem _ none => some h
  | .rem _ (some p) => match h p with
    | none => none
    | some _ => some (upd h p none)

/-- models: adobe/poly.hpp:266-270: `poly<F> x(v)`. -/
def mk (c : Conf Ty V) (s : St Ty V) (x : Nat) (v : V) (e : Env) : Res Unit (St Ty V) :=
  match construct c s.heap v e with
  | .ok o h => .ok () ({ s with heap := h }.put x o)
  | .throw h => .throw { s with heap := h }
  | .ub => .ub

/-- models: adobe/poly.hpp:281: `poly<F> x(y)`. -/
def copy (c : Conf Ty V) (s : St Ty V) (x y : Nat) (e : Env) : Res Unit (St Ty V) :=
  match s.obj y with
  | none => .ub
  | some o => match clone c s.heap o e with
    | .ok n h => .ok () ({ s with heap := h }.put x n)
    | .throw h => .throw { s with heap := h }
    | .ub => .ub

/-- models: adobe/poly.hpp:283: `poly<F> x(std::move(y))`. -/
def move (c : Conf Ty V) (s : St Ty V) (x y : Nat) : Res Unit (St Ty V) :=
  match s.obj y with
  | none => .ub
  | some o =>
    let (n, l) := moveClone c o
    .ok () ((s.put y l).put x n)

/-- models: adobe/poly.hpp:306-310 the body of `operator=`, `a` being the argument, and its end.  `poly::operator=` (419-422) moves its argument to it. -/
def assignBody (c : Conf Ty V) (s : St Ty V) (x : Nat) (a : Obj Ty V) : Res Unit (St Ty V) :=
  match s.obj x with
  | none => .ub
  | some o => match destruct s.heap o with
    | none => .ub
    | some h =>
      let (n, l) := moveClone c a
      match destruct h l with
      | none => .ub
      | some h => .ok () ({ s with heap := h }.put x n)

/-- models: adobe/poly.hpp:306: `x = y`. -/
def set (c : Conf Ty V) (s : St Ty V) (x y : Nat) (e : Env) : Res Unit (St Ty V) :=
  match s.obj y with
  | none => .ub
  | some o => match clone c s.heap o e with
    | .ok a h => assignBody c { s with heap := h } x a
    | .throw h => .throw { s with heap := h }
    | .ub => .ub

/-- models: adobe/poly.hpp:306: `x = std::move(y)`. -/
def setMove (c : Conf Ty V) (s : St Ty V) (x y : Nat) : Res Unit (St Ty V) :=
  match s.obj y with
  | none => .ub
  | some o =>
    let (a, l) := moveClone c o
    assignBody c (s.put y l) x a

/-- models: adobe/poly.hpp:115-117, 151-153 `exchange`, for two objects of the same type. -/
def exchange (o p : Obj Ty V) : Option (Obj Ty V × Obj Ty V) :=
  match o, p with
  | .loc v, .loc w => some (.loc w, .loc v)
  | .rem t a, .rem u b => some (.rem t b, .rem u a)
  | _, _ => none

/-- models: adobe/poly.hpp:285-304 `swap`, on what is in the storage of the two objects. -/
def swapObjs [DecidableEq Ty] (c : Conf Ty V) (h : Heap V) (a b : Obj Ty V) : Option (Heap V × Obj Ty V × Obj Ty V) :=
  if a.type c = b.type c then (exchange a b).map fun p => (h, p.1, p.2)
  else
    -- x->tmp
    let (tmp, a) := moveClone c a
    match destruct h a with
    | none => none
    | some h =>
      -- y->x
      let (a, b) := moveClone c b
      match destruct h b with
      | none => none
      | some h =>
        -- tmp->y
        let (b, tmp) := moveClone c tmp
        match destruct h tmp with
        | none => none
        | some h => some (h, a, b)

/-- models: adobe/poly.hpp:285-304: `swap(x, y)`. -/
def swap [DecidableEq Ty] (c : Conf Ty V) (s : St Ty V) (x y : Nat) : Res Unit (St Ty V) :=
  match s.obj x, s.obj y with
  | some a, some b =>
    match swapObjs c s.heap a b with
    | none => .ub
    | some (h, a, b) => .ok () (({ s with heap := h }.put x a).put y b)
  | _, _ => .ub

/-- models: adobe/poly.hpp:327-332: `x.cast<T>()`; `throw`: `bad_cast`. -/
def cast [DecidableEq Ty] (c : Conf Ty V) (s : St Ty V) (x : Nat) (t : Ty) : Res V Unit :=
  match s.obj x with
  | none => .ub
  | some o => if o.type c ≠ t then .throw () else match o.get s.heap with
    | none => .ub
    | some v => .ok v ()

/-- `o` is assigned to in place: `cast<T>() = v`. models: adobe/poly.hpp:338, 352. -/
def writeObj (s : St Ty V) (x : Nat) (o : Obj Ty V) (v : V) : Res Unit (St Ty V) :=
  match o with
  | .loc _ => .ok () (s.put x (.loc v))
  | .rem _ none => .ub
  | .rem _ (some p) => match s.heap p with
    | none => .ub
    | some _ => .ok () { s with heap := upd s.heap p (some v) }

/-- models: adobe/poly.hpp:334-339: `x.cast<T>() = v`. -/
def write [DecidableEq Ty] (c : Conf Ty V) (s : St Ty V) (x : Nat) (v : V) : Res Unit (St Ty V) :=
  match s.obj x with
  | none => .ub
  | some o => if o.type c ≠ c.ty v then .throw s else writeObj s x o v

/-- models: adobe/poly.hpp:349-358: `x.assign(v)`.  When the assignment of values of the type throws, it is taken to have changed nothing. -/
def assign [DecidableEq Ty] (c : Conf Ty V) (s : St Ty V) (x : Nat) (v : V) (e : Env) : Res Unit (St Ty V) :=
  match s.obj x with
  | none => .ub
  | some o =>
    if o.type c = c.ty v then
      match writeObj s x o v with
      | .ok () s' => if e.copyThrows then .throw s else .ok () s'
      | r => r
    else
      match construct c s.heap v e with
      | .throw h => .throw { s with heap := h }
      | .ub => .ub
      | .ok tmp h =>
        match swapObjs c h o tmp with
        | none => .ub
        | some (h, o, tmp) =>
          match destruct h tmp with
          | none => .ub
          | some h => .ok () ({ s with heap := h }.put x o)

/-- models: adobe/poly.hpp:311 the end of the scope of `x`. -/
def destroy (s : St Ty V) (x : Nat) : Res Unit (St Ty V) :=
  match s.obj x with
  | none => .ub
  | some o => match destruct s.heap o with
    | none => .ub
    | some h => .ok () { heap := h, vars := upd s.vars x none }

/-- models: adobe/poly_regular.hpp:69-72 `equals`, with adobe/poly.hpp:386-390: `x == y`. -/
def equals [DecidableEq Ty] (c : Conf Ty V) (s : St Ty V) (x y : Nat) : Res Bool Unit :=
  match s.obj x, s.obj y with
  | some a, some b =>
    if a.type c = b.type c then
      match a.get s.heap, b.get s.heap with
      | some v, some w => .ok (c.eqv v w) ()
      | _, _ => .ub
    else .ok false ()
  | _, _ => .ub

/-- models: adobe/poly.hpp:325 `x.type_info()`. -/
def typeInfo (c : Conf Ty V) (s : St Ty V) (x : Nat) : Option Ty := (s.obj x).map (Obj.type c)

end Verif.Poly
