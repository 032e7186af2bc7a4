/-!
Model of `adobe::any_regular_t`: adobe/any_regular.hpp, with values stored in the object (`any_regular_model_local`) or on the heap
(`any_regular_model_remote`), over a heap with addresses.

Simplifications:
* the values of all types are one type `V`; `Conf.ty` gives the type of a value, already promoted (adobe/conversion.hpp:20-35; see
  Any/Promote.lean for the numbers);
* `aligned_storage<allocator_type>` and the captured allocator are one pair of functions, allocate and deallocate;
* the vtable, with its version, is the type and whether the value is local;
* constructing by moving does not throw for local values (that is what makes them local, adobe/any_regular.hpp:441-444; a type with a
  copy constructor that does not throw and a move constructor that does is not looked at);
* the variables are numbered; a variable is in scope or it is not.
-/
namespace Verif.Any

/-- What there is to know about the types. -/
structure Conf (Ty V : Type) where
  /-- `typeid` of the promoted type of a value -/
  ty : V → Ty
  /-- models: adobe/any_regular.hpp:441-444 `use_local_type` -/
  loc : Ty → Bool
  /-- what is left of a value that has been moved from -/
  gone : V → V
  gone_ty : ∀ v, ty (gone v) = ty v
  /-- `==` of the type -/
  eqv : V → V → Bool
  /-- `empty_t()` -/
  empty : V

variable {Ty V : Type}

/-- models: adobe/any_regular.hpp:208, 314: what is in the storage of an object: the value, or a pointer to it on the heap. -/
inductive Obj (Ty V : Type) where
  | loc (v : V)
  | rem (t : Ty) (p : Option Nat)

/-- An object in scope: it may have been destructed without having been constructed again. -/
inductive Slot (Ty V : Type) where
  | live (o : Obj Ty V)
  | dead

/-- The heap: the addresses that are allocated, with what they hold. -/
abbrev Heap (V : Type) := Nat → Option V

def upd {α} (f : Nat → Option α) (p : Nat) (x : Option α) : Nat → Option α := fun a => if a = p then x else f a

structure St (Ty V : Type) where
  heap : Heap V
  vars : Nat → Option (Slot Ty V)

/-- What the environment does in a call: the address that the allocator gives (`none`: it throws), whether copying the value throws,
whether moving it to the heap throws. -/
structure Env where
  alloc : Option Nat
  copyThrows : Bool
  moveThrows : Bool

inductive Res (α β : Type) where
  | ok (x : α) (s : β)
  | throw (s : β)
  | ub

/-- models: adobe/any_regular.hpp:305-311 `new_move`.  When moving the value throws, what has been allocated stays so. -/
def newMove (h : Heap V) (v : V) (e : Env) : Res Nat (Heap V) :=
  match e.alloc with
  | none => .throw h
  | some p => if e.moveThrows then .throw (upd h p (some v)) else .ok p (upd h p (some v))

/-- models: adobe/any_regular.hpp:214, 318, 534-536: constructing the model of a value in some storage. -/
def construct (c : Conf Ty V) (h : Heap V) (v : V) (e : Env) : Res (Obj Ty V) (Heap V) :=
  if c.loc (c.ty v) then .ok (.loc v) h
  else
    match newMove h v e with
    | .ok p h => .ok (.rem (c.ty v) (some p)) h
    | .throw h => .throw h
    | .ub => .ub

/-- models: adobe/any_regular.hpp:226, 346 `type_info`. -/
def Obj.type (c : Conf Ty V) : Obj Ty V → Ty
  | .loc v => c.ty v
  | .rem t _ => t

/-- models: adobe/any_regular.hpp:254-255, 376-377 `get`; `none`: not defined. -/
def Obj.get (h : Heap V) : Obj Ty V → Option V
  | .loc v => some v
  | .rem _ none => none
  | .rem _ (some p) => h p

/-- models: adobe/any_regular.hpp:230-232, 350-352 `clone`. -/
def clone (c : Conf Ty V) (h : Heap V) (o : Obj Ty V) (e : Env) : Res (Obj Ty V) (Heap V) :=
  match o.get h with
  | none => .ub
  | some v => if e.copyThrows then .throw h else construct c h v e

/-- models: adobe/any_regular.hpp:234-236, 354-356 `move_clone`: the new object and what is left of the old one. -/
def moveClone (c : Conf Ty V) : Obj Ty V → Obj Ty V × Obj Ty V
  | .loc v => (.loc v, .loc (c.gone v))
  | .rem t p => (.rem t p, .rem t none)

/-- models: adobe/any_regular.hpp:228, 325-332, 348 `destruct`; `none`: not defined. -/
def destruct (h : Heap V) : Obj Ty V → Option (Heap V)
  | .loc _ => some h
  | .rem _ none => some h
  | .rem _ (some p) => match h p with
    | none => none
    | some _ => some (upd h p none)

/-- The object in a variable that is alive. -/
def St.obj (s : St Ty V) (x : Nat) : Option (Obj Ty V) :=
  match s.vars x with
  | some (.live o) => some o
  | _ => none

def St.put (s : St Ty V) (x : Nat) (o : Obj Ty V) : St Ty V := { s with vars := upd s.vars x (some (.live o)) }

/-- models: adobe/any_regular.hpp:472 and 504-507: `any_regular_t x(v)`, also with `empty_t` for `any_regular_t x`. -/
def mk (c : Conf Ty V) (s : St Ty V) (x : Nat) (v : V) (e : Env) : Res Unit (St Ty V) :=
  match construct c s.heap v e with
  | .ok o h => .ok () ({ s with heap := h }.put x o)
  | .throw h => .throw { s with heap := h }
  | .ub => .ub

/-- models: adobe/any_regular.hpp:474 `any_regular_t x(y)`. -/
def copy (c : Conf Ty V) (s : St Ty V) (x y : Nat) (e : Env) : Res Unit (St Ty V) :=
  match s.obj y with
  | none => .ub
  | some o => match clone c s.heap o e with
    | .ok n h => .ok () ({ s with heap := h }.put x n)
    | .throw h => .throw { s with heap := h }
    | .ub => .ub

/-- models: adobe/any_regular.hpp:476 `any_regular_t x(std::move(y))`. -/
def move (c : Conf Ty V) (s : St Ty V) (x y : Nat) : Res Unit (St Ty V) :=
  match s.obj y with
  | none => .ub
  | some o =>
    let (n, l) := moveClone c o
    .ok () ((s.put y l).put x n)

/-- models: adobe/any_regular.hpp:478-482, and 585-589 `assign(any_regular_t)`: the body of `operator=`, `a` being the argument; the
argument is destructed by the caller. -/
def assignBody (c : Conf Ty V) (s : St Ty V) (x : Nat) (a : Obj Ty V) : Res Unit (St Ty V) :=
  match s.obj x with
  | none => .ub
  | some o => match destruct s.heap o with
    | none => .ub
    | some h =>
      let (n, l) := moveClone c a
      match destruct h l with
      | none => .ub
      | some h => .ok () ({ s with heap := h }.put x n)

/-- models: adobe/any_regular.hpp:478: `x = y`. -/
def set (c : Conf Ty V) (s : St Ty V) (x y : Nat) (e : Env) : Res Unit (St Ty V) :=
  match s.obj y with
  | none => .ub
  | some o => match clone c s.heap o e with
    | .ok a h => assignBody c { s with heap := h } x a
    | .throw h => .throw { s with heap := h }
    | .ub => .ub

/-- models: adobe/any_regular.hpp:478: `x = std::move(y)`. -/
def setMove (c : Conf Ty V) (s : St Ty V) (x y : Nat) : Res Unit (St Ty V) :=
  match s.obj y with
  | none => .ub
  | some o =>
    let (a, l) := moveClone c o
    assignBody c (s.put y l) x a

/-- models: adobe/any_regular.hpp:578-583 `x.assign(v)`. -/
def assign (c : Conf Ty V) (s : St Ty V) (x : Nat) (v : V) (e : Env) : Res Unit (St Ty V) :=
  match s.obj x with
  | none => .ub
  | some o => match destruct s.heap o with
    | none => .ub
    | some h =>
      match construct c h v e with
      | .ok n h => .ok () ({ s with heap := h }.put x n)
      | .throw h => .throw { heap := h, vars := upd s.vars x (some .dead) }
      | .ub => .ub

/-- models: adobe/any_regular.hpp:246-248, 367-369 `exchange`, for two different objects. -/
def exchange (o p : Obj Ty V) : Option (Obj Ty V × Obj Ty V) :=
  match o, p with
  | .loc v, .loc w => some (.loc w, .loc v)
  | .rem t a, .rem u b => some (.rem t b, .rem u a)
  | _, _ => none

/-- models: adobe/any_regular.hpp:684-706 `swap`. -/
def swap [DecidableEq Ty] (c : Conf Ty V) (s : St Ty V) (x y : Nat) : Res Unit (St Ty V) :=
  match s.obj x, s.obj y with
  | some a, some b =>
    if a.type c = b.type c then
      match exchange a b with
      | none => .ub
      | some (a, b) => .ok () ((s.put x a).put y b)
    else
      -- x->tmp
      let (tmp, a) := moveClone c a
      match destruct s.heap a with
      | none => .ub
      | some h =>
        -- y->x
        let (a, b) := moveClone c b
        match destruct h b with
        | none => .ub
        | some h =>
          -- tmp->y
          let (b, tmp) := moveClone c tmp
          match destruct h tmp with
          | none => .ub
          | some h => .ok () (({ s with heap := h }.put x a).put y b)
  | _, _ => .ub

/-- models: adobe/any_regular.hpp:484 the end of the scope of `x`. -/
def destroy (s : St Ty V) (x : Nat) : Res Unit (St Ty V) :=
  match s.obj x with
  | none => .ub
  | some o => match destruct s.heap o with
    | none => .ub
    | some h => .ok () { heap := h, vars := upd s.vars x none }

/-- models: adobe/any_regular.hpp:731-740, 742-749: `x.cast<T>()`; `throw`: `bad_cast`. -/
def cast [DecidableEq Ty] (c : Conf Ty V) (s : St Ty V) (x : Nat) (t : Ty) : Res V Unit :=
  match s.obj x with
  | none => .ub
  | some o => if o.type c ≠ t then .throw () else match o.get s.heap with
    | none => .ub
    | some v => .ok v ()

/-- models: adobe/any_regular.hpp:742-749: `x.cast<T>() = v`. -/
def write [DecidableEq Ty] (c : Conf Ty V) (s : St Ty V) (x : Nat) (v : V) : Res Unit (St Ty V) :=
  match s.obj x with
  | none => .ub
  | some o => if o.type c ≠ c.ty v then .throw s else match o with
    | .loc _ => .ok () (s.put x (.loc v))
    | .rem _ none => .ub
    | .rem _ (some p) => match s.heap p with
      | none => .ub
      | some _ => .ok () { s with heap := upd s.heap p (some v) }

/-- models: adobe/any_regular.hpp:603 and 680-682: `x == y`. -/
def equals [DecidableEq Ty] (c : Conf Ty V) (s : St Ty V) (x y : Nat) : Res Bool Unit :=
  match s.obj x, s.obj y with
  | some a, some b =>
    if a.type c = b.type c then
      match a.get s.heap, b.get s.heap with
      | some v, some w => .ok (c.eqv v w) ()
      | _, _ => .ub
    else .ok false ()
  | _, _ => .ub

/-- models: adobe/any_regular.hpp:599 `x.type_info()`. -/
def typeInfo (c : Conf Ty V) (s : St Ty V) (x : Nat) : Option Ty := (s.obj x).map (Obj.type c)

end Verif.Any
