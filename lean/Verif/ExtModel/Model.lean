/-!
Model of adobe/external_model.hpp and source/external_model.cpp.

Simplifications:
* names are their characters (`index_m` compares the characters);
* a monitor is a number, and a call of it is recorded with the value; monitors do not call the model and do not throw;
* a connection is the number of the successful `monitor` that made it; `disconnect` is `connection_t::disconnect`.
-/
namespace Verif.ExtModel

abbrev Name := List Char
abbrev Mon := Nat
abbrev Val := Nat
abbrev Conn := Nat

/-- models: adobe/external_model.hpp:53-61 `cell_t`; `monitors`: the slots of the signal; `model`: the `std::function`, `none` if empty. -/
structure Cell where
  monitors : List (Conn × Mon)
  model : Option Mon

/-- models: adobe/external_model.hpp:63-68: `index_m`, the pointers of which are indices of `cells` (`cell_set_m`). -/
structure St where
  index : List (Name × Nat)
  cells : List Cell
  next : Conn

def St.new : St := ⟨[], [], 0⟩

inductive Op where
  | addCell (n : Name)
  | count (n : Name)
  | monitor (n : Name) (m : Mon)
  | set (n : Name) (v : Val)
  | modelMonitor (n : Name) (m : Option Mon)
  | modelSet (n : Name) (v : Val)
  | disconnect (c : Conn)

/-- What the caller and the monitors see. -/
inductive Out where
  | done
  | num (k : Nat)
  | conn (c : Conn)
  | called (l : List (Mon × Val))
  | logicError
  | badCall
  | ub
deriving DecidableEq

/-- models: source/external_model.cpp:63-72 `lookup`: the pointer. -/
def St.find (s : St) (n : Name) : Option Nat := s.index.lookup n

/-- A lookup, and something with the cell that the pointer points to. -/
def St.withCell (s : St) (n : Name) (k : Nat → Cell → St × Out) : St × Out :=
  match s.find n with
  | none => (s, .logicError)
  | some i => match s.cells[i]? with
    | none => (s, .ub)
    | some c => k i c

/-- models: source/external_model.cpp:24-60 -/
def step (s : St) : Op → St × Out
  | .addCell n =>
    -- `push_back`, `back`; `insert` does not change an entry
    let s := { s with cells := s.cells ++ [Cell.mk [] none] }
    match s.find n with
    | none => ({ s with index := s.index ++ [(n, s.cells.length - 1)] }, .done)
    | some _ => (s, .done)
  | .count n => (s, .num (match s.find n with | none => 0 | some _ => 1))
  | .monitor n m => s.withCell n fun i c =>
    ({ s with cells := s.cells.set i { c with monitors := c.monitors ++ [(s.next, m)] }, next := s.next + 1 }, .conn s.next)
  | .set n v => s.withCell n fun _ c =>
    match c.model with
    | none => (s, .badCall)
    | some m => (s, .called [(m, v)])
  | .modelMonitor n m => s.withCell n fun i c => ({ s with cells := s.cells.set i { c with model := m } }, .done)
  | .modelSet n v => s.withCell n fun _ c => (s, .called (c.monitors.map fun x => (x.2, v)))
  | .disconnect d => ({ s with cells := s.cells.map fun c => { c with monitors := c.monitors.filter (·.1 ≠ d) } }, .done)

/-- A history of calls, and what is seen. -/
def run (s : St) : List Op → St × List Out
  | [] => (s, [])
  | o :: os =>
    let r := step s o
    let t := run r.1 os
    (t.1, r.2 :: t.2)

end Verif.ExtModel
